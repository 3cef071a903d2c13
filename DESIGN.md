# Formal model of brack — design

Lean 4.33.0 project in `lean/`. The source under `/repo` (Rust, pinned) is read as text only.

## Layout

| directory | content |
|---|---|
| `lean/Verif/Model/` | the model, function by function, every definition citing file and lines of `/repo` |
| `lean/Verif/Spec/` | small specifications, written from the English properties, not using helpers of the proofs |
| `lean/Verif/Proof/` | helper lemmas |
| `lean/Verif/Props/` | the property theorems (`C01_…`), each with an `example` showing its hypotheses are met by a concrete case |
| `MANIFEST.json` | property → theorems |
| `seeded/LOG.jsonl` | deliberate bugs tried against the theorems |

## Trusted base

* Lean's kernel; the axioms `propext`, `Classical.choice`, `Quot.sound` (printed per theorem by `#print axioms`; no others, no `sorry`, no `native_decide`, no `bv_decide`).
* That the hand-written model says what the Rust code does (citations in the comments), under these conventions:
  * a `String` is a `List Char` (Unicode scalar values); `usize`/`u32` positions are `Nat` unless a theorem is about overflow; `i32` counters are `Int` with a theorem bounding them;
  * `Result` is `Res.ok`/`Res.err`, every panicking path (index out of bounds, explicit `panic!`, arithmetic overflow in debug builds) is `Res.panic`;
  * recursion in Rust is assumed not to exhaust the stack (how deeply the tokenizer's calls nest is modelled in `Model/Resources.lean` and is what C90 is about; the limit of the stack is not modelled);
  * error message texts are kept where they are observable (diagnostics) and collapsed into an error constructor where only the fact of failing matters.
* Parameters standing for code outside the repository, with the assumed behaviour written as the fields of a structure:
  * `Segmenter`: `unicode-segmentation`'s extended grapheme clusters — a partition of the text into non-empty clusters such that the segmentation of the remaining text is the remaining segmentation. `Model/Uax29.lean` is an instance: the UAX #29 rules over an arbitrary table of character classes, proved to satisfy the laws, and to cut exactly where the rules, stated declaratively in `Spec/Unicode.lean`, put a boundary (C110).
  * WebAssembly plugins (`Wasm`): an arbitrary state-passing function from call data to a result or an error; no assumption on behaviour except that extism itself does not panic and that a call returns. The plugin set carries a ghost field `log` with the calls made so far; nothing in the model reads it.
  * hash maps: association lists (`HMap`); no function of the model depends on iteration order except where the Rust code iterates, and then the theorems hold for every order.
  * `usize` is 64 bits wide where it matters (`arg_counter`); integer overflow panics or wraps according to a parameter `checks`, theorems hold for both. `AST.Fits` (no more than `usize::MAX` children) holds of every tree in memory.
  * UUIDs: an infinite supply; distinctness is an assumption only where used (C25).
  * the world outside of the process (`World`): files as a map from paths to bytes, a list of directories, a function from times to faults (an operation is refused, or a write stops after some bytes, as in a crash or on a full disk), the server as a function from time and URL to an optional body, and a ghost log of requests, writes and printed lines. Paths are relative to the project and compared as texts. No other process changes the disk during a command, except between two commands where a theorem says so.
  * SHA-256: an arbitrary function. Where the name of a plugin entry's digest is a function `hash`, that it contains neither `_` nor `/` is a hypothesis where used; `C87_files` proves it for the digest the code computes (`hashSha256`, over an arbitrary hash of bytes).
  * UTF-8: modelled (`Model/Utf8.lean`), decoding proved to invert encoding.
  * the toml crate: a parser and a printer of trees, without laws (`Toml`), except in C69, where the parser conforms to a part of the TOML grammar (`Spec/TomlGrammar.lean`, `Toml.Conforms`; `Proof/TomlText.lean` has a parser that does); the serde data model of the configuration (tables as key/value lists) is modelled on top. serde_json: `Model/JsonText.lean` models its compact printer and its reader on the values that occur (objects, arrays, strings, integers, booleans, null); the reader is proved to accept exactly the grammar of RFC 8259 (`Spec/JsonGrammar.lean`, `JsonText.parse_iff`), which is what the theorems refer to; simplified: integers are unbounded, too large numbers with fraction or exponent are accepted, unpaired surrogates are refused also in fields that are skipped. The derived `Serialize`/`Deserialize` of tokens, trees, values, types and metadata are `Model/Serde.lean`, with the limit of 127 nested arrays and objects.
  * a plugin at the level of bytes (`Host`): an arbitrary state-passing function from function name and bytes to bytes or an error; `Host.wasm` is the `Wasm` obtained by encoding and decoding.
  * the rendering of tokens and trees as text by `brack compile` (`Formats`): arbitrary functions except in C64 (`jsonFormats`) and C86 (`compileFormats`, with the derived `Debug` implementations; the standard library's table of printable characters is an arbitrary predicate). The regular expression of the plugin file names is modelled as a function; the order of `read_dir` is the order of the list, theorems quantify over lists.
  * the protocol types (`Protocol`): parsing and printing of JSON, deserialisation of the parameters (`lsp_types`) and the conversion of URIs to paths are arbitrary functions; theorems need at most that printing is inverted by parsing, where stated. Standard input is the list of the reads' results (each non-empty until the end); reads do not fail. `Model/JsonText.lean` is an instance used only in examples and witnesses.
  * `HashMap` iteration when plugins are loaded: the order of the association list; theorems quantify over lists.

## What is modelled

`brack-tokenizer` (all), `brack-parser` (all, `matches_kind` in `Conform.lean`; the identifiers of CST nodes are a function of the path to the node where they are printed), `brack-transformer` (all but `assert_ast_eq`), `brack-expander` (all), `brack-codegen` (all), `brack-plugin` (types, value, metadata, `Plugin::new`, `Plugins::new`, calls; extism internals not), `brack-project-manager` (schema, add, download, build; TOML syntax not), `brack-language-server` (framing, dispatch, requests, notifications, diagnostics, completion, semantic tokens; logging not), `src/main.rs` (all commands, `Model/Main.lean`; clap argument parsing not, the environment variables `BRACK_PLUGINS_PATH` and `APP_VERSION` are parameters).

Not modelled: logging, terminal colours, timing and async scheduling inside tokio (downloads are joined before any write, so they are modelled as a map), the limit of the stack.

How the model was checked against the code other than by reading: `Conform.lean` transcribes the repository's own unit tests (tokenizer, parser); the model gives what they expect. Programs with bugs that the theorems reject are in `seeded/LOG.jsonl`.

## Properties: how each is modelled and proved

| id | model | method |
|---|---|---|
| C01 | tokenizer as state machine with optional fields | refinement to a list machine, induction over graphemes |
| C02 | same | invariant: spelling of tokens ++ pool = consumed text |
| C03 | same | invariant on token start/column |
| C04 | same | false in general (a line feed that becomes an identifier or part of a CR LF does not advance the line). Exact: `C04_exact` for each token, `C04_line` for how much it is off; by counting NewLine tokens along the tiling (C03) |
| C05 | same | invariant nesting counter = opens − closes |
| C06 | same | induction |
| C07 | same | invariant on counters |
| C08 | same | LF proved; CRLF refuted (one grapheme) |
| C09 | parser | induction over parser recursion: leaves ++ rest = tokens |
| C10 | parser | termination by token count, no panic for EOF-terminated lists |
| C11 | parser | equivalence with an independent bracket-stack automaton |
| C12 | parser | inductive grammar predicate |
| C13 | parser | refuted by witnesses; partial: texts without closing brackets or leading newline |
| C14 | pipeline | node-level proved for all documents, document-level for written documents (C72) by induction over the markup; refuted by witness otherwise |
| C15 | `merge_location` | start proved, end refuted; exact characterisation of when it is right |
| C16 | parser | `C16_exact`: for every expression and bracket of a text, exactly when its range ends where its last token ends (never after an escape, after an unclosed bracket only at the end of the text, otherwise always); starts always exact; statements refuted (all start at 0:0) |
| C17 | transformer | exact characterisation of panics by an independent token scan (`trace`); refuted by witness; proved for texts without escaped opening brackets whose brackets are left unclosed at the end only |
| C18 | transformer | big-step relation for `simplify`, structural induction; grammar needs that the tokenizer emits names only after an opening bracket; refuted for escaped opening brackets |
| C19 | transformer | parsed tree = `trace` of the tokens, then structural induction; lists equal |
| C20 | transformer | refuted: these kinds are never reported; mismatches show as not-closed errors |
| C21 | transformer | structural induction, lists equal |
| C22 | transformer | structural induction on leaf content |
| C23 | transformer | equality of the AST of a clean document with an independent reading of the tree (`docShape`, comma groups) |
| C24 | transformer | refuted; words and their ranges survive |
| C25 | transform ids | freshness threading |
| C26 | transformer | endpoints come from tokens |
| C27 | expander | refuted: expander returns its input, so that no document with a macro call compiles |
| C28 | expander | trace equality |
| C29 | expander | refuted; exact panic condition |
| C30–C33 | codegen, types | induction over signatures, exact panic conditions, refutations |
| C34 | codegen | trace equality with an independent post-order traversal |
| C35 | codegen | structural induction |
| C36 | whole pipeline (`compileText`) | composition of C01/C02/C05/C12/C13/C17/C18/C22/C23/C59 with induction over the tree; CR LF refuted for every such text; `C36_exact` by induction over the clusters, for texts with both kinds of line breaks and texts that begin with a line feed |
| C37 | whole pipeline | refuted by a witness for every kind of error but two; invalid backslashes and unclosed angle brackets (macros, C97 and C27) proved; there are no further kinds (`C37_kinds_partial`) |
| C38–C40 | plugin registry | induction over the list; exact acceptance criteria; C40 refuted for equal names |
| C41 | schema and configuration, serde data model | accepted field lists are exactly the permutations of the serialized ones (loop invariant over the visitor) |
| C42–C44 | `add_plugin` in a state and error monad over `World` | splitting lemmas; each command is reduced to a plan and an outcome; frames (`IOM.Keeps`) for what a step may change; C44 refuted for every successful run, C43 for a crash inside the write |
| C45–C46 | download in three loops (plan, fetch, store) | loop lemmas; C46 refuted by a crash inside a write, proved when writes are all-or-nothing |
| C47 | build | induction over directory entries; relation `CompiledInTurn` for the plugin states; frame for failing builds |
| C48 | read loop over the sequence of reads, framing, dispatch | loop lemmas (`Server.run`); proved if reads end at message ends or no two messages arrive in one read and no read ends inside a character; refuted by witnesses for several messages in one read and for a read ending inside a character |
| C49 | framing of what the server sends | round trip with an independent reader of frames; converse reading back the messages |
| C50 | dispatch, requests | relation `Said` between worlds (the messages sent in between), closed under the monad operations; requests without a response characterised by `Malformed`, `Neglected`, `Oversized`; refutations for each reason |
| C51 | didSave | one equation for all outcomes (`save_run`); goes on iff accepted and no loose separator (C11, C17); diagnostics decoded from the message by an independent reader; refuted by two documents |
| C52–C54 | semantic tokens | decoding of the relative encoding by an independent reader, induction with C03/C04; C53 refuted for every document (the end token), C54 refuted outside of the basic multilingual plane; `C54_exact` from C04_exact, as every cluster is at least one unit |
| C55 | completion | the list is exactly the commands of the type in the metadata of the loadable plugins; nothing on `<` |
| C56 | name pattern, loop over the plugin directory | leftmost match of this pattern as a function, proved equal to its declarative meaning; loop lemmas (`scanned`); refuted for names with other characters than letters, several cached versions and some directories |
| C57 | compile | one equation for all levels (`runStage_run`); agreement with build by a logical relation between runs with other identifiers and plugin states (`PM.Rel`, `Plugins.Related`); refuted for plugins with memory |
| C58 | tokenizer | invariant: the `look_for_identifier` flag is a function of the tokens emitted |
| C59 | transformer | relation between errors and node shapes, by mutual induction on the tree (`Trans.wellFormed`) |
| C60 | transformer | refuted for dots and commas; brackets and backslashes: token starts are pairwise different and the scan reports each token once; `C60_twice_partial`: induction over the simplification with the invariant that the elements of a piece start at different tokens, and that errors about contents are not about elements of the piece itself |
| C61 | plugin calls | a property of computations closed under the monad operations (`Closed`), instantiated with `Serves` |
| C62 | transform, expander, codegen | trees equal up to identifiers (`AST.Renamed`), code generation is the same function of both; documents that compile have no macro call |
| C63 | tokenizer, parser, transform, codegen | two runs joined: the tokenizer state after a settled text is the initial one on another line (`tokens_join`), the parser's big-step relation over a longer input (`DI.join`), trees moved down line by line (`XDoc.down`), code generation as a function of the shape (`generate_shape`) and of the statements in order (`genChildren_append`); induction over the paragraphs |
| C64 | run_compile with `jsonFormats` | printing inverted by parsing (`parse_print`), relation `Shows…` between JSON values and trees functional by mutual induction |
| C65 | `Host.wasm`, `Serde.toAST`/`ofAST` | reader complete for the relation (`toAST_shows`), depth of the JSON value of a tree = 3·height+1; refuted beyond 127; with C100, documents with at most 19 commands open at once get through (`C65_nesting`) |
| C66 | `Host.wasm`, `Serde.ofValue` | as C64; UTF-8 decoding inverts encoding |
| C67 | `Host.wasm`, `Serde.toMetadata` | reader complete for the relation; induction over types |
| C68 | `mainCommand (.new name)` | symbolic execution of the five operations with faults; nothing lies below a free name in a rooted file system |
| C69 | `mainCommand` new, then build in the new directory | the text written is derived in the TOML grammar; C47 and C36 for the empty document; names with a backslash refuted |
| C70 | `mainCommand` | frame relation kept by every operation (`Acts`), for the server by induction over the reads with the invariant that configurations are not written; refuted for plugin names with slashes |
| C71 | `mainCommand` | same frame |
| C72 | tokenizer, parser, transformer, expander, generator together | a grammar of what authors write (`Spec/Written.lean`), independent of the code; its tokens by induction over the nesting with the state of the tokenizer as invariant, the tree by a derivation in the parser's grammar, then C59, C23, C34 and C35 |
| C73 | completion handler, then tokenizer to transformer | what an editor makes of a snippet is specified in `Spec/Snippet.lean`; C55 gives the items, filling one in gives the written form of the call, C72 reads it. False for names with special characters: refuted |
| C74 | tokenizer | the tokens emitted so far are a prefix of the final ones and the action depends on the current and the next cluster only: induction over the common clusters (`run_common`); the clusters of UAX 29 but the last do not depend on what follows (`UTable.clusters_prefix`) |
| C75 | project, plugins | the second build meets plugins related to those of the first (`C39_order`), the same documents, and outputs that are overwritten by themselves (`HMap.insert_same`): simulation along the loop (`buildLoop_again`); the download finds all plugins in the cache |
| C76 | project, plugins | partial: false for plugins that remember calls (`C76_stateful_refuted`) and next to documents that do not compile (`C76_broken_refuted`). Proved with `CompiledInTurn.traceless` for plugins without memory; for failing builds by induction along the loop (`buildLoop_stops`) |
| C77 | project | partial: false without a directory `plugins` (`C77_fresh_refuted`, since the download does not create it). Otherwise `C77_builds_partial`: the download succeeds (`downloadPlugins_goes`), its result loads (C40), the loop keeps an invariant `P` of the plugins' states |
| C78 | language server | partial: `didChange` is an identity (refuted); tokens and diagnostics are computed from the file at the time of the request, in terms of the tokenizer's and the pipeline's specifications |
| C79 | language server | partial: the field `uri` of the notification is the path (refuted for URIs with a scheme) |
| C80 | language server, framing | partial: three refutations; the end of the input by induction over the messages |
| C81 | language server | partial: `initialize`'s answer is compared with the answers to the requests that need a capability (`Spec/Server.lean: capabilityFor`, `Json.Announces`, from the LSP specification); false for trigger characters |
| C82 | language server, download | partial: false after another document was opened. Proved by the invariance of the project under messages other than `didOpen` (`Server.handleAll_project`), `downloadPlugins_mem` and C55; `ConfigOffers` (`Spec/Opened.lean`) is in terms of files and configuration |
| C83 | language server, download | partial: an equivalence (`downloadPlugins_iff`) for a healthy file system and a steady network; three refutations. Assumed: hex digests contain no `/` |
| C84 | language server, framing | partial: unknown methods; five refutations |
| C85 | download, build | partial: false for the backend, which is not part of the name of the cached file. For plugin entries with different digests: the frame of the first run (`Acts`) shows the new file is absent, the second run asks for it |
| C86 | run_compile with `compileFormats`: values of derived `Debug` (`DebugVal`) and their printing | the grammar of the format (`Spec/DebugText.lean: Written`) is unambiguous, by mutual induction with a follow set; what is printed is written; `Shows…` is functional |
| C87 | `hash_sha256` over an arbitrary hash of bytes | the same, for plugin entries; hexadecimal digits are injective; C85 for the next run |
| C88 | completion items with `showSignature` | the same, for signatures: the first line ends where its value ends |
| C89 | the whole pipeline | partial: false for single line feeds, which are never part of an output (invariant `Tame` of the tokenizer run and a bare code generator). For the other texts the document `onePerLine` (`Spec/Expressed.lean`) is followed through the token machine by induction on the clusters, keeping the count of open brackets nonnegative; `compile_flat` gives the output of a document of texts only |
| C90 | `Model/Resources.lean`: the nested calls of `dispatch` | partial: false. The list of activations is determined by the clusters (`activations_eq`), then induction for both bounds |
| C91 | `Model/Clear.lean`: `remove_dir_all`, `clear_plugins`; download | partial: false without the directory and after an interruption. `clearPlugins_cases` lists the four ways it can end; C46 on an empty cache gives the repair |
| C92 | `compileText`, `Plugins.new`, `build`; `Uses` on tokens | proved: simulation between plugin sets that agree outside the unused names (`BlindTo`), closed under the monad; the names looked up in the AST are module tokens of the document (C22). For projects a simulation between worlds that differ in the operation count |
| C93 | `Server.dispatch`, `handleAll` | proved: frame argument (`Rests`) for what stays unchanged, simulation between two worlds with the same disk and network (`IOM.Even`) for the rest of the session |
| C94 | `tokenizeStr`, `parse`, `transform`, `compileText` | proved: the token lists of the two texts differ by repeated newline tokens (`Padded`); induction on the big-step parser relation gives trees that differ by newline nodes, which the transformer drops (`PaddedKids`); `C94_carriage_return` shows why a carriage return before the line feeds is excluded |
| C95 | `tokenizeStr`, `parse`, `transform`, `compileText` | proved: the token lists differ by blanks after separators that are not escaped (`Spaced`); the bodies of brackets are compared without the expressions they are divided into (`FI`), since a line end divides them differently; outside brackets a separator makes both documents unreadable (C17) |
| C96 | `addPlugin`, `Config.toToml` | refuted: the file is the printed form of the configuration read (`C96_other_keys_refuted`, `C96_layout_refuted`, both for every successful `add`); partial: what belongs to the configuration is read again by the next command, for every TOML crate that reads what it prints |
| C97 | `parse`, `transform` | proved: the specification scans the tokens once with the brackets open (`tokenParts`); the parts of the concrete tree agree with it by induction over the parsing relations, and simplification and the abstract tree keep them |
| C98 | tokenizer, `parse`, `transform`, `generate` | refuted (`C98_place_refuted`: after `\]` the tokenizer counts one bracket too few and reads dots and separators of the next command as text); proved where the count is not negative and no name or escaped character is due: the tokens of the command are those it has alone, the parsing relations are followed with a hole in them, and generation of the two trees agrees outside the hole; for the output, without a hook for expressions, and with the output of the commands compared without hooks for documents and statements (commands do not see these two hooks); refuted with a hook for expressions (`C98_output_refuted`: it sees all of an expression) |
| C99 | `Plugin::new`, `Plugins::new`, `call_*`, `generate`, with the tree of C72 | every operation on the plugins commutes with an injective renaming of keys, hooks, plugins and log; generation by induction on the tree with renamed module leaves; the tree of a renamed document is the renamed tree |
| C100 | `parse`, `transform` | induction on the parsing and simplification relations: in the layout of C97, an item under `k` open brackets has height at most `2 * (n - k) + 1`; every expression and statement has a token of its own |
| C101 | `AST.display`, `CST.display`, `TErr.display` (`Model/Show.lean`) | printed trees form a prefix code: a line ends at the first line break (names may end with one, but no line starts with one), children are indented further than what follows; quoted values by `Quotes.unique` (C86); refuted for CR LF in texts and for characters behind backslashes |
| C102 | `Config.ofToml`, `Document.ofToml`, `PluginSchema.ofToml`, `Toml.readConfig`, `loadBrackToml` (`Model/Config.lean`, `Model/Project.lean`) | each reader against a declarative description (`StatedBy`, `Spec/Config.lean`), with C41 for the entries; the entries of a table with different keys are inserted independently; the commands by case analysis, loading being quiet |
| C103 | `mainCommand` with all commands but the language server (`Model/Main.lean`, `Model/Project.lean`, `Model/Cli.lean`) | each computation either cannot panic or passes the panic of a part on; the front end by C10, C17, the expander by C29, generation by C32, whose condition on the plugins is kept by calls and follows from what the plugin files report; downloads write files ending in `.wasm` and results below `out/`, so that documents stay as they were |
| C104 | `Server.run` and `dispatch` with all handlers (`Model/Server.lean`), opening with loading and downloading | each handler either goes on or fails for one of the listed reasons (`Fatal`); messages change the disk only by storing plugins, so that the reasons can be told from the disk at the beginning; sessions by C48. URLs of files are taken to give absolute paths (the crate `url` does), hashes to contain no slash (they are hexadecimal) |
| C105 | the same model | every write is the frame of a JSON value, or the beginning of one if the write fails; each value sent is shown to have the form stated in `Spec/Lsp.lean`, by going through the handlers |
| C106 | the same model, with all of `run` | refuted; `Spec/BadInput.lean` says in terms of texts what a header, its lines, their fields and lengths are, which bytes crash the server, stop it or make it deaf; splitting at a separator is shown to find exactly these parts, and the cases are shown to be exhaustive and to have the stated effects |
| C107 | `compileText`, for two plugin sets with different functions | relational induction over expansion and generation: two runs with equal declarations make calls of the same form (`Spec/Decided.lean`: a call without its texts) until one fails |
| C108 | `compileText`, `build` | induction over expansion and generation: after a failed call the run ends with its error |
| C109 | `compileText` from text to output | C18 gives the shape of the tree, which with C27 and C33 makes every node generable; generation then ends well or with a failed call; refuted for macros and escaped opening brackets |
| C110 | `tokenizeStr` with the segmentation of UAX #29 | the state of the segmentation summarises the text before it, and is the same after a boundary as after a fresh start; the rules are stated separately; C03 for the widths |
| C111 | `buildCommand`, `build`, `downloadPlugins` (`Model/Project.lean`) with any faults in the first run | what a first run leaves behind differs from the disk before it only in outputs and plugin files (a frame lemma for each operation, also when it is cut); a build of a disk that differs so far reads the same and overwrites the rest; with plugins to be downloaded, two disks that agree up to outputs and plugin files still missing on one of them become equal up to outputs after the downloads (server with fixed files assumed, hashes without underscores); refuted for a cut download |
| C112 | the same model | C47 and C76 for the files of the documents, frame for all others; refuted for outputs of removed documents |
| C113 | `ofTokens`, `toTokens`, `ofTree`, `toTree` (`Model/Serde.lean`) with the JSON reader and printer of `Model/JsonText.lean` | reading the printed form by induction on the tree, with the exact number of levels the reader needs (`3 * height + 1`); tokens from any value that shows them (`Spec/Serde.lean`); depth from C100, sizes of positions from the text |
| C114 | `compileText`, `generate`, `expander`, `Plugins.callText`, `callMacro` with the log of calls | triples `PM.Draws` (calls so far, where texts come from) through the generator and expander by induction on the tree; the texts of the tree stand in the document one after another (`Laid`), from C22 and the spelling of tokens |
| C115 | `compileText` on the document `callDoc` of `Spec/CallDoc.lean`, one cluster per line | the document is one of C72 (`WrittenAs`), its clusters by the laws of segmentation at line ends, the call by C33; the refutation from C114 |
| C116 | `transform` (`simplify`, `finishBracket`, `argLoop`) with the places outside of brackets read off the tokens (`tokenParts`, C97) | each piece of the tree outside of brackets has its errors at its own tokens (`XI.errStarts`), token starts increase strictly, so cuts compose (`Cut.append`); refutations on two documents |
| C117 | `compileText` with the calls recorded in `Plugins.log`; the texts of the document are read off its tokens (`documentTexts`, C22) | induction over what a tree produces (`Produces`, C34): balances of children add up, a call consumes the results of the children and returns one new text (`ArrayEnds.delivers`, by induction over the parameters; `C117_criterion` shows that this is exactly the condition); refutation with two array parameters |
| C118 | `compileText`; the commands of the document are read off its tokens (`tokenParts`, C97), their names are the first two leaves after the bracket | generation succeeds only if every node of the tree is fine (`generate_fine`), by induction over the tree its parts are then offered (`parts_offered`), and the parts of the tree are those of the tokens (C97); an opening bracket among the tokens starts a part unless a backslash precedes it (`tokenParts_open`, induction over the tokens before) |
| C119 | `compileText` with the calls recorded in `Plugins.log`; `Returned` (a text made of results of earlier calls), `Call.Filters` (a call of the text hook) | invariant of the log, carried through the monad of plugin calls (`PM.Filters`), by mutual induction over the tree; each text once: induction over what a tree produces (`Produces`, C34) and C22 |
| C120 | `Model/ParserSteps.lean`: the parser with its calls and the nodes copied by `CST::add` counted, proved to have the same results as `Model/Parser.lean` | partial: false because of the copies. The calls are bounded by a potential argument (60 per token) by induction over the fuel; the copies are exactly the sizes of all subtrees (`CST.copied`), at most twice because the last paragraph is parsed twice, bounded by size times height (C100) and below by the height |
| C121 | as C98 and C107; `Spec/Words.lean`: where words may stand, trees without words, outlines of calls | proved. Two token lists that differ in texts and positions only give results that do so (`Heedless`, through parser, transformer and code generator); the tokenizer on `u ++ x ++ v` is run past the words in two states that differ in positions and pool only. The calls as in C107, by a relation between two runs |
| C122 | as C72; `Spec/Output.lean`: the output as a function of the written document and of what the commands return, written without the model's code generator | proved. `PM.Gives`: running a function gives the specified result in every state that answers as the first one; by induction over the parts of the document. Exchange of parts is congruence of `documentOutput` |
| C123 | as C47 and C76; `Spec/EachDoc.lean`: a document compiled on its own, a project in order | partial: refuted for plugins that remember calls. Otherwise from `C47_succeeds` with the invariant that the plugins are as good as at the beginning, `C47_outputs` and `C76_before_failure`; the order of listing by `C39_order` |
| C124 | the log of calls in `compileText`; `Spec/CallCount.lean`: opening brackets, commands written, calls made | `CallsJust`: how many calls each part of expansion and generation makes, by induction on the tree, a hook counted as 1 or (without hooks) 0; then `C100_size` and `C97_parts` |
| C125 | transformer | `Most`: induction over the simplification as for C60, counting the errors that start at a position: an element of a piece has at most one of its own (a dot none), a bracket adds at most two for an element (three for a dot), and no bracket further out adds any since its elements start elsewhere; the number of errors follows since the starts of tokens are different |
| C126 | tokenizer, parser, transformer; `Spec/Exchange.lean`: exchange of brackets in texts, tokens, trees and errors | each function commutes with the exchange: the tokenizer by a classification of clusters and a simulation of its states (only the sum of the counters matters), the parser function by function, simplification and `aux` by induction on the tree; the segmenter is assumed to commute with the exchange, which `C126_unicode` proves for the rules of UAX #29 |
| C127 | code generator, plugin calls, and C126; `Spec/Crossed.lean`: plugin sets that offer inline commands as block commands and the other way around | a relation between runs on crossed plugin sets, kept by every function of the code generator (induction on the tree); combined with C126 for documents |
| C128 | parser, transformer, language server; `Spec/Reports.lean` reads the errors off the tokens with a list of open commands | the errors and the pieces of commands are functions of the concrete tree; token side by induction on the big-step parser relation, tree side by induction on the big-step description of `simplify` |
| C129 | parser, transformer; `Spec/Outline.lean` reads lines, statements and commands off the tokens with a list of open commands | as C128; lines and statements by induction on the big-step parser relations for statements and documents |
| C130 | tokenizer, parser, transformer, code generator | C10, C11, C17, C128 and C129 put together; code generation depends on the shape of the tree only |
| C131 | tokenizer | the reading `lexed` cuts off whole words; the tokenizer, which looks one character ahead and pools, is shown to emit the same tokens, by induction over the characters with the pool as the part of the word read; ranges by C03 |
| C132 | tokenizer, parser, transformer | the state of the tokenizer at a line end is its position, the number of open brackets and whether a name is due; errors by C128, since reading errors off tokens can be split where no command is open, and moving tokens down moves the errors |
| C133 | `Model/TransformSteps.lean`: the calls, the elements looked at and the nodes copied by `simplify` and `aux`, depending on the intermediate results of `Model/Transform.lean` | partial: false because of the copies. Simplifying at most doubles a tree (an argument gets a node, and each argument has an element), so what is done at one node is at most 40 times its size, and the sizes of all subtrees are at most size times height (C100); from below by the height |
| C134 | `Model/TokenizerSteps.lean`: the characters and tokens copied or looked at by each call of `dispatch`, along the tokenizers of `Model/Resources.lean`; parser and transformer as in C120 and C133 | what a tokenizer holds (remaining text, pool, tokens with their words), with a unit for each remaining cluster, does not grow, so each call is linear and there are as many as clusters (C90); then C120 and C133. Copying a node or token of the parser and transformer counts one, whatever the length of its word |
| C135 | tokenizer, parser and transformer as in C01, C11, C17, C19; `Spec/Repair.lean` says which brackets are open at the end | the tokens of the further line are known from C132; the events (`trace`) and the acceptance of the tokens before it do not depend on it; induction over the stack of open brackets for the line itself. A carriage return at the end would merge with the line end, and a NUL would end the text, so both are excluded |
| C136 | tokenizer, parser and transformer as in C11, C17, C128, C131; `Spec/Doubled.lean` | the tokens before a backslash do not depend on what follows (induction over `lexed`); which errors there are depends on the kinds of tokens only (induction over `report`), so are loose separators; then the scans of both token lists go on alike behind the backslashes. The lines of errors depend on the lines of tokens only, and these on the line ends before them (C03). How the segmenter treats the doubled backslash is a hypothesis (`BackslashAlone`) |
| C137 | tokenizer, parser and transformer as in C11, C17, C128, C131; `Spec/Reword.lean` | the kinds of tokens are the same up to words (induction over `lexed`); acceptance, loose separators and errors do not look at words (inductions over `accepts`, `trace`, `report`); lines as for C136. That the rest of the text is told apart into the same characters is part of `Reworded` |
| C138 | `AST::children` and `AST::value` with their panics (`Model/Ast.lean`); `Spec/Walk.lean` | the leaves of the tree are the contents of the events (C22), and those without a word are the backslashes of C21; induction over the tree and over the walk |
| C139 | the language server as in C51; tokenizer, parser and transformer as in C135–C137; `Spec/Saved.lean` says what is shown on saving, for all server states and messages | C51 gives the diagnostics as those of the errors; the messages determine the kinds of errors concerned; then C135, C136, C137 |
| C140 | `CST::children` and `CST::value` with their panics and the values leaves are created with (`Model/CstMethods.lean`); parser as in C09, C12; `Spec/WalkCst.lean` | by C12, no tree has a node of the kind `Invalid`, and backslash nodes hold escapable characters (induction over the grammar); words and their order by C09 and induction over the tree |
