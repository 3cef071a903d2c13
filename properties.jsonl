{"id": "C01", "title": "Tokenizing is total and EOF-terminated", "statement": "tokenize_str returns Ok for every text; the returned list ends with exactly one EOF token and contains no Empty token.", "quantifier": "every input text and every grapheme segmentation of it", "why_tests_cant": "the input space is unbounded and the recursion depth depends on it; tests sample a dozen strings", "anchors": ["crates/brack-tokenizer/src/tokenize.rs:tokenize_str", "crates/brack-tokenizer/src/dispatch.rs:dispatch"]}
{"id": "C02", "title": "Tokenizing loses, invents and reorders nothing", "statement": "Concatenating the source spelling of the returned tokens gives back exactly the input text, as long as the input contains no NUL character (a NUL stops the tokenizer and the rest of the text is dropped).", "quantifier": "every input text", "why_tests_cant": "losslessness must hold for every interleaving of bracket/identifier/escape states, not only the tested ones", "anchors": ["crates/brack-tokenizer/src/dispatch.rs:dispatch", "crates/brack-tokenizer/src/text.rs:tokenize", "crates/brack-tokenizer/src/backslash.rs:tokenize", "crates/brack-tokenizer/src/utils.rs:separate"]}
{"id": "C03", "title": "Token ranges tile the text", "statement": "Token ranges are contiguous and ordered: the first starts at 0:0, every token starts where the previous one ended (or at column 0 of the next line after a NewLine token), stays on one line and is exactly as wide as its spelling in grapheme clusters; EOF is empty.", "quantifier": "every input text, every adjacent pair of returned tokens", "why_tests_cant": "needs an invariant relating counters to the emitted tokens over arbitrarily long runs", "anchors": ["crates/brack-tokenizer/src/dispatch.rs:dispatch", "crates/brack-tokenizer/src/newline.rs:tokenize", "crates/brack-tokenizer/src/tokens.rs:Location"]}
{"id": "C04", "title": "Token positions are true source positions", "statement": "The start of each token is the (line, column) of the text preceding it, counting newline characters for the line and grapheme clusters since the last newline for the column.", "quantifier": "every input text and every token", "why_tests_cant": "an off-by-one may only appear after a particular history of brackets and newlines", "anchors": ["crates/brack-tokenizer/src/newline.rs:tokenize", "crates/brack-tokenizer/src/identifier.rs:tokenize", "crates/brack-tokenizer/src/dispatch.rs:dispatch"]}
{"id": "C05", "title": "Separators are tokens only inside brackets", "statement": "Dot, Comma and WhiteSpace tokens are produced only at points where more opening than closing bracket tokens precede; outside brackets these characters are ordinary text.", "quantifier": "every input text and every token position", "why_tests_cant": "depends on the whole bracket history of the document", "anchors": ["crates/brack-tokenizer/src/dispatch.rs:dispatch", "crates/brack-tokenizer/src/dot.rs", "crates/brack-tokenizer/src/comma.rs", "crates/brack-tokenizer/src/whitespace.rs"]}
{"id": "C06", "title": "Plain text is one Text token", "statement": "A non-empty text without newline, NUL, backslash or any bracket character tokenizes to exactly one Text token holding the whole text followed by EOF.", "quantifier": "every text free of the special characters, of any length and script", "why_tests_cant": "unbounded texts and scripts", "anchors": ["crates/brack-tokenizer/src/dispatch.rs:dispatch", "crates/brack-tokenizer/src/text.rs:tokenize"]}
{"id": "C07", "title": "Nesting counters never overflow", "statement": "During tokenization each signed 32-bit nesting counter, and the sum of the three, stays within plus or minus the number of graphemes consumed, so no overflow can happen on a text shorter than 2^31 graphemes.", "quantifier": "every input text and every intermediate tokenizer state", "why_tests_cant": "an overflow needs gigabyte inputs that no test runs", "anchors": ["crates/brack-tokenizer/src/dispatch.rs:dispatch", "crates/brack-tokenizer/src/tokenizer.rs:Tokenizer"]}
{"id": "C08", "title": "Line ends split lines whatever the platform convention", "statement": "Each line end of the source, LF or CRLF, yields one NewLine token and advances the line counter.", "quantifier": "every text with LF or CRLF line ends", "why_tests_cant": "the segmentation of CR LF into one grapheme is invisible in tests that use LF only", "anchors": ["crates/brack-tokenizer/src/dispatch.rs:dispatch", "crates/brack-tokenizer/src/utils.rs:separate", "crates/brack-tokenizer/src/newline.rs:tokenize"]}
{"id": "C09", "title": "Parsing keeps every token", "statement": "When parse returns Ok on a token list whose only EOF is the last one, the leaves of the tree, read left to right with their locations, are exactly the token list.", "quantifier": "every token list", "why_tests_cant": "a dropped or duplicated token may need a particular nesting and backtracking path", "anchors": ["crates/brack-parser/src/parse.rs:parse", "crates/brack-parser/src/stmt.rs", "crates/brack-parser/src/expr.rs", "crates/brack-parser/src/angle.rs", "crates/brack-parser/src/escaped.rs"]}
{"id": "C10", "title": "Parsing terminates and never panics on tokenizer output", "statement": "For every list ending in EOF (in particular every tokenizer output) parse returns Ok or Err; it never panics and never loops.", "quantifier": "every token list ending in EOF", "why_tests_cant": "termination and absence of out-of-range slices must hold for all nestings", "anchors": ["crates/brack-parser/src/escaped.rs:parse", "crates/brack-parser/src/parse.rs:parse", "crates/brack-parser/src/angle.rs:parse"]}
{"id": "C11", "title": "The parser accepts exactly the documented language", "statement": "parse returns Ok on a token list iff the list is derivable from the published concrete syntax (brack.cst.ebnf) read greedily: closing brackets either close an open bracket of the same kind or stand alone on their own line outside all brackets, and nothing follows leading blank lines.", "quantifier": "every token list", "why_tests_cant": "language equality is a statement about infinitely many documents", "anchors": ["crates/brack-parser/src/parse.rs:parse", "brack.cst.ebnf"]}
{"id": "C12", "title": "The tree follows the concrete grammar", "statement": "Every tree returned by parse has the shape of brack.cst.ebnf: documents hold statements and newlines and end with EOF, statements alternate expressions or closing brackets with newlines, expressions are non-empty, bracket nodes start with their own opening bracket and a closing bracket can only be their last child and of the same kind.", "quantifier": "every token list accepted by parse", "why_tests_cant": "needs induction over the tree", "anchors": ["crates/brack-parser/src/parse.rs", "crates/brack-parser/src/stmt.rs", "crates/brack-parser/src/expr.rs", "crates/brack-parser/src/angle.rs", "crates/brack-parser/src/curly.rs", "crates/brack-parser/src/square.rs", "brack.cst.ebnf"]}
{"id": "C13", "title": "Any text can be parsed", "statement": "parse(tokenize_str(text)) returns Ok for every text, so that syntax mistakes are reported as located diagnostics instead of aborting.", "quantifier": "every input text", "why_tests_cant": "counterexamples are particular bracket patterns", "anchors": ["crates/brack-parser/src/parse.rs:parse", "crates/brack-transformer/src/error.rs", "crates/brack-language-server/src/notification/did_save.rs"]}
{"id": "C14", "title": "Escaping a special character yields that character", "statement": "A backslash followed by . , < > { } [ ] or backslash denotes the literal character as text: the document compiles as if the character were ordinary text, and the rest of the document is unaffected.", "quantifier": "every document containing an escape", "why_tests_cant": "the escape interacts with the nesting state of everything after it", "anchors": ["crates/brack-parser/src/escaped.rs:parse", "crates/brack-transformer/src/backslash.rs:simplify", "crates/brack-tokenizer/src/backslash.rs", "crates/brack-tokenizer/src/dispatch.rs"]}
{"id": "C15", "title": "Merging two ranges covers both", "statement": "merge_location returns the smallest range containing both argument ranges.", "quantifier": "every pair of locations", "why_tests_cant": "the failing region is a comparison between unrelated coordinates", "anchors": ["crates/brack-tokenizer/src/tokens.rs:merge_location", "crates/brack-parser/src/cst.rs:CST::add", "crates/brack-transformer/src/ast.rs:AST::add"]}
{"id": "C16", "title": "Tree node ranges are the ranges of their source", "statement": "The location of every expression and bracket node starts where its first token starts and ends where its last token ends; statement and document nodes span their children.", "quantifier": "every tree returned by parse", "why_tests_cant": "must hold at every node of every tree", "anchors": ["crates/brack-parser/src/expr.rs:parse", "crates/brack-parser/src/angle.rs:parse", "crates/brack-parser/src/cst.rs:add"]}
{"id": "C17", "title": "Transform never panics on parsed documents", "statement": "transform returns an AST and an error list for every tree produced by parse; malformed documents are reported, never a crash.", "quantifier": "every text whose tokens parse", "why_tests_cant": "crashing documents combine an escape or an unclosed bracket with later separators", "anchors": ["crates/brack-transformer/src/transform.rs:transform", "crates/brack-transformer/src/expr.rs:simplify", "crates/brack-transformer/src/angle.rs"]}
{"id": "C18", "title": "A clean transform gives a well-formed AST", "statement": "If transform reports no error, the AST follows brack.ast.ebnf: every command node has a module (or macro), an identifier (or macro) and then only non-empty argument expressions.", "quantifier": "every parsed document", "why_tests_cant": "well-formedness is a property of every node of every tree", "anchors": ["crates/brack-transformer/src/transform.rs", "crates/brack-transformer/src/utils.rs:check_valid_arguments", "crates/brack-transformer/src/angle.rs", "crates/brack-transformer/src/curly.rs", "crates/brack-transformer/src/square.rs", "brack.ast.ebnf"]}
{"id": "C19", "title": "Every unclosed bracket is reported", "statement": "Every bracket node lacking its closing bracket produces a not-closed error of its kind starting at its opening bracket, and closed bracket nodes produce none.", "quantifier": "every parsed document", "why_tests_cant": "must hold at every nesting depth", "anchors": ["crates/brack-transformer/src/angle.rs:check_if_the_first_and_last_node_are_brackets", "crates/brack-transformer/src/curly.rs", "crates/brack-transformer/src/square.rs"]}
{"id": "C20", "title": "Mismatched and unopened brackets are reported", "statement": "MismatchedBracket, AngleNotOpened, CurlyNotOpened, SquareNotOpened and CommaNotFound are reported for documents containing a mismatched or unopened bracket.", "quantifier": "every parsed document", "why_tests_cant": "unreachability of an error is a universal statement", "anchors": ["crates/brack-transformer/src/error.rs:TransformError", "crates/brack-transformer/src/angle.rs", "crates/brack-parser/src/parse.rs"]}
{"id": "C21", "title": "Invalid backslashes are reported exactly", "statement": "InvalidBackslash errors are reported exactly for the backslashes not followed by an escapable character, one each, at their location.", "quantifier": "every parsed document", "why_tests_cant": "counts over arbitrary trees", "anchors": ["crates/brack-transformer/src/backslash.rs:simplify", "crates/brack-parser/src/escaped.rs:parse"]}
{"id": "C22", "title": "Transform keeps all text in order", "statement": "The texts, modules and identifiers of the AST, read left to right, are those of the parsed tree: no content is lost, duplicated or reordered, whatever errors are reported.", "quantifier": "every parsed document on which transform returns", "why_tests_cant": "argument splitting moves nodes around; must hold for all shapes", "anchors": ["crates/brack-transformer/src/utils.rs:check_valid_arguments", "crates/brack-transformer/src/utils.rs:remove_elements_not_included_ast", "crates/brack-transformer/src/transform.rs"]}
{"id": "C23", "title": "Arguments are split exactly at commas", "statement": "For a command without errors the arguments are the comma-separated groups of its content, in order, none of them empty.", "quantifier": "every content list of a command", "why_tests_cant": "all positions of commas and separators", "anchors": ["crates/brack-transformer/src/utils.rs:check_valid_arguments"]}
{"id": "C24", "title": "Spaces inside arguments survive", "statement": "The text of a command argument keeps the spaces between its words.", "quantifier": "every command argument", "why_tests_cant": "depends on which separators the transformer removes", "anchors": ["crates/brack-transformer/src/utils.rs:remove_whitespaces_and_newlines"]}
{"id": "C25", "title": "AST node identifiers identify nodes", "statement": "Every node of a transformed AST has an identifier of its own and looking an identifier up returns precisely the node that carries it.", "quantifier": "every AST produced by transform, every node in it", "why_tests_cant": "uniqueness over unbounded trees", "anchors": ["crates/brack-transformer/src/ast.rs:AST::get", "crates/brack-transformer/src/transform.rs:aux"]}
{"id": "C26", "title": "Diagnostics point inside the document", "statement": "Every reported error's range starts where some token of the document starts, ends where some token ends, and its start is not after its end.", "quantifier": "every parsed document and every reported error", "why_tests_cant": "ranges are combined by merging at every nesting depth", "anchors": ["crates/brack-transformer/src/error.rs:get_location", "crates/brack-language-server/src/notification/did_save.rs"]}
{"id": "C27", "title": "Macros are replaced by their expansion", "statement": "After expansion the returned AST contains, in place of each macro call, what the macro returned.", "quantifier": "every AST and every plugin behaviour", "why_tests_cant": "quantifies over plugin behaviours", "anchors": ["crates/brack-expander/src/expand.rs:expander", "crates/brack-expander/src/expand.rs:expand_other"]}
{"id": "C28", "title": "Each macro call is invoked once, in document order, with its own identifier", "statement": "expander calls the plugin once for every outermost macro node, left to right, passing the whole document AST and the identifier of that node, and stops at the first failing call.", "quantifier": "every AST without invalid nodes, every plugin behaviour", "why_tests_cant": "call order over unbounded trees", "anchors": ["crates/brack-expander/src/expand.rs:expander", "crates/brack-expander/src/expand.rs:expand_angle", "crates/brack-plugin/src/plugins.rs:call_macro_command"]}
{"id": "C29", "title": "Expansion reports broken documents instead of crashing", "statement": "expander never panics on an AST produced by transform.", "quantifier": "every AST produced by transform", "why_tests_cant": "depends on invalid nodes anywhere in the tree", "anchors": ["crates/brack-expander/src/expand.rs:expand_other", "crates/brack-transformer/src/ast.rs:children"]}
{"id": "C30", "title": "Commands are called only with an admissible number of arguments", "statement": "A command is invoked only if the number of arguments lies between the number of required parameters and the number of all parameters (unbounded with an array parameter); otherwise generate fails.", "quantifier": "every signature and every argument list", "why_tests_cant": "all signatures and counts", "anchors": ["crates/brack-codegen/src/square.rs:generate", "crates/brack-codegen/src/curly.rs:generate", "crates/brack-plugin/src/types.rs:arg_counter"]}
{"id": "C31", "title": "Argument counting is correct for every signature", "statement": "arg_counter returns the number of required parameters and the number of parameters, or 'unbounded' if there is an array parameter anywhere.", "quantifier": "every signature", "why_tests_cant": "failing signatures put a parameter after an array", "anchors": ["crates/brack-plugin/src/types.rs:arg_counter"]}
{"id": "C32", "title": "Argument binding never panics", "statement": "For every signature and every admissible number of arguments, binding arguments to parameters succeeds.", "quantifier": "every signature, every admissible count", "why_tests_cant": "failing signatures mix optional and required parameters", "anchors": ["crates/brack-codegen/src/square.rs:generate", "crates/brack-codegen/src/curly.rs:generate"]}
{"id": "C33", "title": "Argument binding delivers every argument in order", "statement": "For signatures listing required parameters first, then either optional parameters or one array, the values passed to the plugin contain all arguments exactly once and in order, missing optional parameters being passed as absent.", "quantifier": "every such signature, every admissible argument list", "why_tests_cant": "unbounded signatures and lists", "anchors": ["crates/brack-codegen/src/square.rs:generate", "crates/brack-codegen/src/curly.rs:generate", "crates/brack-plugin/src/value.rs:Value"]}
{"id": "C34", "title": "Hooks run innermost first and once per node", "statement": "generate calls the text hook once per text node, the expr hook once per expression, the stmt hook once per statement and the document hook once at the end, children before parents, left to right, each receiving the concatenated result of its children; without a hook the concatenation is used unchanged.", "quantifier": "every AST and every plugin behaviour", "why_tests_cant": "call order and data flow over unbounded trees", "anchors": ["crates/brack-codegen/src/generate.rs", "crates/brack-codegen/src/stmt.rs", "crates/brack-codegen/src/expr.rs", "crates/brack-codegen/src/text.rs", "crates/brack-plugin/src/plugins.rs"]}
{"id": "C35", "title": "Unexpanded macros and invalid nodes abort generation", "statement": "generate fails whenever a macro, an invalid node, or a stray module or identifier is reached; it never emits output for such a document.", "quantifier": "every AST and plugin behaviour", "why_tests_cant": "any position in the tree", "anchors": ["crates/brack-codegen/src/generate.rs", "crates/brack-codegen/src/expr.rs", "crates/brack-codegen/src/stmt.rs", "crates/brack-codegen/src/square.rs"]}
{"id": "C36", "title": "Plain documents compile to themselves", "statement": "Without plugins, a document of plain text compiles to the same text with its line breaks removed.", "quantifier": "every text without special characters and without leading blank line, any number of lines", "why_tests_cant": "end-to-end over the whole pipeline for unbounded texts", "anchors": ["crates/brack-project-manager/src/project.rs:build", "src/main.rs:run_compile", "crates/brack-codegen/src/generate.rs"]}
{"id": "C37", "title": "Documents with reported errors are not compiled silently", "statement": "If transform reports an error, compile and build report failure rather than producing output.", "quantifier": "every text", "why_tests_cant": "requires relating error reports to the code generator for all documents", "anchors": ["crates/brack-project-manager/src/project.rs:build", "src/main.rs:run_compile"]}
{"id": "C38", "title": "At most one plugin per hook", "statement": "Plugins::new fails if two plugins enable the same hook, and otherwise each enabled hook is bound to the plugin enabling it.", "quantifier": "every list of plugins", "why_tests_cant": "all lists and flag combinations", "anchors": ["crates/brack-plugin/src/plugins.rs:Plugins::new"]}
{"id": "C39", "title": "Plugin loading order is irrelevant", "statement": "For plugins with distinct names, success of Plugins::new and the resulting lookup and hook bindings do not depend on the order of the list (it comes from hash map iteration).", "quantifier": "every list of plugins and every permutation", "why_tests_cant": "all permutations", "anchors": ["crates/brack-plugin/src/plugins.rs:Plugins::new", "crates/brack-project-manager/src/project.rs:build"]}
{"id": "C40", "title": "An enabled hook exists with the right type", "statement": "If Plugin::new accepts a plugin with a hook flag, the plugin's metadata contains that hook command with the required return type, and calling the hook never fails for a missing plugin or command.", "quantifier": "every metadata list and flag combination", "why_tests_cant": "all metadata lists", "anchors": ["crates/brack-plugin/src/plugin.rs:Plugin::new", "crates/brack-plugin/src/plugins.rs:call_document_hook"]}
{"id": "C41", "title": "Plugin schemas survive the configuration file", "statement": "Deserializing a serialized plugin schema gives it back; fields may come in any order; duplicate, missing or unknown fields and unknown schema kinds are rejected.", "quantifier": "every schema, every field order", "why_tests_cant": "all orders and field subsets", "anchors": ["crates/brack-project-manager/src/plugin.rs:PluginSchema"]}
{"id": "C42", "title": "add parses its argument faithfully", "statement": "brack add kind:owner/repo@version with components free of separators uses precisely these components, and only kind github is accepted.", "quantifier": "every component string", "why_tests_cant": "all strings", "anchors": ["crates/brack-project-manager/src/plugin.rs:add_plugin"]}
{"id": "C43", "title": "A failing add changes nothing in the configuration", "statement": "If add fails, Brack.toml is unchanged; if it succeeds, exactly one plugin entry is added and all others are kept.", "quantifier": "every configuration, schema, server response and file system", "why_tests_cant": "all failure points", "anchors": ["crates/brack-project-manager/src/plugin.rs:add_plugin"]}
{"id": "C44", "title": "The file fetched by add is the one build uses", "statement": "After a successful add, a build finds the downloaded plugin in its cache.", "quantifier": "every schema and hash", "why_tests_cant": "path equality over all names", "anchors": ["crates/brack-project-manager/src/plugin.rs:add_plugin", "crates/brack-project-manager/src/project.rs:download_plugins_using_config"]}
{"id": "C45", "title": "Plugin downloads are cached", "statement": "After a successful download run, a further run with the same configuration issues no request, writes no file and yields the same plugin set.", "quantifier": "every configuration, file system and server behaviour", "why_tests_cant": "histories of runs", "anchors": ["crates/brack-project-manager/src/project.rs:download_plugins_using_config"]}
{"id": "C46", "title": "A crash while downloading does not poison the cache", "statement": "If the process dies at any point of a download run, a later run ends up with complete plugin files.", "quantifier": "every crash point", "why_tests_cant": "crash points inside a file write", "anchors": ["crates/brack-project-manager/src/project.rs:download_plugins_using_config"]}
{"id": "C47", "title": "Each document has its own output", "statement": "build writes exactly one output per source document with extension [], named after it; distinct documents never overwrite each other's output and other files are ignored.", "quantifier": "every directory content", "why_tests_cant": "all file names", "anchors": ["crates/brack-project-manager/src/project.rs:build"]}
{"id": "C48", "title": "Message framing is independent of chunking", "statement": "However the input stream is cut into reads, the server dispatches exactly the sequence of messages contained in it.", "quantifier": "every message sequence and every way to cut it into chunks", "why_tests_cant": "the number of chunkings is exponential", "anchors": ["crates/brack-language-server/src/server.rs:run"]}
{"id": "C49", "title": "Outgoing frames decode", "statement": "Every message sent by the server is framed with its exact byte length, so a conforming reader recovers the sequence of messages.", "quantifier": "every sequence of sent messages, including non-ASCII text", "why_tests_cant": "byte versus character lengths over all texts", "anchors": ["crates/brack-language-server/src/server.rs:send_stdout", "crates/brack-language-server/src/server.rs:send_message"]}
{"id": "C50", "title": "Every request is answered once with its own id", "statement": "Each request receives exactly one response, carrying its id; notifications and responses receive none.", "quantifier": "every message and server state", "why_tests_cant": "all methods and outcomes", "anchors": ["crates/brack-language-server/src/server.rs:dispatch", "crates/brack-language-server/src/request.rs:handle_request", "crates/brack-language-server/src/notification.rs"]}
{"id": "C51", "title": "Saving a document never stops the server", "statement": "Handling didSave keeps the server running whatever the document contains, and publishes one diagnostics notification with one entry per error (none if the document is clean).", "quantifier": "every document content", "why_tests_cant": "crashing documents are particular bracket patterns", "anchors": ["crates/brack-language-server/src/notification/did_save.rs", "crates/brack-language-server/src/server.rs:run"]}
{"id": "C52", "title": "Semantic tokens decode to the token positions", "statement": "Decoding the delta-encoded semantic tokens yields each token's line, column and length, without underflow.", "quantifier": "every document", "why_tests_cant": "needs monotonicity of positions over all documents", "anchors": ["crates/brack-language-server/src/request/semantic_tokens.rs:separate"]}
{"id": "C53", "title": "Semantic token types are in the announced legend", "statement": "Every emitted token type index refers to an entry of the announced legend naming the right type, and no emitted token claims a modifier.", "quantifier": "every token", "why_tests_cant": "finite kinds but every document", "anchors": ["crates/brack-language-server/src/request/semantic_tokens.rs:token_kind_to_type", "crates/brack-language-server/src/request.rs"]}
{"id": "C54", "title": "Columns are in the units of the protocol", "statement": "Reported columns count UTF-16 code units, as the protocol requires by default.", "quantifier": "every document", "why_tests_cant": "differs only for characters outside the usual test alphabet", "anchors": ["crates/brack-language-server/src/request/semantic_tokens.rs", "crates/brack-tokenizer/src/dispatch.rs"]}
{"id": "C55", "title": "Completion offers exactly the matching commands", "statement": "On trigger [ the completion lists all inline commands of all plugins, on { all block commands, on < all macros, each once; it never panics.", "quantifier": "every plugin set and trigger", "why_tests_cant": "all plugin sets", "anchors": ["crates/brack-language-server/src/request/completion.rs"]}
{"id": "C56", "title": "Compile finds the cached plugins by name", "statement": "For a plugin cached as <name>_<hash>.wasm the compile command loads it under the name <name>.", "quantifier": "every plugin name, hash and directory", "why_tests_cant": "pattern matching over all names", "anchors": ["src/main.rs:run_compile", "crates/brack-project-manager/src/project.rs:download_plugins_using_config"]}
{"id": "C57", "title": "Compile and build agree", "statement": "For the same plugins without hooks, compile at output level 5 prints what build writes for the same document; other output levels stop at their stage; invalid levels, JSON at level 5 and wrong file extensions fail.", "quantifier": "every text, plugin set and option combination", "why_tests_cant": "all option combinations and texts", "anchors": ["src/main.rs:run_compile", "crates/brack-project-manager/src/project.rs:build"]}
{"id": "C58", "title": "Names occur only after an opening bracket", "statement": "Identifier and module tokens are produced only if an opening bracket token precedes them.", "quantifier": "every input text and every token", "why_tests_cant": "depends on the whole history of the text", "anchors": ["crates/brack-tokenizer/src/dispatch.rs:dispatch", "crates/brack-tokenizer/src/identifier.rs", "crates/brack-tokenizer/src/module.rs"]}
{"id": "C59", "title": "No errors exactly on well-formed documents", "statement": "Transforming reports no error exactly if every backslash of the document escapes something, every bracket is closed, and every bracket holds a command: a module or macro, a dot, an identifier or macro, and arguments that are blank or comma-separated groups none of which is blank and none of which contains a dot.", "quantifier": "every parsed document", "why_tests_cant": "soundness and completeness of the checks over all trees", "anchors": ["crates/brack-transformer/src/utils.rs", "crates/brack-transformer/src/square.rs:simplify", "crates/brack-transformer/src/curly.rs:simplify", "crates/brack-transformer/src/angle.rs:simplify", "crates/brack-transformer/src/backslash.rs:simplify"]}
{"id": "C60", "title": "Every problem is reported once", "statement": "Transforming never reports the same error (kind and range) twice.", "quantifier": "every parsed document", "why_tests_cant": "duplicates depend on the combination of several checks", "anchors": ["crates/brack-transformer/src/utils.rs:check_unexpected_dot", "crates/brack-transformer/src/utils.rs:check_valid_arguments"]}
{"id": "C61", "title": "Commands run in the plugin function declared for them", "statement": "Every command, hook and macro of a document is executed by the plugin of that name, by the function the plugin declares for that command name and return type, in the state left by earlier calls to the same plugin, and the document uses exactly what that function returned; calls to one plugin do not affect another.", "quantifier": "every document, plugin set and plugin behaviour", "why_tests_cant": "depends on the whole call history of stateful plugins", "anchors": ["crates/brack-plugin/src/plugin.rs:call", "crates/brack-plugin/src/plugins.rs:call", "crates/brack-codegen/src/square.rs", "crates/brack-codegen/src/curly.rs", "crates/brack-expander/src/expand.rs"]}
{"id": "C62", "title": "Random identifiers do not influence the output", "statement": "What a document compiles to, the calls made to plugins, the errors reported and the shape of the trees do not depend on the random identifiers drawn for the nodes, provided macros do not look at them.", "quantifier": "every document, plugin set and every two sequences of identifiers", "why_tests_cant": "every run draws other identifiers, so that tests only ever see a few of them", "anchors": ["crates/brack-transformer/src/transform.rs:transform", "crates/brack-expander/src/expand.rs:expander", "crates/brack-codegen/src/generate.rs:generate"]}
{"id": "C63", "title": "Paragraphs do not influence each other", "statement": "A document made of paragraphs separated by a blank line is read and compiled paragraph by paragraph: it is accepted if and only if every paragraph is accepted on its own, its syntax tree lists the statements of the paragraphs one after the other, its errors are the errors of the paragraphs with lines counted from where the paragraph starts, and (unless a plugin rewrites whole documents) its output is the outputs of the paragraphs one after the other.", "quantifier": "every number of paragraphs of every length and content, every plugin set and plugin state", "why_tests_cant": "two paragraphs interact only through the state of the tokenizer, the parser and the plugins after the first one, of which there are infinitely many", "anchors": ["crates/brack-tokenizer/src/tokenize.rs:tokenize", "crates/brack-parser/src/parse.rs:parse", "crates/brack-transformer/src/transform.rs:transform", "crates/brack-codegen/src/generate.rs:generate"]}
{"id": "C64", "title": "JSON output shows the whole result", "statement": "With JSON output, compile prints one line at levels 1 to 4. It is a JSON text from which a reader recovers exactly the tokens, the concrete syntax tree, the abstract syntax tree, or the tree after macro expansion: two different results are never printed alike.", "quantifier": "every document, plugin set and output level", "why_tests_cant": "recovering every tree from its text is a statement about infinitely many trees and texts, including quotes and control characters in the document", "anchors": ["src/main.rs:run_compile", "crates/brack-tokenizer/src/tokens.rs:Token", "crates/brack-parser/src/cst.rs:CST", "crates/brack-transformer/src/ast.rs:AST"]}
{"id": "C65", "title": "Trees get through to macros and back", "statement": "A macro is called with the JSON text of the whole document and of the identifier of the call, from which both can be recovered. The tree whose JSON text it returns, with fields in any order and any white space, takes the place of the document; a reply that is no JSON text is an error. In particular a macro that returns what it is given always succeeds.", "quantifier": "every document, macro and reply", "why_tests_cant": "the replies of plugins are arbitrary texts, trees have arbitrary depth", "anchors": ["crates/brack-plugin/src/plugin.rs:call", "crates/brack-plugin/src/plugins.rs:call_macro_command", "crates/brack-transformer/src/ast.rs:AST", "crates/brack-expander/src/expand.rs:expander"]}
{"id": "C66", "title": "Arguments get through to commands", "statement": "A command or hook is called with a JSON text from which exactly its arguments can be recovered. Whatever text it returns is taken over unchanged; a reply that is not valid UTF-8, and a failing call, are errors.", "quantifier": "every list of arguments, every plugin and reply", "why_tests_cant": "arguments are arbitrary texts", "anchors": ["crates/brack-plugin/src/plugin.rs:call", "crates/brack-plugin/src/value.rs:Value"]}
{"id": "C67", "title": "Declared commands are understood", "statement": "The commands a plugin offers are exactly those its get_metadata function returns as JSON text, with fields in any order and any white space; a reply that is no JSON text makes loading fail.", "quantifier": "every reply of a plugin", "why_tests_cant": "replies are arbitrary texts and parameter types are nested arbitrarily", "anchors": ["crates/brack-plugin/src/plugin.rs:new", "crates/brack-plugin/src/metadata.rs:Metadata", "crates/brack-plugin/src/types.rs:Type"]}
{"id": "C68", "title": "A new project is complete and nothing is overwritten", "statement": "brack new succeeds if the name is free and can be created; then there is a directory of that name with docs/main.[], Brack.toml and .gitignore of the prescribed contents, and nothing else has changed. If something of that name exists already, nothing happens at all. However the command ends, including when the disk is full in the middle, no existing file has changed.", "quantifier": "every name, every state of the file system and every place where an operation can fail", "why_tests_cant": "all states of the disk and all failures at every step", "anchors": ["src/main.rs:new_project", "src/main.rs:main"]}
{"id": "C69", "title": "A new project can be built", "statement": "A project made by brack new has a valid configuration with the name that was given and without plugins, and brack build in it succeeds at once, without the network, and writes one empty output.", "quantifier": "every name, every state of the file system", "why_tests_cant": "names are arbitrary texts that end up in a configuration file", "anchors": ["src/main.rs:new_project", "crates/brack-project-manager/src/project.rs:load_brack_toml", "crates/brack-project-manager/src/project.rs:build"]}
{"id": "C70", "title": "Commands write only in their places", "statement": "compile and version write no file; new writes only in the new directory; add only Brack.toml and files in plugins; build only files in plugins and out; the language server only files in plugins. No command deletes anything.", "quantifier": "every command with every options, every state of the file system, plugin behaviour, server and editor", "why_tests_cant": "that nothing else is ever written is a statement about all executions, including those of plugins", "anchors": ["src/main.rs:main", "crates/brack-project-manager/src/plugin.rs:add_plugin", "crates/brack-project-manager/src/project.rs:download_plugins_using_config", "crates/brack-project-manager/src/project.rs:build", "crates/brack-language-server/src/server.rs"]}
{"id": "C71", "title": "Only GitHub is contacted", "statement": "Every network request goes to https://github.com/, whatever the documents, the configuration, the plugins and the editor say; compile, new and version make no requests.", "quantifier": "every command with every options, every state of the file system, plugin behaviour, server and editor", "why_tests_cant": "absence of requests over all executions", "anchors": ["src/main.rs:main", "crates/brack-project-manager/src/plugin.rs:add_plugin", "crates/brack-project-manager/src/project.rs:download_plugins_using_config"]}
{"id": "C72", "title": "What is written is what is executed", "statement": "A document is written as paragraphs separated by blank lines, each made of lines of text, escaped characters and calls [module.name argument,argument] (or with braces or angles), nested to any depth, with spaces and line ends anywhere inside arguments. It is read without errors as exactly this: a statement per paragraph, an expression per line, each call with its module, name and arguments in order. Without macros, compiling it makes exactly the calls written, inner ones first, each with the results of its arguments, and succeeds unless a plugin fails if all commands exist with admissible numbers of arguments.", "quantifier": "every document of any size and nesting, every plugin set and plugin state", "why_tests_cant": "documents nest to any depth; tokenizer, parser, transformer and generator have to agree on all of them", "anchors": ["crates/brack-tokenizer/src/tokenize.rs:tokenize", "crates/brack-parser/src/parse.rs:parse", "crates/brack-transformer/src/transform.rs:transform", "crates/brack-expander/src/expand.rs:expander", "crates/brack-codegen/src/generate.rs:generate"]}
{"id": "C73", "title": "Accepted completions are calls", "statement": "When an opening bracket is typed and one of the listed completions is accepted, what stands in the document is a call of exactly the offered command, with the arguments typed where the cursor was left, or without arguments if nothing is typed; it is read without errors wherever it stands in a line, and the command is one that can be called.", "quantifier": "every set of plugins and commands they report, every document around it, every arguments typed", "why_tests_cant": "plugin and command names, documents and arguments are arbitrary; the editor, the server and the compiler have to agree", "anchors": ["crates/brack-language-server/src/request/completion.rs:build_completion_item", "crates/brack-language-server/src/request/completion.rs:handle_completion", "crates/brack-tokenizer/src/tokenize.rs:tokenize", "crates/brack-transformer/src/transform.rs:transform"]}
{"id": "C74", "title": "Edits do not influence the tokens before them", "statement": "If two texts begin alike, they have the same first tokens with the same ranges: all that end before the last character they have in common (in texts with combining characters, before the last but one). So what is typed after a place changes nothing of the highlighting and the structure of what stands before it at the level of tokens.", "quantifier": "every two texts with a common beginning, every segmentation that conforms to Unicode", "why_tests_cant": "texts and edits are arbitrary; a tokenizer with unbounded lookahead behaves alike on short samples", "anchors": ["crates/brack-tokenizer/src/tokenize.rs:tokenize", "crates/brack-tokenizer/src/tokenize.rs:tokenize_str"]}
{"id": "C75", "title": "Building twice changes nothing", "statement": "After a build that has succeeded, a second build of the unchanged project succeeds as well if nothing goes wrong on the file system. It makes no request, so it also works without a network; it leaves every file and every directory as it is; and it prints the same lines. Neither the order in which the plugins are loaded nor the identifiers drawn matter.", "quantifier": "every project, every plugins (also those that keep a state), every order of loading them, every random identifiers, every behaviour of the network in the second build", "why_tests_cant": "projects, plugins and orders are arbitrary; a build that appends to outputs or reads its own outputs shows this only in a second run", "anchors": ["crates/brack-project-manager/src/project.rs:build", "crates/brack-project-manager/src/project.rs:download_plugins_using_config", "src/main.rs:main"]}
{"id": "C76", "title": "Documents do not influence each other", "statement": "The output of a document depends on its contents and on the plugins only, not on which other documents the project has, nor on the order in which they are listed; and a document that compiles gets its output whatever the other documents are.", "quantifier": "every two projects that share a document and the plugins", "why_tests_cant": "projects and plugins are arbitrary; state shared between documents shows only for some plugins and some orders of the directory listing", "anchors": ["crates/brack-project-manager/src/project.rs:build", "crates/brack-plugin/src/plugins.rs:Plugins", "crates/brack-codegen/src/generate.rs:generate"]}
{"id": "C77", "title": "A project can be built from its sources", "statement": "A project consisting of its configuration and its documents only, as it comes out of version control, can be built: the build fetches what is missing and succeeds if every plugin can be fetched and loaded, every document compiles and nothing is in the way on the file system.", "quantifier": "every project, every plugins and states they get into, every server and network", "why_tests_cant": "projects, plugins and states of the file system are arbitrary; test projects have their directories already", "anchors": ["crates/brack-project-manager/src/project.rs:download_plugins_using_config", "crates/brack-project-manager/src/project.rs:build", "src/main.rs:main"]}
{"id": "C78", "title": "Answers reflect the document as edited", "statement": "What the server says about a document (its semantic tokens, its diagnostics) is about the text as the editor has it at that time: as opened, with all changes the editor has notified, saved or not.", "quantifier": "every sequence of messages, every document and edit", "why_tests_cant": "sessions and edits are unbounded; whether a notification has an effect later is a statement about all continuations", "anchors": ["crates/brack-language-server/src/notification/did_change.rs:handle_text_document_did_change", "crates/brack-language-server/src/notification/did_save.rs:handle_text_document_did_save", "crates/brack-language-server/src/request/semantic_tokens.rs:handle_semantic_tokens_full"]}
{"id": "C79", "title": "Diagnostics are addressed to their document", "statement": "The diagnostics the server publishes name the document they are about by the URI under which the editor has opened it.", "quantifier": "every document and URI, every conversion of URIs to paths", "why_tests_cant": "URIs are arbitrary", "anchors": ["crates/brack-language-server/src/notification/did_save.rs:handle_text_document_did_save", "crates/brack-language-server/src/server.rs:send_publish_diagnostics"]}
{"id": "C80", "title": "Sessions begin and end as the protocol says", "statement": "A request before the session is initialized is answered with an error; shutdown is answered with success; exit ends the server; the server also ends when its input ends, and only if all messages before were handled it ends successfully.", "quantifier": "every sequence of messages, every state of the server", "why_tests_cant": "sessions are of unbounded length", "anchors": ["crates/brack-language-server/src/server.rs:run", "crates/brack-language-server/src/request.rs:handle_request", "crates/brack-language-server/src/notification.rs:handle_notification"]}
{"id": "C81", "title": "What the server announces is what it serves", "statement": "Of the requests a client makes only if the server has announced them in the answer to initialize, exactly those announced are answered with a result; every announced trigger character of completion can offer something.", "quantifier": "every initialize request, every later state of the server, every method", "why_tests_cant": "methods and states are arbitrary, and the announcement and the dispatch are two separate pieces of code", "anchors": ["crates/brack-language-server/src/request.rs:handle_request", "crates/brack-language-server/src/request/completion.rs:handle_completion"]}
{"id": "C82", "title": "Completion offers the commands of the document's project", "statement": "After a document of a project was opened, completion in it lists exactly the commands of the plugins in the configuration of that project, each once, whatever else happens in the session, such as documents of other projects being opened.", "quantifier": "every session, every projects and plugins", "why_tests_cant": "sessions, projects and plugins are arbitrary; the offers depend on state left behind by earlier messages", "anchors": ["crates/brack-language-server/src/notification/did_open.rs:handle_text_document_did_open", "crates/brack-language-server/src/request/completion.rs:handle_completion", "crates/brack-project-manager/src/project.rs:download_plugins_using_config"]}
{"id": "C83", "title": "Opening a document does not stop the server", "statement": "Whatever document is opened, in whatever project, with or without a network, saved or not, the server goes on.", "quantifier": "every document path, project configuration, state of the file system and of the network", "why_tests_cant": "needs every combination of files present, network behaviour and configuration", "anchors": ["crates/brack-language-server/src/notification/did_open.rs:handle_text_document_did_open", "crates/brack-project-manager/src/project.rs:download_plugins_using_config"]}
{"id": "C84", "title": "Bad messages are answered with errors", "statement": "A message that cannot be understood (an unknown or missing method, parameters of the wrong form, content that is not JSON, malformed header lines) does not stop the server; if it is a request it is answered with the error code the protocol has for this, and later messages are handled as usual.", "quantifier": "every message and header, every state of the server", "why_tests_cant": "the set of malformed messages is infinite", "anchors": ["crates/brack-language-server/src/server.rs:run", "crates/brack-language-server/src/server.rs:dispatch", "crates/brack-language-server/src/request.rs:handle_request", "crates/brack-language-server/src/notification.rs:handle_notification"]}
{"id": "C85", "title": "Changes of the configuration take effect", "statement": "After Brack.toml was changed (the entry of a plugin, or the backend), the next build uses the plugins named by the new configuration: a plugin that has not been fetched for it is fetched, and the outputs are made by it.", "quantifier": "every two configurations and states of the file system, every digest function without collisions, every server", "why_tests_cant": "caches are wrong only for certain pairs of configurations; digests and configurations are arbitrary", "anchors": ["crates/brack-project-manager/src/project.rs:download_plugins_using_config", "src/main.rs:main"]}
{"id": "C86", "title": "Text output of compile tells everything", "statement": "Without JSON output, compile prints each token on a line of its own at level 1, one line with the concrete syntax tree at level 2, at level 3 one line with the abstract syntax tree or, if errors were found, one line for each of them, and at level 4 one line with the tree after macro expansion. The lines determine the tokens, trees and errors completely (kinds, texts, ranges, order), whatever characters the document contains, and errors cannot be mistaken for a tree. It fails only if there is no such result.", "quantifier": "every document, plugin set and output level 1 to 4, every table of printable characters", "why_tests_cant": "documents contain arbitrary characters, among them quotes, line feeds and brackets that occur in the output format itself", "anchors": ["src/main.rs:run_compile", "crates/brack-tokenizer/src/tokens.rs:Token", "crates/brack-parser/src/cst.rs:CST", "crates/brack-transformer/src/ast.rs:AST", "crates/brack-transformer/src/error.rs:TransformError"]}
{"id": "C87", "title": "Different plugin entries have different cache files", "statement": "The name of the file in which a plugin is kept consists of its name in the configuration and the digest of a text from which its whole entry (owner, repository, version, hooks) can be read off. Two entries share a file only if they have the same name and are equal, or the hash function does not tell apart their texts. So after any change of an entry the next build fetches the file the changed entry names, unless the hash collides. The digest contains no character with a meaning in paths or plugin file names.", "quantifier": "every two entries and names, every hash function", "why_tests_cant": "entries contain arbitrary characters; a test cannot exclude that two different entries are written the same way", "anchors": ["crates/brack-project-manager/src/plugin.rs:hash_sha256", "crates/brack-project-manager/src/plugin.rs:PluginSchema", "crates/brack-project-manager/src/project.rs:download_plugins_using_config"]}
{"id": "C88", "title": "Completion details tell the signature", "statement": "In the list of completions, the detail of each command shows the names and types of its parameters and its return type as the plugin reports them, so that no two different signatures have the same detail.", "quantifier": "every plugin, command and signature, with arbitrary names and nested types", "why_tests_cant": "names and types are arbitrary and unbounded", "anchors": ["crates/brack-language-server/src/request/completion.rs:build_completion_item", "crates/brack-plugin/src/types.rs:Type"]}
{"id": "C89", "title": "Any text can be written as a document", "statement": "For every text there is a document whose compilation outputs exactly this text, whatever plugins are installed, and it can be obtained from the text by a fixed rule such as putting a backslash before each character with a special meaning.", "quantifier": "every text, every plugin set without hooks, every segmentation into clusters", "why_tests_cant": "the texts are infinitely many; escaping fails only for certain combinations of characters", "anchors": ["crates/brack-tokenizer/src/dispatch.rs:dispatch", "crates/brack-tokenizer/src/backslash.rs:tokenize", "crates/brack-tokenizer/src/newline.rs:tokenize", "crates/brack-codegen/src/generate.rs:generate"]}
{"id": "C90", "title": "Tokenizing takes memory in proportion to the document", "statement": "The memory in use while a document is tokenized, on the stack and on the heap, is bounded in terms of the document: the stack by a constant, the copies of the text held at the same time by a constant times its length.", "quantifier": "every document", "why_tests_cant": "the bound concerns documents of every length; tests use short ones", "anchors": ["crates/brack-tokenizer/src/tokenize.rs:tokenize_str", "crates/brack-tokenizer/src/dispatch.rs:dispatch", "crates/brack-tokenizer/src/tokenizer.rs:Tokenizer"]}
{"id": "C91", "title": "Clearing the plugin cache makes room for fresh plugins", "statement": "After clear_plugins the directory plugins exists and is empty and no plugin is registered; nothing outside of it is touched, nothing is requested or printed. The next download fetches each plugin of the configuration again, so that files a crash left incomplete are replaced. It works whether or not there was a cache before, and if it was interrupted it can be repeated.", "quantifier": "every content of the file system and cache, every configuration, every point of interruption", "why_tests_cant": "depends on the content of the disk and on where an interruption happens", "anchors": ["crates/brack-project-manager/src/project.rs:clear_plugins", "crates/brack-project-manager/src/project.rs:download_plugins_using_config"]}
{"id": "C92", "title": "A plugin that a document does not use has no influence on it", "statement": "A plugin with a nonempty name, to which no hook is bound and whose name does not stand in front of a dot in a command or macro of the document, has no influence on how the document is compiled: adding, removing or exchanging such plugins changes neither output nor error nor the calls that reach the other plugins, and such a plugin is not called. A project with one such plugin more, that none of its documents uses, is built with the same result, files and printed lines.", "quantifier": "every document, every plugin set and plugin behaviour, every set of unused plugins, every place in the list of plugins, every project", "why_tests_cant": "quantifies over all documents and all behaviours of the plugins, including plugins that remember calls", "anchors": ["crates/brack-codegen/src/square.rs:generate", "crates/brack-expander/src/expand.rs:expander", "crates/brack-plugin/src/plugins.rs:new", "crates/brack-project-manager/src/project.rs:build"]}
{"id": "C93", "title": "Asking the language server changes nothing", "statement": "Any message to the language server except the one with which the client introduces itself and the one that opens a document (so requests for tokens or completions, saving, changing, unknown messages) leaves all files and the server itself as they are; nothing is written and nothing is fetched from the network. The answer depends only on the files and on what was said when the client introduced itself and opened documents, not on the network or on what was asked before. A question more or less at any point of a session makes no difference to anything else the server does or says in that session, provided the question does not stop the server.", "quantifier": "every session, every question at every point of it, every state of files and network that answers the same request in the same way at all times, every plugin behaviour", "why_tests_cant": "quantifies over all sessions and messages; a test asks a few questions in a fixed order", "anchors": ["crates/brack-language-server/src/request.rs:handle_request", "crates/brack-language-server/src/notification.rs:handle_notification", "crates/brack-language-server/src/request/completion.rs:handle_completion"]}
{"id": "C94", "title": "Further empty lines and line breaks at the end make no difference", "statement": "Where two or more line feeds follow each other in a document, be it between paragraphs, inside a bracket or anywhere else, their number makes no difference: the document is accepted or not, has errors or not, has the same statements, brackets, arguments and texts and the same output. Line feeds at the end of a document make no difference either, be it one, several or none. (A line feed right after a carriage return belongs to it and is not counted.)", "quantifier": "every document, every place in it, every two numbers of line feeds, every plugin set, every segmentation into clusters", "why_tests_cant": "the number of line feeds is unbounded, and the place may be inside any nesting of brackets, after a backslash or where a name is expected", "anchors": ["crates/brack-tokenizer/src/newline.rs:tokenize", "crates/brack-parser/src/parse.rs:parse", "crates/brack-parser/src/newline.rs:parse", "crates/brack-transformer/src/document.rs:simplify"]}
{"id": "C95", "title": "Arguments may be laid out freely", "statement": "In a bracket, once its name has been given, spaces and line breaks after a comma or a space make no difference, whatever their number and mixture: the document is accepted or not, has errors or not, has the same statements, brackets, arguments and texts and the same output. So arguments can be written on lines of their own and indented. (A combining character right after the comma or space would belong to it.)", "quantifier": "every document, every unescaped comma or space token of it where no name is due, every two sequences of spaces and line feeds, every plugin set, every segmentation into clusters", "why_tests_cant": "the sequences are unbounded and the place may be inside any nesting of brackets, closed or not", "anchors": ["crates/brack-tokenizer/src/comma.rs:tokenize", "crates/brack-tokenizer/src/whitespace.rs:tokenize", "crates/brack-parser/src/expr.rs:parse", "crates/brack-transformer/src/utils.rs:remove_whitespaces_and_newlines"]}
{"id": "C96", "title": "Adding a plugin keeps what its author wrote in the configuration", "statement": "brack add changes Brack.toml by adding an entry for the plugin. Everything else stays in the file: the other settings, sections and keys of other tools, comments, and the layout.", "quantifier": "every configuration file, every argument, every state of files and network", "why_tests_cant": "the rewriting concerns arbitrary contents of the file, also such as the code knows nothing about", "anchors": ["crates/brack-project-manager/src/plugin.rs:add_plugin", "crates/brack-project-manager/src/config.rs:Config"]}
{"id": "C97", "title": "Everything stands inside the commands whose brackets are open around it", "statement": "The tree of a document has one command for each opening bracket that is not escaped, in the order of the document, with the kind of the bracket and its position, and one leaf for each name, text, escaped character and useless backslash. Each of them stands inside exactly those commands whose brackets are open at its place: a closing bracket ends the innermost open bracket of its kind and all brackets opened inside of that one. This holds for documents with errors as well, as the language server shows them.", "quantifier": "every document that has a tree, every nesting of brackets, closed or not", "why_tests_cant": "nestings are unbounded in depth and number; errors in one bracket can affect what encloses what elsewhere", "anchors": ["crates/brack-parser/src/expr.rs:parse", "crates/brack-parser/src/square.rs:parse", "crates/brack-transformer/src/square.rs:simplify", "crates/brack-transformer/src/utils.rs:check_valid_arguments", "crates/brack-transformer/src/transform.rs:transform"]}
{"id": "C98", "title": "A command is read where it stands as it is read on its own", "statement": "Take a document and in it a complete command, from its opening to its closing bracket. Replace it by another complete command in the same kind of brackets. Everything else stays as it is: the tree has, at the place of the command, the tree that the command has as a document of its own, and is unchanged elsewhere; of the errors only those of the command itself are replaced; and if the two commands yield the same output on their own, the documents yield the same output. So commands can be written, tested and moved one by one.", "quantifier": "every document, every place in it, every two complete commands, every plugin set and plugin behaviour, every segmentation into clusters", "why_tests_cant": "commands and documents are unbounded, and the state of the tokenizer before the command could be anything", "anchors": ["crates/brack-tokenizer/src/tokenizer.rs:Tokenizer", "crates/brack-tokenizer/src/dispatch.rs:dispatch", "crates/brack-parser/src/expr.rs:parse", "crates/brack-transformer/src/transform.rs:transform", "crates/brack-codegen/src/square.rs:generate"]}
{"id": "C99", "title": "The names of the plugins can be chosen freely", "statement": "The name under which a plugin is used has no influence on what it does. Give the plugins other names, different plugins different ones, and write these in the commands of a document in place of the old ones: loading the plugins succeeds or fails as before, with the same hooks, and the document is compiled to the same output, with the same calls in the same order, leaving the plugins in the same states; it is not compiled if it was not compiled before, and without macros fails with the same message.", "quantifier": "every document, every plugin set and plugin behaviour, every renaming that keeps different names different", "why_tests_cant": "quantifies over all documents, all plugins and all renamings", "anchors": ["crates/brack-plugin/src/plugins.rs:new", "crates/brack-plugin/src/plugin.rs:new", "crates/brack-codegen/src/square.rs:generate", "crates/brack-codegen/src/curly.rs:generate"]}
{"id": "C100", "title": "Trees are as deep as brackets are nested and not larger than the text", "statement": "How deep the trees of a document are, and with them how deep the functions that parse, check, expand, generate and print it call themselves, depends on the nesting of its brackets and not on its length: with at most n commands open at once, no way down the concrete tree has more than 2n+5 nodes, none down the abstract tree more than 2n+4, and not less than n. How large they are depends on its length only: at most four nodes for each character, and five more. This holds for documents with errors as well. (So every document with at most 19 commands open at once can be passed to macros and back.)", "quantifier": "every document that has a tree, every nesting of brackets, closed or not", "why_tests_cant": "documents are unbounded in length and nesting; a test meets a few depths", "anchors": ["crates/brack-parser/src/expr.rs:parse", "crates/brack-parser/src/square.rs:parse", "crates/brack-transformer/src/transform.rs:transform", "crates/brack-transformer/src/utils.rs:check_valid_arguments"]}
{"id": "C101", "title": "Printed trees and errors tell what they show", "statement": "The tree of every document can be printed, without panicking, as is done in error messages. What is printed tells the tree: two documents print alike exactly if they are read alike, as the same statements, commands, names, arguments and texts in the same order; a printed concrete tree also tells every bracket, separator, escaped character, space and line end. The text of an error tells its kind and where it starts and ends.", "quantifier": "every two documents that have a tree, every two concrete trees with any identifiers, every two errors", "why_tests_cant": "two printed trees could coincide by what names and texts contain; trees, names and texts are unbounded", "anchors": ["crates/brack-transformer/src/ast.rs:display_with_ident", "crates/brack-parser/src/cst.rs:display_with_indent", "crates/brack-transformer/src/error.rs:fmt"]}
{"id": "C102", "title": "The configuration file is read as it says", "statement": "A project's configuration file is accepted exactly if it is a TOML file with a table document that has name, version and backend as texts and authors as a list of texts, and, if there is a table plugins, each entry in it has schema \"github\", owner, repo and version as texts and at most the four hook settings as truth values besides, nothing missing, misspelt or given twice; keys of other tools elsewhere are ignored. The configuration then used has exactly these values. If the file is missing or not acceptable, brack build and brack add report an error and change nothing.", "quantifier": "All contents of the configuration file (as TOML values in which no table has a key twice), all projects and all plugins", "why_tests_cant": "Files can have any keys in any order and nesting; tests show that some files are accepted or rejected, but not that every wrong file is rejected and every right one read with the right values", "anchors": ["crates/brack-project-manager/src/config.rs: Config", "crates/brack-project-manager/src/document.rs: Document", "crates/brack-project-manager/src/plugin.rs: PluginSchema (Deserialize)", "crates/brack-project-manager/src/project.rs: load_brack_toml"]}
{"id": "C103", "title": "The commands crash only for known reasons", "statement": "Commands report errors instead of crashing. brack new, brack add and brack version never crash. brack build and brack compile crash neither for a missing or wrong configuration, file, plugin or option nor for anything written in a document.", "quantifier": "all options, configurations, projects, documents, plugins, states and faults of the disk and answers from the network", "why_tests_cant": "a crash can come from any combination of document, plugins and file system; tests try few of them", "anchors": ["src/main.rs:main", "src/main.rs:run_compile", "crates/brack-project-manager/src/project.rs:build", "crates/brack-project-manager/src/project.rs:download_plugins_using_config", "crates/brack-project-manager/src/plugin.rs:add_plugin", "crates/brack-transformer/src/transform.rs:transform", "crates/brack-expander/src/expand.rs:expander"]}
{"id": "C104", "title": "The language server runs until its input ends", "statement": "An editor can rely on the language server: while the client sends well-formed messages and the file system works, the server goes on after every message, whatever documents are opened and saved and whatever is in them, and stops only when its input ends. It does not crash. If its output is closed, it stops as soon as it has something to say.", "quantifier": "all sessions of well-formed messages however they are cut by the transport, all documents, projects, plugins, server states and answers from the network", "why_tests_cant": "what ends a session depends on the messages before it, the documents on the disk and the plugins; tests follow a few sessions", "anchors": ["crates/brack-language-server/src/server.rs:run", "crates/brack-language-server/src/server.rs:dispatch", "crates/brack-language-server/src/notification/did_open.rs:handle_text_document_did_open", "crates/brack-language-server/src/notification/did_save.rs:handle_text_document_did_save", "crates/brack-language-server/src/request/completion.rs:handle_completion"]}
{"id": "C105", "title": "The language server sends only messages of the protocol", "statement": "Whatever the client sends, valid messages or any bytes, everything the language server sends has the form the Language Server Protocol fixes: log messages of the type information, diagnostics with ranges and texts, and responses that carry the id of a request and either an error with code and text or a result of the form fixed for its method (capabilities; five numbers for each semantic token; completion items). No required field is missing, no field occurs twice, none is unknown, and all numbers fit 32 bits. Nothing else appears on the output, even if reading or writing fails.", "quantifier": "all sequences of bytes received, however cut, all server states, documents, projects and plugins, all failures of reading and writing", "why_tests_cant": "clients of the protocol reject or misread messages of another form, and which messages are sent depends on the whole session; tests see a few messages", "anchors": ["crates/brack-language-server/src/server.rs:send_stdout", "crates/brack-language-server/src/server.rs:log_message", "crates/brack-language-server/src/server.rs:send_publish_diagnostics", "crates/brack-language-server/src/request.rs:handle_request", "crates/brack-language-server/src/request/semantic_tokens.rs:separate", "crates/brack-language-server/src/request/completion.rs:build_completion_item"]}
{"id": "C106", "title": "Bad input does not crash the language server", "statement": "Whatever bytes are sent to the language server: it takes as a message exactly what a header of lines with names and values announces by its content length, keeps what follows for the next message, stops with an error and without having done anything if the bytes are no text, the length is no number or the content is no JSON, and otherwise waits for more. It never crashes, and it always remains able to take further messages.", "quantifier": "all sequences of bytes, however cut into reads, all server states, documents and plugins", "why_tests_cant": "headers can be wrong in unboundedly many ways, and lengths can end anywhere, also within characters; tests send a few", "anchors": ["crates/brack-language-server/src/server.rs:run", "crates/brack-language-server/src/server.rs:dispatch"]}
{"id": "C107", "title": "Which commands run is decided by the document", "statement": "What a command, hook or macro returns is never read as markup, and has no influence on what else is called. If a document is compiled with plugins that declare the same but do different things, then, as long as none of them fails, the same commands, hooks and macros are called in the same order, with as many values of the same kinds, and the document compiles with both or fails with the same error with both. If a call fails, then the calls up to it are the same.", "quantifier": "all texts, all pairs of plugin sets with the same declarations, whatever their functions do and return, all identifiers", "why_tests_cant": "plugins can return any text, including markup, and can behave differently at every call; tests try a few plugins", "anchors": ["crates/brack-codegen/src/square.rs:generate", "crates/brack-codegen/src/curly.rs:generate", "crates/brack-codegen/src/expr.rs:generate", "crates/brack-codegen/src/stmt.rs:generate", "crates/brack-codegen/src/generate.rs:generate", "crates/brack-expander/src/expand.rs:expander", "crates/brack-plugin/src/plugins.rs:Plugins::call_inline_command"]}
{"id": "C108", "title": "Failures of plugins are not passed over", "statement": "If a command, hook or macro fails while a document is compiled, then nothing else is called, and compiling fails with the error that the plugin has returned. If a document compiles, or a whole build succeeds, then no call of a plugin has failed.", "quantifier": "all texts, all plugins, whatever they do at each call, all projects", "why_tests_cant": "any of the calls made for a document can fail, at any depth; tests let a few fail", "anchors": ["crates/brack-codegen/src/square.rs:generate", "crates/brack-codegen/src/curly.rs:generate", "crates/brack-codegen/src/text.rs:generate", "crates/brack-expander/src/expand.rs:expander", "crates/brack-plugin/src/plugin.rs:Plugin::call", "crates/brack-project-manager/src/project.rs:build"]}
{"id": "C109", "title": "A document without errors compiles unless a command is at fault", "statement": "If no error is reported for a document, its commands and macros are declared by plugins and given admissible numbers of arguments, and no command, hook or macro fails, then the document is compiled.", "quantifier": "all texts, all sets of plugins", "why_tests_cant": "whether a document compiles depends on every node of its tree and on every call; tests compile a few documents", "anchors": ["crates/brack-codegen/src/generate.rs:generate", "crates/brack-codegen/src/square.rs:generate", "crates/brack-codegen/src/curly.rs:generate", "crates/brack-expander/src/expand.rs:expander", "crates/brack-transformer/src/transform.rs:transform"]}
{"id": "C110", "title": "Characters are never torn apart", "statement": "Tokens begin and end only between user-perceived characters, as Unicode defines them (extended grapheme clusters, UAX #29): a letter with its accents, a flag, a joined emoji or a syllable is never split between two tokens. The range of a token is as wide as the number of these characters.", "quantifier": "all texts, all tables of Unicode properties", "why_tests_cant": "the rules look at unboundedly many code points before a place; tests try a few sequences", "anchors": ["crates/brack-tokenizer/src/utils.rs:separate", "crates/brack-tokenizer/src/tokenize.rs:tokenize", "crates/brack-tokenizer/src/dispatch.rs:dispatch", "crates/brack-tokenizer/src/text.rs:tokenize"]}
{"id": "C111", "title": "A build can be repeated", "statement": "After a build has ended in any way (all outputs written, a document rejected, a write failed or the process killed in the middle), building again in the same project gives what a first build would have given: it succeeds if and only if a first build would have, with the same files.", "quantifier": "all projects, all states of the disk, all ways in which the first build can be interrupted", "why_tests_cant": "a build can be interrupted at every operation, and within every write; tests interrupt none", "anchors": ["crates/brack-project-manager/src/project.rs:build", "crates/brack-project-manager/src/project.rs:download_plugins_using_config", "src/main.rs:main"]}
{"id": "C112", "title": "The output directory holds the outputs of the documents and nothing else", "statement": "After a successful build the output directory contains exactly one file for every document in docs, and what the build lists is exactly what it has produced.", "quantifier": "all projects, all states of the output directory before the build", "why_tests_cant": "depends on every earlier build and every document ever present; tests start from an empty directory", "anchors": ["crates/brack-project-manager/src/project.rs:build", "src/main.rs:main"]}
{"id": "C113", "title": "JSON output can be read back with the types of the library", "statement": "What brack compile prints with --json (tokens, concrete and abstract syntax trees) can be read by a program that uses the library's own types, and gives the same tokens and trees; the order of fields and white space do not matter.", "quantifier": "all texts, all identifiers, all ways to write the fields", "why_tests_cant": "there are unboundedly many trees, of any depth; tests read none", "anchors": ["crates/brack-tokenizer/src/tokens.rs:Token", "crates/brack-parser/src/cst.rs:CST", "crates/brack-transformer/src/ast.rs:AST"]}
{"id": "C114", "title": "Plugins see only the document", "statement": "Each text passed to a command or hook while a document is compiled, and the output, is put together from parts of that document, in the order in which they stand there and none twice, and from texts returned by earlier calls for the same document. Nothing else (other documents, the configuration, the environment) reaches a plugin, and line breaks reach one only if another plugin returned them.", "quantifier": "all texts, plugins with any behaviour, hooks or not", "why_tests_cant": "there are unboundedly many documents and plugins; a test sees only the texts of the calls it looks at", "anchors": ["crates/brack-codegen/src/generate.rs:generate", "crates/brack-codegen/src/curly.rs:generate", "crates/brack-codegen/src/square.rs:generate", "crates/brack-codegen/src/text.rs:generate"]}
{"id": "C115", "title": "Any call can be written", "statement": "For each command and all arguments there is a document that makes exactly this call, with exactly these arguments.", "quantifier": "all commands, numbers of arguments and texts as arguments, all plugins that offer the command", "why_tests_cant": "there are unboundedly many arguments; whether some are impossible to write cannot be seen from examples", "anchors": ["crates/brack-tokenizer/src/tokenize.rs:tokenize", "crates/brack-codegen/src/square.rs:generate", "crates/brack-codegen/src/curly.rs:generate"]}
{"id": "C116", "title": "Errors are reported in the order of the document", "statement": "The errors reported for a document come in the order in which the faulty places stand in it, so that the first one reported is the first one in the document.", "quantifier": "all texts", "why_tests_cant": "the order depends on how commands are nested and on which errors coincide; tests look at documents with one error", "anchors": ["crates/brack-transformer/src/transform.rs:transform", "crates/brack-transformer/src/simplify.rs:simplify", "crates/brack-transformer/src/square.rs:simplify", "crates/brack-transformer/src/utils.rs:check_valid_arguments"]}
{"id": "C117", "title": "Nothing written is lost and nothing is used twice", "statement": "When a document compiles, each text written in it and each text returned by a plugin is used exactly once and whole: either in an argument of a later call or in the output.", "quantifier": "all texts, plugins with any behaviour, hooks or not", "why_tests_cant": "there are unboundedly many documents, nestings and plugins; a test compares one output with an expected one and does not see what was left out", "anchors": ["crates/brack-codegen/src/generate.rs:generate", "crates/brack-codegen/src/curly.rs:generate", "crates/brack-codegen/src/square.rs:generate", "crates/brack-codegen/src/text.rs:generate"]}
{"id": "C118", "title": "Commands that no plugin offers are not passed over", "statement": "If a document compiles, then every command in it, at any depth, closed or not, names a loaded plugin and a command that this plugin offers for this kind of bracket. So a misspelt plugin, a misspelt command, or brackets of the wrong kind make the compilation fail wherever they are; and with no plugins loaded only documents without commands compile, as the README promises.", "quantifier": "all texts, all plugin sets with any behaviour, all places of the command in the document, all names, all kinds of brackets, with and without overflow checks", "why_tests_cant": "a test misspells one command at one place; that there is no place in any document (inside of unclosed brackets, after errors, inside of arguments that are dropped) where a misspelt command is tolerated is a statement about all documents", "anchors": ["crates/brack-codegen/src/curly.rs:generate", "crates/brack-codegen/src/square.rs:generate", "crates/brack-codegen/src/generate.rs:generate", "crates/brack-plugin/src/plugins.rs:argument_types"]}
{"id": "C119", "title": "With a text hook, what is written reaches the output only through the hook", "statement": "If a plugin has the text hook, as plugins for HTML use it to escape characters, then nothing written in the document gets into the output or into an argument of a command or of another hook by itself: everything there is made of texts that plugin calls returned before. In a successful compilation the text hook is called exactly once with each text of the document, in order. So a character that no call returns is not in the output, whatever the document holds.", "quantifier": "all texts, all plugin sets with a text hook and any behaviour, all calls made while compiling, also if the compilation fails, with and without overflow checks", "why_tests_cant": "a test looks for a few dangerous characters in a few outputs; that no path through the compiler (escaped characters, arguments, single spaces, hooks that return nothing) bypasses the hook is a statement about all documents and plugins", "anchors": ["crates/brack-codegen/src/text.rs:generate", "crates/brack-codegen/src/expr.rs:generate", "crates/brack-codegen/src/square.rs:generate", "crates/brack-codegen/src/curly.rs:generate", "crates/brack-plugin/src/plugins.rs:call_text_hook"]}
{"id": "C120", "title": "Parsing takes time in proportion to the length of the document", "statement": "The number of steps taken to parse a document (calls of parsing functions, failing attempts included, and nodes copied) is at most proportional to its length, so that editors and builds stay responsive; in particular nothing is parsed again and again.", "quantifier": "all texts, also those that are not accepted", "why_tests_cant": "tests measure a few documents; that backtracking does not explode and copying does not pile up for some shape of document is a statement about all documents", "anchors": ["crates/brack-parser/src/parse.rs:parse", "crates/brack-parser/src/expr.rs:parse", "crates/brack-parser/src/angle.rs:parse", "crates/brack-parser/src/stmt.rs:parse", "crates/brack-parser/src/cst.rs:add"]}
{"id": "C121", "title": "What the words of a document say has no influence on which commands run", "statement": "If words of a document, outside of brackets or in an argument, are replaced by other words (one or more characters without a meaning in the markup), then the document keeps its structure and the same problems are reported for it; the same commands and hooks of the same plugins are called, in the same order and with as many values of the same forms, and it compiles if and only if it did before, unless a plugin itself reacts to the words. So filling a template with data cannot make other commands run.", "quantifier": "all documents and all places in them where words stand, all words in all scripts, all plugin sets (also two sets that only declare the same commands), with and without overflow checks", "why_tests_cant": "a test replaces a few words in a few documents; that no word in any place is ever taken for a name, a keyword or a separator is a statement about all texts", "anchors": ["crates/brack-tokenizer/src/tokenize.rs:tokenize", "crates/brack-parser/src/parse.rs:parse", "crates/brack-transformer/src/transform.rs:transform", "crates/brack-codegen/src/generate.rs:generate", "crates/brack-plugin/src/plugins.rs:call_inline_command"]}
{"id": "C122", "title": "The output of a document is the sum of its parts", "statement": "With plugins without memory (what a command returns depends on its arguments only), the output of a document can be read off from it: texts stand for themselves, commands for what they return given the outputs of their arguments, put together in order, with the hooks applied around. So compiling the same document again or after other documents gives the same output, parts with the same output can be exchanged anywhere, and a command can be replaced by what it returns wherever no text hook interferes.", "quantifier": "all documents of paragraphs, lines, words, escaped characters and nested commands, in all ways of writing them; all plugins without memory that declare required parameters first, with any hooks; all places of the replaced part", "why_tests_cant": "a test compares outputs of a few documents with expected ones; that output is composed in this way, with no influence between parts, for every document and plugin is a statement about all of them", "anchors": ["crates/brack-codegen/src/generate.rs:generate", "crates/brack-codegen/src/expr.rs:generate", "crates/brack-codegen/src/stmt.rs:generate", "crates/brack-codegen/src/square.rs:generate", "crates/brack-codegen/src/curly.rs:generate", "crates/brack-codegen/src/text.rs:generate", "crates/brack-plugin/src/plugins.rs:call_inline_command"]}
{"id": "C123", "title": "A project can be built exactly if each of its documents compiles", "statement": "With plugins whose commands leave no trace, brack build succeeds if and only if each document of the project compiles on its own. Then each document has exactly the output that it has on its own, whatever the order in which the directory lists the documents. If the build fails, it is because of a document that does not compile on its own either, with the error of that document.", "quantifier": "all projects with any number of documents in any order of listing, all contents of documents, all plugins without memory; all ways a document can fail", "why_tests_cant": "a test builds a few projects; that no combination or order of documents that compile one by one makes a build fail, and that a failing build always blames a document at fault, ranges over all projects", "anchors": ["crates/brack-project-manager/src/project.rs:build", "crates/brack-plugin/src/plugins.rs:Plugins", "crates/brack-codegen/src/generate.rs:generate"]}
{"id": "C124", "title": "A document makes a bounded number of calls", "statement": "Compiling a document calls plugins at most in proportion to its length, whatever the plugins return; in particular what they return is not read again as a document. Without hooks, there is at most one call per opening bracket of the document, also if compilation fails, and exactly one per command if it succeeds.", "quantifier": "all segmenters, texts, identifier sources and plugin sets, with any behaviour and any state of the plugins", "why_tests_cant": "Tests try a few documents and plugins; that no document and no plugin output leads to more calls is a claim about all of them", "anchors": ["crates/brack-codegen/src/generate.rs:generate", "crates/brack-codegen/src/square.rs:generate", "crates/brack-expander/src/expand.rs:expander", "crates/brack-plugin/src/plugins.rs:call"]}
{"id": "C125", "title": "Errors do not multiply", "statement": "At most three of the errors reported for a document start at the same place. So a document has at most three errors for each of its tokens, and at most three for each of its characters and one more: a list of problems shown in an editor or printed by brack check cannot be much longer than the document, however badly it is written.", "quantifier": "all segmenters, texts and identifier sources; documents with any number of errors, nested in any way", "why_tests_cant": "tests count the errors of a few wrong documents; that no combination of mistakes makes the same place be reported again and again (by the brackets around it, or by checks of the same bracket) is a statement about all documents", "anchors": ["crates/brack-transformer/src/transform.rs:transform", "crates/brack-transformer/src/simplify.rs:simplify", "crates/brack-transformer/src/utils.rs:check_valid_arguments", "crates/brack-transformer/src/utils.rs:check_unexpected_dot"]}
{"id": "C126", "title": "Square and curly brackets are read alike", "statement": "If curly brackets take the place of square ones in a document and the other way around, everywhere (also in escapes and in names), then the document is read in the same way: the tokens, the trees and the errors are the same up to the exchange and stand at the same places, and it is refused or makes the transformer crash exactly if the other document does. So an author can turn inline commands into block commands without anything else changing, and what holds of one kind need not be checked for the other. Tokens and concrete trees are the same for every exchange of the three kinds.", "quantifier": "all segmenters that treat brackets alike (as the Unicode rules do), all texts with any mixture of brackets, paired or not; all exchanges of kinds for tokens and concrete trees", "why_tests_cant": "each kind of bracket has its own files in the tokenizer, the parser and the transformer; tests of one kind say nothing about the others, and a slip in one of the copies shows only in the documents that use it", "anchors": ["crates/brack-tokenizer/src/dispatch.rs:dispatch", "crates/brack-tokenizer/src/curly_bracket_open.rs:tokenize", "crates/brack-tokenizer/src/square_bracket_open.rs:tokenize", "crates/brack-parser/src/curly.rs:parse", "crates/brack-parser/src/square.rs:parse", "crates/brack-parser/src/escaped.rs:parse", "crates/brack-transformer/src/curly.rs:simplify", "crates/brack-transformer/src/square.rs:simplify"]}
{"id": "C127", "title": "Inline and block commands run alike", "statement": "If every inline command becomes a block command and the other way around, both in a document (square brackets for curly ones and the reverse) and in what the plugins offer, then the document compiles to the same text: arguments are counted, bound and passed in the same way, and plugins are called with the same values in the same order and end up in the same states. Code generation also fails or crashes in the same cases with the same error. This holds for documents whose words and names contain no brackets; escaped brackets are written as they are.", "quantifier": "all documents without brackets in words, all plugin sets with any hooks and any behaviour, all trees given to code generation, all segmenters that treat brackets alike", "why_tests_cant": "inline and block commands are run by two copies of the same code; tests of one say nothing about the other, and a difference shows only for the signatures and argument counts that reach it", "anchors": ["crates/brack-codegen/src/square.rs:generate", "crates/brack-codegen/src/curly.rs:generate", "crates/brack-plugin/src/plugins.rs:call_inline_command", "crates/brack-plugin/src/plugins.rs:call_block_command", "crates/brack-plugin/src/plugins.rs:argument_types"]}
{"id": "C128", "title": "Errors are exactly those the document calls for", "statement": "There is one way to read the errors of a document off its tokens, from left to right, with a list of the commands that are open: a closing bracket ends the innermost commands up to the first one of its kind; each command, when it ends, is checked for its closing bracket, the name of its module, the dot, the name of the command, further dots, and empty arguments; and every backslash that escapes nothing is an error. The errors reported are exactly these, with these ranges and in this order; the same holds for the diagnostics shown in an editor when a document is saved.", "quantifier": "all token lists the parser accepts and whose tree can be transformed, with commands nested to any depth, closed or not, in any order", "why_tests_cant": "tests show the errors of single mistakes; which errors a document with several mistakes in nested commands gets, where and in which order is not settled by any set of them", "anchors": ["crates/brack-transformer/src/transform.rs:transform", "crates/brack-transformer/src/simplify.rs:simplify", "crates/brack-transformer/src/utils.rs:check_valid_arguments", "crates/brack-parser/src/parse.rs:parse", "crates/brack-language-server/src/notification/did_save.rs:handle_text_document_did_save"]}
{"id": "C129", "title": "The tree is exactly the one the document calls for", "statement": "There is one way to read the abstract tree of a document off its tokens, from left to right: lines are separated by line ends outside commands and become expressions; groups of lines, separated by empty lines, become statements; a closing bracket ends the innermost commands up to the first one of its kind; a command holds what stands in its first three places, that is module, dot and name, and then one expression for each group between commas that is not empty. The tree that the library makes is exactly this one, up to identifiers and ranges, whether the document has errors or not.", "quantifier": "all token lists the parser accepts and whose tree can be transformed, with commands nested to any depth, closed or not, with any errors", "why_tests_cant": "tests compare the trees of single documents; what becomes of broken commands in others, or of what follows them, is not settled by any number of them", "anchors": ["crates/brack-transformer/src/transform.rs:transform", "crates/brack-transformer/src/simplify.rs:simplify", "crates/brack-transformer/src/utils.rs:check_valid_arguments", "crates/brack-transformer/src/utils.rs:remove_elements_not_included_ast", "crates/brack-parser/src/parse.rs:parse"]}
{"id": "C130", "title": "What becomes of a document is decided by its tokens", "statement": "Reading a text has one of three outcomes. If its brackets and blank lines are not where they may be, there is an error. Otherwise, if a dot, a comma or a space is a token outside all commands, the program crashes. Otherwise there is a tree with errors, and tree and errors are those read off the tokens from left to right. Compiling then depends on this tree only: two texts with the same tree compile to the same output and leave the plugins in the same state, or none of them compiles, even if only one of them has errors.", "quantifier": "all texts, all segmenters, all plugin sets with any hooks and any behaviour", "why_tests_cant": "that nothing else than the described scan decides what happens is a statement about all pairs of texts", "anchors": ["crates/brack-tokenizer/src/tokenize.rs:tokenize", "crates/brack-parser/src/parse.rs:parse", "crates/brack-transformer/src/transform.rs:transform", "crates/brack-codegen/src/generate.rs:generate"]}
{"id": "C131", "title": "Tokens are exactly those the characters call for", "statement": "The tokens of a text can be read off its characters from left to right. A backslash, a bracket or a line break is a token everywhere, a dot, a comma or a space inside brackets; the other characters up to the next such sign are a word. After an opening bracket a name is due: the word before a dot is then a module, the word before a space or a closing bracket the identifier, after which no name is due until the next opening bracket; all other words are text. If a name is due and the next character but one is a closing bracket, the next character is the name, whatever it is except a backslash. The ranges are those that tile the text. The list of tokens is the only one with these words, signs and ranges.", "quantifier": "all texts, all segmenters", "why_tests_cant": "tests compare single texts with their tokens; that a word never ends early or late, for any neighbours and at any depth, concerns all texts", "anchors": ["crates/brack-tokenizer/src/tokenize.rs:tokenize", "crates/brack-tokenizer/src/dispatch.rs:dispatch"]}
{"id": "C132", "title": "Edits above a line do not influence what is below it", "statement": "If the text above a line end is replaced by another one, and the old and the new text leave as many brackets open and no name due, the tokens below the line end stay the same, only on other lines. If both texts close all their brackets, the errors of the document are those of the text above followed by errors that are the same before and after the edit, only on other lines (of a bracket that is not closed, the start of its range).", "quantifier": "all pairs of texts above a line end and all texts below it, all segmenters; for the errors, texts that can be read", "why_tests_cant": "an editor user makes arbitrary edits in arbitrary documents; tests compare single documents", "anchors": ["crates/brack-tokenizer/src/tokenize.rs:tokenize", "crates/brack-tokenizer/src/dispatch.rs:dispatch", "crates/brack-transformer/src/transform.rs:transform"]}
{"id": "C133", "title": "Transforming takes time in proportion to the length of the document", "statement": "The number of steps taken to transform a parsed document into its tree and its errors (functions called, elements looked at and nodes copied) is at most proportional to the number of its tokens; at least, it is at most proportional to the number of tokens times the depth to which commands are nested, so it is never exponential in the depth.", "quantifier": "all lists of tokens that can be parsed, all depths of nesting", "why_tests_cant": "tests run small documents, for which copying subtrees again and again at every level goes unnoticed; a bound on the growth concerns all sizes", "anchors": ["crates/brack-transformer/src/transform.rs:transform", "crates/brack-transformer/src/simplify.rs:simplify", "crates/brack-transformer/src/angle.rs:simplify", "crates/brack-transformer/src/utils.rs:check_valid_arguments"]}
{"id": "C134", "title": "Reading a document takes at most quadratic time", "statement": "Tokenizing a text, parsing its tokens and transforming the tree take a number of steps (calls, characters, tokens and nodes copied or looked at) that is at most quadratic in the length of the text, whatever the text contains, whether it can be read or not: no text of a few kilobytes keeps the compiler or the language server busy forever.", "quantifier": "all texts, all segmenters", "why_tests_cant": "tests measure a few texts; that no shape of text makes the time explode is a statement about all texts", "anchors": ["crates/brack-tokenizer/src/tokenize.rs:tokenize_str", "crates/brack-tokenizer/src/dispatch.rs:dispatch", "crates/brack-tokenizer/src/utils.rs:separate", "crates/brack-parser/src/parse.rs:parse", "crates/brack-transformer/src/transform.rs:transform"]}
{"id": "C135", "title": "Brackets left open at the end can be closed on a further line", "statement": "If a document can be read, maybe with errors, and no name is due at its end, then a further line with the matching closing brackets of the brackets still open at its end, innermost first, gives a document that can be read, too; exactly the errors that reported these brackets as not closed are gone, all other errors about brackets that are not closed stay, in their order and at their places. So if only brackets at the end were left open, none is reported any more.", "quantifier": "all texts without NUL that do not end in a carriage return, all segmenters, brackets of all kinds nested to any depth, with any other errors", "why_tests_cant": "whether a repair that users (or an editor) make works in every document, with other mistakes before it, is not settled by trying some", "anchors": ["crates/brack-tokenizer/src/tokenize.rs:tokenize", "crates/brack-parser/src/parse.rs:parse", "crates/brack-transformer/src/transform.rs:transform", "crates/brack-transformer/src/simplify.rs:simplify"]}
{"id": "C136", "title": "A backslash that escapes nothing can be doubled", "statement": "If a document can be read and a backslash in it is reported because it escapes nothing, then doubling this backslash gives a document that can be read, too, and that has the same errors on the same lines in the same order except for the one about this backslash: the repair a user makes solves the problem and makes no other.", "quantifier": "all documents with any errors, all backslashes in them that are neither escaped nor escape anything, all segmenters that leave the characters around the backslash as they are when it is doubled", "why_tests_cant": "whether the repair shifts or hides other errors depends on all that stands around the backslash, at any depth and in any combination of mistakes", "anchors": ["crates/brack-tokenizer/src/backslash.rs:tokenize", "crates/brack-parser/src/escaped.rs:parse", "crates/brack-transformer/src/backslash.rs:simplify", "crates/brack-transformer/src/transform.rs:transform"]}
{"id": "C137", "title": "Renaming a command or rewording a text makes no errors", "statement": "If a word in a document, be it text, the name of a module or the name of a command, or a part of it is replaced by other characters that have no meaning in the markup, then the new document is refused, makes the program crash or is read exactly if the old one is, and in the last case it has errors of the same kinds on the same lines in the same order. So whether markup is right depends on the markup only, and a rename cannot break it.", "quantifier": "all documents, readable or not, all places of words and names in them, all words to put there, all segmenters", "why_tests_cant": "a name is recognised by what stands around it and by its length (a single character before a closing bracket has a rule of its own), so whether some rename makes a difference is a matter of all words in all places", "anchors": ["crates/brack-tokenizer/src/dispatch.rs:dispatch", "crates/brack-tokenizer/src/module.rs:tokenize", "crates/brack-tokenizer/src/identifier.rs:tokenize", "crates/brack-tokenizer/src/text.rs:tokenize", "crates/brack-parser/src/parse.rs:parse", "crates/brack-transformer/src/transform.rs:transform"]}
{"id": "C138", "title": "Trees can be walked with the methods of the library", "statement": "Asking a node for its children, beginning at the root, leads to every node of a tree. In the tree of a document, each node either has children to ask for, or has a word to ask for, or stands for a backslash that escapes nothing, in which case asking for either crashes; there is an error with the range of the node for each such node, and such a node for each such error. So a program that has checked that there are no errors can walk through the tree without a crash.", "quantifier": "all documents that can be read, with or without errors, all nodes of their trees", "why_tests_cant": "the methods crash for some kinds of nodes; tests ask a few nodes of a few trees, but that no document without errors has a node of such a kind concerns all documents", "anchors": ["crates/brack-transformer/src/ast.rs:children", "crates/brack-transformer/src/ast.rs:value", "crates/brack-transformer/src/transform.rs:transform"]}
{"id": "C139", "title": "Diagnostics shown in an editor follow repairs and rewording", "statement": "Take a document that can be read, whose diagnostics are shown when it is saved. If a word or a name in it is replaced by another one, the diagnostics shown at the next save have the same messages on the same lines in the same order. If the brackets open at its end are closed on a further line (and no name is due there), exactly the diagnostics saying that these are not closed are gone among those about brackets that are not closed. If a backslash that escapes nothing is doubled, exactly one diagnostic is gone, the one of that backslash, and the others stay as they are, with their messages and lines, in order. In each case the server goes on as before and sends one notification.", "quantifier": "all documents that can be read, before and after each of the three edits; all states of a server whose client shows diagnostics; all messages that report the document as saved", "why_tests_cant": "an error anywhere may change what is reported elsewhere; tests compare a few documents before and after an edit, usually below the level of messages sent", "anchors": ["crates/brack-language-server/src/notification/did_save.rs:handle_text_document_did_save", "crates/brack-language-server/src/server.rs:send_publish_diagnostics", "crates/brack-tokenizer/src/tokenize.rs:tokenize", "crates/brack-parser/src/parse.rs:parse", "crates/brack-transformer/src/transform.rs:transform"]}
{"id": "C140", "title": "Concrete trees can be walked with the methods of the library", "statement": "Asking a node of a concrete tree for its children, beginning at the root, leads to every node of the tree. In the concrete tree of any document the parser accepts, each node can be asked for its children or for its value without a crash, and for one of both only. Every word of the document, be it text, the name of a module or the name of a command, is met as a value with its range, and every value met is such a word or an escaped character, with its range. A walk from left to right meets the values in the order in which they are written.", "quantifier": "all documents the parser accepts, with or without errors, all nodes of their concrete trees", "why_tests_cant": "the methods crash for some kinds of nodes, and which kinds occur in trees is decided by the whole parser; tests ask a few nodes of a few trees", "anchors": ["crates/brack-parser/src/cst.rs:children", "crates/brack-parser/src/cst.rs:value", "crates/brack-parser/src/parse.rs:parse"]}
