import Verif.Proof.DebugShows
import Verif.Proof.SerdeCalls
import Verif.Props.Cli
import Verif.Proof.Details
import Verif.Props.Editor
import Verif.Props.Fresh

/-
Properties of the texts in debug format: C86, C87, C88.
-/

namespace Brack

/-! ### C86 -/

section
variable (W : Wasm) (E : Env) (printable : Char → Bool) (ids : List Nat → Str) (envDir : Option Str) (args : CompileArgs)
  (w : World) (dir : Str) (plugins : List (Plugin W)) (ps : Plugins W) (bytes : Bytes) (stem text : Str)

/-- C86: without JSON output, compile prints the tokens at level 1, one on each line, and one line at levels 2 and 4:
the concrete syntax tree, or the tree after macro expansion. At level 3 it prints the errors found, one on each line, and
the abstract syntax tree if there are none. A reader recovers all of this from the lines, and tells errors from a tree.
Compile fails only if there is no such result. -/
theorem C86_text (hdir : PluginDir args envDir dir) (hw : w.Healthy)
    (hl : (compilePlugins W dir w).1 = .ok plugins) (hps : Plugins.new plugins = .ok ps)
    (hname : args.filename = stem ++ chars! ".[]") (hb : w.files.get args.filename = some bytes)
    (ht : fromUtf8 bytes = some text) (hj : args.json = false) :
    let run := runCompile W E (compileFormats printable ids) envDir args
    (args.level = 1 → Prints run w fun ls => ∃ ts, HasTokens E.S text ts ∧ ReadOffEach DebugVal.ShowsToken ls ts) ∧
    (args.level = 2 → Prints run w fun ls => ∃ line c, ls = [line] ∧ HasCST E.S text c ∧ ReadOff DebugVal.ShowsCST line c) ∧
    (args.level = 3 → Prints run w fun ls => ∃ a es, HasAST E.S (E.ids 0) text a es ∧
      ((es = [] ∧ ∃ line, ls = [line] ∧ ReadOff DebugVal.ShowsAST line a) ∨
        (es ≠ [] ∧ ReadOffEach DebugVal.ShowsError ls es ∧ ∀ line ∈ ls, ∀ v b, DebugLine line v → ¬ v.ShowsAST b))) ∧
    (args.level = 4 → Prints run w fun ls => ∃ line a, ls = [line] ∧ HasExpanded E.S (E.ids 0) text ps a ∧
      ReadOff DebugVal.ShowsAST line a) := by
  obtain ⟨h1, h2, h3, h4, _⟩ := C57_levels W E (compileFormats printable ids) envDir args w dir plugins ps bytes stem text
    hdir hw hl hps hname hb ht
  have heach : ∀ {α : Type} (R : DebugVal → α → Prop) (f : α → DebugVal), (∀ a, ReadOff R ((f a).text printable) a) → ∀ as : List α,
      ReadOffEach R (as.map fun a => (f a).text printable) as := by
    intro α R f hf as
    exact .map (f := fun a => (f a).text printable) hf as
  have hast : ∀ a : AST, ReadOff DebugVal.ShowsAST ((DebugVal.ofTree Serde.astTags a.tree).text printable) a := fun a =>
    readOff (DebugVal.fine_ast a) (DebugVal.shows_ast a) DebugVal.ShowsAST.unique
  refine ⟨fun he => (h1 he).mono ?_ ?_, fun he => (h2 he).mono ?_ ?_, fun he => (h3 he).mono ?_ ?_,
    fun he => (h4 he).mono ?_ ?_⟩
  · rintro ls ⟨ts, hts, rfl⟩
    rw [hj]
    exact ⟨ts, hts, heach _ _ (fun t => readOff (DebugVal.fine_token t) (DebugVal.shows_token t) DebugVal.ShowsToken.unique) ts⟩
  · rintro ⟨_, ts, hts, _⟩
    exact ⟨_, ts, hts, rfl⟩
  · rintro ls ⟨c, hc, rfl⟩
    rw [hj]
    exact ⟨_, c, rfl, hc, readOff (DebugVal.fine_cst ids c []) (DebugVal.shows_cst ids c []) DebugVal.ShowsCST.unique⟩
  · rintro ⟨_, _, c, _, hc, _⟩
    exact ⟨_, c, hc, rfl⟩
  · rintro ls ⟨a, es, ha, ⟨hje, rfl⟩ | ⟨_, hne, rfl⟩⟩
    · rw [hj]
      rcases hje with hje | rfl
      · rw [hj] at hje; cases hje
      · exact ⟨a, [], ha, .inl ⟨rfl, _, rfl, hast a⟩⟩
    · refine ⟨a, es, ha, .inr ⟨hne, heach _ _ (fun e => readOff (DebugVal.fine_error e) (DebugVal.shows_error e)
        DebugVal.ShowsError.unique) es, ?_⟩⟩
      intro line hline v b hv hb
      obtain ⟨e, _, rfl⟩ := List.mem_map.mp hline
      have := (DebugVal.fine_error (printable := printable) e).1.inj hv.1
      subst this
      exact (DebugVal.shows_error e).not_ast hb
  · rintro ⟨_, a, es, ha, _⟩
    rcases es with _ | ⟨e, es⟩
    · exact ⟨_, a, [], ha, .inl ⟨.inr rfl, rfl⟩⟩
    · exact ⟨_, a, e :: es, ha, .inr ⟨hj, by simp, rfl⟩⟩
  · rintro ls ⟨a, ha, rfl⟩
    rw [hj]
    exact ⟨_, a, rfl, ha, hast a⟩
  · rintro ⟨_, _, a, _, ha, _⟩
    exact ⟨_, a, ha, rfl⟩

end

/-- The characters shown as they are, for concrete cases. -/
private def ascii (c : Char) : Bool := decide (32 ≤ c.toNat ∧ c.toNat < 127)

/-- Compile with text output in the project with two documents. -/
private def textAt (level : Nat) : Res Unit × List Str :=
  let r := runCompile sampleWasm sampleEnv (compileFormats ascii fun p => p.map fun n => Char.ofNat (n + 97)) none
    ⟨some (chars! "plugins"), chars! "docs/b.c.[]", level, false⟩ (twoDocuments fun _ => .none)
  (r.1, r.2.lines)

/-- Concrete case: the document `[std.g x]`. -/
example : (textAt 1).1 = .ok () ∧ (textAt 1).2.length = 8 ∧
    (textAt 1).2.head? = some (chars! "SquareBracketOpen(Location { start: LocationData { line: 0, character: 0 }, end: LocationData { line: 0, character: 1 } })") ∧
    (textAt 2).1 = .ok () ∧ (textAt 2).2.map (·.take 54) = [chars! "Document(InnerNode { id: \"\", children: [Stmt(InnerNode"] ∧
    (textAt 3).1 = .ok () ∧ (textAt 4).1 = .ok () := by decide +kernel

/-- Concrete case: what is escaped, and an error. -/
example : (DebugVal.ofToken ⟨.text ['"', '\n', 'é', ' ', '\'', '\\'], ⟨⟨0, 0⟩, ⟨12, 0⟩⟩⟩).text ascii =
      chars! "Text(\"\\\"\\n\\u{e9} '\\\\\", Location { start: LocationData { line: 0, character: 0 }, end: LocationData { line: 12, character: 0 } })" ∧
    ((DebugVal.ofError ⟨.notClosed .curly, ⟨⟨0, 0⟩, ⟨0, 1⟩⟩⟩).text ascii).take 32 = chars! "CurlyNotClosed(Location { start:" := by
  decide +kernel

/-! ### C87 -/

/-- C87: the name of the file a plugin is kept in consists of the name in the configuration and a digest. The digest is
made of lower case hexadecimal digits of the hash of a text, and from this text the whole entry can be read off. So two
entries have the same file exactly if they have the same name and the hash does not tell apart their texts, which are
different unless the entries are equal. -/
theorem C87_files (printable : Char → Bool) (sha : Bytes → Bytes) :
    ∃ text : PluginSchema → Str, (∀ s, ReadOff DebugVal.ShowsSchema (text s) s) ∧ (∀ s t, text s = text t → s = t) ∧
      (∀ s, ∀ c ∈ hashSha256 printable sha s, c ∈ chars! "0123456789abcdef") ∧
      (∀ s, (hashSha256 printable sha s).length = 2 * (sha (utf8 (text s))).length) ∧
      ∀ name s name' s', pluginFile (hashSha256 printable sha) name s = pluginFile (hashSha256 printable sha) name' s' ↔
        name = name' ∧ sha (utf8 (text s)) = sha (utf8 (text s')) := by
  have hread : ∀ s, ReadOff DebugVal.ShowsSchema ((DebugVal.ofSchema s).text printable) s := fun s =>
    readOff (DebugVal.fine_schema s) (DebugVal.shows_schema s) DebugVal.ShowsSchema.unique
  refine ⟨fun s => (DebugVal.ofSchema s).text printable, hread, ?_, hashSha256_hex printable sha, ?_, ?_⟩
  · intro s t h
    obtain ⟨v, h1, h2⟩ := (hread s).1
    simp only at h
    rw [h] at h1
    exact (hread t).2 v s h1 h2
  · intro s
    exact hex_length _
  · intro name s name' s'
    constructor
    · intro h
      obtain ⟨h1, h2⟩ := cachePath_inj _ (fun s hc => absurd (hashSha256_hex printable sha s _ hc) (by decide)) h
      exact ⟨h1, hex_inj h2⟩
    · rintro ⟨rfl, h⟩
      simp only [pluginFile, hashSha256, h]

/-- C87: so if the entry of a plugin is changed in any way after a run, the next run downloads the file named by the
changed entry, even if the old file is there, unless the hash fails to tell apart two different texts of the entries. -/
theorem C87_changed (printable : Char → Bool) (sha : Bytes → Bytes) (c c2 : Config)
    (hn : ∀ m, c.plugins = some m → (m.map (·.1)).Nodup) (hn2 : ∀ m, c2.plugins = some m → (m.map (·.1)).Nodup)
    (w w1 w2 w3 : World) (md md2 : PluginsMetadata) (h : downloadPlugins (hashSha256 printable sha) c w = (.ok md, w1))
    (hd : w1.SameDisk w2) (hw : w2.Healthy) (h2 : downloadPlugins (hashSha256 printable sha) c2 w2 = (.ok md2, w3)) (name : Str)
    (s s2 : PluginSchema) (hs : c.plugin name = some s) (hs2 : c2.plugin name = some s2) (hne : s ≠ s2)
    (hno : w.pathExists (pluginFile (hashSha256 printable sha) name s2) = false) :
    (∃ t t2, ReadOff DebugVal.ShowsSchema t s ∧ ReadOff DebugVal.ShowsSchema t2 s2 ∧ t ≠ t2 ∧ sha (utf8 t) = sha (utf8 t2)) ∨
    (pluginFile (hashSha256 printable sha) name s ≠ pluginFile (hashSha256 printable sha) name s2 ∧
    md2.get name = some (pluginFile (hashSha256 printable sha) name s2, s2.flag) ∧
    ∃ n b, w2.http n (pluginUrl c2.document.backend name s2) = some b ∧
      w3.files.get (pluginFile (hashSha256 printable sha) name s2) = some b) := by
  obtain ⟨text, h3, h4, h5, _, h6⟩ := C87_files printable sha
  by_cases hsha : sha (utf8 (text s)) = sha (utf8 (text s2))
  · exact .inl ⟨_, _, h3 s, h3 s2, fun he => hne (h4 _ _ he), hsha⟩
  · have hfile : pluginFile (hashSha256 printable sha) name s ≠ pluginFile (hashSha256 printable sha) name s2 :=
      fun he => hsha ((h6 _ _ _ _).mp he).2
    exact .inr ⟨hfile, (C85_entry_partial (hashSha256 printable sha) (fun s hc => absurd (h5 s _ hc) (by decide)) c c2 hn hn2 w
      w1 w2 w3 md md2 h hd hw h2 name s s2 hs hs2 (fun he => hfile (by simp only [pluginFile, he])) hno).2⟩

/-- A hash for concrete cases: the number of bytes, and their sum. -/
private def sampleSha (bs : Bytes) : Bytes := [UInt8.ofNat bs.length, bs.sum]

/-- Concrete case: the version was changed, and the hash tells this. -/
example : hashSha256 ascii sampleSha (.plain (chars! "brack-lang") (chars! "brack-std") (chars! "v1")) = chars! "88ab" ∧
    hashSha256 ascii sampleSha (.plain (chars! "brack-lang") (chars! "brack-std") (chars! "v2")) = chars! "88ac" := by
  decide +kernel

/-- Concrete case: the hypotheses of `C87_changed`. -/
example :
    let hash := hashSha256 ascii sampleSha
    let config (version : Str) : Config :=
      { sampleConfig with plugins := some [(chars! "std", .plain (chars! "brack-lang") (chars! "brack-std") version)] }
    let w : World := { sampleWorld (fun _ => .none) with dirs := [chars! "docs", chars! "plugins"] }
    let r := downloadPlugins hash (config (chars! "v1")) w
    r.1 = .ok [(chars! "std", (chars! "plugins/std_88ab.wasm", noHooks))] ∧
    (downloadPlugins hash (config (chars! "v2")) r.2).1 = .ok [(chars! "std", (chars! "plugins/std_88ac.wasm", noHooks))] ∧
    w.pathExists (pluginFile hash (chars! "std") (.plain (chars! "brack-lang") (chars! "brack-std") (chars! "v2"))) = false := by
  decide +kernel

/-! ### C88 -/

/-- C88: the completion items tell the signatures of the commands: for each command of the type asked for there is an
item with its name, and from its detail the names and types of the parameters and the type of the command can be read
off, and nothing else; and all items are such. -/
theorem C88_details (X : ServerEnv) (printable : Char → Bool) (hP : X.P.showTypes = showSignature printable) (s : Server)
    (msg : Json) (id : Int) (md : PluginsMetadata) (trigger : Str) (typ : PType) (w : World) (hw : w.Healthy)
    (hm : msg.IsRequest id (chars! "textDocument/completion"))
    (hp : X.P.completion (msg.index (chars! "params")) = some (some (some trigger))) (hs : s.project = some md)
    (hl : AllLoadable X.W w md) (htr : (trigger, typ) ∈ [(chars! "[", PType.inline), (chars! "{", PType.block)]) :
    ∃ (reply : Json) (items : List Json), w.Said X.P (Server.dispatch X s msg w).2 [reply] ∧ reply.IsReply (.int id) ∧
      reply.get (chars! "result") = some (.arr items) ∧
      (∀ plugin command arguments, Declares X.W w md typ plugin command arguments →
        ∃ item ∈ items, item.DescribesCommand plugin command arguments typ) ∧
      ∀ item ∈ items, ∃ plugin command arguments, Declares X.W w md typ plugin command arguments ∧
        item.DescribesCommand plugin command arguments typ := by
  obtain ⟨close, htrig⟩ : ∃ close, Server.Trigger trigger typ close := by
    simp only [List.mem_cons, Prod.mk.injEq, List.not_mem_nil, or_false] at htr
    rcases htr with ⟨rfl, rfl⟩ | ⟨rfl, rfl⟩
    · exact ⟨_, .square⟩
    · exact ⟨_, .curly⟩
  obtain ⟨_, h2⟩ := Server.completion_request (s := s) hw hm hp
  obtain ⟨items, h3, h4⟩ := Server.completion_details (X := X) (s := s) hw hs hl htrig
  rw [h3] at h2
  have key : ∀ plugin command ms m, declared ms command typ = some m →
      (Server.itemJson X.P plugin command close m).DescribesCommand plugin command m.argumentTypes typ := by
    intro plugin command ms m hd
    have htyp : m.returnType = typ := by
      have := List.find?_some hd
      simp only [decide_eq_true_eq] at this
      exact this.2
    refine ⟨?_, showSignature printable m.argumentTypes typ, ?_, showSignature_reads printable _ _⟩
    · rw [show plugin ++ '.' :: command = plugin ++ chars! "." ++ command by simp]
      rfl
    · rw [← htyp, ← hP]
      rfl
  refine ⟨_, items, h2, Server.resultJson_reply .., rfl, ?_, ?_⟩
  · rintro plugin command arguments ⟨path, flag, b, ms, m, k1, k2, k3, k4, rfl⟩
    exact ⟨_, (h4 _).mpr ⟨plugin, command, path, flag, b, ms, m, k1, k2, k3, k4, rfl⟩, key _ _ _ _ k4⟩
  · intro item hi
    obtain ⟨plugin, command, path, flag, b, ms, m, k1, k2, k3, k4, rfl⟩ := (h4 item).mp hi
    exact ⟨plugin, command, _, ⟨path, flag, b, ms, m, k1, k2, k3, k4, rfl⟩, key _ _ _ _ k4⟩

/-- Concrete case: the command `g` of the sample project with its two parameters. -/
example :
    let X : ServerEnv := { sampleServerEnv sampleWasm with P := { sampleProtocol with showTypes := showSignature ascii } }
    ∃ (reply item : Json), (workspace []).Said X.P (Server.dispatch X sampleServer
      (requestJson 7 (chars! "textDocument/completion") (completionParams ['['])) (workspace [])).2 [reply] ∧
    item.DescribesCommand (chars! "std") (chars! "g") [(chars! "x", .inline), (chars! "y", .option .inline)] .inline ∧
    ∃ items, reply.get (chars! "result") = some (.arr items) ∧ item ∈ items := by
  intro X
  obtain ⟨reply, items, h1, _, h2, h3, _⟩ := C88_details X ascii rfl sampleServer
    (requestJson 7 (chars! "textDocument/completion") (completionParams ['['])) 7 _ ['['] .inline
    (workspace []) (workspace_healthy _) (requestJson_is (by decide) _ _) rfl rfl (workspace_loadable _) (by decide)
  obtain ⟨item, hi, hd⟩ := h3 (chars! "std") (chars! "g") [(chars! "x", .inline), (chars! "y", .option .inline)]
    ⟨_, _, [1], _, _, List.mem_singleton.mpr rfl, rfl, rfl, rfl, rfl⟩
  exact ⟨reply, item, h1, hd, items, h2, hi⟩

/-- Concrete case: a signature. -/
example : showSignature ascii [(chars! "text", .inline), (chars! "sep", .option (.inlineCmd (chars! "a\"b")))] .block =
    chars! "Argument Types: [(\"text\", TInline), (\"sep\", TOption(TInlineCmd(\"a\\\"b\")))]\nReturn Type: TBlock" := by
  decide +kernel

end Brack
