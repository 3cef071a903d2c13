import Verif.Proof.SerdeCalls
import Verif.Proof.SerdeSound
import Verif.Props.Cli

/-
Properties of the JSON texts printed by `brack compile` and exchanged with plugins: C64, C65, C66, C67.
-/

namespace Brack

/-! ### C64 -/

section
variable (W : Wasm) (E : Env) (shown : Formats) (ids : List Nat → Str) (envDir : Option Str) (args : CompileArgs) (w : World)
  (dir : Str) (plugins : List (Plugin W)) (ps : Plugins W) (bytes : Bytes) (stem text : Str)

/-- C64: with JSON output, compile prints one line at levels 1 to 4. It is the text of a JSON value from which a
reader recovers the tokens, the concrete syntax tree, the abstract syntax tree, or the tree after macro expansion,
and nothing else. It fails only if there is no such result. -/
theorem C64_json (hdir : PluginDir args envDir dir) (hw : w.Healthy)
    (hl : (compilePlugins W dir w).1 = .ok plugins) (hps : Plugins.new plugins = .ok ps)
    (hname : args.filename = stem ++ chars! ".[]") (hb : w.files.get args.filename = some bytes)
    (ht : fromUtf8 bytes = some text) (hj : args.json = true) :
    let run := runCompile W E (jsonFormats shown ids) envDir args
    (args.level = 1 → Prints run w fun ls => ∃ line v ts, ls = [line] ∧ LineOf line v ∧ HasTokens E.S text ts ∧
      v.ShowsTokens ts ∧ ∀ us, v.ShowsTokens us → us = ts) ∧
    (args.level = 2 → Prints run w fun ls => ∃ line v c, ls = [line] ∧ LineOf line v ∧ HasCST E.S text c ∧
      v.ShowsCST c ∧ ∀ d, v.ShowsCST d → d = c) ∧
    (args.level = 3 → Prints run w fun ls => ∃ line v a es, ls = [line] ∧ LineOf line v ∧ HasAST E.S (E.ids 0) text a es ∧
      v.ShowsAST a ∧ ∀ b, v.ShowsAST b → b = a) ∧
    (args.level = 4 → Prints run w fun ls => ∃ line v a, ls = [line] ∧ LineOf line v ∧
      HasExpanded E.S (E.ids 0) text ps a ∧ v.ShowsAST a ∧ ∀ b, v.ShowsAST b → b = a) := by
  obtain ⟨h1, h2, h3, h4, _⟩ := C57_levels W E (jsonFormats shown ids) envDir args w dir plugins ps bytes stem text hdir hw hl
    hps hname hb ht
  have hline : ∀ v : Json, v.Integral → LineOf (JsonText.print v) v := fun v hv =>
    ⟨JsonText.print_line v hv, JsonText.isJson_print v hv⟩
  refine ⟨fun he => (h1 he).mono ?_ ?_, fun he => (h2 he).mono ?_ ?_, fun he => (h3 he).mono ?_ ?_,
    fun he => (h4 he).mono ?_ ?_⟩
  · rintro ls ⟨ts, hts, rfl⟩
    rw [hj]
    exact ⟨_, _, ts, rfl, hline _ (integral_tokens ts), hts, shows_tokens ts, fun us h => h.unique (shows_tokens ts)⟩
  · rintro ⟨_, _, _, ts, _, _, hts, _⟩
    exact ⟨_, ts, hts, rfl⟩
  · rintro ls ⟨c, hc, rfl⟩
    rw [hj]
    exact ⟨_, _, c, rfl, hline _ (integral_tree _ _), hc, shows_cst ids c [], fun d h => h.unique (shows_cst ids c [])⟩
  · rintro ⟨_, _, _, c, _, _, hc, _⟩
    exact ⟨_, c, hc, rfl⟩
  · rintro ls ⟨a, es, ha, ⟨_, rfl⟩ | ⟨hjf, _⟩⟩
    · rw [hj]
      exact ⟨_, _, a, es, rfl, hline _ (integral_tree _ _), ha, shows_ast a, fun b h => h.unique (shows_ast a)⟩
    · rw [hj] at hjf; cases hjf
  · rintro ⟨_, _, _, a, es, _, _, ha, _⟩
    exact ⟨_, a, es, ha, .inl ⟨.inl hj, rfl⟩⟩
  · rintro ls ⟨a, ha, rfl⟩
    rw [hj]
    exact ⟨_, _, a, rfl, hline _ (integral_tree _ _), ha, shows_ast a, fun b h => h.unique (shows_ast a)⟩
  · rintro ⟨_, _, _, a, _, _, ha, _⟩
    exact ⟨_, a, ha, rfl⟩

end

/-- Other formats, for concrete cases. -/
private def noFormats : Formats where
  tokens _ _ := []
  cst _ _ := []
  ast _ _ := []
  errors _ := []

/-- Compile with JSON output in the project with two documents. -/
private def jsonAt (level : Nat) : Res Unit × List Str :=
  let r := runCompile sampleWasm sampleEnv (jsonFormats noFormats fun p => p.map fun n => Char.ofNat (n + 97)) none
    ⟨some (chars! "plugins"), chars! "docs/b.c.[]", level, true⟩ (twoDocuments fun _ => .none)
  (r.1, r.2.lines.map (·.take 60))

/-- Concrete case: the document `[std.g x]`. -/
example : jsonAt 1 = (.ok (), [chars! "[{\"SquareBracketOpen\":{\"start\":{\"line\":0,\"character\":0},\"end"]) ∧
    jsonAt 2 = (.ok (), [chars! "{\"Document\":{\"id\":\"\",\"children\":[{\"Stmt\":{\"id\":\"a\",\"children"]) ∧
    (jsonAt 3).1 = .ok () ∧ (jsonAt 4).1 = .ok () := by decide +kernel

/-! ### C65 -/

/-- C65 (partial): a macro is called with the text of an array of two values: the whole document, and the identifier of
the macro call. What the macro returns arrives if it is the text of a tree, with fields in any order and any white
space, with at most 127 objects and arrays inside of each other. Nothing arrives that is not written in what the macro
returned; if it is no JSON text, or if the call fails, then expansion gets an error. Missing: results that are nested more deeply (`C65_deep_refuted`). -/
theorem C65_exchange_partial (a : AST) (id : Str) : ∃ input v, Carries input (.arr [v, .str id]) ∧ v.ShowsAST a ∧
    (∀ b, v.ShowsAST b → b = a) ∧ ∀ (H : Host) (s : H.State) (f : Str),
      (∀ e s', H.call s f input = (.error e, s') → H.wasm.callMacro s f a id = (.error e, s')) ∧
      (∀ output s', H.call s f input = (.ok output, s') →
        (∀ u b, Carries output u → u.Distinct → u.ShowsAST b → b.Sized → u.depth ≤ 127 →
          H.wasm.callMacro s f a id = (.ok b, s')) ∧
        (∀ b, H.wasm.callMacro s f a id = (.ok b, s') → ∃ u, Carries output u ∧ u.ReadsAST b) ∧
        ((∀ u, ¬ Carries output u) → ∃ e, H.wasm.callMacro s f a id = (.error e, s'))) := by
  have hi : Json.Integral (.arr [Serde.ofAST a, .str id]) := by
    refine .arr fun u hu => ?_
    simp only [List.mem_cons, List.not_mem_nil, or_false] at hu
    rcases hu with rfl | rfl
    · exact integral_tree _ _
    · exact .str id
  refine ⟨_, _, carries_bytes hi, shows_ast a, fun b h => h.unique (shows_ast a), fun H s f => ⟨?_, ?_⟩⟩
  · intro e s' h
    simp only [Host.wasm, h]
  · intro output s' h
    refine ⟨?_, ?_, ?_⟩
    · intro u b hu hd hb hf hn
      simp only [Host.wasm, h, hu.value, Option.bind_some, toAST_shows hb hd hf hn]
    · intro b hb
      simp only [Host.wasm, h] at hb
      rcases hv : Serde.value output with _ | u
      · simp only [hv, Option.bind_none, Prod.mk.injEq] at hb
        cases hb.1
      · rcases ht : Serde.toAST u with _ | c
        · simp only [hv, Option.bind_some, ht, Prod.mk.injEq] at hb
          cases hb.1
        · simp only [hv, Option.bind_some, ht, Prod.mk.injEq, Except.ok.injEq, and_true] at hb
          subst hb
          exact ⟨u, carries_value hv, sound_ast ht⟩
    · intro hno
      rcases hv : Serde.value output with _ | u
      · refine ⟨"invalid JSON", ?_⟩
        simp only [Host.wasm, h, hv, Option.bind_none]
      · exact absurd (carries_value hv) (hno u)

/-- C65: a macro that returns the document it is given gets through exactly if the document has no more than 42 nodes
on the way down to any leaf. -/
theorem C65_identity_iff (H : Host) (hH : H.Echoes) (s : H.State) (f : Str) (a : AST) (id : Str) (hs : a.Sized) :
    (a.height ≤ 42 → (H.wasm.callMacro s f a id).1 = .ok a) ∧
    (42 < a.height → ∃ e, (H.wasm.callMacro s f a id).1 = .error e) := by
  have hi : Json.Integral (.arr [Serde.ofAST a, .str id]) := by
    refine .arr fun u hu => ?_
    simp only [List.mem_cons, List.not_mem_nil, or_false] at hu
    rcases hu with rfl | rfl
    · exact integral_tree _ _
    · exact .str id
  obtain ⟨output, s', h1, h2⟩ := hH s f _ _ _ (carries_bytes hi) (integral_tree _ _)
  have h3 := toAST_ofAST a hs
  constructor
  · intro hh
    rw [if_pos hh] at h3
    simp only [Host.wasm, h1, h2.value, Option.bind_some, h3]
  · intro hh
    rw [if_neg (by omega)] at h3
    exact ⟨"invalid JSON", by simp only [Host.wasm, h1, h2.value, Option.bind_some, h3]⟩

/-- A document with a macro call and `n` commands inside of each other. -/
def nestedCommands (n : Nat) : Str :=
  chars! "<p.m>" ++ (List.replicate n (chars! "[p.f ")).flatten ++ chars! "x" ++ List.replicate n ']'

/-- C65 refuted for deeply nested documents: with 20 commands inside of each other, a document without errors cannot be
expanded by a macro that returns the document it is given, whatever else the plugins do. -/
theorem C65_deep_refuted (S : Segmenter) : ∃ ids a, HasAST S ids (nestedCommands 20) a [] ∧ a.macros ≠ [] ∧
    ∀ (H : Host) (ps : Plugins H.wasm), H.Echoes → (expander a ps).1.isOk = false := by
  obtain ⟨ts, c, a, es, h1, h2, h3, h4, rfl, h5, hd⟩ := front_case S (nestedCommands 20) (by decide +kernel)
    (fun _ _ a es => 42 < a.height ∧ es = [] ∧ a.macros.length = 1 ∧
      (match a with | .node .document _ _ _ => true | _ => false) = true) (by decide +kernel)
  refine ⟨someIds, a, ⟨c, ⟨ts, h1, h2⟩, h3⟩, ?_, ?_⟩
  · intro h; rw [h] at h5; cases h5
  · intro H ps hH
    have hfail : ∀ s f i, ∃ e s', H.wasm.callMacro s f a i = (.error e, s') := by
      intro s f id
      have hi : Json.Integral (.arr [Serde.ofAST a, .str id]) := by
        refine .arr fun u hu => ?_
        simp only [List.mem_cons, List.not_mem_nil, or_false] at hu
        rcases hu with rfl | rfl
        · exact integral_tree _ _
        · exact .str id
      obtain ⟨output, s', h6, h7⟩ := hH s f _ _ _ (carries_bytes hi) (integral_tree _ _)
      have h8 : Serde.toAST (Serde.ofAST a) = none := by
        rw [Serde.toAST]
        rcases ht : Serde.toTree Serde.astTags Serde.maxNesting (Serde.ofAST a) with _ | t
        · rfl
        · have := deep_ast a _ t ht
          have hm : Serde.maxNesting = 127 := rfl
          omega
      exact ⟨"invalid JSON", s', by simp only [Host.wasm, h6, h7.value, Option.bind_some, h8]⟩
    rcases hx : expander a ps with ⟨r | e | _, ps'⟩
    · exfalso
      by_cases ha : ∃ i cs l, a = .node (.bracket .angle) i cs l
      · obtain ⟨i, cs, l, rfl⟩ := ha
        cases hd
      · have := expandOther_fails hfail a ps ps' r (fun i cs l h => ha ⟨i, cs, l, h⟩) hx
        rw [this] at h5
        cases h5
    · rfl
    · rfl

/-- A plugin that returns the first element of the array it is called with. -/
private def echoHost : Host where
  State := Unit
  load _ := .ok ()
  call s f input :=
    if f = chars! "get_metadata" then (.ok (Serde.bytes (.arr [Serde.ofMetadata ⟨chars! "m", chars! "call_m", [], .ast⟩])), s)
    else
      match Serde.value input with
      | some (.arr [v, .str _]) => (.ok (Serde.bytes v), s)
      | _ => (.error "bad", s)

/-- Concrete case: the hypothesis of `C65_identity_iff` and `C65_deep_refuted`, for the functions of macros. -/
private theorem echo_call (s : Unit) (f : Str) (hf : f ≠ chars! "get_metadata") (input : Bytes) (v : Json) (id : Str)
    (h : Carries input (.arr [v, .str id])) : echoHost.call s f input = (.ok (Serde.bytes v), s) := by
  simp only [echoHost, if_neg hf, h.value]

/-- A plugin that always returns the first element of the array it is called with. -/
private def plainEcho : Host where
  State := Unit
  load _ := .ok ()
  call s _ input :=
    match Serde.value input with
    | some (.arr [v, .str _]) => (.ok (Serde.bytes v), s)
    | _ => (.error "bad", s)

/-- Concrete case: the hypothesis of `C65_identity_iff` and `C65_deep_refuted`. -/
example : plainEcho.Echoes := by
  intro s f input v id h hv
  refine ⟨Serde.bytes v, s, ?_, carries_bytes hv⟩
  simp only [plainEcho, h.value]

/-- Concrete case: with 19 commands inside of each other the document still gets through. -/
example : ∃ a, HasAST UTable.sampleSeg someIds (nestedCommands 19) a [] ∧ a.height = 42 := by
  obtain ⟨ts, c, a, es, h1, h2, h3, h4, rfl⟩ := front_case UTable.sampleSeg (nestedCommands 19) (by decide +kernel)
    (fun _ _ a es => a.height = 42 ∧ es = []) (by decide +kernel)
  exact ⟨a, ⟨c, ⟨ts, h1, h2⟩, h3⟩, h4⟩

/-- Concrete case: a result with fields in another order, a field too many, white space and a missing value. -/
example : ∃ u, Carries (utf8 (chars! "{\"Text\": {\"x\":[], \"location\":{\"end\":{\"character\":2,\"line\":0},\"start\":{\"line\":0,\"character\":1}},\"id\":\"i\"} }")) u ∧
    u.Distinct ∧ u.depth ≤ 127 ∧ u.ShowsAST (.leaf .text (chars! "i") none ⟨⟨0, 1⟩, ⟨0, 2⟩⟩) := by
  refine ⟨.obj [(chars! "Text", .obj [(chars! "x", .arr []), (chars! "location",
    .obj [(chars! "end", .obj [(chars! "character", .int 2), (chars! "line", .int 0)]),
      (chars! "start", .obj [(chars! "line", .int 0), (chars! "character", .int 1)])]), (chars! "id", .str (chars! "i"))])],
    ⟨_, rfl, (JsonText.parse_iff _ _).mp rfl⟩, ?_, by decide, ?_⟩
  · have h2 : ∀ (k l : Str) (m n : Int), k ≠ l → Json.Distinct (.obj [(k, .int m), (l, .int n)]) := by
      intro k l m n hkl
      refine .obj (by simpa using hkl) fun f hf => ?_
      simp only [List.mem_cons, List.not_mem_nil, or_false] at hf
      rcases hf with rfl | rfl <;> exact .int _
    refine distinct_tag (.obj (by simp only [List.map_cons, List.map_nil]; decide) fun f hf => ?_)
    simp only [List.mem_cons, List.not_mem_nil, or_false] at hf
    rcases hf with rfl | rfl | rfl
    · exact .arr (by simp)
    · refine .obj (by simp only [List.map_cons, List.map_nil]; decide) fun f hf => ?_
      simp only [List.mem_cons, List.not_mem_nil, or_false] at hf
      rcases hf with rfl | rfl <;> exact h2 _ _ _ _ (by decide)
    · exact .str _
  · exact .leaf (name := chars! "Text") (by decide) rfl rfl (.inl ⟨rfl, rfl⟩) rfl ⟨_, _, rfl, ⟨rfl, rfl⟩, rfl, ⟨rfl, rfl⟩⟩

/-! ### C66 -/

/-- C66: a command is called with the text of an array from which a reader recovers the arguments, and nothing else. It
may return any text; bytes that are no text, and a failing call, are errors. -/
theorem C66_exchange (args : List Value) : ∃ input vs, Carries input (.arr vs) ∧ Json.Each Json.ShowsValue vs args ∧
    (∀ args', Json.Each Json.ShowsValue vs args' → args' = args) ∧ ∀ (H : Host) (s : H.State) (f : Str),
      (∀ e s', H.call s f input = (.error e, s') → H.wasm.callText s f args = (.error e, s')) ∧
      (∀ output s', H.call s f input = (.ok output, s') →
        (∀ text, output = utf8 text → H.wasm.callText s f args = (.ok text, s')) ∧
        ((∀ text, output ≠ utf8 text) → ∃ e, H.wasm.callText s f args = (.error e, s'))) := by
  have hi : Json.Integral (.arr (args.map Serde.ofValue)) := by
    refine .arr fun u hu => ?_
    obtain ⟨v, _, rfl⟩ := List.mem_map.mp hu
    exact integral_value v
  refine ⟨_, _, carries_bytes hi, .map shows_value args,
    fun args' h => h.unique (fun _ _ _ h h' => h.unique h') (.map shows_value args), fun H s f => ⟨?_, ?_⟩⟩
  · intro e s' h
    simp only [Host.wasm, h]
  · intro output s' h
    refine ⟨?_, ?_⟩
    · rintro text rfl
      simp only [Host.wasm, h, fromUtf8_utf8]
    · intro hno
      rcases hv : fromUtf8 output with _ | t
      · refine ⟨"invalid UTF-8", ?_⟩
        simp only [Host.wasm, h, hv]
      · exact absurd (fromUtf8_some hv) (hno t)

/-- Concrete case: the text of some arguments. -/
example : Serde.bytes (.arr ([.text (chars! "a\"é"), .textArray [chars! "b", []], .textOption none,
    .textOption (some (chars! "c"))].map Serde.ofValue)) =
    utf8 (chars! "[{\"Text\":\"a\\\"é\"},{\"TextArray\":[\"b\",\"\"]},{\"TextOption\":null},{\"TextOption\":\"c\"}]") := by
  decide +kernel

/-! ### C67 -/

/-- C67 (partial): the commands of a plugin are those that its function `get_metadata` returns as a JSON text, with fields
in any order and any white space, if this text is nested not more than 127 times. All commands are written there; if it is no JSON text the plugin
cannot be loaded. Missing: parameters with types that are nested more deeply (`C67_deep_refuted`). -/
theorem C67_declared_partial (H : Host) (s s' : H.State) (output : Bytes)
    (h : H.call s (chars! "get_metadata") [] = (.ok output, s')) :
    (∀ vs ms, Carries output (.arr vs) → (∀ v ∈ vs, v.Distinct) → Json.Each Json.ShowsMetadata vs ms →
      (Json.arr vs).depth ≤ 127 → H.wasm.metadata s = (.ok ms, s')) ∧
    (∀ ms, H.wasm.metadata s = (.ok ms, s') → ∃ vs, Carries output (.arr vs) ∧ Json.Each Json.ReadsMetadata vs ms) ∧
    ((∀ u, ¬ Carries output u) → ∃ e, H.wasm.metadata s = (.error e, s')) := by
  refine ⟨?_, ?_, ?_⟩
  · intro vs ms hv hd hs hn
    rw [Json.depth] at hn
    have : Serde.toMetadatas Serde.maxNesting (.arr vs) = some ms := by
      show vs.mapM (Serde.toMetadata 126) = some ms
      exact read_metadatas hs hd 126 (by omega)
    simp only [Host.wasm, h, hv.value, Option.bind_some, this]
  · intro ms hm
    simp only [Host.wasm, h] at hm
    rcases hv : Serde.value output with _ | u
    · simp only [hv, Option.bind_none, Prod.mk.injEq] at hm
      cases hm.1
    · rcases ht : Serde.toMetadatas Serde.maxNesting u with _ | c
      · simp only [hv, Option.bind_some, ht, Prod.mk.injEq] at hm
        cases hm.1
      · simp only [hv, Option.bind_some, ht, Prod.mk.injEq, Except.ok.injEq, and_true] at hm
        subst hm
        obtain ⟨vs, rfl, hvs⟩ := sound_metadatas ht
        exact ⟨vs, carries_value hv, hvs⟩
  · intro hno
    rcases hv : Serde.value output with _ | u
    · refine ⟨"invalid JSON", ?_⟩
      simp only [Host.wasm, h, hv, Option.bind_none]
    · exact absurd (carries_value hv) (hno u)

set_option maxRecDepth 4000 in
/-- Concrete case: a description with fields in another order, a field too many and a nested type. -/
example : ∃ vs, Carries (utf8 (chars! "[ {\"return_type\":\"TBlock\", \"argument_types\":[[\"x\", {\"TOption\":{\"TArray\":\"TInline\"}}]],\"doc\":1,\"call_name\":\"g\",\"command_name\":\"f\"}]")) (.arr vs) ∧
    (Json.arr vs).depth ≤ 127 ∧
    Json.Each Json.ShowsMetadata vs [⟨chars! "f", chars! "g", [(chars! "x", .option (.array .inline))], .block⟩] := by
  refine ⟨[.obj [(chars! "return_type", .str (chars! "TBlock")), (chars! "argument_types",
    .arr [.arr [.str (chars! "x"), .obj [(chars! "TOption", .obj [(chars! "TArray", .str (chars! "TInline"))])]]]),
    (chars! "doc", .int 1), (chars! "call_name", .str (chars! "g")), (chars! "command_name", .str (chars! "f"))]],
    ⟨_, rfl, (JsonText.parse_iff _ _).mp (by with_unfolding_all rfl)⟩, by decide, .cons ⟨rfl, rfl, ⟨_, rfl, .cons ⟨_, rfl, ?_⟩ .nil⟩, ⟨_, rfl, .block⟩⟩ .nil⟩
  exact .option rfl (.array rfl .inline)

/-- A type nested `n` times. -/
def deepType : Nat → PType
  | 0 => .inline
  | n + 1 => .option (deepType n)

theorem deepType_json (n : Nat) : (Serde.ofType (deepType n)).ShowsType (deepType n) ∧
    (Serde.ofType (deepType n)).Distinct ∧ (Serde.ofType (deepType n)).Integral ∧
    ∀ m, m < n → Serde.toType m (Serde.ofType (deepType n)) = none := by
  induction n with
  | zero => exact ⟨.inline, .str _, .str _, fun m h => absurd h (Nat.not_lt_zero m)⟩
  | succ n ih =>
    obtain ⟨h1, h2, h3, h4⟩ := ih
    refine ⟨.option rfl h1, distinct_tag h2, integral_tag h3, fun m h => ?_⟩
    rcases m with _ | m
    · rfl
    · have := h4 m (by omega)
      simp only [deepType, Serde.ofType, Serde.toType, if_pos trivial, this, Option.map_none]

/-- C67 refuted for types that are nested more deeply: a plugin that declares one command, with a parameter of such a
type, cannot be loaded. -/
theorem C67_deep_refuted : ∃ output vs ms, Carries output (.arr vs) ∧ (∀ v ∈ vs, v.Distinct) ∧
    Json.Each Json.ShowsMetadata vs ms ∧ ∀ (H : Host) (s s' : H.State),
      H.call s (chars! "get_metadata") [] = (.ok output, s') → ∃ e, H.wasm.metadata s = (.error e, s') := by
  obtain ⟨h1, h2, h3, h4⟩ := deepType_json 130
  generalize hT : Serde.ofType (deepType 130) = T at h1 h2 h3 h4
  have hv : Json.Integral (.arr [.obj [(chars! "command_name", .str (chars! "f")), (chars! "call_name", .str (chars! "f")),
      (chars! "argument_types", .arr [.arr [.str (chars! "x"), T]]), (chars! "return_type", .str (chars! "TInline"))]]) := by
    refine .arr fun v hv => ?_
    simp only [List.mem_cons, List.not_mem_nil, or_false] at hv
    subst hv
    refine .obj fun f hf => ?_
    simp only [List.mem_cons, List.not_mem_nil, or_false] at hf
    rcases hf with rfl | rfl | rfl | rfl
    · exact .str _
    · exact .str _
    · refine .arr fun v hv => ?_
      simp only [List.mem_cons, List.not_mem_nil, or_false] at hv
      subst hv
      refine .arr fun v hv => ?_
      simp only [List.mem_cons, List.not_mem_nil, or_false] at hv
      rcases hv with rfl | rfl
      · exact .str _
      · exact h3
    · exact .str _
  refine ⟨_, _, [⟨chars! "f", chars! "f", [(chars! "x", deepType 130)], .inline⟩], carries_bytes hv, ?_,
    .cons ⟨rfl, rfl, ⟨_, rfl, .cons ⟨_, rfl, h1⟩ .nil⟩, ⟨_, rfl, .inline⟩⟩ .nil, ?_⟩
  · intro v hv
    simp only [List.mem_cons, List.not_mem_nil, or_false] at hv
    subst hv
    refine .obj (by simp only [List.map]; decide) fun f hf => ?_
    simp only [List.mem_cons, List.not_mem_nil, or_false] at hf
    rcases hf with rfl | rfl | rfl | rfl
    · exact .str _
    · exact .str _
    · refine .arr fun v hv => ?_
      simp only [List.mem_cons, List.not_mem_nil, or_false] at hv
      subst hv
      refine .arr fun v hv => ?_
      simp only [List.mem_cons, List.not_mem_nil, or_false] at hv
      rcases hv with rfl | rfl
      · exact .str _
      · exact h2
    · exact .str _
  · intro H s s' h
    refine ⟨"invalid JSON", ?_⟩
    simp only [Host.wasm, h, (carries_bytes hv).value, Option.bind_some]
    have : Serde.toMetadatas Serde.maxNesting (.arr [.obj [(chars! "command_name", .str (chars! "f")),
        (chars! "call_name", .str (chars! "f")), (chars! "argument_types", .arr [.arr [.str (chars! "x"), T]]),
        (chars! "return_type", .str (chars! "TInline"))]]) = none := by
      have h5 := h4 123 (by omega)
      have h6 : Serde.toArgument 124 (.arr [.str (chars! "x"), T]) = none := by
        simp only [Serde.toArgument, Serde.toStr, h5]
        rfl
      show [_].mapM (Serde.toMetadata 126) = none
      have h7 : Serde.toMetadata 126 (.obj [(chars! "command_name", .str (chars! "f")),
        (chars! "call_name", .str (chars! "f")), (chars! "argument_types", .arr [.arr [.str (chars! "x"), T]]),
        (chars! "return_type", .str (chars! "TInline"))]) = none := by
        show ([Json.arr [.str (chars! "x"), T]].mapM (Serde.toArgument 124)).bind _ = none
        rw [List.mapM_cons, h6]
        rfl
      rw [List.mapM_cons, h7]
      rfl
    rw [this]

/-- Concrete case: a plugin with one command. -/
example : echoHost.wasm.metadata () = (.ok [⟨chars! "m", chars! "call_m", [], .ast⟩], ()) := by rfl

end Brack
