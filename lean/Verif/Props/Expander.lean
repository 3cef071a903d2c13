import Verif.Proof.Expand
import Verif.Proof.PluginCases
import Verif.Props.Transform

/-
Properties of `expander` (C27–C29). `ps.log` is the list of the calls made to plugins so far.
-/

namespace Brack

open UTable (sampleSeg)

variable {W : Wasm}

/-! ### C27 -/

/-- C27 refuted, and how: whatever the macros returned, the result is the AST passed in. -/
theorem C27_unchanged (a b : AST) (ps : Plugins W) (h : (expander a ps).1 = .ok b) : b = a :=
  expandOther_result a a ps b h

/-- C27 refuted: in the document `<p.m>` the macro `p.m` returns a text; expansion succeeds, but the
result is not the document with that text in place of the macro. -/
theorem C27_expansion_refuted (S : Segmenter) : ∃ ts c a es, tokenizeStr S (chars! "<p.m>") = .ok ts ∧
    parse ts = .ok c ∧ transform someIds c = .ok (a, es) ∧ es = [] ∧
    ∃ b r call, (expander a (sampleSet noHooks)).1 = .ok b ∧
      (expander a (sampleSet noHooks)).2.log = [call] ∧ call.output = .tree r ∧ ¬ Replaced a [r] b := by
  obtain ⟨ts, c, a, es, h1, h2, h3, h4, h5⟩ := front_case S (chars! "<p.m>") (by decide)
    (fun _ _ a es => es = [] ∧ (match a with
      | .node .document _ [.node .stmt _ [.node .expr _ [.node (.bracket .angle) _
          [.leaf .module _ (some ['p']) _, .leaf .ident _ (some ['m']) _] _] _] _] _ => true
      | _ => false) = true) (by decide +kernel)
  refine ⟨ts, c, a, es, h1, h2, h3, h4, ?_⟩
  split at h5
  · refine ⟨_, _, _, rfl, rfl, rfl, ?_⟩
    intro h
    have := h.macros
    simp [AST.macros, AST.macrosL] at this
  · cases h5

/-- C27 (partial): the result is the document with each macro replaced by what it returned if every
macro returned itself, in particular if there are no macros. Missing: all other cases, in which it
is false (`C27_unchanged`). -/
theorem C27_expansion_partial (a b : AST) (ps : Plugins W) (calls : List Call)
    (h : (expander a ps).1 = .ok b) (_hlog : (expander a ps).2.log = ps.log ++ calls)
    (hself : calls.map (·.output) = a.macros.map .tree) : ∃ rs, calls.map (·.output) = rs.map .tree ∧
      Replaced a rs b := by
  rw [C27_unchanged a b ps h]
  exact ⟨_, hself, replaced_self a⟩

/-- In a document without macros nothing is called and the result is the document. -/
example : ∃ ts c a es, tokenizeStr sampleSeg (chars! "x [p.f]") = .ok ts ∧ parse ts = .ok c ∧
    transform someIds c = .ok (a, es) ∧ es = [] ∧ a.macros.length = 0 ∧
    (expander a (sampleSet noHooks)).1.isOk = true ∧
    (expander a (sampleSet noHooks)).2.log.length = 0 :=
  front_case _ _ (by decide) _ (by decide +kernel)

/-! ### C28 -/

/-- C28: the calls made are for the outermost macro nodes, left to right, each with the whole AST and
the identifier of the node. If expansion succeeds all are called and none failed. A failing call is
the last one. If expansion fails, a call failed or the next macro does not exist. If it panics, there is
an invalid node. -/
theorem C28_macro_calls (a : AST) (ps : Plugins W) (ha : ∀ i cs l, a ≠ .node (.bracket .angle) i cs l) :
    ∃ calls, (expander a ps).2.log = ps.log ++ calls ∧
      calls.map Call.request <+: a.macros.map (AST.macroRequest a) ∧
      ((expander a ps).1.isOk = true → calls.map Call.request = a.macros.map (AST.macroRequest a) ∧
        ∀ c ∈ calls, c.isFailed = false) ∧
      (∀ pre c post, calls = pre ++ c :: post → c.isFailed = true →
        post = [] ∧ (expander a ps).1.isOk = false) ∧
      ((expander a ps).1.isErr = true → (∃ c, calls.getLast? = some c ∧ c.isFailed = true) ∨
        ∃ m, a.macros[calls.length]? = some m ∧ m.Unavailable ps) ∧
      ((expander a ps).1 = .panic → ∃ x ∈ a.contents, x.kind = .invalid ∨ x.kind = .ignored) := by
  unfold expander
  have h := expandOther_spec (W := W) a a ps ha
  obtain ⟨calls, h1, h2, h3, h4⟩ := h.run
  have hmap : (calls.map (·.2)).map Call.request = calls.map (fun c => c.2.request) := by
    rw [List.map_map]; rfl
  refine ⟨calls.map (·.2), h1.log, by rw [hmap]; exact h2, ?_, ?_, ?_, ?_⟩
  · intro hok
    refine ⟨by rw [hmap]; exact h3 hok, ?_⟩
    intro c hc
    obtain ⟨x, hx, rfl⟩ := List.mem_map.mp hc
    have : Ran ps (expandOther a a ps).2 calls true := by rw [← show _ = true from hok]; exact h1
    exact this.ok_no_fail x hx
  · intro pre c post hc hf
    obtain ⟨p1, p2, rfl, rfl, h5⟩ := List.map_eq_append_iff.mp hc
    obtain ⟨x, p3, rfl, rfl, rfl⟩ := List.map_eq_cons_iff.mp h5
    obtain ⟨rfl, h6⟩ := h1.last _ _ _ rfl hf
    exact ⟨rfl, h6⟩
  · intro he
    rcases h4 he with ⟨c, hc, hf⟩ | h5
    · exact .inl ⟨c.2, by rw [List.getLast?_map, hc]; rfl, hf⟩
    · exact .inr (by simpa using h5)
  · intro hp
    exact h.panic (by rw [show (expandOther a a ps).1 = .panic from hp]; rfl)

/-- Two macros, one inside an argument and with a nested macro that is not called itself; the second
fails, so the third is not called. -/
example : ∃ ts c a es, tokenizeStr sampleSeg (chars! "[p.g <p.m <p.m>>] <p.bad>\n<p.m>") = .ok ts ∧
    parse ts = .ok c ∧ transform someIds c = .ok (a, es) ∧ es = [] ∧ a.macros.length = 3 ∧
    (expander a (sampleSet noHooks)).1.isErr = true ∧
    (expander a (sampleSet noHooks)).2.log.map Call.command = [['m'], chars! "bad"] :=
  front_case _ _ (by decide) _ (by decide +kernel)

/-! ### C29 -/

/-- C29 refuted: the text `\a` makes the expander panic. -/
theorem C29_no_panic_refuted (S : Segmenter) (W : Wasm) (ps : Plugins W) : ∃ ts c a es,
    tokenizeStr S (chars! "\\a") = .ok ts ∧ parse ts = .ok c ∧ transform someIds c = .ok (a, es) ∧
    (expander a ps).1 = .panic := by
  obtain ⟨ts, c, a, es, h1, h2, h3, h4, h5⟩ := front_case S (chars! "\\a") (by decide)
    (fun _ _ a _ => a.macros.length = 0 ∧ (a.contents.any (·.kind = .invalid)) = true)
    (by decide +kernel)
  refine ⟨ts, c, a, es, h1, h2, h3, expandOther_panic a a ps (List.length_eq_zero_iff.mp h4) ?_⟩
  rw [List.any_eq_true] at h5
  obtain ⟨x, hx, h⟩ := h5
  exact ⟨x, hx, .inl (of_decide_eq_true h)⟩

/-- C29 (partial): the expander does not panic on a document unless a backslash escapes nothing, which
transform reports as an error. Missing: these documents, on which it may panic
(`C29_no_panic_refuted`). -/
theorem C29_no_panic_partial (ts : List Token) (c : CST) (ids : Nat → Str) (a : AST) (es : List TErr)
    (ps : Plugins W) (hp : parse ts = .ok c) (hx : transform ids c = .ok (a, es))
    (hes : ∀ e ∈ es, e.kind ≠ .invalidBackslash) : (expander a ps).1 ≠ .panic := by
  intro h
  obtain ⟨x, hx', hk⟩ := expander_panic_invalid h
  obtain ⟨l, hl⟩ := content_invalid hp hx hx' hk
  rw [← C21_backslash ts c ids a es hp hx] at hl
  obtain ⟨e, he, h'⟩ := List.mem_filterMap.mp hl
  refine hes e he ?_
  obtain ⟨k, l'⟩ := e
  rcases k <;> simp [TErr.invalidBackslash?] at h' ⊢

/-- C29: on documents without macros the expander panics exactly if a backslash escapes nothing. -/
theorem C29_panic_iff (ts : List Token) (c : CST) (ids : Nat → Str) (a : AST) (es : List TErr)
    (ps : Plugins W) (hp : parse ts = .ok c) (hx : transform ids c = .ok (a, es))
    (hm : a.macros = []) :
    (expander a ps).1 = .panic ↔ ∃ e ∈ es, e.kind = .invalidBackslash := by
  constructor
  · intro h
    refine Classical.byContradiction (fun hn => ?_)
    exact C29_no_panic_partial ts c ids a es ps hp hx (fun e he hk => hn ⟨e, he, hk⟩) h
  · rintro ⟨⟨k, l⟩, he, rfl⟩
    have : l ∈ es.filterMap TErr.invalidBackslash? := List.mem_filterMap.mpr ⟨_, he, rfl⟩
    rw [C21_backslash ts c ids a es hp hx] at this
    obtain ⟨e, he', h'⟩ := List.mem_filterMap.mp this
    refine expandOther_panic a a ps hm ?_
    rw [C22_content ts c ids a es hp hx]
    rcases e with _ | _ | _ | _ | _ | _ <;> simp [Event.stray?] at h'
    exact ⟨_, List.mem_filterMap.mpr ⟨_, he', rfl⟩, .inl rfl⟩

/-- A document with other errors but no stray backslash. -/
example : ∃ ts c a es, tokenizeStr sampleSeg (chars! "x [p.f <p.m>") = .ok ts ∧ parse ts = .ok c ∧
    transform someIds c = .ok (a, es) ∧ (∀ e ∈ es, e.kind ≠ .invalidBackslash) ∧ es.length = 1 ∧
    (expander a (sampleSet noHooks)).2.log.length = 1 :=
  front_case _ _ (by decide) _ (by decide +kernel)

end Brack
