import Verif.Proof.WordsRun
import Verif.Proof.Unicode
import Verif.Proof.PluginCases
import Verif.Proof.Balance
import Verif.Props.Decided

/-
What the words of a document say has no influence on which commands run (C121).
-/

namespace Brack

/-! ### C121 -/

/-- C121: words somewhere in a document are replaced by other words. Then both documents are read, or both fail with the
same error; they have the same tree up to what the words say, and the same errors are reported in the same order. -/
theorem C121_tree {S : Segmenter} {inside : Bool} {u x x' v : Str} (hu : WordPlace S inside u) (hx : PlainWords inside x)
    (hx' : PlainWords inside x') (ha : Apart S u x v) (ha' : Apart S u x' v) (ids ids' : Nat → Str) :
    Res.Same (fun r r' => r.1.shape.wordless = r'.1.shape.wordless ∧ r.2.map TErr.kind = r'.2.map TErr.kind)
      (do transform ids (← parse (← tokenizeStr S (u ++ x ++ v))))
      (do transform ids' (← parse (← tokenizeStr S (u ++ x' ++ v)))) := by
  obtain ⟨ts, ts', h1, h2, h3⟩ := tokens_reworded hu hx hx' ha ha'
  rw [h1, h2]
  have h4 := parse_like _ _ h3
  show Res.Same _ (parse ts >>= transform ids) (parse ts' >>= transform ids')
  generalize parse ts = o at *
  generalize parse ts' = o' at *
  rcases o with c | _ | _ <;> rcases o' with c' | _ | _ <;> first | exact h4.elim | exact h4 | skip
  have h5 := transform_like ids ids' h4
  show Res.Same _ (transform ids c) (transform ids' c')
  generalize transform ids c = o at *
  generalize transform ids' c' = o' at *
  rcases o with c | _ | _ <;> rcases o' with c' | _ | _ <;> first | exact h5.elim | exact h5 | skip
  exact ⟨h5.1.shape, h5.2⟩

/-- C121: the two documents are compiled with two sets of plugins that declare the same commands and hooks but may do
different things, and no command or hook fails. Then the same commands, hooks and macros are called in the same order with
the same number and forms of values, and both compile or both fail with the same error. -/
theorem C121_calls {V W : Wasm} {S : Segmenter} {inside : Bool} {u x x' v : Str} (hu : WordPlace S inside u)
    (hx : PlainWords inside x) (hx' : PlainWords inside x') (ha : Apart S u x v) (ha' : Apart S u x' v) (ids ids' : Nat → Str)
    (checks : Bool) (ps : Plugins V) (qs : Plugins W) (h : SameDeclarations ps qs) (hp : ps.log = []) (hq : qs.log = [])
    (h1 : ∀ c ∈ (compileText S ids checks (u ++ x ++ v) ps).2.log, c.isFailed = false)
    (h2 : ∀ c ∈ (compileText S ids' checks (u ++ x' ++ v) qs).2.log, c.isFailed = false) :
    (compileText S ids checks (u ++ x ++ v) ps).2.log.map Call.outline =
        (compileText S ids' checks (u ++ x' ++ v) qs).2.log.map Call.outline ∧
      Res.Same (fun _ _ => True) (compileText S ids checks (u ++ x ++ v) ps).1
        (compileText S ids' checks (u ++ x' ++ v) qs).1 := by
  obtain ⟨new, new', h3, h4, h5⟩ :=
    compileText_outlines ids ids' checks (tokens_reworded hu hx hx' ha ha') ps qs h
  rw [hp, List.nil_append] at h3
  rw [hq, List.nil_append] at h4
  rw [h3] at h1 ⊢
  rw [h4] at h2 ⊢
  rcases h5 with ⟨_, _, h5, h6, _⟩ | ⟨⟨c, hc, hf⟩, _⟩ | ⟨⟨c, hc, hf⟩, _⟩
  · exact ⟨h5, h6⟩
  · rw [h1 c hc] at hf
    cases hf
  · rw [h2 c hc] at hf
    cases hf

/-- C121: in any case the calls of one of the two are the first calls of the other; they differ in number only if a call
has failed, and then that call is the last one. -/
theorem C121_until_failure {V W : Wasm} {S : Segmenter} {inside : Bool} {u x x' v : Str} (hu : WordPlace S inside u)
    (hx : PlainWords inside x) (hx' : PlainWords inside x') (ha : Apart S u x v) (ha' : Apart S u x' v) (ids ids' : Nat → Str)
    (checks : Bool) (ps : Plugins V) (qs : Plugins W) (h : SameDeclarations ps qs) (hp : ps.log = []) (hq : qs.log = []) :
    let log := (compileText S ids checks (u ++ x ++ v) ps).2.log
    let log' := (compileText S ids' checks (u ++ x' ++ v) qs).2.log
    log.map Call.outline = log'.map Call.outline ∨
      (log.map Call.outline <+: log'.map Call.outline ∧ ∃ c, log.getLast? = some c ∧ c.isFailed = true) ∨
      (log'.map Call.outline <+: log.map Call.outline ∧ ∃ c, log'.getLast? = some c ∧ c.isFailed = true) := by
  obtain ⟨new, new', h3, h4, h5⟩ :=
    compileText_outlines ids ids' checks (tokens_reworded hu hx hx' ha ha') ps qs h
  obtain ⟨_, r, hr1, hr⟩ := compileText_reports S ids checks (u ++ x ++ v) ps
  obtain ⟨_, r', hr1', hr'⟩ := compileText_reports S ids' checks (u ++ x' ++ v) qs
  rw [hp, List.nil_append] at h3 hr1
  rw [hq, List.nil_append] at h4 hr1'
  simp only []
  rw [h3] at hr1 ⊢
  rw [h4] at hr1' ⊢
  subst hr1 hr1'
  have last : ∀ {new : List Call}, (∃ c ∈ new, c.isFailed = true) → ((∀ c ∈ new, c.isFailed = false) ∨
      ∃ pre c, new = pre ++ [c] ∧ c.isFailed = true) → ∃ c, new.getLast? = some c ∧ c.isFailed = true := by
    rintro new ⟨c, hc, hf⟩ (h | ⟨pre, c, rfl, h⟩)
    · rw [h c hc] at hf
      cases hf
    · exact ⟨c, by simp, h⟩
  rcases h5 with ⟨_, _, h5, _⟩ | ⟨h5, h6⟩ | ⟨h5, h6⟩
  · exact .inl h5
  · exact .inr (.inl ⟨h6, last h5 (hr.imp id fun ⟨pre, c, _, k1, _, k2, _⟩ => ⟨pre, c, k1, k2⟩)⟩)
  · exact .inr (.inr ⟨h6, last h5 (hr'.imp id fun ⟨pre, c, _, k1, _, k2, _⟩ => ⟨pre, c, k1, k2⟩)⟩)

/-- C121: with plugins whose commands and hooks never fail, one of the documents compiles if and only if the other does. -/
theorem C121_compiles {W : Wasm} {S : Segmenter} {inside : Bool} {u x x' v : Str} (hu : WordPlace S inside u)
    (hx : PlainWords inside x) (hx' : PlainWords inside x') (ha : Apart S u x v) (ha' : Apart S u x' v) (ids ids' : Nat → Str)
    (checks : Bool) (ps : Plugins W) (hp : ps.log = []) (hW : ∀ s f vs, ∃ t, (W.callText s f vs).1 = .ok t)
    (hM : ∀ s f a i, ∃ t, (W.callMacro s f a i).1 = .ok t) :
    (compileText S ids checks (u ++ x ++ v) ps).1.isOk = (compileText S ids' checks (u ++ x' ++ v) ps).1.isOk := by
  have key : ∀ (ids : Nat → Str) (text : Str), ∀ c ∈ (compileText S ids checks text ps).2.log, c.isFailed = false := by
    intro ids text c hc
    obtain ⟨_, new, h1, h2⟩ := compileText_reports S ids checks text ps
    rw [hp, List.nil_append] at h1
    rw [h1] at hc
    rcases h2 with h2 | ⟨pre, d, e, h3, h4, h5, h6, p, m, s, s', h7, h8, h9⟩
    · exact h2 c hc
    · rcases hd : d.input with vs | ⟨a, i⟩ <;> rw [hd] at h9 <;> simp only [] at h9
      · obtain ⟨t, ht⟩ := hW s m.callName vs
        rw [h9] at ht
        cases ht
      · obtain ⟨t, ht⟩ := hM s m.callName a i
        rw [h9] at ht
        cases ht
  have h := (C121_calls hu hx hx' ha ha' ids ids' checks ps ps ⟨rfl, rfl, rfl, rfl, fun _ => rfl⟩ hp hp (key _ _) (key _ _)).2
  generalize (compileText S ids checks (u ++ x ++ v) ps).1 = o at *
  generalize (compileText S ids' checks (u ++ x' ++ v) ps).1 = o' at *
  rcases o with _ | _ | _ <;> rcases o' with _ | _ | _ <;> first | exact h.elim | rfl

/-- A way to check that words may stand after a given text. -/
theorem WordPlace.of {S : Segmenter} {inside : Bool} {u : Str} (h : Char.ofNat 0 ∉ u)
    (h' : ∃ ts, tokenizeStr S u = .ok ts ∧ ts ≠ [] ∧ nameDue false ts.dropLast = false ∧
      inside = decide (0 < depth ts.dropLast)) : WordPlace S inside u := by
  obtain ⟨ts, h1, h2, h3, h4⟩ := h'
  exact ⟨h, ts.dropLast, ts.getLast h2, by rw [List.dropLast_concat_getLast, h1], h3, h4⟩

/-- Concrete case: words outside of brackets, with spaces, dots and commas; those of the second document look like a name. -/
example :
    let u := chars! "a [p.g b] "
    let x := chars! "One, two."
    let x' := chars! "p.f"
    let v := chars! "[p.g x]"
    WordPlace UTable.sampleSeg false u ∧ PlainWords false x ∧ PlainWords false x' ∧ Apart UTable.sampleSeg u x v ∧
      Apart UTable.sampleSeg u x' v ∧
      let r := compileText UTable.sampleSeg someIds true (u ++ x ++ v) (sampleSet allHooks)
      let r' := compileText UTable.sampleSeg someIds true (u ++ x' ++ v) (markupSet allHooks)
      r.1.isOk = true ∧ r'.1.isOk = true ∧ 0 < r.2.log.length ∧ r.2.log.map Call.outline = r'.2.log.map Call.outline := by
  refine ⟨.of (by decide +kernel) (ok_such (by decide +kernel)), by unfold PlainWords; decide +kernel,
    by unfold PlainWords; decide +kernel, by unfold Apart; decide +kernel, by unfold Apart; decide +kernel, by decide +kernel⟩

/-- Concrete case: words of an argument, in a document that does not compile. -/
example :
    let u := chars! "a [p.g b"
    let x := chars! "c"
    let x' := chars! "éd!"
    let v := chars! " e, [p.none]] f"
    WordPlace UTable.sampleSeg true u ∧ PlainWords true x ∧ PlainWords true x' ∧ Apart UTable.sampleSeg u x v ∧
      Apart UTable.sampleSeg u x' v ∧
      let r := compileText UTable.sampleSeg someIds true (u ++ x ++ v) (sampleSet allHooks)
      let r' := compileText UTable.sampleSeg someIds true (u ++ x' ++ v) (sampleSet allHooks)
      r.1.isOk = false ∧ r'.1.isOk = false ∧ 0 < r.2.log.length ∧ r.2.log.map Call.outline = r'.2.log.map Call.outline := by
  refine ⟨.of (by decide +kernel) (ok_such (by decide +kernel)), by unfold PlainWords; decide +kernel,
    by unfold PlainWords; decide +kernel, by unfold Apart; decide +kernel, by unfold Apart; decide +kernel, by decide +kernel⟩

/-- The words have to be words: in place of a command's name, or with a space inside of brackets, the calls change. -/
example : ¬ WordPlace UTable.sampleSeg true (chars! "[") ∧ ¬ PlainWords true (chars! "a b") ∧
    (compileText UTable.sampleSeg someIds true (chars! "[p.f]") (sampleSet noHooks)).2.log.map Call.outline ≠
      (compileText UTable.sampleSeg someIds true (chars! "[p.bad]") (sampleSet noHooks)).2.log.map Call.outline := by
  refine ⟨fun h => ?_, by unfold PlainWords; decide +kernel, by decide +kernel⟩
  obtain ⟨ts, e, h1, h2, h3⟩ := h.tokens
  have h4 : ∃ us, tokenizeStr UTable.sampleSeg (chars! "[") = .ok us ∧ nameDue false us.dropLast = true :=
    ok_such (by decide +kernel)
  obtain ⟨us, h5, h6⟩ := h4
  rw [h1] at h5
  injection h5 with h5
  rw [← h5, List.dropLast_concat, h2] at h6
  cases h6

end Brack
