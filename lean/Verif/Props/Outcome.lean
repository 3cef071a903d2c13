import Verif.Props.Reports
import Verif.Props.Outline
import Verif.Props.Parser
import Verif.Props.Transform
import Verif.Proof.BlankText
import Verif.Proof.PluginCases

/-
Properties of reading a document (C130).
-/

namespace Brack

open UTable (sampleSeg)

/-! ### C130 -/

/-- C130: reading a text has one of three outcomes, and which one is decided by its tokens. If they are not accepted (C11) there is
an error; otherwise, if a dot, comma or space stands outside all commands, there is a crash; otherwise there is a tree with
errors, and both are those read off the tokens. -/
theorem C130_outcome (S : Segmenter) (ids : Nat → Str) (text : Str) : ∃ ts, tokenizeStr S text = .ok ts ∧
    (accepts [] .start (ts.map (·.kind)) = false →
      ∃ m, (do transform ids (← parse (← tokenizeStr S text)) : Res (AST × List TErr)) = .err m) ∧
    (accepts [] .start (ts.map (·.kind)) = true → (∃ e ∈ trace [] ts, e.looseSeparator = true) →
      (do transform ids (← parse (← tokenizeStr S text)) : Res (AST × List TErr)) = .panic) ∧
    (accepts [] .start (ts.map (·.kind)) = true → (∀ e ∈ trace [] ts, e.looseSeparator = false) →
      ∃ a, (do transform ids (← parse (← tokenizeStr S text)) : Res (AST × List TErr)) = .ok (a, report [] ts) ∧
        a.shape = outline ts) := by
  refine ⟨_, tokenizeStr_eq S text, ?_⟩
  generalize hts : run (S.graphemes text) M.init = ts
  have ht : tokenizeStr S text = .ok ts := by rw [tokenizeStr_eq, hts]
  have hnp := C10_no_panic_text S text ts ht
  have hacc := C11_accepts_iff ts
  rw [ht]
  change (_ → ∃ m, (parse ts).bind _ = _) ∧ (_ → _ → (parse ts).bind _ = _) ∧ (_ → _ → ∃ a, (parse ts).bind _ = _ ∧ _)
  rcases hp : parse ts with c | m | _
  · have h17 := C17_panic_iff ts c ids hp
    have hyes := hacc.mp ⟨c, hp⟩
    refine ⟨fun h => (by rw [hyes] at h; cases h), fun _ h => h17.1.mpr h, fun _ h => ?_⟩
    obtain ⟨a, es, hx⟩ := h17.2 (by rw [Ne, h17.1]; simpa using h)
    exact ⟨a, by rw [← C128_errors hp hx]; exact hx, C129_tree hp hx⟩
  · have hno : accepts [] .start (ts.map (·.kind)) ≠ true := by
      intro h
      obtain ⟨c, hc⟩ := hacc.mpr h
      rw [hp] at hc; cases hc
    exact ⟨fun _ => ⟨m, rfl⟩, fun h => absurd h hno, fun h => absurd h hno⟩
  · exact absurd hp hnp

/-- C130: whether and how a document compiles is decided by the tree read off its tokens. If two texts can be read and the trees
read off their tokens are the same, then both compile to the same output or none does. -/
theorem C130_compile {W : Wasm} (S : Segmenter) (ids : Nat → Str) (checks : Bool) (ps : Plugins W) (text text' : Str)
    (ts ts' : List Token) (h : tokenizeStr S text = .ok ts) (h' : tokenizeStr S text' = .ok ts')
    (ha : accepts [] .start (ts.map (·.kind)) = true) (ha' : accepts [] .start (ts'.map (·.kind)) = true)
    (hl : ∀ e ∈ trace [] ts, e.looseSeparator = false) (hl' : ∀ e ∈ trace [] ts', e.looseSeparator = false)
    (ho : outline ts = outline ts') (gen : Str) (ps2 : Plugins W) :
    compileText S ids checks text ps = (.ok gen, ps2) ↔ compileText S ids checks text' ps = (.ok gen, ps2) := by
  have key : ∀ {text ts}, tokenizeStr S text = .ok ts → accepts [] .start (ts.map (·.kind)) = true →
      (∀ e ∈ trace [] ts, e.looseSeparator = false) → ∃ a es, Reads S ids text a es ∧ a.shape = outline ts ∧
        ∀ b fs, Reads S ids text b fs → b = a ∧ fs = es := by
    intro text ts h ha hl
    obtain ⟨c, hp⟩ := (C11_accepts_iff ts).mpr ha
    have h17 := C17_panic_iff ts c ids hp
    obtain ⟨a, es, hx⟩ := h17.2 (by rw [Ne, h17.1]; simpa using hl)
    refine ⟨a, es, ⟨ts, c, h, hp, hx⟩, C129_tree hp hx, ?_⟩
    rintro b fs ⟨ts1, c1, k1, k2, k3⟩
    rw [h] at k1; injection k1 with k1; subst k1
    rw [hp] at k2; injection k2 with k2; subst k2
    rw [hx] at k3; injection k3 with k3; injection k3 with k3 k4
    exact ⟨k3.symm, k4.symm⟩
  obtain ⟨a, es, r1, s1, u1⟩ := key h ha hl
  obtain ⟨b, fs, r2, s2, u2⟩ := key h' ha' hl'
  simp only [compileText_iff]
  constructor
  · rintro ⟨x, es', hx, hg⟩
    obtain ⟨rfl, _⟩ := u1 _ _ hx
    exact ⟨b, fs, r2, by rw [generate_shape checks (show b.shape = x.shape by rw [s1, s2, ho])]; exact hg⟩
  · rintro ⟨x, es', hx, hg⟩
    obtain ⟨rfl, _⟩ := u2 _ _ hx
    exact ⟨a, es, r1, by rw [generate_shape checks (show a.shape = x.shape by rw [s1, s2, ho])]; exact hg⟩

/-- The three outcomes: an error, a crash, and a tree. -/
example (S : Segmenter) :
    (∃ ts, tokenizeStr S (chars! "a]b") = .ok ts ∧ accepts [] .start (ts.map (·.kind)) = false) ∧
    (∃ ts, tokenizeStr S (chars! "[p.f {q.g x] y") = .ok ts ∧ accepts [] .start (ts.map (·.kind)) = true ∧
      ((trace [] ts).any (·.looseSeparator)) = true) ∧
    (∃ ts, tokenizeStr S (chars! "x {p.h y,\nz") = .ok ts ∧ accepts [] .start (ts.map (·.kind)) = true ∧
      ((trace [] ts).all (fun e => !e.looseSeparator)) = true ∧ report [] ts ≠ []) :=
  ⟨⟨_, tokenize_ascii S _ (by decide), by decide +kernel⟩, ⟨_, tokenize_ascii S _ (by decide), by decide +kernel, by decide +kernel⟩,
    ⟨_, tokenize_ascii S _ (by decide), by decide +kernel, by decide +kernel, by decide +kernel⟩⟩

/-- Two texts with the same tree: the second one lacks the closing bracket and has more blanks and a comma that ends no argument.
Both compile to the same output. -/
example (S : Segmenter) : (∃ ts ts', tokenizeStr S (chars! "x {p.h y,z}") = .ok ts ∧
      tokenizeStr S (chars! "x {p.h  y,\n,z\n") = .ok ts' ∧ accepts [] .start (ts.map (·.kind)) = true ∧
      accepts [] .start (ts'.map (·.kind)) = true ∧ outline ts = outline ts') ∧
    (compileText sampleSeg someIds true (chars! "x {p.h y,z}") (sampleSet noHooks)).1 = .ok (chars! "x h(y,[z;],)") ∧
    (compileText sampleSeg someIds true (chars! "x {p.h  y,\n,z\n") (sampleSet noHooks)).1 = .ok (chars! "x h(y,[z;],)") := by
  have hc : ∀ text gen, (∃ ts c a es, tokenizeStr sampleSeg text = .ok ts ∧ parse ts = .ok c ∧
      transform someIds c = .ok (a, es) ∧ ((do let b ← expander a; generate true b : PM _ Str) (sampleSet noHooks)).1 = .ok gen) →
      (compileText sampleSeg someIds true text (sampleSet noHooks)).1 = .ok gen := by
    rintro text gen ⟨ts, c, a, es, h1, h2, h3, h4⟩
    rw [compileText_front h1 h2 h3]
    exact h4
  exact ⟨⟨_, _, tokenize_ascii S _ (by decide), tokenize_ascii S _ (by decide), by decide +kernel, by decide +kernel,
    by decide +kernel⟩, hc _ _ (front_case _ _ (by decide) _ (by decide +kernel)),
    hc _ _ (front_case _ _ (by decide) _ (by decide +kernel))⟩

end Brack
