import Verif.Proof.SerdeRead
import Verif.Proof.Expand
import Verif.Spec.Cli

/-
Printed values have no line feed; macros that always fail.
-/

namespace Brack

theorem Prints.mono {x : IOM Unit} {w : World} {P Q : List Str → Prop} (h : Prints x w P) (hPQ : ∀ ls, P ls → Q ls)
    (hQP : (∃ ls, Q ls) → ∃ ls, P ls) : Prints x w Q := by
  rcases h with ⟨ls, h1, h2, h3⟩ | ⟨h1, h2, h3⟩
  · exact .inl ⟨ls, hPQ ls h1, h2, h3⟩
  · refine .inr ⟨fun ls hls => ?_, h2, h3⟩
    obtain ⟨ls', h'⟩ := hQP ⟨ls, hls⟩
    exact h1 ls' h'

namespace JsonText

theorem hexDigit_ne : ∀ k < 16, hexDigit k ≠ '\n' := by decide

theorem printChar_line (c : Char) : '\n' ∉ printChar c := by
  unfold printChar
  split
  · decide
  split
  · decide
  split
  · decide
  split
  · decide
  split
  · decide
  split
  · decide
  split
  · decide
  split
  · next h =>
    simp only [List.mem_append, List.mem_cons, List.not_mem_nil, or_false, not_or]
    exact ⟨⟨by decide, by decide, by decide, by decide⟩, (hexDigit_ne _ (by omega)).symm, (hexDigit_ne _ (by omega)).symm⟩
  · next h1 h2 h3 _ _ _ _ _ =>
    simp only [List.mem_singleton]
    exact fun h => h3 h.symm

theorem printStr_line (s : Str) : '\n' ∉ printStr s := by
  rw [printStr]
  simp only [List.mem_cons, List.mem_append, List.mem_flatMap, List.not_mem_nil, or_false, not_or, not_exists, not_and]
  exact ⟨by decide, fun c _ => printChar_line c, by decide⟩

theorem printInt_line (n : Int) : '\n' ∉ printInt n := by
  have h : ∀ m, '\n' ∉ decimal m := fun m hm => absurd (decimal_digits m _ hm) (by decide)
  rw [printInt]
  split
  · simp only [List.mem_cons, not_or]
    exact ⟨by decide, h _⟩
  · exact h _

mutual
theorem print_line : ∀ v : Json, v.Integral → '\n' ∉ print v
  | .null, _ => by rw [print]; decide
  | .bool true, _ => by rw [print]; decide
  | .bool false, _ => by rw [print]; decide
  | .int n, _ => by rw [print]; exact printInt_line n
  | .number t, h => by cases h
  | .str s, _ => by rw [print]; exact printStr_line s
  | .arr [], _ => by rw [print]; decide
  | .arr (v :: vs), h => by
    cases h with
    | arr h =>
      rw [print]
      simp only [List.mem_cons, List.mem_append, not_or]
      exact ⟨by decide, print_line v (h v (by simp)), printArr_line vs (fun u hu => h u (by simp [hu]))⟩
  | .obj [], _ => by rw [print]; decide
  | .obj ((k, v) :: fs), h => by
    cases h with
    | obj h =>
      rw [print]
      simp only [List.mem_cons, List.mem_append, not_or]
      exact ⟨by decide, printStr_line k, by decide, print_line v (h (k, v) (by simp)),
        printObj_line fs (fun u hu => h u (by simp [hu]))⟩
theorem printArr_line : ∀ vs : List Json, (∀ v ∈ vs, v.Integral) → '\n' ∉ printArr vs
  | [], _ => by rw [printArr]; decide
  | v :: vs, h => by
    rw [printArr]
    simp only [List.mem_cons, List.mem_append, not_or]
    exact ⟨by decide, print_line v (h v (by simp)), printArr_line vs (fun u hu => h u (by simp [hu]))⟩
theorem printObj_line : ∀ fs : List (Str × Json), (∀ f ∈ fs, f.2.Integral) → '\n' ∉ printObj fs
  | [], _ => by rw [printObj]; decide
  | (k, v) :: fs, h => by
    rw [printObj]
    simp only [List.mem_cons, List.mem_append, not_or]
    exact ⟨by decide, printStr_line k, by decide, print_line v (h (k, v) (by simp)),
      printObj_line fs (fun u hu => h u (by simp [hu]))⟩
end

end JsonText

/-! ### Macros that fail on a document -/

section
variable {W : Wasm} {o : AST} (hfail : ∀ s f i, ∃ e s', W.callMacro s f o i = (.error e, s'))
include hfail

theorem expandAngle_fails {i : Str} {cs : List AST} {ps ps' : Plugins W} {r : AST} :
    expandAngle o i cs ps ≠ (.ok r, ps') := by
  intro h
  unfold expandAngle at h
  rw [PM.bind_run] at h
  rcases hm : macroNames [] [] cs with ⟨m, n⟩ | e | _
  · simp only [PM.lift, hm, Plugins.callMacro] at h
    rcases h1 : ps.nameToPlugin.get m with _ | p
    · simp only [h1] at h; cases h
    · simp only [h1] at h
      rcases h2 : p.signatures.get (n, .ast) with _ | d
      · simp only [h2] at h; cases h
      · obtain ⟨e, s', h3⟩ := hfail p.extism d.callName i
        simp only [h2, h3] at h
        cases h
  · simp only [PM.lift, hm] at h; cases h
  · simp only [PM.lift, hm] at h; cases h

mutual
theorem expandOther_fails : ∀ (a : AST) (ps ps' : Plugins W) (r : AST), (∀ i cs l, a ≠ .node (.bracket .angle) i cs l) →
    expandOther o a ps = (.ok r, ps') → a.macros = []
  | .leaf _ _ _ _, _, _, _, _, _ => by rw [AST.macros]
  | .node k i cs l, ps, ps', r, hk, h => by
    rw [expandOther, PM.bind_run] at h
    rcases hc : expandChildren o cs ps with ⟨ds | e | _, ps1⟩
    · have := expandChildren_fails cs ps ps1 ds hc
      cases k with
      | bracket b =>
        cases b with
        | angle => exact absurd rfl (hk i cs l)
        | curly => rw [AST.macros]; · exact this
                   · simp
        | square => rw [AST.macros]; · exact this
                    · simp
      | _ => rw [AST.macros]; · exact this
             · simp
    · rw [hc] at h; cases h
    · rw [hc] at h; cases h
theorem expandChildren_fails : ∀ (cs : List AST) (ps ps' : Plugins W) (rs : List AST),
    expandChildren o cs ps = (.ok rs, ps') → AST.macrosL cs = []
  | [], _, _, _, _ => by rw [AST.macrosL]
  | c :: cs, ps, ps', rs, h => by
    by_cases ha : ∃ i es l, c = .node (.bracket .angle) i es l
    · obtain ⟨i, es, l, rfl⟩ := ha
      rw [expandChildren, PM.bind_run] at h
      rcases hd : expandAngle o i es ps with ⟨d | e | _, ps1⟩
      · exact absurd hd (expandAngle_fails hfail)
      · rw [hd] at h; cases h
      · rw [hd] at h; cases h
    · have hne : ∀ i es l, c ≠ .node (.bracket .angle) i es l := fun i es l h => ha ⟨i, es, l, h⟩
      rw [expandChildren, PM.bind_run] at h
      · rcases hd : expandOther o c ps with ⟨d | e | _, ps1⟩
        · have h1 := expandOther_fails c ps ps1 d hne hd
          rw [hd] at h
          simp only at h
          rw [PM.bind_run] at h
          rcases hs : expandChildren o cs ps1 with ⟨ds | e | _, ps2⟩
          · rw [AST.macrosL, h1, expandChildren_fails cs ps1 ps2 ds hs]
            rfl
          · rw [hs] at h; cases h
          · rw [hs] at h; cases h
        · rw [hd] at h; cases h
        · rw [hd] at h; cases h
      · exact hne
end

end

end Brack
