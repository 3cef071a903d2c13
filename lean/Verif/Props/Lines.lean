import Verif.Proof.Lines
import Verif.Props.Pipeline

/-
Properties of documents without commands (C36, continued).
-/

namespace Brack

variable {W : Wasm}

/-! ### C36 -/

/-- C36, for every text without special characters other than line feeds: it compiles to itself without its line feeds,
except those of CR LF pairs, unless it begins with a line feed and has anything else than line feeds, in which case it is
refused. No plugin is called. -/
theorem C36_exact (S : Segmenter) (ids : Nat → Str) (checks : Bool) (ps : Plugins W) (h : NoHooks ps)
    (text : Str) (hspec : ∀ c ∈ specialChars, c ≠ '\n' → c ∉ text) :
    (compileText S ids checks text ps).2 = ps ∧
    (text.head? ≠ some '\n' ∨ (∀ c ∈ text, c = '\n') → (compileText S ids checks text ps).1 = .ok (joinLines text)) ∧
    (text.head? = some '\n' → (∃ c ∈ text, c ≠ '\n') → (compileText S ids checks text ps).1.isErr = true) := by
  have hgs := unmarked_clusters S hspec
  have htok := tokenizeStr_eq S text
  have hok : (∃ ts c, tokenizeStr S text = .ok ts ∧ parse ts = .ok c) →
      compileText S ids checks text ps = (.ok (joinLines text), ps) := by
    intro hparse
    obtain ⟨ts, ht, _, _, hc, _⟩ := compile_parsed S ids checks ps h text hspec hparse
    rw [htok] at ht
    injection ht with ht
    rw [hc, ← ht, plain_words _ _ rfl rfl (poolOK_init _) hgs, ← clusters_join S _ text rfl]
    rfl
  by_cases hstart : text.head? = some '\n'
  · obtain ⟨s, rfl⟩ : ∃ s, text = '\n' :: s := by
      rcases text with _ | ⟨c, s⟩ <;> simp at hstart
      exact ⟨s, by rw [hstart]⟩
    have hfl := S.flatten ('\n' :: s)
    rcases hg : S.graphemes ('\n' :: s) with _ | ⟨g, gs⟩
    · rw [hg] at hfl
      cases hfl
    · rw [hg] at hfl htok hgs
      have hne := S.nonempty ('\n' :: s)
      rw [hg] at hne
      have hg1 : g = ['\n'] := by
        rcases g with _ | ⟨c, g⟩
        · exact absurd rfl (hne [] (by simp))
        · simp only [List.flatten_cons, List.cons_append, List.cons.injEq] at hfl
          obtain ⟨rfl, hfl⟩ := hfl
          rcases S.lf _ ('\n' :: g) (by rw [hg]; simp) (by simp) with h | h
          · exact h
          · simp at h
      subst hg1
      have hs : s = gs.flatten := by simpa using hfl.symm
      have hrun : run (['\n'] :: gs) M.init = M.init.single .newLine :: run gs (emit .newline ['\n'] M.init).2 := by
        have : act ['\n'] gs M.init = .newline := by
          rw [act, action_eq]
          rcases plain_action (cls ['\n']) (cls (gs.headD NUL)) (hgs _ (by simp)) with ⟨h1, _⟩ | ⟨_, h2⟩
          · exact h1
          · exact absurd ((cls_nl _).2 rfl) h2
        rw [run, if_neg (by decide), this]
        rfl
      have hacc : (∃ c, parse (run (['\n'] :: gs) M.init) = .ok c) ↔ ∀ g ∈ gs, g = ['\n'] := by
        rw [C11_accepts_iff, hrun]
        have := plain_blank gs (emit .newline ['\n'] M.init).2 rfl rfl (by simp [PoolOK, emit])
          (fun g hg => hne g (by simp [hg])) (fun g hg => hgs g (by simp [hg]))
        simpa [emit, M.single, accepts, LineState.newline] using this
      have hall : (∀ g ∈ gs, g = ['\n']) ↔ ∀ c ∈ '\n' :: s, c = '\n' := by
        rw [List.forall_mem_cons, hs]
        refine ⟨fun h => ⟨rfl, fun c hc => ?_⟩, fun h g hgm => ?_⟩
        · obtain ⟨g, hgm, hc⟩ := List.mem_flatten.mp hc
          rw [h g hgm] at hc
          simpa using hc
        · rcases g with _ | ⟨c, g⟩
          · exact absurd rfl (hne [] (by simp [hgm]))
          · have hc : c = '\n' := h.2 c (List.mem_flatten.mpr ⟨_, hgm, by simp⟩)
            subst hc
            rcases S.lf _ ('\n' :: g) (by rw [hg]; simp [hgm]) (by simp) with h | h
            · exact h
            · simp at h
      by_cases hp : ∃ c, parse (run (['\n'] :: gs) M.init) = .ok c
      · obtain ⟨c, hc⟩ := hp
        have := hok ⟨_, c, htok, hc⟩
        refine ⟨by rw [this], fun _ => by rw [this], fun _ ⟨d, hd, hne⟩ => ?_⟩
        exact absurd (hall.1 (hacc.1 ⟨c, hc⟩) d hd) hne
      · have hno : ¬ ∀ c ∈ '\n' :: s, c = '\n' := fun h => hp (hacc.2 (hall.2 h))
        have herr : ∃ e, parse (run (['\n'] :: gs) M.init) = .err e := by
          rcases hpr : parse (run (['\n'] :: gs) M.init) with c | e | _
          · exact absurd ⟨c, hpr⟩ hp
          · exact ⟨e, rfl⟩
          · exact absurd hpr (C10_no_panic_text S _ _ htok)
        obtain ⟨e, he⟩ := herr
        have hcomp : compileText S ids checks ('\n' :: s) ps = (.err e, ps) := by
          unfold compileText
          rw [htok]
          simp [PM.bind_run, PM.lift, he]
        refine ⟨by rw [hcomp], fun h => ?_, fun _ _ => by rw [hcomp]; rfl⟩
        rcases h with h | h
        · exact absurd hstart h
        · exact absurd h hno
  · have hcl : ∀ c ∈ closeChars, c ∉ text := fun c hc => hspec c (by revert c; decide) (by rintro rfl; revert hc; decide)
    obtain ⟨ts, c, h1, h2⟩ := C13_parses_partial S text hcl hstart
    have := hok ⟨ts, c, h1, h2⟩
    exact ⟨by rw [this], fun _ => by rw [this], fun h => absurd h hstart⟩

/-- A text with both kinds of line breaks, one of line breaks only, and one that is refused. -/
example : joinLines (chars! "a\r\nb\nc, d.\r\r\n\n") = chars! "a\r\nbc, d.\r\r\n" ∧
    (compileText UTable.sampleSeg someIds true (chars! "a\r\nb\nc, d.\r\r\n\n") (sampleSet noHooks)).1 =
      .ok (chars! "a\r\nbc, d.\r\r\n") ∧
    (compileText UTable.sampleSeg someIds true (chars! "\n\n") (sampleSet noHooks)).1 = .ok [] ∧
    (compileText UTable.sampleSeg someIds true (chars! "\na") (sampleSet noHooks)).1.isErr = true :=
  ⟨by decide, by decide +kernel, by decide +kernel, by decide +kernel⟩

end Brack
