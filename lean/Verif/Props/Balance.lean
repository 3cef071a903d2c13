import Verif.Proof.Balance
import Verif.Proof.Cases
import Verif.Proof.PluginCases
import Verif.Proof.Paragraphs
import Verif.Props.Codegen

/-
C117: nothing is lost and nothing is used twice.
-/

namespace Brack

/-- C117 refuted: a command with two array parameters is given the last argument twice. -/
theorem C117_once_refuted (checks : Bool) : ∃ (ts : List PType) (out : Str) (tokens : List Token),
    tokenizeStr UTable.sampleSeg (chars! "[p.c x, y]") = .ok tokens ∧
    (compileText UTable.sampleSeg someIds checks (chars! "[p.c x, y]") (oneCommand ts)).1 = .ok out ∧
    ¬ Balanced (documentTexts tokens)
      (compileText UTable.sampleSeg someIds checks (chars! "[p.c x, y]") (oneCommand ts)).2.log out := by
  obtain ⟨tokens, ht, hd⟩ : ∃ tokens, tokenizeStr UTable.sampleSeg (chars! "[p.c x, y]") = .ok tokens ∧
      documentTexts tokens = [chars! "x", chars! "y"] := ok_such (by decide +kernel)
  refine ⟨[.array .inline, .array .inline], chars! "c([x;y;],[y;],)", tokens, ht, by cases checks <;> decide +kernel,
    fun h => ?_⟩
  have := h.count 'y'
  rw [hd] at this
  revert this
  cases checks <;> decide +kernel

/-- C117, the criterion: the arguments of a command reach it exactly once, whenever their number is admissible and binding
does not panic (C32), if and only if no parameter comes after an array. -/
theorem C117_criterion (ts : List PType) : ArrayEnds ts ↔
    ∀ args vs, Admissible ts args.length → bindArgs args 0 ts = .ok vs → vs.flatMap Value.arguments = args := by
  constructor
  · exact fun h args vs ha hb => h.delivers ha (bindArgs_passed hb)
  · intro h k t ht ha
    by_cases hk : k + 1 = ts.length
    · exact hk
    · exfalso
      obtain ⟨vs, hv⟩ := bindArgs_enough (List.replicate ts.length []) ts (by simp)
      have h1 := h _ vs ⟨by simpa using List.countP_le_length, .inr (by simp)⟩ hv
      have hp := bindArgs_passed hv
      have h2 := (passed_length (List.replicate ts.length []) ts 0 vs (by simp)
        ⟨hp.1, fun j t v ht hv => by simpa using hp.2 j t v ht hv⟩).2 k t ht ha hk
      rw [h1] at h2
      omega

/-- C117 (partial): whatever the plugins do, if no command has a parameter after an array, then in a successful
compilation each text of the document and each text returned by a call is used exactly once, whole: in an argument of a
call or in the output. Missing: other signatures, where it is false (`C117_criterion`, `C117_once_refuted`). -/
theorem C117_once_partial {W : Wasm} (S : Segmenter) (ids : Nat → Str) (checks : Bool) (text out : Str) (ps ps' : Plugins W)
    (hs : ps.AllArrayEnds) (h : compileText S ids checks text ps = (.ok out, ps')) :
    ∃ tokens calls, tokenizeStr S text = .ok tokens ∧ ps'.log = ps.log ++ calls ∧
      Balanced (documentTexts tokens) calls out := by
  obtain ⟨a, es, ⟨ts, c, h1, h2, h3⟩, h4⟩ := compileText_iff.mp h
  obtain ⟨calls, hl, -, hp⟩ := C34_hooks checks a ps out (by rw [h4])
  refine ⟨ts, calls.map (·.2), h1, by rw [h4] at hl; exact hl, ?_⟩
  have := hp.balanced hs
  rwa [C22_content ts c ids a es h2 h3] at this

/-- C117 (partial), character by character: for each character, its occurrences in the texts of the document and in what
the calls return are as many as those in the arguments of the calls and in the output. Missing: as above. -/
theorem C117_characters_partial {W : Wasm} (S : Segmenter) (ids : Nat → Str) (checks : Bool) (text out : Str)
    (ps ps' : Plugins W) (hs : ps.AllArrayEnds) (h : compileText S ids checks text ps = (.ok out, ps')) :
    ∃ tokens calls, tokenizeStr S text = .ok tokens ∧ ps'.log = ps.log ++ calls ∧ ∀ ch,
      (calls.flatMap Call.texts).flatten.count ch + out.count ch =
        (documentTexts tokens).flatten.count ch + (calls.filterMap Call.result?).flatten.count ch := by
  obtain ⟨tokens, calls, h1, h2, h3⟩ := C117_once_partial S ids checks text out ps ps' hs h
  exact ⟨tokens, calls, h1, h2, h3.count⟩

/-- Signatures with optional parameters before required ones, and with one array at the end. -/
example : ArrayEnds [.option .inline, .inline, .array .block] ∧ ¬ ArrayEnds [.array .inline, .option .inline] := by
  constructor
  · intro k t ht ha
    match k with
    | 0 => cases ht; cases ha
    | 1 => cases ht; cases ha
    | 2 => rfl
    | k + 3 => cases ht
  · intro h
    exact absurd (h 0 _ rfl rfl) (by decide)

/-- A text, a command with two arguments, one of them made of two texts. -/
example : (compileText UTable.sampleSeg someIds true (chars! "w [p.c x, \\]y]") (oneCommand [.inline, .array .inline])).1 =
      .ok (chars! "w c(x,[]y;],)") ∧
    ((compileText UTable.sampleSeg someIds true (chars! "w [p.c x, \\]y]") (oneCommand [.inline, .array .inline])).2.log.map
      Call.texts) = [[chars! "x", chars! "]y"]] ∧
    ∃ tokens, tokenizeStr UTable.sampleSeg (chars! "w [p.c x, \\]y]") = .ok tokens ∧
      documentTexts tokens = [chars! "w ", chars! "x", chars! "]", chars! "y"] :=
  ⟨by decide +kernel, by decide +kernel, ok_such (by decide +kernel)⟩

end Brack
