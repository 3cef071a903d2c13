import Verif.Proof.RewordLines
import Verif.Props.Tokenizer
import Verif.Props.Transform
import Verif.Props.Parser
import Verif.Props.Reports
import Verif.Props.Lexed
import Verif.Proof.Cases

/-
Properties of documents that differ in a word or a name (C137).
-/

namespace Brack

/-! ### C137 -/

/-- C137: if a word or a name in a text is replaced by another one, there is an error of the parser, a crash, or a tree for the new
text exactly if there is for the old one; and in the last case, the errors are of the same kinds on the same lines in the same
order. -/
theorem C137_reworded (S : Segmenter) (ids ids' : Nat → Str) (text text' : Str) (h : Reworded S text text') :
    ∃ ts ts', tokenizeStr S text = .ok ts ∧ tokenizeStr S text' = .ok ts' ∧ ts.length = ts'.length ∧
      (((∃ m, parse ts = .err m) ∧ ∃ m, parse ts' = .err m) ∨
       ∃ c c', parse ts = .ok c ∧ parse ts' = .ok c' ∧
        ((transform ids c = .panic ∧ transform ids' c' = .panic) ∨
         ∃ a a' es es', transform ids c = .ok (a, es) ∧ transform ids' c' = .ok (a', es') ∧
          es.map (fun e => (e.kind, e.loc.start.line, e.loc.stop.line)) =
            es'.map (fun e => (e.kind, e.loc.start.line, e.loc.stop.line)))) := by
  obtain ⟨ga, w, w', gb, hg, hg', hw, hw', hc, hc'⟩ := h
  obtain ⟨ts, ht, hk⟩ := C131_kinds S text
  obtain ⟨ts', ht', hk'⟩ := C131_kinds S text'
  have hl := lexed_reworded (gb := gb) hw hw' hc hc' _ ga 0 false (Nat.le_refl _)
  rw [← List.append_assoc, ← List.append_assoc, ← hg, ← hg', ← hk, ← hk', List.map_map, List.map_map] at hl
  have hl : (ts.map Token.wordless).map (·.kind) = (ts'.map Token.wordless).map (·.kind) := by
    rw [List.map_map, List.map_map]; exact hl
  have hacc : accepts [] .start (ts.map (·.kind)) = accepts [] .start (ts'.map (·.kind)) := by
    rw [← accepts_wordless _ (ts.map (·.kind)) [] .start (Nat.le_refl _),
      ← accepts_wordless _ (ts'.map (·.kind)) [] .start (Nat.le_refl _)]
    rw [List.map_map, List.map_map] at hl ⊢
    exact congrArg _ hl
  have hloose : (trace [] ts).map Event.looseSeparator = (trace [] ts').map Event.looseSeparator := by
    rw [← loose_wordless _ ts [] (Nat.le_refl _), ← loose_wordless _ ts' [] (Nat.le_refl _)]
    exact loose_kinds _ _ _ [] [] (Nat.le_refl _) hl rfl
  have hrep : (report [] ts).map TErr.lined = (report [] ts').map TErr.lined := by
    rw [← report_wordless _ ts [] (Nat.le_refl _), ← report_wordless _ ts' [] (Nat.le_refl _),
      ← report_lined _ _ [] (Nat.le_refl _), ← report_lined _ _ [] (Nat.le_refl _),
      tiles_lined S ts ts' _ _ (C03_tiles S text ts ht) (C03_tiles S text' ts' ht') rfl hl]
  have hrep' : (report [] ts).map (fun e => (e.kind, e.loc.start.line, e.loc.stop.line)) =
      (report [] ts').map (fun e => (e.kind, e.loc.start.line, e.loc.stop.line)) := by
    have := congrArg (List.map fun e : TErr => (e.kind, e.loc.start.line, e.loc.stop.line)) hrep
    rw [List.map_map, List.map_map] at this
    exact this
  refine ⟨ts, ts', ht, ht', by simpa using congrArg List.length hl, ?_⟩
  have no : ∀ (text : Str) (ts : List Token), tokenizeStr S text = .ok ts → accepts [] .start (ts.map (·.kind)) ≠ true →
      ∃ m, parse ts = .err m := by
    intro text ts ht ha
    rcases hp : parse ts with c | m | _
    · exact absurd ((C11_accepts_iff _).1 ⟨c, hp⟩) ha
    · exact ⟨m, rfl⟩
    · exact absurd hp (C10_no_panic_text S text ts ht)
  by_cases ha : accepts [] .start (ts.map (·.kind)) = true
  · obtain ⟨c, hp⟩ := (C11_accepts_iff _).2 ha
    obtain ⟨c', hp'⟩ := (C11_accepts_iff _).2 (hacc ▸ ha)
    refine .inr ⟨c, c', hp, hp', ?_⟩
    have e1 := C17_panic_iff ts c ids hp
    have e2 := C17_panic_iff ts' c' ids' hp'
    have hiff : (∃ e ∈ trace [] ts, e.looseSeparator = true) ↔ ∃ e ∈ trace [] ts', e.looseSeparator = true := by
      have := congrArg (fun l => true ∈ l) hloose
      simpa [List.mem_map] using this
    by_cases hx : transform ids c = .panic
    · exact .inl ⟨hx, e2.1.2 (hiff.1 (e1.1.1 hx))⟩
    · have hx' : transform ids' c' ≠ .panic := fun h => hx (e1.1.2 (hiff.2 (e2.1.1 h)))
      obtain ⟨a, es, h3⟩ := e1.2 hx
      obtain ⟨a', es', h3'⟩ := e2.2 hx'
      exact .inr ⟨a, a', es, es', h3, h3', by rw [C128_errors hp h3, C128_errors hp' h3', hrep']⟩
  · exact .inl ⟨no text ts ht ha, no text' ts' ht' (by rw [← hacc]; exact ha)⟩

/-- The name of a module is replaced by a longer one. -/
example (S : Segmenter) : Reworded S (chars! "a [m.f ,x\\q]\n{n") (chars! "a [mod.f ,x\\q]\n{n") := by
  refine ⟨(chars! "a [").map fun c => [c], (chars! "m").map fun c => [c], (chars! "mod").map fun c => [c],
    (chars! ".f ,x\\q]\n{n").map fun c => [c], ?_, ?_, by simp, by simp, ?_, ?_⟩
  · rw [S.ascii _ (by decide +kernel)]; rfl
  · rw [S.ascii _ (by decide +kernel)]; rfl
  · intro g hg; simp at hg; subst hg; unfold WordChar; decide
  · intro g hg; simp at hg; rcases hg with rfl | rfl | rfl <;> unfold WordChar <;> decide

/-- Both texts have the same four errors. -/
example (S : Segmenter) : ∃ a es a' es', Reads S someIds (chars! "a [m.f ,x\\q]\n{n") a es ∧
    Reads S someIds (chars! "a [mod.f ,x\\q]\n{n") a' es' ∧
    es.map (·.kind) = [.invalidBackslash, .unexpectedComma, .notClosed .curly, .moduleNotFound] ∧
    es'.map (·.kind) = [.invalidBackslash, .unexpectedComma, .notClosed .curly, .moduleNotFound] := by
  obtain ⟨ts, c, a, es, h1, h2, h3, h4⟩ := front_case S (chars! "a [m.f ,x\\q]\n{n") (by decide +kernel)
    (fun _ _ _ es => es.map (·.kind) = [.invalidBackslash, .unexpectedComma, .notClosed .curly, .moduleNotFound])
    (by decide +kernel)
  obtain ⟨ts', c', a', es', h1', h2', h3', h4'⟩ := front_case S (chars! "a [mod.f ,x\\q]\n{n") (by decide +kernel)
    (fun _ _ _ es => es.map (·.kind) = [.invalidBackslash, .unexpectedComma, .notClosed .curly, .moduleNotFound])
    (by decide +kernel)
  exact ⟨a, es, a', es', ⟨ts, c, h1, h2, h3⟩, ⟨ts', c', h1', h2', h3'⟩, h4, h4'⟩

end Brack
