import Verif.Proof.Below
import Verif.Props.Reports
import Verif.Proof.TokReach

/-
Properties of editing a document (C132).
-/

namespace Brack

/-! ### C132 -/

/-- C132: if a text is put in the place of another above a line end, and both leave as many brackets open and no name due, the
tokens below the line end are the same, only moved to other lines. The tokens above are those of the two texts. -/
theorem C132_tokens (S : Segmenter) (a a' b : Str) (hcr : ∀ x, a ≠ x ++ ['\r']) (hcr' : ∀ x, a' ≠ x ++ ['\r'])
    (hnul : Char.ofNat 0 ∉ a) (hnul' : Char.ofNat 0 ∉ a') (ts ts' : List Token) (e e' : Token)
    (ht : tokenizeStr S a = .ok (ts ++ [e])) (ht' : tokenizeStr S a' = .ok (ts' ++ [e']))
    (hd : depth ts = depth ts') (hn : nameDue false ts = false) (hn' : nameDue false ts' = false) :
    ∃ (nl nl' : Token) (below : List Token), nl.kind = .newLine ∧ nl'.kind = .newLine ∧
      tokenizeStr S (a ++ '\n' :: b) = .ok (ts ++ nl :: below.map (Token.down (e.loc.start.line + 1))) ∧
      tokenizeStr S (a' ++ '\n' :: b) = .ok (ts' ++ nl' :: below.map (Token.down (e'.loc.start.line + 1))) :=
  ⟨_, _, _, rfl, rfl, tokens_below S a b hcr hnul ht hn, by rw [hd]; exact tokens_below S a' b hcr' hnul' ht' hn'⟩

/-- C132: the errors of the document are those of the text above the line end and, below it, the same ones whichever text stands
above, only moved to other lines (for a bracket that is not closed, this is said of the start of its range only: C15). Here the
texts above must close their brackets. -/
theorem C132_errors (S : Segmenter) (ids : Nat → Str) (a a' b : Str) (hcr : ∀ x, a ≠ x ++ ['\r'])
    (hcr' : ∀ x, a' ≠ x ++ ['\r']) (hnul : Char.ofNat 0 ∉ a) (hnul' : Char.ofNat 0 ∉ a') (ts ts' : List Token) (e e' : Token)
    (ht : tokenizeStr S a = .ok (ts ++ [e])) (ht' : tokenizeStr S a' = .ok (ts' ++ [e']))
    (hd : depth ts = depth ts') (hn : nameDue false ts = false) (hn' : nameDue false ts' = false)
    (A A' X X' : AST) (es es' xs xs' : List TErr) (hr : Reads S ids a A es) (hr' : Reads S ids a' A' es')
    (hc : ∀ x ∈ es, ∀ b, x.kind ≠ .notClosed b) (hc' : ∀ x ∈ es', ∀ b, x.kind ≠ .notClosed b)
    (hx : Reads S ids (a ++ '\n' :: b) X xs) (hx' : Reads S ids (a' ++ '\n' :: b) X' xs') :
    ∃ below low low', xs = es ++ low ∧ xs' = es' ++ low' ∧ TErrsDown (e.loc.start.line + 1) below low ∧
      TErrsDown (e'.loc.start.line + 1) below low' := by
  have key : ∀ {t : Str} {us : List Token} {B : AST} {zs : List TErr}, tokenizeStr S t = .ok us → Reads S ids t B zs →
      zs = report [] us := by
    rintro t us B zs h ⟨us', c, h1, h2, h3⟩
    rw [h] at h1; injection h1 with h1; subst h1
    exact C128_errors h2 h3
  obtain ⟨nl, nl', below, k1, k2, k3, k4⟩ := C132_tokens S a a' b hcr hcr' hnul hnul' ts ts' e e' ht ht' hd hn hn'
  obtain ⟨he, hts⟩ := tokens_eof ht
  obtain ⟨he', hts'⟩ := tokens_eof ht'
  have h1 := key ht hr
  have h2 := key ht' hr'
  refine ⟨report [] below, report [] (below.map (Token.down (e.loc.start.line + 1))),
    report [] (below.map (Token.down (e'.loc.start.line + 1))), ?_, ?_, report_down _ _ below [] (Nat.le_refl _),
    report_down _ _ below [] (Nat.le_refl _)⟩
  · rw [key k3 hx, h1]
    exact report_below ts e nl _ he k1 hts (by rw [← h1]; exact hc)
  · rw [key k4 hx', h2]
    exact report_below ts' e' nl' _ he' k2 hts' (by rw [← h2]; exact hc')

/-- A line with a command, and two lines with one error that may take its place: the errors in the lines below are the same. -/
example (S : Segmenter) : ∃ es es' xs xs' A A' X X',
    Reads S someIds (chars! "x [m.f y]") A es ∧ Reads S someIds (chars! "[p.g \\q]\nz") A' es' ∧
      Reads S someIds (chars! "x [m.f y]" ++ '\n' :: chars! "q [m.h ,]\n{w") X xs ∧
      Reads S someIds (chars! "[p.g \\q]\nz" ++ '\n' :: chars! "q [m.h ,]\n{w") X' xs' ∧
      es.length = 0 ∧ es'.length = 1 ∧ xs.length = 3 ∧ xs'.length = 4 := by
  have front : ∀ text n, (∃ ts c a es, tokenizeStr S text = .ok ts ∧ parse ts = .ok c ∧ transform someIds c = .ok (a, es) ∧
      es.length = n) → ∃ a es, Reads S someIds text a es ∧ es.length = n :=
    fun text n ⟨ts, c, a, es, h1, h2, h3, h4⟩ => ⟨a, es, ⟨ts, c, h1, h2, h3⟩, h4⟩
  obtain ⟨A, es, h1, k1⟩ := front (chars! "x [m.f y]") 0
    (front_case S _ (by decide +kernel) (fun _ _ _ es => es.length = 0) (by decide +kernel))
  obtain ⟨A', es', h2, k2⟩ := front (chars! "[p.g \\q]\nz") 1
    (front_case S _ (by decide +kernel) (fun _ _ _ es => es.length = 1) (by decide +kernel))
  obtain ⟨X, xs, h3, k3⟩ := front (chars! "x [m.f y]" ++ '\n' :: chars! "q [m.h ,]\n{w") 3
    (front_case S _ (by decide +kernel) (fun _ _ _ es => es.length = 3) (by decide +kernel))
  obtain ⟨X', xs', h4, k4⟩ := front (chars! "[p.g \\q]\nz" ++ '\n' :: chars! "q [m.h ,]\n{w") 4
    (front_case S _ (by decide +kernel) (fun _ _ _ es => es.length = 4) (by decide +kernel))
  exact ⟨es, es', xs, xs', A, A', X, X', h1, h2, h3, h4, k1, k2, k3, k4⟩

/-- The two texts above leave no bracket open and no name due. -/
example (S : Segmenter) : ∃ ts ts' e e', tokenizeStr S (chars! "x [m.f y]") = .ok (ts ++ [e]) ∧
    tokenizeStr S (chars! "[p.g \\q]\nz") = .ok (ts' ++ [e']) ∧ depth ts = depth ts' ∧ nameDue false ts = false ∧
    nameDue false ts' = false ∧ e.loc.start.line = 0 ∧ e'.loc.start.line = 1 := by
  have split : ∀ (l : List Token), l ≠ [] → l = l.dropLast ++ [l.getLastD ⟨.eof, ⟨⟨0, 0⟩, ⟨0, 0⟩⟩⟩] := by
    intro l hl
    rcases List.eq_nil_or_concat l with h | ⟨l', x, rfl⟩
    · exact absurd h hl
    · simp
  exact ⟨_, _, _, _, (tokenize_ascii S _ (by decide)).trans (congrArg Res.ok (split _ (by decide +kernel))),
    (tokenize_ascii S _ (by decide)).trans (congrArg Res.ok (split _ (by decide +kernel))), by decide +kernel,
    by decide +kernel, by decide +kernel, by decide +kernel, by decide +kernel⟩

end Brack
