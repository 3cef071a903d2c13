import Verif.Proof.RewordLines
import Verif.Props.Tokenizer
import Verif.Props.Transform
import Verif.Props.Parser
import Verif.Props.Reports
import Verif.Props.Lexed
import Verif.Proof.Cases

/-
Properties of doubling backslashes (C136).
-/

namespace Brack

/-! ### C136 -/

/-- C136: let a text with a backslash between `a` and `b` be readable, where the backslash is not escaped and escapes nothing. If it
is doubled, the text is still readable, and has the same errors on the same lines in the same order except for one, which is that
of the backslash. -/
theorem C136_doubled (S : Segmenter) (ids : Nat → Str) (a b : Str) (hnul : Char.ofNat 0 ∉ a) (hS : BackslashAlone S a b)
    (ts : List Token) (e : Token) (hta : tokenizeStr S a = .ok (ts ++ [e]))
    (hesc : escapePending (ts.map (·.kind)) = false)
    (all : List Token) (ht : tokenizeStr S (a ++ '\\' :: b) = .ok all)
    (hnext : ∀ u, all[ts.length + 1]? = some u → escapedChar u.kind = none)
    (A : AST) (es : List TErr) (hr : Reads S ids (a ++ '\\' :: b) A es) :
    ∃ A' es' xs ys l, Reads S ids (a ++ '\\' :: '\\' :: b) A' es' ∧
      (all[ts.length]?.map (·.loc) = some l ∧ es = xs ++ ⟨.invalidBackslash, l⟩ :: ys) ∧
      es'.map (fun e => (e.kind, e.loc.start.line, e.loc.stop.line)) =
        (xs ++ ys).map (fun e => (e.kind, e.loc.start.line, e.loc.stop.line)) := by
  obtain ⟨all', c, h1, h2, h3⟩ := hr
  rw [ht] at h1; injection h1 with h1; subst h1
  obtain ⟨he, hts⟩ := tokens_eof hta
  obtain ⟨ks, d1, due1, k1, k2⟩ := lexed_prefix _ (S.graphemes a) 0 false (Nat.le_refl _) (graphemes_noNul S a hnul)
  obtain ⟨ta, hta', hka⟩ := C131_kinds S a
  rw [hta] at hta'; injection hta' with hta'; subst hta'
  obtain ⟨tb, htb', hkb⟩ := C131_kinds S (a ++ '\\' :: b)
  rw [ht] at htb'; injection htb' with htb'; subst htb'
  obtain ⟨two, htwo, hktwo⟩ := C131_kinds S (a ++ '\\' :: '\\' :: b)
  rw [hS.1, k2] at hkb
  rw [hS.2, k2] at hktwo
  have hbb : lexed d1 due1 (['\\'] :: S.graphemes b) = .backSlash :: lexed d1 due1 (S.graphemes b) := by
    rw [lexed, if_neg (by decide), if_neg (by simp)]
    simp [signKind, TokKind.turn, TokKind.leavesDue]
  rw [hbb] at hktwo
  rw [k1, List.map_append] at hka
  have hks : ts.map (·.kind) = ks := (List.append_inj' hka rfl).1
  subst hks
  -- the tokens of the text
  obtain ⟨p, r, hall, hp, hr⟩ := List.map_eq_append_iff.mp hkb
  obtain ⟨t, r', hr1, htk, hr2⟩ := List.map_eq_cons_iff.mp hr
  subst hr1
  have hlen : p.length = ts.length := by simpa using congrArg List.length hp
  have hne : lexed d1 due1 (S.graphemes b) ≠ [] := by
    rw [lexed.eq_def]
    rcases S.graphemes b with _ | ⟨g, gs⟩ <;> simp only []
    · simp
    · split
      · simp
      · split <;> simp
  rcases r' with _ | ⟨u, us⟩
  · exact absurd hr2.symm hne
  subst hall
  have hu : escapedChar u.kind = none := hnext u (by
    rw [← hlen, List.getElem?_append_right (by omega)]; simp)
  have hpk : ∀ t ∈ p, t.kind ≠ .eof ∧ t.kind ≠ .empty := by
    intro x hx
    have : x.kind ∈ ts.map (·.kind) := by rw [← hp]; exact List.mem_map_of_mem hx
    obtain ⟨y, hy, hyx⟩ := List.mem_map.mp this
    rw [← hyx]; exact hts y hy
  have hpe : escapePending (p.map (·.kind)) = false := by rw [hp]; exact hesc
  have hb : escapedChar t.kind = some '\\' := by rw [htk]; decide
  -- tokens of the same kinds as those of the text with two backslashes
  have htwoK : two.map (·.kind) = (p ++ t :: t :: u :: us).map (·.kind) := by
    rw [hktwo, ← hr2]; simp [hp, htk]
  have hacc := (C11_accepts_iff _).1 ⟨c, h2⟩
  have hacc' : accepts [] .start (two.map (·.kind)) = true := by
    rw [htwoK]
    simp only [List.map_append, List.map_cons, htk] at hacc ⊢
    exact accepts_doubled u.kind _ hu _ _ [] .start (Nat.le_refl _) hpe hacc
  obtain ⟨c', h2'⟩ := (C11_accepts_iff _).2 hacc'
  obtain ⟨evs, st1, hev⟩ := trace_prefix _ p [] (Nat.le_refl _) hpk hpe
  have hx : transform ids c' ≠ .panic := by
    intro hpan
    obtain ⟨x, hx, hx2⟩ := ((C17_panic_iff _ c' ids h2').1).1 hpan
    have hm : true ∈ (trace [] two).map Event.looseSeparator := by rw [← hx2]; exact List.mem_map_of_mem hx
    rw [loose_kinds _ two _ [] [] (Nat.le_refl _) htwoK rfl] at hm
    obtain ⟨y, hy, hy2⟩ := List.mem_map.mp hm
    have hold : transform ids c = .panic := ((C17_panic_iff _ c ids h2).1).2 (by
      rw [hev] at hy
      rw [hev]
      rcases List.mem_append.mp hy with hy | hy
      · exact ⟨y, List.mem_append_left _ hy, hy2⟩
      · rw [trace.eq_def] at hy
        simp only [htk] at hy
        rw [show escapedChar .backSlash = some '\\' by decide] at hy
        rcases List.mem_cons.mp hy with rfl | hy
        · simp [Event.looseSeparator] at hy2
        · refine ⟨y, List.mem_append_right _ ?_, hy2⟩
          rw [trace.eq_def]
          simp only [htk, hu]
          exact List.mem_cons_of_mem _ hy)
    rw [h3] at hold; cases hold
  obtain ⟨A', es', h3'⟩ := (C17_panic_iff _ c' ids h2').2 hx
  obtain ⟨xs, st2, hrep⟩ := report_prefix _ p [] (Nat.le_refl _) hpk hpe
  refine ⟨A', es', xs, report (intoOpen [(.other, t.loc)] st2) (u :: us), t.loc, ⟨_, c', htwo, h2', h3'⟩, ⟨?_, ?_⟩, ?_⟩
  · rw [← hlen, List.getElem?_append_right (by omega)]; simp
  · rw [C128_errors h2 h3, hrep, report.eq_def]
    simp only [htk, hu]
  · have hlin : two.map Token.lined = (p ++ t :: t :: u :: us).map Token.lined :=
      (C03_tiles S _ _ htwo).lines.lined ((C03_tiles S _ _ ht).lines.double (by rw [htk]; decide)) htwoK
    have hl2 : (report [] two).map TErr.lined = (xs ++ report (intoOpen [(.other, t.loc)] st2) (u :: us)).map TErr.lined := by
      rw [← report_lined _ two [] (Nat.le_refl _), hlin, report_lined _ _ [] (Nat.le_refl _), hrep, report.eq_def st2]
      simp only [htk]
      rw [show escapedChar .backSlash = some '\\' by decide]
    rw [C128_errors h2' h3']
    have := congrArg (List.map fun e : TErr => (e.kind, e.loc.start.line, e.loc.stop.line)) hl2
    rw [List.map_map, List.map_map] at this
    exact this

/-- The hypotheses hold for the first backslash of this text, which also has other errors. -/
example (S : Segmenter) : ∃ ts e all A es,
    BackslashAlone S (chars! "[m.f ,x") (chars! "q]\\y{n") ∧ tokenizeStr S (chars! "[m.f ,x") = .ok (ts ++ [e]) ∧
    escapePending (ts.map (·.kind)) = false ∧ tokenizeStr S (chars! "[m.f ,x" ++ '\\' :: chars! "q]\\y{n") = .ok all ∧
    (all[ts.length + 1]?.any fun u => escapedChar u.kind = none) ∧
    Reads S someIds (chars! "[m.f ,x" ++ '\\' :: chars! "q]\\y{n") A es ∧
    es.map (·.kind) = [.invalidBackslash, .unexpectedComma, .invalidBackslash, .notClosed .curly, .moduleNotFound] := by
  obtain ⟨ts, c, a, es, h1, h2, h3, h4, h5, h6⟩ := front_case S (chars! "[m.f ,x") (by decide +kernel)
    (fun ts _ _ _ => ts ≠ [] ∧ escapePending (ts.dropLast.map (·.kind)) = false ∧ ts.dropLast.length = 7) (by decide +kernel)
  obtain ⟨all, c', A, es', k1, k2, k3, k4, k5⟩ := front_case S (chars! "[m.f ,x\\q]\\y{n") (by decide +kernel)
    (fun all _ _ es => (all[8]?.any fun u => escapedChar u.kind = none) = true ∧
      es.map (·.kind) = [.invalidBackslash, .unexpectedComma, .invalidBackslash, .notClosed .curly, .moduleNotFound])
    (by decide +kernel)
  refine ⟨ts.dropLast, ts.getLast h4, all, A, es', ⟨?_, ?_⟩, by rw [List.dropLast_concat_getLast]; exact h1, h5, k1,
    by rw [h6]; exact k4, ⟨all, c', k1, k2, k3⟩, k5⟩ <;>
    rw [S.ascii _ (by decide +kernel), S.ascii _ (by decide +kernel), S.ascii _ (by decide +kernel)] <;> rfl

/-- The text with the backslash doubled has all errors but the first one. -/
example (S : Segmenter) : ∃ A es, Reads S someIds (chars! "[m.f ,x\\\\q]\\y{n") A es ∧
    es.map (·.kind) = [.unexpectedComma, .invalidBackslash, .notClosed .curly, .moduleNotFound] := by
  obtain ⟨ts, c, a, es, h1, h2, h3, h4⟩ := front_case S (chars! "[m.f ,x\\\\q]\\y{n") (by decide +kernel)
    (fun _ _ _ es => es.map (·.kind) = [.unexpectedComma, .invalidBackslash, .notClosed .curly, .moduleNotFound])
    (by decide +kernel)
  exact ⟨a, es, ⟨ts, c, h1, h2, h3⟩, h4⟩

end Brack
