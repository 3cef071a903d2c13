import Verif.Spec.Reword
import Verif.Proof.Doubled

/-
What the words of a document are has no influence on its errors.
-/

namespace Brack

/-- A kind of token without its word. -/
def TokKind.wordless : TokKind → TokKind
  | .text _ => .text []
  | .module _ => .module []
  | .ident _ => .ident []
  | k => k

/-- A token without its word. -/
def Token.wordless (t : Token) : Token := ⟨t.kind.wordless, t.loc⟩

theorem wordless_escaped (k : TokKind) : escapedChar k.wordless = escapedChar k := by
  cases k <;> first | rfl | (simp [TokKind.wordless, escapedChar, escapes])

theorem report_wordless : ∀ (n : Nat) (ts : List Token) (st : List OpenCmd), ts.length ≤ n →
    report st (ts.map Token.wordless) = report st ts
  | _, [], _, _ => rfl
  | 0, _ :: _, _, hl => by simp at hl
  | n + 1, ⟨k, l⟩ :: ts, st, hl => by
    simp only [List.length_cons, Nat.add_le_add_iff_right] at hl
    have ih := fun st => report_wordless n ts st hl
    rw [List.map_cons, report.eq_def, report.eq_def st (_ :: _)]
    rcases k with _ | _ | _ | _ | _ | _ | _ | _ | b | b | _ | _ <;>
      simp only [Token.wordless, TokKind.wordless, TokKind.piece, ih]
    case backSlash =>
      rcases ts with _ | ⟨u, us⟩
      · rfl
      · have hu := wordless_escaped u.kind
        have i2 := fun st => report_wordless n us st (by simp only [List.length_cons] at hl; omega)
        simp only [List.map_cons] at ih ⊢
        rw [show (Token.wordless u).kind = u.kind.wordless from rfl, hu]
        rcases escapedChar u.kind with _ | c <;> simp only []
        · rw [ih]
        · rw [i2]; rfl

theorem loose_wordless : ∀ (n : Nat) (ts st : List Token), ts.length ≤ n →
    (trace st (ts.map Token.wordless)).map Event.looseSeparator = (trace st ts).map Event.looseSeparator
  | _, [], _, _ => rfl
  | 0, _ :: _, _, hl => by simp at hl
  | n + 1, ⟨k, l⟩ :: ts, st, hl => by
    simp only [List.length_cons, Nat.add_le_add_iff_right] at hl
    have ih := fun st => loose_wordless n ts st hl
    rw [List.map_cons, trace.eq_def, trace.eq_def st (_ :: _)]
    rcases k with _ | _ | _ | _ | _ | _ | _ | _ | b | b | _ | _ <;>
      simp only [Token.wordless, TokKind.wordless, List.map_cons, ih]
    case bclose =>
      rw [List.map_append, List.map_append]
      refine congrArg _ ?_
      generalize st.dropWhile (fun o => decide (o.kind ≠ .bopen b)) = w
      rcases w with _ | ⟨o, st'⟩
      · rw [List.map_cons, List.map_cons, ih]
      · rw [List.map_cons, List.map_cons, ih]
    case backSlash =>
      rcases ts with _ | ⟨u, us⟩
      · rfl
      · have hu := wordless_escaped u.kind
        have i2 := fun st => loose_wordless n us st (by simp only [List.length_cons] at hl; omega)
        simp only [List.map_cons] at ih ⊢
        rw [show (Token.wordless u).kind = u.kind.wordless from rfl, hu]
        rcases escapedChar u.kind with _ | c <;> simp only [List.map_cons]
        · rw [ih]
        · rw [i2]; rfl
    all_goals
      congr 1
      rcases st with _ | _ <;> rfl

theorem accepts_wordless : ∀ (n : Nat) (ks : List TokKind) (bs : List Bracket) (q : LineState), ks.length ≤ n →
    accepts bs q (ks.map TokKind.wordless) = accepts bs q ks
  | _, [], _, _, _ => rfl
  | 0, _ :: _, _, _, hl => by simp at hl
  | n + 1, k :: ks, bs, q, hl => by
    simp only [List.length_cons, Nat.add_le_add_iff_right] at hl
    have ih := fun bs q => accepts_wordless n ks bs q hl
    rw [List.map_cons]
    rcases k with _ | _ | _ | _ | _ | _ | _ | _ | b | b | _ | _ <;> simp only [TokKind.wordless]
    case empty => simp [accepts]
    case eof => simp [accepts]
    case bclose =>
      rw [accepts, accepts]
      rcases bs.dropWhile (· ≠ b) with _ | ⟨x, bs'⟩ <;> simp only [ih]
    case backSlash =>
      rcases ks with _ | ⟨u, us⟩
      · rfl
      · have i2 := fun bs q => accepts_wordless n us bs q (by simp only [List.length_cons] at hl; omega)
        simp only [List.map_cons] at ih ⊢
        have hm : (u.wordless ∈ escapes.map (·.2)) ↔ u ∈ escapes.map (·.2) := by
          rw [mem_escapes_iff, mem_escapes_iff, wordless_escaped]
        rcases bs with _ | ⟨b, bs⟩ <;> rw [accepts, accepts] <;> simp only [hm, ih, i2]
    all_goals rcases bs with _ | ⟨b, bs⟩ <;> rw [accepts, accepts] <;> simp only [ih]

theorem WordChar.sign {g : Str} (h : WordChar g) (inside : Bool) : signKind inside g = none := by
  obtain ⟨h1, h2, h3, h4, h5, h6, h7, h8, h9, h10, h11, h12⟩ := h
  simp [signKind, h1, h2, h3, h4, h5, h6, h7, h8, h9, h10, h11]

theorem WordChar.goesOn {g : Str} (h : WordChar g) (inside due : Bool) : endsWord inside due g = false := by
  have hs := h.sign inside
  obtain ⟨h1, h2, h3, h4, h5, h6, h7, h8, h9, h10, h11, h12⟩ := h
  simp [endsWord, hs, h12, h9, h11]

theorem WordChar.notCloser {g : Str} (h : WordChar g) : isCloser g = false := by
  obtain ⟨h1, h2, h3, h4, h5, h6, h7, h8, h9, h10, h11, h12⟩ := h
  simp [isCloser, h3, h5, h7]

theorem wordKind_wordless (due : Bool) (next w w' : Str) :
    (wordKind due next w).wordless = (wordKind due next w').wordless := by
  unfold wordKind
  split
  · rfl
  · split <;> rfl

theorem leavesDue_wordless (k : TokKind) (due : Bool) : k.wordless.leavesDue due = k.leavesDue due := by
  cases k <;> rfl

theorem dropWhile_pass {α : Type} (p : α → Bool) : ∀ (as bs : List α), (∀ a ∈ as, p a = true) →
    (as ++ bs).dropWhile p = bs.dropWhile p
  | [], _, _ => rfl
  | a :: as, bs, h => by
    rw [List.cons_append, List.dropWhile_cons_of_pos (h a (by simp))]
    exact dropWhile_pass p as bs (fun x hx => h x (by simp [hx]))

theorem dropWhile_stop {α : Type} (p : α → Bool) (bs : List α) : ∀ as : List α, as.dropWhile p ≠ [] →
    (as ++ bs).dropWhile p = as.dropWhile p ++ bs
  | [], h => absurd rfl h
  | a :: as, h => by
    by_cases ha : p a = true
    · rw [List.dropWhile_cons_of_pos ha] at h ⊢
      rw [List.cons_append, List.dropWhile_cons_of_pos ha]
      exact dropWhile_stop p bs as h
    · rw [List.cons_append, List.dropWhile_cons_of_neg ha, List.dropWhile_cons_of_neg ha, List.cons_append]

theorem dropWhile_all {α : Type} (p : α → Bool) : ∀ as : List α, as.dropWhile p = [] → ∀ a ∈ as, p a = true
  | [], _, _, h => by simp at h
  | a :: as, h, x, hx => by
    by_cases ha : p a = true
    · rw [List.dropWhile_cons_of_pos ha] at h
      rcases List.mem_cons.mp hx with rfl | hx
      · exact ha
      · exact dropWhile_all p as h x hx
    · rw [List.dropWhile_cons_of_neg ha] at h; cases h

/-- A word at the beginning and what follows it. -/
theorem lexed_word (d : Int) (due : Bool) (g : Str) (w gb : List Str) (hg : g ≠ [Char.ofNat 0])
    (hm : (if due ∧ isCloser ((w ++ gb).headD []) ∧ g ≠ ['\\'] then none else signKind (decide (d > 0)) g) = none)
    (hw : ∀ c ∈ w, endsWord (decide (d > 0)) due c = false) :
    ∃ v, lexed d due (g :: (w ++ gb)) =
      wordKind due ((gb.dropWhile fun c => !endsWord (decide (d > 0)) due c).headD []) v ::
        lexed d ((wordKind due ((gb.dropWhile fun c => !endsWord (decide (d > 0)) due c).headD []) v).leavesDue due)
          (gb.dropWhile fun c => !endsWord (decide (d > 0)) due c) := by
  refine ⟨g ++ ((w ++ gb).takeWhile fun c => !endsWord (decide (d > 0)) due c).flatten, ?_⟩
  rw [lexed, if_neg hg, hm]
  simp only
  rw [dropWhile_pass _ w gb (fun c hc => by simp [hw c hc])]

theorem lexed_reworded {w w' gb : List Str} (hw : w ≠ []) (hw' : w' ≠ []) (hc : ∀ g ∈ w, WordChar g)
    (hc' : ∀ g ∈ w', WordChar g) : ∀ (n : Nat) (ga : List Str) (d : Int) (due : Bool), ga.length ≤ n →
    (lexed d due (ga ++ (w ++ gb))).map TokKind.wordless = (lexed d due (ga ++ (w' ++ gb))).map TokKind.wordless
  | _, [], d, due, _ => by
    obtain ⟨g, w1, rfl⟩ := List.exists_cons_of_ne_nil hw
    obtain ⟨g', w1', rfl⟩ := List.exists_cons_of_ne_nil hw'
    have hg := hc g (by simp)
    have hg' := hc' g' (by simp)
    obtain ⟨v, h1⟩ := lexed_word d due g w1 gb hg.2.2.2.2.2.2.2.2.2.2.2 (by rw [hg.sign]; simp)
      (fun c h => (hc c (by simp [h])).goesOn _ _)
    obtain ⟨v', h1'⟩ := lexed_word d due g' w1' gb hg'.2.2.2.2.2.2.2.2.2.2.2 (by rw [hg'.sign]; simp)
      (fun c h => (hc' c (by simp [h])).goesOn _ _)
    simp only [List.nil_append, List.cons_append]
    rw [h1, h1', List.map_cons, List.map_cons, wordKind_wordless due _ v v', ← leavesDue_wordless,
      wordKind_wordless due _ v v', leavesDue_wordless]
  | 0, _ :: _, _, _, hl => by simp at hl
  | n + 1, g :: ga, d, due, hl => by
    simp only [List.length_cons, Nat.add_le_add_iff_right] at hl
    rw [List.cons_append, List.cons_append]
    by_cases hg : g = [Char.ofNat 0]
    · rw [lexed, if_pos hg, lexed, if_pos hg]
    have hhd : isCloser ((ga ++ (w ++ gb)).headD []) = isCloser ((ga ++ (w' ++ gb)).headD []) := by
      rcases ga with _ | ⟨x, ga⟩
      · obtain ⟨y, w1, rfl⟩ := List.exists_cons_of_ne_nil hw
        obtain ⟨y', w1', rfl⟩ := List.exists_cons_of_ne_nil hw'
        simp [(hc y (by simp)).notCloser, (hc' y' (by simp)).notCloser]
      · rfl
    rcases hm : (if due ∧ isCloser ((ga ++ (w' ++ gb)).headD []) ∧ g ≠ ['\\'] then none
        else signKind (decide (d > 0)) g) with _ | k
    · rcases hd : ga.dropWhile (fun c => !endsWord (decide (d > 0)) due c) with _ | ⟨x, r⟩
      · -- the word goes on through the replaced part
        have hall := dropWhile_all _ ga hd
        obtain ⟨v, h1⟩ := lexed_word d due g (ga ++ w) gb hg (by rw [List.append_assoc, hhd]; exact hm) (by
          intro c h
          rcases List.mem_append.mp h with h | h
          · simpa using hall c h
          · exact (hc c h).goesOn _ _)
        obtain ⟨v', h1'⟩ := lexed_word d due g (ga ++ w') gb hg (by rw [List.append_assoc]; exact hm) (by
          intro c h
          rcases List.mem_append.mp h with h | h
          · simpa using hall c h
          · exact (hc' c h).goesOn _ _)
        rw [List.append_assoc] at h1 h1'
        rw [h1, h1', List.map_cons, List.map_cons, wordKind_wordless due _ v v', ← leavesDue_wordless,
          wordKind_wordless due _ v v', leavesDue_wordless]
      · have hs := fun X => dropWhile_stop (fun c => !endsWord (decide (d > 0)) due c) X ga (by rw [hd]; simp)
        have hr : (x :: r).length ≤ n := by
          rw [← hd]; exact Nat.le_trans (List.dropWhile_sublist _).length_le hl
        rw [lexed, if_neg hg, hhd, hm, lexed, if_neg hg, hm]
        simp only [hs, hd, List.map_cons, List.cons_append, List.headD_cons]
        generalize (g ++ ((ga ++ (w ++ gb)).takeWhile fun c => !endsWord (decide (d > 0)) due c).flatten) = v
        generalize (g ++ ((ga ++ (w' ++ gb)).takeWhile fun c => !endsWord (decide (d > 0)) due c).flatten) = v'
        have ih := fun due => lexed_reworded hw hw' hc hc' (gb := gb) n (x :: r) d due hr
        simp only [List.cons_append] at ih
        rw [wordKind_wordless due _ v v', ih, ← leavesDue_wordless, wordKind_wordless due _ v v', leavesDue_wordless]
    · rw [lexed, if_neg hg, hhd, hm, lexed, if_neg hg, hm]
      simp only [List.map_cons]
      rw [lexed_reworded hw hw' hc hc' n ga _ _ hl]

end Brack
