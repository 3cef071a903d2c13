import Verif.Spec.Repair
import Verif.Proof.Below

/-
Closing the brackets that are open at the end of a document.
-/

namespace Brack

/-- All are opening brackets. -/
def Opens (st : List Token) : Prop := ∀ o ∈ st, ∃ b, o.kind = .bopen b

/-- The kind of an opening bracket. -/
def Token.bracket (o : Token) : Bracket :=
  match o.kind with
  | .bopen b => b
  | _ => .angle

theorem Opens.rest {st : List Token} (h : Opens st) (b : Bracket) :
    Opens ((st.dropWhile (fun o => o.kind ≠ .bopen b)).drop 1) :=
  fun o ho => h o ((List.dropWhile_sublist _).subset (List.mem_of_mem_drop ho))

theorem Opens.dropWhile {st : List Token} (h : Opens st) (b : Bracket) :
    (st.dropWhile (fun o => o.kind ≠ .bopen b)).map Token.bracket = (st.map Token.bracket).dropWhile (· ≠ b) := by
  induction st with
  | nil => rfl
  | cons o st ih =>
    obtain ⟨b', hb⟩ := h o (by simp)
    have ih := ih (fun o ho => h o (by simp [ho]))
    have : o.bracket = b' := by rw [Token.bracket, hb]
    by_cases hbb : b' = b
    · subst hbb
      rw [List.dropWhile_cons_of_neg (by simp [hb]), List.map_cons, List.dropWhile_cons_of_neg (by simp [this])]
    · rw [List.dropWhile_cons_of_pos (by simp [hb, hbb]), List.map_cons,
        List.dropWhile_cons_of_pos (by simp [this, hbb]), ih]

theorem openAtEnd_opens : ∀ (ts st : List Token), Opens st → Opens (openAtEnd st ts)
  | [], st, h => by rw [openAtEnd]; exact h
  | t :: ts, st, h => by
    rw [openAtEnd.eq_def]
    rcases hk : t.kind with _ | _ | _ | _ | _ | _ | _ | _ | b | b | _ | _ <;> simp only [hk]
    case backSlash =>
      rcases ts with _ | ⟨u, us⟩
      · exact h
      · simp only
        split
        · exact openAtEnd_opens us st h
        · exact openAtEnd_opens (u :: us) st h
    case bopen =>
      refine openAtEnd_opens ts _ ?_
      intro o ho
      rcases List.mem_cons.mp ho with rfl | ho
      · exact ⟨b, hk⟩
      · exact h o ho
    case bclose => exact openAtEnd_opens ts _ (h.rest b)
    all_goals exact openAtEnd_opens ts st h

/-- The events up to a place behind which no escape reaches do not depend on what follows. -/
theorem trace_split : ∀ (ts st : List Token), (∀ t ∈ ts, t.kind ≠ .eof ∧ t.kind ≠ .empty) → ∃ evs : List Event,
    ∀ (e : Token) (rest : List Token), escapedChar e.kind = none →
      trace st (ts ++ e :: rest) = evs ++ trace (openAtEnd st ts) (e :: rest)
  | [], st, _ => ⟨[], fun e rest _ => by rw [openAtEnd]; rfl⟩
  | t :: ts, st, h => by
    have hts : ∀ t ∈ ts, t.kind ≠ .eof ∧ t.kind ≠ .empty := fun u hu => h u (by simp [hu])
    have h0 := h t (by simp)
    by_cases hb : t.kind = .backSlash
    · rcases ts with _ | ⟨u, us⟩
      · refine ⟨[.stray st t], fun e rest he => ?_⟩
        rw [openAtEnd]
        simp only [hb, List.cons_append, List.nil_append]
        rw [trace]
        simp only [hb, he]
      · rcases hu : escapedChar u.kind with _ | c
        · obtain ⟨evs, h1⟩ := trace_split (u :: us) st hts
          refine ⟨.stray st t :: evs, fun e rest he => ?_⟩
          have := h1 e rest he
          rw [openAtEnd]
          simp only [hb, hu, Option.isSome_none, Bool.false_eq_true, if_false, List.cons_append] at this ⊢
          rw [trace]
          simp only [hb, hu, this]
        · obtain ⟨evs, h1⟩ := trace_split us st (fun v hv => hts v (by simp [hv]))
          refine ⟨.escape st t c u :: evs, fun e rest he => ?_⟩
          have := h1 e rest he
          rw [openAtEnd]
          simp only [hb, hu, Option.isSome_some, if_true, List.cons_append] at this ⊢
          rw [trace]
          simp only [hb, hu, this]
    · rcases hk : t.kind with _ | _ | _ | _ | _ | _ | _ | _ | b | b | _ | _
      case empty => exact absurd hk h0.2
      case eof => exact absurd hk h0.1
      case backSlash => exact absurd hk hb
      case bopen =>
        obtain ⟨evs, h1⟩ := trace_split ts (t :: st) hts
        refine ⟨evs, fun e rest he => ?_⟩
        rw [openAtEnd.eq_def, List.cons_append, trace.eq_def]
        simp only [hk, h1 e rest he]
      case bclose =>
        rcases hd : st.dropWhile (fun o => o.kind ≠ .bopen b) with _ | ⟨o, st'⟩
        · obtain ⟨evs, h1⟩ := trace_split ts [] hts
          refine ⟨(st.takeWhile (fun o => o.kind ≠ .bopen b)).map .unclosed ++ .unopened t :: evs, fun e rest he => ?_⟩
          rw [openAtEnd.eq_def, List.cons_append, trace.eq_def]
          simp only [hk, hd, h1 e rest he, List.drop_nil, List.append_assoc, List.cons_append]
        · obtain ⟨evs, h1⟩ := trace_split ts st' hts
          refine ⟨(st.takeWhile (fun o => o.kind ≠ .bopen b)).map .unclosed ++ .closed o t :: evs, fun e rest he => ?_⟩
          rw [openAtEnd.eq_def, List.cons_append, trace.eq_def]
          simp only [hk, hd, h1 e rest he, List.drop_succ_cons, List.drop_zero, List.append_assoc, List.cons_append]
      all_goals
        obtain ⟨evs, h1⟩ := trace_split ts st hts
        refine ⟨.plain st t :: evs, fun e rest he => ?_⟩
        rw [openAtEnd.eq_def, List.cons_append, trace.eq_def]
        simp only [hk, h1 e rest he, List.cons_append]

/-- The closing brackets of these opening brackets, as tokens. -/
def ClosesAll (st cl : List Token) : Prop := cl.map (·.kind) = st.map (fun o => .bclose o.bracket)

theorem trace_closesAll : ∀ (st cl : List Token) (e : Token), Opens st → ClosesAll st cl → e.kind = .eof →
    (trace st (cl ++ [e])).filterMap Event.unclosed? = [] ∧ ∀ x ∈ trace st (cl ++ [e]), x.looseSeparator = false
  | [], cl, e, _, hc, he => by
    have : cl = [] := by simpa [ClosesAll] using hc
    subst this
    simp [trace, he]
  | o :: st, cl, e, ho, hc, he => by
    rcases cl with _ | ⟨t, cl⟩
    · simp [ClosesAll] at hc
    · simp only [ClosesAll, List.map_cons, List.cons.injEq] at hc
      obtain ⟨b, hb⟩ := ho o (by simp)
      have hob : o.bracket = b := by rw [Token.bracket, hb]
      have ht : t.kind = .bclose b := by rw [hc.1, hob]
      obtain ⟨h1, h2⟩ := trace_closesAll st cl e (fun o ho' => ho o (by simp [ho'])) hc.2 he
      have hd : (o :: st).dropWhile (fun o => decide (o.kind ≠ .bopen b)) = o :: st :=
        List.dropWhile_cons_of_neg (by simp [hb])
      have hw : (o :: st).takeWhile (fun o => decide (o.kind ≠ .bopen b)) = [] :=
        List.takeWhile_cons_of_neg (by simp [hb])
      rw [List.cons_append, trace.eq_def]
      simp only [ht, hd, hw, List.map_nil, List.nil_append]
      refine ⟨by rw [List.filterMap_cons]; simpa [Event.unclosed?] using h1, ?_⟩
      intro x hx
      rcases List.mem_cons.mp hx with rfl | hx
      · rfl
      · exact h2 x hx

theorem accepts_closesAll : ∀ (st cl : List Token) (e : Token) (q : LineState), ClosesAll st cl → e.kind = .eof →
    accepts (st.map Token.bracket) q ((cl ++ [e]).map (·.kind)) = true
  | [], cl, e, q, hc, he => by
    have : cl = [] := by simpa [ClosesAll] using hc
    subst this
    simp [he, accepts]
  | o :: st, cl, e, q, hc, he => by
    rcases cl with _ | ⟨t, cl⟩
    · simp [ClosesAll] at hc
    · simp only [ClosesAll, List.map_cons, List.cons.injEq] at hc
      have := accepts_closesAll st cl e q hc.2 he
      simp only [List.cons_append, List.map_cons, hc.1]
      rw [accepts]
      rw [List.dropWhile_cons_of_neg (by simp)]
      exact this

theorem accepts_newline (bs : List Bracket) (q : LineState) (ks : List TokKind)
    (h : ∀ q, accepts bs q ks = true) : accepts bs q (.newLine :: ks) = true := by
  rcases bs with _ | ⟨b, bs⟩ <;> rw [accepts] <;> exact h _

theorem mem_escapes_iff (k : TokKind) : k ∈ escapes.map (·.2) ↔ (escapedChar k).isSome = true := by
  simp only [escapedChar, Option.isSome_map, List.find?_isSome, List.mem_map, decide_eq_true_eq]

/-- What is accepted up to its end is accepted with something else at this place that is accepted with these brackets
open. -/
theorem accepts_split (e : Token) (ks : List TokKind) (he : e.kind = .eof)
    (hk : ∀ k ks', ks = k :: ks' → k = .newLine) (hne : ks ≠ []) :
    ∀ (ts st : List Token) (q : LineState), Opens st → (∀ q, accepts ((openAtEnd st ts).map Token.bracket) q ks = true) →
    accepts (st.map Token.bracket) q ((ts ++ [e]).map (·.kind)) = true →
    accepts (st.map Token.bracket) q (ts.map (·.kind) ++ ks) = true
  | [], st, q, _, h, _ => by rw [openAtEnd] at h; exact h q
  | t :: ts, st, q, ho, h, ha => by
    rw [openAtEnd.eq_def] at h
    rcases hkt : t.kind with _ | _ | _ | _ | _ | _ | _ | _ | b | b | _ | _ <;>
      simp only [hkt, List.cons_append, List.map_cons] at h ha ⊢
    case empty => simp [accepts] at ha
    case eof => simp [accepts]
    case bopen =>
      have ho' : Opens (t :: st) := by
        intro o hm
        rcases List.mem_cons.mp hm with rfl | hm
        · exact ⟨b, hkt⟩
        · exact ho o hm
      have hb : t.bracket = b := by rw [Token.bracket, hkt]
      have ih := fun q => accepts_split e ks he hk hne ts (t :: st) q ho' h
      rw [List.map_cons, hb] at ih
      rcases hs : st.map Token.bracket with _ | ⟨b', bs⟩ <;> rw [hs] at ha ih <;> rw [accepts] at ha ⊢
      · rw [Bool.and_eq_true] at ha ⊢
        exact ⟨ha.1, ih _ ha.2⟩
      · exact ih _ ha
    case bclose =>
      have hd := ho.dropWhile b
      have hr := ho.rest b
      rcases hw : st.dropWhile (fun o => decide (o.kind ≠ .bopen b)) with _ | ⟨o, st'⟩ <;> rw [hw] at hd h hr
      · have ih := fun q => accepts_split e ks he hk hne ts [] q (by simp [Opens]) (by simpa using h)
        rw [accepts, ← hd] at ha ⊢
        simp only [List.map_nil, Bool.and_eq_true] at ha ih ⊢
        exact ⟨ha.1, ih _ ha.2⟩
      · have ih := fun q => accepts_split e ks he hk hne ts st' q (by simpa using hr) (by simpa using h)
        rw [accepts, ← hd] at ha ⊢
        simp only [List.map_cons] at ha ⊢
        exact ih _ ha
    case backSlash =>
      rcases ts with _ | ⟨u, us⟩
      · rcases ks with _ | ⟨k, ks'⟩
        · exact absurd rfl hne
        · obtain rfl := hk k ks' rfl
          have hx : TokKind.newLine ∉ escapes.map (·.2) := by decide
          rcases hs : st.map Token.bracket with _ | ⟨b', bs⟩ <;> rw [hs] at ha h <;>
            simp only [List.map_nil, List.nil_append, List.map_cons] at ha h ⊢ <;> rw [accepts] at ha ⊢
          · rw [Bool.and_eq_true] at ha ⊢
            rw [if_neg hx]
            exact ⟨ha.1, h _⟩
          · rw [if_neg hx]; exact h _
      · have i1 := fun q => accepts_split e ks he hk hne us st q ho
        have i2 := fun q => accepts_split e ks he hk hne (u :: us) st q ho
        simp only [List.cons_append, List.map_cons] at ha h i1 i2 ⊢
        have hm := mem_escapes_iff u.kind
        by_cases hu : (escapedChar u.kind).isSome = true
        · rw [if_pos hu] at h
          have i1 := fun q => i1 q h
          rcases hs : st.map Token.bracket with _ | ⟨b', bs⟩ <;> rw [hs] at ha i1 <;> rw [accepts] at ha ⊢ <;>
            rw [if_pos (hm.2 hu)] at ha ⊢
          · rw [Bool.and_eq_true] at ha ⊢
            exact ⟨ha.1, i1 _ ha.2⟩
          · exact i1 _ ha
        · rw [if_neg hu] at h
          have i2 := fun q => i2 q h
          rcases hs : st.map Token.bracket with _ | ⟨b', bs⟩ <;> rw [hs] at ha i2 <;> rw [accepts] at ha ⊢ <;>
            rw [if_neg (fun x => hu (hm.1 x))] at ha ⊢
          · rw [Bool.and_eq_true] at ha ⊢
            exact ⟨ha.1, i2 _ ha.2⟩
          · exact i2 _ ha
    all_goals
      have ih := fun q => accepts_split e ks he hk hne ts st q ho h
      rcases hs : st.map Token.bracket with _ | ⟨b', bs⟩ <;> rw [hs] at ha ih <;> rw [accepts] at ha ⊢
      · first
        | exact ih _ ha
        | (rw [Bool.and_eq_true] at ha ⊢
           exact ⟨ha.1, ih _ ha.2⟩)
      · exact ih _ ha

theorem run_closers : ∀ (bs : List Bracket) (m : M), m.look = false → ∃ (cl : List Token) (e : Token),
    run (bs.map fun b => [b.closeChar]) m = cl ++ [e] ∧ cl.map (·.kind) = bs.map TokKind.bclose ∧ e.kind = .eof
  | [], m, _ => ⟨[], m.eof, rfl, rfl, rfl⟩
  | b :: bs, m, hl => by
    have ha : ∀ gs, act [b.closeChar] gs m = .bclose b := by
      intro gs
      cases b <;> simp [act, action, hl, Bracket.closeChar]
    obtain ⟨cl, e, h1, h2, h3⟩ := run_closers bs (m.adv.addCount b (-1)) (by cases b <;> simpa [M.adv, M.addCount] using hl)
    refine ⟨m.single (.bclose b) :: cl, e, ?_, ?_, h3⟩
    · rw [List.map_cons, run, if_neg (by cases b <;> decide), ha]
      simp only [emit, h1, List.cons_append, List.nil_append]
    · simp [h2, M.single]

theorem closersOf_eq {st : List Token} (h : Opens st) : closersOf st = st.map (fun o => o.bracket.closeChar) := by
  induction st with
  | nil => rfl
  | cons o st ih =>
    obtain ⟨b, hb⟩ := h o (by simp)
    have ih := ih (fun o ho => h o (by simp [ho]))
    rw [closersOf] at ih ⊢
    rcases o with ⟨k, l⟩
    simp only at hb
    subst hb
    simp [Token.opening?, Token.bracket] at ih ⊢
    exact ih

end Brack
