import Verif.Spec.Doubled
import Verif.Spec.Reports
import Verif.Proof.Repair

/-
Which errors there are depends on the kinds of the tokens only; doubling a backslash.
-/

namespace Brack

theorem expectPiece_kinds (al kind) {o o' : Option CmdPart} (h : o.map (·.1) = o'.map (·.1)) :
    (expectPiece al kind o).map (·.kind) = (expectPiece al kind o').map (·.kind) := by
  rcases o with _ | x <;> rcases o' with _ | x' <;> simp at h
  · rfl
  · simp only [expectPiece, h]
    split <;> rfl

theorem argumentErrors_kinds : ∀ (ps ps' : List CmdPart) (last last' : Loc) (empty comma : Bool),
    ps.map (·.1) = ps'.map (·.1) →
    (argumentErrors last empty comma ps).map (·.kind) = (argumentErrors last' empty comma ps').map (·.kind)
  | [], ps', _, _, _, _, h => by
    have : ps' = [] := by simpa using h.symm
    subst this; rfl
  | (k, l) :: ps, ps', last, last', empty, comma, h => by
    rcases ps' with _ | ⟨⟨k', l'⟩, ps'⟩
    · simp at h
    · simp only [List.map_cons, List.cons.injEq] at h
      obtain ⟨rfl, h⟩ := h
      have ih := fun a b => argumentErrors_kinds ps ps' l l' a b h
      cases k <;> simp only [argumentErrors] <;> (try split) <;> simp [ih]

theorem contentErrors_kinds {ps ps' : List CmdPart} (h : ps.map (·.1) = ps'.map (·.1)) :
    (contentErrors ps).map (·.kind) = (contentErrors ps').map (·.kind) := by
  unfold contentErrors
  have hg : ∀ i : Nat, (ps[i]?).map (·.1) = (ps'[i]?).map (·.1) := fun i => by
    rw [← List.getElem?_map, ← List.getElem?_map, h]
  have hf : ∀ (p : CmdPiece → Bool) (qs : List CmdPart),
      (qs.filter (fun x => p x.1)).map (·.1) = (qs.map (·.1)).filter p := by
    intro p qs; rw [List.filter_map]; rfl
  have hd : ∀ qs : List CmdPart, (((qs.drop 2).filter (fun x => decide (x.1 = CmdPiece.dot))).map
      (fun x => (⟨.unexpectedDot, x.2⟩ : TErr))).map (·.kind) =
      (((qs.map (·.1)).drop 2).filter (fun k => decide (k = CmdPiece.dot))).map (fun _ => TErrKind.unexpectedDot) := by
    intro qs
    rw [List.map_map, ← List.map_drop, ← hf (fun k => decide (k = CmdPiece.dot)), List.map_map]
    rfl
  have hb := hf (fun k => decide (k ≠ CmdPiece.blank)) ps
  have hb' := hf (fun k => decide (k ≠ CmdPiece.blank)) ps'
  rw [h, ← hb'] at hb
  simp only [List.map_append, expectPiece_kinds _ _ (hg _), hd, h]
  congr 1
  generalize ps.filter (fun x => decide (x.1 ≠ CmdPiece.blank)) = qs at hb
  generalize ps'.filter (fun x => decide (x.1 ≠ CmdPiece.blank)) = qs' at hb
  rcases qs with _ | ⟨q1, _ | ⟨q2, _ | ⟨q3, qs⟩⟩⟩ <;> rcases qs' with _ | ⟨r1, _ | ⟨r2, _ | ⟨r3, qs'⟩⟩⟩ <;>
    simp only [List.map_cons, List.map_nil, List.cons.injEq, reduceCtorEq, and_false] at hb <;> try rfl
  exact argumentErrors_kinds qs qs' _ _ _ _ hb.2.2.2

theorem commandErrors_kinds (b) (l l' : Loc) {ps ps' : List CmdPart} (h : ps.map (·.1) = ps'.map (·.1)) :
    (commandErrors b l ps).map (·.kind) = (commandErrors b l' ps').map (·.kind) := by
  unfold commandErrors
  rw [List.map_append, List.map_append, contentErrors_kinds h]
  congr 1
  have hl : ps.getLast?.map (·.1) = ps'.getLast?.map (·.1) := by rw [← List.getLast?_map, ← List.getLast?_map, h]
  rcases hx : ps.getLast? with _ | x <;> rcases hx' : ps'.getLast? with _ | x' <;> rw [hx, hx'] at hl <;> simp at hl
  · rfl
  · simp only [Option.any_some, hl]
    split <;> rfl

/-- What the errors of a command depend on. -/
def OpenCmd.shape (f : OpenCmd) : Bracket × List CmdPiece := (f.bracket, f.pieces.map (·.1))

theorem intoOpen_shape {ps ps' : List CmdPart} {st st' : List OpenCmd} (hp : ps.map (·.1) = ps'.map (·.1))
    (hs : st.map OpenCmd.shape = st'.map OpenCmd.shape) :
    (intoOpen ps st).map OpenCmd.shape = (intoOpen ps' st').map OpenCmd.shape := by
  rcases st with _ | ⟨f, st⟩ <;> rcases st' with _ | ⟨f', st'⟩ <;> simp at hs
  · rfl
  · obtain ⟨h1, h2⟩ := hs
    simp only [OpenCmd.shape, Prod.mk.injEq] at h1
    simp [intoOpen, OpenCmd.shape, h1.1, h1.2, hp]
    exact h2

theorem piece_fst {f f' : OpenCmd} (h : f.bracket = f'.bracket) (t t' : Token) : (f.piece t).1 = (f'.piece t').1 := by
  simp only [OpenCmd.piece, h]

theorem endCommands_kinds (t t' : Token) (b : Option Bracket) : ∀ (st st' : List OpenCmd) (ps ps' : List CmdPart),
    ps.map (·.1) = ps'.map (·.1) → st.map OpenCmd.shape = st'.map OpenCmd.shape →
    (endCommands t b ps st).1.map (·.kind) = (endCommands t' b ps' st').1.map (·.kind) ∧
      (endCommands t b ps st).2.map OpenCmd.shape = (endCommands t' b ps' st').2.map OpenCmd.shape
  | [], st', ps, ps', hp, hs => by
    have : st' = [] := by simpa using hs.symm
    subst this
    exact ⟨rfl, rfl⟩
  | f :: st, st', ps, ps', hp, hs => by
    rcases st' with _ | ⟨f', st'⟩
    · simp at hs
    · simp only [List.map_cons, List.cons.injEq, OpenCmd.shape, Prod.mk.injEq] at hs
      obtain ⟨⟨h1, h2⟩, h3⟩ := hs
      have h3 : st.map OpenCmd.shape = st'.map OpenCmd.shape := h3
      have hpc := piece_fst h1 t t'
      rw [endCommands, endCommands, ← h1]
      by_cases hb : b = some f.bracket
      · rw [if_pos hb, if_pos hb]
        refine ⟨commandErrors_kinds _ _ _ (by simp [h2, hp]), intoOpen_shape (by simp [hpc]) h3⟩
      · rw [if_neg hb, if_neg hb]
        obtain ⟨i1, i2⟩ := endCommands_kinds t t' b st st' [f.piece t] [f'.piece t'] (by simp [hpc]) h3
        refine ⟨?_, i2⟩
        simp only [List.map_append, i1]
        rw [commandErrors_kinds f.bracket f.opening f'.opening (ps' := f'.pieces ++ ps') (by simp [h2, hp])]

/-- Which errors are reported depends on the kinds of the tokens only. -/
theorem report_kinds : ∀ (n : Nat) (ts ts' : List Token) (st st' : List OpenCmd), ts.length ≤ n →
    ts.map (·.kind) = ts'.map (·.kind) → st.map OpenCmd.shape = st'.map OpenCmd.shape →
    (report st ts).map (·.kind) = (report st' ts').map (·.kind)
  | _, [], ts', _, _, _, h, _ => by
    have : ts' = [] := by simpa using h.symm
    subst this; simp [report]
  | 0, _ :: _, _, _, _, hl, _, _ => by simp at hl
  | n + 1, t :: ts, ts', st, st', hl, h, hs => by
    rcases ts' with _ | ⟨t', ts'⟩
    · simp at h
    · simp only [List.map_cons, List.cons.injEq] at h
      obtain ⟨hk, h⟩ := h
      simp only [List.length_cons, Nat.add_le_add_iff_right] at hl
      have go : ∀ (k : CmdPiece) (l l' : Loc), (report (intoOpen [(k, l)] st) ts).map (·.kind) =
          (report (intoOpen [(k, l')] st') ts').map (·.kind) := fun k l l' =>
        report_kinds n ts ts' _ _ hl h (intoOpen_shape rfl hs)
      rw [report.eq_def, report.eq_def st']
      simp only [← hk]
      rcases t.kind with _ | _ | _ | _ | _ | _ | _ | _ | b | b | _ | _ <;> simp only []
      case empty => exact (endCommands_kinds t t' none st st' [] [] rfl hs).1
      case eof => exact (endCommands_kinds t t' none st st' [] [] rfl hs).1
      case bopen => exact report_kinds n ts ts' _ _ hl h (by simp [OpenCmd.shape]; exact hs)
      case bclose =>
        obtain ⟨i1, i2⟩ := endCommands_kinds t t' (some b) st st' [] [] rfl hs
        rw [List.map_append, List.map_append, i1, report_kinds n ts ts' _ _ hl h i2]
      case backSlash =>
        rcases ts with _ | ⟨u, us⟩ <;> rcases ts' with _ | ⟨u', us'⟩ <;>
          simp only [List.map_cons, List.map_nil, List.cons.injEq, reduceCtorEq] at h
        · rfl
        · obtain ⟨hu, h'⟩ := h
          simp only [← hu]
          rcases escapedChar u.kind with _ | c <;> simp only []
          · rw [List.map_cons, List.map_cons, go]
          · exact report_kinds n us us' _ _ (by simp only [List.length_cons] at hl; omega) h' (intoOpen_shape rfl hs)
      all_goals exact go _ _ _

/-- The errors up to a place where no escape is pending do not depend on what follows. -/
theorem report_prefix : ∀ (n : Nat) (ts : List Token) (st : List OpenCmd), ts.length ≤ n →
    (∀ t ∈ ts, t.kind ≠ .eof ∧ t.kind ≠ .empty) → escapePending (ts.map (·.kind)) = false →
    ∃ (es : List TErr) (st1 : List OpenCmd), ∀ rest, report st (ts ++ rest) = es ++ report st1 rest
  | _, [], st, _, _, _ => ⟨[], st, fun _ => rfl⟩
  | 0, _ :: _, _, hl, _, _ => by simp at hl
  | n + 1, t :: ts, st, hl, h, hp => by
    have hts : ∀ t ∈ ts, t.kind ≠ .eof ∧ t.kind ≠ .empty := fun u hu => h u (by simp [hu])
    have h0 := h t (by simp)
    simp only [List.length_cons, Nat.add_le_add_iff_right] at hl
    rcases hk : t.kind with _ | _ | _ | _ | _ | _ | _ | _ | b | b | _ | _
    case empty => exact absurd hk h0.2
    case eof => exact absurd hk h0.1
    case backSlash =>
      rcases ts with _ | ⟨u, us⟩
      · simp [hk, escapePending] at hp
      · rcases hu : escapedChar u.kind with _ | c
        · obtain ⟨es, st1, h1⟩ := report_prefix n (u :: us) (intoOpen [(.other, t.loc)] st) hl hts
            (by simpa [hk, escapePending, hu] using hp)
          refine ⟨⟨.invalidBackslash, t.loc⟩ :: es, st1, fun rest => ?_⟩
          have := h1 rest
          simp only [List.cons_append] at this ⊢
          rw [report.eq_def]
          simp only [hk, hu, this]
        · obtain ⟨es, st1, h1⟩ := report_prefix n us (intoOpen [(.other, u.loc)] st)
            (by simp only [List.length_cons] at hl; omega) (fun v hv => hts v (by simp [hv]))
            (by simpa [hk, escapePending, hu] using hp)
          refine ⟨es, st1, fun rest => ?_⟩
          have := h1 rest
          simp only [List.cons_append] at this ⊢
          rw [report.eq_def]
          simp only [hk, hu, this]
    case bopen =>
      obtain ⟨es, st1, h1⟩ := report_prefix n ts (⟨b, t.loc, []⟩ :: st) hl hts (by simpa [hk, escapePending] using hp)
      refine ⟨es, st1, fun rest => ?_⟩
      rw [List.cons_append, report.eq_def]
      simp only [hk, h1 rest]
    case bclose =>
      obtain ⟨es, st1, h1⟩ := report_prefix n ts (endCommands t (some b) [] st).2 hl hts
        (by simpa [hk, escapePending] using hp)
      refine ⟨(endCommands t (some b) [] st).1 ++ es, st1, fun rest => ?_⟩
      rw [List.cons_append, report.eq_def]
      simp only [hk, h1 rest, List.append_assoc]
    all_goals
      obtain ⟨es, st1, h1⟩ := report_prefix n ts (intoOpen [(t.kind.piece, t.loc)] st) hl hts
        (by simpa [hk, escapePending] using hp)
      refine ⟨es, st1, fun rest => ?_⟩
      rw [List.cons_append, report.eq_def]
      simp only [hk] at h1 ⊢
      exact h1 rest

theorem trace_prefix : ∀ (n : Nat) (ts st : List Token), ts.length ≤ n →
    (∀ t ∈ ts, t.kind ≠ .eof ∧ t.kind ≠ .empty) → escapePending (ts.map (·.kind)) = false →
    ∃ (evs : List Event) (st1 : List Token), ∀ rest, trace st (ts ++ rest) = evs ++ trace st1 rest
  | _, [], st, _, _, _ => ⟨[], st, fun _ => rfl⟩
  | 0, _ :: _, _, hl, _, _ => by simp at hl
  | n + 1, t :: ts, st, hl, h, hp => by
    have hts : ∀ t ∈ ts, t.kind ≠ .eof ∧ t.kind ≠ .empty := fun u hu => h u (by simp [hu])
    have h0 := h t (by simp)
    simp only [List.length_cons, Nat.add_le_add_iff_right] at hl
    rcases hk : t.kind with _ | _ | _ | _ | _ | _ | _ | _ | b | b | _ | _
    case empty => exact absurd hk h0.2
    case eof => exact absurd hk h0.1
    case backSlash =>
      rcases ts with _ | ⟨u, us⟩
      · simp [hk, escapePending] at hp
      · rcases hu : escapedChar u.kind with _ | c
        · obtain ⟨es, st1, h1⟩ := trace_prefix n (u :: us) st hl hts
            (by simpa [hk, escapePending, hu] using hp)
          refine ⟨.stray st t :: es, st1, fun rest => ?_⟩
          have := h1 rest
          simp only [List.cons_append] at this ⊢
          rw [trace.eq_def]
          simp only [hk, hu, this]
        · obtain ⟨es, st1, h1⟩ := trace_prefix n us st
            (by simp only [List.length_cons] at hl; omega) (fun v hv => hts v (by simp [hv]))
            (by simpa [hk, escapePending, hu] using hp)
          refine ⟨.escape st t c u :: es, st1, fun rest => ?_⟩
          have := h1 rest
          simp only [List.cons_append] at this ⊢
          rw [trace.eq_def]
          simp only [hk, hu, this]
    case bopen =>
      obtain ⟨es, st1, h1⟩ := trace_prefix n ts (t :: st) hl hts (by simpa [hk, escapePending] using hp)
      refine ⟨es, st1, fun rest => ?_⟩
      rw [List.cons_append, trace.eq_def]
      simp only [hk, h1 rest]
    case bclose =>
      rcases hd : st.dropWhile (fun o => decide (o.kind ≠ .bopen b)) with _ | ⟨o, st'⟩
      · obtain ⟨es, st1, h1⟩ := trace_prefix n ts [] hl hts (by simpa [hk, escapePending] using hp)
        refine ⟨(st.takeWhile (fun o => decide (o.kind ≠ .bopen b))).map .unclosed ++ .unopened t :: es, st1, fun rest => ?_⟩
        rw [List.cons_append, trace.eq_def]
        simp only [hk, hd, h1 rest, List.append_assoc, List.cons_append]
      · obtain ⟨es, st1, h1⟩ := trace_prefix n ts st' hl hts (by simpa [hk, escapePending] using hp)
        refine ⟨(st.takeWhile (fun o => decide (o.kind ≠ .bopen b))).map .unclosed ++ .closed o t :: es, st1, fun rest => ?_⟩
        rw [List.cons_append, trace.eq_def]
        simp only [hk, hd, h1 rest, List.append_assoc, List.cons_append]
    all_goals
      obtain ⟨es, st1, h1⟩ := trace_prefix n ts st hl hts (by simpa [hk, escapePending] using hp)
      refine ⟨.plain st t :: es, st1, fun rest => ?_⟩
      rw [List.cons_append, trace.eq_def]
      simp only [hk, h1 rest, List.cons_append]

theorem map_takeWhile_kind (b : Bracket) : ∀ st st' : List Token, st.map (·.kind) = st'.map (·.kind) →
    (st.takeWhile (fun o => decide (o.kind ≠ .bopen b))).length =
      (st'.takeWhile (fun o => decide (o.kind ≠ .bopen b))).length ∧
    (st.dropWhile (fun o => decide (o.kind ≠ .bopen b))).map (·.kind) =
      (st'.dropWhile (fun o => decide (o.kind ≠ .bopen b))).map (·.kind)
  | [], st', h => by
    have : st' = [] := by simpa using h.symm
    subst this; exact ⟨rfl, rfl⟩
  | o :: st, st', h => by
    rcases st' with _ | ⟨o', st'⟩
    · simp at h
    · simp only [List.map_cons, List.cons.injEq] at h
      have ih := map_takeWhile_kind b st st' h.2
      by_cases hb : o.kind = .bopen b
      · have hb' : o'.kind = .bopen b := by rw [← h.1, hb]
        simp [List.takeWhile_cons, List.dropWhile_cons, hb, hb', h.2]
      · have hb' : ¬ o'.kind = .bopen b := by rw [← h.1]; exact hb
        simp only [List.takeWhile_cons, List.dropWhile_cons, hb, hb', ne_eq, not_false_eq_true, decide_true, if_true,
          List.length_cons]
        exact ⟨by rw [ih.1], ih.2⟩

theorem loose_plain_kinds {st st' : List Token} {t t' : Token} (hs : st.map (·.kind) = st'.map (·.kind)) (hk : t.kind = t'.kind) :
    (Event.plain st t).looseSeparator = (Event.plain st' t').looseSeparator := by
  rcases t with ⟨k, l⟩
  rcases t' with ⟨k', l'⟩
  simp only at hk
  subst hk
  rcases st with _ | _ <;> rcases st' with _ | _ <;> simp at hs
  · cases k <;> rfl
  · rfl

theorem map_unclosed_loose (st : List Token) :
    (st.map Event.unclosed).map Event.looseSeparator = List.replicate st.length false := by
  induction st with
  | nil => rfl
  | cons o st ih => rw [List.map_cons, List.map_cons, ih]; rfl

/-- Whether separators are loose depends on the kinds of the tokens only. -/
theorem loose_kinds : ∀ (n : Nat) (ts ts' st st' : List Token), ts.length ≤ n →
    ts.map (·.kind) = ts'.map (·.kind) → st.map (·.kind) = st'.map (·.kind) →
    (trace st ts).map Event.looseSeparator = (trace st' ts').map Event.looseSeparator
  | n, ts, ts', st, st', hl, h, hs => by
    have hlen : st.length = st'.length := by simpa using congrArg List.length hs
    have hun : (st.map Event.unclosed).map Event.looseSeparator = (st'.map Event.unclosed).map Event.looseSeparator := by
      rw [map_unclosed_loose, map_unclosed_loose, hlen]
    rcases ts with _ | ⟨t, ts⟩ <;> rcases ts' with _ | ⟨t', ts'⟩ <;>
      simp only [List.map_cons, List.map_nil, List.cons.injEq, reduceCtorEq] at h
    · rw [trace.eq_def, trace.eq_def st']; exact hun
    · rcases n with _ | n
      · simp at hl
      obtain ⟨hk, h⟩ := h
      simp only [List.length_cons, Nat.add_le_add_iff_right] at hl
      have ih := fun st st' hs => loose_kinds n ts ts' st st' hl h hs
      have hpl := loose_plain_kinds hs hk
      rw [trace.eq_def, trace.eq_def st']
      simp only [← hk]
      rcases hkt : t.kind with _ | _ | _ | _ | _ | _ | _ | _ | b | b | _ | _ <;> simp only []
      case empty => exact hun
      case eof => exact hun
      case bopen => exact ih _ _ (by simp [hk, hs])
      case bclose =>
        obtain ⟨w1, w2⟩ := map_takeWhile_kind b st st' hs
        rw [List.map_append, List.map_append, map_unclosed_loose, map_unclosed_loose, w1]
        congr 1
        generalize st.dropWhile (fun o => decide (o.kind ≠ .bopen b)) = d at w2
        generalize st'.dropWhile (fun o => decide (o.kind ≠ .bopen b)) = d' at w2
        rcases d with _ | ⟨o, d⟩ <;> rcases d' with _ | ⟨o', d'⟩ <;>
          simp only [List.map_cons, List.map_nil, List.cons.injEq, reduceCtorEq] at w2
        · simp only [List.map_cons, ih [] [] rfl, Event.looseSeparator]
        · simp only [List.map_cons, ih d d' w2.2, Event.looseSeparator]
      case backSlash =>
        rcases ts with _ | ⟨u, us⟩ <;> rcases ts' with _ | ⟨u', us'⟩ <;>
          simp only [List.map_cons, List.map_nil, List.cons.injEq, reduceCtorEq] at h
        · simp only [List.map_cons, hun, Event.looseSeparator]
        · obtain ⟨hu, h'⟩ := h
          simp only [← hu]
          rcases escapedChar u.kind with _ | c <;> simp only []
          · simp only [List.map_cons, ih st st' hs, Event.looseSeparator]
          · simp only [List.map_cons, Event.looseSeparator]
            rw [loose_kinds n us us' st st' (by simp only [List.length_cons] at hl; omega) h' hs]
      all_goals rw [List.map_cons, List.map_cons, ih st st' hs, hpl]

/-- A backslash that escapes nothing may be doubled in what is accepted. -/
theorem accepts_doubled (k : TokKind) (rest : List TokKind) (hk : escapedChar k = none) :
    ∀ (n : Nat) (ks : List TokKind) (bs : List Bracket) (q : LineState), ks.length ≤ n → escapePending ks = false →
    accepts bs q (ks ++ .backSlash :: k :: rest) = true →
    accepts bs q (ks ++ .backSlash :: .backSlash :: k :: rest) = true
  | _, [], bs, q, _, _, ha => by
    have hn : k ∉ escapes.map (·.2) := by rw [mem_escapes_iff, hk]; simp
    have hb : TokKind.backSlash ∈ escapes.map (·.2) := by decide
    rcases bs with _ | ⟨b, bs⟩ <;> simp only [List.nil_append] at ha ⊢ <;> rw [accepts, if_neg hn] at ha <;>
      rw [accepts, if_pos hb] <;> exact ha
  | 0, _ :: _, _, _, hl, _, _ => by simp at hl
  | n + 1, t :: ks, bs, q, hl, hp, ha => by
    simp only [List.length_cons, Nat.add_le_add_iff_right] at hl
    have ih := fun bs q hp => accepts_doubled k rest hk n ks bs q hl hp
    rcases t with _ | _ | _ | _ | _ | _ | _ | _ | b | b | _ | _ <;> simp only [List.cons_append] at ha ⊢
    case empty => simp [accepts] at ha
    case eof => simp [accepts]
    case bclose =>
      have hp' : escapePending ks = false := by simpa [escapePending] using hp
      rw [accepts] at ha ⊢
      rcases hd : bs.dropWhile (· ≠ b) with _ | ⟨x, bs'⟩ <;> rw [hd] at ha <;> simp only [] at ha ⊢
      · rw [Bool.and_eq_true] at ha ⊢
        exact ⟨ha.1, ih _ _ hp' ha.2⟩
      · exact ih _ _ hp' ha
    case backSlash =>
      rcases ks with _ | ⟨u, us⟩
      · simp [escapePending] at hp
      · have i1 := fun bs q hp => accepts_doubled k rest hk n us bs q
          (by simp only [List.length_cons] at hl; omega) hp
        simp only [List.cons_append] at ha ih ⊢
        have hm := mem_escapes_iff u
        by_cases hu : (escapedChar u).isSome = true
        · have hp' : escapePending us = false := by simpa [escapePending, hu] using hp
          rcases bs with _ | ⟨b', bs⟩ <;> rw [accepts, if_pos (hm.2 hu)] at ha ⊢
          · rw [Bool.and_eq_true] at ha ⊢
            exact ⟨ha.1, i1 _ _ hp' ha.2⟩
          · exact i1 _ _ hp' ha
        · have hp' : escapePending (u :: us) = false := by simpa [escapePending, hu] using hp
          rcases bs with _ | ⟨b', bs⟩ <;> rw [accepts, if_neg (fun x => hu (hm.1 x))] at ha ⊢
          · rw [Bool.and_eq_true] at ha ⊢
            exact ⟨ha.1, ih _ _ hp' ha.2⟩
          · exact ih _ _ hp' ha
    all_goals
      have hp' : escapePending ks = false := by simpa [escapePending] using hp
      rcases bs with _ | ⟨b', bs⟩ <;> rw [accepts] at ha ⊢
      · first
        | exact ih _ _ hp' ha
        | (rw [Bool.and_eq_true] at ha ⊢
           exact ⟨ha.1, ih _ _ hp' ha.2⟩)
      · exact ih _ _ hp' ha

theorem while_blocked {α : Type} (p : α → Bool) (x : α) (hx : p x = false) (bs : List α) : ∀ as : List α,
    (as ++ x :: bs).dropWhile p = as.dropWhile p ++ x :: bs ∧ (as ++ x :: bs).takeWhile p = as.takeWhile p
  | [] => by simp [hx]
  | a :: as => by
    have ih := while_blocked p x hx bs as
    by_cases ha : p a = true <;> simp [List.dropWhile_cons, List.takeWhile_cons, ha, ih]

/-- What is read before a backslash does not depend on what stands behind it, nor on the backslash. -/
theorem lexed_prefix : ∀ (n : Nat) (ga : List Str) (d : Int) (due : Bool), ga.length ≤ n →
    (∀ g ∈ ga, g ≠ [Char.ofNat 0]) →
    ∃ (ks : List TokKind) (d1 : Int) (due1 : Bool), lexed d due ga = ks ++ [.eof] ∧
      ∀ gb, lexed d due (ga ++ ['\\'] :: gb) = ks ++ .backSlash :: lexed d1 due1 gb
  | _, [], d, due, _, _ => by
    refine ⟨[], d, due, by rw [lexed]; rfl, fun gb => ?_⟩
    rw [List.nil_append, lexed, if_neg (by decide), if_neg (by simp)]
    simp [signKind, TokKind.turn, TokKind.leavesDue]
  | 0, _ :: _, _, _, hl, _ => by simp at hl
  | n + 1, g :: ga, d, due, hl, h => by
    simp only [List.length_cons, Nat.add_le_add_iff_right] at hl
    have hga : ∀ g ∈ ga, g ≠ [Char.ofNat 0] := fun x hx => h x (by simp [hx])
    have hg := h g (by simp)
    have hhd : ∀ gb : List Str, isCloser ((ga ++ ['\\'] :: gb).headD []) = isCloser (ga.headD []) := by
      intro gb
      rcases ga with _ | ⟨x, ga⟩
      · simp [isCloser]
      · rfl
    rcases hm : (if due ∧ isCloser (ga.headD []) ∧ g ≠ ['\\'] then none else signKind (decide (d > 0)) g) with _ | k
    · generalize hp : (fun c => !endsWord (decide (d > 0)) due c) = p
      have hbs : p ['\\'] = false := by rw [← hp]; simp [endsWord, signKind]
      have hdr := fun gb => (while_blocked p _ hbs gb ga).1
      have htk := fun gb => (while_blocked p _ hbs gb ga).2
      have hw : ∀ gb w, wordKind due ((ga.dropWhile p ++ ['\\'] :: gb).headD []) w =
          wordKind due ((ga.dropWhile p).headD []) w := by
        intro gb w
        rcases ga.dropWhile p with _ | ⟨x, xs⟩
        · simp [wordKind, isCloser]
        · rfl
      obtain ⟨ks, d1, due1, i1, i2⟩ := lexed_prefix n (ga.dropWhile p) d
        ((wordKind due ((ga.dropWhile p).headD []) (g ++ (ga.takeWhile p).flatten)).leavesDue due)
        (Nat.le_trans (List.dropWhile_sublist _).length_le hl)
        (fun x hx => hga x ((List.dropWhile_sublist _).subset hx))
      refine ⟨wordKind due ((ga.dropWhile p).headD []) (g ++ (ga.takeWhile p).flatten) :: ks, d1, due1, ?_, fun gb => ?_⟩
      · rw [lexed, if_neg hg, hm]
        simp only [hp, i1, List.cons_append]
      · rw [List.cons_append, lexed, if_neg hg, hhd, hm]
        simp only [hp, hdr, htk, hw, i2, List.cons_append]
    · obtain ⟨ks, d1, due1, i1, i2⟩ := lexed_prefix n ga (d + k.turn) (k.leavesDue due) hl hga
      refine ⟨k :: ks, d1, due1, ?_, fun gb => ?_⟩
      · rw [lexed, if_neg hg, hm]
        simp only [i1, List.cons_append]
      · rw [List.cons_append, lexed, if_neg hg, hhd, hm]
        simp only [i2, List.cons_append]

end Brack
