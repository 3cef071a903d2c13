import Verif.Proof.Lexed
import Verif.Proof.ParaTokens
import Verif.Proof.ParaDown
import Verif.Spec.Reports

/-
Helper lemmas for C132: what stands below a line is read alike if the lines above leave the same
brackets open.
-/

namespace Brack

/-! ### tokens -/

theorem graphemes_noNul (S : Segmenter) (a : Str) (h : Char.ofNat 0 ∉ a) : ∀ g ∈ S.graphemes a, g ≠ NUL := by
  rintro g hg rfl
  apply h
  rw [← S.flatten a]
  exact List.mem_flatten.mpr ⟨_, hg, by simp [NUL]⟩

/-- The state at the begin of a document's first line, but with `n` brackets open and a name due or not. -/
def M.fresh (n : Int) (due : Bool) : M := ⟨0, 0, 0, 0, [], n, 0, 0, due⟩

/-- The tokens below a line end that follows the text `a`: those of a document of its own that begins with as many brackets open,
moved down. -/
theorem tokens_below (S : Segmenter) (a b : Str) (hcr : ∀ a', a ≠ a' ++ ['\r']) (hnul : Char.ofNat 0 ∉ a)
    {ts : List Token} {e : Token} (ht : tokenizeStr S a = .ok (ts ++ [e])) (hn : nameDue false ts = false) :
    tokenizeStr S (a ++ '\n' :: b) = .ok (ts ++
      ⟨.newLine, ⟨e.loc.start, ⟨e.loc.start.line, e.loc.start.character + 1⟩⟩⟩ ::
      (run (S.graphemes b) (M.fresh (depth ts) false)).map (Token.down (e.loc.start.line + 1))) := by
  rw [tokenizeStr_eq] at ht
  obtain ⟨ts', m', h1, h2, h3, h4⟩ := run_before (S.graphemes b) (S.graphemes a) M.init (graphemes_noNul S a hnul)
  have he : ts' = ts ∧ m'.eof = e := by
    have : ts' ++ [m'.eof] = ts ++ [e] := by
      rw [← h1]; exact Res.ok.inj ht
    have := List.append_inj' this rfl
    simpa using this
  obtain ⟨rfl, rfl⟩ := he
  have hlook : m'.look = false := by rw [h4]; exact hn
  rw [tokenizeStr_eq, graphemes_lf S a _ hcr, h2, run_lf _ _ (.inl hlook),
    run_down (m'.line + 1) (S.graphemes b) (M.fresh (depth ts') false) m'.nextLine]
  · rfl
  · have h3' : m'.nest = depth ts' := by rw [h3]; simp [M.nest, M.init]
    constructor <;> simp [M.nextLine, M.fresh, hlook, M.nest] <;> simpa [M.nest] using h3'

/-- The last token of a text is the end of the document, and no other one is. -/
theorem tokens_eof {S : Segmenter} {a : Str} {ts : List Token} {e : Token} (ht : tokenizeStr S a = .ok (ts ++ [e])) :
    e.kind = .eof ∧ ∀ t ∈ ts, t.kind ≠ .eof ∧ t.kind ≠ .empty := by
  obtain ⟨body, eof, h1, h2, h3⟩ := run_shape (S.graphemes a) M.init
  rw [tokenizeStr_eq, h1] at ht
  have := List.append_inj' (Res.ok.inj ht) rfl
  obtain ⟨rfl, h⟩ := this
  simp only [List.cons.injEq, and_true] at h
  subst h
  exact ⟨h2, h3⟩

/-! ### errors -/

def CmdPart.down (d : Nat) (p : CmdPart) : CmdPart := (p.1, p.2.down d)

def OpenCmd.down (d : Nat) (f : OpenCmd) : OpenCmd := ⟨f.bracket, f.opening.down d, f.pieces.map (CmdPart.down d)⟩

theorem expectPiece_down (d allowed kind) (o : Option CmdPart) :
    expectPiece allowed kind (o.map (CmdPart.down d)) = (expectPiece allowed kind o).map (TErr.down d) := by
  cases o with
  | none => rfl
  | some x =>
    by_cases h : x.1 ∈ allowed <;> simp [expectPiece, CmdPart.down, h, TErr.down]

theorem argumentErrors_down (d) : ∀ (ps : List CmdPart) (last empty comma),
    argumentErrors (Loc.down d last) empty comma (ps.map (CmdPart.down d)) =
      (argumentErrors last empty comma ps).map (TErr.down d)
  | [], _, _, _ => rfl
  | (k, l) :: ps, last, empty, comma => by
    cases k <;> simp only [List.map_cons, CmdPart.down, argumentErrors]
    case comma =>
      cases empty <;> simp only [if_true, List.map_cons, Bool.false_eq_true, if_false]
      · exact argumentErrors_down d ps _ _ _
      · exact congrArg _ (argumentErrors_down d ps _ _ _)
    case closing =>
      by_cases h : (empty && comma) = true <;> simp [h, TErr.down]
    case dot => exact congrArg _ (argumentErrors_down d ps _ _ _)
    all_goals exact argumentErrors_down d ps _ _ _

theorem filter_down (d) (p : CmdPiece → Bool) (ps : List CmdPart) :
    (ps.map (CmdPart.down d)).filter (fun x => p x.1) = (ps.filter (fun x => p x.1)).map (CmdPart.down d) := by
  rw [List.filter_map]
  rfl

theorem contentErrors_down (d) (ps : List CmdPart) :
    contentErrors (ps.map (CmdPart.down d)) = (contentErrors ps).map (TErr.down d) := by
  unfold contentErrors
  have hf := filter_down d (fun k => decide (k ≠ .blank)) ps
  have hd : ((ps.map (CmdPart.down d)).drop 2).filter (fun x => decide (x.1 = .dot)) =
      ((ps.drop 2).filter (fun x => decide (x.1 = .dot))).map (CmdPart.down d) := by
    rw [← List.map_drop]
    exact filter_down d (fun k => decide (k = .dot)) (ps.drop 2)
  rw [hf, hd]
  simp only [List.getElem?_map, expectPiece_down, List.map_append, List.map_map]
  have aux : ∀ q : List CmdPart,
      (match q.map (CmdPart.down d) with
        | _ :: _ :: x :: rest => argumentErrors x.2 true false rest
        | _ => []) =
      (match q with
        | _ :: _ :: x :: rest => argumentErrors x.2 true false rest
        | _ => []).map (TErr.down d) := by
    intro q
    rcases q with _ | ⟨x, _ | ⟨y, _ | ⟨z, rest⟩⟩⟩
    · rfl
    · rfl
    · rfl
    · exact argumentErrors_down d rest _ _ _
  congr 1
  exact aux _

theorem commandErrors_down (d b) (l : Loc) (ps : List CmdPart) :
    TErrsDown d (commandErrors b l ps) (commandErrors b (l.down d) (ps.map (CmdPart.down d))) := by
  unfold commandErrors
  rw [contentErrors_down]
  refine TErrsDown.append ?_ (TErrsDown.map d _)
  rw [List.getLast?_map]
  rcases ps.getLast? with _ | x
  · simp only [Option.map_none, Option.any_none, Bool.false_eq_true, if_false, Option.getD_none]
    exact ⟨⟨rfl, mergeLocation_start_down d l l, fun h => absurd rfl (h b)⟩, trivial⟩
  · simp only [Option.map_some, Option.any_some, Option.getD_some, CmdPart.down]
    by_cases hx : x.1 = .closing
    · simp [hx, TErrsDown]
    · simp only [hx, decide_false, Bool.false_eq_true, if_false]
      exact ⟨⟨rfl, mergeLocation_start_down d l x.2, fun h => absurd rfl (h b)⟩, trivial⟩

theorem intoOpen_down (d) (ps : List CmdPart) (st : List OpenCmd) :
    intoOpen (ps.map (CmdPart.down d)) (st.map (OpenCmd.down d)) = (intoOpen ps st).map (OpenCmd.down d) := by
  cases st <;> simp [intoOpen, OpenCmd.down]

theorem endCommands_down (d) (t : Token) (b : Option Bracket) : ∀ (st : List OpenCmd) (ps : List CmdPart),
    TErrsDown d (endCommands t b ps st).1
        (endCommands (t.down d) b (ps.map (CmdPart.down d)) (st.map (OpenCmd.down d))).1 ∧
      (endCommands (t.down d) b (ps.map (CmdPart.down d)) (st.map (OpenCmd.down d))).2 =
        (endCommands t b ps st).2.map (OpenCmd.down d)
  | [], _ => ⟨trivial, rfl⟩
  | f :: st, ps => by
    have hp : (f.down d).piece (t.down d) = CmdPart.down d (f.piece t) := rfl
    simp only [List.map_cons, endCommands]
    by_cases h : b = some f.bracket
    · rw [if_pos h, if_pos (show b = some (f.down d).bracket from h)]
      refine ⟨?_, ?_⟩
      · have := commandErrors_down d f.bracket f.opening (f.pieces ++ ps ++ [(.closing, t.loc)])
        simpa [OpenCmd.down, CmdPart.down, Token.down] using this
      · rw [hp]
        exact intoOpen_down d [f.piece t] st
    · rw [if_neg h, if_neg (show ¬ b = some (f.down d).bracket from h)]
      obtain ⟨h1, h2⟩ := endCommands_down d t b st [f.piece t]
      rw [hp]
      refine ⟨TErrsDown.append ?_ h1, h2⟩
      have := commandErrors_down d f.bracket f.opening (f.pieces ++ ps)
      simpa [OpenCmd.down] using this

theorem report_down (d) : ∀ (n : Nat) (ts : List Token) (st : List OpenCmd), ts.length ≤ n →
    TErrsDown d (report st ts) (report (st.map (OpenCmd.down d)) (ts.map (Token.down d)))
  | _, [], _, _ => trivial
  | 0, _ :: _, _, h => by simp at h
  | n + 1, t :: ts, st, h => by
    have hlen : ts.length ≤ n := by simpa using h
    have hk : (t.down d).kind = t.kind := rfl
    have plain : ∀ k : CmdPiece, TErrsDown d (report (intoOpen [(k, t.loc)] st) ts)
        (report (intoOpen [(k, (t.down d).loc)] (st.map (OpenCmd.down d))) (ts.map (Token.down d))) := by
      intro k
      have := report_down d n ts (intoOpen [(k, t.loc)] st) hlen
      rwa [← intoOpen_down] at this
    rw [List.map_cons, report.eq_def, report.eq_def (st.map (OpenCmd.down d))]
    simp only [hk]
    rcases t.kind with _ | v | v | v | _ | _ | _ | _ | b | b | _ | _ <;> simp only
    all_goals first
      | exact plain _
      | exact (endCommands_down d t none st []).1
      | exact report_down d n ts (⟨b, t.loc, []⟩ :: st) hlen
      | (obtain ⟨h1, h2⟩ := endCommands_down d t (some b) st []
         refine TErrsDown.append h1 ?_
         rw [List.map_nil] at h2
         rw [h2]
         exact report_down d n ts _ hlen)
      | skip
    cases ts with
    | nil => exact ⟨⟨rfl, rfl, fun _ => rfl⟩, trivial⟩
    | cons u us =>
      simp only [List.map_cons]
      have hu : (u.down d).kind = u.kind := rfl
      rw [hu]
      cases escapedChar u.kind with
      | some c =>
        have := report_down d n us (intoOpen [(.other, u.loc)] st) (by simp at hlen; omega)
        rwa [← intoOpen_down] at this
      | none => exact ⟨⟨rfl, rfl, fun _ => rfl⟩, plain .other⟩

/-- No command that is open has a closing bracket among its pieces. -/
def NoClosing (st : List OpenCmd) : Prop := ∀ f ∈ st, ∀ p ∈ f.pieces, p.1 ≠ CmdPiece.closing

theorem NoClosing.into {st : List OpenCmd} (h : NoClosing st) {p : CmdPart} (hp : p.1 ≠ .closing) :
    NoClosing (intoOpen [p] st) := by
  cases st with
  | nil => exact h
  | cons f st =>
    intro g hg q hq
    rcases List.mem_cons.mp hg with rfl | hg
    · rcases List.mem_append.mp hq with hq | hq
      · exact h f (by simp) q hq
      · simp only [List.mem_singleton] at hq
        subst hq
        exact hp
    · exact h g (by simp [hg]) q hq

theorem OpenCmd.piece_closing (f : OpenCmd) (t : Token) : (f.piece t).1 ≠ .closing := by
  unfold OpenCmd.piece
  by_cases h : f.bracket = .angle <;> simp [h]

theorem NoClosing.ended (t : Token) (b : Option Bracket) : ∀ (st : List OpenCmd) (ps : List CmdPart), NoClosing st →
    NoClosing (endCommands t b ps st).2
  | [], _, _ => by simp [endCommands, NoClosing]
  | f :: st, ps, h => by
    have hst : NoClosing st := fun g hg => h g (by simp [hg])
    unfold endCommands
    by_cases hb : b = some f.bracket
    · rw [if_pos hb]
      exact hst.into (f.piece_closing t)
    · rw [if_neg hb]
      exact NoClosing.ended t b st _ hst

theorem piece_ne_closing (k : TokKind) : k.piece ≠ .closing := by
  cases k <;> simp [TokKind.piece]

/-- What is open at the end of the document is reported. -/
theorem open_reported (t : Token) : ∀ (st : List OpenCmd), NoClosing st → st ≠ [] →
    ∃ e ∈ (endCommands t none [] st).1, ∃ b, e.kind = .notClosed b
  | [], _, h => absurd rfl h
  | f :: st, h, _ => by
    refine ⟨⟨.notClosed f.bracket, mergeLocation f.opening ((f.pieces.getLast?.map (·.2)).getD f.opening)⟩, ?_, _, rfl⟩
    have hl : (f.pieces.getLast?.any (fun x => decide (x.1 = .closing))) = false := by
      rcases hx : f.pieces.getLast? with _ | x
      · rfl
      · have hm := List.mem_of_getLast? hx
        simpa using h f (by simp) x hm
    simp [endCommands, commandErrors, hl]

/-- Reading a document up to its end, or up to a line end. -/
theorem report_split (e nl : Token) (rest : List Token) (he : e.kind = .eof) (hnl : nl.kind = .newLine) :
    ∀ (n : Nat) (ts : List Token) (st : List OpenCmd), ts.length ≤ n → NoClosing st →
      (∀ t ∈ ts, t.kind ≠ .eof ∧ t.kind ≠ .empty) →
      ∃ st' es, NoClosing st' ∧ report st (ts ++ [e]) = es ++ (endCommands e none [] st').1 ∧
        report st (ts ++ nl :: rest) = es ++ report st' (nl :: rest)
  | _, [], st, _, hst, _ => ⟨st, [], hst, by simp [report, he], by simp⟩
  | 0, _ :: _, _, h, _, _ => by simp at h
  | n + 1, t :: ts, st, h, hst, hts => by
    have hlen : ts.length ≤ n := by simpa using h
    have hts' : ∀ t ∈ ts, t.kind ≠ .eof ∧ t.kind ≠ .empty := fun u hu => hts u (by simp [hu])
    have ht := hts t (by simp)
    have plain : ∀ k : CmdPiece, k ≠ .closing → ∃ st' es, NoClosing st' ∧
        report (intoOpen [(k, t.loc)] st) (ts ++ [e]) = es ++ (endCommands e none [] st').1 ∧
        report (intoOpen [(k, t.loc)] st) (ts ++ nl :: rest) = es ++ report st' (nl :: rest) :=
      fun k hk => report_split e nl rest he hnl n ts _ hlen (hst.into hk) hts'
    rw [List.cons_append, List.cons_append, report.eq_def, report.eq_def st (t :: (ts ++ nl :: rest))]
    simp only
    have hp := piece_ne_closing t.kind
    rcases hk : t.kind with _ | v | v | v | _ | _ | _ | _ | b | b | _ | _ <;> simp only <;> rw [hk] at hp
    all_goals first
      | exact plain _ hp
      | exact absurd hk ht.1
      | exact absurd hk ht.2
      | exact report_split e nl rest he hnl n ts (⟨b, t.loc, []⟩ :: st) hlen (by
          intro f hf
          rcases List.mem_cons.mp hf with rfl | hf
          · simp
          · exact hst f hf) hts'
      | (obtain ⟨st', es, h1, h2, h3⟩ := report_split e nl rest he hnl n ts (endCommands t (some b) [] st).2 hlen
          (NoClosing.ended t _ st _ hst) hts'
         exact ⟨st', _ ++ es, h1, by rw [h2, List.append_assoc], by rw [h3, List.append_assoc]⟩)
      | skip
    cases ts with
    | nil =>
      have h1 : escapedChar e.kind = none := by rw [he]; decide
      have h2 : escapedChar nl.kind = none := by rw [hnl]; decide
      obtain ⟨st', es, k1, k2, k3⟩ := plain .other (by decide)
      simp only [List.nil_append] at k2 k3 ⊢
      rw [h1, h2]
      exact ⟨st', _ :: es, k1, by rw [k2]; rfl, by rw [k3]; rfl⟩
    | cons u us =>
      simp only [List.cons_append]
      cases escapedChar u.kind with
      | some c =>
        exact report_split e nl rest he hnl n us _ (by simp at hlen; omega) (hst.into (by simp))
          (fun x hx => hts' x (by simp [hx]))
      | none =>
        obtain ⟨st', es, k1, k2, k3⟩ := plain .other (by decide)
        simp only [List.cons_append] at k2 k3 ⊢
        exact ⟨st', _ :: es, k1, by rw [k2]; rfl, by rw [k3]; rfl⟩

/-- The errors of a document with a line end outside all commands. -/
theorem report_below (ts : List Token) (e nl : Token) (rest : List Token) (he : e.kind = .eof) (hnl : nl.kind = .newLine)
    (hts : ∀ t ∈ ts, t.kind ≠ .eof ∧ t.kind ≠ .empty)
    (hc : ∀ x ∈ report [] (ts ++ [e]), ∀ b, x.kind ≠ .notClosed b) :
    report [] (ts ++ nl :: rest) = report [] (ts ++ [e]) ++ report [] rest := by
  obtain ⟨st', es, h1, h2, h3⟩ := report_split e nl rest he hnl _ ts [] (Nat.le_refl _) (by simp [NoClosing]) hts
  by_cases hs : st' = []
  · subst hs
    rw [h2, h3]
    have : report [] (nl :: rest) = report [] rest := by
      rw [report.eq_def]
      simp [hnl, intoOpen]
    rw [this]
    simp [endCommands]
  · obtain ⟨x, hx, b, hb⟩ := open_reported e st' h1 hs
    exact absurd hb (hc x (by rw [h2]; simp [hx]) b)

end Brack
