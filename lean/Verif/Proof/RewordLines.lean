import Verif.Proof.Reword
import Verif.Proof.Below

/-
The lines of errors depend on the lines of tokens only.
-/

namespace Brack

/-- A range without its columns. -/
def Loc.lined (l : Loc) : Loc := ⟨⟨l.start.line, 0⟩, ⟨l.stop.line, 0⟩⟩

def Token.lined (t : Token) : Token := ⟨t.kind, t.loc.lined⟩

def TErr.lined (e : TErr) : TErr := ⟨e.kind, e.loc.lined⟩

def CmdPart.lined (p : CmdPart) : CmdPart := (p.1, p.2.lined)

def OpenCmd.lined (f : OpenCmd) : OpenCmd := ⟨f.bracket, f.opening.lined, f.pieces.map CmdPart.lined⟩

theorem mergeLocation_lined (l k : Loc) : (mergeLocation l k).lined = mergeLocation l.lined k.lined := by
  obtain ⟨⟨a, b⟩, ⟨c, d⟩⟩ := l
  obtain ⟨⟨a', b'⟩, ⟨c', d'⟩⟩ := k
  have h1 : ∀ x y : Nat, compare x y = .eq → x = y := fun x y h => Nat.compare_eq_eq.mp h
  simp only [mergeLocation, Loc.lined]
  rcases ha : compare a a' <;> rcases hc : compare c c' <;> simp only [] <;>
    (try have ha' := h1 _ _ ha) <;> (try have hc' := h1 _ _ hc) <;> (try subst ha') <;> (try subst hc') <;>
    (try rcases compare b b') <;> (try rcases compare c d') <;> (try rcases compare c 0) <;> rfl

theorem expectPiece_lined (allowed kind) (o : Option CmdPart) :
    expectPiece allowed kind (o.map CmdPart.lined) = (expectPiece allowed kind o).map TErr.lined := by
  cases o with
  | none => rfl
  | some x =>
    by_cases h : x.1 ∈ allowed <;> simp [expectPiece, CmdPart.lined, h, TErr.lined]

theorem argumentErrors_lined : ∀ (ps : List CmdPart) (last : Loc) (empty comma),
    argumentErrors last.lined empty comma (ps.map CmdPart.lined) =
      (argumentErrors last empty comma ps).map TErr.lined
  | [], _, _, _ => rfl
  | (k, l) :: ps, last, empty, comma => by
    cases k <;> simp only [List.map_cons, CmdPart.lined, argumentErrors]
    case comma =>
      cases empty <;> simp only [if_true, List.map_cons, Bool.false_eq_true, if_false]
      · exact argumentErrors_lined ps _ _ _
      · exact congrArg _ (argumentErrors_lined ps _ _ _)
    case closing =>
      by_cases h : (empty && comma) = true <;> simp [h, TErr.lined]
    case dot => exact congrArg _ (argumentErrors_lined ps _ _ _)
    all_goals exact argumentErrors_lined ps _ _ _

theorem filter_lined (p : CmdPiece → Bool) (ps : List CmdPart) :
    (ps.map CmdPart.lined).filter (fun x => p x.1) = (ps.filter (fun x => p x.1)).map CmdPart.lined := by
  rw [List.filter_map]
  rfl

theorem contentErrors_lined (ps : List CmdPart) :
    contentErrors (ps.map CmdPart.lined) = (contentErrors ps).map TErr.lined := by
  unfold contentErrors
  have hf := filter_lined (fun k => decide (k ≠ .blank)) ps
  have hd : ((ps.map CmdPart.lined).drop 2).filter (fun x => decide (x.1 = .dot)) =
      ((ps.drop 2).filter (fun x => decide (x.1 = .dot))).map CmdPart.lined := by
    rw [← List.map_drop]
    exact filter_lined (fun k => decide (k = .dot)) (ps.drop 2)
  rw [hf, hd]
  simp only [List.getElem?_map, expectPiece_lined, List.map_append, List.map_map]
  have aux : ∀ q : List CmdPart,
      (match q.map CmdPart.lined with
        | _ :: _ :: x :: rest => argumentErrors x.2 true false rest
        | _ => []) =
      (match q with
        | _ :: _ :: x :: rest => argumentErrors x.2 true false rest
        | _ => []).map TErr.lined := by
    intro q
    rcases q with _ | ⟨x, _ | ⟨y, _ | ⟨z, rest⟩⟩⟩
    · rfl
    · rfl
    · rfl
    · exact argumentErrors_lined rest _ _ _
  congr 1
  exact aux _

theorem commandErrors_lined (b) (l : Loc) (ps : List CmdPart) :
    commandErrors b l.lined (ps.map CmdPart.lined) = (commandErrors b l ps).map TErr.lined := by
  unfold commandErrors
  rw [contentErrors_lined, List.map_append]
  refine congrArg (· ++ _) ?_
  rw [List.getLast?_map]
  rcases ps.getLast? with _ | x
  · simp only [Option.map_none, Option.any_none, Bool.false_eq_true, if_false, Option.getD_none, List.map_cons, List.map_nil,
      TErr.lined, mergeLocation_lined]
  · simp only [Option.map_some, Option.any_some, Option.getD_some, CmdPart.lined]
    by_cases hx : x.1 = .closing
    · simp [hx]
    · simp only [hx, decide_false, Bool.false_eq_true, if_false, List.map_cons, List.map_nil, TErr.lined, mergeLocation_lined]

theorem intoOpen_lined (ps : List CmdPart) (st : List OpenCmd) :
    intoOpen (ps.map CmdPart.lined) (st.map OpenCmd.lined) = (intoOpen ps st).map OpenCmd.lined := by
  cases st <;> simp [intoOpen, OpenCmd.lined]

theorem endCommands_lined (t : Token) (b : Option Bracket) : ∀ (st : List OpenCmd) (ps : List CmdPart),
    (endCommands t.lined b (ps.map CmdPart.lined) (st.map OpenCmd.lined)).1 = (endCommands t b ps st).1.map TErr.lined ∧
      (endCommands t.lined b (ps.map CmdPart.lined) (st.map OpenCmd.lined)).2 =
        (endCommands t b ps st).2.map OpenCmd.lined
  | [], _ => ⟨rfl, rfl⟩
  | f :: st, ps => by
    have hp : f.lined.piece t.lined = CmdPart.lined (f.piece t) := rfl
    simp only [List.map_cons, endCommands]
    by_cases h : b = some f.bracket
    · rw [if_pos h, if_pos (show b = some f.lined.bracket from h)]
      refine ⟨?_, ?_⟩
      · have := commandErrors_lined f.bracket f.opening (f.pieces ++ ps ++ [(.closing, t.loc)])
        simpa [OpenCmd.lined, CmdPart.lined, Token.lined] using this
      · rw [hp]
        exact intoOpen_lined [f.piece t] st
    · rw [if_neg h, if_neg (show ¬ b = some f.lined.bracket from h)]
      obtain ⟨h1, h2⟩ := endCommands_lined t b st [f.piece t]
      rw [List.map_cons, List.map_nil] at h1 h2
      rw [hp]
      refine ⟨?_, h2⟩
      have := commandErrors_lined f.bracket f.opening (f.pieces ++ ps)
      rw [List.map_append] at this
      simp only [List.map_append, h1]
      exact congrArg (· ++ _) this

theorem report_lined : ∀ (n : Nat) (ts : List Token) (st : List OpenCmd), ts.length ≤ n →
    report (st.map OpenCmd.lined) (ts.map Token.lined) = (report st ts).map TErr.lined
  | _, [], _, _ => by simp [report]
  | 0, _ :: _, _, h => by simp at h
  | n + 1, t :: ts, st, h => by
    have hlen : ts.length ≤ n := by simpa using h
    have hk : t.lined.kind = t.kind := rfl
    have plain : ∀ k : CmdPiece, report (intoOpen [(k, t.lined.loc)] (st.map OpenCmd.lined)) (ts.map Token.lined) =
        (report (intoOpen [(k, t.loc)] st) ts).map TErr.lined := by
      intro k
      have := report_lined n ts (intoOpen [(k, t.loc)] st) hlen
      rwa [← intoOpen_lined] at this
    rw [List.map_cons, report.eq_def, report.eq_def st]
    simp only [hk]
    rcases t.kind with _ | v | v | v | _ | _ | _ | _ | b | b | _ | _ <;> simp only
    all_goals first
      | exact plain _
      | exact (endCommands_lined t none st []).1
      | exact report_lined n ts (⟨b, t.loc, []⟩ :: st) hlen
      | (obtain ⟨h1, h2⟩ := endCommands_lined t (some b) st []
         rw [List.map_nil] at h1 h2
         rw [h1, h2, List.map_append, report_lined n ts _ hlen])
      | skip
    cases ts with
    | nil => rfl
    | cons u us =>
      simp only [List.map_cons]
      have hu : u.lined.kind = u.kind := rfl
      rw [hu]
      cases escapedChar u.kind with
      | some c =>
        have := report_lined n us (intoOpen [(.other, u.loc)] st) (by simp at hlen; omega)
        rwa [← intoOpen_lined] at this
      | none =>
        have := plain .other
        simp only [List.map_cons] at this ⊢
        rw [this]; rfl

/-- Tokens of the same kinds but for words stand on the same lines. -/
theorem tiles_lined (S : Segmenter) : ∀ (ts ts' : List Token) (p p' : Pos), Tiles S p ts → Tiles S p' ts' → p.line = p'.line →
    (ts.map Token.wordless).map (·.kind) = (ts'.map Token.wordless).map (·.kind) →
    (ts.map Token.wordless).map Token.lined = (ts'.map Token.wordless).map Token.lined
  | [], ts', _, _, _, _, _, h => by
    have : ts' = [] := by simpa using h.symm
    subst this; rfl
  | t :: ts, [], _, _, _, _, _, h => by simp at h
  | t :: ts, t' :: ts', p, p', h, h', hp, hk => by
    simp only [List.map_cons, List.cons.injEq] at hk ⊢
    obtain ⟨hk, hks⟩ := hk
    obtain ⟨a1, a2, a3⟩ := h
    obtain ⟨b1, b2, b3⟩ := h'
    have hn : t.kind = .newLine ↔ t'.kind = .newLine := by
      rcases t with ⟨k, l⟩
      rcases t' with ⟨k', l'⟩
      have hk : k.wordless = k'.wordless := hk
      cases k <;> cases k' <;> simp_all [TokKind.wordless]
    refine ⟨?_, tiles_lined S ts ts' _ _ a3 b3 ?_ hks⟩
    · have hk : t.kind.wordless = t'.kind.wordless := hk
      simp only [Token.lined, Token.wordless, Loc.lined, hk, a1, a2, b1, b2, hp]
    · by_cases h : t.kind = .newLine
      · rw [if_pos h, if_pos (hn.1 h)]; simp [hp]
      · rw [if_neg h, if_neg (fun h' => h (hn.2 h')), a2, b2]; exact hp

/-- The tokens stand on the lines that follow from the line ends among them. -/
def LinesFrom : Nat → List Token → Prop
  | _, [] => True
  | n, t :: ts => t.loc.start.line = n ∧ t.loc.stop.line = n ∧ LinesFrom (if t.kind = .newLine then n + 1 else n) ts

theorem Tiles.lines {S : Segmenter} : ∀ {ts : List Token} {p : Pos}, Tiles S p ts → LinesFrom p.line ts
  | [], _, _ => trivial
  | t :: ts, p, ⟨h1, h2, h3⟩ => by
    refine ⟨by rw [h1], by rw [h2], ?_⟩
    have := Tiles.lines h3
    by_cases h : t.kind = .newLine
    · rw [if_pos h] at this ⊢; exact this
    · rw [if_neg h] at this ⊢; rw [h2] at this; exact this

theorem LinesFrom.lined : ∀ {ts ts' : List Token} {n : Nat}, LinesFrom n ts → LinesFrom n ts' →
    ts.map (·.kind) = ts'.map (·.kind) → ts.map Token.lined = ts'.map Token.lined
  | [], ts', _, _, _, h => by
    have : ts' = [] := by simpa using h.symm
    subst this; rfl
  | t :: ts, [], _, _, _, h => by simp at h
  | t :: ts, t' :: ts', n, ⟨a1, a2, a3⟩, ⟨b1, b2, b3⟩, hk => by
    simp only [List.map_cons, List.cons.injEq] at hk ⊢
    obtain ⟨hk, hks⟩ := hk
    rw [← hk] at b3
    exact ⟨by simp only [Token.lined, Loc.lined, hk, a1, a2, b1, b2], a3.lined b3 hks⟩

/-- A token that is no line end can stand twice. -/
theorem LinesFrom.double {t : Token} (ht : t.kind ≠ .newLine) {r : List Token} : ∀ {p : List Token} {n : Nat},
    LinesFrom n (p ++ t :: r) → LinesFrom n (p ++ t :: t :: r)
  | [], n, ⟨h1, h2, h3⟩ => by
    rw [if_neg ht] at h3
    exact ⟨h1, h2, by rw [if_neg ht]; exact ⟨h1, h2, by rw [if_neg ht]; exact h3⟩⟩
  | _ :: _, _, ⟨h1, h2, h3⟩ => ⟨h1, h2, h3.double ht⟩

end Brack
