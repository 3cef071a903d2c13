import Verif.Model.Tokenizer

/-
The tokenizer as a machine over the list of clusters, and the proof that `tokenizeStr` is this
machine. All tokenizer properties are proved about `run` and transported by `tokenizeStr_eq`.
-/

namespace Brack

/-- The tokenizer state with all fields set, without tokens and remaining text. -/
structure M where
  line : Nat
  col : Nat
  tsl : Nat
  tsc : Nat
  pool : Str
  angle : Int
  square : Int
  curly : Int
  look : Bool
  deriving Repr, DecidableEq

namespace M

def init : M := ⟨0, 0, 0, 0, [], 0, 0, 0, false⟩

def nested (m : M) : Bool := decide (m.angle + m.curly + m.square > 0)

def eof (m : M) : Token := ⟨.eof, ⟨⟨m.line, m.col⟩, ⟨m.line, m.col⟩⟩⟩

/-- one-cluster token at the current column -/
def single (m : M) (k : TokKind) : Token := ⟨k, ⟨⟨m.line, m.col⟩, ⟨m.line, m.col + 1⟩⟩⟩

/-- token for the pool extended by `g` -/
def pooled (m : M) (mk : Str → TokKind) (g : Str) : Token :=
  ⟨mk (m.pool ++ g), ⟨⟨m.tsl, m.tsc⟩, ⟨m.line, m.col + 1⟩⟩⟩

def adv (m : M) : M := { m with col := m.col + 1, tsc := m.col + 1, pool := [] }

def addCount (m : M) (b : Bracket) (d : Int) : M :=
  match b with
  | .angle => { m with angle := m.angle + d }
  | .curly => { m with curly := m.curly + d }
  | .square => { m with square := m.square + d }

end M

/-- Tokens emitted and next state. -/
def emit (a : Action) (g : Str) (m : M) : List Token × M :=
  match a with
  | .backslash => ([m.single .backSlash], { m with col := m.col + 1, tsc := m.col + 1 })
  | .identifier => ([m.pooled .ident g], { m.adv with look := false })
  | .bopen b => ([m.single (.bopen b)], { m.adv.addCount b 1 with look := true })
  | .bclose b => ([m.single (.bclose b)], m.adv.addCount b (-1))
  | .dot => ([m.single .dot], m.adv)
  | .comma => ([m.single .comma], m.adv)
  | .whitespace => ([m.single .whiteSpace], m.adv)
  | .newline =>
    ([m.single .newLine],
      { m with line := m.line + 1, col := 0, tsl := m.line + 1, tsc := 0, pool := [] })
  | .module => ([m.pooled .module g], m.adv)
  | .text => ([m.pooled .text g], m.adv)
  | .pool => ([], { m with col := m.col + 1, pool := m.pool ++ g })

/-- The action taken on cluster `g` when `gs` follow. -/
def act (g : Str) (gs : List Str) (m : M) : Action := action g (gs.headD NUL) m.look m.nested

def run : List Str → M → List Token
  | [], m => [m.eof]
  | g :: gs, m =>
    if g = NUL then [m.eof]
    else (emit (act g gs m) g m).1 ++ run gs (emit (act g gs m) g m).2

/-- The `Tokenizer` represented by a machine state. -/
def toT (toks : List Token) (s : Str) (m : M) : Tokenizer where
  line := some m.line
  column := some m.col
  tokenStartLine := some m.tsl
  tokenStartColumn := some m.tsc
  untreated := some s
  pool := some m.pool
  tokens := some toks
  angleNestCount := some m.angle
  squareNestCount := some m.square
  curlyNestCount := some m.curly
  lookingForIdentifier := some m.look

theorem separate_nil (S : Segmenter) (s : Str) (h : S.graphemes s = []) :
    separate S s = (NUL, []) := by
  simp [separate, h]

theorem separate_cons (S : Segmenter) (s g gs) (h : S.graphemes s = g :: gs) :
    separate S s = (g, gs.flatten) := by
  rcases gs with _ | ⟨g2, gs⟩ <;> simp [separate, h]

theorem separate_fst (S : Segmenter) (s gs) (h : S.graphemes s = gs) :
    (separate S s).1 = gs.headD NUL := by
  rcases gs with _ | ⟨g2, gs⟩
  · simp [separate_nil S s h]
  · simp [separate_cons S s _ _ h]

theorem step_stop (S : Segmenter) (s toks m) (h : (separate S s).1 = NUL) :
    step S (toT toks s m) = .ok (.inl (toks ++ [m.eof])) := by
  simp [step, toT, field, Bind.bind, Res.bind, pure, h, M.eof]

theorem step_cons (S : Segmenter) (s toks m g gs) (h : S.graphemes s = g :: gs) (hg : g ≠ NUL) :
    step S (toT toks s m) =
      .ok (.inr (toT (toks ++ (emit (act g gs m) g m).1) gs.flatten (emit (act g gs m) g m).2)) := by
  have hs := separate_cons S s g gs h
  have h2 := separate_fst S gs.flatten gs (S.suffix s g gs h)
  simp only [step, toT, field, Bind.bind, Res.bind, pure, hs, h2, hg, if_false]
  simp only [act, M.nested]
  generalize action _ _ _ _ = a
  rcases a with _ | _ | (_ | _ | _) | (_ | _ | _) | _ | _ | _ | _ | _ | _ | _ <;>
    simp [tokBackslash, tokIdentifier, tokOpen, tokClose, pushSep, tokNewline, tokModule,
      tokText, tokPool, pushPool, getCount, withCount, field, Bind.bind, Res.bind, pure,
      Tokenizer.merge, emit, M.single, M.pooled, M.adv, M.addCount, hs]
  all_goals omega

theorem dispatch_eq (S : Segmenter) (gs : List Str) : ∀ (s toks m), S.graphemes s = gs →
    dispatch S (toT toks s m) = .ok (toks ++ run gs m) := by
  induction gs with
  | nil =>
    intro s toks m h
    have := step_stop S s toks m (by simp [separate_nil S s h])
    rw [dispatch]
    split <;> simp_all [run]
  | cons g gs ih =>
    intro s toks m h
    rw [dispatch]
    by_cases hg : g = NUL
    · have := step_stop S s toks m (by simp [separate_cons S s _ _ h, hg])
      split <;> simp_all [run]
    · have h1 := step_cons S s toks m g gs h hg
      have h2 := ih gs.flatten (toks ++ (emit (act g gs m) g m).1) (emit (act g gs m) g m).2
        (S.suffix s g gs h)
      split <;> simp_all [run]

/-- The tokenizer always succeeds and its result is that of the machine. -/
theorem tokenizeStr_eq (S : Segmenter) (text : Str) :
    tokenizeStr S text = .ok (run (S.graphemes text) M.init) :=
  dispatch_eq S _ text [] M.init rfl

end Brack
