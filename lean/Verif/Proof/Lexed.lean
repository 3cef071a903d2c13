import Verif.Spec.Lexed
import Verif.Proof.TokMore

/-
The machine emits the tokens of `lexed`.
-/

namespace Brack

/-- `signKind` on cluster kinds. -/
def signC (inside : Bool) : Cl → Option TokKind
  | .bs => some .backSlash
  | .lt => some (.bopen .angle)
  | .gt => some (.bclose .angle)
  | .lc => some (.bopen .curly)
  | .rc => some (.bclose .curly)
  | .lb => some (.bopen .square)
  | .rb => some (.bclose .square)
  | .nl => some .newLine
  | .dot => if inside then some .dot else none
  | .comma => if inside then some .comma else none
  | .sp => if inside then some .whiteSpace else none
  | .nul | .other => none

def closerC : Cl → Bool
  | .gt | .rc | .rb => true
  | _ => false

def endsC (inside due : Bool) (c : Cl) : Bool :=
  (signC inside c).isSome || c == .nul || (due && (c == .dot || c == .sp))

/-- The action for a sign. -/
def TokKind.signAction : TokKind → Action
  | .backSlash => .backslash
  | .bopen b => .bopen b
  | .bclose b => .bclose b
  | .newLine => .newline
  | .dot => .dot
  | .comma => .comma
  | .whiteSpace => .whitespace
  | _ => .pool

/-- The action at the end of a word. -/
def wordAction (due : Bool) (d : Cl) : Action :=
  if due ∧ (d = .sp ∨ closerC d) then .identifier
  else if due ∧ d = .dot then .module
  else .text

theorem signKind_cls (inside : Bool) (g : Str) : signKind inside g = signC inside (cls g) := by
  unfold cls
  by_cases h1 : g = ['\\']; · subst h1; rfl
  by_cases h2 : g = ['<']; · subst h2; rfl
  by_cases h3 : g = ['>']; · subst h3; rfl
  by_cases h4 : g = ['{']; · subst h4; rfl
  by_cases h5 : g = ['}']; · subst h5; rfl
  by_cases h6 : g = ['[']; · subst h6; rfl
  by_cases h7 : g = [']']; · subst h7; rfl
  by_cases h8 : g = ['\n']; · subst h8; rfl
  by_cases h9 : g = ['.']; · subst h9; cases inside <;> rfl
  by_cases h10 : g = [',']; · subst h10; cases inside <;> rfl
  by_cases h11 : g = [' ']; · subst h11; cases inside <;> rfl
  simp only [signKind, h1, h2, h3, h4, h5, h6, h7, h8, h9, h10, h11, if_false, and_false]
  by_cases h12 : g = NUL
  · rw [if_pos h12]; rfl
  · rw [if_neg h12]; rfl

theorem beq_cls {g h : Str} {c : Cl} (hc : cls g = c ↔ g = h) : (g == h) = (cls g == c) := by
  rw [Bool.eq_iff_iff, beq_iff_eq, beq_iff_eq, hc]

theorem isCloser_cls (g : Str) : isCloser g = closerC (cls g) := by
  rw [isCloser, beq_cls (cls_gt g), beq_cls (cls_rc g), beq_cls (cls_rb g)]
  cases cls g <;> rfl

theorem endsWord_cls (inside due : Bool) (g : Str) :
    endsWord inside due g = endsC inside due (cls g) := by
  rw [endsWord, endsC, signKind_cls, beq_cls (cls_dot g), beq_cls (cls_sp g)]
  have : (g == [Char.ofNat 0]) = (cls g == .nul) := beq_cls (cls_nul g)
  rw [this]

theorem wordKind_cls (due : Bool) (next w : Str) :
    wordKind due next w =
      if due ∧ (cls next = .sp ∨ closerC (cls next)) then .ident w
      else if due ∧ cls next = .dot then .module w else .text w := by
  simp only [wordKind, isCloser_cls, cls_sp, cls_dot]

/-- The table of `dispatch` in terms of signs and words. -/
theorem actionC_lexed (c d : Cl) (look nested : Bool) : c ≠ .nul →
    actionC c d look nested =
      match (if look ∧ closerC d ∧ c ≠ .bs then none else signC nested c) with
      | some k => k.signAction
      | none => if endsC nested look d then wordAction look d else .pool := by
  revert c d look nested; decide

theorem actionC_wordgoes (c d : Cl) (look nested : Bool) : endsC nested look c = false →
    actionC c d look nested =
      if endsC nested look d then wordAction look d else .pool := by
  revert c d look nested; decide

theorem signC_mem (nested : Bool) (c : Cl) (k : TokKind) (h : signC nested c = some k) :
    ∃ a, k.signAction = a ∧ ((a = .backslash ∧ k = .backSlash) ∨ (∃ b, a = .bopen b ∧ k = .bopen b) ∨
      (∃ b, a = .bclose b ∧ k = .bclose b) ∨ (a = .newline ∧ k = .newLine) ∨ (a = .dot ∧ k = .dot) ∨
      (a = .comma ∧ k = .comma) ∨ (a = .whitespace ∧ k = .whiteSpace)) := by
  refine ⟨_, rfl, ?_⟩
  cases c <;> cases nested <;> simp [signC] at h <;> subst h <;> simp [TokKind.signAction]

theorem nested_nest (m : M) : m.nested = decide (m.nest > 0) := rfl

theorem isCloser_headD (gs : List Str) : isCloser (gs.headD []) = isCloser (gs.headD NUL) := by
  cases gs <;> rfl

theorem wordKind_headD (due : Bool) (gs : List Str) (w : Str) :
    wordKind due (gs.headD []) w = wordKind due (gs.headD NUL) w := by
  cases gs with
  | nil => cases due <;> rfl
  | cons g gs => rfl

/-- The kinds of the tokens the machine emits. -/
def runKinds (gs : List Str) (m : M) : List TokKind := (run gs m).map (·.kind)

theorem runKinds_cons (g : Str) (gs : List Str) (m : M) (hg : g ≠ NUL) :
    runKinds (g :: gs) m =
      (emit (act g gs m) g m).1.map (·.kind) ++ runKinds gs (emit (act g gs m) g m).2 := by
  simp [runKinds, run, hg]

/-- A sign is one token. -/
theorem emit_sign (g : Str) (m : M) (nested : Bool) (c : Cl) (k : TokKind)
    (h : signC nested c = some k) (hp : m.pool = []) :
    (emit k.signAction g m).1.map (·.kind) = [k] ∧
      (emit k.signAction g m).2.pool = [] ∧
      (emit k.signAction g m).2.nest = m.nest + k.turn ∧
      (emit k.signAction g m).2.look = k.leavesDue m.look := by
  obtain ⟨a, -, h | ⟨b, h⟩ | ⟨b, h⟩ | h | h | h | h⟩ := signC_mem nested c k h <;>
    obtain ⟨-, rfl⟩ := h <;>
    first
    | (cases b <;> refine ⟨rfl, rfl, ?_, rfl⟩ <;>
        simp only [TokKind.signAction, emit, M.adv, M.addCount, M.nest, TokKind.turn] <;> omega)
    | exact ⟨rfl, by simp [TokKind.signAction, emit, M.adv, hp],
        by simp [TokKind.signAction, emit, M.adv, M.nest, TokKind.turn], rfl⟩

/-- The end of a word. -/
theorem emit_word (g : Str) (gs : List Str) (m : M) :
    let a := wordAction m.look (cls (gs.headD NUL))
    let k := wordKind m.look (gs.headD []) (m.pool ++ g)
    (emit a g m).1.map (·.kind) = [k] ∧
      (emit a g m).2.pool = [] ∧ (emit a g m).2.nest = m.nest ∧
      (emit a g m).2.look = k.leavesDue m.look := by
  intro a k
  have hk : k = _ := (wordKind_headD m.look gs (m.pool ++ g)).trans (wordKind_cls _ _ _)
  have ha : a = if m.look ∧ (cls (gs.headD NUL) = .sp ∨ closerC (cls (gs.headD NUL))) then
      .identifier else if m.look ∧ cls (gs.headD NUL) = .dot then .module else .text := rfl
  by_cases h1 : m.look ∧ (cls (gs.headD NUL) = .sp ∨ closerC (cls (gs.headD NUL)))
  · rw [if_pos h1] at ha hk
    rw [ha, hk]
    exact ⟨rfl, rfl, rfl, rfl⟩
  · rw [if_neg h1] at ha hk
    by_cases h2 : m.look ∧ cls (gs.headD NUL) = .dot
    · rw [if_pos h2] at ha hk
      rw [ha, hk]
      exact ⟨rfl, rfl, rfl, rfl⟩
    · rw [if_neg h2] at ha hk
      rw [ha, hk]
      exact ⟨rfl, rfl, rfl, rfl⟩

/-- The rest of a word, and what follows. -/
def restOf (m : M) (gs : List Str) : List TokKind :=
  let rest := gs.dropWhile fun c => !endsWord m.nested m.look c
  let word := gs.takeWhile fun c => !endsWord m.nested m.look c
  let k := wordKind m.look (rest.headD []) (m.pool ++ word.flatten)
  k :: lexed m.nest (k.leavesDue m.look) rest

theorem lexed_cons (m : M) (g : Str) (gs : List Str) (hg : g ≠ NUL) :
    lexed m.nest m.look (g :: gs) =
      match (if m.look ∧ closerC (cls (gs.headD NUL)) ∧ cls g ≠ .bs then none
        else signC m.nested (cls g)) with
      | some k => k :: lexed (m.nest + k.turn) (k.leavesDue m.look) gs
      | none => restOf { m with pool := g } gs := by
  have hn : g ≠ [Char.ofNat 0] := hg
  have hb : g ≠ ['\\'] ↔ cls g ≠ .bs := by rw [Ne, Ne, cls_bs]
  have key : (if m.look ∧ isCloser (gs.headD []) ∧ g ≠ ['\\'] then none
      else signKind (decide (m.nest > 0)) g) =
      (if m.look ∧ closerC (cls (gs.headD NUL)) ∧ cls g ≠ .bs then none
        else signC m.nested (cls g)) := by
    rw [isCloser_headD]
    simp only [← nested_nest, isCloser_cls, signKind_cls, hb]
  rw [lexed, if_neg hn, key]
  rcases (if m.look ∧ closerC (cls (gs.headD NUL)) ∧ cls g ≠ .bs then none
    else signC m.nested (cls g)) with _ | k <;> rfl

theorem endsC_next (m : M) (gs : List Str) (h : endsC m.nested m.look (cls (gs.headD NUL)) = true)
    (w : Str) :
    restOf { m with pool := w } gs =
      wordKind m.look (gs.headD []) w ::
        lexed m.nest ((wordKind m.look (gs.headD []) w).leavesDue m.look) gs := by
  have h1 : gs.dropWhile (fun c => !endsWord m.nested m.look c) = gs := by
    cases gs with
    | nil => rfl
    | cons g gs =>
      simp only [List.headD_cons, ← endsWord_cls] at h
      simp [List.dropWhile_cons, h]
  have h2 : gs.takeWhile (fun c => !endsWord m.nested m.look c) = [] := by
    cases gs with
    | nil => rfl
    | cons g gs =>
      simp only [List.headD_cons, ← endsWord_cls] at h
      simp [List.takeWhile_cons, h]
  show (let rest := gs.dropWhile fun c => !endsWord m.nested m.look c
        let word := gs.takeWhile fun c => !endsWord m.nested m.look c
        let k := wordKind m.look (rest.headD []) (w ++ word.flatten)
        k :: lexed m.nest (k.leavesDue m.look) rest) = _
  simp [h1, h2]

theorem restOf_cons (m : M) (g : Str) (gs : List Str) (h : endsWord m.nested m.look g = false) :
    restOf m (g :: gs) = restOf { m with pool := m.pool ++ g } gs := by
  have h1 : (g :: gs).dropWhile (fun c => !endsWord m.nested m.look c) =
      gs.dropWhile (fun c => !endsWord m.nested m.look c) := by
    simp [List.dropWhile_cons, h]
  have h2 : (g :: gs).takeWhile (fun c => !endsWord m.nested m.look c) =
      g :: gs.takeWhile (fun c => !endsWord m.nested m.look c) := by
    simp [List.takeWhile_cons, h]
  unfold restOf
  rw [h1, h2]
  simp only [List.flatten_cons, List.append_assoc]
  rfl

theorem emit_pool_kinds (g : Str) (m : M) :
    (emit .pool g m).1 = [] ∧ (emit .pool g m).2.pool = m.pool ++ g ∧
      (emit .pool g m).2.nest = m.nest ∧ (emit .pool g m).2.look = m.look ∧
      (emit .pool g m).2.nested = m.nested := ⟨rfl, rfl, rfl, rfl, rfl⟩

theorem restOf_congr (m m' : M) (gs : List Str) (h1 : m.pool = m'.pool) (h2 : m.nest = m'.nest)
    (h3 : m.look = m'.look) : restOf m gs = restOf m' gs := by
  simp only [restOf, nested_nest, h1, h2, h3]

theorem run_lexed (gs : List Str) :
    (∀ m : M, m.pool = [] → runKinds gs m = lexed m.nest m.look gs) ∧
    (∀ m : M, endsWord m.nested m.look (gs.headD NUL) = false → runKinds gs m = restOf m gs) := by
  induction gs with
  | nil =>
    refine ⟨fun m _ => by simp [runKinds, run, M.eof, lexed], fun m h => ?_⟩
    rw [List.headD_nil, endsWord_cls] at h
    exfalso
    revert h
    generalize m.nested = a
    generalize m.look = b
    revert a b
    decide
  | cons g gs ih =>
    obtain ⟨ihA, ihB⟩ := ih
    -- the end of a word, or one more character of it
    have word : ∀ m : M, g ≠ NUL → act g gs m =
        (if endsC m.nested m.look (cls (gs.headD NUL)) then wordAction m.look (cls (gs.headD NUL))
          else .pool) →
        runKinds (g :: gs) m = restOf { m with pool := m.pool ++ g } gs := by
      intro m hg ha
      rw [runKinds_cons g gs m hg, ha]
      by_cases he : endsC m.nested m.look (cls (gs.headD NUL)) = true
      · rw [if_pos he]
        obtain ⟨h1, h2, h3, h4⟩ := emit_word g gs m
        rw [h1, ihA _ h2, h3, h4, endsC_next m gs he]
        rfl
      · rw [if_neg he]
        obtain ⟨h1, h2, h3, h4, h5⟩ := emit_pool_kinds g m
        have he' : endsWord m.nested m.look (gs.headD NUL) = false := by
          rw [endsWord_cls]; simpa using he
        rw [h1, ihB _ (by rw [h5, h4]; exact he')]
        rw [List.map_nil, List.nil_append]
        exact restOf_congr _ _ _ h2 h3 h4
    constructor
    · intro m hp
      by_cases hg : g = NUL
      · subst hg
        rw [lexed, if_pos (show NUL = [Char.ofNat 0] from rfl)]
        simp [runKinds, run, M.eof]
      · have hc : cls g ≠ .nul := by rw [Ne, cls_nul]; exact hg
        have ha : act g gs m = _ := action_eq g (gs.headD NUL) m.look m.nested
        rw [actionC_lexed _ _ _ _ hc] at ha
        rw [lexed_cons m g gs hg]
        rcases hx : (if m.look ∧ closerC (cls (gs.headD NUL)) ∧ cls g ≠ .bs then none
          else signC m.nested (cls g)) with _ | k
        · rw [hx] at ha
          simp only at ha ⊢
          rw [word m hg ha, hp]
          rfl
        · rw [hx] at ha
          simp only at ha ⊢
          have hs : signC m.nested (cls g) = some k := by
            rcases ite_elim hx with ⟨-, h⟩ | ⟨-, h⟩
            · cases h
            · exact h
          obtain ⟨h1, h2, h3, h4⟩ := emit_sign g m _ _ k hs hp
          rw [runKinds_cons g gs m hg, ha, h1, ihA _ h2, h3, h4]
          rfl
    · intro m he
      simp only [List.headD_cons] at he
      have he' := he
      rw [endsWord_cls] at he'
      have hg : g ≠ NUL := by
        rintro rfl
        revert he'
        generalize m.nested = a
        generalize m.look = b
        revert a b
        decide
      have ha : act g gs m = _ := action_eq g (gs.headD NUL) m.look m.nested
      rw [actionC_wordgoes _ _ _ _ he'] at ha
      rw [word m hg ha, restOf_cons m g gs he]

/-- Tokens that tile the text are determined by their kinds. -/
theorem tiles_unique (S : Segmenter) : ∀ (a b : List Token) (p : Pos), Tiles S p a → Tiles S p b →
    a.map (·.kind) = b.map (·.kind) → a = b := by
  intro a
  induction a with
  | nil => intro b p _ _ h; cases b <;> simp_all
  | cons x a ih =>
    intro b p ha hb h
    cases b with
    | nil => simp at h
    | cons y b =>
      simp only [List.map_cons, List.cons.injEq] at h
      obtain ⟨hk, h⟩ := h
      obtain ⟨ha1, ha2, ha3⟩ := ha
      obtain ⟨hb1, hb2, hb3⟩ := hb
      have hstop : x.loc.stop = y.loc.stop := by rw [ha2, hb2, hk]
      have hxy : x = y := by
        rcases x with ⟨k, s, e⟩
        rcases y with ⟨k', s', e'⟩
        simp only at hk ha1 hb1 hstop
        subst hk; subst ha1; subst hstop; subst hb1
        rfl
      subst hxy
      rw [ih b _ ha3 hb3 h]

end Brack
