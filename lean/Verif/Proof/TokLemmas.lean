import Verif.Proof.Machine
import Verif.Spec.Tokens

namespace Brack

/-- The kinds of clusters the tokenizer distinguishes. -/
inductive Cl where
  | bs | lt | gt | lc | rc | lb | rb | dot | comma | sp | nl | nul | other
  deriving DecidableEq, Repr

def Cl.all : List Cl := [.bs, .lt, .gt, .lc, .rc, .lb, .rb, .dot, .comma, .sp, .nl, .nul, .other]

theorem Cl.mem_all (c : Cl) : c ∈ Cl.all := by cases c <;> decide

instance (p : Cl → Prop) [DecidablePred p] : Decidable (∀ c, p c) :=
  decidable_of_iff (∀ c ∈ Cl.all, p c) ⟨fun h c => h c c.mem_all, fun h c _ => h c⟩

def cls (g : Str) : Cl :=
  if g = ['\\'] then .bs
  else if g = ['<'] then .lt
  else if g = ['>'] then .gt
  else if g = ['{'] then .lc
  else if g = ['}'] then .rc
  else if g = ['['] then .lb
  else if g = [']'] then .rb
  else if g = ['.'] then .dot
  else if g = [','] then .comma
  else if g = [' '] then .sp
  else if g = ['\n'] then .nl
  else if g = NUL then .nul
  else .other

theorem ite_elim {p : Prop} [Decidable p] {a b c : α} (h : (if p then a else b) = c) :
    (p ∧ a = c) ∨ (¬p ∧ b = c) := by
  by_cases hp : p
  · exact .inl ⟨hp, by rwa [if_pos hp] at h⟩
  · exact .inr ⟨hp, by rwa [if_neg hp] at h⟩

local macro "cls_tac" : tactic => `(tactic|
  (constructor
   · intro h
     unfold cls at h
     iterate 12
       rcases ite_elim h with ⟨h1, h2⟩ | ⟨_, h⟩
       · first | exact h1 | cases h2
     cases h
   · intro h; subst h; decide))

theorem cls_bs (g) : cls g = .bs ↔ g = ['\\'] := by cls_tac
theorem cls_lt (g) : cls g = .lt ↔ g = ['<'] := by cls_tac
theorem cls_gt (g) : cls g = .gt ↔ g = ['>'] := by cls_tac
theorem cls_lc (g) : cls g = .lc ↔ g = ['{'] := by cls_tac
theorem cls_rc (g) : cls g = .rc ↔ g = ['}'] := by cls_tac
theorem cls_lb (g) : cls g = .lb ↔ g = ['['] := by cls_tac
theorem cls_rb (g) : cls g = .rb ↔ g = [']'] := by cls_tac
theorem cls_dot (g) : cls g = .dot ↔ g = ['.'] := by cls_tac
theorem cls_comma (g) : cls g = .comma ↔ g = [','] := by cls_tac
theorem cls_sp (g) : cls g = .sp ↔ g = [' '] := by cls_tac
theorem cls_nl (g) : cls g = .nl ↔ g = ['\n'] := by cls_tac
theorem cls_nul (g) : cls g = .nul ↔ g = NUL := by cls_tac

/-- `action` on cluster kinds. -/
def actionC (c d : Cl) (look nested : Bool) : Action :=
  if c = .bs then .backslash
  else if d = .gt ∧ look then .identifier
  else if d = .rc ∧ look then .identifier
  else if d = .rb ∧ look then .identifier
  else if c = .lt then .bopen .angle
  else if c = .gt then .bclose .angle
  else if c = .lc then .bopen .curly
  else if c = .rc then .bclose .curly
  else if c = .lb then .bopen .square
  else if c = .rb then .bclose .square
  else if c = .dot ∧ nested then .dot
  else if c = .comma ∧ nested then .comma
  else if c = .sp ∧ nested then .whitespace
  else if c = .nl then .newline
  else if d = .sp ∧ look then .identifier
  else if d = .dot ∧ look then .module
  else if d = .lt ∨ d = .lc ∨ d = .lb ∨ d = .nl ∨ d = .nul then .text
  else if d = .sp ∧ nested then .text
  else if d = .comma ∧ nested then .text
  else if d = .dot ∧ nested then .text
  else if d = .gt ∨ d = .rb ∨ d = .rc ∨ d = .bs then .text
  else .pool

theorem action_eq (g h : Str) (look nested : Bool) :
    action g h look nested = actionC (cls g) (cls h) look nested := by
  simp only [action, actionC, cls_bs, cls_lt, cls_gt, cls_lc, cls_rc, cls_lb, cls_rb, cls_dot,
    cls_comma, cls_sp, cls_nl, cls_nul]

/-- Cluster kinds at which a pooled text ends. -/
def stopC (nested : Bool) : Cl → Bool
  | .bs | .lt | .gt | .lc | .rc | .lb | .rb | .nl | .nul => true
  | .dot | .comma | .sp => nested
  | .other => false

def Action.pooling : Action → Bool
  | .identifier | .module | .text | .pool => true
  | _ => false

theorem actionC_pool (c d : Cl) (look nested : Bool) :
    actionC c d look nested = .pool → stopC nested d = false := by
  revert c d look nested; decide

theorem actionC_stop (c d : Cl) (look nested : Bool) :
    stopC nested c = false → (actionC c d look nested).pooling = true := by
  revert c d look nested; decide

/-- Kinds of the cluster following an identifier. -/
def Cl.isIdentEnd : Cl → Bool
  | .gt | .rc | .rb | .sp => true
  | _ => false

/-- What an action says about the cluster it treats and the following one. -/
def actOK (c d : Cl) (look nested : Bool) : Action → Bool
  | .backslash => c == .bs
  | .identifier => look && d.isIdentEnd && c != .bs
  | .bopen .angle => c == .lt
  | .bopen .curly => c == .lc
  | .bopen .square => c == .lb
  | .bclose .angle => c == .gt
  | .bclose .curly => c == .rc
  | .bclose .square => c == .rb
  | .dot => c == .dot && nested
  | .comma => c == .comma && nested
  | .whitespace => c == .sp && nested
  | .newline => c == .nl
  | .module => look && d == .dot && !stopC nested c
  | .text => stopC nested d && !stopC nested c
  | .pool => !stopC nested d && !stopC nested c

theorem actionC_ok (c d : Cl) (look nested : Bool) :
    c ≠ .nul → actOK c d look nested (actionC c d look nested) = true := by
  revert c d look nested; decide

/-- Invariant: a non-empty pool means that the next cluster does not stop it. -/
def PoolOK (gs : List Str) (m : M) : Prop :=
  m.pool ≠ [] → stopC m.nested (cls (gs.headD NUL)) = false

theorem act_ok (g gs m) (hg : g ≠ NUL) :
    actOK (cls g) (cls (gs.headD NUL)) m.look m.nested (act g gs m) = true := by
  unfold act
  rw [action_eq]
  exact actionC_ok _ _ _ _ (by rwa [Ne, cls_nul])

theorem act_pooling (g gs m) (hp : PoolOK (g :: gs) m) (hne : m.pool ≠ []) :
    (act g gs m).pooling = true := by
  unfold act
  rw [action_eq]
  exact actionC_stop _ _ _ _ (hp hne)

/-- Outside pooling actions the pool is empty. -/
theorem pool_nil (g gs m) (hp : PoolOK (g :: gs) m) (h : (act g gs m).pooling = false) :
    m.pool = [] := by
  apply Classical.byContradiction
  intro hne
  simp [act_pooling g gs m hp hne] at h

theorem emit_poolOK (g gs m) (hg : g ≠ NUL) (hp : PoolOK (g :: gs) m) :
    PoolOK gs (emit (act g gs m) g m).2 := by
  have h1 := act_ok g gs m hg
  have h2 := pool_nil g gs m hp
  revert h1 h2
  rcases act g gs m with _ | _ | (_ | _ | _) | (_ | _ | _) | _ | _ | _ | _ | _ | _ | _ <;>
    intro h1 h2 <;> simp_all [emit, PoolOK, M.adv, M.addCount, actOK, Action.pooling, M.nested]

/-- Every action adds the cluster it treats to the spelling. -/
theorem emit_spell (g gs m) (hg : g ≠ NUL) (hp : PoolOK (g :: gs) m) :
    spell (emit (act g gs m) g m).1 ++ (emit (act g gs m) g m).2.pool = m.pool ++ g := by
  have h1 := act_ok g gs m hg
  have h2 := pool_nil g gs m hp
  revert h1 h2
  rcases act g gs m with _ | _ | (_ | _ | _) | (_ | _ | _) | _ | _ | _ | _ | _ | _ | _ <;>
    intro h1 h2 <;>
    simp_all [emit, M.adv, M.addCount, actOK, Action.pooling, spell, M.single, M.pooled,
      TokKind.spelling, Bracket.openChar, Bracket.closeChar, cls_bs, cls_lt, cls_gt, cls_lc, cls_rc,
      cls_lb, cls_rb, cls_dot, cls_comma, cls_sp, cls_nl]

theorem spell_append (a b : List Token) : spell (a ++ b) = spell a ++ spell b := by
  simp [spell]

theorem spell_cons (a : Token) (b : List Token) : spell (a :: b) = a.kind.spelling ++ spell b := by
  simp [spell]

/-- At the end of the input the pool is empty. -/
theorem poolOK_end (gs m) (hp : PoolOK gs m) (h : gs.headD NUL = NUL) : m.pool = [] := by
  apply Classical.byContradiction
  intro hne
  have := hp hne
  rw [h] at this
  revert this
  have : cls NUL = .nul := by rw [cls_nul]
  rw [this]; simp [stopC]

theorem run_spell (gs : List Str) : ∀ m, PoolOK gs m →
    spell (run gs m) = m.pool ++ (gs.takeWhile (· ≠ NUL)).flatten := by
  induction gs with
  | nil =>
    intro m hp
    simp [run, spell, M.eof, TokKind.spelling, poolOK_end [] m hp rfl]
  | cons g gs ih =>
    intro m hp
    by_cases hg : g = NUL
    · simp [run, hg, spell, M.eof, TokKind.spelling, poolOK_end (g :: gs) m hp (by simp [hg])]
    · simp only [run, hg, if_false, spell_append, ih _ (emit_poolOK g gs m hg hp)]
      rw [← List.append_assoc, emit_spell g gs m hg hp]
      simp [hg]

theorem poolOK_init (gs) : PoolOK gs M.init := by simp [PoolOK, M.init]

/-- Shape of the result: tokens that are neither EOF nor Empty, then one EOF. -/
theorem run_shape (gs : List Str) : ∀ m, ∃ body eof, run gs m = body ++ [eof] ∧
    eof.kind = .eof ∧ ∀ t ∈ body, t.kind ≠ .eof ∧ t.kind ≠ .empty := by
  induction gs with
  | nil => intro m; exact ⟨[], m.eof, by simp [run], rfl, by simp⟩
  | cons g gs ih =>
    intro m
    by_cases hg : g = NUL
    · exact ⟨[], m.eof, by simp [run, hg], rfl, by simp⟩
    · obtain ⟨body, eof, h1, h2, h3⟩ := ih (emit (act g gs m) g m).2
      refine ⟨(emit (act g gs m) g m).1 ++ body, eof, ?_, h2, ?_⟩
      · simp [run, hg, h1]
      · intro t ht
        rcases List.mem_append.1 ht with h | h
        · revert h
          rcases act g gs m <;> intro h <;> simp [emit, M.single, M.pooled] at h <;> simp [h]
        · exact h3 t h

end Brack
