import Verif.Proof.TokMore

/-
Helper lemmas: where names occur in tokenizer output.
-/

namespace Brack

/-! ### names in token lists -/

def isName : TokKind → Bool
  | .ident _ | .module _ => true
  | _ => false

/-- Every name occurs where a name is due. -/
def namesOk (due : Bool) : List Token → Bool
  | [] => true
  | t :: ts => (!isName t.kind || due) && namesOk (nameDue due [t]) ts

theorem nameDue_cons (due t ts) : nameDue due (t :: ts) = nameDue (nameDue due [t]) ts := by
  obtain ⟨k, l⟩ := t
  cases k <;> simp [nameDue]

theorem nameDue_append (due) (a b : List Token) :
    nameDue due (a ++ b) = nameDue (nameDue due a) b := by
  induction a generalizing due with
  | nil => rfl
  | cons t a ih => rw [List.cons_append, nameDue_cons, ih, ← nameDue_cons]

theorem namesOk_append (due) (a b : List Token) :
    namesOk due (a ++ b) = (namesOk due a && namesOk (nameDue due a) b) := by
  induction a generalizing due with
  | nil => simp [namesOk, nameDue]
  | cons t a ih =>
    rw [List.cons_append, namesOk, namesOk, ih, ← nameDue_cons due t a, Bool.and_assoc]

theorem emit_look (a g m) : (emit a g m).2.look = nameDue m.look (emit a g m).1 := by
  rcases a with _ | _ | (_ | _ | _) | (_ | _ | _) | _ | _ | _ | _ | _ | _ | _ <;>
    simp [emit, M.adv, M.addCount, M.single, M.pooled, nameDue]

theorem run_namesOk (gs : List Str) : ∀ m, namesOk m.look (run gs m) = true := by
  induction gs with
  | nil => intro m; simp [run, M.eof, namesOk, isName]
  | cons g gs ih =>
    intro m
    by_cases hg : g = NUL
    · simp [run, hg, M.eof, namesOk, isName]
    · simp only [run, hg, if_false]
      rw [namesOk_append, ← emit_look, ih, Bool.and_true]
      have hok := act_ok g gs m hg
      revert hok
      rcases act g gs m with _ | _ | (_ | _ | _) | (_ | _ | _) | _ | _ | _ | _ | _ | _ | _ <;>
        intro hok <;> simp [emit, M.single, M.pooled, namesOk, isName] <;>
        (rcases hl : m.look <;> simp [actOK, hl] at hok ⊢)

theorem namesOk_split {due} {pre : List Token} {t post} (h : namesOk due (pre ++ t :: post) = true)
    (ht : isName t.kind = true) : nameDue due pre = true := by
  rw [namesOk_append, Bool.and_eq_true, namesOk, Bool.and_eq_true] at h
  simpa [ht] using h.2.1

end Brack
