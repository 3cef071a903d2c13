import Verif.Model.Transform
import Verif.Spec.Ast

/-
Helper lemmas about the last step of `transform` (CST to AST): when it panics, and what it keeps.
-/

namespace Brack

/-- Leaves `aux` accepts. -/
def LKind.inAst : LKind → Bool
  | .ident _ | .module _ | .text _ | .invalid => true
  | _ => false

mutual

/-- Trees on which `aux` does not panic. -/
def CST.astable : CST → Bool
  | .leaf k _ => k.inAst
  | .node k cs _ => k.toAst.isSome && CST.astableL cs

def CST.astableL : List CST → Bool
  | [] => true
  | c :: cs => c.astable && CST.astableL cs

end

theorem astableL_iff {cs : List CST} : CST.astableL cs = true ↔ ∀ c ∈ cs, c.astable = true := by
  induction cs with
  | nil => simp [CST.astableL]
  | cons c cs ih => simp [CST.astableL, ih]

/-- What a leaf becomes. -/
def LKind.content (l : Loc) : LKind → List Content
  | .ident v => [⟨.ident, some v, l⟩]
  | .module v => [⟨.module, some v, l⟩]
  | .text v => [⟨.text, some v, l⟩]
  | .invalid => [⟨.invalid, none, l⟩]
  | _ => []

mutual

/-- The leaves that survive, left to right. -/
def CST.cont : CST → List Content
  | .leaf k l => k.content l
  | .node _ cs _ => CST.contL cs

def CST.contL : List CST → List Content
  | [] => []
  | c :: cs => c.cont ++ CST.contL cs

end

/-- What a leaf becomes, without its range. -/
def LKind.sshape : LKind → Shape
  | .ident v => .leaf .ident (some v)
  | .module v => .leaf .module (some v)
  | .text v => .leaf .text (some v)
  | _ => .leaf .invalid none

mutual

/-- The shape of the result of `aux`. -/
def CST.sshape : CST → Shape
  | .leaf k _ => k.sshape
  | .node k cs _ => .node (k.toAst.getD .document) (CST.sshapeL cs)

def CST.sshapeL : List CST → List Shape
  | [] => []
  | c :: cs => c.sshape :: CST.sshapeL cs

end

theorem sshapeL_eq (cs : List CST) : CST.sshapeL cs = cs.map CST.sshape := by
  induction cs with
  | nil => rfl
  | cons c cs ih => simp [CST.sshapeL, ih]

theorem contL_append (cs ds : List CST) : CST.contL (cs ++ ds) = CST.contL cs ++ CST.contL ds := by
  induction cs with
  | nil => rfl
  | cons c cs ih => simp [CST.contL, ih]

theorem contL_eq (cs : List CST) : CST.contL cs = cs.flatMap CST.cont := by
  induction cs with
  | nil => rfl
  | cons c cs ih => simp [CST.contL, ih]

/-- The node identifiers of a tree created while the supply moves from `n` to `m`. -/
def IdsFrom (ids : Nat → Str) (n m : Nat) (ns : List AST) : Prop :=
  n ≤ m ∧ (∀ a ∈ ns, ∃ j, n ≤ j ∧ j < m ∧ a.id = ids j) ∧
    ((∀ i j, ids i = ids j → i = j) → (ns.map AST.id).Nodup)

theorem IdsFrom.append {ids n m k ns ms} (h1 : IdsFrom ids n m ns) (h2 : IdsFrom ids m k ms) :
    IdsFrom ids n k (ns ++ ms) := by
  obtain ⟨a1, a2, a3⟩ := h1
  obtain ⟨b1, b2, b3⟩ := h2
  refine ⟨by omega, ?_, ?_⟩
  · intro a ha
    rcases List.mem_append.mp ha with ha | ha
    · obtain ⟨j, h1, h2, h3⟩ := a2 a ha; exact ⟨j, h1, by omega, h3⟩
    · obtain ⟨j, h1, h2, h3⟩ := b2 a ha; exact ⟨j, by omega, h2, h3⟩
  · intro inj
    rw [List.map_append, List.nodup_append]
    refine ⟨a3 inj, b3 inj, ?_⟩
    intro x hx y hy hxy
    obtain ⟨a, ha, rfl⟩ := List.mem_map.mp hx
    obtain ⟨b, hb, rfl⟩ := List.mem_map.mp hy
    obtain ⟨i, _, h2, h3⟩ := a2 a ha
    obtain ⟨j, h4, _, h6⟩ := b2 b hb
    have := inj i j (by rw [← h3, ← h6, hxy])
    omega

theorem IdsFrom.leaf {ids n k v l} : IdsFrom ids n (n + 1) [.leaf k (ids n) v l] :=
  ⟨by omega, by simpa [AST.id] using ⟨n, by omega, by omega, rfl⟩, fun _ => by simp⟩

theorem IdsFrom.node {ids n m k cs l} (h : IdsFrom ids n m (AST.nodesL cs)) :
    IdsFrom ids n (m + 1) (.node k (ids m) cs l :: AST.nodesL cs) := by
  obtain ⟨a1, a2, a3⟩ := h
  refine ⟨by omega, ?_, ?_⟩
  · intro a ha
    rcases List.mem_cons.mp ha with rfl | ha
    · exact ⟨m, a1, by omega, rfl⟩
    · obtain ⟨j, h1, h2, h3⟩ := a2 a ha; exact ⟨j, h1, by omega, h3⟩
  · intro inj
    rw [List.map_cons, List.nodup_cons]
    refine ⟨?_, a3 inj⟩
    intro hm
    obtain ⟨b, hb, hbe⟩ := List.mem_map.mp hm
    obtain ⟨j, _, h5, h6⟩ := a2 b hb
    have := inj j m (by rw [← h6, hbe]; rfl)
    omega

/-- Everything there is to know about `aux`. -/
structure AuxSpec (ids : Nat → Str) (n : Nat) (c : CST) (a : AST) (m : Nat) : Prop where
  shape : a.shape = c.sshape
  contents : a.contents = c.cont
  loc : a.loc = c.loc
  ids : IdsFrom ids n m a.nodes

structure AuxSpecL (ids : Nat → Str) (n : Nat) (cs : List CST) (as : List AST) (m : Nat) : Prop where
  shape : AST.shapeL as = CST.sshapeL cs
  contents : AST.contentsL as = CST.contL cs
  ids : IdsFrom ids n m (AST.nodesL as)

mutual

theorem aux_ok (ids : Nat → Str) : ∀ (c : CST) (n : Nat), c.astable = true →
    ∃ a m, aux ids n c = .ok (a, m) ∧ AuxSpec ids n c a m
  | .leaf k l, n, h => by
    cases k <;> simp [CST.astable, LKind.inAst] at h <;>
      exact ⟨_, _, by rw [aux], rfl, rfl, rfl, .leaf⟩
  | .node k cs l, n, h => by
    simp only [CST.astable, Bool.and_eq_true, Option.isSome_iff_exists] at h
    obtain ⟨⟨k', hk⟩, h⟩ := h
    obtain ⟨as, m, h1, h2⟩ := auxL_ok ids cs n h
    refine ⟨.node k' (ids m) as l, m + 1, ?_, ?_, ?_, rfl, ?_⟩
    · rw [aux]; simp only [hk, h1]
    · simp [AST.shape, CST.sshape, hk, h2.shape]
    · simp [AST.contents, CST.cont, h2.contents]
    · rw [AST.nodes]; exact h2.ids.node

theorem auxL_ok (ids : Nat → Str) : ∀ (cs : List CST) (n : Nat), CST.astableL cs = true →
    ∃ as m, auxL ids n cs = .ok (as, m) ∧ AuxSpecL ids n cs as m
  | [], n, _ => ⟨[], n, by rw [auxL], rfl, rfl, by simp, by simp [AST.nodesL], by simp [AST.nodesL]⟩
  | c :: cs, n, h => by
    simp only [CST.astableL, Bool.and_eq_true] at h
    obtain ⟨a, m, h1, h2⟩ := aux_ok ids c n h.1
    obtain ⟨as, k, h3, h4⟩ := auxL_ok ids cs m h.2
    refine ⟨a :: as, k, ?_, ?_, ?_, ?_⟩
    · rw [auxL]; simp only [h1, h3]
    · simp [AST.shapeL, CST.sshapeL, h2.shape, h4.shape]
    · simp [AST.contentsL, CST.contL, h2.contents, h4.contents]
    · rw [AST.nodesL]; exact h2.ids.append h4.ids

end

mutual

theorem aux_panic (ids : Nat → Str) : ∀ (c : CST) (n : Nat), c.astable = false →
    aux ids n c = .panic
  | .leaf k l, n, h => by
    cases k <;> simp [CST.astable, LKind.inAst] at h <;> simp [aux]
  | .node k cs l, n, h => by
    rw [aux]
    rcases hk : k.toAst with _ | k'
    · rfl
    · have : CST.astableL cs = false := by simpa [CST.astable, hk] using h
      simp only [auxL_panic ids cs n this]

theorem auxL_panic (ids : Nat → Str) : ∀ (cs : List CST) (n : Nat), CST.astableL cs = false →
    auxL ids n cs = .panic
  | [], n, h => by simp [CST.astableL] at h
  | c :: cs, n, h => by
    rw [auxL]
    by_cases hc : c.astable = true
    · obtain ⟨a, m, h1, _⟩ := aux_ok ids c n hc
      simp only [h1, auxL_panic ids cs m (by simpa [CST.astableL, hc] using h)]
    · simp only [aux_panic ids c n (by simpa using hc)]

end

/-! ### looking up identifiers -/

theorem mem_nodesL {n : AST} {cs : List AST} : n ∈ AST.nodesL cs ↔ ∃ c ∈ cs, n ∈ c.nodes := by
  induction cs with
  | nil => simp [AST.nodesL]
  | cons c cs ih => simp [AST.nodesL, ih]

theorem self_mem_nodes (a : AST) : a ∈ a.nodes := by
  cases a <;> simp [AST.nodes]

theorem NodeOf.mem_nodes {n a : AST} (h : AST.NodeOf n a) : n ∈ a.nodes := by
  induction h with
  | self => exact self_mem_nodes _
  | child hc _ ih =>
    rw [AST.nodes]
    exact List.mem_cons_of_mem _ (mem_nodesL.mpr ⟨_, hc, ih⟩)

mutual

theorem get_none (i : Str) : ∀ (a : AST), (∀ n ∈ a.nodes, n.id ≠ i) → a.get i = none
  | .leaf k j v l, h => by
    have := h _ (self_mem_nodes _)
    simp only [AST.id] at this
    simp [AST.get, this]
  | .node k j cs l, h => by
    have h1 := h _ (by rw [AST.nodes]; exact List.mem_cons_self)
    simp only [AST.id] at h1
    simp only [AST.get, if_neg h1]
    exact getL_none i cs (fun n hn => h n (by rw [AST.nodes]; exact List.mem_cons_of_mem _ hn))

theorem getL_none (i : Str) : ∀ (as : List AST), (∀ n ∈ AST.nodesL as, n.id ≠ i) →
    AST.getL i as = none
  | [], _ => by simp [AST.getL]
  | a :: as, h => by
    rw [AST.getL, get_none i a (fun n hn => h n (by simp [AST.nodesL, hn]))]
    exact getL_none i as (fun n hn => h n (by simp [AST.nodesL, hn]))

end

mutual

theorem get_node : ∀ (a : AST), (a.nodes.map AST.id).Nodup → ∀ n ∈ a.nodes, a.get n.id = some n
  | .leaf k j v l, _, n, hn => by
    simp only [AST.nodes, List.mem_singleton] at hn
    subst hn
    simp [AST.get, AST.id]
  | .node k j cs l, h, n, hn => by
    rw [AST.nodes, List.map_cons, List.nodup_cons] at h
    rw [AST.nodes] at hn
    rcases List.mem_cons.mp hn with rfl | hn
    · simp [AST.get, AST.id]
    · have hne : j ≠ n.id := fun e => h.1 (List.mem_map.mpr ⟨n, hn, e.symm⟩)
      rw [AST.get, if_neg hne]
      exact getL_node cs h.2 n hn

theorem getL_node : ∀ (as : List AST), ((AST.nodesL as).map AST.id).Nodup →
    ∀ n ∈ AST.nodesL as, AST.getL n.id as = some n
  | [], _, n, hn => by simp [AST.nodesL] at hn
  | a :: as, h, n, hn => by
    rw [AST.nodesL, List.map_append, List.nodup_append] at h
    rw [AST.nodesL, List.mem_append] at hn
    rcases hn with hn | hn
    · rw [AST.getL, get_node a h.1 n hn]
    · rw [AST.getL, get_none n.id a]
      · exact getL_node as h.2.1 n hn
      · intro m hm he
        exact h.2.2 m.id (List.mem_map.mpr ⟨m, hm, rfl⟩) n.id (List.mem_map.mpr ⟨n, hn, rfl⟩) he

end

end Brack
