import Verif.Proof.ParserDet

/-
Helper lemmas: locations of tree nodes.
-/

namespace Brack

/-- The location of a node fits its tokens and the tokens that follow. -/
structure LocGood (n : CST) (post : List Token) : Prop where
  start : ∃ t ∈ n.tokens.head?, n.loc.start = t.loc.start
  stop : n.endsClean = true → ∃ t ∈ n.tokens.getLast?, n.loc.stop = t.loc.stop
  unclosed : ∀ b cs l, n = .node (.bracket b) cs l → n.isClosed = false →
    ∃ u ∈ post.head?, n.loc.stop = u.loc.stop
  escaped : n.endsEscaped = true → ∃ init t u, n.tokens = init ++ [t, u] ∧ t.kind = .backSlash ∧
    u.kind ≠ .eof ∧ n.loc.stop = t.loc.stop
  opened : n.endsUnclosed = true → ∃ u ∈ post.head?, n.loc.stop = u.loc.stop
  kinds : n.endsClean = true ∨ n.endsEscaped = true ∨ n.endsUnclosed = true

def isRanged : CST → Prop
  | .node .expr _ _ => True
  | .node (.bracket _) _ _ => True
  | _ => False

theorem leaf_good (k l post) : LocGood (.leaf k l) post where
  start := ⟨_, rfl, rfl⟩
  stop := fun _ => ⟨_, rfl, rfl⟩
  unclosed := by simp
  escaped := by simp [CST.endsEscaped]
  opened := by simp [CST.endsUnclosed]
  kinds := by simp [CST.endsClean]

theorem escN_good (l post) : LocGood (.node .backSlash [] l) post where
  start := ⟨_, rfl, rfl⟩
  stop := fun _ => ⟨_, rfl, rfl⟩
  unclosed := by simp
  escaped := by simp [CST.endsEscaped]
  opened := by simp [CST.endsUnclosed]
  kinds := by simp [CST.endsClean]

theorem esc_good {v k} (hl : escapes.lookup v = some k) (hk : k ≠ .eof) (l' l post) :
    LocGood (.node .backSlash [.leaf (.text [v]) l'] l) post where
  start := ⟨_, rfl, rfl⟩
  stop := by simp [CST.endsClean]
  unclosed := by simp
  escaped := fun _ => ⟨[], ⟨.backSlash, l⟩, ⟨k, l'⟩, by simp [CST.tokens, hl], rfl, hk, rfl⟩
  opened := by simp [CST.endsUnclosed]
  kinds := by simp [CST.endsEscaped]

theorem GBody.last {cs} (h : GBody cs) : ∀ b l, cs.getLast? ≠ some (.leaf (.bclose b) l) := by
  intro b l
  rcases List.eq_nil_or_concat cs with rfl | ⟨ds, d, rfl⟩
  · simp
  · rw [List.concat_eq_append] at h ⊢
    rw [List.getLast?_append]
    simp only [List.getLast?_singleton, Option.some_or, ne_eq, Option.some.injEq]
    intro hd
    subst hd
    have : ∀ cs, GBody cs → CST.leaf (.bclose b) l ∉ cs := by
      intro cs h
      induction cs with
      | nil => simp
      | cons c cs ih =>
        cases h with
        | expr _ _ h' => simpa using ih h'
        | newline h' => simpa using ih h'
    exact this _ h (by simp)

theorem bracket_isClosed {b t cs u} (hg : GBody cs) :
    (bracketNode b t cs u).isClosed = decide (u.kind = .bclose b) := by
  unfold bracketNode
  by_cases hu : u.kind = .bclose b
  · simp [hu, CST.isClosed, List.getLast?_cons, List.getLast?_append]
  · simp only [hu, if_false, List.append_nil, decide_false, CST.isClosed]
    rcases List.eq_nil_or_concat cs with rfl | ⟨ds, d, rfl⟩
    · simp
    · have := hg.last
      rw [List.concat_eq_append] at this ⊢
      rw [show (CST.leaf (.bopen b) t.loc :: (ds ++ [d])) = (CST.leaf (.bopen b) t.loc :: ds) ++ [d] by simp]
      rw [List.getLast?_append] at this ⊢
      simp only [List.getLast?_singleton, Option.some_or] at this ⊢

theorem bracket_good {b t cs u us} (ht : t.kind = .bopen b) (hg : GBody cs) :
    LocGood (bracketNode b t cs u) (if u.kind = .bclose b then us else u :: us) where
  start := by
    rw [bracketNode_tokens _ _ _ _ ht]
    exact ⟨t, rfl, rfl⟩
  stop := by
    intro h
    rw [bracketNode_tokens _ _ _ _ ht]
    have : (bracketNode b t cs u).isClosed = true := h
    rw [bracket_isClosed hg] at this
    have hu : u.kind = .bclose b := by simpa using this
    refine ⟨u, ?_, rfl⟩
    rw [if_pos hu]
    simp [List.getLast?_cons, List.getLast?_append]
  unclosed := by
    intro b' cs' l' _ h
    rw [bracket_isClosed hg] at h
    have hu : ¬ u.kind = .bclose b := by simpa using h
    rw [if_neg hu]
    exact ⟨u, rfl, rfl⟩
  escaped := by simp [bracketNode, CST.endsEscaped]
  opened := by
    intro h
    have : (!(bracketNode b t cs u).isClosed) = true := h
    rw [bracket_isClosed hg] at this
    have hu : ¬ u.kind = .bclose b := by simpa using this
    rw [if_neg hu]
    exact ⟨u, rfl, rfl⟩
  kinds := by
    show (bracketNode b t cs u).isClosed = true ∨ _ ∨ (!(bracketNode b t cs u).isClosed) = true
    rcases (bracketNode b t cs u).isClosed <;> simp

theorem endsEscapedL_getLast {cs : List CST} (hne : cs ≠ []) :
    CST.endsEscapedL cs = (cs.getLast hne).endsEscaped := by
  induction cs with
  | nil => exact absurd rfl hne
  | cons c cs ih =>
    rcases cs with _ | ⟨d, ds⟩
    · simp [CST.endsEscapedL]
    · rw [CST.endsEscapedL, ih (by simp)]
      simp

theorem endsUnclosedL_getLast {cs : List CST} (hne : cs ≠ []) :
    CST.endsUnclosedL cs = (cs.getLast hne).endsUnclosed := by
  induction cs with
  | nil => exact absurd rfl hne
  | cons c cs ih =>
    rcases cs with _ | ⟨d, ds⟩
    · simp [CST.endsUnclosedL]
    · rw [CST.endsUnclosedL, ih (by simp)]
      simp

theorem endsCleanL_getLast {cs : List CST} (hne : cs ≠ []) :
    CST.endsCleanL cs = (cs.getLast hne).endsClean := by
  induction cs with
  | nil => exact absurd rfl hne
  | cons c cs ih =>
    rcases cs with _ | ⟨d, ds⟩
    · simp [CST.endsCleanL]
    · rw [CST.endsCleanL, ih (by simp)]
      simp

theorem tokens_ne_nil_of_good {n post} (h : LocGood n post) : n.tokens ≠ [] := by
  obtain ⟨t, ht, _⟩ := h.start
  intro hn
  rw [hn] at ht
  simp at ht

theorem expr_good {c cs post} (h1 : ∃ post, LocGood c post)
    (h2 : LocGood ((c :: cs).getLast (by simp)) post) :
    LocGood (exprNode c cs) post where
  start := by
    rw [exprNode_tokens, CST.tokensL]
    obtain ⟨_, h1⟩ := h1
    obtain ⟨t, ht, e⟩ := h1.start
    refine ⟨t, ?_, e⟩
    rw [List.head?_append]
    simp only [Option.mem_def] at ht
    simp [ht]
  stop := by
    intro h
    have hc : CST.endsCleanL (c :: cs) = true := h
    rw [endsCleanL_getLast (by simp)] at hc
    obtain ⟨t, ht, e⟩ := h2.stop hc
    refine ⟨t, ?_, e⟩
    rw [exprNode_tokens, ← List.dropLast_concat_getLast (l := c :: cs) (by simp), tokensL_append,
      List.getLast?_append]
    simp only [CST.tokensL, List.append_nil, Option.mem_def] at ht ⊢
    rw [ht]
    rfl
  unclosed := by simp [exprNode]
  escaped := by
    intro h
    have hc : CST.endsEscapedL (c :: cs) = true := h
    rw [endsEscapedL_getLast (by simp)] at hc
    obtain ⟨init, t, u, ht, hk, hu, e⟩ := h2.escaped hc
    refine ⟨CST.tokensL (c :: cs).dropLast ++ init, t, u, ?_, hk, hu, e⟩
    rw [exprNode_tokens]
    have := congrArg CST.tokensL (List.dropLast_concat_getLast (l := c :: cs) (by simp))
    rw [tokensL_append, CST.tokensL, ht] at this
    rw [← this]
    simp [CST.tokensL]
  opened := by
    intro h
    have hc : CST.endsUnclosedL (c :: cs) = true := h
    rw [endsUnclosedL_getLast (by simp)] at hc
    exact h2.opened hc
  kinds := by
    show CST.endsCleanL (c :: cs) = true ∨ CST.endsEscapedL (c :: cs) = true ∨
      CST.endsUnclosedL (c :: cs) = true
    rw [endsCleanL_getLast (by simp), endsEscapedL_getLast (by simp), endsUnclosedL_getLast (by simp)]
    exact h2.kinds

/-- The claim for the nodes below `cs`, in the context `ts`. -/
def NodesGood (ts : List Token) (cs : List CST) : Prop :=
  ∀ c ∈ cs, ∀ n, CST.NodeOf n c → isRanged n →
    ∃ pre post, ts = pre ++ n.tokens ++ post ∧ LocGood n post

theorem NodesGood.prefix {ts cs} (p : List Token) (h : NodesGood ts cs) : NodesGood (p ++ ts) cs := by
  intro c hc n hn hr
  obtain ⟨pre, post, e, hg⟩ := h c hc n hn hr
  exact ⟨p ++ pre, post, by rw [e]; simp, hg⟩

theorem NodesGood.nil {ts} : NodesGood ts [] := by simp [NodesGood]

theorem NodesGood.cons {ts c cs} (h1 : NodesGood ts [c]) (h2 : NodesGood ts cs) :
    NodesGood ts (c :: cs) := by
  intro d hd
  rcases List.mem_cons.mp hd with rfl | hd
  · exact h1 _ (by simp)
  · exact h2 _ hd

theorem NodesGood.append {ts cs ds} (h1 : NodesGood ts cs) (h2 : NodesGood ts ds) :
    NodesGood ts (cs ++ ds) := by
  intro d hd
  rcases List.mem_append.mp hd with hd | hd
  · exact h1 _ hd
  · exact h2 _ hd

theorem NodesGood.leaf {ts k l} : NodesGood ts [.leaf k l] := by
  intro c hc n hn hr
  simp only [List.mem_singleton] at hc
  subst hc
  cases hn
  exact absurd hr (by simp [isRanged])

theorem NodesGood.node {ts k cs l} (h : NodesGood ts cs)
    (hself : isRanged (.node k cs l) → ∃ pre post, ts = pre ++ (CST.node k cs l).tokens ++ post ∧
      LocGood (.node k cs l) post) : NodesGood ts [.node k cs l] := by
  intro c hc n hn hr
  simp only [List.mem_singleton] at hc
  subst hc
  cases hn with
  | self => exact hself hr
  | child hc hn => exact h _ hc _ hn hr

mutual

theorem EI.items_good : ∀ {ts cs r}, EI ts cs r → ∀ c ∈ cs, ∃ post, LocGood c post
  | _, _, _, .stop _ => by simp
  | _, _, _, .leaf hk h => by
    have := h.items_good
    simpa using ⟨⟨[], leaf_good _ _ _⟩, this⟩
  | _, _, _, .esc ht hv h => by
    have := h.items_good
    obtain ⟨c, rfl, _, hl⟩ := escapable_tok hv
    simpa using ⟨⟨[], esc_good hl (escapable_ne_eof hv) _ _ _⟩, this⟩
  | _, _, _, .escN ht hv h => by
    have := h.items_good
    simpa using ⟨⟨[], escN_good _ _⟩, this⟩
  | _, _, _, .bclosed ht hb hu h => by
    have := h.items_good
    rw [List.forall_mem_cons]
    exact ⟨⟨_, bracket_good (us := []) ht hb.grammar⟩, this⟩
  | _, _, _, .bunclosed ht hb hu h => by
    have := h.items_good
    rw [List.forall_mem_cons]
    exact ⟨⟨_, bracket_good (us := []) ht hb.grammar⟩, this⟩

end

theorem EI.nil_rest {ts r} (h : EI ts [] r) : ts = r := by simpa [CST.tokensL] using h.tokens

/-- The last item fits the tokens that remain. -/
theorem EI.last_good : ∀ {ts cs r}, EI ts cs r → ∀ c ∈ cs.getLast?, LocGood c r
  | _, _, _, .stop _ => by simp
  | _, _, _, .leaf (cs := ds) hk h => by
    rcases ds with _ | ⟨d, ds⟩
    · simpa using leaf_good _ _ _
    · simpa using h.last_good
  | _, _, _, .esc (cs := ds) ht hv h => by
    rcases ds with _ | ⟨d, ds⟩
    · obtain ⟨c, rfl, _, hl⟩ := escapable_tok hv
      simpa using esc_good hl (escapable_ne_eof hv) _ _ _
    · simpa using h.last_good
  | _, _, _, .escN (cs := ds) ht hv h => by
    rcases ds with _ | ⟨d, ds⟩
    · simpa using escN_good _ _
    · simpa using h.last_good
  | _, _, _, .bclosed (u := u) (us := us) (ds := ds) ht hb hu h => by
    rcases ds with _ | ⟨d, ds⟩
    · have := bracket_good (u := u) (us := us) ht hb.grammar
      rw [if_pos hu, h.nil_rest] at this
      simpa using this
    · simpa using h.last_good
  | _, _, _, .bunclosed (u := u) (us := us) (ds := ds) ht hb hu h => by
    rcases ds with _ | ⟨d, ds⟩
    · have := bracket_good (u := u) (us := us) ht hb.grammar
      rw [if_neg hu, h.nil_rest] at this
      simpa using this
    · simpa using h.last_good

theorem exprNode_nodes {ts c cs r} (h : EI ts (c :: cs) r) (hn : NodesGood ts (c :: cs)) :
    NodesGood ts [exprNode c cs] := by
  refine hn.node fun _ => ⟨[], r, ?_, ?_⟩
  · have := exprNode_tokens c cs
    unfold exprNode at this
    rw [this, List.nil_append]
    exact h.tokens
  · exact expr_good (h.items_good _ (by simp)) (h.last_good _ (List.getLast_mem_getLast? _))

theorem bracketNode_nodes {t ts b cs u us} (ht : t.kind = .bopen b) (hb : BI ts cs (u :: us))
    (hn : NodesGood ts cs) : NodesGood (t :: ts) [bracketNode b t cs u] := by
  refine NodesGood.node ?_ fun _ => ⟨[], if u.kind = .bclose b then us else u :: us, ?_, ?_⟩
  · refine .append (.cons .leaf (hn.prefix [t])) ?_
    split
    · exact .leaf
    · exact .nil
  · have := bracketNode_tokens b t u cs ht
    unfold bracketNode at this
    rw [this, hb.tokens]
    split <;> simp
  · exact bracket_good ht hb.grammar

mutual

theorem EI.nodes_good : ∀ {ts cs r}, EI ts cs r → NodesGood ts cs
  | _, _, _, .stop _ => .nil
  | _, _, _, .leaf (t := t) hk h => .cons .leaf (h.nodes_good.prefix [t])
  | _, _, _, .esc (t := t) (u := u) ht hv h =>
    .cons (.node .leaf (by simp [isRanged])) (h.nodes_good.prefix [t, u])
  | _, _, _, .escN (t := t) ht hv h =>
    .cons (.node .nil (by simp [isRanged])) (h.nodes_good.prefix [t])
  | _, _, _, .bclosed (t := t) (ts := ts) (cs := cs) (u := u) (us := us) ht hb hu h => by
    refine .cons (bracketNode_nodes ht hb hb.nodes_good) ?_
    rw [hb.tokens]
    simpa using h.nodes_good.prefix (t :: CST.tokensL cs ++ [u])
  | _, _, _, .bunclosed (t := t) (cs := cs) ht hb hu h => by
    refine .cons (bracketNode_nodes ht hb hb.nodes_good) ?_
    rw [hb.tokens]
    simpa using h.nodes_good.prefix (t :: CST.tokensL cs)

theorem BI.nodes_good : ∀ {ts cs r}, BI ts cs r → NodesGood ts cs
  | _, _, _, .stop _ _ => .nil
  | _, _, _, .expr (c := c) (cs := cs) he hb => by
    refine .cons (exprNode_nodes he he.nodes_good) ?_
    rw [he.tokens]
    exact hb.nodes_good.prefix _
  | _, _, _, .newline (t := t) ht h => .cons .leaf (h.nodes_good.prefix [t])

end

theorem LI.nodes_good {ts c r} (h : LI ts c r) : NodesGood ts [c] := by
  cases h with
  | expr h => exact exprNode_nodes h h.nodes_good
  | close ht => exact .leaf

theorem SI.nodes_good : ∀ {ts cs r}, SI ts cs r → NodesGood ts cs
  | _, _, _, .stop _ => .nil
  | _, _, _, .more (t := t) (c := c) ht hl h => by
    refine .cons .leaf (.cons (hl.nodes_good.prefix [t]) ?_)
    rw [hl.tokens]
    simpa using h.nodes_good.prefix (t :: c.tokens)

theorem TI.nodes_good {ts c r} (h : TI ts c r) : NodesGood ts [c] := by
  cases h with
  | mk h1 h2 =>
    obtain ⟨l, hl⟩ := foldl_add_new .stmt (_ :: _)
    rw [hl]
    refine .node (.cons h1.nodes_good ?_) (by simp [isRanged])
    rw [h1.tokens]
    exact h2.nodes_good.prefix _

theorem NI.nodes_good : ∀ {ts cs r}, NI ts cs r → ∀ ts', NodesGood ts' cs
  | _, _, _, .stop _ => fun _ => .nil
  | _, _, _, .more _ h => fun _ => .cons .leaf (h.nodes_good _)

theorem DI.nodes_good : ∀ {ts cs r}, DI ts cs r → NodesGood ts cs
  | _, _, _, .noStmt _ => .nil
  | _, _, _, .lastStmt _ _ => .nil
  | _, _, _, .more (s := s) (t := t) (ns := ns) hs ht hN h => by
    refine .append (.cons hs.nodes_good (.cons .leaf (hN.nodes_good _))) ?_
    rw [hs.tokens, hN.tokens]
    simpa using h.nodes_good.prefix (s.tokens ++ t :: CST.tokensL ns)

theorem PI.nodes_good {ts c rest} (h : PI ts c rest) : NodesGood ts [c] := by
  cases h with
  | mk hD hO hN ht =>
    obtain ⟨l, hl⟩ := foldl_add_new .document (_ ++ _)
    rw [hl]
    refine .node (.append (.append (.append hD.nodes_good ?_) (hN.nodes_good _)) .leaf)
      (by simp [isRanged])
    rw [hD.tokens]
    refine NodesGood.prefix _ ?_
    cases hO with
    | none => exact .nil
    | some hT => exact hT.nodes_good

/-! ### statements -/

theorem merge_start_zero (l : Loc) (l1 : Loc) (h : l1.start = ⟨0, 0⟩) :
    (mergeLocation l1 l).start = ⟨0, 0⟩ := by
  obtain ⟨⟨a, b⟩, ⟨c, d⟩⟩ := l
  obtain ⟨s, e⟩ := l1
  simp only at h
  subst h
  simp only [mergeLocation]
  rcases a with _ | a
  · rcases b with _ | b <;> simp [compare, compareOfLessAndEq]
  · simp [compare, compareOfLessAndEq]

mutual

theorem GItem.no_stmt : ∀ {c}, GItem c → ∀ {n}, CST.NodeOf n c → ∀ ds l, n ≠ .node .stmt ds l
  | _, .leaf _, _, .self => by simp
  | _, .escaped _, _, .self => by simp
  | _, .escaped _, _, .child hc hn => by
    simp only [List.mem_singleton] at hc
    subst hc
    cases hn
    simp
  | _, .backslash, _, .self => by simp
  | _, .closed _, _, .self => by simp
  | _, .closed hb, _, .child hc hn => by
    simp only [List.cons_append, List.mem_cons, List.mem_append, List.not_mem_nil, or_false] at hc
    rcases hc with rfl | hc | rfl
    · cases hn; simp
    · exact hb.no_stmt hc hn
    · cases hn; simp
  | _, .unclosed _, _, .self => by simp
  | _, .unclosed hb, _, .child hc hn => by
    simp only [List.mem_cons] at hc
    rcases hc with rfl | hc
    · cases hn; simp
    · exact hb.no_stmt hc hn

theorem GBody.no_stmt : ∀ {cs}, GBody cs → ∀ {c}, c ∈ cs → ∀ {n}, CST.NodeOf n c →
    ∀ ds l, n ≠ .node .stmt ds l
  | _, .nil, _, hc, _, _ => by simp at hc
  | _, .expr _ hg hb, _, hc, _, hn => by
    rcases List.mem_cons.mp hc with rfl | hc
    · cases hn with
      | self => simp
      | child hc hn => exact (hg _ hc).no_stmt hn
    · exact hb.no_stmt hc hn
  | _, .newline hb, _, hc, _, hn => by
    rcases List.mem_cons.mp hc with rfl | hc
    · cases hn; simp
    · exact hb.no_stmt hc hn

end

theorem GLine.no_stmt {c} (h : GLine c) {n} (hn : CST.NodeOf n c) (ds l) : n ≠ .node .stmt ds l := by
  cases h with
  | close => cases hn; simp
  | expr _ hg =>
    cases hn with
    | self => simp
    | child hc hn => exact (hg _ hc).no_stmt hn _ _

theorem GLines.no_stmt {cs} (h : GLines cs) {c} (hc : c ∈ cs) {n} (hn : CST.NodeOf n c) (ds l) :
    n ≠ .node .stmt ds l := by
  induction h with
  | one h => simp only [List.mem_singleton] at hc; subst hc; exact h.no_stmt hn _ _
  | more h _ ih =>
    simp only [List.mem_cons] at hc
    rcases hc with rfl | rfl | hc
    · exact h.no_stmt hn _ _
    · cases hn; simp
    · exact ih hc

/-- Statement nodes below a statement are that statement. -/
theorem GStmt.only {s} (h : GStmt s) {n} (hn : CST.NodeOf n s) (ds l) (he : n = .node .stmt ds l) :
    n = s := by
  cases h with
  | mk hl =>
    cases hn with
    | self => rfl
    | child hc hn => exact absurd he (hl.no_stmt hc hn _ _)

theorem foldl_add_start (cs : List CST) (k ds l) (h : l.start = ⟨0, 0⟩) :
    (cs.foldl CST.add (.node k ds l)).loc.start = ⟨0, 0⟩ := by
  induction cs generalizing ds l with
  | nil => exact h
  | cons c cs ih => exact ih _ _ (merge_start_zero _ _ h)

/-- Every statement below the children starts at 0:0. -/
def StmtStart (cs : List CST) : Prop :=
  ∀ c ∈ cs, ∀ n, CST.NodeOf n c → ∀ ds l, n = .node .stmt ds l → n.loc.start = ⟨0, 0⟩

theorem TI.stmtStart {ts s r} (h : TI ts s r) : StmtStart [s] := by
  intro c hc n hn ds l he
  simp only [List.mem_singleton] at hc
  subst hc
  rw [h.grammar.only hn ds l he]
  cases h with
  | mk => exact foldl_add_start _ _ _ _ rfl

theorem StmtStart.append {cs ds} (h1 : StmtStart cs) (h2 : StmtStart ds) :
    StmtStart (cs ++ ds) := by
  intro c hc
  rcases List.mem_append.mp hc with hc | hc
  · exact h1 c hc
  · exact h2 c hc

theorem StmtStart.leaf {k l} : StmtStart [.leaf k l] := by
  intro c hc n hn ds l he
  simp only [List.mem_singleton] at hc
  subst hc
  cases hn
  simp at he

theorem StmtStart.newlines {ns} (h : GNewlines ns) : StmtStart ns := by
  intro c hc n hn ds l he
  obtain ⟨l', rfl⟩ := h c hc
  cases hn
  simp at he

theorem DI.stmtStart : ∀ {ts cs r}, DI ts cs r → StmtStart cs
  | _, _, _, .noStmt _ => by simp [StmtStart]
  | _, _, _, .lastStmt _ _ => by simp [StmtStart]
  | _, _, _, .more (t := t) hT _ hN h => by
    have := (hT.stmtStart.append (.leaf (k := .newline) (l := t.loc))).append
      ((StmtStart.newlines hN.grammar).append h.stmtStart)
    simpa using this

theorem PI.stmtStart {ts c rest} (h : PI ts c rest) : StmtStart [c] := by
  cases h with
  | mk hD hO hN ht =>
    obtain ⟨l, hl⟩ := foldl_add_new .document (_ ++ _)
    rw [hl]
    intro c hc n hn ds l he
    simp only [List.mem_singleton] at hc
    subst hc
    cases hn with
    | self => simp at he
    | child hc hn =>
      refine (((hD.stmtStart.append ?_).append (.newlines hN.grammar)).append .leaf) _ hc _ hn _ _ he
      cases hO with
      | none => simp [StmtStart]
      | some hT => exact hT.stmtStart

end Brack
