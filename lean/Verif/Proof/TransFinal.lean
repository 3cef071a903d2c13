import Verif.Proof.TransMain
import Verif.Proof.TokMore

/-
Helper lemmas: the statements of Props/Transform assembled.
-/

namespace Brack

theorem Trans.contents {ids ts c a es cs ds l m} (h : Trans ids ts c a es cs ds l m) :
    a.contents = (trace [] ts).filterMap Event.content? := by
  rw [h.spec.contents, h.evs, h.rel.content]
  simp [CST.cont]

theorem Trans.strays {ids ts c a es cs ds l m} (h : Trans ids ts c a es cs ds l m) :
    es.filterMap TErr.invalidBackslash? = (trace [] ts).filterMap Event.stray? := by
  rw [h.evs]
  refine XDoc.lift _ _ (fun _ => True) (fun _ _ _ _ _ _ _ => trivial) (fun _ => rfl) (fun _ => rfl)
    (fun hx _ => hx.strays []) h.rel (fun _ _ => trivial)

theorem XL.unclosedEach {cs ds es} (h : XL cs ds es) :
    (∀ c ∈ cs, BracketStarts c ∧ Ordered c.tokens) →
    es.filterMap TErr.notClosed? = (CST.evsL [] cs).filterMap Event.unclosed? := by
  induction cs generalizing ds es with
  | nil => intro _; cases h; simp [CST.evsL]
  | cons c cs ih =>
    intro hp
    cases h with
    | cons h hs =>
      have h1 := hp c List.mem_cons_self
      rw [CST.evsL, List.filterMap_append, List.filterMap_append, h.unclosedErrs h1.1 h1.2 [],
        ih hs (fun c hc => hp c (List.mem_cons_of_mem _ hc))]

theorem ordered_mem {cs : List CST} (h : Ordered (CST.tokensL cs)) : ∀ c ∈ cs, Ordered c.tokens := by
  induction cs with
  | nil => simp
  | cons d cs ih =>
    rw [CST.tokensL] at h
    intro c hc
    rcases List.mem_cons.mp hc with rfl | hc
    · exact h.append.1
    · exact ih h.append.2 c hc

theorem Trans.unclosed {ids ts c a es cs ds l m} (h : Trans ids ts c a es cs ds l m)
    (ho : Ordered ts) (hp : parse ts = .ok c) :
    es.filterMap TErr.notClosed? = (trace [] ts).filterMap Event.unclosed? := by
  have hpl := parse_placed ho hp
  rw [h.doc] at hpl
  have hpl := hpl.children (by simp)
  rw [h.evs]
  refine XDoc.lift _ _ (fun c => BracketStarts c ∧ Ordered c.tokens) ?_ (fun _ => rfl) (fun _ => rfl)
    (fun hx hp => hx.unclosedEach hp) h.rel
    (fun c hc => ⟨hpl.starts c hc, ordered_mem hpl.ord c hc⟩)
  rintro k cs l hk ⟨h1, h2⟩ c hc
  have : (CST.node k cs l).tokens = CST.tokensL cs := by
    rcases hk with rfl | rfl
    · exact tokens_stmt _ _
    · exact tokens_expr _ _
  rw [this] at h2
  exact ⟨h1.child c hc, ordered_mem h2 c hc⟩

theorem Trans.shape {ids ts c a es cs ds l m} (h : Trans ids ts c a es cs ds l m) (he : es = []) :
    a.shape = c.docShape := by
  rw [h.spec.shape, h.doc, CST.docShape, CST.sshape]
  simp [CST.children, IKind.toAst, h.rel.clean he h.astable]

theorem Trans.good {ids ts c a es cs ds l m} (h : Trans ids ts c a es cs ds l m) (he : es = [])
    (s : Bool) (hn : Names s false (CST.tokensL cs) (CST.evsL [] cs)) :
    ∀ n, AST.NodeOf n a → n.shape.rule s = true := by
  intro n hna
  refine good_nodes hna ?_
  have := h.rel.strict he h.astable hn
  rw [h.spec.shape, CST.sshape, Shape.good]
  simp only [IKind.toAst, Option.getD_some, Bool.and_eq_true, Shape.rule, sshapeL_eq,
    List.all_map, List.all_eq_true, Function.comp_apply]
  refine ⟨fun d hd => (this d hd).2, ?_⟩
  have hg : ∀ ds : List CST, (∀ d ∈ ds, d.sshape.good s = true) →
      Shape.goodL s (ds.map CST.sshape) = true := by
    intro ds
    induction ds with
    | nil => intro _; rfl
    | cons d ds ih =>
      intro h
      rw [List.map_cons, Shape.goodL, h d List.mem_cons_self,
        ih (fun d hd => h d (List.mem_cons_of_mem _ hd))]
      rfl
  exact hg ds (fun d hd => (this d hd).1)

theorem Trans.tokens {ids ts c a es cs ds l m} (h : Trans ids ts c a es cs ds l m)
    (hp : parse ts = .ok c) : ∃ rest, ts = CST.tokensL cs ++ rest := by
  obtain ⟨rest, hP⟩ := parse_ok hp
  refine ⟨rest, ?_⟩
  have := hP.tokens
  rwa [h.doc, tokens_document] at this

/-- The names and words of a token list. -/
theorem trace_words (ts : List Token) : ∀ st, (∀ t ∈ ts, t.kind ≠ .backSlash) →
    (∀ t ∈ ts, t.kind ≠ .eof ∧ t.kind ≠ .empty) →
    (trace st ts).filterMap Event.content? = ts.filterMap (fun t => (Event.plain [] t).content?) := by
  induction ts with
  | nil =>
    intro st _ _
    rw [trace, List.filterMap_nil, List.filterMap_eq_nil_iff]
    intro e he
    obtain ⟨o, _, rfl⟩ := List.mem_map.mp he
    rfl
  | cons t ts ih =>
    intro st hb he
    have hun : ∀ l : List Token, (l.map Event.unclosed).filterMap Event.content? = [] := by
      intro l
      rw [List.filterMap_eq_nil_iff]
      intro e he
      obtain ⟨o, _, rfl⟩ := List.mem_map.mp he
      rfl
    have ih' := fun st => ih st (fun t h => hb t (List.mem_cons_of_mem _ h))
      (fun t h => he t (List.mem_cons_of_mem _ h))
    have hb0 := hb t List.mem_cons_self
    have he0 := he t List.mem_cons_self
    obtain ⟨k, l⟩ := t
    rcases k with _ | v | v | v | _ | _ | _ | _ | b | b | _ | _ <;>
      first
        | exact absurd rfl he0.1
        | exact absurd rfl he0.2
        | exact absurd rfl hb0
        | (simp only [trace, List.filterMap_cons, ih']; rfl)
        | skip
    simp only [trace, List.filterMap_append, hun, List.nil_append]
    rcases hdw : st.dropWhile (fun o => o.kind ≠ .bopen b) with _ | ⟨o, st'⟩
    · rw [hdw]; simp only [List.filterMap_cons, ih']; rfl
    · rw [hdw]; simp only [List.filterMap_cons, ih']; rfl

theorem trace_eof (body : List Token) (eof : Token) (h : eof.kind = .eof) : ∀ st,
    trace st (body ++ [eof]) = trace st body := by
  suffices ∀ n, ∀ body : List Token, body.length ≤ n → ∀ st,
      trace st (body ++ [eof]) = trace st body from this _ body (Nat.le_refl _)
  intro n
  induction n with
  | zero =>
    intro body hn st
    have : body = [] := List.length_eq_zero_iff.mp (by omega)
    subst this
    simp [trace, h]
  | succ n ih =>
    intro body hn st
    rcases body with _ | ⟨t, body⟩
    · simp [trace, h]
    replace hn : body.length ≤ n := by simpa using hn
    obtain ⟨k, l⟩ := t
    rw [List.cons_append]
    rcases k with _ | v | v | v | _ | _ | _ | _ | b | b | _ | _ <;>
      first
        | (simp only [trace]; done)
        | (simp only [trace, ih body hn]; done)
        | skip
    rcases body with _ | ⟨u, us⟩
    · have : escapedChar .eof = none := by decide
      simp [trace, h, this]
    · have hus : us.length ≤ n := by simp at hn; omega
      have h2 := ih (u :: us) hn st
      rw [List.cons_append] at h2
      simp only [List.cons_append, trace.eq_def st (⟨.backSlash, l⟩ :: u :: (us ++ [eof])),
        trace.eq_def st (⟨.backSlash, l⟩ :: u :: us)]
      rcases escapedChar u.kind with _ | c
      · simp only [h2]
      · simp only [ih us hus]

theorem mem_nodes_nodeOf : ∀ (a : AST) (n : AST), n ∈ a.nodes → AST.NodeOf n a := by
  intro a
  refine AST.rec (motive_1 := fun a => ∀ n, n ∈ a.nodes → AST.NodeOf n a)
    (motive_2 := fun as => ∀ n, n ∈ AST.nodesL as → ∃ a ∈ as, AST.NodeOf n a) ?_ ?_ ?_ ?_ a
  · intro k i v l n h
    simp only [AST.nodes, List.mem_singleton] at h
    subst h; exact .self
  · intro k i cs l ih n h
    rcases List.mem_cons.mp h with rfl | h
    · exact .self
    · obtain ⟨c, hc, h⟩ := ih n h
      exact .child hc h
  · intro n h; simp [AST.nodesL] at h
  · intro c cs h1 h2 n h
    rcases List.mem_append.mp h with h | h
    · exact ⟨c, List.mem_cons_self, h1 n h⟩
    · obtain ⟨d, hd, h⟩ := h2 n h
      exact ⟨d, List.mem_cons_of_mem _ hd, h⟩

end Brack
