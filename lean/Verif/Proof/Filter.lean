import Verif.Spec.Filter
import Verif.Proof.Sources

/-
With a text hook, texts of the document are passed to nothing else.
-/

namespace Brack

variable {W : Wasm} {p : Str}

theorem Returned.mono {e e' : List Call} {s : Str} (h : Returned e s) (hs : e ⊆ e') : Returned e' s := by
  obtain ⟨rs, h1, h2⟩ := h
  exact ⟨rs, fun r hr => (h1 r hr).imp fun c hc => ⟨hs hc.1, hc.2⟩, h2⟩

theorem Returned.append {e : List Call} {s t : Str} (hs : Returned e s) (ht : Returned e t) : Returned e (s ++ t) := by
  obtain ⟨rs, h1, rfl⟩ := hs
  obtain ⟨rs', h2, rfl⟩ := ht
  refine ⟨rs ++ rs', fun r hr => ?_, by simp⟩
  rcases List.mem_append.mp hr with hr | hr
  · exact h1 r hr
  · exact h2 r hr

theorem Returned.single {e : List Call} {s : Str} {c : Call} (hc : c ∈ e) (h : c.output = .text s) : Returned e s :=
  ⟨[s], fun r hr => ⟨c, hc, by rw [h, List.mem_singleton.mp hr]⟩, by simp⟩

theorem Returned.without {e : List Call} {s : Str} {ch : Char} (h : Returned e s)
    (hc : ∀ c ∈ e, ∀ r, c.output = .text r → ch ∉ r) : ch ∉ s := by
  obtain ⟨rs, h1, rfl⟩ := h
  intro hm
  obtain ⟨r, hr, hm⟩ := List.mem_flatten.mp hm
  obtain ⟨c, h2, h3⟩ := h1 r hr
  exact hc c h2 r h3 hm

/-- Every call is one of the text hook, or is made with texts returned before. -/
def LogFiltered (p : Str) (new : List Call) : Prop :=
  ∀ pre c post, new = pre ++ c :: post → (∃ v, c.Filters p v) ∨ ∀ s ∈ c.texts, Returned pre s

theorem LogFiltered.nil : LogFiltered p [] := by
  intro pre c post h
  simp at h

theorem LogFiltered.snoc {new : List Call} {c : Call} (h : LogFiltered p new)
    (hc : (∃ v, c.Filters p v) ∨ ∀ s ∈ c.texts, Returned new s) : LogFiltered p (new ++ [c]) := by
  intro pre d post he
  rcases List.eq_nil_or_concat post with rfl | ⟨post', x, rfl⟩
  · obtain ⟨rfl, h2⟩ := List.append_inj' he rfl
    cases h2
    exact hc
  · have : new ++ [c] = (pre ++ d :: post') ++ [x] := by rw [he]; simp
    obtain ⟨h1, -⟩ := List.append_inj' this rfl
    exact h pre d post' h1

/-- After the calls `e`, the computation calls plugins only in this way, and `post` holds of its result and the calls made
until then. -/
def PM.Filters (p : Str) (e : List Call) (post : List Call → α → Prop) (x : PM W α) : Prop :=
  ∀ (ps : Plugins W) (log0 old : List Call), ps.textHook = some p → ps.log = log0 ++ old → e ⊆ old → LogFiltered p old →
    (x ps).2.textHook = some p ∧ ∃ new, (x ps).2.log = log0 ++ (old ++ new) ∧ LogFiltered p (old ++ new) ∧
      ∀ a, (x ps).1 = .ok a → post (old ++ new) a

section
variable {e : List Call}

theorem PM.Filters.still {post : List Call → α → Prop} {x : PM W α} (h : ∀ ps, (x ps).2 = ps)
    (hp : ∀ ps old, e ⊆ old → ∀ a, (x ps).1 = .ok a → post old a) : PM.Filters p e post x := by
  intro ps log0 old hk he hs hl
  refine ⟨by rw [h]; exact hk, [], ?_, by rwa [List.append_nil], fun a ha => ?_⟩
  · rw [h, List.append_nil]; exact he
  · rw [List.append_nil]; exact hp ps old hs a ha

theorem PM.Filters.pure {post : List Call → α → Prop} {a : α} (h : ∀ old, e ⊆ old → post old a) :
    PM.Filters p e post (Pure.pure a : PM W α) :=
  .still (fun _ => rfl) fun _ old hs b hb => by cases hb; exact h old hs

theorem PM.Filters.bail {post : List Call → α → Prop} {m : String} : PM.Filters p e post (PM.bail m : PM W α) :=
  .still (fun _ => rfl) fun _ old hs b hb => by cases hb

theorem PM.Filters.lift {r : Res α} : PM.Filters p e (fun _ a => r = .ok a) (PM.lift r : PM W α) :=
  .still (fun _ => rfl) fun _ old hs b hb => hb

theorem PM.Filters.bind {Q : List Call → α → Prop} {R : List Call → β → Prop} {x : PM W α} {f : α → PM W β}
    (hx : PM.Filters p e Q x) (hf : ∀ e' a, e ⊆ e' → Q e' a → PM.Filters p e' R (f a)) :
    PM.Filters p e R (x >>= f) := by
  intro ps log0 old hk he hs hl
  obtain ⟨h0, new, h1, h2, h3⟩ := hx ps log0 old hk he hs hl
  rw [PM.bind_run]
  rcases hr : x ps with ⟨a | m | _, ps1⟩ <;> rw [hr] at h0 h1 h3
  · obtain ⟨k0, new', k1, k2, k3⟩ := hf _ a (fun c hc => List.mem_append_left _ (hs hc)) (h3 a rfl) ps1 log0 (old ++ new) h0 h1
      (fun c hc => hc) h2
    refine ⟨k0, new ++ new', ?_, ?_, ?_⟩ <;> rw [← List.append_assoc old] <;> assumption
  · exact ⟨h0, new, h1, h2, fun b hb => by cases hb⟩
  · exact ⟨h0, new, h1, h2, fun b hb => by cases hb⟩

theorem callText_keeps_hook (n c : Str) (t : PType) (vs : List Value) (ps : Plugins W) :
    (Plugins.callText n c t vs ps).2.textHook = ps.textHook := by
  obtain ⟨_, h, _⟩ := callText_cases n c t vs ps .text
  exact h.same.text

theorem PM.Filters.callText {n c : Str} {t : PType} {vs : List Value}
    (h : (n = p ∧ c = chars! "text" ∧ t = .inline ∧ ∃ v, vs = [.text v]) ∨ ∀ s ∈ vs.flatMap Value.arguments, Returned e s) :
    PM.Filters p e Returned (Plugins.callText n c t vs : PM W Str) := by
  intro ps log0 old hk he hs hl
  refine ⟨(callText_keeps_hook n c t vs ps).trans hk, ?_⟩
  rcases callText_log n c t vs ps with ⟨h1, h2⟩ | ⟨o, h1, h2⟩
  · refine ⟨[], ?_, by rwa [List.append_nil], fun a ha => absurd ha (h2 a)⟩
    rw [h1, List.append_nil]; exact he
  · refine ⟨[⟨n, c, t, .values vs, o⟩], ?_, hl.snoc ?_, fun a ha => ?_⟩
    · rw [h1, he, List.append_assoc]
    · rcases h with ⟨rfl, rfl, rfl, v, rfl⟩ | h
      · exact .inl ⟨v, rfl, rfl, rfl, rfl⟩
      · exact .inr fun s hm => (h s hm).mono hs
    · exact .single (c := ⟨n, c, t, .values vs, o⟩) (by simp) (h2 a ha)

theorem PM.Filters.of_run {post : List Call → α → Prop} {x : PM W α} {y : Plugins W → PM W α}
    (h : ∀ ps, ps.textHook = some p → x ps = y ps ps) (hy : ∀ ps, PM.Filters p e post (y ps)) : PM.Filters p e post x := by
  intro ps log0 old hk he hs hl
  rw [h ps hk]
  exact hy ps ps log0 old hk he hs hl

theorem PM.Filters.hookBy {hook : Option Str} {c : Str} {t : PType} {s : Str} (h : Returned e s) :
    PM.Filters p e Returned (hookBy hook c t s : PM W Str) := by
  rcases hook with _ | q
  · exact .still (fun _ => rfl) fun _ old hs b hb => by cases hb; exact h.mono hs
  · exact .callText (n := q) (c := c) (t := t) (vs := [.text s]) (.inr (by simpa [Value.arguments] using h))

theorem filters_bailWith {post : List Call → Str → Prop} (a : AST) : PM.Filters p e post (bailWith a : PM W Str) :=
  .bind .lift fun _ _ _ _ => .bail

theorem filters_nameOf (k : ALKind) (a : AST) : PM.Filters p e (fun _ _ => True) (nameOf k a : PM W Str) := by
  unfold nameOf
  split
  · split
    · split
      · exact .pure fun _ _ => trivial
      · exact .bail
    · exact .bail
  · exact .bail

theorem filters_argumentTypes (m c : Str) (t : PType) :
    PM.Filters p e (fun _ _ => True) (Plugins.argumentTypes m c t : PM W (List (Str × PType))) := by
  refine .still (fun ps => ?_) fun _ _ _ _ _ => trivial
  rcases argumentTypes_run m c t ps with ⟨_, h, _⟩ | ⟨_, h, _⟩ <;> rw [h]

theorem filters_commandGenerate {ck : Bool} {b : Bracket} {m i : AST} {args : List Str} (h : ∀ s ∈ args, Returned e s) :
    PM.Filters p e Returned (commandGenerate ck b m i args : PM W Str) := by
  refine .bind (filters_nameOf _ _) fun e1 _ h1 _ => .bind (filters_nameOf _ _) fun e2 _ h2 _ =>
    .bind (filters_argumentTypes _ _ _) fun e3 ats h3 _ => ?_
  have ha : ∀ s ∈ args, Returned e3 s := fun s hs => (h s hs).mono fun c hc => h3 (h2 (h1 hc))
  unfold callCommand
  split
  · split
    · exact .bail
    · split
      · exact .bail
      · split
        · next hv => exact .callText (.inr fun s hs => ha s (bindArgs_texts hv s hs))
        · exact .still (fun _ => rfl) fun _ _ _ b hb => by cases hb
        · exact .still (fun _ => rfl) fun _ _ _ b hb => by cases hb
  · exact .still (fun _ => rfl) fun _ _ _ b hb => by cases hb
  · exact .still (fun _ => rfl) fun _ _ _ b hb => by cases hb

end

mutual

theorem filters_genChild (ck inDoc : Bool) : ∀ (a : AST) (e : List Call),
    PM.Filters p e Returned (genChild ck inDoc a : PM W Str)
  | .leaf .text i v l, e => by
    rcases v with _ | v
    · simp only [genChild, textGenerate]
      exact .bail
    · exact .of_run (y := fun _ => Plugins.callText p (chars! "text") .inline [.text v])
        (fun ps hk => by rw [genChild_text_run, hk]; rfl) fun _ => .callText (.inl ⟨rfl, rfl, rfl, v, rfl⟩)
  | .leaf .module _ _ _, _ | .leaf .ident _ _ _, _ | .leaf .invalid _ _ _, _ | .leaf .ignored _ _ _, _ => by
    simp only [genChild]; exact filters_bailWith _
  | .node .document _ _ _, _ => by simp only [genChild]; exact filters_bailWith _
  | .node .stmt i cs l, e => by
    simp only [genChild]
    split
    · exact .bind (filters_genChildren ck false cs e) fun e1 rs h1 hr => .of_run (fun ps _ => stmtHook_run _ ps) fun ps => .hookBy hr.1
    · exact filters_bailWith _
  | .node .expr i cs l, e => by
    simp only [genChild]
    exact .bind (filters_genChildren ck false cs e) fun e1 rs h1 hr => .of_run (fun ps _ => exprHook_run _ ps) fun ps => .hookBy hr.1
  | .node (.bracket .angle) _ _ _, _ => by simp only [genChild]; exact .bail
  | .node (.bracket .square) _ [] _, _ | .node (.bracket .square) _ [_] _, _
  | .node (.bracket .curly) _ [] _, _ | .node (.bracket .curly) _ [_] _, _ => by
    simp only [genChild]; exact .bail
  | .node (.bracket .square) _ (a :: b :: cs) _, e => by
    simp only [genChild]
    exact .bind (filters_genChildren ck false cs e) fun e1 rs h1 hr => filters_commandGenerate hr.2
  | .node (.bracket .curly) _ (a :: b :: cs) _, e => by
    simp only [genChild]
    exact .bind (filters_genChildren ck false cs e) fun e1 rs h1 hr => filters_commandGenerate hr.2

theorem filters_genChildren (ck inDoc : Bool) : ∀ (cs : List AST) (e : List Call),
    PM.Filters p e (fun e' rs => Returned e' rs.flatten ∧ ∀ r ∈ rs, Returned e' r)
      (genChildren ck inDoc cs : PM W (List Str))
  | [], _ => by simp only [genChildren]; exact .pure fun _ _ => ⟨⟨[], by simp, rfl⟩, by simp⟩
  | c :: cs, e => by
    have h1 := filters_genChild ck inDoc c e
    have h2 := fun e => filters_genChildren ck inDoc cs e
    simp only [genChildren]
    refine .bind h1 fun e1 r k1 hr => .bind (h2 e1) fun e2 rs k2 hrs => .pure fun old k3 => ?_
    have hr' := hr.mono fun c hc => k3 (k2 hc)
    rw [List.forall_mem_cons, List.flatten_cons]
    exact ⟨hr'.append (hrs.1.mono k3), hr', fun s hs => (hrs.2 s hs).mono k3⟩

end

theorem filters_generate (ck : Bool) (a : AST) (e : List Call) : PM.Filters p e Returned (generate ck a : PM W Str) := by
  rcases a with ⟨k, i, v, l⟩ | ⟨k, i, cs, l⟩
  · simp only [generate]; exact .bail
  · rcases k with _ | _ | _ | _ <;> simp only [generate]
    · exact .bind (filters_genChildren ck true cs e) fun e1 rs h1 hr =>
        .of_run (fun ps _ => documentHook_run _ ps) fun ps => .hookBy hr.1
    all_goals exact .bail

theorem filters_callMacro {e : List Call} {m c : Str} {a : AST} {i : Str} :
    PM.Filters p e (fun _ _ => True) (Plugins.callMacro m c a i : PM W AST) := by
  intro ps log0 old hk he hs hl
  have hh : (Plugins.callMacro m c a i ps).2.textHook = ps.textHook := by
    rw [Plugins.callMacro]
    rcases ps.nameToPlugin.get m with _ | q
    · rfl
    · simp only
      rcases q.signatures.get (c, PType.ast) with _ | md
      · rfl
      · simp only
        rcases W.callMacro q.extism md.callName a i with ⟨e | s, st⟩ <;> rfl
  refine ⟨hh.trans hk, ?_⟩
  rcases callMacro_log m c a i ps with h | ⟨t, o, h⟩
  · exact ⟨[], by rw [h, List.append_nil]; exact he, by rwa [List.append_nil], fun _ _ => trivial⟩
  · refine ⟨[⟨m, c, t, .tree a i, o⟩], by rw [h, he, List.append_assoc], hl.snoc (.inr fun s hm => ?_), fun _ _ => trivial⟩
    cases hm

mutual

theorem filters_expandOther (o : AST) : ∀ (a : AST) (e : List Call),
    PM.Filters p e (fun _ _ => True) (expandOther o a : PM W AST)
  | .leaf .text _ _ _, _ | .leaf .module _ _ _, _ | .leaf .ident _ _ _, _ => by
    simp only [expandOther]; exact .pure fun _ _ => trivial
  | .leaf .invalid _ _ _, _ | .leaf .ignored _ _ _, _ => by
    simp only [expandOther]
    exact .still (fun _ => rfl) fun _ _ _ b hb => by cases hb
  | .node k i cs l, e => by
    simp only [expandOther]
    exact .bind (filters_expandChildren o cs e) fun _ _ _ _ => .pure fun _ _ => trivial

theorem filters_expandChildren (o : AST) : ∀ (cs : List AST) (e : List Call),
    PM.Filters p e (fun _ _ => True) (expandChildren o cs : PM W (List AST))
  | [], _ => by simp only [expandChildren]; exact .pure fun _ _ => trivial
  | c :: cs, e => by
    have h1 := filters_expandOther o c e
    have h2 := fun e => filters_expandChildren o cs e
    rw [expandChildren.eq_def]
    split
    · exact .pure fun _ _ => trivial
    · next hc =>
      cases hc
      exact .bind (.bind .lift fun _ _ _ _ => filters_callMacro) fun _ _ _ _ => .bind (h2 _) fun _ _ _ _ => .pure fun _ _ => trivial
    · next hc =>
      cases hc
      exact .bind h1 fun _ _ _ _ => .bind (h2 _) fun _ _ _ _ => .pure fun _ _ => trivial

end

theorem filters_compileText (S : Segmenter) (ids : Nat → Str) (ck : Bool) (text : Str) :
    PM.Filters p [] Returned (compileText S ids ck text : PM W Str) := by
  refine .bind .lift fun _ ts _ h1 => .bind .lift fun _ c _ h2 => .bind .lift fun _ x _ h3 => ?_
  obtain ⟨a, es⟩ := x
  exact .bind (filters_expandOther _ _ _) fun e b _ hb => filters_generate ck _ e

/-! ### Each text once -/

/-- The texts given to the text hook. -/
abbrev filtered (calls : List (Tag × Call)) : List (List Str) := (calls.filter (·.1 = .text)).map (·.2.texts)

theorem HookCall.unfiltered {h : Option Str} {t : Tag} {c s r : Str} {typ : PType} {calls : List (Tag × Call)}
    (hc : HookCall h t c typ s calls r) (ht : t ≠ .text) : filtered calls = [] := by
  cases hc with
  | absent => rfl
  | called q r _ => simp [filtered, ht]

mutual

theorem Produces.filtered {ps : Plugins W} (hk : ps.textHook = some p) : ∀ {a : AST} {calls : List (Tag × Call)} {r : Str},
    Produces ps a calls r → filtered calls = (textsOf a.contents).map fun v => [v]
  | _, _, _, .text h => by
    cases h with
    | absent h => rw [hk] at h; cases h
    | called q r _ => rfl
  | _, _, _, .expr h h' => by
    have := ProducesAll.filtered hk h
    rw [Brack.filtered, List.filter_append, List.map_append]
    rw [show List.map _ _ = _ from h'.unfiltered (by decide), List.append_nil]
    exact this
  | _, _, _, .stmt h h' => by
    have := ProducesAll.filtered hk h
    rw [Brack.filtered, List.filter_append, List.map_append]
    rw [show List.map _ (List.filter _ _) = [] from h'.unfiltered (by decide), List.append_nil]
    exact this
  | _, _, _, .document h h' => by
    have := ProducesAll.filtered hk h
    rw [Brack.filtered, List.filter_append, List.map_append]
    rw [show List.map _ (List.filter _ _) = [] from h'.unfiltered (by decide), List.append_nil]
    exact this
  | _, _, _, .command h _ _ _ _ => by
    have := ProducesAll.filtered hk h
    rw [Brack.filtered, List.filter_append, List.map_append]
    simp only [AST.contents, AST.contentsL, List.cons_append, List.nil_append, textsOf, List.filterMap_cons, Content.text?]
    simpa using this

theorem ProducesAll.filtered {ps : Plugins W} (hk : ps.textHook = some p) : ∀ {as : List AST} {calls : List (Tag × Call)}
    {rs : List Str}, ProducesAll ps as calls rs → filtered calls = (textsOf (AST.contentsL as)).map fun v => [v]
  | _, _, _, .nil => rfl
  | _, _, _, .cons h h' => by
    have h1 := Produces.filtered hk h
    have h2 := ProducesAll.filtered hk h'
    rw [Brack.filtered, List.filter_append, List.map_append]
    rw [AST.contentsL, textsOf, List.filterMap_append, List.map_append]
    exact congr (congrArg _ h1) h2

end

/-- Calls with the tag of the text hook are calls of it, all others are given texts returned before. -/
def TagFiltered (p : Str) (calls : List (Tag × Call)) : Prop :=
  ∀ before c after, calls = before ++ c :: after →
    (c.1 = .text → ∃ v, c.2.Filters p v) ∧ (c.1 ≠ .text → ∀ s ∈ c.2.texts, Returned (before.map (·.2)) s)

theorem TagFiltered.append {xs ys : List (Tag × Call)} (hx : TagFiltered p xs)
    (hy : ∀ before c after, ys = before ++ c :: after → (c.1 = .text → ∃ v, c.2.Filters p v) ∧
      (c.1 ≠ .text → ∀ s ∈ c.2.texts, Returned ((xs ++ before).map (·.2)) s)) : TagFiltered p (xs ++ ys) := by
  intro before c after he
  rcases List.append_eq_append_iff.mp he with ⟨as, rfl, k2⟩ | ⟨bs, k1, k2⟩
  · exact hy as c after k2
  · rcases bs with _ | ⟨b, bs⟩
    · rw [List.append_nil] at k1
      subst k1
      simpa using hy [] c after k2.symm
    · injection k2 with k2 k3
      subst k2
      exact hx before c bs k1

theorem TagFiltered.both {xs ys : List (Tag × Call)} (hx : TagFiltered p xs) (hy : TagFiltered p ys) :
    TagFiltered p (xs ++ ys) :=
  hx.append fun before c after he => ⟨(hy before c after he).1, fun ht s hs => ((hy before c after he).2 ht s hs).mono
    (by rw [List.map_append]; exact List.subset_append_right _ _)⟩

theorem TagFiltered.snoc {xs : List (Tag × Call)} {t : Tag} {d : Call} (hx : TagFiltered p xs) (ht : t ≠ .text)
    (hd : ∀ s ∈ d.texts, Returned (xs.map (·.2)) s) : TagFiltered p (xs ++ [(t, d)]) := by
  refine hx.append fun before c after he => ?_
  rcases before with _ | ⟨b, before⟩
  · injection he with he _
    subst he
    exact ⟨fun h => absurd h ht, fun _ s hs => by simpa using hd s hs⟩
  · exact absurd (congrArg List.length he) (by simp)

theorem HookCall.tagFiltered {h : Option Str} {t : Tag} {c s r : Str} {typ : PType} {xs calls : List (Tag × Call)}
    (hc : HookCall h t c typ s calls r) (ht : t ≠ .text) (hx : TagFiltered p xs) (hs : Returned (xs.map (·.2)) s) :
    TagFiltered p (xs ++ calls) ∧ Returned ((xs ++ calls).map (·.2)) r := by
  cases hc with
  | absent => rw [List.append_nil]; exact ⟨hx, hs⟩
  | called q r _ =>
    exact ⟨hx.snoc ht (by simpa [Call.texts, Value.arguments] using hs),
      .single (c := ⟨q, c, typ, .values [.text s], .text r⟩) (by simp) rfl⟩

mutual

theorem Produces.tagFiltered {ps : Plugins W} (hk : ps.textHook = some p) : ∀ {a : AST} {calls : List (Tag × Call)} {r : Str},
    Produces ps a calls r → TagFiltered p calls ∧ Returned (calls.map (·.2)) r
  | _, _, _, .text (v := v) h => by
    cases h with
    | absent h => rw [hk] at h; cases h
    | called q r h =>
      have h : p = q := by rw [hk] at h; injection h
      subst h
      refine ⟨?_, .single (c := ⟨p, chars! "text", .inline, .values [.text v], .text _⟩) (List.mem_singleton.mpr rfl) rfl⟩
      intro before c after he
      rcases before with _ | ⟨b, before⟩
      · injection he with he _
        subst he
        exact ⟨fun _ => ⟨v, rfl, rfl, rfl, rfl⟩, fun h => absurd rfl h⟩
      · exact absurd (congrArg List.length he) (by simp)
  | _, _, _, .expr h h' => by
    have := ProducesAll.tagFiltered hk h
    exact h'.tagFiltered (by decide) this.1 this.2.1
  | _, _, _, .stmt h h' => by
    have := ProducesAll.tagFiltered hk h
    exact h'.tagFiltered (by decide) this.1 this.2.1
  | _, _, _, .document h h' => by
    have := ProducesAll.tagFiltered hk h
    exact h'.tagFiltered (by decide) this.1 this.2.1
  | _, _, _, .command (m := m) (c := c) (typ := typ) (vs := vs) (r := r) h _ _ _ hp => by
    have := ProducesAll.tagFiltered hk h
    exact ⟨this.1.snoc (by decide) fun s hs => this.2.2 s (passed_texts hp s hs),
      .single (c := ⟨m, c, typ, .values vs, .text r⟩) (by simp) rfl⟩

theorem ProducesAll.tagFiltered {ps : Plugins W} (hk : ps.textHook = some p) : ∀ {as : List AST} {calls : List (Tag × Call)}
    {rs : List Str}, ProducesAll ps as calls rs → TagFiltered p calls ∧ Returned (calls.map (·.2)) rs.flatten ∧
      ∀ r ∈ rs, Returned (calls.map (·.2)) r
  | _, _, _, .nil => ⟨fun before c after he => by simp at he, ⟨[], by simp, rfl⟩, by simp⟩
  | _, _, _, .cons (calls := calls) (calls' := calls') h h' => by
    have h1 := Produces.tagFiltered hk h
    have h2 := ProducesAll.tagFiltered hk h'
    have k1 : calls.map (·.2) ⊆ (calls ++ calls').map (·.2) := by rw [List.map_append]; exact List.subset_append_left _ _
    have k2 : calls'.map (·.2) ⊆ (calls ++ calls').map (·.2) := by rw [List.map_append]; exact List.subset_append_right _ _
    refine ⟨h1.1.both h2.1, ?_, ?_⟩
    · rw [List.flatten_cons]
      exact (h1.2.mono k1).append (h2.2.1.mono k2)
    · rw [List.forall_mem_cons]
      exact ⟨h1.2.mono k1, fun s hs => (h2.2.2 s hs).mono k2⟩

end

end Brack
