import Verif.Spec.Balance
import Verif.Spec.Sources
import Verif.Proof.GenOne
import Verif.Proof.Expressed

/-
Where the texts passed to plugins come from.
-/

namespace Brack

variable {W : Wasm} {D : Str}

theorem Sourced.mono {e e' : List Call} {s : Str} (h : Sourced e D s) (hs : e ⊆ e') : Sourced e' D s := by
  induction h with
  | done => exact .done
  | part hp _ ih => exact .part hp ih
  | result hc ho _ ih => exact .result (hs hc) ho ih

theorem Sourced.before {e : List Call} {s : Str} (g : Str) (h : Sourced e D s) : Sourced e (g ++ D) s := by
  induction h with
  | done => exact .done
  | @part gap p rest s hp h _ =>
    have := Sourced.part (gap := g ++ gap) hp h
    simpa only [List.append_assoc] using this
  | result hc ho _ ih => exact .result hc ho ih

theorem Sourced.after {e : List Call} {s : Str} (g : Str) (h : Sourced e D s) : Sourced e (D ++ g) s := by
  induction h with
  | done => exact .done
  | @part gap p rest s hp h ih =>
    have := Sourced.part (gap := gap) hp ih
    simpa only [List.append_assoc] using this
  | result hc ho _ ih => exact .result hc ho ih

theorem Sourced.infix {e : List Call} {s D' : Str} (h : Sourced e D s) (hi : D <:+: D') : Sourced e D' s := by
  obtain ⟨a, b, rfl⟩ := hi
  exact (h.before a).after b

theorem Sourced.append {e : List Call} {s t E : Str} (hs : Sourced e D s) (ht : Sourced e E t) :
    Sourced e (D ++ E) (s ++ t) := by
  induction hs with
  | done => exact ht.before _
  | @part gap p rest s hp h ih =>
    have := Sourced.part (gap := gap) hp ih
    simpa only [List.append_assoc] using this
  | @result d p s c hc ho _ ih =>
    rw [List.append_assoc]
    exact .result hc ho ih

theorem Sourced.single {e : List Call} {s : Str} {c : Call} (hc : c ∈ e) (h : c.output = .text s) : Sourced e D s := by
  have := Sourced.result (document := D) hc h .done
  rwa [List.append_nil] at this

/-- The texts are tame and stand in the document one after another. -/
inductive Laid : List Str → Str → Prop
  | nil {d} : Laid [] d
  | cons {gap p rest ps} (hp : Tame p) (h : Laid ps rest) : Laid (p :: ps) (gap ++ p ++ rest)

theorem Laid.before {ps : List Str} {d : Str} (g : Str) (h : Laid ps d) : Laid ps (g ++ d) := by
  cases h with
  | nil => exact .nil
  | @cons gap p rest ps hp h =>
    have := Laid.cons (gap := g ++ gap) hp h
    simpa only [List.append_assoc] using this

theorem Laid.after {ps : List Str} {d : Str} (g : Str) (h : Laid ps d) : Laid ps (d ++ g) := by
  induction h with
  | nil => exact .nil
  | @cons gap p rest ps hp h ih =>
    have := Laid.cons (gap := gap) hp ih
    simpa only [List.append_assoc] using this

theorem Laid.split : ∀ {xs ys : List Str} {d : Str}, Laid (xs ++ ys) d → ∃ d1 d2, d = d1 ++ d2 ∧ Laid xs d1 ∧ Laid ys d2
  | [], ys, d, h => ⟨[], d, rfl, .nil, h⟩
  | x :: xs, ys, _, .cons (gap := gap) (rest := rest) hp h => by
    obtain ⟨d1, d2, rfl, h1, h2⟩ := h.split
    exact ⟨gap ++ x ++ d1, d2, by simp, .cons hp h1, h2⟩

theorem Laid.single {v d : Str} (h : Laid [v] d) {e : List Call} : Sourced e d v := by
  cases h with
  | @cons gap _ rest _ hp _ =>
    have := Sourced.part (earlier := e) (gap := gap) (rest := rest) hp .done
    rwa [List.append_nil] at this

/-- Every call is made with texts that were there before. -/
def LogSourced (D : Str) (new : List Call) : Prop :=
  ∀ pre c post, new = pre ++ c :: post → ∀ s ∈ c.texts, Sourced pre D s

theorem LogSourced.nil : LogSourced D [] := by
  intro pre c post h
  simp at h

theorem LogSourced.snoc {new : List Call} {c : Call} (h : LogSourced D new) (hc : ∀ s ∈ c.texts, Sourced new D s) :
    LogSourced D (new ++ [c]) := by
  intro pre d post he
  rcases List.eq_nil_or_concat post with rfl | ⟨post', x, rfl⟩
  · obtain ⟨rfl, h2⟩ := List.append_inj' he rfl
    cases h2
    exact hc
  · have : new ++ [c] = (pre ++ d :: post') ++ [x] := by rw [he]; simp
    obtain ⟨h1, -⟩ := List.append_inj' this rfl
    exact h pre d post' h1

/-- After the calls `e`, the computation calls plugins only with texts that were there before, and `post` holds of its
result and the calls made until then. -/
def PM.Draws (D : Str) (e : List Call) (post : List Call → α → Prop) (x : PM W α) : Prop :=
  ∀ (ps : Plugins W) (log0 old : List Call), ps.log = log0 ++ old → e ⊆ old → LogSourced D old →
    ∃ new, (x ps).2.log = log0 ++ (old ++ new) ∧ LogSourced D (old ++ new) ∧ ∀ a, (x ps).1 = .ok a → post (old ++ new) a

section
variable {e : List Call}

theorem PM.Draws.still {post : List Call → α → Prop} {x : PM W α} (h : ∀ ps, (x ps).2 = ps)
    (hp : ∀ ps old, e ⊆ old → ∀ a, (x ps).1 = .ok a → post old a) : PM.Draws D e post x := by
  intro ps log0 old he hs hl
  refine ⟨[], ?_, by rwa [List.append_nil], fun a ha => ?_⟩
  · rw [h, List.append_nil]; exact he
  · rw [List.append_nil]; exact hp ps old hs a ha

theorem PM.Draws.pure {post : List Call → α → Prop} {a : α} (h : ∀ old, e ⊆ old → post old a) :
    PM.Draws D e post (Pure.pure a : PM W α) :=
  .still (fun _ => rfl) fun _ old hs b hb => by cases hb; exact h old hs

theorem PM.Draws.bail {post : List Call → α → Prop} {m : String} : PM.Draws D e post (PM.bail m : PM W α) :=
  .still (fun _ => rfl) fun _ old hs b hb => by cases hb

theorem PM.Draws.lift {r : Res α} : PM.Draws D e (fun _ a => r = .ok a) (PM.lift r : PM W α) :=
  .still (fun _ => rfl) fun _ old hs b hb => hb

theorem PM.Draws.bind {Q : List Call → α → Prop} {R : List Call → β → Prop} {x : PM W α} {f : α → PM W β}
    (hx : PM.Draws D e Q x) (hf : ∀ e' a, e ⊆ e' → Q e' a → PM.Draws D e' R (f a)) :
    PM.Draws D e R (x >>= f) := by
  intro ps log0 old he hs hl
  obtain ⟨new, h1, h2, h3⟩ := hx ps log0 old he hs hl
  rw [PM.bind_run]
  rcases hr : x ps with ⟨a | m | _, ps1⟩ <;> rw [hr] at h1 h3
  · obtain ⟨new', k1, k2, k3⟩ := hf _ a (fun c hc => List.mem_append_left _ (hs hc)) (h3 a rfl) ps1 log0 (old ++ new) h1
      (fun c hc => hc) h2
    refine ⟨new ++ new', ?_, ?_, ?_⟩ <;> rw [← List.append_assoc old] <;> assumption
  · exact ⟨new, h1, h2, fun b hb => by cases hb⟩
  · exact ⟨new, h1, h2, fun b hb => by cases hb⟩

/-- What a call adds to the log. -/
theorem callText_log (n c : Str) (t : PType) (vs : List Value) (ps : Plugins W) :
    ((Plugins.callText n c t vs ps).2.log = ps.log ∧ ∀ s, (Plugins.callText n c t vs ps).1 ≠ .ok s) ∨
    ∃ o, (Plugins.callText n c t vs ps).2.log = ps.log ++ [⟨n, c, t, .values vs, o⟩] ∧
      ∀ s, (Plugins.callText n c t vs ps).1 = .ok s → o = .text s := by
  rw [Plugins.callText]
  rcases ps.nameToPlugin.get n with _ | p
  · exact .inl ⟨rfl, fun s h => by cases h⟩
  · simp only
    rcases p.signatures.get (c, t) with _ | m
    · exact .inl ⟨rfl, fun s h => by cases h⟩
    · simp only
      rcases W.callText p.extism m.callName vs with ⟨e | s, st⟩
      · exact .inr ⟨.failed, rfl, fun s h => by cases h⟩
      · exact .inr ⟨.text s, rfl, fun s h => by cases h; rfl⟩

theorem PM.Draws.callText {n c : Str} {t : PType} {vs : List Value} (h : ∀ s ∈ vs.flatMap Value.arguments, Sourced e D s) :
    PM.Draws D e (fun e' r => ∀ E, Sourced e' E r) (Plugins.callText n c t vs : PM W Str) := by
  intro ps log0 old he hs hl
  rcases callText_log n c t vs ps with ⟨h1, h2⟩ | ⟨o, h1, h2⟩
  · refine ⟨[], ?_, by rwa [List.append_nil], fun a ha => absurd ha (h2 a)⟩
    rw [h1, List.append_nil]; exact he
  · refine ⟨[⟨n, c, t, .values vs, o⟩], ?_, hl.snoc fun s hm => ?_, fun a ha => ?_⟩
    · rw [h1, he, List.append_assoc]
    · exact (h s hm).mono hs
    · exact fun E => .single (c := ⟨n, c, t, .values vs, o⟩) (by simp) (h2 a ha)

theorem PM.Draws.of_run {post : List Call → α → Prop} {x : PM W α} {y : Plugins W → PM W α} (h : ∀ ps, x ps = y ps ps)
    (hy : ∀ ps, PM.Draws D e post (y ps)) : PM.Draws D e post x := by
  intro ps log0 old he hs hl
  rw [h]
  exact hy ps ps log0 old he hs hl

theorem PM.Draws.weaken {P Q : List Call → α → Prop} {x : PM W α} (h : PM.Draws D e P x) (hi : ∀ e' a, P e' a → Q e' a) :
    PM.Draws D e Q x := by
  intro ps log0 old he hs hl
  obtain ⟨new, h1, h2, h3⟩ := h ps log0 old he hs hl
  exact ⟨new, h1, h2, fun a ha => hi _ _ (h3 a ha)⟩

theorem PM.Draws.hookBy {hook : Option Str} {c : Str} {t : PType} {s E : Str} (h : Sourced e E s) (hE : E <:+: D) :
    PM.Draws D e (fun e' r => Sourced e' E r) (hookBy hook c t s : PM W Str) := by
  rcases hook with _ | p
  · exact .still (fun _ => rfl) fun _ old hs b hb => by cases hb; exact h.mono hs
  · exact .weaken (.callText (n := p) (c := c) (t := t) (vs := [.text s]) (by simpa [Value.arguments] using h.infix hE)) fun _ _ h => h E

theorem passed_texts {args : List Str} {ts : List PType} {vs : List Value} (h : PassedAll args ts vs) :
    ∀ s ∈ vs.flatMap Value.arguments, s ∈ args := by
  obtain ⟨hlen, h⟩ := h
  intro s hs
  obtain ⟨v, hv, hsv⟩ := List.mem_flatMap.mp hs
  obtain ⟨i, hi⟩ := List.mem_iff_getElem?.mp hv
  have hlt : i < ts.length := by rw [← hlen]; exact (List.getElem?_eq_some_iff.mp hi).1
  have hp := h i _ v (List.getElem?_eq_getElem hlt) hi
  generalize ts[i] = t at hp
  cases hp with
  | option =>
    simp only [Value.arguments, Option.mem_toList] at hsv
    exact List.mem_of_getElem? hsv
  | array => exact List.mem_of_mem_drop (by simpa [Value.arguments] using hsv)
  | required _ _ _ ha =>
    simp only [Value.arguments, List.mem_singleton] at hsv
    subst hsv
    exact List.mem_of_getElem? ha

theorem bindArgs_texts {args : List Str} {ts : List PType} {vs : List Value} (h : bindArgs args 0 ts = .ok vs) :
    ∀ s ∈ vs.flatMap Value.arguments, s ∈ args := passed_texts (bindArgs_passed h)

theorem draws_bailWith {post : List Call → Str → Prop} (a : AST) : PM.Draws D e post (bailWith a : PM W Str) :=
  .bind .lift fun _ _ _ _ => .bail

theorem draws_nameOf (k : ALKind) (a : AST) : PM.Draws D e (fun _ _ => True) (nameOf k a : PM W Str) := by
  unfold nameOf
  split
  · split
    · split
      · exact .pure fun _ _ => trivial
      · exact .bail
    · exact .bail
  · exact .bail

theorem draws_argumentTypes (m c : Str) (t : PType) :
    PM.Draws D e (fun _ _ => True) (Plugins.argumentTypes m c t : PM W (List (Str × PType))) := by
  refine .still (fun ps => ?_) fun _ _ _ _ _ => trivial
  rcases argumentTypes_run m c t ps with ⟨_, h, _⟩ | ⟨_, h, _⟩ <;> rw [h]

theorem draws_commandGenerate {ck : Bool} {b : Bracket} {m i : AST} {args : List Str} (h : ∀ s ∈ args, Sourced e D s) :
    PM.Draws D e (fun e' r => ∀ E, Sourced e' E r) (commandGenerate ck b m i args : PM W Str) := by
  refine .bind (draws_nameOf _ _) fun e1 _ h1 _ => .bind (draws_nameOf _ _) fun e2 _ h2 _ =>
    .bind (draws_argumentTypes _ _ _) fun e3 ats h3 _ => ?_
  have ha : ∀ s ∈ args, Sourced e3 D s := fun s hs => (h s hs).mono fun c hc => h3 (h2 (h1 hc))
  unfold callCommand
  split
  · split
    · exact .bail
    · split
      · exact .bail
      · split
        · next hv => exact .callText fun s hs => ha s (bindArgs_texts hv s hs)
        · exact .still (fun _ => rfl) fun _ _ _ b hb => by cases hb
        · exact .still (fun _ => rfl) fun _ _ _ b hb => by cases hb
  · exact .still (fun _ => rfl) fun _ _ _ b hb => by cases hb
  · exact .still (fun _ => rfl) fun _ _ _ b hb => by cases hb

end

/-- The texts among the leaves. -/
abbrev textsOf (cs : List Content) : List Str := cs.filterMap Content.text?

mutual

theorem draws_genChild (ck inDoc : Bool) : ∀ (a : AST) (e : List Call) (E : Str), E <:+: D → Laid (textsOf a.contents) E →
    PM.Draws D e (fun e' r => Sourced e' E r) (genChild ck inDoc a : PM W Str)
  | .leaf .text i v l, e, E, hE, h => by
    rcases v with _ | v
    · simp only [genChild, textGenerate]
      exact .bail
    · exact .of_run (genChild_text_run ck inDoc i v l) fun ps => .hookBy h.single hE
  | .leaf .module _ _ _, _, _, _, _ | .leaf .ident _ _ _, _, _, _, _ | .leaf .invalid _ _ _, _, _, _, _
  | .leaf .ignored _ _ _, _, _, _, _ => by
    simp only [genChild]; exact draws_bailWith _
  | .node .document _ _ _, _, _, _, _ => by simp only [genChild]; exact draws_bailWith _
  | .node .stmt i cs l, e, E, hE, h => by
    simp only [genChild]
    split
    · refine .bind (draws_genChildren ck false cs e E hE h) fun e1 rs h1 hr => ?_
      exact .of_run (stmtHook_run _) fun ps => .hookBy hr.1 hE
    · exact draws_bailWith _
  | .node .expr i cs l, e, E, hE, h => by
    simp only [genChild]
    refine .bind (draws_genChildren ck false cs e E hE h) fun e1 rs h1 hr => ?_
    exact .of_run (exprHook_run _) fun ps => .hookBy hr.1 hE
  | .node (.bracket .angle) _ _ _, _, _, _, _ => by simp only [genChild]; exact .bail
  | .node (.bracket .square) _ [] _, _, _, _, _ | .node (.bracket .square) _ [_] _, _, _, _, _
  | .node (.bracket .curly) _ [] _, _, _, _, _ | .node (.bracket .curly) _ [_] _, _, _, _, _ => by
    simp only [genChild]; exact .bail
  | .node (.bracket .square) _ (a :: b :: cs) _, e, E, hE, h => by
    have h' : Laid (textsOf (a.contents ++ b.contents) ++ textsOf (AST.contentsL cs)) E := by
      rw [← List.filterMap_append]; simpa [AST.contents, AST.contentsL] using h
    obtain ⟨d1, d2, rfl, -, h2⟩ := h'.split
    have := draws_genChildren ck false cs e d2 ((List.suffix_append d1 d2).isInfix.trans hE) h2
    simp only [genChild]
    exact .bind this fun e1 rs h1 hr => .weaken (draws_commandGenerate fun s hs =>
      (hr.2 s hs).infix ((List.suffix_append d1 d2).isInfix.trans hE)) fun _ _ h => h _
  | .node (.bracket .curly) _ (a :: b :: cs) _, e, E, hE, h => by
    have h' : Laid (textsOf (a.contents ++ b.contents) ++ textsOf (AST.contentsL cs)) E := by
      rw [← List.filterMap_append]; simpa [AST.contents, AST.contentsL] using h
    obtain ⟨d1, d2, rfl, -, h2⟩ := h'.split
    have := draws_genChildren ck false cs e d2 ((List.suffix_append d1 d2).isInfix.trans hE) h2
    simp only [genChild]
    exact .bind this fun e1 rs h1 hr => .weaken (draws_commandGenerate fun s hs =>
      (hr.2 s hs).infix ((List.suffix_append d1 d2).isInfix.trans hE)) fun _ _ h => h _

theorem draws_genChildren (ck inDoc : Bool) : ∀ (cs : List AST) (e : List Call) (E : Str), E <:+: D →
    Laid (textsOf (AST.contentsL cs)) E →
    PM.Draws D e (fun e' rs => Sourced e' E rs.flatten ∧ ∀ r ∈ rs, Sourced e' E r)
      (genChildren ck inDoc cs : PM W (List Str))
  | [], _, _, _, _ => by simp only [genChildren]; exact .pure fun _ _ => by simpa using .done
  | c :: cs, e, E, hE, h => by
    have h' : Laid (textsOf c.contents ++ textsOf (AST.contentsL cs)) E := by
      rw [← List.filterMap_append]; simpa [AST.contentsL] using h
    obtain ⟨d1, d2, rfl, h1, h2⟩ := h'.split
    have h1 := draws_genChild ck inDoc c e d1 ((List.prefix_append d1 d2).isInfix.trans hE) h1
    have h2 := fun e => draws_genChildren ck inDoc cs e d2 ((List.suffix_append d1 d2).isInfix.trans hE) h2
    simp only [genChildren]
    refine .bind h1 fun e1 r k1 hr => .bind (h2 e1) fun e2 rs k2 hrs => .pure fun old k3 => ?_
    have hr' := hr.mono fun c hc => k3 (k2 hc)
    rw [List.forall_mem_cons, List.flatten_cons]
    exact ⟨hr'.append (hrs.1.mono k3), hr'.after _, fun s hs => ((hrs.2 s hs).mono k3).before _⟩

end

theorem draws_generate (ck : Bool) (a : AST) (e : List Call) (h : Laid (textsOf a.contents) D) :
    PM.Draws D e (fun e' r => Sourced e' D r) (generate ck a : PM W Str) := by
  rcases a with ⟨k, i, v, l⟩ | ⟨k, i, cs, l⟩
  · simp only [generate]; exact .bail
  · rcases k with _ | _ | _ | _ <;> simp only [generate]
    · refine .bind (draws_genChildren ck true cs e D (List.infix_refl _) h) fun e1 rs h1 hr => ?_
      exact .of_run (documentHook_run _) fun ps => .hookBy hr.1 (List.infix_refl _)
    all_goals exact .bail

/-! ### Texts of the tree are parts of the document -/

theorem escapedChar_spelling {k : TokKind} {c : Char} (h : escapedChar k = some c) : k.spelling = [c] := by
  unfold escapedChar at h
  rw [Option.map_eq_some_iff] at h
  obtain ⟨p, hp, rfl⟩ := h
  have hk := List.find?_some hp
  have hm := List.mem_of_find?_eq_some hp
  have : ∀ p ∈ escapes, p.2.spelling = [p.1] := by decide
  rw [← this p hm]
  simp at hk
  rw [hk]

theorem trace_laid (n : Nat) : ∀ (ts st : List Token), ts.length ≤ n → (∀ t ∈ ts, ∀ v, t.kind = .text v → Tame v) →
    Laid (textsOf ((trace st ts).filterMap Event.content?)) (spell ts) := by
  have hun : ∀ st : List Token, (st.map Event.unclosed).filterMap Event.content? = [] := by
    intro st
    induction st with
    | nil => rfl
    | cons t st ih => simp [Event.content?]
  induction n with
  | zero =>
    intro ts st hl ht
    rcases ts with _ | _
    · rw [trace, hun]; exact .nil
    · simp at hl
  | succ n ih =>
    intro ts st hl ht
    rcases ts with _ | ⟨u, ts⟩
    · rw [trace, hun]; exact .nil
    · simp only [List.length_cons] at hl
      rw [List.forall_mem_cons] at ht
      have ih' := fun st => ih ts st (by omega) ht.2
      have hsp : spell (u :: ts) = u.kind.spelling ++ spell ts := rfl
      rw [trace.eq_def, hsp]
      obtain ⟨k, lc⟩ := u
      rcases k
      case bclose b =>
        simp only [List.filterMap_append, hun, List.nil_append]
        split
        · exact (ih' _).before _
        · exact (ih' _).before _
      case backSlash =>
        rcases ts with _ | ⟨w, ws⟩
        · simp only [List.filterMap_cons, hun, Event.content?]
          exact .nil
        · simp only [List.length_cons] at hl
          have ht := ht.2
          simp only
          split
          · next hc =>
            rw [List.forall_mem_cons] at ht
            have := ih ws st (by omega) ht.2
            have hsw : spell (w :: ws) = w.kind.spelling ++ spell ws := rfl
            rw [hsw, escapedChar_spelling hc, ← List.append_assoc]
            exact .cons (escapedChar_tame hc) this
          · exact (ih' _).before _
      case bopen b => exact (ih' _).before _
      case eof => simp only [hun]; exact .nil
      case empty => simp only [hun]; exact .nil
      case text v => exact .cons (gap := []) (ht.1 v rfl) (ih' _)
      all_goals exact (ih' _).before _

theorem reads_laid {S : Segmenter} {ids : Nat → Str} {text : Str} {ts : List Token} {c : CST} {a : AST} {es : List TErr}
    (h1 : tokenizeStr S text = .ok ts) (h2 : parse ts = .ok c) (h3 : transform ids c = .ok (a, es)) :
    Laid (textsOf a.contents) text := by
  rw [C22_content ts c ids a es h2 h3]
  rw [tokenizeStr_eq] at h1
  injection h1 with h1
  have h := trace_laid ts.length ts [] (Nat.le_refl _) fun t ht v hv =>
    run_tame (S.graphemes text) M.init (fun g hg hn hl => .cluster S hg hn hl) .nil t (by rw [h1]; exact ht) v hv
  have hs := tokens_spell S text
  rw [h1] at hs
  rw [hs] at h
  obtain ⟨b, hb⟩ := List.takeWhile_prefix (l := text) (· ≠ Char.ofNat 0)
  have := h.after b
  rwa [hb] at this

/-! ### The expander -/

section
variable {e : List Call}

theorem callMacro_log (n c : Str) (a : AST) (i : Str) (ps : Plugins W) :
    (Plugins.callMacro n c a i ps).2.log = ps.log ∨
    ∃ t o, (Plugins.callMacro n c a i ps).2.log = ps.log ++ [⟨n, c, t, .tree a i, o⟩] := by
  rw [Plugins.callMacro]
  rcases ps.nameToPlugin.get n with _ | p
  · exact .inl rfl
  · simp only
    rcases p.signatures.get (c, PType.ast) with _ | m
    · exact .inl rfl
    · simp only
      rcases W.callMacro p.extism m.callName a i with ⟨e | s, st⟩
      · exact .inr ⟨_, _, rfl⟩
      · exact .inr ⟨_, _, rfl⟩

theorem draws_callMacro {m c : Str} {a : AST} {i : Str} : PM.Draws D e (fun _ _ => True) (Plugins.callMacro m c a i : PM W AST) := by
  intro ps log0 old he hs hl
  rcases callMacro_log m c a i ps with h | ⟨t, o, h⟩
  · exact ⟨[], by rw [h, List.append_nil]; exact he, by rwa [List.append_nil], fun _ _ => trivial⟩
  · refine ⟨[⟨m, c, t, .tree a i, o⟩], by rw [h, he, List.append_assoc], hl.snoc fun s hm => ?_, fun _ _ => trivial⟩
    cases hm

end

mutual

theorem draws_expandOther (o : AST) : ∀ (a : AST) (e : List Call),
    PM.Draws D e (fun _ b => b = a) (expandOther o a : PM W AST)
  | .leaf .text _ _ _, _ | .leaf .module _ _ _, _ | .leaf .ident _ _ _, _ => by
    simp only [expandOther]; exact .pure fun _ _ => rfl
  | .leaf .invalid _ _ _, _ | .leaf .ignored _ _ _, _ => by
    simp only [expandOther]
    exact .still (fun _ => rfl) fun _ _ _ b hb => by cases hb
  | .node k i cs l, e => by
    simp only [expandOther]
    exact .bind (draws_expandChildren o cs e) fun _ _ _ _ => .pure fun _ _ => rfl

theorem draws_expandChildren (o : AST) : ∀ (cs : List AST) (e : List Call),
    PM.Draws D e (fun _ _ => True) (expandChildren o cs : PM W (List AST))
  | [], _ => by simp only [expandChildren]; exact .pure fun _ _ => trivial
  | c :: cs, e => by
    have h1 := draws_expandOther o c e
    have h2 := fun e => draws_expandChildren o cs e
    rw [expandChildren.eq_def]
    split
    · exact .pure fun _ _ => trivial
    · next hc =>
      cases hc
      exact .bind (.bind .lift fun _ _ _ _ => draws_callMacro) fun _ _ _ _ => .bind (h2 _) fun _ _ _ _ => .pure fun _ _ => trivial
    · next hc =>
      cases hc
      exact .bind h1 fun _ _ _ _ => .bind (h2 _) fun _ _ _ _ => .pure fun _ _ => trivial

end

theorem draws_compileText (S : Segmenter) (ids : Nat → Str) (ck : Bool) (text : Str) :
    PM.Draws text [] (fun e' r => Sourced e' text r) (compileText S ids ck text : PM W Str) := by
  refine .bind .lift fun _ ts _ h1 => .bind .lift fun _ c _ h2 => .bind .lift fun _ x _ h3 => ?_
  obtain ⟨a, es⟩ := x
  refine .bind (draws_expandOther _ _ _) fun e b _ hb => ?_
  subst hb
  exact draws_generate ck _ e (reads_laid h1 h2 h3)

end Brack
