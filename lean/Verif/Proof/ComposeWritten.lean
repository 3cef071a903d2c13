import Verif.Proof.ComposeCases
import Verif.Proof.WrittenParse

/-
Helper lemmas: commands as their authors write them are commands.
-/

namespace Brack

/-- Tokens that can stand in a command: brackets in pairs, the last command has a name. -/
structure Tidy (ts : List Token) : Prop where
  nested : ∀ r, Nested r → Nested (ts ++ r)
  level : depth ts = 0
  above : ∀ p, p <+: ts → 0 ≤ depth p
  named : nameDue false ts = false

theorem Tidy.nil : Tidy [] :=
  ⟨fun _ h => h, rfl, fun p h => by rw [List.prefix_nil.mp h]; decide, rfl⟩

theorem prefix_append_cases {p a b : List Token} (h : p <+: a ++ b) : p <+: a ∨ ∃ q, p = a ++ q ∧ q <+: b := by
  induction a generalizing p with
  | nil => exact .inr ⟨p, rfl, h⟩
  | cons x a ih =>
    rcases p with _ | ⟨y, p⟩
    · exact .inl List.nil_prefix
    · obtain ⟨rfl, h2⟩ := List.cons_prefix_cons.mp h
      rcases ih h2 with h | ⟨q, rfl, hq⟩
      · exact .inl (List.cons_prefix_cons.mpr ⟨rfl, h⟩)
      · exact .inr ⟨q, rfl, hq⟩

theorem Tidy.append {a b} (ha : Tidy a) (hb : Tidy b) : Tidy (a ++ b) := by
  refine ⟨fun r h => ?_, ?_, fun p h => ?_, ?_⟩
  · rw [List.append_assoc]; exact ha.nested _ (hb.nested _ h)
  · rw [depth_append, ha.level, hb.level]; rfl
  · rcases prefix_append_cases h with h | ⟨q, rfl, hq⟩
    · exact ha.above p h
    · rw [depth_append, ha.level]
      have := hb.above q hq
      omega
  · rw [nameDue_append, ha.named, hb.named]

theorem depth_one {t : Token} (h : ∀ b, t.kind ≠ .bopen b ∧ t.kind ≠ .bclose b) : depth [t] = 0 := by
  unfold depth
  rcases t with ⟨k, l⟩
  cases k <;> simp at h ⊢

theorem Tidy.word {t : Token} (h : t.IsWord) : Tidy [t] := by
  have hd : depth [t] = 0 := depth_one h.2.2.2
  refine ⟨fun r hr => .word h hr, hd, fun p hp => ?_, ?_⟩
  · rcases p with _ | ⟨x, p⟩
    · decide
    · obtain ⟨rfl, h2⟩ := List.cons_prefix_cons.mp hp
      rw [List.prefix_nil.mp h2, hd]; decide
  · obtain ⟨_, _, _, h⟩ := h
    rcases t with ⟨k, l⟩
    cases k <;> simp [nameDue] at h ⊢

theorem Tidy.escape {t u : Token} (ht : t.kind = .backSlash) (hu : u.kind ≠ .eof ∧ u.kind ≠ .empty ∧ (∀ b, u.kind ≠ .bopen b ∧ u.kind ≠ .bclose b)) :
    Tidy [t, u] := by
  have h1 : depth [t] = 0 := depth_one (by rw [ht]; simp)
  have h2 : depth [u] = 0 := depth_one hu.2.2
  have h3 : depth [t, u] = 0 := by rw [depth_cons, h1, h2]; rfl
  refine ⟨fun r hr => .escape ht hu.1 hu.2.1 hr, h3, fun p hp => ?_, ?_⟩
  · rcases p with _ | ⟨x, p⟩
    · decide
    · obtain ⟨rfl, h4⟩ := List.cons_prefix_cons.mp hp
      rcases p with _ | ⟨y, p⟩
      · rw [h1]; decide
      · obtain ⟨rfl, h5⟩ := List.cons_prefix_cons.mp h4
        rw [List.prefix_nil.mp h5, h3]; decide
  · obtain ⟨_, _, h⟩ := hu
    rcases t with ⟨k, l⟩
    obtain rfl : k = .backSlash := ht
    rcases u with ⟨k, l⟩
    cases k <;> simp [nameDue] at h ⊢

theorem Tidy.call {o m d i c : Token} {b : Bracket} {body} (ho : o.kind = .bopen b) (hm : ∃ s, m.kind = .module s) (hd : d.kind = .dot)
    (hi : ∃ s, i.kind = .ident s) (hb : Tidy body) (hc : c.kind = .bclose b) : Tidy (o :: m :: d :: i :: body ++ [c]) ∧
      Nested (m :: d :: i :: body) ∧ depth (m :: d :: i :: body) = 0 ∧ (∀ p, p <+: m :: d :: i :: body → 0 ≤ depth p) ∧
      nameDue false (o :: m :: d :: i :: body) = false := by
  obtain ⟨sm, hm⟩ := hm
  obtain ⟨si, hi⟩ := hi
  have w1 : Tidy [m] := .word (by simp [Token.IsWord, hm])
  have w2 : Tidy [d] := .word (by simp [Token.IsWord, hd])
  have w3 : Tidy [i] := .word (by simp [Token.IsWord, hi])
  have hall : Tidy (m :: d :: i :: body) := w1.append (w2.append (w3.append hb))
  have hdo : depth [o] = 1 := by unfold depth; simp [ho]
  have hdc : depth [c] = -1 := by unfold depth; simp [hc]
  have hname : nameDue false (o :: m :: d :: i :: body) = false := by
    simp only [nameDue, ho, hm, hd, hi]
    exact hb.named
  have hlev : depth (o :: m :: d :: i :: body) = 1 := by rw [depth_cons, hdo, hall.level]; rfl
  refine ⟨⟨fun r hr => ?_, ?_, fun p hp => ?_, ?_⟩, ?_, hall.level, hall.above, hname⟩
  · have := Nested.group (o := o) (c := c) (b := b) ho (by simpa using hall.nested [] .nil) hc hr
    simpa using this
  · rw [depth_append, hlev, hdc]; rfl
  · rcases prefix_append_cases hp with h | ⟨q, rfl, hq⟩
    · rcases p with _ | ⟨x, p⟩
      · decide
      · obtain ⟨rfl, h2⟩ := List.cons_prefix_cons.mp h
        rw [depth_cons, hdo]
        have := hall.above p h2
        omega
    · rw [depth_append, hlev]
      rcases q with _ | ⟨x, q⟩
      · decide
      · obtain ⟨rfl, h2⟩ := List.cons_prefix_cons.mp hq
        rw [List.prefix_nil.mp h2, hdc]; decide
  · rw [nameDue_append, hname]
    simp [nameDue, hc]
  · simpa using hall.nested [] .nil

theorem tidy_call (b : Bracket) (m nm : Str) (args : List (List Markup))
    (hrec : ∀ ts : List Token, Markup.okArgs args = true → ts.map (·.kind) = Markup.toksArgs args → Tidy ts) : ∀ (inside : Bool) (ts : List Token),
    (Markup.call b m nm args).ok inside = true → ts.map (·.kind) = (Markup.call b m nm args).toks →
    Tidy ts ∧ ∃ o body c, ts = o :: body ++ [c] ∧ o.kind = .bopen b ∧ c.kind = .bclose b ∧ Nested body ∧ depth body = 0 ∧
      (∀ p, p <+: body → 0 ≤ depth p) ∧ nameDue false (o :: body) = false := by
  intro inside ts hok hk
  simp only [Markup.ok, Bool.and_eq_true] at hok
  obtain ⟨_, ha, ha'⟩ := hok
  rw [Markup.toks] at hk
  obtain ⟨t, ts, rfl, h1, hk⟩ := map_cons_split hk
  obtain ⟨tm, ts, rfl, h2, hk⟩ := map_cons_split hk
  obtain ⟨td, ts, rfl, h3, hk⟩ := map_cons_split hk
  obtain ⟨ti, ts, rfl, h4, hk⟩ := map_cons_split hk
  obtain ⟨ta, tu, rfl, h5, h6⟩ := List.map_eq_append_iff.1 hk
  obtain ⟨u, tu, rfl, hu, h7⟩ := map_cons_split h6
  obtain rfl := List.map_eq_nil_iff.1 h7
  have hta : Tidy ta := by
    cases hargs : args.isEmpty
    · rw [hargs] at h5
      obtain ⟨tw, ta, rfl, h8, h9⟩ := map_cons_split h5
      exact (Tidy.word (t := tw) (by simp [Token.IsWord, h8])).append (hrec ta ha h9)
    · rw [hargs] at h5
      obtain rfl := List.map_eq_nil_iff.1 h5
      exact .nil
  obtain ⟨k1, k2, k3, k4, k5⟩ := Tidy.call h1 ⟨_, h2⟩ h3 ⟨_, h4⟩ hta hu
  exact ⟨by simpa using k1, t, tm :: td :: ti :: ta, u, by simp, h1, hu, k2, k3, k4, k5⟩

mutual

theorem tidy_item (i : Markup) : ∀ (inside : Bool) (ts : List Token), i.ok inside = true → ts.map (·.kind) = i.toks → Tidy ts := by
  intro inside ts hok hk
  rcases i with s | c | c | ⟨b, m, nm, args⟩
  · obtain ⟨t, ts, rfl, h1, h2⟩ := map_cons_split hk
    obtain rfl := List.map_eq_nil_iff.1 h2
    exact .word (by simp [Token.IsWord, h1])
  · obtain ⟨t, ts, rfl, h1, h2⟩ := map_cons_split hk
    obtain ⟨u, ts, rfl, h3, h4⟩ := map_cons_split h2
    obtain rfl := List.map_eq_nil_iff.1 h4
    refine .escape h1 ?_
    rw [h3]
    unfold escapeTok
    split
    · simp
    · split <;> simp
  · obtain ⟨t, ts, rfl, h1, h2⟩ := map_cons_split hk
    obtain rfl := List.map_eq_nil_iff.1 h2
    refine .word ?_
    unfold Token.IsWord
    rw [h1]
    split <;> simp
  · exact (tidy_call b m nm args (tidy_args args) inside ts hok hk).1

theorem tidy_list (is : List Markup) : ∀ (ts : List Token), Markup.okL true is = true → ts.map (·.kind) = Markup.toksL is → Tidy ts := by
  intro ts hok hk
  rcases is with _ | ⟨i, is⟩
  · obtain rfl := List.map_eq_nil_iff.1 hk
    exact .nil
  · simp only [Markup.okL, Bool.and_eq_true] at hok
    rw [Markup.toksL] at hk
    obtain ⟨t1, t2, rfl, h1, h2⟩ := List.map_eq_append_iff.1 hk
    exact (tidy_item i true t1 hok.1.1 h1).append (tidy_list is t2 hok.1.2 h2)

theorem tidy_args (as : List (List Markup)) : ∀ (ts : List Token), Markup.okArgs as = true → ts.map (·.kind) = Markup.toksArgs as → Tidy ts := by
  intro ts hok hk
  rcases as with _ | ⟨a, as⟩
  · obtain rfl := List.map_eq_nil_iff.1 hk
    exact .nil
  · simp only [Markup.okArgs, Bool.and_eq_true] at hok
    rw [Markup.toksArgs] at hk
    obtain ⟨t1, t2, rfl, h1, h2⟩ := List.map_eq_append_iff.1 hk
    refine (tidy_list a t1 hok.1 h1).append ?_
    cases has : as.isEmpty
    · rw [has] at h2
      obtain ⟨t, t2, rfl, h3, h4⟩ := map_cons_split h2
      exact (Tidy.word (t := t) (by simp [Token.IsWord, h3])).append (tidy_args as t2 hok.2 h4)
    · rw [has] at h2
      obtain rfl := List.map_eq_nil_iff.1 h2
      exact .nil

end

/-! ### texts without NUL -/

theorem plain_noNul {cs : List Char} {s : Str} (h : plainBut cs s = true) (hc : Char.ofNat 0 ∈ cs) : Char.ofNat 0 ∉ s := by
  simp only [plainBut, Bool.and_eq_true, List.all_eq_true, Bool.not_eq_true', List.contains_eq_mem, decide_eq_false_iff_not] at h
  exact fun hm => h.2 _ hm hc

mutual

theorem noNul_item (i : Markup) : ∀ inside, i.ok inside = true → Char.ofNat 0 ∉ i.write := by
  intro inside hok
  rcases i with s | c | c | ⟨b, m, nm, args⟩
  · exact plain_noNul hok (by cases inside <;> decide)
  · simp only [Markup.ok, Bool.or_eq_true, beq_iff_eq, Bool.and_eq_true] at hok
    rcases hok with rfl | ⟨_, rfl | rfl⟩ <;> decide
  · simp only [Markup.ok, Bool.or_eq_true, beq_iff_eq, Bool.and_eq_true] at hok
    rcases hok with ⟨_, rfl | rfl⟩ <;> decide
  · simp only [Markup.ok, Bool.and_eq_true] at hok
    obtain ⟨⟨hm, hn⟩, ha, ha'⟩ := hok
    have h1 := plain_noNul hm (by decide)
    have h2 := plain_noNul hn (by decide)
    have h3 := noNul_args args ha
    have h4 : Char.ofNat 0 ≠ b.openChar ∧ Char.ofNat 0 ≠ b.closeChar := by cases b <;> decide
    rw [Markup.write]
    simp only [List.mem_append, List.mem_cons, List.mem_nil_iff, or_false, not_or]
    refine ⟨⟨⟨⟨h4.1, h1⟩, by decide, h2⟩, ?_⟩, h4.2⟩
    split
    · simp
    · simp only [List.mem_cons, not_or]
      exact ⟨by decide, h3⟩

theorem noNul_list (is : List Markup) : Markup.okL true is = true → Char.ofNat 0 ∉ Markup.writeL is := by
  intro hok
  rcases is with _ | ⟨i, is⟩
  · simp [Markup.writeL]
  · simp only [Markup.okL, Bool.and_eq_true] at hok
    rw [Markup.writeL, List.mem_append, not_or]
    exact ⟨noNul_item i true hok.1.1, noNul_list is hok.1.2⟩

theorem noNul_args (as : List (List Markup)) : Markup.okArgs as = true → Char.ofNat 0 ∉ Markup.writeArgs as := by
  intro hok
  rcases as with _ | ⟨a, as⟩
  · simp [Markup.writeArgs]
  · simp only [Markup.okArgs, Bool.and_eq_true] at hok
    rw [Markup.writeArgs, List.mem_append, not_or]
    refine ⟨noNul_list a hok.1, ?_⟩
    split
    · simp
    · simp only [List.mem_cons, not_or]
      exact ⟨by decide, noNul_args as hok.2⟩

end

/-- A command as it is written is a command. -/
theorem command_written {S : Segmenter} {b : Bracket} {m n : Str} {args : List (List Markup)} (inside : Bool)
    (hok : (Markup.call b m n args).ok inside = true) (ho : OwnClusters S (Markup.call b m n args).write) :
    Command S b (Markup.call b m n args).write := by
  have hw : ∃ t, (Markup.call b m n args).write = b.openChar :: t := by rw [Markup.write]; exact ⟨_, rfl⟩
  have hok' : (Markup.call b m n args).ok false = true := by rw [Markup.ok] at hok ⊢; exact hok
  have he := Eats.item (S := S) (.call b m n args) false 0 [] (by decide) (by decide) hok' (by simp [Markup.isWords])
  have hk := he.all ho (m := M.init) ⟨rfl, rfl, rfl⟩
  unfold kindsFrom at hk
  obtain ⟨ts, tu, h0, h1, h2⟩ := List.map_eq_append_iff.1 hk
  obtain ⟨e, tu, rfl, he, h7⟩ := map_cons_split h2
  obtain rfl := List.map_eq_nil_iff.1 h7
  obtain ⟨_, o, body, c, rfl, k⟩ := tidy_call b m n args (tidy_args args) false ts hok' h1
  refine ⟨noNul_item _ _ hok, ?_, o, body, c, e, ?_, k.1, k.2⟩
  · obtain ⟨t, ht⟩ := hw
    rw [ht] at ho ⊢
    obtain ⟨gs, hg⟩ : ∃ gs, S.graphemes (b.openChar :: t) = [b.openChar] :: gs := ⟨_, (own_cons ho (open_mark b).1).1⟩
    exact ⟨gs, hg⟩
  · rw [tokenizeStr_eq, h0]
    simp

end Brack
