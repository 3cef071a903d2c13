import Verif.Spec.BadInput
import Verif.Proof.Session
import Verif.Proof.Stops

/-
How the server takes bytes that are no messages.
-/

namespace Brack

/-! ### Splitting -/

theorem splitStrLoop_first {sep : Str} (hs : sep ≠ []) (b : Str) : ∀ (a acc : Str), ¬ sep <:+: a ++ sep.dropLast →
    splitStrLoop sep 0 acc (a ++ sep ++ b) = (acc.reverse ++ a) :: splitStrLoop sep 0 [] b
  | [], acc, _ => by rw [List.nil_append, splitStrLoop_here hs, List.append_nil]
  | c :: a, acc, h => by
    rw [List.cons_append, List.cons_append, splitStrLoop, if_neg, splitStrLoop_first hs b a (c :: acc)]
    · simp
    · intro hi
      exact h (hi.trans (List.suffix_cons c _).isInfix)
    · intro hp
      have hp := List.isPrefixOf_iff_prefix.mp hp
      refine h (List.IsPrefix.isInfix ?_)
      have hlen : sep.length ≤ (c :: a ++ sep.dropLast).length := by
        have : 0 < sep.length := List.length_pos_iff.mpr hs
        simp only [List.length_cons, List.length_append, List.length_dropLast, List.cons_append]
        omega
      have hq : c :: a ++ sep.dropLast <+: c :: (a ++ sep ++ b) := by
        refine ⟨[sep.getLast hs] ++ b, ?_⟩
        rw [← List.append_assoc, List.append_assoc (c :: a), List.dropLast_concat_getLast]
        rfl
      exact List.prefix_of_prefix_length_le hp hq hlen

theorem splitStr_first {sep a : Str} (hs : sep ≠ []) (h : ¬ sep <:+: a ++ sep.dropLast) (b : Str) :
    splitStr sep (a ++ sep ++ b) = a :: splitStr sep b := by
  rw [splitStr, splitStrLoop_first hs b a [] h]
  rfl

theorem first_of_infix {sep : Str} (hs : sep ≠ []) : ∀ (s : Str), sep <:+: s →
    ∃ a b, s = a ++ sep ++ b ∧ ¬ sep <:+: a ++ sep.dropLast
  | [], h => absurd (List.infix_nil.mp h) hs
  | c :: s, h => by
    by_cases hp : sep <+: c :: s
    · obtain ⟨b, hb⟩ := hp
      refine ⟨[], b, by rw [← hb]; rfl, fun hi => ?_⟩
      have h1 := hi.length_le
      have : 0 < sep.length := List.length_pos_iff.mpr hs
      simp only [List.nil_append, List.length_dropLast] at h1
      omega
    · have hi : sep <:+: s := (List.infix_cons_iff.mp h).resolve_left hp
      obtain ⟨a, b, rfl, hab⟩ := first_of_infix hs s hi
      refine ⟨c :: a, b, rfl, fun h' => ?_⟩
      rcases List.infix_cons_iff.mp h' with h' | h'
      · refine hp (h'.trans ?_)
        refine ⟨[sep.getLast hs] ++ b, ?_⟩
        show c :: (a ++ sep.dropLast) ++ _ = c :: (a ++ sep ++ b)
        rw [List.cons_append, ← List.append_assoc, List.append_assoc a, List.dropLast_concat_getLast]
      · exact hab h'

theorem splitStr_none {sep s : Str} (h : ¬ sep <:+: s) : splitStr sep s = [s] :=
  splitStr_whole fun a b he => h ⟨a, b, he.symm⟩

theorem not_infix_pair {x y : Char} (hxy : x ≠ y) {l : Str} (h : ¬ [x, y] <:+: l) : ¬ [x, y] <:+: l ++ [x] := by
  rintro ⟨a, b, hab⟩
  rcases List.eq_nil_or_concat b with rfl | ⟨b', z, rfl⟩
  · rw [List.append_nil, show [x, y] = [x] ++ [y] from rfl, ← List.append_assoc] at hab
    have := (List.append_inj' hab rfl).2
    injection this with this
    exact hxy this.symm
  · rw [List.concat_eq_append, ← List.append_assoc] at hab
    exact h ⟨a, b', (List.append_inj' hab rfl).1⟩

/-! ### Headers -/

theorem headerOf_iff {text header : Str} : (∃ rest, HeaderOf text header rest) ↔
    ∃ y ys, splitStr (chars! "\r\n\r\n") text = header :: y :: ys := by
  constructor
  · rintro ⟨rest, rfl, h⟩
    rw [splitStr_first (by decide) h]
    obtain ⟨x, xs, hx⟩ := List.exists_cons_of_ne_nil (splitStrLoop_ne_nil (chars! "\r\n\r\n") 0 [] rest)
    exact ⟨x, xs, by rw [splitStr, hx]⟩
  · rintro ⟨y, ys, h⟩
    by_cases hi : chars! "\r\n\r\n" <:+: text
    · obtain ⟨a, b, rfl, hab⟩ := first_of_infix (by decide) _ hi
      rw [splitStr_first (by decide) hab] at h
      injection h with h1 h2
      subst h1
      exact ⟨b, rfl, hab⟩
    · rw [splitStr_none hi] at h
      cases h

theorem headerOf_unique {text header rest header' rest' : Str} (h : HeaderOf text header rest) (h' : HeaderOf text header' rest') :
    header = header' ∧ rest = rest' := by
  obtain ⟨y, ys, h1⟩ := headerOf_iff.mp ⟨rest, h⟩
  obtain ⟨y', ys', h2⟩ := headerOf_iff.mp ⟨rest', h'⟩
  rw [h1] at h2
  injection h2 with h2 _
  subst h2
  refine ⟨rfl, ?_⟩
  have := h.1.symm.trans h'.1
  exact List.append_cancel_left this

theorem linesOf_iff {header : Str} : ∀ {lines : List Str}, LinesOf header lines ↔ splitStr (chars! "\r\n") header = lines := by
  have hx : ∀ {l : Str}, ¬ chars! "\r\n" <:+: l → ¬ chars! "\r\n" <:+: l ++ (chars! "\r\n").dropLast := fun h =>
    not_infix_pair (by decide) h
  have h1 : ∀ (lines : List Str) (header : Str), LinesOf header lines → splitStr (chars! "\r\n") header = lines := by
    intro lines
    induction lines with
    | nil => intro _ h; exact absurd rfl h.1
    | cons l lines ih =>
      rintro header ⟨_, rfl, hl⟩
      cases lines with
      | nil =>
        simp only [List.intercalate, List.intersperse, List.flatten_cons, List.flatten_nil, List.append_nil]
        exact splitStr_none (hl l List.mem_cons_self)
      | cons l' lines =>
        have he : (chars! "\r\n").intercalate (l :: l' :: lines) = l ++ chars! "\r\n" ++ (chars! "\r\n").intercalate (l' :: lines) := by
          simp [List.intercalate, List.intersperse]
        rw [he, splitStr_first (by decide) (hx (hl l List.mem_cons_self))]
        rw [ih _ ⟨by simp, rfl, fun l hm => hl l (List.mem_cons_of_mem _ hm)⟩]
  have h2 : ∀ (n : Nat) (header : Str), header.length ≤ n → ∃ lines, LinesOf header lines := by
    intro n
    induction n with
    | zero =>
      intro header hn
      have : header = [] := List.length_eq_zero_iff.mp (Nat.le_zero.mp hn)
      subst this
      exact ⟨[[]], by simp, rfl, by simp⟩
    | succ n ih =>
      intro header hn
      by_cases hi : chars! "\r\n" <:+: header
      · obtain ⟨a, b, rfl, hab⟩ := first_of_infix (by decide) _ hi
        obtain ⟨lines, h3, h4, h5⟩ := ih b (by simp only [List.length_append, List.length_cons, List.length_nil] at hn; omega)
        refine ⟨a :: lines, by simp, ?_, ?_⟩
        · cases lines with
          | nil => exact absurd rfl h3
          | cons l lines =>
            rw [h4]
            simp [List.intercalate, List.intersperse]
        · intro l hl
          rcases List.mem_cons.mp hl with rfl | hl
          · exact fun h => hab (h.trans (List.prefix_append _ _).isInfix)
          · exact h5 l hl
      · exact ⟨[header], by simp, by simp [List.intercalate, List.intersperse], by simpa using hi⟩
  intro lines
  refine ⟨h1 lines header, fun h => ?_⟩
  obtain ⟨lines', hl⟩ := h2 _ header (Nat.le_refl _)
  rw [h1 _ _ hl] at h
  exact h ▸ hl

/-! ### Lines -/

theorem fieldOf_iff {line name value : Str} : FieldOf line name value ↔ ∃ more, splitStr (chars! ": ") line = name :: value :: more := by
  have hx : ∀ {l : Str}, ¬ chars! ": " <:+: l → ¬ chars! ": " <:+: l ++ (chars! ": ").dropLast := fun h =>
    not_infix_pair (by decide) h
  have hback : ∀ {l : Str}, ¬ chars! ": " <:+: l ++ (chars! ": ").dropLast → ¬ chars! ": " <:+: l := fun h h' =>
    h (h'.trans (List.prefix_append _ _).isInfix)
  constructor
  · rintro ⟨more, rfl, h1, h2, h3⟩
    rw [List.append_assoc, splitStr_first (by decide) (hx h1)]
    rcases h3 with rfl | ⟨m, rfl⟩
    · exact ⟨[], by rw [List.append_nil, splitStr_none h2]⟩
    · exact ⟨_, by rw [← List.append_assoc, splitStr_first (by decide) (hx h2)]⟩
  · rintro ⟨more, h⟩
    by_cases hi : chars! ": " <:+: line
    · obtain ⟨a, b, rfl, hab⟩ := first_of_infix (by decide) _ hi
      rw [splitStr_first (by decide) hab] at h
      injection h with h1 h
      subst h1
      by_cases hj : chars! ": " <:+: b
      · obtain ⟨c, d, rfl, hcd⟩ := first_of_infix (by decide) _ hj
        rw [splitStr_first (by decide) hcd] at h
        injection h with h2 _
        subst h2
        exact ⟨chars! ": " ++ d, by simp [List.append_assoc], hback hab, hback hcd, .inr (List.prefix_append _ _)⟩
      · rw [splitStr_none hj] at h
        injection h with h2 _
        subst h2
        exact ⟨[], by simp, hback hab, hj, .inl rfl⟩
    · rw [splitStr_none hi] at h
      cases h

theorem field_or (line : Str) : (∃ name value, FieldOf line name value) ∨ ¬ chars! ": " <:+: line := by
  by_cases hi : chars! ": " <:+: line
  · left
    obtain ⟨a, b, rfl, hab⟩ := first_of_infix (by decide) _ hi
    obtain ⟨x, xs, hx⟩ := List.exists_cons_of_ne_nil (splitStrLoop_ne_nil (chars! ": ") 0 [] b)
    refine ⟨a, x, fieldOf_iff.mpr ⟨xs, ?_⟩⟩
    rw [splitStr_first (by decide) hab, splitStr, hx]
  · exact .inr hi

theorem field_infix {line name value : Str} (h : FieldOf line name value) : chars! ": " <:+: line := by
  obtain ⟨more, rfl, _⟩ := h
  exact ⟨name, value ++ more, by simp [List.append_assoc]⟩

theorem field_unique {line n v n' v' : Str} (h : FieldOf line n v) (h' : FieldOf line n' v') : n = n' ∧ v = v' := by
  obtain ⟨m, h⟩ := fieldOf_iff.mp h
  obtain ⟨m', h'⟩ := fieldOf_iff.mp h'
  rw [h] at h'
  injection h' with h1 h2
  injection h2 with h2 _
  exact ⟨h1, h2⟩

/-! ### Numbers -/

theorem digitsValue_iff : ∀ (ds : Str) (m k : Nat), digitsValue m ds = some k ↔
    (∀ c ∈ ds, '0' ≤ c ∧ c ≤ '9') ∧ k = ds.foldl (fun m c => 10 * m + (c.toNat - 48)) m
  | [], m, k => by simp [digitsValue, eq_comm]
  | c :: ds, m, k => by
    rw [digitsValue, digitValue]
    by_cases hc : '0' ≤ c ∧ c ≤ '9'
    · rw [if_pos hc]
      simp only
      rw [digitsValue_iff ds]
      simp only [List.mem_cons, forall_eq_or_imp, List.foldl_cons, hc, true_and]
      rfl
    · rw [if_neg hc]
      constructor
      · intro h
        cases h
      · intro h
        exact absurd (h.1 c List.mem_cons_self) hc

theorem isI32_iff {s : Str} {n : Int} : IsI32 s n ↔ parseI32 s = some n := by
  have hrange : ∀ (o : Option Int), o.bind (fun n => if -2 ^ 31 ≤ n ∧ n < 2 ^ 31 then some n else none) = some n ↔
      o = some n ∧ (-2 ^ 31 ≤ n ∧ n < 2 ^ 31) := by
    intro o
    rcases o with _ | m
    · simp
    · simp only [Option.bind_some]
      by_cases hm : -2 ^ 31 ≤ m ∧ m < 2 ^ 31
      · rw [if_pos hm]
        constructor
        · intro h
          injection h with h
          subst h
          exact ⟨rfl, hm⟩
        · rintro ⟨h, _⟩
          exact h
      · rw [if_neg hm]
        constructor
        · intro h
          cases h
        · rintro ⟨h, h'⟩
          injection h with h
          subst h
          exact absurd h' hm
  rw [parseI32, hrange]
  have hsigned : signedValue s = some n ↔ ∃ ds, ds ≠ [] ∧ (∀ c ∈ ds, '0' ≤ c ∧ c ≤ '9') ∧
      (((s = ds ∨ s = '+' :: ds) ∧ n = (ds.foldl (fun m c => 10 * m + (c.toNat - 48)) 0 : Nat)) ∨
        (s = '-' :: ds ∧ n = -((ds.foldl (fun m c => 10 * m + (c.toNat - 48)) 0 : Nat) : Int))) := by
    have hd : ∀ (ds : Str) (f : Nat → Int), (digitsValue 0 ds).map f = some n ↔
        (∀ c ∈ ds, '0' ≤ c ∧ c ≤ '9') ∧ n = f (ds.foldl (fun m c => 10 * m + (c.toNat - 48)) 0) := by
      intro ds f
      rw [Option.map_eq_some_iff]
      constructor
      · rintro ⟨k, hk, rfl⟩
        obtain ⟨h1, h2⟩ := (digitsValue_iff _ _ _).mp hk
        exact ⟨h1, by rw [h2]⟩
      · rintro ⟨h1, h2⟩
        exact ⟨_, (digitsValue_iff _ _ _).mpr ⟨h1, rfl⟩, h2.symm⟩
    have hplus : ¬ ('0' ≤ '+' ∧ '+' ≤ '9') := by decide
    have hminus : ¬ ('0' ≤ '-' ∧ '-' ≤ '9') := by decide
    unfold signedValue
    split
    · constructor
      · intro h; cases h
      · rintro ⟨ds, h1, h2, (⟨rfl | h, _⟩ | ⟨h, _⟩)⟩
        · exact absurd rfl h1
        · cases h
        · cases h
    · constructor
      · intro h; cases h
      · rintro ⟨ds, h1, h2, (⟨rfl | h, _⟩ | ⟨h, _⟩)⟩
        · exact absurd (h2 '+' List.mem_cons_self) hplus
        · injection h with _ h
          exact absurd h.symm h1
        · injection h with h _
          exact absurd h (by decide)
    · constructor
      · intro h; cases h
      · rintro ⟨ds, h1, h2, (⟨rfl | h, _⟩ | ⟨h, _⟩)⟩
        · exact absurd (h2 '-' List.mem_cons_self) hminus
        · injection h with h _
          exact absurd h (by decide)
        · injection h with _ h
          exact absurd h.symm h1
    · next ds hne =>
      rw [hd]
      constructor
      · rintro ⟨h1, h2⟩
        exact ⟨ds, fun h => hne (by rw [h]), h1, .inr ⟨rfl, h2⟩⟩
      · rintro ⟨ds', h1, h2, (⟨rfl | h, _⟩ | ⟨h, h3⟩)⟩
        · exact absurd (h2 '-' List.mem_cons_self) hminus
        · injection h with h _
          exact absurd h (by decide)
        · injection h with _ h
          subst h
          exact ⟨h2, h3⟩
    · next ds hne =>
      rw [hd]
      constructor
      · rintro ⟨h1, h2⟩
        exact ⟨ds, fun h => hne (by rw [h]), h1, .inl ⟨.inr rfl, h2⟩⟩
      · rintro ⟨ds', h1, h2, (⟨rfl | h, h3⟩ | ⟨h, h3⟩)⟩
        · exact absurd (h2 '+' List.mem_cons_self) hplus
        · injection h with _ h
          subst h
          exact ⟨h2, h3⟩
        · injection h with h _
          exact absurd h (by decide)
    · next h1 h2 h3 h4 h5 =>
      rw [hd]
      constructor
      · rintro ⟨h6, h7⟩
        exact ⟨s, h1, h6, .inl ⟨.inl rfl, h7⟩⟩
      · rintro ⟨ds', h6, h7, (⟨rfl | h, h8⟩ | ⟨h, _⟩)⟩
        · exact ⟨h7, h8⟩
        · exact absurd h (h5 ds')
        · exact absurd h (h4 ds')
  rw [hsigned]
  constructor
  · rintro ⟨ds, h1, h2, h3, h4⟩
    exact ⟨⟨ds, h1, h2, h4⟩, h3⟩
  · rintro ⟨⟨ds, h1, h2, h4⟩, h3⟩
    exact ⟨ds, h1, h2, h3, h4⟩

/-! ### The header as a whole -/

theorem length_cons_iff {line : Str} {lines : List Str} {n : Int} : LengthOf (line :: lines) n ↔
    LengthOf lines n ∨ (∀ m, ¬ LengthOf lines m) ∧ (∀ l ∈ lines, ∀ v, ¬ FieldOf l (chars! "Content-Length") v) ∧
      ∃ value, FieldOf line (chars! "Content-Length") value ∧ IsI32 value n := by
  constructor
  · rintro ⟨before, l, after, value, h, hf, hi, ha⟩
    cases before with
    | nil =>
      injection h with h1 h2
      subst h1 h2
      refine .inr ⟨?_, ha, value, hf, hi⟩
      rintro m ⟨b, l', a, v, rfl, hf', _⟩
      exact ha l' (by simp) v hf'
    | cons b before =>
      injection h with h1 h2
      exact .inl ⟨before, l, after, value, h2, hf, hi, ha⟩
  · rintro (⟨before, l, after, value, rfl, hf, hi, ha⟩ | ⟨_, ha, value, hf, hi⟩)
    · exact ⟨line :: before, l, after, value, rfl, hf, hi, ha⟩
    · exact ⟨[], line, lines, value, rfl, hf, hi, ha⟩

theorem length_nil {n : Int} : ¬ LengthOf [] n := by
  rintro ⟨before, l, after, value, h, _⟩
  simp at h

theorem isI32_unique {s : Str} {n m : Int} (h : IsI32 s n) (h' : IsI32 s m) : n = m := by
  have := (isI32_iff.mp h).symm.trans (isI32_iff.mp h')
  injection this

/-- Sound lines announce a length or have no such field. -/
theorem length_or {lines : List Str} (h : ∀ l ∈ lines, SoundLine l) : (∃ n, LengthOf lines n) ∨
    ∀ l ∈ lines, ∀ v, ¬ FieldOf l (chars! "Content-Length") v := by
  induction lines with
  | nil => exact .inr (by simp)
  | cons l ls ih =>
    rcases ih (fun l hl => h l (List.mem_cons_of_mem _ hl)) with ⟨n, hn⟩ | hn
    · exact .inl ⟨n, length_cons_iff.mpr (.inl hn)⟩
    · obtain ⟨name, value, hf, hi⟩ := h l List.mem_cons_self
      by_cases hk : name = chars! "Content-Length"
      · obtain ⟨n, hi'⟩ := hi hk
        subst hk
        exact .inl ⟨n, [], l, ls, value, rfl, hf, hi', hn⟩
      · refine .inr fun l' hl' v hv => ?_
        rcases List.mem_cons.mp hl' with rfl | hl'
        · exact hk (field_unique hf hv).1
        · exact hn l' hl' v hv

theorem length_unique : ∀ {lines : List Str} {n m : Int}, LengthOf lines n → LengthOf lines m → n = m
  | [], _, _, h, _ => absurd h length_nil
  | l :: ls, n, m, h, h' => by
    rcases length_cons_iff.mp h with h | ⟨h1, h2, v, h3, h4⟩ <;> rcases length_cons_iff.mp h' with h' | ⟨h1', h2', v', h3', h4'⟩
    · exact length_unique h h'
    · exact absurd h (h1' n)
    · exact absurd h' (h1 m)
    · obtain ⟨_, rfl⟩ := field_unique h3 h3'
      exact isI32_unique h4 h4'

namespace Server

theorem headerLoop_field {line name value : Str} (h : FieldOf line name value) (k : Int) (lines : List Str) :
    headerLoop k (line :: lines) = if name = chars! "Content-Length" then
      match parseI32 value with
      | some n => headerLoop n lines
      | none => .err "invalid digit found in string"
    else headerLoop k lines := by
  obtain ⟨more, h⟩ := fieldOf_iff.mp h
  rw [headerLoop, h]
  rfl

theorem headerLoop_bare {line : Str} (h : ¬ chars! ": " <:+: line) (k : Int) (lines : List Str) :
    headerLoop k (line :: lines) = .panic := by
  rw [headerLoop, splitStr_none h]

/-- Sound lines are passed. -/
theorem headerLoop_sound : ∀ {lines : List Str} (k : Int) (more : List Str), (∀ l ∈ lines, SoundLine l) →
    ∃ n, headerLoop k (lines ++ more) = headerLoop n more ∧ (LengthOf lines n ∨ (∀ m, ¬ LengthOf lines m) ∧ n = k)
  | [], k, more, _ => ⟨k, rfl, .inr ⟨fun _ => length_nil, rfl⟩⟩
  | l :: ls, k, more, h => by
    have hls : ∀ l ∈ ls, SoundLine l := fun l hl => h l (List.mem_cons_of_mem _ hl)
    obtain ⟨name, value, hf, hi⟩ := h l List.mem_cons_self
    rw [List.cons_append, headerLoop_field hf]
    by_cases hk : name = chars! "Content-Length"
    · obtain ⟨n, hi'⟩ := hi hk
      subst hk
      rw [if_pos rfl, isI32_iff.mp hi']
      obtain ⟨n', h1, h2⟩ := headerLoop_sound n more hls
      refine ⟨n', h1, .inl (length_cons_iff.mpr ?_)⟩
      rcases h2 with h2 | ⟨h2, rfl⟩
      · exact .inl h2
      · refine .inr ⟨h2, ?_, value, hf, hi'⟩
        rcases length_or hls with ⟨m, hm⟩ | hno
        · exact absurd hm (h2 m)
        · exact hno
    · rw [if_neg hk]
      obtain ⟨n', h1, h2⟩ := headerLoop_sound k more hls
      refine ⟨n', h1, ?_⟩
      rcases h2 with h2 | ⟨h2, rfl⟩
      · exact .inl (length_cons_iff.mpr (.inl h2))
      · refine .inr ⟨fun m hm => ?_, rfl⟩
        rcases length_cons_iff.mp hm with hm | ⟨_, _, v, hv, _⟩
        · exact h2 m hm
        · exact hk (field_unique hf hv).1

/-- The ways in which lines are taken. -/
theorem lines_cases : ∀ (lines : List Str), (∀ l ∈ lines, SoundLine l) ∨
    (∃ before line after, lines = before ++ line :: after ∧ (∀ l ∈ before, SoundLine l) ∧ ¬ chars! ": " <:+: line) ∨
    ∃ before line after value, lines = before ++ line :: after ∧ (∀ l ∈ before, SoundLine l) ∧
      FieldOf line (chars! "Content-Length") value ∧ ∀ n, ¬ IsI32 value n
  | [] => .inl (by simp)
  | l :: ls => by
    by_cases hl : SoundLine l
    · rcases lines_cases ls with h | ⟨b, x, a, rfl, h1, h2⟩ | ⟨b, x, a, v, rfl, h1, h2⟩
      · exact .inl (by simpa using ⟨hl, h⟩)
      · exact .inr (.inl ⟨l :: b, x, a, rfl, by simpa using ⟨hl, h1⟩, h2⟩)
      · exact .inr (.inr ⟨l :: b, x, a, v, rfl, by simpa using ⟨hl, h1⟩, h2⟩)
    · rcases field_or l with ⟨name, value, hf⟩ | hb
      · by_cases hk : name = chars! "Content-Length"
        · subst hk
          refine .inr (.inr ⟨[], l, ls, value, rfl, by simp, hf, fun n hn => ?_⟩)
          exact hl ⟨_, value, hf, fun _ => ⟨n, hn⟩⟩
        · exact absurd ⟨name, value, hf, fun h => absurd h hk⟩ hl
      · exact .inr (.inl ⟨[], l, ls, rfl, by simp, hb⟩)

theorem i32_range {lines : List Str} {n : Int} (h : LengthOf lines n) : -2 ^ 31 ≤ n ∧ n < 2 ^ 31 := by
  obtain ⟨_, _, _, _, _, _, ⟨_, _, _, h, _⟩, _⟩ := h
  exact h

/-- The continuation of an iteration once the header is read. -/
theorem nextMessage_lines {checks : Bool} {P : Protocol} {text header rest : Str} (h : HeaderOf text header rest) :
    nextMessage checks P (utf8 text) = (do
      let contentLength ← headerLoop (-1) (splitStr (chars! "\r\n") header)
      if contentLength = -1 then return none
      else
        let totalLength ← usizeAdd checks ((utf8 header).length + 4) (i32AsUsize contentLength)
        if (utf8 text).length < totalLength then return none
        else
          let body ← slice (utf8 text) ((utf8 header).length + 4) totalLength
          match P.parse body with
          | none => .err "invalid JSON"
          | some msg => return some (msg, (utf8 text).drop totalLength)) := by
  obtain ⟨y, ys, hs⟩ := headerOf_iff.mp ⟨rest, h⟩
  rw [nextMessage, fromUtf8_utf8]
  simp only
  rw [hs]
  rfl

theorem ok_then {α β : Type} (a : α) (f : α → Res β) : (Res.ok a >>= f) = f a := rfl

theorem panic_then {α β : Type} (f : α → Res β) : ((Res.panic : Res α) >>= f) = .panic := rfl

theorem nextMessage_sound {checks : Bool} {P : Protocol} {text header rest : Str} {lines : List Str} {n : Int}
    (hh : HeaderOf text header rest) (hl : LinesOf header lines) (hs : ∀ l ∈ lines, SoundLine l) (hn : LengthOf lines n)
    (h1 : n ≠ -1) :
    nextMessage checks P (utf8 text) = (do
      let totalLength ← usizeAdd checks ((utf8 header).length + 4) (i32AsUsize n)
      if (utf8 text).length < totalLength then return none
      else
        let body ← slice (utf8 text) ((utf8 header).length + 4) totalLength
        match P.parse body with
        | none => .err "invalid JSON"
        | some msg => return some (msg, (utf8 text).drop totalLength)) := by
  rw [nextMessage_lines hh, linesOf_iff.mp hl]
  obtain ⟨m, h2, h3⟩ := headerLoop_sound (-1) [] hs
  rw [List.append_nil] at h2
  have hm : m = n := by
    rcases h3 with h3 | ⟨h3, _⟩
    · exact length_unique h3 hn
    · exact absurd hn (h3 n)
  subst hm
  rw [h2, headerLoop, ok_then, if_neg h1]

theorem nextMessage_headless {checks : Bool} {P : Protocol} {text : Str} (h : ¬ ∃ header rest, HeaderOf text header rest) :
    nextMessage checks P (utf8 text) = .ok none := by
  rw [nextMessage, fromUtf8_utf8]
  simp only
  rcases hs : splitStr (chars! "\r\n\r\n") text with _ | ⟨x, _ | ⟨y, ys⟩⟩
  · rfl
  · rfl
  · exact absurd ((headerOf_iff.mpr ⟨y, ys, hs⟩).elim fun rest hr => ⟨x, rest, hr⟩) h

theorem utf8_header {text header rest : Str} (h : HeaderOf text header rest) :
    (utf8 text).length = (utf8 header).length + 4 + (utf8 rest).length := by
  rw [h.1, utf8_append, utf8_append, List.length_append, List.length_append]
  rfl

section
variable {checks : Bool} {P : Protocol} {bytes : Bytes}

theorem upsetting_panic (hsize : bytes.length < 2 ^ 63) (h : Upsetting bytes) : nextMessage checks P bytes = .panic := by
  cases h with
  | line hb hh hl hs hc =>
    subst hb
    rw [nextMessage_lines hh, linesOf_iff.mp hl]
    obtain ⟨n, h1, _⟩ := headerLoop_sound (-1) (_ :: _) hs
    rw [h1, headerLoop_bare hc]
    rfl
  | @negative text header rest lines n hb hh hl hs hn hlt hle =>
    subst hb
    have hr := i32_range hn
    have hu := utf8_header hh
    rw [nextMessage_sound hh hl hs hn (by omega)]
    have hz : (i32AsUsize n : Int) = n + 2 ^ 64 := by
      rw [i32AsUsize, if_neg (by omega)]
      omega
    have hbig : ¬ (utf8 header).length + 4 + i32AsUsize n ≤ usizeMax := by
      rw [usizeMax]
      omega
    rw [usizeAdd, if_neg hbig]
    generalize ht : (utf8 header).length + 4 + i32AsUsize n - 2 ^ 64 = t
    by_cases hc : checks = true
    · rw [if_pos hc, panic_then]
    · rw [if_neg hc, ok_then, if_neg (by omega), slice, if_neg (by omega), panic_then]
  | @inside text header rest lines n hb hh hl hs hn hle hin =>
    subst hb
    have hr := i32_range hn
    have hu := utf8_header hh
    rw [nextMessage_sound hh hl hs hn (by omega)]
    have hz : i32AsUsize n = n := by
      rw [i32AsUsize, if_pos (by omega)]
      rfl
    rw [hz, usizeAdd, if_pos (by rw [usizeMax]; omega), ok_then, if_neg (by omega), slice, if_pos (by omega)]
    rcases hf : fromUtf8 (((utf8 text).drop ((utf8 header).length + 4)).take ((utf8 header).length + 4 + n - ((utf8 header).length + 4))) with _ | a
    · rfl
    · exfalso
      have hd : (utf8 text).drop ((utf8 header).length + 4) = utf8 rest := by
        rw [hh.1, utf8_append]
        refine List.drop_left' ?_
        rw [utf8_append, List.length_append]
        rfl
      rw [hd, Nat.add_sub_cancel_left] at hf
      have ha := fromUtf8_some hf
      obtain ⟨b, hb, _⟩ := utf8_prefix (s := rest) (t := a) (x := (utf8 rest).drop n) (by rw [← ha, List.take_append_drop])
      refine hin a b hb ?_
      rw [← ha, List.length_take]
      omega

theorem nextMessage_content {text header content more : Str} {lines : List Str} (hh : HeaderOf text header (content ++ more))
    (hl : LinesOf header lines) (hs : ∀ l ∈ lines, SoundLine l) (hn : LengthOf lines (utf8 content).length)
    (hsize : (utf8 text).length < 2 ^ 63) :
    nextMessage checks P (utf8 text) = match P.parse content with
      | none => .err "invalid JSON"
      | some msg => .ok (some (msg, utf8 more)) := by
  have hr := i32_range hn
  have hu := utf8_header hh
  have he : utf8 text = utf8 (header ++ chars! "\r\n\r\n") ++ (utf8 content ++ utf8 more) := by
    rw [hh.1, utf8_append, utf8_append content]
  have hlen : (utf8 (header ++ chars! "\r\n\r\n")).length = (utf8 header).length + 4 := by
    rw [utf8_append, List.length_append]
    rfl
  have hz : i32AsUsize (utf8 content).length = (utf8 content).length := by
    rw [i32AsUsize, if_pos (by omega)]
    rfl
  rw [utf8_append, List.length_append] at hu
  rw [nextMessage_sound hh hl hs hn (by omega), hz, usizeAdd, if_pos (by rw [usizeMax]; omega), ok_then, if_neg (by omega), he,
    ← hlen, slice_text, ok_then]
  rcases P.parse content with _ | msg
  · rfl
  · simp only
    rw [← List.append_assoc, ← List.length_append, List.drop_left]
    rfl

theorem refused_err (hsize : bytes.length < 2 ^ 63) (h : Refused P bytes) : ∃ e, nextMessage checks P bytes = .err e := by
  cases h with
  | encoding hb =>
    refine ⟨_, nextMessage_invalid ?_⟩
    rcases hf : fromUtf8 bytes with _ | text
    · rfl
    · exact absurd (fromUtf8_some hf) (hb text)
  | @length text header rest line value before after hb hh hl hs hf hn =>
    subst hb
    rw [nextMessage_lines hh, linesOf_iff.mp hl]
    obtain ⟨n, h1, _⟩ := headerLoop_sound (-1) (line :: after) hs
    rw [h1, headerLoop_field hf, if_pos rfl]
    have : parseI32 value = none := by
      rcases hp : parseI32 value with _ | n
      · rfl
      · exact absurd (isI32_iff.mpr hp) (hn n)
    rw [this]
    exact ⟨_, rfl⟩
  | content hb hh hl hs hn hp =>
    subst hb
    rw [nextMessage_content hh hl hs hn hsize, hp]
    exact ⟨_, rfl⟩

theorem begins_ok {msg : Json} {rest : Bytes} (hsize : bytes.length < 2 ^ 63) (h : Begins P bytes msg rest) :
    nextMessage checks P bytes = .ok (some (msg, rest)) := by
  obtain ⟨header, content, more, lines, rfl, hh, hl, hs, hn, hp, rfl⟩ := h
  rw [nextMessage_content hh hl hs hn hsize, hp]

/-- A length that cannot be reached. -/
theorem nextMessage_far {text header rest : Str} {lines : List Str} {n : Int} (hh : HeaderOf text header rest)
    (hl : LinesOf header lines) (hs : ∀ l ∈ lines, SoundLine l) (hn : LengthOf lines n) (hsize : (utf8 text).length < 2 ^ 63)
    (hfar : n = -1 ∨ ((utf8 header).length : Int) + 4 + n < 0 ∨ ((utf8 rest).length : Int) < n) :
    nextMessage checks P (utf8 text) = .ok none := by
  have hr := i32_range hn
  have hu := utf8_header hh
  by_cases h1 : n = -1
  · subst h1
    rw [nextMessage_lines hh, linesOf_iff.mp hl]
    obtain ⟨m, h2, h3⟩ := headerLoop_sound (-1) [] hs
    rw [List.append_nil] at h2
    have hm : m = -1 := by
      rcases h3 with h3 | ⟨_, h3⟩
      · exact length_unique h3 hn
      · exact h3
    subst hm
    rw [h2, headerLoop, ok_then, if_pos rfl]
    rfl
  rw [nextMessage_sound hh hl hs hn h1]
  by_cases h0 : 0 ≤ n
  · have hz : (i32AsUsize n : Int) = n := by
      rw [i32AsUsize, if_pos h0]
      omega
    rw [usizeAdd, if_pos (by rw [usizeMax]; omega), ok_then, if_pos (by omega)]
    rfl
  · have hz : (i32AsUsize n : Int) = n + 2 ^ 64 := by
      rw [i32AsUsize, if_neg h0]
      omega
    rw [usizeAdd, if_pos (by rw [usizeMax]; omega), ok_then, if_pos (by omega)]
    rfl

theorem nextMessage_lengthless {text header rest : Str} {lines : List Str} (hh : HeaderOf text header rest)
    (hl : LinesOf header lines) (hs : ∀ l ∈ lines, SoundLine l) (hn : ∀ n, ¬ LengthOf lines n) :
    nextMessage checks P (utf8 text) = .ok none := by
  rw [nextMessage_lines hh, linesOf_iff.mp hl]
  obtain ⟨m, h1, h2⟩ := headerLoop_sound (-1) [] hs
  rw [List.append_nil] at h1
  rcases h2 with h2 | ⟨_, rfl⟩
  · exact absurd h2 (hn m)
  rw [h1]
  rfl

theorem deafening_none (hsize : bytes.length < 2 ^ 63) (h : Deafening bytes) : nextMessage checks P bytes = .ok none := by
  obtain ⟨text, header, rest, lines, rfl, hh, hl, hs, hn⟩ := h
  rcases hn with hn | hn | ⟨n, hn, hlt⟩
  · exact nextMessage_lengthless hh hl hs hn
  · exact nextMessage_far hh hl hs hn hsize (.inl rfl)
  · exact nextMessage_far hh hl hs hn hsize (.inr (.inl hlt))

/-- More bytes do not help. -/
theorem deafening_more {more : Bytes} (h : Deafening bytes) : Deafening (bytes ++ more) ∨ Refused P (bytes ++ more) := by
  obtain ⟨text, header, rest, lines, rfl, hh, hl, hs, hn⟩ := h
  rcases hf : fromUtf8 (utf8 text ++ more) with _ | text'
  · refine .inr (.encoding fun t ht => ?_)
    rw [ht, fromUtf8_utf8] at hf
    cases hf
  · have ht := fromUtf8_some hf
    obtain ⟨r, rfl, rfl⟩ := utf8_prefix ht
    refine .inl ⟨text ++ r, header, rest ++ r, lines, ht, ⟨?_, hh.2⟩, hl, hs, hn⟩
    rw [hh.1]
    simp [List.append_assoc]

theorem nextMessage_cases (hsize : bytes.length < 2 ^ 63) : Upsetting bytes ∨ Refused P bytes ∨ (∃ msg rest, Begins P bytes msg rest) ∨
    nextMessage checks P bytes = .ok none := by
  rcases hf : fromUtf8 bytes with _ | text
  · refine .inr (.inl (.encoding fun t ht => ?_))
    rw [ht, fromUtf8_utf8] at hf
    cases hf
  have hb := fromUtf8_some hf
  subst hb
  by_cases hh : ∃ header rest, HeaderOf text header rest
  · obtain ⟨header, rest, hh⟩ := hh
    have hl : LinesOf header (splitStr (chars! "\r\n") header) := linesOf_iff.mpr rfl
    generalize splitStr (chars! "\r\n") header = lines at hl
    rcases lines_cases lines with hs | ⟨b, x, a, rfl, h1, h2⟩ | ⟨b, x, a, v, rfl, h1, h2, h3⟩
    · rcases length_or hs with ⟨n, hn⟩ | hn
      · by_cases hm1 : n = -1
        · exact .inr (.inr (.inr (nextMessage_far hh hl hs hn hsize (.inl hm1))))
        by_cases hneg : n < -1
        · by_cases hsum : 0 ≤ ((utf8 header).length : Int) + 4 + n
          · exact .inl (.negative rfl hh hl hs hn hneg hsum)
          · exact .inr (.inr (.inr (nextMessage_far hh hl hs hn hsize (.inr (.inl (by omega))))))
        obtain ⟨k, rfl⟩ := Int.eq_ofNat_of_zero_le (show 0 ≤ n by omega)
        by_cases hk : k ≤ (utf8 rest).length
        · by_cases hsp : ∃ a b, rest = a ++ b ∧ (utf8 a).length = k
          · obtain ⟨a, b, rfl, rfl⟩ := hsp
            rcases hp : P.parse a with _ | msg
            · exact .inr (.inl (.content rfl hh hl hs hn hp))
            · refine .inr (.inr (.inl ⟨msg, utf8 b, header, a, b, lines, ?_, ?_, hl, hs, hn, hp, rfl⟩))
              · rw [hh.1, List.append_assoc _ a b]
              · rw [List.append_assoc _ a b, ← hh.1]
                exact hh
          · exact .inl (.inside rfl hh hl hs hn hk fun a b h h' => hsp ⟨a, b, h, h'⟩)
        · exact .inr (.inr (.inr (nextMessage_far hh hl hs hn hsize (.inr (.inr (by omega))))))
      · refine .inr (.inr (.inr (nextMessage_lengthless hh hl hs fun n => ?_)))
        rintro ⟨b, x, a, v, rfl, hf', _⟩
        exact hn x (by simp) v hf'
    · exact .inl (.line rfl hh hl h1 h2)
    · exact .inr (.inl (.length rfl hh hl h1 h2 h3))
  · exact .inr (.inr (.inr (nextMessage_headless hh)))

theorem begins_infix {msg : Json} {rest : Bytes} (h : Begins P bytes msg rest) :
    rest <:+ bytes ∧ ∃ text, utf8 text <:+: bytes ∧ P.parse text = some msg := by
  obtain ⟨header, content, more, lines, rfl, _, _, _, _, hp, rfl⟩ := h
  rw [utf8_append]
  refine ⟨List.suffix_append _ _, content, ?_, hp⟩
  rw [utf8_append]
  exact List.infix_append _ _ _

end

end Server

theorem run_cons_panic {X : ServerEnv} {c : Bytes} {cs : List Bytes} {b : Bytes} {s : Server}
    (hc : c ≠ []) (h : Server.nextMessage X.E.checks X.P (b ++ c) = .panic) (w : World) :
    Server.run X (c :: cs) b s w = (.panic, w) := by
  rw [Server.run, if_neg hc, h]
  rfl

theorem run_panic {X : ServerEnv} (hpath : ∀ uri path, X.P.toFilePath uri = some path → AbsolutePath path)
    (hh : ∀ s, '/' ∉ X.E.hash s) : ∀ (reads : List Bytes) (b : Bytes) (s : Server) (w : World), w.FlatConfigs X.E.toml →
    (b ++ reads.flatten).length < 2 ^ 63 → (Server.run X reads b s w).1 = .panic →
    (∃ part, part <:+: b ++ reads.flatten ∧ Upsetting part) ∨
      ∃ text v, utf8 text <:+: b ++ reads.flatten ∧ X.P.parse text = some v ∧ Crashing X w v
  | [], b, s, w, _, _, h => absurd h (pure_ne_panic _ _)
  | c :: cs, b, s, w, hflat, hsize, h => by
    by_cases hc : c = []
    · rw [Server.run, if_pos hc] at h
      exact absurd h (pure_ne_panic _ _)
    rw [List.flatten_cons, ← List.append_assoc] at hsize ⊢
    have hsize' : (b ++ c).length < 2 ^ 63 := by
      rw [List.length_append] at hsize
      omega
    rcases Server.nextMessage_cases (checks := X.E.checks) (P := X.P) hsize' with hu | hr | ⟨msg, rest, hb⟩ | hn
    · exact .inl ⟨b ++ c, (List.prefix_append _ _).isInfix, hu⟩
    · obtain ⟨e, he⟩ := Server.refused_err (checks := X.E.checks) hsize' hr
      rw [Server.run_cons_err hc he] at h
      cases h
    · have hm := Server.begins_ok (checks := X.E.checks) hsize' hb
      obtain ⟨⟨pre, hsuf⟩, text, hinf, hp⟩ := Server.begins_infix hb
      rw [Server.run_cons_some hc hm] at h
      have hmv := dispatch_moves hh hflat s msg
      rcases IOM.bind_panic h with h | ⟨s1, w1, h1, h⟩
      · exact .inr ⟨text, msg, hinf.trans (List.prefix_append _ _).isInfix, hp, crashing_of_panic h⟩
      · rw [h1] at hmv
        have hinf' : rest ++ cs.flatten <:+: b ++ c ++ cs.flatten := by
          rw [← hsuf, List.append_assoc]
          exact (List.suffix_append _ _).isInfix
        rcases run_panic hpath hh cs rest s1 w1 (hmv.flat hflat) (Nat.lt_of_le_of_lt hinf'.length_le hsize) h with
          ⟨part, h2, h3⟩ | ⟨text', v, h2, h3, h4⟩
        · exact .inl ⟨part, h2.trans hinf', h3⟩
        · exact .inr ⟨text', v, h2.trans hinf', h3, crashing_before hpath hmv h4⟩
    · rw [Server.run_cons_none hc hn] at h
      exact run_panic hpath hh cs (b ++ c) s w hflat hsize h

theorem run_deaf {X : ServerEnv} : ∀ (reads : List Bytes) (b : Bytes) (s : Server) (w : World), Deafening b →
    (b ++ reads.flatten).length < 2 ^ 63 →
    (Server.run X reads b s w).2 = w ∧ ((Server.run X reads b s w).1 = .ok s ∨ ∃ e, (Server.run X reads b s w).1 = .err e)
  | [], b, s, w, _, _ => ⟨rfl, .inl rfl⟩
  | c :: cs, b, s, w, hd, hsize => by
    by_cases hc : c = []
    · rw [Server.run, if_pos hc]
      exact ⟨rfl, .inl rfl⟩
    rw [List.flatten_cons, ← List.append_assoc] at hsize
    have hsize' : (b ++ c).length < 2 ^ 63 := by
      rw [List.length_append] at hsize
      omega
    rcases Server.deafening_more (P := X.P) (more := c) hd with hd | hr
    · rw [Server.run_cons_none hc (Server.deafening_none hsize' hd)]
      exact run_deaf cs _ s w hd hsize
    · obtain ⟨e, he⟩ := Server.refused_err (checks := X.E.checks) hsize' hr
      rw [Server.run_cons_err hc he]
      exact ⟨rfl, .inr ⟨e, rfl⟩⟩

end Brack
