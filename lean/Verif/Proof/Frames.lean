import Verif.Spec.Server
import Verif.Proof.Utf8
import Verif.Proof.JsonText
import Verif.Proof.IOLemmas

/-
Splitting texts, and the messages found by `run` in its buffer.
-/

namespace Brack

/-- `": "`, CR LF and CR LF CR LF. -/
abbrev colon : Str := chars! ": "
abbrev crlf : Str := chars! "\r\n"
abbrev crlf2 : Str := chars! "\r\n\r\n"

theorem splitStrLoop_ne_nil (sep : Str) (k : Nat) (acc s : Str) : splitStrLoop sep k acc s ≠ [] := by
  induction s generalizing k acc with
  | nil => cases k <;> simp [splitStrLoop]
  | cons c s ih =>
    cases k with
    | zero =>
      rw [splitStrLoop]
      split
      · simp
      · exact ih _ _
    | succ k =>
      rw [splitStrLoop]
      exact ih _ _

theorem splitStrLoop_skip (sep x s acc : Str) :
    splitStrLoop sep x.length acc (x ++ s) = splitStrLoop sep 0 acc s := by
  induction x with
  | nil => rfl
  | cons c x ih => rw [List.cons_append, List.length_cons, splitStrLoop, ih]

/-- At an occurrence of the separator. -/
theorem splitStrLoop_here {sep : Str} (hs : sep ≠ []) (acc s : Str) :
    splitStrLoop sep 0 acc (sep ++ s) = acc.reverse :: splitStrLoop sep 0 [] s := by
  cases sep with
  | nil => exact absurd rfl hs
  | cons c sep =>
    rw [List.cons_append, splitStrLoop, if_pos (by simp)]
    simp only [List.length_cons, Nat.add_sub_cancel]
    rw [splitStrLoop_skip]

/-- A character at which no separator begins. -/
theorem splitStrLoop_char {a : Char} {sep : Str} (acc : Str) {c : Char} (s : Str) (h : c ≠ a) :
    splitStrLoop (a :: sep) 0 acc (c :: s) = splitStrLoop (a :: sep) 0 (c :: acc) s := by
  rw [splitStrLoop, if_neg]
  simp only [List.isPrefixOf, Bool.and_eq_true, beq_iff_eq, not_and]
  exact fun e => absurd e.symm h

theorem splitStrLoop_text {a : Char} {sep : Str} (x acc s : Str) (h : a ∉ x) :
    splitStrLoop (a :: sep) 0 acc (x ++ s) = splitStrLoop (a :: sep) 0 (x.reverse ++ acc) s := by
  induction x generalizing acc with
  | nil => rfl
  | cons c x ih =>
    simp only [List.mem_cons, not_or] at h
    rw [List.cons_append, splitStrLoop_char _ _ (fun e => h.1 e.symm), ih _ h.2]
    simp

theorem splitStr_text {a : Char} {sep : Str} (x : Str) (h : a ∉ x) : splitStr (a :: sep) x = [x] := by
  have := splitStrLoop_text (sep := sep) x [] [] h
  rw [List.append_nil] at this
  rw [splitStr, this]
  simp [splitStrLoop]

theorem splitStr_cons {a : Char} {sep : Str} (x s : Str) (h : a ∉ x) :
    splitStr (a :: sep) (x ++ (a :: sep ++ s)) = x :: splitStr (a :: sep) s := by
  rw [splitStr, splitStrLoop_text _ _ _ h, splitStrLoop_here (by simp)]
  simp [splitStr]

/-- If a text contains the separator, what comes before the first occurrence does not depend on what follows
the text. -/
theorem splitStrLoop_more {sep acc t h x : Str} {xs : List Str}
    (e : splitStrLoop sep 0 acc t = h :: x :: xs) :
    h.length + sep.length ≤ acc.length + t.length ∧
      ∀ u, ∃ y ys, splitStrLoop sep 0 acc (t ++ u) = h :: y :: ys := by
  induction t generalizing acc with
  | nil => simp [splitStrLoop] at e
  | cons c t ih =>
    rw [splitStrLoop] at e
    split at e
    · next hp =>
      injection e with e1 e2
      rw [List.isPrefixOf_iff_prefix] at hp
      refine ⟨?_, fun u => ?_⟩
      · have := hp.length_le
        simp only [List.length_cons] at this
        rw [← e1]
        simp only [List.length_reverse, List.length_cons]
        omega
      · rw [List.cons_append, splitStrLoop, if_pos, e1]
        · generalize hl : splitStrLoop sep (sep.length - 1) [] (t ++ u) = l
          cases l with
          | nil => exact absurd hl (splitStrLoop_ne_nil _ _ _ _)
          | cons y ys => exact ⟨y, ys, rfl⟩
        · rw [List.isPrefixOf_iff_prefix]
          exact hp.trans ⟨u, by simp⟩
    · next hp =>
      obtain ⟨h1, h2⟩ := ih e
      refine ⟨by simp only [List.length_cons] at h1 ⊢; omega, fun u => ?_⟩
      by_cases hp' : sep.isPrefixOf (c :: (t ++ u)) = true
      · -- the separator begins here but is not complete
        exfalso
        rw [List.isPrefixOf_iff_prefix] at hp'
        have hlen : (c :: t).length < sep.length := by
          refine Nat.lt_of_not_le fun hle => hp ?_
          rw [List.isPrefixOf_iff_prefix]
          refine List.prefix_of_prefix_length_le hp' ?_ hle
          exact ⟨u, by simp⟩
        -- but an occurrence later on is too long as well
        have hh : acc.length ≤ h.length := by
          clear h2 ih hp hp' hlen h1
          have : ∀ (t acc h x : Str) (xs : List Str), splitStrLoop sep 0 acc t = h :: x :: xs →
              acc.length ≤ h.length := by
            intro t
            induction t with
            | nil => intro acc h x xs e; simp [splitStrLoop] at e
            | cons c t ih =>
              intro acc h x xs e
              rw [splitStrLoop] at e
              split at e
              · injection e with e1 e2
                rw [← e1]; simp
              · have := ih _ _ _ _ e
                simp only [List.length_cons] at this
                omega
          have := this t (c :: acc) h x xs e
          simp only [List.length_cons] at this
          omega
        simp only [List.length_cons] at hlen h1
        omega
      · rw [List.cons_append, splitStrLoop, if_neg hp']
        exact h2 u

/-- Lines separated by CR LF. -/
def joined : List Str → Str
  | [] => []
  | [l] => l
  | l :: ls => l ++ crlf ++ joined ls

theorem joined_end (ls : List Str) (h : ls ≠ []) :
    ls.flatMap (· ++ crlf) ++ crlf = joined ls ++ crlf2 := by
  induction ls with
  | nil => exact absurd rfl h
  | cons l ls ih =>
    cases ls with
    | nil => simp [joined]
    | cons l' ls =>
      rw [joined, List.flatMap_cons, List.append_assoc, ih (by simp)]
      · simp
      · simp

/-- A line of a header. -/
def IsLine (l : Str) : Prop := l ≠ [] ∧ '\r' ∉ l

theorem joined_cons {l : Str} {ls : List Str} (hl : IsLine l) : ∃ c s, joined (l :: ls) = c :: s ∧ c ≠ '\r' := by
  obtain ⟨h1, h2⟩ := hl
  cases l with
  | nil => exact absurd rfl h1
  | cons c l =>
    simp only [List.mem_cons, not_or] at h2
    cases ls with
    | nil => exact ⟨c, l, rfl, fun e => h2.1 e.symm⟩
    | cons l' ls => exact ⟨c, _, by rw [joined, List.append_assoc, List.cons_append]; simp, fun e => h2.1 e.symm⟩

theorem split_header (ls : List Str) (h : ∀ l ∈ ls, IsLine l) (hne : ls ≠ []) (acc rest : Str) :
    splitStrLoop crlf2 0 acc (joined ls ++ (crlf2 ++ rest)) =
      (acc.reverse ++ joined ls) :: splitStrLoop crlf2 0 [] rest := by
  induction ls generalizing acc with
  | nil => exact absurd rfl hne
  | cons l ls ih =>
    have hl := h l (by simp)
    cases ls with
    | nil =>
      rw [joined, splitStrLoop_text _ _ _ hl.2, splitStrLoop_here (by simp)]
      simp
    | cons l' ls =>
      obtain ⟨c, s, hc, hcr⟩ := joined_cons (ls := ls) (h l' (by simp))
      have ih := ih (fun x hx => h x (by simp [hx])) (by simp) ('\n' :: '\r' :: (l.reverse ++ acc))
      rw [hc] at ih
      rw [joined, List.append_assoc, List.append_assoc, splitStrLoop_text _ _ _ hl.2, hc]
      · simp only [List.cons_append, List.nil_append]
        rw [splitStrLoop, if_neg, splitStrLoop_char _ _ (by decide)]
        · simp only [List.cons_append, List.nil_append] at ih
          rw [ih]
          simp
        · simp only [List.isPrefixOf, Bool.and_eq_true, beq_iff_eq]
          rintro ⟨-, -, h3, -⟩
          exact hcr h3.symm
      · simp

theorem split_lines (ls : List Str) (h : ∀ l ∈ ls, IsLine l) (hne : ls ≠ []) : splitStr crlf (joined ls) = ls := by
  induction ls with
  | nil => exact absurd rfl hne
  | cons l ls ih =>
    have hl := h l (by simp)
    cases ls with
    | nil => rw [joined, splitStr_text _ hl.2]
    | cons l' ls =>
      rw [joined, List.append_assoc]
      · have := splitStr_cons (sep := ['\n']) l (joined (l' :: ls)) hl.2
        rw [show crlf ++ joined (l' :: ls) = '\r' :: ['\n'] ++ joined (l' :: ls) from rfl, this]
        rw [ih (fun x hx => h x (by simp [hx])) (by simp)]
      · simp

/-- The line of a field. -/
def fieldLine (f : Str × Str) : Str := f.1 ++ colon ++ f.2

theorem fieldLine_isLine {f : Str × Str} (h : '\r' ∉ f.1 ∧ '\r' ∉ f.2 ∧ ':' ∉ f.1) : IsLine (fieldLine f) := by
  refine ⟨by simp [fieldLine], ?_⟩
  simp only [fieldLine, List.mem_append, not_or]
  exact ⟨⟨h.1, by decide⟩, h.2.1⟩

theorem parseI32_decimal {n : Nat} (h : n < 2 ^ 31) : parseI32 (decimal n) = some (n : Int) := by
  have hd := decimal_digits n
  have hv := digitsValue_decimal n
  have hne := decimal_ne_nil n
  generalize decimal n = s at *
  have hval : signedValue s = some (n : Int) := by
    unfold signedValue
    split
    · exact absurd rfl hne
    · exact absurd (hd '+' (by simp)) (by decide)
    · exact absurd (hd '-' (by simp)) (by decide)
    · exact absurd (hd '-' (by simp)) (by decide)
    · exact absurd (hd '+' (by simp)) (by decide)
    · rw [hv]; rfl
  rw [parseI32, hval, Option.bind_some, if_pos (by omega)]

namespace Server

theorem headerLoop_step {f : Str × Str} (hf : ':' ∉ f.1) (n : Int) (ls : List Str) :
    (f.1 ≠ chars! "Content-Length" → headerLoop n (fieldLine f :: ls) = headerLoop n ls) ∧
    (∀ k, k < 2 ^ 31 → f = (chars! "Content-Length", decimal k) →
      headerLoop n (fieldLine f :: ls) = headerLoop k ls) := by
  have hs : splitStr colon (fieldLine f) = f.1 :: splitStr colon f.2 := by
    have := splitStr_cons (sep := [' ']) f.1 f.2 hf
    rw [fieldLine, List.append_assoc]
    exact this
  constructor
  · intro hne
    rw [headerLoop, hs]
    generalize hl : splitStr colon f.2 = l
    cases l with
    | nil => exact absurd hl (splitStrLoop_ne_nil _ _ _ _)
    | cons v vs =>
      simp only
      rw [if_neg hne]
  · rintro k hk rfl
    have hv : splitStr colon (decimal k) = [decimal k] := by
      refine splitStr_text _ fun hc => ?_
      exact absurd (decimal_digits k ':' hc) (by decide)
    rw [headerLoop, hs, hv]
    simp only
    rw [if_pos trivial, parseI32_decimal hk]

theorem headerLoop_none (fs : List (Str × Str)) (hf : ∀ f ∈ fs, ':' ∉ f.1)
    (h : fs.filter (·.1 = chars! "Content-Length") = []) (n : Int) :
    headerLoop n (fs.map fieldLine) = .ok n := by
  induction fs with
  | nil => rfl
  | cons f fs ih =>
    rw [List.filter_eq_nil_iff] at h
    have hne : f.1 ≠ chars! "Content-Length" := by simpa using h f (by simp)
    rw [List.map_cons, (headerLoop_step (hf f (by simp)) _ _).1 hne]
    exact ih (fun g hg => hf g (by simp [hg]))
      (by rw [List.filter_eq_nil_iff]; exact fun g hg => h g (by simp [hg]))

theorem headerLoop_fields (fs : List (Str × Str)) (hf : ∀ f ∈ fs, ':' ∉ f.1) {k : Nat} (hk : k < 2 ^ 31)
    (h : fs.filter (·.1 = chars! "Content-Length") = [(chars! "Content-Length", decimal k)]) (n : Int) :
    headerLoop n (fs.map fieldLine) = .ok (k : Int) := by
  induction fs with
  | nil => simp at h
  | cons f fs ih =>
    by_cases hc : f.1 = chars! "Content-Length"
    · rw [List.filter_cons_of_pos (by simpa using hc)] at h
      injection h with h1 h2
      rw [List.map_cons, (headerLoop_step (hf f (by simp)) _ _).2 k hk h1]
      exact headerLoop_none fs (fun g hg => hf g (by simp [hg])) h2 _
    · rw [List.filter_cons_of_neg (by simpa using hc)] at h
      rw [List.map_cons, (headerLoop_step (hf f (by simp)) _ _).1 hc]
      exact ih (fun g hg => hf g (by simp [hg])) h

end Server

/-- The header of a message without the empty line. -/
def Wire.header (m : Wire) : Str := joined (m.fields.map fieldLine)

theorem Wire.Proper.fields_ne {m : Wire} (h : m.Proper) : m.fields ≠ [] := by
  intro hn
  have := h.length
  rw [hn] at this
  simp at this

theorem Wire.bytes_eq {m : Wire} (h : m.Proper) : m.bytes = utf8 (m.header ++ crlf2 ++ m.content) := by
  have h1 : m.fields.flatMap (fun f => f.1 ++ chars! ": " ++ f.2 ++ chars! "\r\n") =
      (m.fields.map fieldLine).flatMap (· ++ crlf) := by
    rw [List.flatMap_map]
    rfl
  rw [Wire.bytes, h1, joined_end _ (by simpa using h.fields_ne)]
  rfl

theorem Wire.lines {m : Wire} (h : m.Proper) : ∀ l ∈ m.fields.map fieldLine, IsLine l := by
  intro l hl
  obtain ⟨f, hf, rfl⟩ := List.mem_map.mp hl
  exact fieldLine_isLine (h.field f hf)

namespace Server

theorem slice_text (a b : Bytes) (s : Str) : slice (a ++ (utf8 s ++ b)) a.length (a.length + (utf8 s).length) = .ok s := by
  rw [slice, if_pos (by simp), List.drop_left, Nat.add_sub_cancel_left, List.take_left, fromUtf8_utf8]

/-- The length computed from a header. -/
theorem header_length {m : Wire} (h : m.Proper) :
    headerLoop (-1) (splitStr crlf m.header) = .ok ((utf8 m.content).length : Int) := by
  rw [Wire.header, split_lines _ (Wire.lines h) (by simpa using h.fields_ne)]
  exact headerLoop_fields _ (fun f hf => (h.field f hf).2.2) h.content h.length _

theorem total_length {m : Wire} (h : m.Proper) (checks : Bool) :
    usizeAdd checks ((utf8 m.header).length + 4) (i32AsUsize ((utf8 m.content).length : Int)) =
      .ok m.bytes.length := by
  have hb := Wire.bytes_eq h
  have hl : m.bytes.length = (utf8 m.header).length + 4 + (utf8 m.content).length := by
    rw [hb, utf8_append, utf8_append, List.length_append, List.length_append]
    rfl
  have ht := h.total
  rw [i32AsUsize, if_pos (by omega), Int.toNat_natCast, usizeAdd, ← hl, if_pos (by unfold usizeMax; omega)]

/-- A buffer that is not UTF-8. -/
theorem nextMessage_invalid {checks : Bool} {P : Protocol} {buffer : Bytes} (h : fromUtf8 buffer = none) :
    nextMessage checks P buffer = .err "invalid utf-8 sequence" := by
  rw [nextMessage, h]

/-- A buffer containing the whole message. -/
theorem nextMessage_whole {checks : Bool} {P : Protocol} {m : Wire} (h : m.Proper) {rest : Bytes}
    (hu : (fromUtf8 (m.bytes ++ rest)).isSome) :
    nextMessage checks P (m.bytes ++ rest) = (match P.parse m.content with
      | none => .err "invalid JSON"
      | some v => .ok (some (v, rest))) := by
  obtain ⟨text, ht⟩ := Option.isSome_iff_exists.mp hu
  have hb := Wire.bytes_eq h
  have ht' := fromUtf8_some ht
  have hr : ∃ r, text = m.header ++ crlf2 ++ m.content ++ r ∧ rest = utf8 r := by
    rw [hb] at ht'
    exact utf8_prefix ht'
  obtain ⟨r, rfl, rfl⟩ := hr
  have hs : splitStr crlf2 (m.header ++ crlf2 ++ m.content ++ r) =
      m.header :: splitStr crlf2 (m.content ++ r) := by
    have := split_header _ (Wire.lines h) (by simpa using h.fields_ne) [] (m.content ++ r)
    rw [splitStr, show m.header ++ crlf2 ++ m.content ++ r = m.header ++ (crlf2 ++ (m.content ++ r)) by simp]
    exact this
  have htot := total_length h checks
  have hlen : m.bytes.length = (utf8 (m.header ++ crlf2)).length + (utf8 m.content).length := by
    rw [hb, utf8_append, List.length_append]
  have hh4 : (utf8 m.header).length + 4 = (utf8 (m.header ++ crlf2)).length := by
    rw [utf8_append, List.length_append]; rfl
  rw [nextMessage, ht]
  simp only
  rw [hs]
  generalize hl : splitStr crlf2 (m.content ++ r) = l
  cases l with
  | nil => exact absurd hl (splitStrLoop_ne_nil _ _ _ _)
  | cons y ys =>
    simp only
    rw [header_length h]
    simp only [Bind.bind, Res.bind]
    rw [if_neg (by omega), htot]
    simp only
    rw [if_neg (by simp), hlen, hh4]
    have hsl := slice_text (utf8 (m.header ++ crlf2)) (utf8 r) m.content
    rw [hb, utf8_append, List.append_assoc, hsl]
    simp only
    rcases P.parse m.content with _ | v
    · rfl
    · simp only [pure]
      rw [← List.append_assoc, ← List.length_append, List.drop_left]

/-- A buffer containing the whole message, and the content is JSON. -/
theorem nextMessage_complete {checks : Bool} {P : Protocol} {m : Wire} (h : m.Proper) {rest : Bytes}
    (hu : (fromUtf8 (m.bytes ++ rest)).isSome) {v : Json} (hv : P.parse m.content = some v) :
    nextMessage checks P (m.bytes ++ rest) = .ok (some (v, rest)) := by
  rw [nextMessage_whole h hu, hv]

/-- A buffer containing a part of a message. -/
theorem nextMessage_incomplete {checks : Bool} {P : Protocol} {m : Wire} (h : m.Proper) {buffer rest : Bytes}
    (hb : m.bytes = buffer ++ rest) (hr : rest ≠ []) (hu : (fromUtf8 buffer).isSome) :
    nextMessage checks P buffer = .ok none := by
  obtain ⟨text, ht⟩ := Option.isSome_iff_exists.mp hu
  have ht' := fromUtf8_some ht
  have he := Wire.bytes_eq h
  have hp : ∃ r, m.header ++ crlf2 ++ m.content = text ++ r ∧ rest = utf8 r := by
    rw [hb, ht'] at he
    exact utf8_prefix he
  obtain ⟨r, hr1, rfl⟩ := hp
  have hrlen : 0 < (utf8 r).length := List.length_pos_iff.mpr hr
  rw [nextMessage, ht]
  simp only
  generalize hl : splitStr crlf2 text = l
  rcases l with _ | ⟨hd, _ | ⟨y, ys⟩⟩
  · rfl
  · rfl
  simp only
  obtain ⟨h1, h2⟩ := splitStrLoop_more hl
  have hs := split_header _ (Wire.lines h) (by simpa using h.fields_ne) [] m.content
  obtain ⟨z, zs, h3⟩ := h2 r
  rw [← hr1, List.append_assoc] at h3
  change splitStrLoop crlf2 0 [] (m.header ++ (crlf2 ++ m.content)) = m.header :: _ at hs
  rw [hs] at h3
  injection h3 with h3 _
  subst h3
  rw [header_length h]
  simp only [Bind.bind, Res.bind]
  rw [if_neg (by omega), total_length h checks]
  simp only
  rw [if_pos (by rw [hb, List.length_append]; omega)]
  rfl

end Server

end Brack
