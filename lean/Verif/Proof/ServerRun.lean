import Verif.Proof.Frames
import Verif.Proof.IOLemmas
import Verif.Spec.Server

/-
The loop of the language server over a stream of messages.
-/

namespace Brack

theorem fromUtf8_append_left (s : Str) (x : Bytes) :
    (fromUtf8 (utf8 s ++ x)).isSome = (fromUtf8 x).isSome := by
  rcases h : fromUtf8 x with _ | t
  · rcases h' : fromUtf8 (utf8 s ++ x) with _ | t'
    · rfl
    · exfalso
      have h1 := fromUtf8_some h'
      obtain ⟨r, _, hr⟩ := utf8_prefix h1
      rw [hr, fromUtf8_utf8] at h
      simp at h
  · rw [fromUtf8_some h, ← utf8_append, fromUtf8_utf8]
    rfl

theorem Wire.bytes_pos (m : Wire) : 0 < m.bytes.length := by
  have : (utf8 (chars! "\r\n")).length = 2 := by decide
  rw [Wire.bytes, utf8_append, utf8_append, List.length_append, List.length_append, this]
  omega

theorem Server.run_cons_none {X : ServerEnv} {c : Bytes} {cs : List Bytes} {b : Bytes} {s : Server} (hc : c ≠ [])
    (h : nextMessage X.E.checks X.P (b ++ c) = .ok none) :
    Server.run X (c :: cs) b s = Server.run X cs (b ++ c) s := by
  funext w
  rw [Server.run, if_neg hc, h]
  rfl

theorem Server.run_cons_some {X : ServerEnv} {c : Bytes} {cs : List Bytes} {b r : Bytes} {s : Server} {v : Json}
    (hc : c ≠ []) (h : nextMessage X.E.checks X.P (b ++ c) = .ok (some (v, r))) :
    Server.run X (c :: cs) b s = (do let s ← Server.dispatch X s v; Server.run X cs r s) := by
  funext w
  rw [Server.run, if_neg hc, h]
  rfl

theorem Server.run_cons_err {X : ServerEnv} {c : Bytes} {cs : List Bytes} {b : Bytes} {s : Server} {e : String}
    (hc : c ≠ []) (h : nextMessage X.E.checks X.P (b ++ c) = .err e) (w : World) :
    Server.run X (c :: cs) b s w = (.err e, w) := by
  rw [Server.run, if_neg hc, h]
  rfl

/-- With nothing left to come, the server waits for the end of the input. -/
theorem Server.run_rest {X : ServerEnv} {cs : List Bytes} {s : Server} (h : cs.flatten = []) (b : Bytes) :
    Server.run X cs b s = IOM.pure s := by
  cases cs with
  | nil => rfl
  | cons c cs =>
    have : c = [] := by
      simp only [List.flatten_cons, List.append_eq_nil_iff] at h
      exact h.1
    rw [Server.run, if_pos this]
    rfl

/-- The end of the input. -/
theorem Server.run_end {X : ServerEnv} {cs : List Bytes} : ∀ (b : Bytes) (s : Server),
    Server.run X (cs ++ [[]]) b s = Server.run X cs b s := by
  induction cs with
  | nil => intro b s; rfl
  | cons c cs ih =>
    intro b s
    funext w
    by_cases hc : c = []
    · rw [List.cons_append, Server.run, if_pos hc, Server.run, if_pos hc]
    · rw [List.cons_append, Server.run, if_neg hc, Server.run, if_neg hc]
      simp only [ih]

theorem Server.run_stream {X : ServerEnv} {cs : List Bytes} :
    ∀ {ms : List Wire} {vs : List Json} {b tail : Bytes} {s : Server} (o : Nat), (∀ m ∈ ms, m.Proper) →
      ms.map (fun m => X.P.parse m.content) = vs.map some → (∀ c ∈ cs, c ≠ []) →
      b ++ cs.flatten ++ tail = stream ms →
      (∀ xs ys, cs = xs ++ ys → xs ≠ [] → (fromUtf8 (b ++ xs.flatten)).isSome) →
      Server.run X cs b s =
        handleAll X (vs.take (handled (messageEnds o ms) (readEnds (o + b.length) cs))) s := by
  induction cs with
  | nil =>
    intro ms vs b tail s o _ _ _ _ _
    cases ms <;> rfl
  | cons c cs ih =>
    intro ms vs b tail s o hm hv hc hs hu
    have hc1 : c ≠ [] := hc c (List.mem_cons_self ..)
    have hc2 : ∀ d ∈ cs, d ≠ [] := fun d hd => hc d (List.mem_cons_of_mem _ hd)
    have hu1 : (fromUtf8 (b ++ c)).isSome := by simpa using hu [c] cs rfl (by simp)
    cases ms with
    | nil =>
      exfalso
      have h2 : b ++ (c ++ cs.flatten) ++ tail = [] := hs
      simp only [List.append_eq_nil_iff] at h2
      exact hc1 h2.1.2.1
    | cons m ms =>
      cases vs with
      | nil => simp at hv
      | cons v vs =>
        simp only [List.map_cons, List.cons.injEq] at hv
        have hm1 : m.Proper := hm m (List.mem_cons_self ..)
        have hm2 : ∀ n ∈ ms, n.Proper := fun n hn => hm n (List.mem_cons_of_mem _ hn)
        have hs' : (b ++ c) ++ (cs.flatten ++ tail) = m.bytes ++ stream ms := by
          have : b ++ (c ++ cs.flatten) ++ tail = m.bytes ++ stream ms := hs
          simpa only [List.append_assoc] using this
        have hu2 : ∀ xs ys, cs = xs ++ ys → xs ≠ [] → (fromUtf8 (b ++ c ++ xs.flatten)).isSome := by
          intro xs ys hxy _
          have := hu (c :: xs) ys (by rw [hxy]; rfl) (by simp)
          simpa using this
        rcases List.append_eq_append_iff.mp hs' with ⟨r, hr1, hr2⟩ | ⟨r, hr1, hr2⟩
        · -- the message is not complete, or nothing is left
          by_cases hr : r = []
          · subst hr
            simp only [List.append_nil] at hr1
            have hn := Server.nextMessage_complete (checks := X.E.checks) (P := X.P) hm1 (rest := [])
              (by rw [List.append_nil, hr1]; exact hu1) hv.1
            rw [List.append_nil, hr1] at hn
            have hl := congrArg List.length hr1
            simp only [List.length_append] at hl
            rw [Server.run_cons_some hc1 hn]
            have : handled (messageEnds o (m :: ms)) (readEnds (o + b.length) (c :: cs)) =
                handled (messageEnds (o + m.bytes.length) ms) (readEnds (o + b.length + c.length) cs) + 1 := by
              simp only [messageEnds, readEnds, handled]
              rw [if_pos (by omega)]
            rw [this, List.take_succ_cons, handleAll]
            congr 1
            funext s'
            have hi := ih (b := []) (s := s') (o + m.bytes.length) hm2 hv.2 hc2
              (by simpa using hr2) (fun xs ys hxy hx => by
                have h1 := hu2 xs ys hxy hx
                rw [← hr1, Wire.bytes, fromUtf8_append_left] at h1
                simpa using h1)
            rw [hi]
            have : o + m.bytes.length + ([] : Bytes).length = o + b.length + c.length := by
              simp only [List.length_nil]; omega
            rw [this]
          · have hn := Server.nextMessage_incomplete (checks := X.E.checks) (P := X.P) hm1 hr1 hr hu1
            rw [Server.run_cons_none hc1 hn, ih (b := b ++ c) o hm (by rw [List.map_cons, List.map_cons, hv.1, hv.2]) hc2
              (by simpa [stream, List.append_assoc] using hs') hu2]
            have hl := congrArg List.length hr1
            simp only [List.length_append] at hl
            have : 0 < r.length := List.length_pos_iff.mpr hr
            have : handled (messageEnds o (m :: ms)) (readEnds (o + b.length) (c :: cs)) =
                handled (messageEnds o (m :: ms)) (readEnds (o + (b ++ c).length) cs) := by
              simp only [messageEnds, readEnds, handled, List.length_append]
              rw [if_neg (by omega), Nat.add_assoc]
            rw [this]
        · have hn := Server.nextMessage_complete (checks := X.E.checks) (P := X.P) hm1 (rest := r)
            (by rw [← hr1]; exact hu1) hv.1
          rw [← hr1] at hn
          have hl := congrArg List.length hr1
          simp only [List.length_append] at hl
          rw [Server.run_cons_some hc1 hn]
          have : handled (messageEnds o (m :: ms)) (readEnds (o + b.length) (c :: cs)) =
              handled (messageEnds (o + m.bytes.length) ms) (readEnds (o + b.length + c.length) cs) + 1 := by
            simp only [messageEnds, readEnds, handled]
            rw [if_pos (by omega)]
          rw [this, List.take_succ_cons, handleAll]
          congr 1
          funext s'
          have hi := ih (b := r) (s := s') (o + m.bytes.length) hm2 hv.2 hc2
            (by rw [List.append_assoc]; exact hr2.symm) (fun xs ys hxy hx => by
              have h1 := hu2 xs ys hxy hx
              rw [hr1, Wire.bytes, List.append_assoc, fromUtf8_append_left] at h1
              exact h1)
          rw [hi]
          have : o + m.bytes.length + r.length = o + b.length + c.length := by omega
          rw [this]

theorem handled_count {cs : List Bytes} :
    ∀ {es : List Nat} {p : Nat}, es.Pairwise (· < ·) → (∀ e ∈ es, p < e) →
      (∀ xs c ys, cs = xs ++ c :: ys → ∀ e ∈ es, ∀ e' ∈ es, p + xs.flatten.length < e →
        e ≤ p + xs.flatten.length + c.length → p + xs.flatten.length < e' →
        e' ≤ p + xs.flatten.length + c.length → e = e') →
      handled es (readEnds p cs) = es.countP (· ≤ p + cs.flatten.length) := by
  induction cs with
  | nil =>
    intro es p _ hp _
    have : es.countP (· ≤ p + ([] : List Bytes).flatten.length) = 0 := by
      rw [List.countP_eq_zero]
      intro e he
      have := hp e he
      simp
      omega
    rw [this]
    cases es <;> rfl
  | cons c cs ih =>
    intro es p hs hp ho
    cases es with
    | nil => rfl
    | cons e es =>
      have hp' := hp e (List.mem_cons_self ..)
      have ho' : ∀ (es' : List Nat), (∀ e' ∈ es', e' ∈ e :: es) →
          ∀ xs d ys, cs = xs ++ d :: ys → ∀ e ∈ es', ∀ e' ∈ es', p + c.length + xs.flatten.length < e →
          e ≤ p + c.length + xs.flatten.length + d.length → p + c.length + xs.flatten.length < e' →
          e' ≤ p + c.length + xs.flatten.length + d.length → e = e' := by
        intro es' hes xs d ys hxy a ha a' ha' h1 h2 h3 h4
        refine ho (c :: xs) d ys (by rw [hxy]; rfl) a (hes a ha) a' (hes a' ha') ?_ ?_ ?_ ?_ <;>
          simp only [List.flatten_cons, List.length_append] <;> omega
      simp only [readEnds, handled]
      by_cases h : e ≤ p + c.length
      · rw [if_pos h, ih (List.Pairwise.of_cons hs) ?_ (ho' es (fun _ => List.mem_cons_of_mem _))]
        · rw [List.countP_cons, if_pos (by simp; omega)]
          simp only [List.flatten_cons, List.length_append, Nat.add_assoc]
        · intro e' he'
          refine Classical.byContradiction fun hn => ?_
          have hlt := List.rel_of_pairwise_cons hs he'
          have := ho [] c cs rfl e (List.mem_cons_self ..) e' (List.mem_cons_of_mem _ he') (by simpa using hp')
            (by simpa using h) (by simpa using hp e' (List.mem_cons_of_mem _ he')) (by simp; omega)
          omega
      · rw [if_neg h, ih hs ?_ (ho' _ (fun _ h => h))]
        · simp only [List.flatten_cons, List.length_append, Nat.add_assoc]
        · intro e' he'
          rcases List.mem_cons.mp he' with rfl | he'
          · omega
          · have := List.rel_of_pairwise_cons hs he'
            omega

theorem messageEnds_sorted (ms : List Wire) :
    ∀ o, (messageEnds o ms).Pairwise (· < ·) ∧ ∀ e ∈ messageEnds o ms, o < e := by
  induction ms with
  | nil => intro o; exact ⟨.nil, by simp [messageEnds]⟩
  | cons m ms ih =>
    intro o
    have hp := m.bytes_pos
    obtain ⟨h1, h2⟩ := ih (o + m.bytes.length)
    refine ⟨List.Pairwise.cons h2 h1, ?_⟩
    intro e he
    rcases List.mem_cons.mp he with rfl | he
    · omega
    · have := h2 e he
      omega

theorem messageEnds_le (ms : List Wire) : ∀ o, ∀ e ∈ messageEnds o ms, e ≤ o + (stream ms).length := by
  induction ms with
  | nil => intro o e he; simp [messageEnds] at he
  | cons m ms ih =>
    intro o e he
    have hl : (stream (m :: ms)).length = m.bytes.length + (stream ms).length := by
      simp [stream]
    rcases List.mem_cons.mp he with rfl | he
    · omega
    · have := ih _ e he
      omega

theorem messageEnds_length (ms : List Wire) : ∀ o, (messageEnds o ms).length = ms.length := by
  induction ms with
  | nil => intro; rfl
  | cons m ms ih => intro o; simp [messageEnds, ih]

/-- Reading back what was framed. -/
theorem takeLine_append {x r : Bytes} (h : (13 : UInt8) ∉ x) : takeLine (x ++ 13 :: 10 :: r) = some (x, r) := by
  induction x with
  | nil => rfl
  | cons a x ih =>
    have ha : a ≠ 13 := fun e => h (e ▸ List.mem_cons_self ..)
    have := ih (fun hm => h (List.mem_cons_of_mem _ hm))
    cases x with
    | nil =>
      simp only [List.nil_append] at this
      simp only [List.cons_append, List.nil_append, takeLine, ha, false_and, if_false]
      rfl
    | cons b x =>
      simp only [List.cons_append] at this ⊢
      rw [takeLine, if_neg (by simp [ha]), this]
      rfl

theorem utf8_ascii (s : Str) (h : ∀ c ∈ s, c.toNat < 128) : utf8 s = s.map (fun c => UInt8.ofNat c.toNat) := by
  induction s with
  | nil => rfl
  | cons c s ih =>
    have hc := h c (List.mem_cons_self ..)
    have hs := ih (fun d hd => h d (List.mem_cons_of_mem _ hd))
    rw [List.map_cons, ← hs]
    show utf8Char c ++ utf8 s = _
    rw [utf8Char]
    simp [hc]

theorem decimal_ascii (n : Nat) : ∀ c ∈ decimal n, '0' ≤ c ∧ c ≤ '9' := by
  intro c hc
  have := Nat.isDigit_of_mem_toDigits (by omega) (by omega) hc
  simpa [Char.isDigit, Char.le_def] using this

theorem number_digits (s : Str) (h : ∀ c ∈ s, '0' ≤ c ∧ c ≤ '9') : ∀ n, number n (utf8 s) = digitsValue n s := by
  induction s with
  | nil => intro n; rfl
  | cons c s ih =>
    intro n
    have hc := h c (List.mem_cons_self ..)
    have h1 : 48 ≤ c.toNat := by have := hc.1; simpa [Char.le_def, UInt32.le_iff_toNat_le] using this
    have h2 : c.toNat ≤ 57 := by have := hc.2; simpa [Char.le_def, UInt32.le_iff_toNat_le] using this
    have hu : utf8 (c :: s) = UInt8.ofNat c.toNat :: utf8 s := by
      show utf8Char c ++ utf8 s = _
      rw [utf8Char]
      simp [show c.toNat < 128 by omega]
    have hb : (UInt8.ofNat c.toNat).toNat = c.toNat := by
      simp
      omega
    rw [hu, number, digitsValue, digitValue, if_pos hc, if_pos]
    · rw [hb]
      exact ih (fun d hd => h d (List.mem_cons_of_mem _ hd)) _
    · constructor <;> rw [UInt8.le_iff_toNat_le, hb] <;> simpa

/-- The lines of a frame. -/
theorem readHeader_frame (msg : Str) (rest : Bytes) (fuel : Nat) :
    readHeader (fuel + 2) none (frame msg ++ rest) = some ((utf8 msg).length, utf8 msg ++ rest) := by
  have hl : frame msg ++ rest = utf8 (chars! "Content-Length: " ++ decimal (utf8 msg).length) ++
      13 :: 10 :: (13 :: 10 :: (utf8 msg ++ rest)) := by
    rw [frame, utf8_append, utf8_append]
    have : utf8 (chars! "\r\n\r\n") = [13, 10, 13, 10] := by decide
    rw [this]
    simp
  have hd := decimal_ascii (utf8 msg).length
  have hascii : ∀ c ∈ chars! "Content-Length: " ++ decimal (utf8 msg).length, c.toNat < 128 ∧ c.toNat ≠ 13 := by
    intro c hc
    rcases List.mem_append.mp hc with hc' | hc
    · clear hc
      revert c
      decide
    · have h1 : 48 ≤ c.toNat := by have := (hd c hc).1; simpa [Char.le_def, UInt32.le_iff_toNat_le] using this
      have h2 : c.toNat ≤ 57 := by have := (hd c hc).2; simpa [Char.le_def, UInt32.le_iff_toNat_le] using this
      omega
  have hcr : (13 : UInt8) ∉ utf8 (chars! "Content-Length: " ++ decimal (utf8 msg).length) := by
    rw [utf8_ascii _ (fun c hc => (hascii c hc).1)]
    intro hm
    obtain ⟨c, hc, he⟩ := List.mem_map.mp hm
    have := congrArg UInt8.toNat he
    have h1 := hascii c hc
    simp at this
    omega
  have hann : announced (utf8 (chars! "Content-Length: " ++ decimal (utf8 msg).length)) =
      some (utf8 msg).length := by
    have h16 : (utf8 (chars! "Content-Length: ")).length = 16 := by decide
    rw [announced, utf8_append, if_pos (by simp), ← h16, List.drop_left, number_digits _ hd]
    exact digitsValue_decimal _
  have hne : ∃ a l, utf8 (chars! "Content-Length: " ++ decimal (utf8 msg).length) = a :: l := by
    refine ⟨67, (utf8 (chars! "Content-Length: ")).drop 1 ++ utf8 (decimal (utf8 msg).length), ?_⟩
    rw [utf8_append]
    have : utf8 (chars! "Content-Length: ") = 67 :: (utf8 (chars! "Content-Length: ")).drop 1 := by decide
    rw [this]
    rfl
  rw [hl, readHeader, takeLine_append hcr]
  obtain ⟨a, l, hal⟩ := hne
  rw [hal] at hann ⊢
  simp only
  rw [readHeader, hann]
  rfl

theorem frame_ne_nil (msg : Str) : frame msg ≠ [] ∧ 2 ≤ (frame msg).length := by
  have : 2 ≤ (frame msg).length := by
    have : (utf8 (chars! "Content-Length: ")).length = 16 := by decide
    rw [frame, utf8_append, utf8_append, utf8_append, List.length_append, List.length_append, List.length_append, this]
    omega
  refine ⟨fun h => ?_, this⟩
  rw [h] at this
  simp at this

/-- A client reads back the messages. -/
theorem readMessages_frames (msgs : List Str) : ∀ fuel, msgs.length ≤ fuel →
    readMessages fuel (msgs.flatMap frame) = some (msgs.map utf8) := by
  induction msgs with
  | nil => intro fuel _; cases fuel <;> rfl
  | cons msg msgs ih =>
    intro fuel hf
    obtain ⟨hne, hlen⟩ := frame_ne_nil msg
    obtain ⟨fuel, rfl⟩ : ∃ k, fuel = k + 1 := ⟨fuel - 1, by simp at hf; omega⟩
    rw [List.flatMap_cons]
    have hc : ∃ a l, frame msg ++ msgs.flatMap frame = a :: l := by
      rcases h : frame msg with _ | ⟨a, l⟩
      · exact absurd h hne
      · exact ⟨a, _, rfl⟩
    obtain ⟨k, hk⟩ : ∃ k, (frame msg ++ msgs.flatMap frame).length = k + 2 :=
      ⟨(frame msg ++ msgs.flatMap frame).length - 2, by rw [List.length_append]; omega⟩
    have hr := readHeader_frame msg (msgs.flatMap frame) k
    rw [← hk] at hr
    obtain ⟨a, l, hal⟩ := hc
    rw [hal] at hr ⊢
    rw [readMessages, hr]
    · simp only
      rw [if_neg (by simp), List.drop_left, List.take_left, ih fuel (by simp at hf; omega)]
      rfl
    · simp

end Brack
