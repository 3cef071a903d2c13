import Verif.Proof.Layout
import Verif.Proof.BlankText
import Verif.Proof.Uax29
import Verif.Props.Transform
import Verif.Spec.Layout

/-
Helper lemmas: the tokens of texts that differ in blanks after a comma or a space, and reading such texts.
-/

namespace Brack

/-! ### reading -/

theorem same_of_spaced {S : Segmenter} {text text' : Str} {T T'} (ht : tokenizeStr S text = .ok T)
    (ht' : tokenizeStr S text' = .ok T') (hp : Spaced T T') (ids : Nat → Str) : SameDocument S ids text text' := by
  have he : HasEof T := by
    obtain ⟨body, e, h1, h2, _⟩ := tokens_shape ht
    exact ⟨e, by rw [h1]; simp, h2⟩
  have unread : (∀ x fs, ¬ Reads S ids text x fs) → (∀ x fs, ¬ Reads S ids text' x fs) → SameDocument S ids text text' := by
    intro hn hn'
    refine ⟨⟨?_, ?_⟩, ?_⟩
    · rintro ⟨x, fs, h⟩; exact absurd h (hn x fs)
    · rintro ⟨x, fs, h⟩; exact absurd h (hn' x fs)
    · intro a es a' es' h; exact absurd h (hn a es)
  by_cases hl : NoLoose T
  · rcases parse_spaced hp he hl with ⟨m, m', h1, h2⟩ | ⟨cs, l, cs', l', ds, es, ds', es', h1, h2, h3, h4, h5, h6⟩
    · refine unread ?_ ?_
      · rintro x fs ⟨ts, c, k1, k2, _⟩
        rw [ht] at k1; cases k1
        rw [h1] at k2; cases k2
      · rintro x fs ⟨ts, c, k1, k2, _⟩
        rw [ht'] at k1; cases k1
        rw [h2] at k2; cases k2
    · obtain ⟨k1, k2⟩ := h5.twins
      refine ⟨⟨?_, ?_⟩, ?_⟩
      · rintro ⟨x, fs, h⟩
        have := (reads_parsed ht h1 h3 x fs h).1
        obtain ⟨y, hy⟩ := reads_of_parsed ids ht' h2 h4 (by rw [k2, this])
        exact ⟨y, _, hy⟩
      · rintro ⟨x, fs, h⟩
        have := (reads_parsed ht' h2 h4 x fs h).1
        obtain ⟨y, hy⟩ := reads_of_parsed ids ht h1 h3 (by rw [← k2, this])
        exact ⟨y, _, hy⟩
      · intro a fs a' fs' h h'
        obtain ⟨_, rfl, hs, _⟩ := reads_parsed ht h1 h3 a fs h
        obtain ⟨_, rfl, hs', _⟩ := reads_parsed ht' h2 h4 a' fs' h'
        exact ⟨by rw [hs, hs', k1], h6⟩
  · have hl : (trace [] T).any Event.looseSeparator = true := by simpa [NoLoose] using hl
    have hl' : (trace [] T').any Event.looseSeparator = true := by rw [hp.loose (st := []) (st' := []) rfl]; exact hl
    refine unread ?_ ?_
    · rintro x fs ⟨ts, c, k1, k2, k3⟩
      rw [ht] at k1; cases k1
      rw [(C17_panic_iff _ c ids k2).1.mpr (List.any_eq_true.mp hl)] at k3
      cases k3
    · rintro x fs ⟨ts, c, k1, k2, k3⟩
      rw [ht'] at k1; cases k1
      rw [(C17_panic_iff _ c ids k2).1.mpr (List.any_eq_true.mp hl')] at k3
      cases k3

/-! ### tokens -/

theorem Spaced.of_kinds : ∀ {R R' : List Token}, R'.map Token.kind = R.map Token.kind → Spaced R R'
  | [], R', h => by
    have : R' = [] := by simpa using h
    subst this; exact .nil
  | [t], R', h => by
    rcases R' with _ | ⟨t', _ | ⟨u', us'⟩⟩ <;> simp at h
    by_cases hb : t.kind = .backSlash
    · exact .alone hb (by rw [h, hb])
    · exact .cons hb h .nil
  | t :: u :: us, R', h => by
    rcases R' with _ | ⟨t', _ | ⟨u', us'⟩⟩ <;> simp at h
    by_cases hb : t.kind = .backSlash
    · exact .esc hb (by rw [h.1, hb]) h.2.1 (Spaced.of_kinds h.2.2)
    · exact .cons hb h.1 (Spaced.of_kinds (R := u :: us) (R' := u' :: us') (by simp [h.2]))

theorem Spaced.after {c x : Token} {R R'} (hc : c.kind.isSep = true) (hx : x.kind.isBlank = true) (h : Spaced R R') :
    ∀ ts : List Token, (∀ p ∈ ts.getLast?, p.kind ≠ .backSlash) → Spaced (ts ++ c :: R) (ts ++ c :: x :: R')
  | [], _ => .ins hc rfl hx h
  | [t], ht => .cons (ht t (by simp)) rfl (.ins hc rfl hx h)
  | t :: u :: us, ht => by
    by_cases hb : t.kind = .backSlash
    · refine .esc hb hb rfl (Spaced.after hc hx h us ?_)
      intro p hp
      refine ht p ?_
      rcases us with _ | ⟨v, vs⟩
      · simp at hp
      · simpa [List.getLast?_cons_cons] using hp
    · exact .cons hb rfl (Spaced.after hc hx h (u :: us) (by simpa [List.getLast?_cons_cons] using ht))

/-- States that differ in positions only. -/
structure M.Alike (m m' : M) : Prop where
  pool : m'.pool = m.pool
  look : m'.look = m.look
  nest : m'.nest = m.nest

theorem run_kinds : ∀ (gs : List Str) (m m' : M), M.Alike m m' → (run gs m').map Token.kind = (run gs m).map Token.kind
  | [], m, m', _ => by simp [run, M.eof]
  | g :: gs, m, m', h => by
    have ha : act g gs m' = act g gs m := by
      unfold act M.nested
      rw [h.look]
      have := h.nest
      unfold M.nest at this
      rw [this]
    by_cases hg : g = NUL
    · simp [run, hg, M.eof]
    · simp only [run, hg, if_false, ha, List.map_append]
      congr 1
      · rcases act g gs m with _ | _ | _ | _ | _ | _ | _ | _ | _ | _ | _ <;>
          simp [emit, M.single, M.pooled, h.pool]
      · apply run_kinds
        obtain ⟨h5, h6, h7⟩ := h
        unfold M.nest at h7
        rcases act g gs m with _ | _ | b | b | _ | _ | _ | _ | _ | _ | _
        case bopen | bclose =>
          cases b <;> constructor <;>
            simp only [emit, M.adv, M.addCount, M.nest, h5, h6] <;> omega
        all_goals
          constructor <;> simp only [emit, M.adv, M.nest, h5, h6] <;> omega

theorem actionC_last (c : Cl) (look nested : Bool) : actionC c .nul look nested ≠ .pool := by
  revert c look nested; decide

theorem emit_nil {a g m} (h : (emit a g m).1 = []) : a = .pool := by
  cases a <;> simp [emit] at h ⊢

theorem emit_le (a g m) : (emit a g m).1 = [] ∨ ∃ x, (emit a g m).1 = [x] := by
  cases a <;> simp [emit]

/-- A text without NUL has a token. -/
theorem run_some : ∀ (gs : List Str) (m : M), gs ≠ [] → NUL ∉ gs → ∃ a b r, run gs m = a :: b :: r
  | [], _, h, _ => absurd rfl h
  | [g], m, _, hn => by
    have hg : g ≠ NUL := fun e => hn (by simp [e])
    simp only [run, hg, if_false]
    rcases emit_le (act g [] m) g m with h | ⟨x, h⟩
    · refine absurd (emit_nil h) ?_
      unfold act
      rw [List.headD_nil, action_eq, cls_NUL]
      exact actionC_last _ _ _
    · rw [h]; exact ⟨_, _, _, rfl⟩
  | g :: g2 :: gs, m, _, hn => by
    have hg : g ≠ NUL := fun e => hn (by simp [e])
    obtain ⟨a, b, r, h⟩ := run_some (g2 :: gs) (emit (act g (g2 :: gs) m) g m).2 (by simp) (fun h => hn (List.mem_cons_of_mem _ h))
    rw [run, if_neg hg, h]
    rcases emit_le (act g (g2 :: gs) m) g m with h | ⟨x, h⟩ <;> rw [h]
    · exact ⟨_, _, _, rfl⟩
    · exact ⟨_, _, _, rfl⟩

theorem actionC_sep (c d d' : Cl) (nested : Bool) (h : actionC c d false nested = .comma ∨ actionC c d false nested = .whitespace) :
    actionC c d' false nested = actionC c d false nested ∧ nested = true := by
  revert c d d' nested; decide

theorem emit_sep {a g m t} (h : (emit a g m).1 = [t]) (hs : t.kind.isSep = true) :
    (a = .comma ∨ a = .whitespace) ∧ (emit a g m).2 = m.adv := by
  cases a <;> simp [emit] at h ⊢ <;> subst h <;> simp [M.single, M.pooled, TokKind.isSep] at hs

/-- Reading up to a separator, whatever follows. -/
theorem run_sep : ∀ (gs : List Str) (m : M) (ts : List Token) (t e : Token), run gs m = ts ++ [t, e] → t.kind.isSep = true →
    NUL ∉ gs → nameDue m.look ts = false → ∃ m', m'.look = false ∧ m'.nested = true ∧ m'.pool = [] ∧
      ∀ r, run (gs ++ r) m = ts ++ t :: run r m'
  | [], m, ts, t, e, h, _, _, _ => by
    rcases ts with _ | ⟨x, ts⟩ <;> simp [run] at h
  | [g], m, ts, t, e, h, hs, hn, hl => by
    have hg : g ≠ NUL := fun e => hn (by simp [e])
    simp only [run, hg, if_false] at h
    rcases emit_le (act g [] m) g m with h1 | ⟨x, h1⟩
    · rw [h1] at h
      rcases ts with _ | ⟨x, ts⟩ <;> simp at h
    · rw [h1] at h
      rcases ts with _ | ⟨y, ts⟩
      · simp only [List.nil_append, List.singleton_append, List.cons.injEq] at h
        obtain ⟨rfl, _⟩ := h
        obtain ⟨h2, h3⟩ := emit_sep h1 hs
        have hlook : m.look = false := hl
        have ha : ∀ r, act g r m = act g [] m ∧ m.nested = true := by
          intro r
          unfold act at h2 ⊢
          rw [hlook, action_eq] at h2
          rw [hlook, action_eq, action_eq]
          exact actionC_sep _ _ _ _ h2
        refine ⟨m.adv, hlook, (ha []).2, rfl, fun r => ?_⟩
        simp only [List.singleton_append, run, hg, if_false, (ha r).1, h1, h3, List.nil_append]
      · rcases ts with _ | ⟨z, ts⟩ <;> simp at h
  | g :: g2 :: gs, m, ts, t, e, h, hs, hn, hl => by
    have hg : g ≠ NUL := fun e => hn (by simp [e])
    have hn2 : NUL ∉ g2 :: gs := fun h => hn (List.mem_cons_of_mem _ h)
    rw [run, if_neg hg] at h
    have ha : ∀ r, act g (g2 :: (gs ++ r)) m = act g (g2 :: gs) m := fun r => rfl
    rcases emit_le (act g (g2 :: gs) m) g m with h1 | ⟨x, h1⟩
    · rw [h1, List.nil_append] at h
      obtain ⟨m', k1, k2, k3, k4⟩ := run_sep (g2 :: gs) _ ts t e h hs hn2 (by
        have := emit_look (act g (g2 :: gs) m) g m
        rw [h1] at this
        rw [this]; exact hl)
      refine ⟨m', k1, k2, k3, fun r => ?_⟩
      have := k4 r
      simp only [List.cons_append] at this ⊢
      rw [run, if_neg hg, ha, h1, List.nil_append, this]
    · rw [h1, List.singleton_append] at h
      obtain ⟨a, b, r0, h0⟩ := run_some (g2 :: gs) (emit (act g (g2 :: gs) m) g m).2 (by simp) hn2
      rcases ts with _ | ⟨y, ts⟩
      · rw [h0] at h
        simp at h
      · simp only [List.cons_append, List.cons.injEq] at h
        obtain ⟨rfl, h⟩ := h
        obtain ⟨m', k1, k2, k3, k4⟩ := run_sep (g2 :: gs) _ ts t e h hs hn2 (by
          rw [emit_look, h1, ← nameDue_append]; exact hl)
        refine ⟨m', k1, k2, k3, fun r => ?_⟩
        have := k4 r
        simp only [List.cons_append] at this ⊢
        rw [run, if_neg hg, ha, h1, this, List.singleton_append]

theorem run_blank {m : M} (hl : m.look = false) (hn : m.nested = true) (hp : m.pool = []) {c : Char} (hc : c = ' ' ∨ c = '\n')
    (r : List Str) : ∃ x m', run ([c] :: r) m = x :: run r m' ∧ x.kind.isBlank = true ∧ M.Alike m m' := by
  rcases hc with rfl | rfl
  · have ha : act [' '] r m = .whitespace := by
      unfold act
      rw [action_eq, hl, hn, (cls_sp _).mpr rfl]
      generalize cls (r.headD NUL) = d
      revert d; decide
    refine ⟨m.single .whiteSpace, m.adv, ?_, rfl, ⟨by simp [M.adv, hp], rfl, rfl⟩⟩
    rw [run, if_neg (by decide), ha]
    rfl
  · refine ⟨m.single .newLine, m.nextLine, run_lf r m (.inl hl), rfl, ⟨by simp [M.nextLine, hp], rfl, rfl⟩⟩

theorem sep_kind {t : Token} (h : t.kind = .comma ∨ t.kind = .whiteSpace) : t.kind.isSep = true := by
  rcases h with h | h <;> rw [h] <;> rfl

/-- One more blank after a separator. -/
theorem same_one {S : Segmenter} (ids : Nat → Str) {u v : Str} {c x : Char} (hs : Separates S u c) (hx : x = ' ' ∨ x = '\n')
    (h0 : S.graphemes (u ++ [c] ++ v) = S.graphemes (u ++ [c]) ++ S.graphemes v)
    (h1 : S.graphemes (u ++ [c] ++ x :: v) = S.graphemes (u ++ [c]) ++ [x] :: S.graphemes v) :
    SameDocument S ids (u ++ [c] ++ v) (u ++ [c] ++ x :: v) := by
  obtain ⟨ts, t, e, ht, hk, hb, hn⟩ := hs
  rw [tokenizeStr_eq] at ht
  have ht : run (S.graphemes (u ++ [c])) M.init = ts ++ [t, e] := by injection ht
  refine same_of_spaced (tokenizeStr_eq S _) (tokenizeStr_eq S _) ?_ ids
  rw [h0, h1]
  by_cases hnul : NUL ∈ S.graphemes (u ++ [c])
  · rw [run_nul _ _ _ hnul, run_nul _ _ _ hnul]
    exact .of_kinds rfl
  · obtain ⟨m, k1, k2, k3, k4⟩ := run_sep _ _ ts t e ht (sep_kind hk) hnul hn
    rw [k4, k4]
    obtain ⟨y, m', k5, k6, k7⟩ := run_blank k1 k2 k3 hx (S.graphemes v)
    rw [k5]
    exact .after (sep_kind hk) k6 (.of_kinds (run_kinds _ _ _ k7)) ts hb

theorem graphemes_rest (S : Segmenter) {a b : Str} {xs ys : List Str} (h : S.graphemes (a ++ b) = xs ++ ys) (hx : xs.flatten = a) :
    S.graphemes b = ys := by
  have hst : Stable S (xs ++ ys) := by
    have := stable_graphemes S (a ++ b)
    rwa [h] at this
  have h1 := S.flatten (a ++ b)
  rw [h, List.flatten_append, hx] at h1
  have h2 := List.append_cancel_left h1
  have := hst.right
  unfold Stable at this
  rwa [h2] at this

theorem flatten_singles : ∀ b : Str, (b.map (fun c => [c])).flatten = b
  | [] => rfl
  | c :: b => by simp [flatten_singles b]

theorem same_blanks {S : Segmenter} (ids : Nat → Str) {u v : Str} {c : Char} (hs : Separates S u c) (hr : Room S (u ++ [c]) v) :
    ∀ b, Blanks b → SameDocument S ids (u ++ [c] ++ v) (u ++ [c] ++ b ++ v)
  | [], _ => by simpa using SameDocument.refl S ids (u ++ [c] ++ v)
  | x :: b, hb => by
    have hb' : Blanks b := fun c hc => hb c (List.mem_cons_of_mem _ hc)
    have h1 := hr b hb'
    have h2 := hr (x :: b) hb
    have hv : S.graphemes (b ++ v) = b.map (fun c => [c]) ++ S.graphemes v := by
      refine graphemes_rest S (a := u ++ [c]) (xs := S.graphemes (u ++ [c])) ?_ (S.flatten _)
      simpa using h1
    have := same_one ids hs (hb x (by simp)) (v := b ++ v) (by simpa [hv] using h1) (by simpa [hv] using h2)
    refine (same_blanks ids hs hr b hb').trans ?_
    simpa using this

end Brack
