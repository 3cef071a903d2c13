import Verif.Proof.TransFinal
import Verif.Proof.TokLemmas

/-
Helper lemmas: tokens have different starts, so no bracket and no backslash is reported twice.
-/

namespace Brack

theorem graphemes_pos (S : Segmenter) (s : Str) (h : s ≠ []) : 0 < (S.graphemes s).length := by
  rcases hg : S.graphemes s with _ | ⟨g, gs⟩
  · have := S.flatten s
    rw [hg] at this
    exact absurd this.symm (by simpa using h)
  · simp

def Pos.lt (a b : Pos) : Prop := a.line < b.line ∨ (a.line = b.line ∧ a.character < b.character)

/-- Tokens of a tiled text other than the last start before all later ones. -/
theorem tiles_strict (S : Segmenter) : ∀ (body : List Token) (eof : Token) (p : Pos),
    Tiles S p (body ++ [eof]) → (∀ t ∈ body, t.kind.spelling ≠ []) →
    (body ++ [eof]).Pairwise (fun a b => a.loc.start.lt b.loc.start) ∧
    ∀ t ∈ body ++ [eof], p = t.loc.start ∨ p.lt t.loc.start := by
  intro body
  induction body with
  | nil =>
    intro eof p h _
    simp only [List.nil_append, Tiles] at h
    exact ⟨by simp, by simp [h.1]⟩
  | cons t body ih =>
    intro eof p h hb
    simp only [List.cons_append, Tiles] at h
    obtain ⟨h1, h2, h3⟩ := h
    obtain ⟨i1, i2⟩ := ih eof _ h3 (fun t ht => hb t (by simp [ht]))
    have hw := graphemes_pos S _ (hb t (by simp))
    have hlt : ∀ u ∈ body ++ [eof], t.loc.start.lt u.loc.start := by
      intro u hu
      have := i2 u hu
      rw [h1]
      by_cases hk : t.kind = .newLine
      · rw [if_pos hk] at this
        rcases this with e | h
        · rw [← e]; left; simp
        · rcases h with h | ⟨h, _⟩
          · left; simp at h; omega
          · left; simp at h; omega
      · rw [if_neg hk, h2] at this
        rcases this with e | h
        · rw [← e]; right; refine ⟨rfl, ?_⟩; simp; omega
        · rcases h with h | ⟨h, h'⟩
          · left; exact h
          · right; refine ⟨h, ?_⟩; simp at h'; omega
    refine ⟨List.pairwise_cons.mpr ⟨hlt, i1⟩, ?_⟩
    intro u hu
    rcases List.mem_cons.mp hu with rfl | hu
    · exact .inl h1.symm
    · have := hlt u hu
      rw [h1] at this
      exact .inr this

theorem starts_nodup (S : Segmenter) {body : List Token} {eof : Token} {p}
    (h : Tiles S p (body ++ [eof])) (hb : ∀ t ∈ body, t.kind.spelling ≠ []) :
    ((body ++ [eof]).map (·.loc.start)).Nodup := by
  rw [List.Nodup, List.pairwise_map]
  refine (tiles_strict S body eof p h hb).1.imp ?_
  intro a b h e
  rw [e] at h
  rcases h with h | ⟨_, h⟩ <;> omega

/-- The token an event reports, if any. -/
def Event.reported? : Event → Option Token
  | .unclosed o => some o
  | .stray _ t => some t
  | _ => none

theorem reported_unclosed (l : List Token) :
    (l.map Event.unclosed).filterMap Event.reported? = l := by
  induction l with
  | nil => rfl
  | cons t l ih => simpa [Event.reported?] using ih

theorem trace_reported : ∀ (n : Nat) (ts st : List Token), ts.length ≤ n →
    ∃ us, ((trace st ts).filterMap Event.reported?).Perm us ∧ us.Sublist (st ++ ts) := by
  intro n
  induction n with
  | zero =>
    intro ts st hn
    have : ts = [] := List.length_eq_zero_iff.mp (by omega)
    subst this
    exact ⟨st, by rw [trace, reported_unclosed], by simp⟩
  | succ n ih =>
    intro ts st hn
    rcases ts with _ | ⟨t, ts⟩
    · exact ⟨st, by rw [trace, reported_unclosed], by simp⟩
    simp only [List.length_cons, Nat.add_le_add_iff_right] at hn
    have hskip : ∀ evs : List Event, evs.filterMap Event.reported? = (trace st ts).filterMap Event.reported? →
        ∃ us : List Token, (evs.filterMap Event.reported?).Perm us ∧ us.Sublist (st ++ t :: ts) := by
      intro evs e
      obtain ⟨us, h1, h2⟩ := ih ts st hn
      exact ⟨us, by rw [e]; exact h1,
        h2.trans (List.Sublist.append_left (List.sublist_cons_self _ _) _)⟩
    obtain ⟨k, l⟩ := t
    rcases k with _ | v | v | v | _ | _ | _ | _ | b | b | _ | _
    · exact ⟨st, by simp only [trace, reported_unclosed]; exact .refl _, by simp⟩
    · exact hskip _ (by simp only [trace, List.filterMap_cons, Event.reported?])
    · exact hskip _ (by simp only [trace, List.filterMap_cons, Event.reported?])
    · exact hskip _ (by simp only [trace, List.filterMap_cons, Event.reported?])
    · exact hskip _ (by simp only [trace, List.filterMap_cons, Event.reported?])
    · exact hskip _ (by simp only [trace, List.filterMap_cons, Event.reported?])
    · exact hskip _ (by simp only [trace, List.filterMap_cons, Event.reported?])
    · -- backslash
      rcases ts with _ | ⟨u, us⟩
      · refine ⟨st ++ [⟨.backSlash, l⟩], ?_, by simp⟩
        simp only [trace, List.filterMap_cons, Event.reported?, reported_unclosed]
        exact (List.perm_append_singleton _ _).symm
      · rcases hu : escapedChar u.kind with _ | c
        · obtain ⟨vs, h1, h2⟩ := ih (u :: us) st hn
          have htr : trace st (⟨.backSlash, l⟩ :: u :: us) =
              .stray st ⟨.backSlash, l⟩ :: trace st (u :: us) := by simp [trace, hu]
          rw [htr]
          obtain ⟨v1, v2, rfl, h3, h4⟩ := List.sublist_append_iff.mp h2
          refine ⟨v1 ++ ⟨.backSlash, l⟩ :: v2, ?_, h3.append (h4.cons_cons _)⟩
          simp only [List.filterMap_cons, Event.reported?]
          exact (h1.cons _).trans List.perm_middle.symm
        · have htr : trace st (⟨.backSlash, l⟩ :: u :: us) =
              .escape st ⟨.backSlash, l⟩ c u :: trace st us := by simp [trace, hu]
          rw [htr]
          simp only [List.length_cons] at hn
          obtain ⟨vs, h1, h2⟩ := ih us st (by omega)
          refine ⟨vs, by simp only [List.filterMap_cons, Event.reported?]; exact h1, h2.trans ?_⟩
          exact List.Sublist.append_left ((List.sublist_cons_self _ _).trans (List.sublist_cons_self _ _)) _
    · -- opening bracket
      obtain ⟨vs, h1, h2⟩ := ih ts (⟨.bopen b, l⟩ :: st) hn
      have htr : trace st (⟨.bopen b, l⟩ :: ts) = trace (⟨.bopen b, l⟩ :: st) ts := by simp [trace]
      rw [htr]
      rw [List.cons_append] at h2
      rcases List.sublist_cons_iff.mp h2 with h | ⟨r, rfl, h⟩
      · exact ⟨vs, h1, h.trans (List.Sublist.append_left (List.sublist_cons_self _ _) _)⟩
      · obtain ⟨v1, v2, rfl, h3, h4⟩ := List.sublist_append_iff.mp h
        exact ⟨v1 ++ ⟨.bopen b, l⟩ :: v2, h1.trans List.perm_middle.symm, h3.append (h4.cons_cons _)⟩
    · -- closing bracket
      simp only [trace, List.filterMap_append, reported_unclosed]
      have hst := List.takeWhile_append_dropWhile (p := fun o : Token => decide (o.kind ≠ .bopen b)) (l := st)
      rcases hdw : st.dropWhile (fun o => decide (o.kind ≠ .bopen b)) with _ | ⟨o, st'⟩
      · rw [hdw] at hst
        obtain ⟨vs, h1, h2⟩ := ih ts [] hn
        refine ⟨st.takeWhile (fun o => decide (o.kind ≠ .bopen b)) ++ vs, ?_, ?_⟩
        · simp only [hdw, List.filterMap_cons, Event.reported?]
          exact h1.append_left _
        · refine (List.takeWhile_sublist _).append ?_
          simp only [List.nil_append] at h2
          exact h2.trans (List.sublist_cons_self _ _)
      · rw [hdw] at hst
        obtain ⟨vs, h1, h2⟩ := ih ts st' hn
        refine ⟨st.takeWhile (fun o => decide (o.kind ≠ .bopen b)) ++ vs, ?_, ?_⟩
        · simp only [hdw, List.filterMap_cons, Event.reported?]
          exact h1.append_left _
        · rw (config := { occs := .pos [2] }) [← hst]
          rw [List.append_assoc, List.cons_append]
          refine (List.Sublist.refl _).append ?_
          exact h2.trans ((List.Sublist.append_left (List.sublist_cons_self _ _) _).trans
            (List.sublist_cons_self _ _))
    · exact hskip _ (by simp only [trace, List.filterMap_cons, Event.reported?])
    · exact ⟨st, by simp only [trace, reported_unclosed]; exact .refl _, by simp⟩

theorem trace_reported_nodup {ts : List Token} (h : (ts.map (·.loc.start)).Nodup) :
    (((trace [] ts).filterMap Event.reported?).map (·.loc.start)).Nodup := by
  obtain ⟨us, h1, h2⟩ := trace_reported ts.length ts [] (Nat.le_refl _)
  refine (h1.map _).nodup_iff.mpr ?_
  simp only [List.nil_append] at h2
  exact (h2.map _).nodup h

theorem nodup_filterMap {α β} {f : α → Option β} (hf : ∀ a b c, f a = some c → f b = some c → a = b) :
    ∀ {l : List α}, l.Nodup → (l.filterMap f).Nodup := by
  intro l
  induction l with
  | nil => simp
  | cons a l ih =>
    intro h
    rw [List.nodup_cons] at h
    rw [List.filterMap_cons]
    rcases hfa : f a with _ | c
    · exact ih h.2
    · simp only []
      rw [List.nodup_cons]
      refine ⟨?_, ih h.2⟩
      intro hc
      obtain ⟨b, hb, hfb⟩ := List.mem_filterMap.mp hc
      rw [hf a b c hfa hfb] at h
      exact h.1 hb

/-- Two views of the reports. -/
theorem nodup_view {evs : List Event} {β} (g : Event → Option β) (k : β → Pos)
    (hg : ∀ e b, g e = some b → ∃ t, e.reported? = some t ∧ k b = t.loc.start)
    (h : ((evs.filterMap Event.reported?).map (·.loc.start)).Nodup) : (evs.filterMap g).Nodup := by
  induction evs with
  | nil => simp
  | cons e evs ih =>
    have htail : ((evs.filterMap Event.reported?).map (·.loc.start)).Nodup := by
      rw [List.filterMap_cons] at h
      rcases he : e.reported? with _ | t
      · rw [he] at h; exact h
      · rw [he] at h
        simp only [List.map_cons, List.nodup_cons] at h
        exact h.2
    rw [List.filterMap_cons]
    rcases hge : g e with _ | b
    · exact ih htail
    · simp only []
      rw [List.nodup_cons]
      refine ⟨?_, ih htail⟩
      intro hb
      obtain ⟨e', he', hge'⟩ := List.mem_filterMap.mp hb
      obtain ⟨t, h1, h2⟩ := hg e b hge
      obtain ⟨t', h1', h2'⟩ := hg e' b hge'
      rw [List.filterMap_cons, h1] at h
      simp only [List.map_cons, List.nodup_cons] at h
      refine h.1 (List.mem_map.mpr ⟨t', List.mem_filterMap.mpr ⟨e', he', h1'⟩, ?_⟩)
      rw [← h2, ← h2']

/-- Every token but the last spells something. -/
theorem run_spelling (gs : List Str) : (∀ g ∈ gs, g ≠ []) → ∀ m, ∀ t ∈ run gs m, t.kind ≠ .eof →
    t.kind.spelling ≠ [] := by
  induction gs with
  | nil => intro _ m t ht hk; simp [run] at ht; simp [ht, M.eof] at hk
  | cons g gs ih =>
    intro hne m t ht hk
    by_cases hg : g = NUL
    · simp [run, hg] at ht; simp [ht, M.eof] at hk
    · simp only [run, hg, if_false] at ht
      rcases List.mem_append.1 ht with h | h
      · have := hne g (by simp)
        revert h
        rcases act g gs m <;> intro h <;> simp [emit, M.single, M.pooled] at h <;>
          subst h <;> simp_all [TokKind.spelling]
        all_goals (rename_i b; rcases b <;> simp [TokKind.spelling])
      · exact ih (fun g h => hne g (by simp [h])) _ t h hk

/-- No two tokens of a text start at the same position. -/
theorem tokens_starts_nodup (S : Segmenter) (text : Str) (ts : List Token)
    (h : tokenizeStr S text = .ok ts) : (ts.map (·.loc.start)).Nodup := by
  rw [tokenizeStr_eq] at h
  injection h with h
  have ht : Tiles S ⟨0, 0⟩ ts := by rw [← h]; exact tokens_tile S text
  obtain ⟨body, eof, h1, h2, h3⟩ := run_shape (S.graphemes text) M.init
  rw [h] at h1
  subst h1
  refine starts_nodup S ht (fun t htm => ?_)
  refine run_spelling (S.graphemes text) (S.nonempty text) M.init t ?_ (h3 t htm).1
  rw [h]; simp [htm]

end Brack
