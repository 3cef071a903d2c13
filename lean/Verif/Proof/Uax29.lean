import Verif.Model.Uax29

/-
UAX #29 segmentation satisfies all assumptions collected in `Segmenter`.
-/

namespace Brack.UTable

variable (T : UTable)

theorem go_flatten (s cur cs) : (T.go s cur cs).flatten = cur ++ cs := by
  induction cs generalizing s cur with
  | nil => simp [go]
  | cons c cs ih =>
    unfold go
    split
    · rw [ih]; simp
    · simp [ih]

/-- The characters after the first one all joined. -/
def Chain : SegSt → Str → Prop
  | _, [] => True
  | s, c :: cs => T.join s c = true ∧ Chain (T.next s c) cs

def after : SegSt → Str → SegSt
  | s, [] => s
  | s, c :: cs => after (T.next s c) cs

/-- A cluster as produced by the algorithm. -/
def IsCluster (g : Str) : Prop := ∃ c cs, g = c :: cs ∧ T.Chain (T.start c) cs

theorem chain_append (s xs c) : T.Chain s (xs ++ [c]) ↔
    T.Chain s xs ∧ T.join (T.after s xs) c = true := by
  induction xs generalizing s with
  | nil => simp [Chain, after]
  | cons x xs ih => simp [Chain, after, ih, and_assoc]

theorem after_append (s xs c) : T.after s (xs ++ [c]) = T.next (T.after s xs) c := by
  induction xs generalizing s with
  | nil => simp [after]
  | cons x xs ih => simp [after, ih]

theorem go_cluster (cs : Str) : ∀ (c0 : Char) (xs : Str), T.Chain (T.start c0) xs →
    ∀ g ∈ T.go (T.after (T.start c0) xs) (c0 :: xs) cs, T.IsCluster g := by
  induction cs with
  | nil =>
    intro c0 xs h g hg
    simp [go] at hg
    exact ⟨c0, xs, hg, h⟩
  | cons c cs ih =>
    intro c0 xs h g hg
    unfold go at hg
    split at hg
    · rename_i hj
      rw [← T.after_append] at hg
      exact ih c0 (xs ++ [c]) ((T.chain_append _ _ _).2 ⟨h, hj⟩) g hg
    · rcases List.mem_cons.1 hg with hg | hg
      · exact ⟨c0, xs, hg, h⟩
      · exact ih c [] trivial g hg

theorem clusters_cluster (s : Str) : ∀ g ∈ T.clusters s, T.IsCluster g := by
  intro g hg
  rcases s with _ | ⟨c, cs⟩
  · simp [clusters] at hg
  · exact T.go_cluster cs c [] trivial g hg

theorem clusters_flatten (s : Str) : (T.clusters s).flatten = s := by
  rcases s with _ | ⟨c, cs⟩
  · rfl
  · simp [clusters, go_flatten]

theorem go_first (cs : Str) : ∀ s cur g gs, T.go s cur cs = g :: gs →
    T.clusters gs.flatten = gs := by
  induction cs with
  | nil =>
    intro s cur g gs h
    simp [go] at h
    simp [h.2, clusters]
  | cons c cs ih =>
    intro s cur g gs h
    unfold go at h
    split at h
    · exact ih _ _ g gs h
    · simp at h
      rw [← h.2, go_flatten]
      simp [clusters]

/-- Segmentation of a prefix ending at a boundary. -/
theorem go_pre (cs : Str) : ∀ s cur as bs, T.go s cur cs = as ++ bs → as ≠ [] →
    ∃ r, as.flatten = cur ++ r ∧ T.go s cur r = as := by
  induction cs with
  | nil =>
    intro s cur as bs h hne
    rcases as with _ | ⟨a, as⟩
    · exact absurd rfl hne
    · simp [go] at h
      refine ⟨[], ?_, ?_⟩
      · simp [h.1, h.2.1]
      · simp [go, h.1, h.2.1]
  | cons c cs ih =>
    intro s cur as bs h hne
    unfold go at h
    split at h
    · rename_i hj
      obtain ⟨r, h1, h2⟩ := ih _ _ as bs h hne
      refine ⟨c :: r, by simp [h1], ?_⟩
      rw [go, if_pos hj, h2]
    · rename_i hj
      rcases as with _ | ⟨a, as⟩
      · exact absurd rfl hne
      · simp at h
        rcases as with _ | ⟨a2, as⟩
        · refine ⟨[], by simp [h.1], by simp [go, h.1]⟩
        · obtain ⟨r, h1, h2⟩ := ih _ _ (a2 :: as) bs h.2 (by simp)
          refine ⟨c :: r, ?_, ?_⟩
          · rw [List.flatten_cons, h1]; simp [h.1]
          · rw [go, if_neg hj, h2, h.1]

theorem clusters_pre (s : Str) (as bs) (h : T.clusters s = as ++ bs) :
    T.clusters as.flatten = as := by
  rcases s with _ | ⟨c, cs⟩
  · simp [clusters] at h
    simp [h.1, clusters]
  · by_cases hne : as = []
    · subst hne; rfl
    · obtain ⟨r, h1, h2⟩ := T.go_pre cs _ _ as bs h hne
      rw [h1]
      simpa [clusters] using h2

theorem start_prev (c) : (T.start c).prev = T.gcb c := rfl

theorem next_prev (s c) : (T.next s c).prev = T.gcb c := rfl

/-- After a control character nothing joins (other than LF after CR). -/
theorem join_after_control (s c) (h : s.prev = .control ∨ s.prev = .lf) : T.join s c = false := by
  unfold join
  rcases h with h | h <;> simp [h]

theorem join_control (s c) (h : T.gcb c = .control ∨ T.gcb c = .cr) : T.join s c = false := by
  unfold join
  rcases h with h | h <;> simp [h]

theorem join_lf (s c) (h : T.gcb c = .lf) : T.join s c = true → s.prev = .cr := by
  unfold join
  simp only [h]
  by_cases h1 : s.prev = .cr
  · simp [h1]
  · simp [h1]

theorem join_after_cr (s c) (h : s.prev = .cr) : T.join s c = true → T.gcb c = .lf := by
  unfold join
  simp [h]

/-- Control characters stand alone. -/
theorem cluster_control (g c) (hg : T.IsCluster g) (hc : c ∈ g) (h : T.gcb c = .control) :
    g = [c] := by
  obtain ⟨c0, cs, rfl, hch⟩ := hg
  have key : ∀ (cs : Str) s, T.Chain s cs → c ∉ cs := by
    intro cs
    induction cs with
    | nil => intro s _; simp
    | cons d ds ih =>
      intro s hs
      simp only [Chain] at hs
      have hd : c ≠ d := by
        rintro rfl
        rw [T.join_control s c (.inl h)] at hs
        exact absurd hs.1 (by simp)
      simp [hd, ih _ hs.2]
  have hc0 : c = c0 := by
    rcases List.mem_cons.1 hc with h1 | h1
    · exact h1
    · exact absurd h1 (key cs _ hch)
  subst hc0
  rcases cs with _ | ⟨d, ds⟩
  · rfl
  · simp only [Chain] at hch
    rw [T.join_after_control _ d (.inl (by simp [start_prev, h]))] at hch
    exact absurd hch.1 (by simp)

theorem cluster_cr (g) (hg : T.IsCluster g) (hc : '\r' ∈ g) : g = ['\r'] ∨ g = ['\r', '\n'] := by
  obtain ⟨c0, cs, rfl, hch⟩ := hg
  have hcr : T.gcb '\r' = .cr := (T.cr _).2 rfl
  have key : ∀ (cs : Str) s, T.Chain s cs → '\r' ∉ cs := by
    intro cs
    induction cs with
    | nil => intro s _; simp
    | cons d ds ih =>
      intro s hs
      simp only [Chain] at hs
      have hd : '\r' ≠ d := by
        rintro rfl
        rw [T.join_control s _ (.inr hcr)] at hs
        exact absurd hs.1 (by simp)
      simp [hd, ih _ hs.2]
  have hc0 : '\r' = c0 := by
    rcases List.mem_cons.1 hc with h1 | h1
    · exact h1
    · exact absurd h1 (key cs _ hch)
  subst hc0
  rcases cs with _ | ⟨d, _ | ⟨e, es⟩⟩
  · simp
  · simp only [Chain] at hch
    have := T.join_after_cr _ d (by simp [start_prev, hcr]) hch.1
    rw [T.lf] at this
    simp [this]
  · simp only [Chain] at hch
    have := T.join_after_cr _ d (by simp [start_prev, hcr]) hch.1
    rw [T.join_after_control _ e (.inr (by simp [next_prev, this]))] at hch
    exact absurd hch.2.1 (by simp)

theorem cluster_lf (g) (hg : T.IsCluster g) (hc : '\n' ∈ g) : g = ['\n'] ∨ g = ['\r', '\n'] := by
  obtain ⟨c0, cs, rfl, hch⟩ := hg
  have hlf : T.gcb '\n' = .lf := (T.lf _).2 rfl
  by_cases h0 : '\n' = c0
  · subst h0
    rcases cs with _ | ⟨d, ds⟩
    · simp
    · simp only [Chain] at hch
      rw [T.join_after_control _ d (.inr (by simp [start_prev, hlf]))] at hch
      exact absurd hch.1 (by simp)
  · have hm : '\n' ∈ cs := by
      rcases List.mem_cons.1 hc with h1 | h1
      · exact absurd h1 h0
      · exact h1
    have key : ∀ (cs : Str) s, T.Chain s cs → '\n' ∈ cs → s.prev = .cr ∨ '\r' ∈ cs := by
      intro cs
      induction cs with
      | nil => intro s _ h; simp at h
      | cons d ds ih =>
        intro s hs h
        simp only [Chain] at hs
        by_cases hd : '\n' = d
        · subst hd
          exact .inl (T.join_lf s _ hlf hs.1)
        · rcases ih _ hs.2 (by simpa [hd] using h) with h1 | h1
          · rw [next_prev, T.cr] at h1
            simp [h1]
          · simp [h1]
    have hcr : '\r' ∈ c0 :: cs := by
      rcases key cs _ hch hm with h1 | h1
      · rw [start_prev, T.cr] at h1
        simp [h1]
      · simp [h1]
    rcases T.cluster_cr _ ⟨c0, cs, rfl, hch⟩ hcr with h | h
    · rw [h] at hc; simp at hc
    · exact .inr h

/-- Before an ASCII character other than CR there is a boundary, if the context is ASCII. -/
theorem join_ascii (s c) (hp : s.prev = .other ∨ s.prev = .control ∨ s.prev = .lf)
    (hc : c.toNat < 128) (hcr : c ≠ '\r') : T.join s c = false := by
  have hpict := T.asciiPict c hc
  have hincb := T.asciiIncb c hc
  by_cases hlf : c = '\n'
  · have := (T.lf c).2 hlf
    unfold join
    rcases hp with h | h | h <;> simp [h, this]
  · rcases T.ascii c hc hcr hlf with h1 | h1 <;> unfold join <;>
      rcases hp with h | h | h <;> simp [h, h1, hpict, hincb]

theorem ascii_prev (c : Char) (hc : c.toNat < 128) (hcr : c ≠ '\r') :
    T.gcb c = .other ∨ T.gcb c = .control ∨ T.gcb c = .lf := by
  by_cases hlf : c = '\n'
  · exact .inr (.inr ((T.lf c).2 hlf))
  · rcases T.ascii c hc hcr hlf with h | h <;> simp [h]

theorem clusters_ascii (s : Str) (h : ∀ c ∈ s, c.toNat < 128 ∧ c ≠ '\r') :
    T.clusters s = s.map (fun c => [c]) := by
  rcases s with _ | ⟨c, cs⟩
  · rfl
  · have key : ∀ (cs : Str) c, c.toNat < 128 ∧ c ≠ '\r' → (∀ d ∈ cs, d.toNat < 128 ∧ d ≠ '\r') →
        T.go (T.start c) [c] cs = (c :: cs).map (fun c => [c]) := by
      intro cs
      induction cs with
      | nil => intro c _ _; rfl
      | cons d ds ih =>
        intro c hc hd
        have hd0 := hd d (by simp)
        rw [go, if_neg]
        · rw [ih d hd0 (fun e he => hd e (by simp [he]))]; rfl
        · rw [T.join_ascii _ d (by rw [start_prev]; exact T.ascii_prev c hc.1 hc.2) hd0.1 hd0.2]
          simp
    exact key cs c (h c (by simp)) (fun d hd => h d (by simp [hd]))

theorem clusters_crlf (s : Str) : T.clusters ('\r' :: '\n' :: s) = ['\r', '\n'] :: T.clusters s := by
  have hcr : T.gcb '\r' = .cr := (T.cr _).2 rfl
  have hlf : T.gcb '\n' = .lf := (T.lf _).2 rfl
  have hj : T.join (T.start '\r') '\n' = true := by
    unfold join
    simp [start_prev, hcr, hlf]
  show T.go (T.start '\r') ['\r'] ('\n' :: s) = _
  rw [go, if_pos hj]
  rcases s with _ | ⟨c, cs⟩
  · rfl
  · rw [go, if_neg]
    · rfl
    · rw [T.join_after_control _ c (.inr (by simp [next_prev, hlf]))]; simp

/-- UAX #29 segmentation is a `Segmenter`, whatever the Unicode version of the tables. -/
def segmenter : Segmenter where
  graphemes := T.clusters
  flatten := T.clusters_flatten
  nonempty := by
    intro s g hg
    obtain ⟨c, cs, rfl, _⟩ := T.clusters_cluster s g hg
    simp
  suffix := by
    intro s g gs h
    rcases s with _ | ⟨c, cs⟩
    · simp [clusters] at h
    · exact T.go_first cs _ _ g gs h
  pre := T.clusters_pre
  ascii := T.clusters_ascii
  crlf := T.clusters_crlf
  nul := by
    intro s g hg h
    exact T.cluster_control g _ (T.clusters_cluster s g hg) h T.nul
  cr := fun s g hg h => T.cluster_cr g (T.clusters_cluster s g hg) h
  lf := fun s g hg h => T.cluster_lf g (T.clusters_cluster s g hg) h

/-- A small table: ASCII, the combining diacritics, the zero width joiner, regional indicators. -/
def sample : UTable where
  gcb c :=
    if c = '\r' then .cr else if c = '\n' then .lf
    else if c.toNat < 32 ∨ c.toNat = 127 then .control
    else if 0x300 ≤ c.toNat ∧ c.toNat < 0x370 then .extend
    else if c.toNat = 0x200D then .zwj
    else if 0x1F1E6 ≤ c.toNat ∧ c.toNat ≤ 0x1F1FF then .regional
    else .other
  pict c := decide (0x1F300 ≤ c.toNat ∧ c.toNat < 0x1FB00)
  incb _ := .none
  cr := by intro c; constructor <;> intro h <;> (repeat' split at h) <;> simp_all
  lf := by intro c; constructor <;> intro h <;> (repeat' split at h) <;> simp_all
  nul := by decide
  ascii := by
    intro c h1 h2 h3
    rw [if_neg h2, if_neg h3]
    split
    · simp
    · rw [if_neg (by omega), if_neg (by omega), if_neg (by omega)]; simp
  asciiPict := by intro c h; simp; omega
  asciiIncb := by intro c _; rfl

/-- A concrete segmenter, used in the examples. -/
def sampleSeg : Segmenter := sample.segmenter

end Brack.UTable
