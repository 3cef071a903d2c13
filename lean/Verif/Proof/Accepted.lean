import Verif.Spec.Snippet
import Verif.Proof.Offers

/-
Accepted completions.
-/

namespace Brack

theorem fill_char {typed : Str} {c : Char} {s : Str} (h1 : c ≠ '\\') (h2 : c ≠ '$') :
    fillSnippet typed (c :: s) = (fillSnippet typed s).map (c :: ·) := by
  rw [fillSnippet.eq_def]
  split
  · contradiction
  · rename_i heq; simp only [List.cons.injEq] at heq; exact absurd heq.1 h1
  · rename_i heq; simp only [List.cons.injEq] at heq; exact absurd heq.1 h2
  · rename_i heq; simp only [List.cons.injEq] at heq; exact absurd heq.1 h2
  · rename_i heq; simp only [List.cons.injEq] at heq; obtain ⟨rfl, rfl⟩ := heq; rfl

theorem fill_plain {typed s t : Str} (h : ∀ c ∈ s, c ≠ '\\' ∧ c ≠ '$') :
    fillSnippet typed (s ++ t) = (fillSnippet typed t).map (s ++ ·) := by
  induction s with
  | nil => simp
  | cons c s ih =>
    obtain ⟨h1, h2⟩ := h c (by simp)
    rw [List.cons_append, fill_char h1 h2, ih (fun d hd => h d (by simp [hd])), Option.map_map]
    rfl

theorem plainName_chars {s : Str} (h : plainName s = true) : plainBut markChars s = true ∧ ∀ c ∈ s, c ≠ '\\' ∧ c ≠ '$' := by
  simp only [plainName, plainBut, Bool.and_eq_true, List.all_eq_true, Bool.not_eq_true', List.contains_eq_mem,
    decide_eq_false_iff_not, List.mem_cons, not_or] at h ⊢
  refine ⟨⟨h.1, fun c hc => (h.2 c hc).2⟩, fun c hc => ⟨?_, (h.2 c hc).1⟩⟩
  rintro rfl
  exact (h.2 _ hc).2 (by decide)

/-- Accepting the item of a command with plain names. -/
theorem accepted_item {m n typed label : Str} {b : Bracket} (hm : plainName m = true) (hn : plainName n = true) :
    SeenItem.accepted ⟨label, m ++ chars! "." ++ n ++ chars! " $0" ++ [b.closeChar], true⟩ typed =
      some (m ++ '.' :: n ++ ' ' :: typed ++ [b.closeChar]) := by
  have h1 := (plainName_chars hm).2
  have h2 := (plainName_chars hn).2
  have e : m ++ chars! "." ++ n ++ chars! " $0" ++ [b.closeChar] =
      (m ++ ['.'] ++ n ++ [' ']) ++ ('$' :: '0' :: [b.closeChar]) := by simp
  rw [SeenItem.accepted]
  simp only [if_true]
  rw [e, fill_plain]
  · have : fillSnippet typed ('$' :: '0' :: [b.closeChar]) = some (typed ++ [b.closeChar]) := by
      cases b <;> simp [fillSnippet, Bracket.closeChar]
    rw [this]
    simp
  · intro c hc
    simp only [List.mem_append, List.mem_singleton] at hc
    rcases hc with ((hc | rfl) | hc) | rfl
    · exact h1 c hc
    · decide
    · exact h2 c hc
    · decide

/-- An offered command is one of the loaded commands. -/
theorem offered_signature {W : Wasm} {md : PluginsMetadata} {w w' : World} {plugins : List (Plugin W)} {ps : Plugins W}
    {typ : PType} {m n : Str} (hl : AllLoadable W w md) (h1 : loadPlugins W md w = (.ok plugins, w'))
    (h2 : Plugins.new plugins = .ok ps) (ho : Offers W w md typ m n) : ∃ ts, ps.signature m n typ = some ts := by
  obtain ⟨hn, _, hmem⟩ := loaded_plugins (loadPlugins_ok h1)
  obtain ⟨e1, e2, e3⟩ := plugins_new_entries h2 (by rw [hn]; exact hl.names)
  obtain ⟨path, flag, b, ms, hmd, hb, hr, d, hd, rfl, rfl⟩ := ho
  obtain ⟨b', ms', f1, f2, f3⟩ := hl.files _ hmd
  simp only at f1 f3
  rw [hb] at f1
  injection f1 with f1
  subst f1
  rcases plugin_new_cases W m b flag with ⟨h4, _⟩ | ⟨ms'', h4, ⟨st, sigs, h5, _, h6⟩ | ⟨_, h5⟩⟩
  · rw [hr] at h4
    simp at h4
  · rw [hr] at h4
    injection h4 with h4
    subst h4
    have hp : (⟨m, st, sigs, flag⟩ : Plugin W) ∈ plugins := (hmem _).mpr ⟨_, hmd, b, hb, h5⟩
    have hx := (HMap.get_eq_some e1).mpr ((e3 m _).mpr ⟨hp, rfl⟩)
    have hsome : (declared ms d.commandName d.returnType).isSome := by
      rw [declared, List.find?_isSome]
      exact ⟨d, by simpa using hd, by simp⟩
    obtain ⟨d', hd'⟩ := Option.isSome_iff_exists.mp hsome
    rw [← h6] at hd'
    refine ⟨d'.argumentTypes.map (·.2), ?_⟩
    rw [Plugins.signature, hx]
    simp only [hd', Option.map_some]
  · rw [hr] at h4
    injection h4 with h4
    rw [hr] at f2
    injection f2 with f2
    exact absurd (h4 ▸ f2 ▸ f3) h5

end Brack
