import Verif.Model.Clear
import Verif.Proof.Download
import Verif.Proof.Rebuild
import Verif.Proof.Opened

/-
Lemmas about clearing the cache of plugins.
-/

namespace Brack

theorem isBelow_iff {dir p : Str} : isBelow dir p = true ↔ ∃ n, p = dir ++ '/' :: n := by
  rw [isBelow, List.isPrefixOf_iff_prefix]
  constructor
  · rintro ⟨n, rfl⟩; exact ⟨n, by simp⟩
  · rintro ⟨n, rfl⟩; exact ⟨n, by simp⟩

theorem HMap.get_filter (m : HMap Str Bytes) (keep : Str → Bool) (p : Str) :
    HMap.get p (m.filter fun x => keep x.1) = if keep p then m.get p else none := by
  induction m with
  | nil => simp [HMap.get]
  | cons x m ih =>
    obtain ⟨k, a⟩ := x
    rw [List.filter_cons]
    rcases hk : keep k with _ | _
    · simp only [Bool.false_eq_true, if_false, HMap.get]
      rw [ih]
      rcases hp : keep p with _ | _
      · simp
      · have hne : k ≠ p := by rintro rfl; rw [hk] at hp; exact absurd hp (by simp)
        simp [hne]
    · simp only [if_true, HMap.get]
      rw [ih]
      by_cases h : k = p
      · subst h; simp [hk]
      · rw [if_neg h, if_neg h]

theorem get_filterBelow (m : HMap Str Bytes) (dir p : Str) :
    HMap.get p (m.filter fun x => !isBelow dir x.1) = if isBelow dir p then none else m.get p := by
  rw [HMap.get_filter m (fun k => !isBelow dir k)]
  cases isBelow dir p <;> rfl

theorem deleteBelow_get (dir : Str) (n : Nat) (m : HMap Str Bytes) (p : Str) (hp : isBelow dir p = false) :
    (deleteBelow dir n m).get p = m.get p := by
  induction m generalizing n with
  | nil => cases n <;> rfl
  | cons x m ih =>
    obtain ⟨k, a⟩ := x
    cases n with
    | zero => rfl
    | succ n =>
      rw [deleteBelow]
      simp only
      rcases hk : isBelow dir k with _ | _
      · simp only [Bool.false_eq_true, if_false, HMap.get]
        rw [ih]
      · simp only [if_true, HMap.get]
        rw [ih, if_neg (by rintro rfl; rw [hk] at hp; exact absurd hp (by simp))]

/-- How clearing ends: not begun, interrupted before anything but files of the cache was deleted,
interrupted before the directory was made again, or done. -/
theorem clearPlugins_cases (md : PluginsMetadata) (w : World) :
    (∃ m k, clearPlugins md w = ((.err m, md), { w with clock := k }) ∧
      (chars! "plugins" ∈ w.dirs → ∃ n, w.faults n ≠ .none ∧ w.clock ≤ n)) ∨
    (∃ m k n, clearPlugins md w =
        ((.err m, md), { w with clock := k, files := deleteBelow (chars! "plugins") n w.files }) ∧
      chars! "plugins" ∈ w.dirs ∧ ∃ n, w.faults n ≠ .none ∧ w.clock ≤ n) ∨
    (∃ m k, clearPlugins md w =
        ((.err m, md), { w with
          clock := k
          files := w.files.filter fun x => !isBelow (chars! "plugins") x.1
          dirs := w.dirs.filter fun d => d ≠ chars! "plugins" && !isBelow (chars! "plugins") d }) ∧
      chars! "plugins" ∈ w.dirs ∧ ((∃ n, w.faults n ≠ .none ∧ w.clock ≤ n) ∨ (w.files.get (chars! "plugins")).isSome)) ∨
    ∃ k, clearPlugins md w =
        ((.ok (), []), { w with
          clock := k
          files := w.files.filter fun x => !isBelow (chars! "plugins") x.1
          dirs := (w.dirs.filter fun d => d ≠ chars! "plugins" && !isBelow (chars! "plugins") d) ++
            [chars! "plugins"] }) ∧
      chars! "plugins" ∈ w.dirs := by
  by_cases hd : chars! "plugins" ∈ w.dirs
  · rcases hf : w.faults w.clock with _ | _ | n
    · -- removed
      have hr : IOM.removeDirAll (chars! "plugins") w = (.ok (), { w with
          clock := w.clock + 1
          files := w.files.filter fun x => !isBelow (chars! "plugins") x.1
          dirs := w.dirs.filter fun d => d ≠ chars! "plugins" && !isBelow (chars! "plugins") d }) := by
        simp only [IOM.removeDirAll, if_pos hd, hf]
      rcases hf2 : w.faults (w.clock + 1) with _ | _ | n
      · by_cases hp : (w.files.get (chars! "plugins")).isSome = true
        · refine .inr (.inr (.inl ⟨"cannot create directory", w.clock + 1 + 1, ?_, hd, .inr hp⟩))
          rw [clearPlugins]
          rw [IOM.bind_of_ok hr, IOM.createDir, IOM.bind_of_ok (step_run hf2)]
          have : World.pathExists { w with
              clock := w.clock + 1 + 1
              files := w.files.filter fun x => !isBelow (chars! "plugins") x.1
              dirs := w.dirs.filter fun d => d ≠ chars! "plugins" && !isBelow (chars! "plugins") d }
              (chars! "plugins") = true := by
            simp only [World.pathExists]
            rw [get_filterBelow, if_neg (by decide), hp]
            rfl
          simp only [this, Bool.true_or, if_true]
        · refine .inr (.inr (.inr ⟨w.clock + 1 + 1, ?_, hd⟩))
          rw [clearPlugins]
          rw [IOM.bind_of_ok hr, IOM.createDir, IOM.bind_of_ok (step_run hf2)]
          have h1 : World.pathExists { w with
              clock := w.clock + 1 + 1
              files := w.files.filter fun x => !isBelow (chars! "plugins") x.1
              dirs := w.dirs.filter fun d => d ≠ chars! "plugins" && !isBelow (chars! "plugins") d }
              (chars! "plugins") = false := by
            simp only [World.pathExists]
            rw [get_filterBelow, if_neg (by decide)]
            simp only [Bool.not_eq_true] at hp
            rw [hp]
            simp
          simp only [h1, Bool.false_or]
          rw [if_neg (by simp [World.hasDir, parentDir])]
      all_goals
        refine .inr (.inr (.inl ⟨"input/output error", w.clock + 1 + 1, ?_, hd,
          .inl ⟨w.clock + 1, by rw [hf2]; simp, by omega⟩⟩))
        rw [clearPlugins]
        rw [IOM.bind_of_ok hr, IOM.createDir, IOM.bind_run, IOM.step]
        simp only [hf2]
    · refine .inl ⟨"input/output error", w.clock + 1, ?_, fun _ => ⟨w.clock, by rw [hf]; simp, Nat.le_refl _⟩⟩
      rw [clearPlugins]
      rw [IOM.bind_run, IOM.removeDirAll]
      simp only [if_pos hd, hf]
    · refine .inr (.inl ⟨"input/output error", w.clock + 1, n, ?_, hd, w.clock, by rw [hf]; simp, Nat.le_refl _⟩)
      rw [clearPlugins]
      rw [IOM.bind_run, IOM.removeDirAll]
      simp only [if_pos hd, hf]
  · refine .inl ⟨"no such directory", w.clock + 1, ?_, fun h => absurd h hd⟩
    rw [clearPlugins]
    rw [IOM.bind_run, IOM.removeDirAll]
    simp only [if_neg hd]

end Brack
