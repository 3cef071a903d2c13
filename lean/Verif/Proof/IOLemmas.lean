import Verif.Model.Project
import Verif.Spec.World
import Verif.Proof.Config

/-
Helper lemmas on computations with effects.
-/

namespace Brack

namespace IOM

theorem bind_run (x : IOM α) (f : α → IOM β) (w : World) :
    (x >>= f) w = match x w with
      | (.ok a, w) => f a w
      | (.err m, w) => (.err m, w)
      | (.panic, w) => (.panic, w) := rfl

theorem bind_of_ok {x : IOM α} {f : α → IOM β} {w w1 : World} {a : α} (h : x w = (.ok a, w1)) :
    (x >>= f) w = f a w1 := by rw [bind_run, h]

theorem bind_ok {x : IOM α} {f : α → IOM β} {w w2 : World} {b : β} :
    (x >>= f) w = (.ok b, w2) ↔ ∃ a w1, x w = (.ok a, w1) ∧ f a w1 = (.ok b, w2) := by
  rw [bind_run]
  rcases hx : x w with ⟨r, w1⟩
  rcases r with a | m | _
  · constructor
    · intro h; exact ⟨a, w1, rfl, h⟩
    · rintro ⟨a', w1', h1, h2⟩
      injection h1 with h1 h3
      injection h1 with h1
      subst h1 h3
      exact h2
  · simp
  · simp

theorem pure_run (a : α) (w : World) : (Pure.pure a : IOM α) w = (.ok a, w) := rfl

theorem lift_run (r : Res α) (w : World) : IOM.lift r w = (r, w) := rfl

theorem lift_ok {r : Res α} {w w1 : World} {a : α} : IOM.lift r w = (.ok a, w1) ↔ r = .ok a ∧ w = w1 := by
  rw [lift_run, Prod.mk.injEq]

/-- Whatever happens, the world after is related to the world before. -/
def Keeps (P : World → World → Prop) (x : IOM α) : Prop := ∀ w, P w (x w).2

/-- A relation between worlds that holds along sequences of operations. -/
structure Frame (P : World → World → Prop) : Prop where
  refl : ∀ w, P w w
  trans : ∀ {a b c}, P a b → P b c → P a c

theorem Keeps.pure {P : World → World → Prop} (hP : Frame P) (a : α) : Keeps P (Pure.pure a : IOM α) :=
  fun w => hP.refl w

theorem Keeps.lift {P : World → World → Prop} (hP : Frame P) (r : Res α) : Keeps P (IOM.lift r) :=
  fun w => hP.refl w

theorem Keeps.fail {P : World → World → Prop} (hP : Frame P) (m : String) : Keeps P (IOM.fail m : IOM α) :=
  fun w => hP.refl w

theorem Keeps.bind {P : World → World → Prop} (hP : Frame P) {x : IOM α} {f : α → IOM β} (hx : Keeps P x)
    (hf : ∀ a, Keeps P (f a)) : Keeps P (x >>= f) := by
  intro w
  rw [bind_run]
  have h1 := hx w
  rcases h : x w with ⟨r, w1⟩
  rw [h] at h1
  rcases r with a | m | _
  · exact hP.trans h1 (hf a w1)
  · exact h1
  · exact h1

/-- A bind where what follows is only known to keep `P` after a successful first part. -/
theorem Keeps.bind_ok {P : World → World → Prop} (hP : Frame P) {x : IOM α} {f : α → IOM β} (hx : Keeps P x)
    (hf : ∀ w a w1, x w = (.ok a, w1) → P w1 (f a w1).2) : Keeps P (x >>= f) := by
  intro w
  rw [bind_run]
  have h1 := hx w
  rcases h : x w with ⟨r, w1⟩
  rw [h] at h1
  rcases r with a | m | _
  · exact hP.trans h1 (hf w a w1 h)
  · exact h1
  · exact h1

end IOM

theorem parentDir_plain {s : Str} (h : '/' ∉ s) : parentDir s = [] := by
  have : ∀ l : Str, '/' ∉ l → l.dropWhile (· ≠ '/') = [] := by
    intro l hl
    induction l with
    | nil => rfl
    | cons c l ih =>
      simp only [List.mem_cons, not_or] at hl
      rw [List.dropWhile_cons_of_pos (by simpa using fun e => hl.1 e.symm), ih hl.2]
  rw [parentDir, this _ (by simpa using h)]
  rfl

theorem parentDir_slash (d : Str) {s : Str} (h : '/' ∉ s) : parentDir (d ++ '/' :: s) = d := by
  have : ∀ l r : Str, '/' ∉ l → (l ++ '/' :: r).dropWhile (· ≠ '/') = '/' :: r := by
    intro l r hl
    induction l with
    | nil => rw [List.nil_append, List.dropWhile_cons_of_neg (by simp)]
    | cons c l ih =>
      simp only [List.mem_cons, not_or] at hl
      rw [List.cons_append, List.dropWhile_cons_of_pos (by simpa using fun e => hl.1 e.symm), ih hl.2]
  rw [parentDir, List.reverse_append, List.reverse_cons, List.append_assoc, List.singleton_append,
    this _ _ (by simpa using h)]
  simp

/-- Operations only advance the clock and extend the log; the environment is kept. -/
structure Goes (w w' : World) : Prop where
  clock : w.clock ≤ w'.clock
  faults : w'.faults = w.faults
  http : w'.http = w.http
  log : ∃ l, w'.log = w.log ++ l
  dirs : ∀ d ∈ w.dirs, d ∈ w'.dirs
  files : ∀ p, (w.files.get p).isSome → (w'.files.get p).isSome

theorem Goes.frame : IOM.Frame Goes where
  refl w := ⟨Nat.le_refl _, rfl, rfl, ⟨[], by simp⟩, fun _ h => h, fun _ h => h⟩
  trans := by
    rintro a b c h h'
    refine ⟨Nat.le_trans h.clock h'.clock, h'.faults.trans h.faults, h'.http.trans h.http, ?_,
      fun d hd => h'.dirs d (h.dirs d hd), fun p hp => h'.files p (h.files p hp)⟩
    obtain ⟨l, hl⟩ := h.log
    obtain ⟨l', hl'⟩ := h'.log
    exact ⟨l ++ l', by rw [hl', hl, List.append_assoc]⟩

/-- The disk and the log are unchanged. -/
def Quiet (w w' : World) : Prop := w'.files = w.files ∧ w'.dirs = w.dirs ∧ w'.log = w.log

theorem Quiet.frame : IOM.Frame Quiet where
  refl _ := ⟨rfl, rfl, rfl⟩
  trans := fun h h' => ⟨h'.1.trans h.1, h'.2.1.trans h.2.1, h'.2.2.trans h.2.2⟩

theorem step_cases (w : World) :
    (w.faults w.clock = .none ∧ IOM.step w = (.ok (), { w with clock := w.clock + 1 })) ∨
    (w.faults w.clock ≠ .none ∧ IOM.step w = (.err "input/output error", { w with clock := w.clock + 1 })) := by
  unfold IOM.step
  rcases h : w.faults w.clock with _ | _ | k
  · exact .inl ⟨rfl, rfl⟩
  · exact .inr ⟨by simp, rfl⟩
  · exact .inr ⟨by simp, rfl⟩

theorem step_quiet : IOM.Keeps Quiet IOM.step := by
  intro w
  rcases step_cases w with ⟨_, h⟩ | ⟨_, h⟩ <;> rw [h] <;> exact ⟨rfl, rfl, rfl⟩

theorem step_goes : IOM.Keeps Goes IOM.step := by
  intro w
  rcases step_cases w with ⟨_, h⟩ | ⟨_, h⟩ <;> rw [h] <;>
    exact ⟨Nat.le_succ _, rfl, rfl, ⟨[], by simp⟩, fun _ h => h, fun _ h => h⟩

theorem step_ok {w w1 : World} {u : Unit} (h : IOM.step w = (.ok u, w1)) :
    w1 = { w with clock := w.clock + 1 } ∧ w.faults w.clock = .none := by
  rcases step_cases w with ⟨hf, h'⟩ | ⟨_, h'⟩ <;> rw [h'] at h
  · injection h with _ h; exact ⟨h.symm, hf⟩
  · simp at h

theorem readFile_quiet (p : Str) : IOM.Keeps Quiet (IOM.readFile p) := by
  refine IOM.Keeps.bind Quiet.frame step_quiet (fun _ w => ?_)
  split <;> exact Quiet.frame.refl w

theorem readFile_goes (p : Str) : IOM.Keeps Goes (IOM.readFile p) := by
  refine IOM.Keeps.bind Goes.frame step_goes (fun _ w => ?_)
  split <;> exact Goes.frame.refl w

theorem readFile_ok {p : Str} {w w1 : World} {b : Bytes} (h : IOM.readFile p w = (.ok b, w1)) :
    w.files.get p = some b ∧ w1 = { w with clock := w.clock + 1 } ∧ w.faults w.clock = .none := by
  obtain ⟨u, w2, h1, h2⟩ := IOM.bind_ok.mp h
  obtain ⟨rfl, hf⟩ := step_ok h1
  simp only at h2
  split at h2
  · next bytes hb =>
    injection h2 with h3 h4
    injection h3 with h3
    exact ⟨by rw [hb, h3], h4.symm, hf⟩
  · simp at h2

theorem readText_quiet (p : Str) : IOM.Keeps Quiet (IOM.readText p) := by
  refine IOM.Keeps.bind Quiet.frame (readFile_quiet p) (fun bytes => ?_)
  split
  · exact IOM.Keeps.pure Quiet.frame _
  · exact IOM.Keeps.fail Quiet.frame _

theorem readText_goes (p : Str) : IOM.Keeps Goes (IOM.readText p) := by
  refine IOM.Keeps.bind Goes.frame (readFile_goes p) (fun bytes => ?_)
  split
  · exact IOM.Keeps.pure Goes.frame _
  · exact IOM.Keeps.fail Goes.frame _

theorem readText_ok {p : Str} {w w1 : World} {t : Str} (h : IOM.readText p w = (.ok t, w1)) :
    (∃ b, w.files.get p = some b ∧ fromUtf8 b = some t) ∧ w1 = { w with clock := w.clock + 1 } ∧
      w.faults w.clock = .none := by
  obtain ⟨b, w2, h1, h2⟩ := IOM.bind_ok.mp h
  obtain ⟨hb, rfl, hf⟩ := readFile_ok h1
  rcases ht : fromUtf8 b with _ | t'
  · simp [ht, IOM.fail] at h2
  · simp only [ht] at h2
    injection h2 with h3 h4
    injection h3 with h3
    exact ⟨⟨b, hb, by rw [ht, h3]⟩, h4.symm, hf⟩

theorem readFile_run {p : Str} {w : World} {b : Bytes} (hb : w.files.get p = some b)
    (hf : w.faults w.clock = .none) : IOM.readFile p w = (.ok b, { w with clock := w.clock + 1 }) := by
  rcases step_cases w with ⟨_, h⟩ | ⟨h, _⟩
  · rw [IOM.readFile, IOM.bind_of_ok h]
    simp [hb]
  · exact absurd hf h

theorem readText_run {p : Str} {w : World} {b : Bytes} {t : Str} (hb : w.files.get p = some b)
    (ht : fromUtf8 b = some t) (hf : w.faults w.clock = .none) :
    IOM.readText p w = (.ok t, { w with clock := w.clock + 1 }) := by
  rw [IOM.readText, IOM.bind_of_ok (readFile_run hb hf)]
  simp only [ht]
  rfl

/-- All outcomes of a write. -/
theorem writeFile_cases (p : Str) (b : Bytes) (w : World) :
    ((IOM.writeFile p b w).1 = .ok () ∧ w.faults w.clock = .none ∧ w.hasDir (parentDir p) = true ∧ p ∉ w.dirs ∧
      (IOM.writeFile p b w).2 =
        { w with clock := w.clock + 1, files := w.files.insert p b, log := w.log ++ [.wrote p b] }) ∨
    ((∃ m, (IOM.writeFile p b w).1 = .err m) ∧ (IOM.writeFile p b w).2 = { w with clock := w.clock + 1 } ∧
      ((w.hasDir (parentDir p) = true ∧ p ∉ w.dirs) → w.faults w.clock = .refused)) ∨
    (∃ k, (∃ m, (IOM.writeFile p b w).1 = .err m) ∧ w.faults w.clock = .cut k ∧
      w.hasDir (parentDir p) = true ∧ p ∉ w.dirs ∧
      (IOM.writeFile p b w).2 =
        { w with
          clock := w.clock + 1, files := w.files.insert p (b.take k), log := w.log ++ [.wrote p (b.take k)] }) := by
  unfold IOM.writeFile
  by_cases hd : (w.hasDir (parentDir p) && p ∉ w.dirs) = true
  · have hd' : w.hasDir (parentDir p) = true ∧ p ∉ w.dirs := by simpa using hd
    simp only [hd, if_true]
    rcases hf : w.faults w.clock with _ | _ | k
    · exact .inl ⟨rfl, rfl, hd'.1, hd'.2, rfl⟩
    · exact .inr (.inl ⟨⟨_, rfl⟩, rfl, fun _ => rfl⟩)
    · exact .inr (.inr ⟨k, ⟨_, rfl⟩, rfl, hd'.1, hd'.2, rfl⟩)
  · simp only [hd]
    exact .inr (.inl ⟨⟨_, rfl⟩, rfl, fun h => absurd (by simpa using h) hd⟩)

theorem isSome_get_insert {p q : Str} {b : Bytes} {m : HMap Str Bytes} (h : (m.get q).isSome) :
    ((m.insert p b).get q).isSome := by
  rw [HMap.get_insert]
  split
  · rfl
  · exact h

theorem writeFile_goes (p : Str) (b : Bytes) : IOM.Keeps Goes (IOM.writeFile p b) := by
  intro w
  rcases writeFile_cases p b w with ⟨_, _, _, _, h⟩ | ⟨_, h, _⟩ | ⟨k, _, _, _, _, h⟩ <;> rw [h]
  · exact ⟨Nat.le_succ _, rfl, rfl, ⟨_, rfl⟩, fun _ h => h, fun q hq => isSome_get_insert hq⟩
  · exact ⟨Nat.le_succ _, rfl, rfl, ⟨[], by simp⟩, fun _ h => h, fun _ h => h⟩
  · exact ⟨Nat.le_succ _, rfl, rfl, ⟨_, rfl⟩, fun _ h => h, fun q hq => isSome_get_insert hq⟩

theorem writeFile_ok {p : Str} {b : Bytes} {w w1 : World} {u : Unit} (h : IOM.writeFile p b w = (.ok u, w1)) :
    w1 = { w with clock := w.clock + 1, files := w.files.insert p b, log := w.log ++ [.wrote p b] } := by
  rcases writeFile_cases p b w with ⟨_, _, _, _, h'⟩ | ⟨⟨m, h'⟩, _⟩ | ⟨k, ⟨m, h'⟩, _⟩
  · rw [h] at h'; exact h'
  · rw [h] at h'; simp at h'
  · rw [h] at h'; simp at h'

theorem writeFile_run {p : Str} {b : Bytes} {w : World} (hf : w.faults w.clock = .none)
    (hd : w.hasDir (parentDir p) = true) (hp : p ∉ w.dirs) :
    IOM.writeFile p b w =
      (.ok (), { w with clock := w.clock + 1, files := w.files.insert p b, log := w.log ++ [.wrote p b] }) := by
  rcases writeFile_cases p b w with ⟨h1, _, _, _, h2⟩ | ⟨_, _, h2⟩ | ⟨k, _, h2, _⟩
  · exact Prod.ext h1 h2
  · have := h2 ⟨hd, hp⟩; rw [hf] at this; simp at this
  · rw [hf] at h2; simp at h2

/-- A write touches only its path. -/
theorem writeFile_other {p q : Str} (hq : q ≠ p) (b : Bytes) (w : World) :
    (IOM.writeFile p b w).2.files.get q = w.files.get q := by
  rcases writeFile_cases p b w with ⟨_, _, _, _, h⟩ | ⟨_, h, _⟩ | ⟨k, _, _, _, _, h⟩ <;> rw [h]
  · exact HMap.get_insert_ne hq _ _
  · exact HMap.get_insert_ne hq _ _

theorem createDirAll_cases (d : Str) (w : World) :
    ((IOM.createDirAll d w).1 = .ok () ∧ w.faults w.clock = .none ∧
      (IOM.createDirAll d w).2 =
        { w with clock := w.clock + 1, dirs := if d ∈ w.dirs then w.dirs else w.dirs ++ [d] }) ∨
    ((∃ m, (IOM.createDirAll d w).1 = .err m) ∧ (IOM.createDirAll d w).2 = { w with clock := w.clock + 1 } ∧
      (w.files.get d = none → w.faults w.clock ≠ .none)) := by
  rcases step_cases w with ⟨hf, h⟩ | ⟨hf, h⟩
  · simp only [IOM.createDirAll, IOM.bind_of_ok h]
    by_cases h1 : (w.files.get d).isSome
    · simp only [h1, if_true]
      refine .inr ⟨⟨_, rfl⟩, trivial, fun h2 => ?_⟩
      rw [h2] at h1
      simp at h1
    · simp only [h1]
      by_cases h2 : d ∈ w.dirs
      · simp only [h2, if_true]
        exact .inl ⟨rfl, hf, rfl⟩
      · simp only [h2]
        exact .inl ⟨rfl, hf, rfl⟩
  · have : IOM.createDirAll d w = (.err "input/output error", { w with clock := w.clock + 1 }) := by
      rw [IOM.createDirAll, IOM.bind_run, h]
    rw [this]
    exact .inr ⟨⟨_, rfl⟩, rfl, fun _ => hf⟩

theorem createDirAll_goes (d : Str) : IOM.Keeps Goes (IOM.createDirAll d) := by
  intro w
  rcases createDirAll_cases d w with ⟨_, _, h⟩ | ⟨_, h, _⟩ <;> rw [h]
  · refine ⟨Nat.le_succ _, rfl, rfl, ⟨[], by simp⟩, ?_, fun _ h => h⟩
    intro e he
    dsimp only
    split
    · exact he
    · exact List.mem_append_left _ he
  · exact ⟨Nat.le_succ _, rfl, rfl, ⟨[], by simp⟩, fun _ h => h, fun _ h => h⟩

theorem createDirAll_files (d : Str) (w : World) :
    (IOM.createDirAll d w).2.files = w.files ∧ (IOM.createDirAll d w).2.log = w.log := by
  rcases createDirAll_cases d w with ⟨_, _, h⟩ | ⟨_, h, _⟩ <;> rw [h] <;> exact ⟨rfl, rfl⟩

theorem createDirAll_ok {d : Str} {w w1 : World} {u : Unit} (h : IOM.createDirAll d w = (.ok u, w1)) :
    w1 = { w with clock := w.clock + 1, dirs := if d ∈ w.dirs then w.dirs else w.dirs ++ [d] } := by
  rcases createDirAll_cases d w with ⟨_, _, h'⟩ | ⟨⟨m, h'⟩, _⟩
  · rw [h] at h'; exact h'
  · rw [h] at h'; simp at h'

theorem createDirAll_run {d : Str} {w : World} (hf : w.faults w.clock = .none) (hd : w.files.get d = none) :
    IOM.createDirAll d w =
      (.ok (), { w with clock := w.clock + 1, dirs := if d ∈ w.dirs then w.dirs else w.dirs ++ [d] }) := by
  rcases createDirAll_cases d w with ⟨h1, _, h2⟩ | ⟨_, _, h2⟩
  · exact Prod.ext h1 h2
  · exact absurd hf (h2 hd)

theorem httpGet_run (url : Str) (w : World) :
    IOM.httpGet url w =
      (.ok (w.http w.clock url), { w with clock := w.clock + 1, log := w.log ++ [.request url] }) := rfl

theorem httpGet_goes (url : Str) : IOM.Keeps Goes (IOM.httpGet url) := fun _ =>
  ⟨Nat.le_succ _, rfl, rfl, ⟨_, rfl⟩, fun _ h => h, fun _ h => h⟩

theorem printLine_goes (l : Str) : IOM.Keeps Goes (IOM.printLine l) := fun _ =>
  ⟨Nat.le_refl _, rfl, rfl, ⟨_, rfl⟩, fun _ h => h, fun _ h => h⟩

theorem readDir_quiet (d : Str) : IOM.Keeps Quiet (IOM.readDir d) := by
  refine IOM.Keeps.bind Quiet.frame step_quiet (fun _ w => ?_)
  split <;> exact Quiet.frame.refl w

theorem readDir_goes (d : Str) : IOM.Keeps Goes (IOM.readDir d) := by
  refine IOM.Keeps.bind Goes.frame step_goes (fun _ w => ?_)
  split <;> exact Goes.frame.refl w

theorem readDir_ok {d : Str} {w w1 : World} {l : List Str} (h : IOM.readDir d w = (.ok l, w1)) :
    l = w.entries d ∧ w1 = { w with clock := w.clock + 1 } ∧ d ∈ w.dirs ∧ w.faults w.clock = .none := by
  obtain ⟨u, w2, h1, h2⟩ := IOM.bind_ok.mp h
  obtain ⟨rfl, hf⟩ := step_ok h1
  by_cases hd : d ∈ w.dirs
  · simp only [hd, if_true] at h2
    injection h2 with h3 h4
    injection h3 with h3
    exact ⟨h3.symm, h4.symm, hd, hf⟩
  · simp [hd] at h2

theorem readDir_run {d : Str} {w : World} (hf : w.faults w.clock = .none) (hd : d ∈ w.dirs) :
    IOM.readDir d w = (.ok (w.entries d), { w with clock := w.clock + 1 }) := by
  rcases step_cases w with ⟨_, h⟩ | ⟨h, _⟩
  · rw [IOM.readDir, IOM.bind_of_ok h]
    simp only [hd, if_true]
    rfl
  · exact absurd hf h

theorem step_run {w : World} (hf : w.faults w.clock = .none) :
    IOM.step w = (.ok (), { w with clock := w.clock + 1 }) := by
  rcases step_cases w with ⟨_, h⟩ | ⟨h, _⟩
  · exact h
  · exact absurd hf h

end Brack
