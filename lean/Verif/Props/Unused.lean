import Verif.Proof.Unused
import Verif.Proof.ProjectCases
import Verif.Props.Plugins

/-
Plugins that a document does not use (C92).
-/

namespace Brack

/-! ### C92 -/

/-- C92: if two plugin sets differ only in plugins that the document does not name (the names not being empty) and
that are bound to no hook, then the document is compiled with the same outcome (output, error or crash) and the same
calls to plugins with either of them. The plugins in which they differ are left as they are. -/
theorem C92_unaffected {W : Wasm} (S : Segmenter) (ids : Nat → Str) (checks : Bool) (text : Str) (N : Str → Prop)
    (hN : ∀ n, N n → n ≠ [] ∧ ¬ Uses S text n) (ps qs : Plugins W) (h : AlikeExcept N ps qs) :
    let r := compileText S ids checks text ps
    let r' := compileText S ids checks text qs
    r.1 = r'.1 ∧ r.2.log = r'.2.log ∧ AlikeExcept N r.2 r'.2 ∧
      (∀ n, N n → r.2.nameToPlugin.get n = ps.nameToPlugin.get n) ∧
      ∀ n, N n → r'.2.nameToPlugin.get n = qs.nameToPlugin.get n := by
  obtain ⟨h1, h2, h3, h4⟩ := compileText_blindTo S ids checks text hN ps qs h
  exact ⟨h1, h2.log, h2, h3, h4⟩

/-- C92: loading one more plugin, with a name of its own and without hooks, at any place among the others: the plugins
are accepted or refused, with the same error, as without it; and a document that does not name it is compiled with the
same outcome and the same calls. -/
theorem C92_added {W : Wasm} (S : Segmenter) (ids : Nat → Str) (checks : Bool) (text : Str) (l r : List (Plugin W))
    (p : Plugin W) (hflag : ∀ k : Hook, k.enabled p.flag = false) (hname : p.name ≠ [])
    (hl : ∀ q ∈ l ++ r, q.name ≠ p.name) (huse : ¬ Uses S text p.name) :
    (∃ ps qs, Plugins.new (l ++ p :: r) = .ok ps ∧ Plugins.new (l ++ r) = .ok qs ∧
      (compileText S ids checks text ps).1 = (compileText S ids checks text qs).1 ∧
      (compileText S ids checks text ps).2.log = (compileText S ids checks text qs).2.log) ∨
    ∃ m, Plugins.new (l ++ p :: r) = .err m ∧ Plugins.new (l ++ r) = .err m := by
  have key : Res.Same (AlikeExcept (· = p.name)) (Plugins.new (l ++ p :: r)) (Plugins.new (l ++ r)) :=
    newLoop_extra p hflag l r (fun q hq => hl q (by simp [hq])) (fun q hq => hl q (by simp [hq]))
      ⟨fun _ _ => rfl, fun _ => rfl, fun k n hk => by (rcases k <;> cases hk), rfl⟩
  have hp := (C38_one_plugin (l ++ r)).2
  rcases e1 : Plugins.new (l ++ p :: r) with ps | m | _ <;> rcases e2 : Plugins.new (l ++ r) with qs | m' | _ <;>
    rw [e1, e2] at key <;> simp only [Res.Same] at key
  · obtain ⟨h1, h2, _⟩ := C92_unaffected S ids checks text (· = p.name) (by rintro n rfl; exact ⟨hname, huse⟩) ps qs key
    exact .inl ⟨ps, qs, rfl, rfl, h1, h2⟩
  · exact .inr ⟨m, rfl, by rw [key]⟩
  · exact absurd e2 hp

/-- C92: a project built with one more plugin, with a name of its own, without hooks and with a file that can be loaded:
if no document names it and nothing goes wrong on the file system, then the build has the same outcome, leaves the same
files and directories and prints the same lines as without it. -/
theorem C92_build {W : Wasm} (E : Env) (c : Config) (a b : PluginsMetadata) (name path : Str) (flag : FeatureFlag)
    (hflag : ∀ k : Hook, k.enabled flag = false) (hname : name ≠ []) (hn : ∀ x ∈ a ++ b, x.1 ≠ name) (w : World)
    (hw : w.Healthy) (bytes : Bytes) (p : Plugin W) (hf : w.files.get path = some bytes)
    (hp : Plugin.new W name bytes flag = .ok p)
    (hdocs : ∀ stem bs text, w.files.get (chars! "docs/" ++ stem ++ chars! ".[]") = some bs → fromUtf8 bs = some text →
      ¬ Uses E.S text name) :
    let r := build W E c (a ++ (name, path, flag) :: b) w
    let r' := build W E c (a ++ b) w
    r.1 = r'.1 ∧ r.2.files = r'.2.files ∧ r.2.dirs = r'.2.dirs ∧ r.2.log = r'.2.log := by
  have hs : Synced (· = w.files) w w := ⟨rfl, rfl, rfl, hw, hw, rfl⟩
  have hpn : p.name = name ∧ p.flag = flag := by
    rcases plugin_new_cases W name bytes flag with ⟨_, e, h⟩ | ⟨ms, _, ⟨s, sigs, h, _⟩ | ⟨⟨e, h⟩, _⟩⟩
    · rw [h] at hp; cases hp
    · rw [h] at hp; injection hp with hp; rw [← hp]; exact ⟨rfl, rfl⟩
    · rw [h] at hp; cases hp
  have main : Res.Same Eq (build W E c (a ++ (name, path, flag) :: b) w).1 (build W E c (a ++ b) w).1 ∧
      Synced (SameDocs w.files) (build W E c (a ++ (name, path, flag) :: b) w).2 (build W E c (a ++ b) w).2 := by
    unfold build
    obtain ⟨h1, h2⟩ := (loadPlugins_extra W a b name path flag p
      (fun f hff => ⟨bytes, by rw [hff]; exact hf, hp⟩)).weaken (J := SameDocs w.files) hs
      (fun f hff => by rw [hff]; exact fun _ => rfl)
    rw [IOM.bind_run, IOM.bind_run]
    revert h1 h2
    rcases loadPlugins W (a ++ (name, path, flag) :: b) w with ⟨x | m | _, w1⟩ <;>
      rcases loadPlugins W (a ++ b) w with ⟨y | m' | _, w2⟩ <;> intro h1 h2 <;> simp only [Res.Same] at h1
    · obtain ⟨xs, ys, rfl, rfl, g1, g2⟩ := h1
      have hnx : ∀ q ∈ xs, q.name ≠ p.name := by
        intro q hq
        rw [hpn.1]
        have : q.name ∈ a.map (·.1) := by rw [← g1]; exact List.mem_map_of_mem hq
        obtain ⟨z, hz, he⟩ := List.mem_map.mp this
        rw [← he]
        exact hn z (by simp [hz])
      have hny : ∀ q ∈ ys, q.name ≠ p.name := by
        intro q hq
        rw [hpn.1]
        have : q.name ∈ b.map (·.1) := by rw [← g2]; exact List.mem_map_of_mem hq
        obtain ⟨z, hz, he⟩ := List.mem_map.mp this
        rw [← he]
        exact hn z (by simp [hz])
      refine IOM.Sim.bind (Q := AlikeExcept (· = p.name)) (IOM.Sim.lift
        (newLoop_extra p (by rw [hpn.2]; exact hflag) xs ys hnx hny
          ⟨fun _ _ => rfl, fun _ => rfl, fun k n hk => by (rcases k <;> cases hk), rfl⟩)) (fun ps qs hps => ?_) w1 w2 h2
      refine IOM.Sim.bind (IOM.Sim.readDir _) (fun es es' hes => ?_)
      subst hes
      refine IOM.Sim.bind (buildLoop_sim E _ w.files (by
        intro stem bs text n hb ht hn'
        subst hn'
        rw [hpn.1]
        exact ⟨hname, hdocs stem bs text hb ht⟩) es 0 ps qs hps) (fun _ _ _ => ?_)
      refine IOM.Sim.bind (IOM.Sim.printLine _) (fun _ _ _ => IOM.Sim.bind (IOM.Sim.readDir _) (fun os os' hos => ?_))
      subst hos
      exact listOutputs_sim os
    · exact ⟨h1, h2⟩
    · exact ⟨trivial, h2⟩
  refine ⟨?_, main.2.files.symm, main.2.dirs.symm, main.2.log.symm⟩
  have h1 := main.1
  revert h1
  rcases (build W E c (a ++ (name, path, flag) :: b) w).1 with x | m | _ <;>
    rcases (build W E c (a ++ b) w).1 with y | m' | _ <;> intro h1 <;> simp only [Res.Same] at h1
  · rfl
  · exact congrArg Res.err h1
  · rfl

/-- C92, why the name must not be empty: a macro without a module name is looked up under the empty name, so a plugin
with the empty name changes the outcome of `<a>`, in which no module is named. -/
theorem C92_empty_name : ∃ (p : Plugin sampleWasm) (ps qs : Plugins sampleWasm), p.name = [] ∧
    (∀ k : Hook, k.enabled p.flag = false) ∧ ¬ Uses UTable.sampleSeg (chars! "<bad>") p.name ∧
    Plugins.new [p] = .ok ps ∧ Plugins.new [] = .ok qs ∧
    (compileText UTable.sampleSeg someIds true (chars! "<bad>") ps).1 ≠
      (compileText UTable.sampleSeg someIds true (chars! "<bad>") qs).1 := by
  refine ⟨named [] noHooks, _, _, by decide +kernel, ?_, ?_, rfl, rfl, ?_⟩
  · intro k; rcases k <;> decide +kernel
  · exact not_uses (by decide +kernel)
  · intro h
    have h1 : (match (compileText UTable.sampleSeg someIds true (chars! "<bad>")
        (⟨[([], named [] noHooks)], none, none, none, none, []⟩ : Plugins sampleWasm)).1 with
      | .err m => m | _ => "") = "bad" := by decide +kernel
    have h2 : (match (compileText UTable.sampleSeg someIds true (chars! "<bad>")
        (⟨[], none, none, none, none, []⟩ : Plugins sampleWasm)).1 with
      | .err m => m | _ => "") = "plugin not found" := by decide +kernel
    rw [show (compileText UTable.sampleSeg someIds true (chars! "<bad>")
        (⟨[([], named [] noHooks)], none, none, none, none, []⟩ : Plugins sampleWasm)).1 = _ from h, h2] at h1
    exact absurd h1 (by decide)

/-- The documents of the project `twoDocuments` name the plugin `std` only; a plugin `x` more makes no difference, and
the project is built. -/
example : (∀ k : Hook, k.enabled noHooks = false) ∧ (twoDocuments fun _ => .none).Healthy ∧
    (∀ x ∈ sampleMetadata ++ [], x.1 ≠ chars! "x") ∧
    (twoDocuments fun _ => .none).files.get (chars! "plugins/std_00.wasm") = some [1] ∧
    (Plugin.new sampleWasm (chars! "x") [1] noHooks).isOk = true ∧
    Uses UTable.sampleSeg (chars! "é [std.f]") (chars! "std") ∧
    ¬ Uses UTable.sampleSeg (chars! "é [std.f]") (chars! "x") ∧
    ¬ Uses UTable.sampleSeg (chars! "[std.g x]") (chars! "x") ∧
    (build sampleWasm sampleEnv sampleConfig (sampleMetadata ++ [(chars! "x", (chars! "plugins/std_00.wasm", noHooks))])
      (twoDocuments fun _ => .none)).1 = .ok () :=
  ⟨fun k => by rcases k <;> rfl, fun _ _ => rfl, by decide, by decide +kernel, by decide +kernel, uses_of (by decide +kernel),
    not_uses (by decide +kernel), not_uses (by decide +kernel), by decide +kernel⟩

end Brack
