import Verif.Proof.Offers
import Verif.Proof.DebugShows

namespace Brack

namespace Server

/-- The items are those of the commands declared. -/
theorem completion_details {X : ServerEnv} {s : Server} {w : World} {md : PluginsMetadata} {trigger : Str} {typ : PType}
    {close : Str} (hw : w.Healthy) (hs : s.project = some md) (hl : AllLoadable X.W w md)
    (ht : Trigger trigger typ close) :
    ∃ items : List Json, (handleCompletion X s (some (some trigger)) w).1 = .ok (some (.arr items)) ∧
      ∀ item, item ∈ items ↔ ∃ plugin command path flag b ms m, (plugin, (path, flag)) ∈ md ∧ w.files.get path = some b ∧
        X.W.reports b = some ms ∧ declared ms command typ = some m ∧ item = itemJson X.P plugin command close m := by
  obtain ⟨plugins, w', ps, h1, h2⟩ := all_loaded hw hl
  obtain ⟨hn, _, hmem⟩ := loaded_plugins (loadPlugins_ok h1)
  obtain ⟨e1, e2, e3⟩ := plugins_new_entries h2 (by rw [hn]; exact hl.names)
  refine ⟨ps.nameToPlugin.flatMap (fun x =>
      (x.2.signatures.filter (fun y => decide (y.1.2 = typ))).map (fun y => itemJson X.P x.2.name y.1.1 close y.2)),
      ?_, ?_⟩
  · rw [handleCompletion, hs]
    simp only
    rw [IOM.bind_of_ok h1, IOM.bind_run, IOM.lift_run, h2]
    simp only
    rw [IOM.bind_run, IOM.lift_run, completionItems_trigger ht]
    rfl
  · intro item
    simp only [List.mem_flatMap, List.mem_map, List.mem_filter, decide_eq_true_eq]
    constructor
    · rintro ⟨⟨n, p⟩, hx, ⟨⟨⟨c, t⟩, m⟩, ⟨hm, rfl⟩, rfl⟩⟩
      obtain ⟨hp, hname⟩ := (e3 _ p).mp hx
      obtain ⟨⟨xn, path, flag⟩, hmd, b, hb, hnew⟩ := (hmem p).mp hp
      obtain ⟨g1, _, ms, g2, g3⟩ := plugin_new_facts hnew
      have hget := (HMap.get_eq_some (plugin_new_nodup hnew)).mpr hm
      rw [g3] at hget
      simp only at g1
      subst g1
      exact ⟨p.name, c, path, flag, b, ms, m, hmd, hb, g2, hget, rfl⟩
    · rintro ⟨n, c, path, flag, b, ms, m, hmd, hb, hr, hd, rfl⟩
      obtain ⟨b', ms', f1, f2, f3⟩ := hl.files _ hmd
      simp only at f1 f3
      rw [hb] at f1
      injection f1 with f1
      subst f1
      rcases plugin_new_cases X.W n b flag with ⟨h4, _⟩ | ⟨ms'', h4, ⟨st, sigs, h5, _, h6⟩ | ⟨_, h5⟩⟩
      · rw [hr] at h4
        simp at h4
      · rw [hr] at h4
        injection h4 with h4
        subst h4
        have hp : (⟨n, st, sigs, flag⟩ : Plugin X.W) ∈ plugins := (hmem _).mpr ⟨_, hmd, b, hb, h5⟩
        have hx := (e3 n _).mpr ⟨hp, rfl⟩
        rw [← h6] at hd
        have := (HMap.get_eq_some (plugin_new_nodup h5)).mp hd
        exact ⟨_, hx, _, ⟨this, rfl⟩, rfl⟩
      · rw [hr] at h4
        injection h4 with h4
        rw [hr] at f2
        injection f2 with f2
        exact absurd (h4 ▸ f2 ▸ f3) h5

end Server

end Brack
