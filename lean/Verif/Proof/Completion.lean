import Verif.Proof.ServerSays
import Verif.Proof.Cli
import Verif.Proof.Registry

/-
Completion.
-/

namespace Brack

theorem newLoop_nodup (f : FeatureFlag) : ∀ (ms : List Metadata) (seen : HooksSeen)
    (sigs : HMap (Str × PType) Metadata) {seen' sigs'}, (sigs.map (·.1)).Nodup →
    newLoop f ms seen sigs = .ok (seen', sigs') → (sigs'.map (·.1)).Nodup
  | [], seen, sigs, seen', sigs', hn, h => by
    injection h with h
    injection h with _ h
    rw [← h]
    exact hn
  | m :: ms, seen, sigs, seen', sigs', hn, h => by
    rcases newStep_spec f m seen sigs with ⟨seen1, h1, _, _⟩ | ⟨⟨e, h1⟩, _⟩
    · simp only [newLoop, h1] at h
      exact newLoop_nodup f ms _ _ (HMap.nodup_insert hn) h
    · simp only [newLoop, h1] at h
      simp at h

theorem plugin_new_nodup {W : Wasm} {name : Str} {b : Bytes} {flag : FeatureFlag} {p : Plugin W}
    (h : Plugin.new W name b flag = .ok p) : (p.signatures.map (·.1)).Nodup := by
  unfold Plugin.new at h
  rcases hl : W.load b with e | s
  · simp [hl] at h
  rcases hm : W.metadata s with ⟨e | ms, s'⟩
  · simp [hl, hm] at h
  rcases hn : newLoop flag ms ⟨false, false, false, false⟩ [] with ⟨seen, sigs⟩ | e | _
  · simp only [hl, hm, hn] at h
    repeat' split at h
    all_goals first
      | (injection h with h; rw [← h]; exact newLoop_nodup flag ms _ _ (by simp) hn)
      | exact absurd h (by simp)
  · simp [hl, hm, hn] at h
  · simp [hl, hm, hn] at h

theorem plugins_newLoop_entries {W : Wasm} : ∀ (pl : List (Plugin W)) (ps : Plugins W) {qs : Plugins W},
    Plugins.newLoop pl ps = .ok qs → (ps.nameToPlugin.map (·.1)).Nodup →
    (∀ x ∈ ps.nameToPlugin, x.2.name = x.1) →
    (qs.nameToPlugin.map (·.1)).Nodup ∧ ∀ x ∈ qs.nameToPlugin, x.2.name = x.1
  | [], ps, qs, h, h1, h2 => by
    injection h with h
    rw [← h]
    exact ⟨h1, h2⟩
  | p :: pl, ps, qs, h, h1, h2 => by
    rcases newLoop_cons p pl ps with ⟨_, m, he⟩ | ⟨_, he⟩
    · rw [he] at h
      simp at h
    · rw [he] at h
      refine plugins_newLoop_entries pl (withPlugin ps p) h (HMap.nodup_insert h1) ?_
      intro x hx
      have hn : ((withPlugin ps p).nameToPlugin.map (·.1)).Nodup := HMap.nodup_insert h1
      have hg := (HMap.get_eq_some hn).mpr hx
      rw [withPlugin_get] at hg
      split at hg
      · next e =>
        injection hg with hg
        rw [← hg, ← e]
      · exact h2 _ ((HMap.get_eq_some h1).mp hg)

theorem plugins_new_entries {W : Wasm} {pl : List (Plugin W)} {qs : Plugins W} (h : Plugins.new pl = .ok qs)
    (hn : (pl.map (·.name)).Nodup) :
    (qs.nameToPlugin.map (·.1)).Nodup ∧ (∀ x ∈ qs.nameToPlugin, x.2.name = x.1) ∧
      ∀ n p, (n, p) ∈ qs.nameToPlugin ↔ p ∈ pl ∧ p.name = n := by
  obtain ⟨h1, h2⟩ := plugins_newLoop_entries pl _ h (by simp) (by simp)
  refine ⟨h1, h2, fun n p => ?_⟩
  rw [← HMap.get_eq_some h1]
  rcases newLoop_spec pl ⟨[], none, none, none, none, []⟩ with ⟨qs', g1, _, g3, _⟩ | ⟨⟨m, g1⟩, _⟩
  · rw [Plugins.new, g1] at h
    injection h with h
    subst h
    rw [g3, ← find_name pl hn n p]
    simp [HMap.get]
  · rw [Plugins.new, g1] at h
    simp at h

theorem nodup_pairs {α : Type} (f : α → List Str) : ∀ l : List (Str × α), (l.map (·.1)).Nodup →
    (∀ x ∈ l, (f x.2).Nodup) → (l.flatMap (fun x => (f x.2).map (fun c => (x.1, c)))).Nodup
  | [], _, _ => by simp
  | x :: l, hn, hf => by
    rw [List.map_cons, List.nodup_cons] at hn
    rw [List.flatMap_cons, List.nodup_append]
    refine ⟨?_, nodup_pairs f l hn.2 (fun y hy => hf y (List.mem_cons_of_mem _ hy)), ?_⟩
    · have := hf x (List.mem_cons_self ..)
      rw [List.Nodup, List.pairwise_map]
      exact this.imp (fun hab e => hab (by injection e))
    · intro a ha b hb e
      obtain ⟨c, _, rfl⟩ := List.mem_map.mp ha
      obtain ⟨y, hy, hb⟩ := List.mem_flatMap.mp hb
      obtain ⟨d, _, rfl⟩ := List.mem_map.mp hb
      injection e with e _
      exact hn.1 (List.mem_map.mpr ⟨y, hy, e.symm⟩)

theorem readFile_ne_panic (path : Str) (w : World) : (IOM.readFile path w).1 ≠ .panic := by
  rw [IOM.readFile, IOM.bind_run]
  rcases step_cases w with ⟨_, h'⟩ | ⟨_, h'⟩ <;> rw [h']
  · simp only
    rcases hg : w.files.get path with _ | b <;> simp
  · simp

theorem plugin_new_ne_panic {W : Wasm} {name : Str} {b : Bytes} {flag : FeatureFlag} :
    Plugin.new W name b flag ≠ .panic := by
  intro h
  rcases plugin_new_cases W name b flag with ⟨_, e, h'⟩ | ⟨_, _, ⟨_, _, h', _⟩ | ⟨⟨e, h'⟩, _⟩⟩ <;>
    · rw [h'] at h
      simp at h

theorem plugins_new_ne_panic {W : Wasm} {pl : List (Plugin W)} : Plugins.new pl ≠ .panic := by
  intro h
  rcases newLoop_spec pl ⟨[], none, none, none, none, []⟩ with ⟨qs', g1, _⟩ | ⟨⟨m, g1⟩, _⟩ <;>
    · rw [Plugins.new, g1] at h
      simp at h

theorem IOM.bind_ne_panic {α β : Type} {x : IOM α} {f : α → IOM β} {w : World} (hx : (x w).1 ≠ .panic)
    (hf : ∀ a w, (f a w).1 ≠ .panic) : ((x >>= f) w).1 ≠ .panic := by
  rw [IOM.bind_run]
  rcases h : x w with ⟨r, w1⟩
  rw [h] at hx
  rcases r with a | m | _
  · exact hf a w1
  · simp
  · exact absurd rfl hx

theorem loadPlugins_ne_panic {W : Wasm} : ∀ (md : PluginsMetadata) (w : World), (loadPlugins W md w).1 ≠ .panic
  | [], w => by simp [loadPlugins, Pure.pure, IOM.pure]
  | (name, path, flag) :: md, w => by
    refine IOM.bind_ne_panic (readFile_ne_panic path w) fun b w => ?_
    refine IOM.bind_ne_panic plugin_new_ne_panic fun p w => ?_
    exact IOM.bind_ne_panic (loadPlugins_ne_panic md w) fun _ _ => by simp [Pure.pure, IOM.pure]

namespace Server

/-- The item of a command. -/
def itemJson (P : Protocol) (m c close : Str) (d : Metadata) : Json :=
  .obj [(chars! "label", .str (m ++ chars! "." ++ c)),
    (chars! "detail", .str (P.showTypes d.argumentTypes d.returnType)),
    (chars! "insertText", .str (m ++ chars! "." ++ c ++ chars! " $0" ++ close)), (chars! "insertTextFormat", .int 2)]

/-- The triggers with the type of commands they stand for and the closing bracket. -/
inductive Trigger : Str → PType → Str → Prop
  | square : Trigger ['['] .inline [']']
  | curly : Trigger ['{'] .block ['}']

theorem completionItem_trigger {P : Protocol} {start : Str} {typ : PType} {close : Str} (h : Trigger start typ close)
    (m c : Str) (d : Metadata) : completionItem P m c typ d = .ok (itemJson P m c close d) := by
  cases h <;> simp only [completionItem, insertText, itemJson, Bind.bind, Res.bind, Pure.pure, List.append_assoc] <;> rfl

theorem trigger_iff {start : Str} {typ : PType} {close : Str} (h : Trigger start typ close) (t : PType) :
    ((start = ['['] ∧ t = .inline) ∨ (start = ['{'] ∧ t = .block)) ↔ t = typ := by
  cases h <;> simp

theorem completionCommands_trigger {P : Protocol} {start : Str} {typ : PType} {close : Str}
    (h : Trigger start typ close) (m : Str) (sigs : List ((Str × PType) × Metadata)) :
    completionCommands P start m sigs =
      .ok ((sigs.filter (fun x => decide (x.1.2 = typ))).map (fun x => itemJson P m x.1.1 close x.2)) := by
  induction sigs with
  | nil => rfl
  | cons x sigs ih =>
    obtain ⟨⟨name, t⟩, d⟩ := x
    rw [completionCommands]
    by_cases ht : t = typ
    · rw [if_pos ((trigger_iff h t).mpr ht), ht, completionItem_trigger h, ih, List.filter_cons_of_pos (by simp)]
      rfl
    · rw [if_neg (fun hh => ht ((trigger_iff h t).mp hh)), ih, List.filter_cons_of_neg (by simpa using ht)]

theorem completionItems_trigger {W : Wasm} {P : Protocol} {start : Str} {typ : PType} {close : Str}
    (h : Trigger start typ close) (ps : List (Str × Plugin W)) :
    completionItems P start ps = .ok (ps.flatMap (fun x =>
      (x.2.signatures.filter (fun y => decide (y.1.2 = typ))).map (fun y => itemJson P x.2.name y.1.1 close y.2))) := by
  induction ps with
  | nil => rfl
  | cons x ps ih =>
    obtain ⟨n, p⟩ := x
    rw [completionItems, completionCommands_trigger h, ih]
    rfl

theorem completionCommands_other {P : Protocol} {start : Str} (h1 : start ≠ ['[']) (h2 : start ≠ ['{']) (m : Str)
    (sigs : List ((Str × PType) × Metadata)) : completionCommands P start m sigs = .ok [] := by
  induction sigs with
  | nil => rfl
  | cons x sigs ih =>
    obtain ⟨⟨name, t⟩, d⟩ := x
    rw [completionCommands, if_neg (by simp [h1, h2]), ih]

theorem completionItems_other {W : Wasm} {P : Protocol} {start : Str} (h1 : start ≠ ['[']) (h2 : start ≠ ['{'])
    (ps : List (Str × Plugin W)) : completionItems P start ps = .ok [] := by
  induction ps with
  | nil => rfl
  | cons x ps ih =>
    obtain ⟨n, p⟩ := x
    rw [completionItems, completionCommands_other h1 h2, ih]
    rfl

theorem completionItems_ne_panic {W : Wasm} (P : Protocol) (start : Str) (ps : List (Str × Plugin W)) :
    completionItems P start ps ≠ .panic := by
  by_cases h1 : start = ['[']
  · subst h1
    rw [completionItems_trigger .square]
    simp
  · by_cases h2 : start = ['{']
    · subst h2
      rw [completionItems_trigger .curly]
      simp
    · rw [completionItems_other h1 h2]
      simp

theorem handleCompletion_ne_panic (X : ServerEnv) (s : Server) (c : Option (Option Str)) (w : World) :
    (handleCompletion X s c w).1 ≠ .panic := by
  unfold handleCompletion
  rcases s.project with _ | md
  · simp [Pure.pure, IOM.pure]
  · refine IOM.bind_ne_panic (loadPlugins_ne_panic _ w) fun pl w => ?_
    refine IOM.bind_ne_panic plugins_new_ne_panic fun ps w => ?_
    split
    · simp [IOM.fail]
    · simp [Pure.pure, IOM.pure]
    · exact IOM.bind_ne_panic (completionItems_ne_panic _ _ _) fun _ _ => by simp [Pure.pure, IOM.pure]

/-- A completion request. -/
theorem completion_request {X : ServerEnv} {s : Server} {msg : Json} {id : Int} {context : Option (Option Str)}
    {w : World} (hw : w.Healthy) (hm : msg.IsRequest id (chars! "textDocument/completion"))
    (hp : X.P.completion (msg.index (chars! "params")) = some context) :
    (dispatch X s msg w).1 = .ok s ∧
      w.Said X.P (dispatch X s msg w).2 (replies id (chars! "completion failed") (handleCompletion X s context w).1) := by
  obtain ⟨logs, h1, h2, h3, h4⟩ := respond_run (id := id) (failure := chars! "completion failed") hw
    (Silent.talks (P := X.P) (Q := fun _ => False) (handleCompletion_silent (X := X) s context))
  have hlogs : logs = [] := List.eq_nil_iff_forall_not_mem.mpr h1
  subst hlogs
  rw [dispatch_request hm, handleRequest, if_neg (by decide), if_neg (by decide), if_pos rfl, hp]
  simp only
  rcases hr : respond X.P id (chars! "completion failed") (handleCompletion X s context) w with ⟨r, w1⟩
  rw [hr] at h2 h3
  have hne := handleCompletion_ne_panic X s context w
  have hr' : r = .ok () := by
    rcases hx : (handleCompletion X s context w).1 with a | m | _
    · rw [hx] at h3; exact h3
    · rw [hx] at h3; exact h3
    · exact absurd hx hne
  subst hr'
  rw [IOM.bind_of_ok hr]
  exact ⟨rfl, h2⟩

end Server

end Brack
