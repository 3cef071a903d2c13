import Verif.Proof.ServerSays

/-
All messages sent are JSON values whose numbers are integers.
-/

namespace Brack

theorem integral_fields {fs : List (Str × Json)} (h : ∀ v ∈ fs.map (·.2), v.Integral) : (Json.obj fs).Integral :=
  .obj fun f hf => h f.2 (List.mem_map_of_mem hf)

theorem integral_strs (ss : List Str) : (Json.arr (ss.map .str)).Integral := by
  refine .arr fun v hv => ?_
  obtain ⟨s, _, rfl⟩ := List.mem_map.mp hv
  exact .str s

theorem integral_obj_nil : (Json.obj []).Integral := .obj fun f hf => by simp at hf

theorem integral_obj_cons {k : Str} {v : Json} {fs : List (Str × Json)} (hv : v.Integral) (h : (Json.obj fs).Integral) :
    (Json.obj ((k, v) :: fs)).Integral := by
  refine .obj fun f hf => ?_
  rcases List.mem_cons.mp hf with rfl | hf
  · exact hv
  · cases h with
    | obj h => exact h f hf

namespace Server

theorem logJson_integral (m : Str) : (logJson m).Integral :=
  integral_obj_cons (.str _) (integral_obj_cons (.str _) (integral_obj_cons
    (integral_obj_cons (.int _) (integral_obj_cons (.str _) integral_obj_nil)) integral_obj_nil))

theorem errorJson_integral (id : Option Int) (c : Int) (m : Str) : (errorJson id c m).Integral :=
  integral_obj_cons (.str _) (integral_obj_cons (by cases id; exact .null; exact .int _) (integral_obj_cons
    (integral_obj_cons (.int _) (integral_obj_cons (.str _) integral_obj_nil)) integral_obj_nil))

theorem resultJson_integral (id : Int) {r : Json} (hr : r.Integral) : (resultJson id r).Integral :=
  integral_obj_cons (.str _) (integral_obj_cons (.int _) (integral_obj_cons hr integral_obj_nil))

theorem positionJson_integral (a b : Nat) : (positionJson a b).Integral :=
  integral_obj_cons (.int _) (integral_obj_cons (.int _) integral_obj_nil)

theorem diagnosticsJson_integral (u : Str) (ds : List Diagnostic) : (diagnosticsJson u ds).Integral := by
  refine integral_obj_cons (.str _) (integral_obj_cons (.str _) (integral_obj_cons
    (integral_obj_cons (.str _) (integral_obj_cons (.arr fun v hv => ?_) integral_obj_nil)) integral_obj_nil))
  obtain ⟨d, _, rfl⟩ := List.mem_map.mp hv
  exact integral_obj_cons (integral_obj_cons (positionJson_integral _ _) (integral_obj_cons
    (positionJson_integral _ _) integral_obj_nil)) (integral_obj_cons (.str _) integral_obj_nil)

theorem initializeJson_integral : initializeJson.Integral := by
  refine integral_obj_cons ?_ (integral_obj_cons ?_ integral_obj_nil)
  · refine integral_obj_cons (.int _) (integral_obj_cons ?_ (integral_obj_cons ?_ integral_obj_nil))
    · exact integral_obj_cons (.bool _) (integral_obj_cons (integral_strs _) integral_obj_nil)
    · refine integral_obj_cons ?_ (integral_obj_cons (.bool _) (integral_obj_cons (.bool _) integral_obj_nil))
      exact integral_obj_cons (integral_strs _) (integral_obj_cons (integral_strs _) integral_obj_nil)
  · exact integral_obj_cons (.str _) (integral_obj_cons (.str _) integral_obj_nil)

theorem semanticTokensJson_integral (ts : List SemanticToken) : (semanticTokensJson ts).Integral := by
  refine integral_obj_cons (.arr fun v hv => ?_) integral_obj_nil
  obtain ⟨t, _, hv⟩ := List.mem_flatMap.mp hv
  simp only [List.mem_cons, List.not_mem_nil, or_false] at hv
  rcases hv with rfl | rfl | rfl | rfl | rfl <;> exact .int _

theorem completionItem_integral {P : Protocol} {m n : Str} {t : PType} {d : Metadata} {v : Json}
    (h : completionItem P m n t d = .ok v) : v.Integral := by
  unfold completionItem at h
  obtain ⟨ins, _, h⟩ := Res.bind_ok.mp h
  injection h with h
  subst h
  exact integral_obj_cons (.str _) (integral_obj_cons (.str _) (integral_obj_cons (.str _)
    (integral_obj_cons (.int _) integral_obj_nil)))

theorem completionCommands_integral {P : Protocol} {start plugin : Str} {cs : List ((Str × PType) × Metadata)} :
    ∀ {vs : List Json}, completionCommands P start plugin cs = .ok vs → ∀ v ∈ vs, v.Integral := by
  induction cs with
  | nil => intro vs h; injection h with h; subst h; simp
  | cons c cs ih =>
    obtain ⟨⟨name, typ⟩, m⟩ := c
    intro vs h
    rw [completionCommands] at h
    split at h
    · obtain ⟨item, h1, h⟩ := Res.bind_ok.mp h
      obtain ⟨items, h2, h⟩ := Res.bind_ok.mp h
      injection h with h
      subst h
      intro v hv
      rcases List.mem_cons.mp hv with rfl | hv
      · exact completionItem_integral h1
      · exact ih h2 v hv
    · exact ih h

theorem completionItems_integral {W : Wasm} {P : Protocol} {start : Str} {ps : List (Str × Plugin W)} :
    ∀ {vs : List Json}, completionItems P start ps = .ok vs → ∀ v ∈ vs, v.Integral := by
  induction ps with
  | nil => intro vs h; injection h with h; subst h; simp
  | cons p ps ih =>
    obtain ⟨n, p⟩ := p
    intro vs h
    rw [completionItems] at h
    obtain ⟨items, h1, h⟩ := Res.bind_ok.mp h
    obtain ⟨more, h2, h⟩ := Res.bind_ok.mp h
    injection h with h
    subst h
    intro v hv
    rcases List.mem_append.mp hv with hv | hv
    · exact completionCommands_integral h1 v hv
    · exact ih h2 v hv

theorem handleSemanticTokens_integral {X : ServerEnv} {uri : Str} {w : World} {v : Json}
    (h : (handleSemanticTokens X uri w).1 = .ok (some v)) : v.Integral := by
  rcases hx : handleSemanticTokens X uri w with ⟨r, w1⟩
  rw [hx] at h
  simp only at h
  subst h
  rw [handleSemanticTokens] at hx
  rcases hf : X.P.toFilePath uri with _ | path
  · rw [hf] at hx
    simp [IOM.fail] at hx
  · rw [hf] at hx
    obtain ⟨r, w2, _, h2⟩ := IOM.bind_ok.mp hx
    rcases r with e | toks
    · obtain ⟨_, _, _, h3⟩ := IOM.bind_ok.mp h2
      simp [Pure.pure, IOM.pure] at h3
    · obtain ⟨d, _, _, h3⟩ := IOM.bind_ok.mp h2
      injection h3 with h3
      injection h3 with h3
      injection h3 with h3
      subst h3
      exact semanticTokensJson_integral _

theorem handleCompletion_integral {X : ServerEnv} {s : Server} {c : Option (Option Str)} {w : World} {v : Json}
    (h : (handleCompletion X s c w).1 = .ok (some v)) : v.Integral := by
  rcases hx : handleCompletion X s c w with ⟨r, w1⟩
  rw [hx] at h
  simp only at h
  subst h
  rw [handleCompletion] at hx
  rcases hq : s.project with _ | md
  · rw [hq] at hx
    simp [Pure.pure, IOM.pure] at hx
  · rw [hq] at hx
    obtain ⟨plugins, w2, _, h2⟩ := IOM.bind_ok.mp hx
    obtain ⟨ps, w3, _, h3⟩ := IOM.bind_ok.mp h2
    rcases c with _ | _ | start
    · simp [IOM.fail] at h3
    · simp [Pure.pure, IOM.pure] at h3
    · obtain ⟨items, w4, h4, h5⟩ := IOM.bind_ok.mp h3
      injection h5 with h5
      injection h5 with h5
      injection h5 with h5
      subst h5
      exact .arr (completionItems_integral (IOM.lift_ok.mp h4).1)

theorem respond_integral {P : Protocol} {id : Int} {failure : Str} {x : IOM (Option Json)}
    (hx : IOM.Keeps (Talks P Json.Integral) x) (hv : ∀ w v, (x w).1 = .ok (some v) → v.Integral) :
    IOM.Keeps (Talks P Json.Integral) (respond P id failure x) := by
  refine IOM.Keeps.bind_ok (Talks.frame _ _) (Keeps.attempt hx) fun w a w1 h => ?_
  rw [attempt_run] at h
  rcases h1 : (x w).1 with r | m | _
  · rw [h1] at h
    simp only [Prod.mk.injEq, Res.ok.injEq] at h
    obtain ⟨rfl, _⟩ := h
    rcases r with _ | v
    · exact (Talks.frame _ _).refl _
    · exact send_talks (resultJson_integral id (hv w v h1)) w1
  · rw [h1] at h
    simp only [Prod.mk.injEq, Res.ok.injEq] at h
    obtain ⟨rfl, _⟩ := h
    exact send_talks (errorJson_integral ..) w1
  · rw [h1] at h
    simp at h

theorem dispatch_integral (X : ServerEnv) (s : Server) (msg : Json) :
    IOM.Keeps (Talks X.P Json.Integral) (dispatch X s msg) := by
  unfold dispatch
  split
  · unfold handleRequest
    split
    · refine IOM.Keeps.bind (Talks.frame _ _) (send_talks (logJson_integral _)) fun _ => ?_
      split
      · exact IOM.Keeps.fail (Talks.frame _ _) _
      · exact IOM.Keeps.bind (Talks.frame _ _) (send_talks (resultJson_integral _ initializeJson_integral)) fun _ =>
          IOM.Keeps.pure (Talks.frame _ _) _
    split
    · split
      · exact IOM.Keeps.fail (Talks.frame _ _) _
      · exact IOM.Keeps.bind (Talks.frame _ _) (respond_integral (handleSemanticTokens_talks logJson_integral _)
          fun _ _ => handleSemanticTokens_integral) fun _ => IOM.Keeps.pure (Talks.frame _ _) _
    split
    · split
      · exact IOM.Keeps.fail (Talks.frame _ _) _
      · exact IOM.Keeps.bind (Talks.frame _ _) (respond_integral (Silent.talks (handleCompletion_silent _ _))
          fun _ _ => handleCompletion_integral) fun _ => IOM.Keeps.pure (Talks.frame _ _) _
    · exact IOM.Keeps.bind (Talks.frame _ _) (send_talks (errorJson_integral _ _ _)) fun _ =>
        IOM.Keeps.pure (Talks.frame _ _) _
  · exact IOM.Keeps.pure (Talks.frame _ _) _
  · exact handleNotification_talks logJson_integral diagnosticsJson_integral _ _ _
  · exact IOM.Keeps.bind (Talks.frame _ _) (send_talks (errorJson_integral _ _ _)) fun _ =>
      IOM.Keeps.pure (Talks.frame _ _) _

theorem run_integral (X : ServerEnv) (cs : List Bytes) :
    ∀ b s, IOM.Keeps (Talks X.P Json.Integral) (run X cs b s) := by
  induction cs with
  | nil => intro b s; exact IOM.Keeps.pure (Talks.frame _ _) _
  | cons c cs ih =>
    intro b s
    unfold run
    split
    · exact IOM.Keeps.pure (Talks.frame _ _) _
    · refine IOM.Keeps.bind (Talks.frame _ _) (IOM.Keeps.lift (Talks.frame _ _) _) fun r => ?_
      split
      · exact ih _ _
      · exact IOM.Keeps.bind (Talks.frame _ _) (dispatch_integral X s _) fun _ => ih _ _

end Server

end Brack
