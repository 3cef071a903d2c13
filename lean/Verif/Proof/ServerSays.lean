import Verif.Spec.Lsp
import Verif.Proof.ServerRun
import Verif.Proof.Build
import Verif.Proof.TokTiles

/-
What the language server sends.
-/

namespace Brack

/-- Nothing is sent. -/
structure Silent (w w' : World) : Prop where
  clock : w.clock ≤ w'.clock
  faults : w'.faults = w.faults
  sent : w'.sent = w.sent

theorem Silent.frame : IOM.Frame Silent where
  refl w := ⟨Nat.le_refl _, rfl, rfl⟩
  trans := fun h h' => ⟨Nat.le_trans h.clock h'.clock, h'.faults.trans h.faults, h'.sent.trans h.sent⟩

theorem step_silent : IOM.Keeps Silent IOM.step := by
  intro w
  rcases step_cases w with ⟨_, h⟩ | ⟨_, h⟩ <;> rw [h] <;> exact ⟨Nat.le_succ _, rfl, rfl⟩

theorem readFile_silent (p : Str) : IOM.Keeps Silent (IOM.readFile p) := by
  refine IOM.Keeps.bind Silent.frame step_silent (fun _ w => ?_)
  split <;> exact Silent.frame.refl w

theorem readText_silent (p : Str) : IOM.Keeps Silent (IOM.readText p) := by
  refine IOM.Keeps.bind Silent.frame (readFile_silent p) (fun bytes => ?_)
  split
  · exact IOM.Keeps.pure Silent.frame _
  · exact IOM.Keeps.fail Silent.frame _

theorem sent_wrote (w : World) (p : Str) (b : Bytes) (c : Nat) (f : HMap Str Bytes) :
    ({ w with clock := c, files := f, log := w.log ++ [.wrote p b] } : World).sent = w.sent := by
  simp [World.sent, IOEvent.sent?]

theorem writeFile_silent (p : Str) (b : Bytes) : IOM.Keeps Silent (IOM.writeFile p b) := by
  intro w
  rcases writeFile_cases p b w with ⟨_, _, _, _, h⟩ | ⟨_, h, _⟩ | ⟨k, _, _, _, _, h⟩ <;> rw [h]
  · exact ⟨Nat.le_succ _, rfl, sent_wrote ..⟩
  · exact ⟨Nat.le_succ _, rfl, rfl⟩
  · exact ⟨Nat.le_succ _, rfl, sent_wrote ..⟩

theorem httpGet_silent (url : Str) : IOM.Keeps Silent (IOM.httpGet url) := fun w =>
  ⟨Nat.le_succ _, rfl, by simp [httpGet_run, World.sent, IOEvent.sent?]⟩

theorem planLoop_silent (hash : PluginSchema → Str) (backend : Str) (m : List (Str × PluginSchema)) :
    ∀ md, IOM.Keeps Silent (planLoop hash backend m md) := by
  induction m with
  | nil => intro md; exact IOM.Keeps.pure Silent.frame _
  | cons x m ih =>
    intro md
    refine IOM.Keeps.bind Silent.frame (fun w => Silent.frame.refl w) (fun b => ?_)
    split
    · exact ih _
    · exact IOM.Keeps.bind Silent.frame (ih _) fun _ => IOM.Keeps.pure Silent.frame _

theorem fetchLoop_silent (ts : List Task) : IOM.Keeps Silent (fetchLoop ts) := by
  induction ts with
  | nil => exact IOM.Keeps.pure Silent.frame _
  | cons t ts ih =>
    refine IOM.Keeps.bind Silent.frame (httpGet_silent _) (fun _ => ?_)
    exact IOM.Keeps.bind Silent.frame ih fun _ => IOM.Keeps.pure Silent.frame _

theorem storeLoop_silent (rs : List (Task × Option Bytes)) : ∀ md, IOM.Keeps Silent (storeLoop rs md) := by
  induction rs with
  | nil => intro md; exact IOM.Keeps.pure Silent.frame _
  | cons r rs ih =>
    intro md
    obtain ⟨t, _ | b⟩ := r
    · exact IOM.Keeps.fail Silent.frame _
    · exact IOM.Keeps.bind Silent.frame (writeFile_silent _ _) (fun _ => ih _)

theorem downloadPlugins_silent (hash : PluginSchema → Str) (c : Config) :
    IOM.Keeps Silent (downloadPlugins hash c) := by
  unfold downloadPlugins
  split
  · exact IOM.Keeps.pure Silent.frame _
  · refine IOM.Keeps.bind Silent.frame (planLoop_silent _ _ _ _) (fun x => ?_)
    exact IOM.Keeps.bind Silent.frame (fetchLoop_silent _) fun _ => storeLoop_silent _ _

theorem loadPlugins_silent (W : Wasm) (md : PluginsMetadata) : IOM.Keeps Silent (loadPlugins W md) := by
  induction md with
  | nil => exact IOM.Keeps.pure Silent.frame _
  | cons x md ih =>
    obtain ⟨name, path, flag⟩ := x
    refine IOM.Keeps.bind Silent.frame (readFile_silent _) fun _ => ?_
    refine IOM.Keeps.bind Silent.frame (IOM.Keeps.lift Silent.frame _) fun _ => ?_
    exact IOM.Keeps.bind Silent.frame ih fun _ => IOM.Keeps.pure Silent.frame _

/-- All that is sent are messages with a property. -/
structure Talks (P : Protocol) (Q : Json → Prop) (w w' : World) : Prop where
  clock : w.clock ≤ w'.clock
  faults : w'.faults = w.faults
  said : w.Healthy → ∃ vs, (∀ v ∈ vs, Q v) ∧ w.Said P w' vs
  sends : ∃ l, w'.sent = w.sent ++ l ∧ ∀ b ∈ l, Utters P Q b

theorem healthy_later {w w' : World} (hw : w.Healthy) (h1 : w.clock ≤ w'.clock) (h2 : w'.faults = w.faults) :
    w'.Healthy := fun n hn => by rw [h2]; exact hw n (Nat.le_trans h1 hn)

theorem Said.append {P : Protocol} {a b c : World} {vs vs' : List Json} (h : a.Said P b vs) (h' : b.Said P c vs') :
    a.Said P c (vs ++ vs') := by
  rw [World.Said] at *
  rw [h', h, List.map_append, List.append_assoc]

theorem Talks.frame (P : Protocol) (Q : Json → Prop) : IOM.Frame (Talks P Q) where
  refl w := ⟨Nat.le_refl _, rfl, fun _ => ⟨[], by simp, by simp [World.Said]⟩, [], by simp, by simp⟩
  trans := by
    intro a b c h h'
    refine ⟨Nat.le_trans h.clock h'.clock, h'.faults.trans h.faults, fun hw => ?_, ?_⟩
    rotate_left
    · obtain ⟨l, h1, h2⟩ := h.sends
      obtain ⟨l', h1', h2'⟩ := h'.sends
      refine ⟨l ++ l', by rw [h1', h1, List.append_assoc], fun b hb => ?_⟩
      rcases List.mem_append.mp hb with hb | hb
      · exact h2 b hb
      · exact h2' b hb
    obtain ⟨vs, h1, h2⟩ := h.said hw
    obtain ⟨vs', h1', h2'⟩ := h'.said (healthy_later hw h.clock h.faults)
    refine ⟨vs ++ vs', fun v hv => ?_, Said.append h2 h2'⟩
    rcases List.mem_append.mp hv with hv | hv
    · exact h1 v hv
    · exact h1' v hv

theorem Silent.talks {P : Protocol} {Q : Json → Prop} {α : Type} {x : IOM α} (h : IOM.Keeps Silent x) :
    IOM.Keeps (Talks P Q) x := fun w =>
  ⟨(h w).clock, (h w).faults, fun _ => ⟨[], by simp, by simp [World.Said, (h w).sent]⟩, [], by simp [(h w).sent], by simp⟩

theorem Keeps.attempt {R : World → World → Prop} {α : Type} {x : IOM α} (h : IOM.Keeps R x) :
    IOM.Keeps R (IOM.attempt x) := by
  intro w
  have := h w
  rw [IOM.attempt]
  rcases hx : x w with ⟨r, w1⟩
  rw [hx] at this
  rcases r with a | m | _ <;> exact this

theorem attempt_run {α : Type} (x : IOM α) (w : World) :
    IOM.attempt x w = (match (x w).1 with
      | .ok a => (.ok (.ok a), (x w).2)
      | .err m => (.ok (.error m), (x w).2)
      | .panic => (.panic, (x w).2)) := by
  rw [IOM.attempt]
  rcases x w with ⟨r, w1⟩
  rcases r with a | m | _ <;> rfl

namespace Server

/-- In a healthy world sending succeeds. -/
theorem send_run {P : Protocol} {v : Json} {w : World} (hw : w.Healthy) :
    Server.send P v w =
      (.ok (), { w with clock := w.clock + 1, log := w.log ++ [.sent (frame (P.print v))] }) := by
  rw [Server.send, IOM.send, hw w.clock (Nat.le_refl _)]

theorem said_send (P : Protocol) (v : Json) (w : World) :
    w.Said P { w with clock := w.clock + 1, log := w.log ++ [.sent (frame (P.print v))] } [v] := by
  simp [World.Said, World.sent, IOEvent.sent?]

theorem send_talks {P : Protocol} {Q : Json → Prop} {v : Json} (hv : Q v) : IOM.Keeps (Talks P Q) (Server.send P v) := by
  intro w
  refine ⟨?_, ?_, fun hw => ?_, ?_⟩
  rotate_left 3
  · rw [Server.send, IOM.send]
    rcases w.faults w.clock with _ | _ | k
    · exact ⟨[frame (P.print v)], by simp [World.sent, IOEvent.sent?], by simpa using ⟨v, hv, List.prefix_refl _⟩⟩
    · exact ⟨[], by simp [World.sent], by simp⟩
    · exact ⟨[(frame (P.print v)).take k], by simp [World.sent, IOEvent.sent?], by simpa using ⟨v, hv, List.take_prefix _ _⟩⟩
  · rw [Server.send, IOM.send]
    split <;> simp
  · rw [Server.send, IOM.send]
    split <;> rfl
  · rw [send_run hw]
    exact ⟨[v], by simpa using hv, said_send P v w⟩

theorem tokenizeFile_silent (S : Segmenter) (path : Str) : IOM.Keeps Silent (tokenizeFile S path) :=
  IOM.Keeps.bind Silent.frame (readText_silent path) fun _ => IOM.Keeps.lift Silent.frame _

theorem loadConfigAt_silent (T : Toml) (root : Str) : IOM.Keeps Silent (loadConfigAt T root) :=
  IOM.Keeps.bind Silent.frame (readText_silent _) fun _ => IOM.Keeps.lift Silent.frame _

section
variable {X : ServerEnv} {Q : Json → Prop}

theorem didSave_talks (hlog : ∀ m, Q (logJson m)) (hdiag : ∀ u ds, Q (diagnosticsJson u ds)) (s : Server) (uri : Str) :
    IOM.Keeps (Talks X.P Q) (didSave X s uri) := by
  unfold didSave
  split
  · exact IOM.Keeps.fail (Talks.frame _ _) _
  · refine IOM.Keeps.bind (Talks.frame _ _) (Silent.talks (Keeps.attempt (tokenizeFile_silent _ _))) fun r => ?_
    split
    · exact send_talks (hlog _)
    · refine IOM.Keeps.bind (Talks.frame _ _) (IOM.Keeps.lift (Talks.frame _ _) _) fun _ => ?_
      refine IOM.Keeps.bind (Talks.frame _ _) (IOM.Keeps.lift (Talks.frame _ _) _) fun _ => ?_
      simp only [sendDiagnostics]
      split
      · exact send_talks (hdiag _ _)
      · exact IOM.Keeps.pure (Talks.frame _ _) _

theorem didOpen_silent (s : Server) (uri : Str) : IOM.Keeps Silent (didOpen X s uri) := by
  unfold didOpen
  split
  · exact IOM.Keeps.fail Silent.frame _
  · refine IOM.Keeps.bind Silent.frame (Keeps.attempt (loadConfigAt_silent _ _)) fun r => ?_
    split
    · exact IOM.Keeps.pure Silent.frame _
    · exact IOM.Keeps.bind Silent.frame (downloadPlugins_silent _ _) fun _ => IOM.Keeps.pure Silent.frame _

theorem handleNotification_talks (hlog : ∀ m, Q (logJson m)) (hdiag : ∀ u ds, Q (diagnosticsJson u ds)) (s : Server)
    (msg : Json) (method : Str) : IOM.Keeps (Talks X.P Q) (handleNotification X s msg method) := by
  unfold handleNotification
  repeat' split
  · exact IOM.Keeps.bind (Talks.frame _ _) (send_talks (hlog _)) fun _ => IOM.Keeps.pure (Talks.frame _ _) _
  · exact IOM.Keeps.fail (Talks.frame _ _) _
  · exact Silent.talks (didOpen_silent _ _)
  · exact IOM.Keeps.pure (Talks.frame _ _) _
  · exact IOM.Keeps.fail (Talks.frame _ _) _
  · exact IOM.Keeps.fail (Talks.frame _ _) _
  · exact IOM.Keeps.bind (Talks.frame _ _) (didSave_talks hlog hdiag _ _) fun _ => IOM.Keeps.pure (Talks.frame _ _) _
  · exact IOM.Keeps.pure (Talks.frame _ _) _

theorem handleSemanticTokens_talks (hlog : ∀ m, Q (logJson m)) (uri : Str) :
    IOM.Keeps (Talks X.P Q) (handleSemanticTokens X uri) := by
  unfold handleSemanticTokens
  split
  · exact IOM.Keeps.fail (Talks.frame _ _) _
  · refine IOM.Keeps.bind (Talks.frame _ _) (Silent.talks (Keeps.attempt (tokenizeFile_silent _ _))) fun r => ?_
    split
    · exact IOM.Keeps.bind (Talks.frame _ _) (send_talks (hlog _)) fun _ => IOM.Keeps.pure (Talks.frame _ _) _
    · exact IOM.Keeps.bind (Talks.frame _ _) (IOM.Keeps.lift (Talks.frame _ _) _) fun _ =>
        IOM.Keeps.pure (Talks.frame _ _) _

theorem handleCompletion_silent (s : Server) (context : Option (Option Str)) :
    IOM.Keeps Silent (handleCompletion X s context) := by
  unfold handleCompletion
  split
  · exact IOM.Keeps.pure Silent.frame _
  · refine IOM.Keeps.bind Silent.frame (loadPlugins_silent _ _) fun _ => ?_
    refine IOM.Keeps.bind Silent.frame (IOM.Keeps.lift Silent.frame _) fun _ => ?_
    split
    · exact IOM.Keeps.fail Silent.frame _
    · exact IOM.Keeps.pure Silent.frame _
    · exact IOM.Keeps.bind Silent.frame (IOM.Keeps.lift Silent.frame _) fun _ => IOM.Keeps.pure Silent.frame _

/-- A response, by the outcome of the handler. -/
def replies (id : Int) (failure : Str) : Res (Option Json) → List Json
  | .ok (some result) => [resultJson id result]
  | .ok none => []
  | .err _ => [errorJson (some id) (-32000) failure]
  | .panic => []

/-- What is sent for a request whose handler has run. -/
theorem respond_run {P : Protocol} {id : Int} {failure : Str} {x : IOM (Option Json)} {w : World} (hw : w.Healthy)
    (hx : IOM.Keeps (Talks P Q) x) :
    ∃ logs, (∀ v ∈ logs, Q v) ∧ w.Said P (respond P id failure x w).2 (logs ++ replies id failure (x w).1) ∧
      (respond P id failure x w).1 = (match (x w).1 with | .panic => .panic | _ => .ok ()) ∧
      (respond P id failure x w).2.Healthy := by
  have h1 := hx w
  rw [respond, IOM.bind_run, attempt_run]
  rcases h : x w with ⟨r, w1⟩
  rw [h] at h1
  obtain ⟨logs, hq, hs⟩ := h1.said hw
  have hw1 := healthy_later hw h1.clock h1.faults
  refine ⟨logs, hq, ?_⟩
  rcases r with a | m | _
  · rcases a with _ | result
    · simp only [replies, List.append_nil]
      exact ⟨hs, rfl, hw1⟩
    · simp only [replies]
      rw [send_run hw1]
      exact ⟨Said.append hs (said_send ..), rfl, healthy_later hw1 (by simp) rfl⟩
  · simp only [replies, sendError]
    rw [send_run hw1]
    exact ⟨Said.append hs (said_send ..), rfl, healthy_later hw1 (by simp) rfl⟩
  · simp only [replies, List.append_nil]
    exact ⟨hs, trivial, hw1⟩

end

theorem logJson_notification (m : Str) : (logJson m).IsNotification := ⟨rfl, rfl⟩

theorem diagnosticsJson_notification (u : Str) (ds : List Diagnostic) : (diagnosticsJson u ds).IsNotification :=
  ⟨rfl, rfl⟩

theorem resultJson_reply (id : Int) (r : Json) : (resultJson id r).IsReply (.int id) := ⟨rfl, rfl, .inl rfl⟩

theorem errorJson_reply (id : Int) (c : Int) (m : Str) : (errorJson (some id) c m).IsReply (.int id) :=
  ⟨rfl, rfl, .inr rfl⟩

theorem dispatch_request {X : ServerEnv} {s : Server} {msg : Json} {id : Int} {method : Str}
    (h : msg.IsRequest id method) : dispatch X s msg = handleRequest X s msg id method := by
  rw [dispatch, h.1, h.2.2]
  simp only [Option.bind_some, Json.asI64, if_pos h.2.1, Json.asStr]

theorem readText_fails {w : World} {path : Str} (h : w.Unreadable path) :
    ∃ m, IOM.readText path w = (.err m, { w with clock := w.clock + 1 }) := by
  simp only [IOM.readText, IOM.readFile, IOM.bind_run]
  rcases step_cases w with ⟨_, h'⟩ | ⟨_, h'⟩ <;> rw [h']
  · simp only
    rcases hg : w.files.get path with _ | b
    · exact ⟨_, rfl⟩
    · rcases hu : fromUtf8 b with _ | t
      · exact ⟨"stream did not contain valid UTF-8", by simp only [hu, IOM.fail]⟩
      · exact absurd hu (h b t hg)
  · exact ⟨_, rfl⟩

theorem tokenizeFile_err {S : Segmenter} {path : Str} {w w1 : World} {m : String}
    (h : tokenizeFile S path w = (.err m, w1)) (hw : w.Healthy) : w.Unreadable path := by
  intro b t hb ht
  rw [tokenizeFile, IOM.bind_of_ok (readText_run hb ht (hw _ (Nat.le_refl _))), IOM.lift_run,
    tokenizeStr_eq] at h
  simp at h

end Server

end Brack
