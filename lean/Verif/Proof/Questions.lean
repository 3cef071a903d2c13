import Verif.Proof.Opened
import Verif.Spec.Questions

/-
Helper lemmas: what happens depends on the disk and the network only.
-/

namespace Brack

/-- Two worlds in which nothing goes wrong, with the same disk and, as far as requests are allowed (`net`), the same
network `web`. -/
structure Par (net : Prop) (web : Str → Option Bytes) (w w' : World) : Prop where
  files : w'.files = w.files
  dirs : w'.dirs = w.dirs
  left : w.Healthy
  right : w'.Healthy
  http : net → ∀ n url, w.http n url = web url ∧ w'.http n url = web url

variable {net : Prop} {web : Str → Option Bytes} {ok : IOEvent → Prop}

/-- A computation that does the same in all such worlds. -/
def IOM.Even (net : Prop) (web : Str → Option Bytes) (ok : IOEvent → Prop) (x : IOM α) : Prop :=
  ∀ w w', Par net web w w' → (x w).1 = (x w').1 ∧ Par net web (x w).2 (x w').2 ∧
    ∃ l, (x w).2.log = w.log ++ l ∧ (x w').2.log = w'.log ++ l ∧ ∀ e ∈ l, ok e

theorem Par.tick {w w' : World} (h : Par net web w w') :
    Par net web { w with clock := w.clock + 1 } { w' with clock := w'.clock + 1 } :=
  ⟨h.files, h.dirs, fun n hn => h.left n (by simp only at hn; omega),
    fun n hn => h.right n (by simp only at hn; omega), h.http⟩

theorem IOM.Even.pure (a : α) : IOM.Even net web ok (Pure.pure a : IOM α) := fun _ _ h =>
  ⟨rfl, h, [], by simp [IOM.pure_run], by simp [IOM.pure_run], by simp⟩

theorem IOM.Even.lift (r : Res α) : IOM.Even net web ok (IOM.lift r) := fun _ _ h =>
  ⟨rfl, h, [], by simp [IOM.lift_run], by simp [IOM.lift_run], by simp⟩

theorem IOM.Even.fail (m : String) : IOM.Even net web ok (IOM.fail m : IOM α) := fun _ _ h =>
  ⟨rfl, h, [], by simp [IOM.fail], by simp [IOM.fail], by simp⟩

theorem IOM.Even.bind {x : IOM α} {f : α → IOM β} (hx : IOM.Even net web ok x) (hf : ∀ a, IOM.Even net web ok (f a)) :
    IOM.Even net web ok (x >>= f) := by
  intro w w' hs
  obtain ⟨h1, h2, l, h3, h4, h5⟩ := hx w w' hs
  rw [IOM.bind_run, IOM.bind_run]
  rcases e1 : x w with ⟨r, w1⟩
  rcases e2 : x w' with ⟨r', w2⟩
  rw [e1, e2] at h1 h2
  rw [e1] at h3
  rw [e2] at h4
  simp only at h1 h2 h3 h4
  subst h1
  rcases r with a | m | _
  · obtain ⟨g1, g2, l', g3, g4, g5⟩ := hf a w1 w2 h2
    exact ⟨g1, g2, l ++ l', by simp only [g3, h3, List.append_assoc], by simp only [g4, h4, List.append_assoc],
      fun e he => (List.mem_append.mp he).elim (h5 e) (g5 e)⟩
  · exact ⟨rfl, h2, l, h3, h4, h5⟩
  · exact ⟨rfl, h2, l, h3, h4, h5⟩

theorem IOM.Even.step : IOM.Even net web ok IOM.step := by
  intro w w' hs
  rw [step_run (hs.left _ (Nat.le_refl _)), step_run (hs.right _ (Nat.le_refl _))]
  exact ⟨rfl, hs.tick, [], by simp, by simp, by simp⟩

theorem IOM.Even.attempt {x : IOM α} (hx : IOM.Even net web ok x) : IOM.Even net web ok (IOM.attempt x) := by
  intro w w' hs
  obtain ⟨h1, h2, l, h3, h4, h5⟩ := hx w w' hs
  rw [attempt_run, attempt_run]
  rcases e1 : x w with ⟨r, w1⟩
  rcases e2 : x w' with ⟨r', w2⟩
  rw [e1, e2] at h1 h2
  rw [e1] at h3
  rw [e2] at h4
  simp only at h1 h2 h3 h4
  subst h1
  rcases r with a | m | _
  · exact ⟨rfl, h2, l, h3, h4, h5⟩
  · exact ⟨rfl, h2, l, h3, h4, h5⟩
  · exact ⟨rfl, h2, l, h3, h4, h5⟩

theorem IOM.Even.readFile (p : Str) : IOM.Even net web ok (IOM.readFile p) := by
  unfold IOM.readFile
  refine IOM.Even.bind IOM.Even.step (fun _ => ?_)
  intro w w' hs
  simp only [hs.files]
  rcases w.files.get p with _ | b
  · exact ⟨rfl, hs, [], by simp, by simp, by simp⟩
  · exact ⟨rfl, hs, [], by simp, by simp, by simp⟩

theorem IOM.Even.readText (p : Str) : IOM.Even net web ok (IOM.readText p) := by
  unfold IOM.readText
  refine IOM.Even.bind (IOM.Even.readFile p) (fun b => ?_)
  split
  · exact IOM.Even.pure _
  · exact IOM.Even.fail _

theorem IOM.Even.send (hsent : ∀ b, ok (.sent b)) (b : Bytes) : IOM.Even net web ok (IOM.send b) := by
  intro w w' hs
  unfold IOM.send
  simp only [hs.left _ (Nat.le_refl _), hs.right _ (Nat.le_refl _)]
  refine ⟨trivial, ⟨hs.files, hs.dirs, fun n hn => hs.left n (by simp only at hn; omega),
    fun n hn => hs.right n (by simp only at hn; omega), hs.http⟩, [.sent b], rfl, rfl, ?_⟩
  intro e he
  rw [List.mem_singleton.mp he]
  exact hsent b

theorem IOM.Even.writeFile (p : Str) (b : Bytes) (hok : ok (.wrote p b)) : IOM.Even net web ok (IOM.writeFile p b) := by
  intro w w' hs
  have h1 : w'.hasDir (parentDir p) = w.hasDir (parentDir p) := by rw [World.hasDir, World.hasDir, hs.dirs]
  unfold IOM.writeFile
  simp only [h1, hs.dirs, hs.left _ (Nat.le_refl _), hs.right _ (Nat.le_refl _)]
  have hl : ∀ n, w.clock + 1 ≤ n → w.faults n = .none := fun n hn => hs.left n (by omega)
  have hr : ∀ n, w'.clock + 1 ≤ n → w'.faults n = .none := fun n hn => hs.right n (by omega)
  split
  · refine ⟨rfl, ⟨by simp [hs.files], rfl, hl, hr, hs.http⟩, [.wrote p b], rfl, rfl, ?_⟩
    intro e he
    rw [List.mem_singleton.mp he]
    exact hok
  · exact ⟨rfl, ⟨hs.files, rfl, hl, hr, hs.http⟩, [], by simp, by simp, by simp⟩

theorem IOM.Even.pathExists (p : Str) : IOM.Even net web ok (IOM.pathExists p) := by
  intro w w' hs
  refine ⟨?_, hs, [], by simp [IOM.pathExists], by simp [IOM.pathExists], by simp⟩
  simp [IOM.pathExists, World.pathExists, hs.files, hs.dirs]

theorem IOM.Even.httpGet (hn : net) (url : Str) (hok : ok (.request url)) : IOM.Even net web ok (IOM.httpGet url) := by
  intro w w' hs
  refine ⟨?_, ⟨hs.files, hs.dirs, fun n hn => hs.left n (by simp only [IOM.httpGet] at hn; omega),
    fun n hn => hs.right n (by simp only [IOM.httpGet] at hn; omega), hs.http⟩, [.request url], rfl, rfl, ?_⟩
  · simp [IOM.httpGet, (hs.http hn w.clock url).1, (hs.http hn w'.clock url).2]
  · intro e he
    rw [List.mem_singleton.mp he]
    exact hok

theorem loadPlugins_even (W : Wasm) (md : PluginsMetadata) : IOM.Even net web ok (loadPlugins W md) := by
  induction md with
  | nil => exact IOM.Even.pure _
  | cons x md ih =>
    exact IOM.Even.bind (IOM.Even.readFile _) (fun _ => IOM.Even.bind (IOM.Even.lift _) (fun _ =>
      IOM.Even.bind ih (fun _ => IOM.Even.pure _)))

theorem downloadPlugins_even (hn : net) (hok : ∀ e, ok e) (hash : PluginSchema → Str) (c : Config) :
    IOM.Even net web ok (downloadPlugins hash c) := by
  have plan : ∀ (l : List (Str × PluginSchema)) (md : PluginsMetadata),
      IOM.Even net web ok (planLoop hash c.document.backend l md) := by
    intro l
    induction l with
    | nil => exact fun _ => IOM.Even.pure _
    | cons x l ih =>
      intro md
      obtain ⟨name, s⟩ := x
      refine IOM.Even.bind (IOM.Even.pathExists _) (fun b => ?_)
      split
      · exact ih _
      · exact IOM.Even.bind (ih _) (fun _ => IOM.Even.pure _)
  have fetch : ∀ ts : List Task, IOM.Even net web ok (fetchLoop ts) := by
    intro ts
    induction ts with
    | nil => exact IOM.Even.pure _
    | cons t ts ih =>
      exact IOM.Even.bind (IOM.Even.httpGet hn _ (hok _)) (fun _ => IOM.Even.bind ih (fun _ => IOM.Even.pure _))
  have store : ∀ (rs : List (Task × Option Bytes)) (md : PluginsMetadata), IOM.Even net web ok (storeLoop rs md) := by
    intro rs
    induction rs with
    | nil => exact fun _ => IOM.Even.pure _
    | cons r rs ih =>
      intro md
      obtain ⟨t, b | b⟩ := r
      · exact IOM.Even.fail _
      · exact IOM.Even.bind (IOM.Even.writeFile _ _ (hok _)) (fun _ => ih _)
  unfold downloadPlugins
  split
  · exact IOM.Even.pure _
  · exact IOM.Even.bind (plan _ _) (fun _ => IOM.Even.bind (fetch _) (fun _ => store _ _))

namespace Server

theorem send_even (hsent : ∀ b, ok (.sent b)) (P : Protocol) (v : Json) : IOM.Even net web ok (send P v) :=
  IOM.Even.send hsent _

theorem tokenizeFile_even (S : Segmenter) (path : Str) : IOM.Even net web ok (tokenizeFile S path) :=
  IOM.Even.bind (IOM.Even.readText path) fun _ => IOM.Even.lift _

theorem didSave_even (hsent : ∀ b, ok (.sent b)) (X : ServerEnv) (s : Server) (uri : Str) :
    IOM.Even net web ok (didSave X s uri) := by
  unfold didSave
  split
  · exact IOM.Even.fail _
  · refine IOM.Even.bind (IOM.Even.attempt (tokenizeFile_even _ _)) fun r => ?_
    split
    · exact send_even hsent _ _
    · refine IOM.Even.bind (IOM.Even.lift _) fun _ => ?_
      refine IOM.Even.bind (IOM.Even.lift _) fun _ => ?_
      simp only [sendDiagnostics]
      split
      · exact send_even hsent _ _
      · exact IOM.Even.pure _

theorem handleSemanticTokens_even (hsent : ∀ b, ok (.sent b)) (X : ServerEnv) (uri : Str) :
    IOM.Even net web ok (handleSemanticTokens X uri) := by
  unfold handleSemanticTokens
  split
  · exact IOM.Even.fail _
  · refine IOM.Even.bind (IOM.Even.attempt (tokenizeFile_even _ _)) fun r => ?_
    split
    · exact IOM.Even.bind (send_even hsent _ _) fun _ => IOM.Even.pure _
    · exact IOM.Even.bind (IOM.Even.lift _) fun _ => IOM.Even.pure _

theorem handleCompletion_even (X : ServerEnv) (s : Server) (context : Option (Option Str)) :
    IOM.Even net web ok (handleCompletion X s context) := by
  unfold handleCompletion
  split
  · exact IOM.Even.pure _
  · refine IOM.Even.bind (loadPlugins_even _ _) fun _ => ?_
    refine IOM.Even.bind (IOM.Even.lift _) fun _ => ?_
    split
    · exact IOM.Even.fail _
    · exact IOM.Even.pure _
    · exact IOM.Even.bind (IOM.Even.lift _) fun _ => IOM.Even.pure _

theorem respond_even (hsent : ∀ b, ok (.sent b)) (P : Protocol) (id : Int) (failure : Str) {x : IOM (Option Json)}
    (h : IOM.Even net web ok x) : IOM.Even net web ok (respond P id failure x) := by
  refine IOM.Even.bind (IOM.Even.attempt h) fun r => ?_
  split
  · exact send_even hsent _ _
  · exact IOM.Even.pure _
  · exact send_even hsent _ _

theorem handleRequest_even (hsent : ∀ b, ok (.sent b)) (X : ServerEnv) (s : Server) (msg : Json) (id : Int) (method : Str) :
    IOM.Even net web ok (handleRequest X s msg id method) := by
  unfold handleRequest
  split
  · refine IOM.Even.bind (send_even hsent _ _) fun _ => ?_
    split
    · exact IOM.Even.fail _
    · exact IOM.Even.bind (send_even hsent _ _) fun _ => IOM.Even.pure _
  split
  · split
    · exact IOM.Even.fail _
    · exact IOM.Even.bind (respond_even hsent _ _ _ (handleSemanticTokens_even hsent _ _)) fun _ => IOM.Even.pure _
  split
  · split
    · exact IOM.Even.fail _
    · exact IOM.Even.bind (respond_even hsent _ _ _ (handleCompletion_even _ _ _)) fun _ => IOM.Even.pure _
  · exact IOM.Even.bind (send_even hsent _ _) fun _ => IOM.Even.pure _

theorem didOpen_even (hn : net) (hok : ∀ e, ok e) (X : ServerEnv) (s : Server) (uri : Str) :
    IOM.Even net web ok (didOpen X s uri) := by
  unfold didOpen
  split
  · exact IOM.Even.fail _
  · refine IOM.Even.bind (IOM.Even.attempt (IOM.Even.bind (IOM.Even.readText _) fun _ => IOM.Even.lift _)) fun r => ?_
    split
    · exact IOM.Even.pure _
    · exact IOM.Even.bind (downloadPlugins_even hn hok _ _) fun _ => IOM.Even.pure _

theorem handleNotification_even (hsent : ∀ b, ok (.sent b)) (X : ServerEnv) (s : Server) (msg : Json) (method : Str)
    (h : method = chars! "textDocument/didOpen" → net ∧ ∀ e, ok e) :
    IOM.Even net web ok (handleNotification X s msg method) := by
  unfold handleNotification
  repeat' split
  · exact IOM.Even.bind (send_even hsent _ _) fun _ => IOM.Even.pure _
  · exact IOM.Even.fail _
  · next he _ _ _ => exact didOpen_even (h he).1 (h he).2 _ _ _
  · exact IOM.Even.pure _
  · exact IOM.Even.fail _
  · exact IOM.Even.fail _
  · exact IOM.Even.bind (didSave_even hsent _ _ _) fun _ => IOM.Even.pure _
  · exact IOM.Even.pure _

theorem dispatch_even (hsent : ∀ b, ok (.sent b)) (X : ServerEnv) (s : Server) (msg : Json)
    (h : msg.get (chars! "method") = some (.str (chars! "textDocument/didOpen")) → net ∧ ∀ e, ok e) :
    IOM.Even net web ok (dispatch X s msg) := by
  unfold dispatch
  rcases (msg.get (chars! "id")).bind Json.asI64 with _ | id <;>
    rcases hm : (msg.get (chars! "method")).bind Json.asStr with _ | method
  · exact IOM.Even.bind (send_even hsent _ _) fun _ => IOM.Even.pure _
  · refine handleNotification_even hsent _ _ _ _ (fun he => ?_)
    by_cases hq : msg.get (chars! "method") = some (.str (chars! "textDocument/didOpen"))
    · exact h hq
    · exact absurd he (asStr_ne hq hm)
  · exact IOM.Even.pure _
  · exact handleRequest_even hsent _ _ _ _ _

/-- The state changes only when the client introduces itself or opens a document. -/
theorem dispatch_state {X : ServerEnv} {s s' : Server} {msg : Json} {w w' : World}
    (h : msg.Question)
    (hd : dispatch X s msg w = (.ok s', w')) : s' = s := by
  have key : ∀ {α : Type} {x : IOM α} {w w' : World} {s' : Server}, (x >>= fun _ => pure s) w = (.ok s', w') →
      s' = s := by
    intro α x w w' s' h
    obtain ⟨_, _, _, h⟩ := IOM.bind_ok.mp h
    injection h with h _
    injection h with h
    rw [← h]
  have pure' : ∀ {w w' : World} {s' : Server}, (pure s : IOM Server) w = (.ok s', w') → s' = s := by
    intro w w' s' h
    injection h with h _
    injection h with h
    rw [← h]
  unfold dispatch at hd
  rcases hid : (msg.get (chars! "id")).bind Json.asI64 with _ | id <;>
    rcases hm : (msg.get (chars! "method")).bind Json.asStr with _ | method <;> rw [hid, hm] at hd <;> simp only at hd
  · exact key hd
  · unfold handleNotification at hd
    rw [if_neg (asStr_ne h.2 hm)] at hd
    by_cases h1 : method = chars! "initialized"
    · rw [if_pos h1] at hd
      exact key hd
    rw [if_neg h1] at hd
    by_cases h1 : method = chars! "textDocument/didChange"
    · rw [if_pos h1] at hd
      rcases hx : X.P.didChange (msg.index (chars! "params")) with _ | _ <;> rw [hx] at hd
      · rw [if_neg (by simp)] at hd
        simp [IOM.fail] at hd
      · rw [if_pos rfl] at hd
        exact pure' hd
    rw [if_neg h1] at hd
    by_cases h1 : method = chars! "textDocument/didSave"
    · rw [if_pos h1] at hd
      rcases hx : X.P.didSave (msg.index (chars! "params")) with _ | _ <;> rw [hx] at hd
      · simp [IOM.fail] at hd
      · exact key hd
    rw [if_neg h1] at hd
    exact pure' hd
  · exact pure' hd
  · unfold handleRequest at hd
    rw [if_neg (asStr_ne h.1 hm)] at hd
    by_cases h1 : method = chars! "textDocument/semanticTokens/full"
    · rw [if_pos h1] at hd
      rcases hx : X.P.semanticTokens (msg.index (chars! "params")) with _ | _ <;> rw [hx] at hd
      · simp [IOM.fail] at hd
      · exact key hd
    rw [if_neg h1] at hd
    by_cases h1 : method = chars! "textDocument/completion"
    · rw [if_pos h1] at hd
      rcases hx : X.P.completion (msg.index (chars! "params")) with _ | _ <;> rw [hx] at hd
      · simp [IOM.fail] at hd
      · exact key hd
    rw [if_neg h1] at hd
    exact key hd

end Server

theorem handleAll_even (X : ServerEnv) : ∀ (msgs : List Json) (s : Server),
    IOM.Even True web (fun _ => True) (handleAll X msgs s)
  | [], _ => IOM.Even.pure _
  | msg :: msgs, s => IOM.Even.bind (Server.dispatch_even (fun _ => trivial) X s msg (fun _ => ⟨trivial, fun _ => trivial⟩))
      (fun s => handleAll_even X msgs s)

theorem handleAll_append (X : ServerEnv) (ms ns : List Json) (s : Server) :
    handleAll X (ms ++ ns) s = (handleAll X ms s >>= fun s => handleAll X ns s) := by
  funext w
  induction ms generalizing s w with
  | nil => rfl
  | cons m ms ih =>
    simp only [List.cons_append, handleAll]
    rw [IOM.bind_run, IOM.bind_run, IOM.bind_run]
    rcases Server.dispatch X s m w with ⟨s1 | _ | _, w1⟩
    · simp only
      rw [ih, IOM.bind_run]
    · rfl
    · rfl

end Brack
