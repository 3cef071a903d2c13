import Verif.Proof.Questions
import Verif.Proof.ServerCases

/-
C93: asking the language server something changes nothing.
-/

namespace Brack

/-- C93: a question leaves the disk and the server as they are, whatever goes wrong, and nothing is done but sending
messages: nothing is written and nothing is requested from the network. -/
theorem C93_changes_nothing (X : ServerEnv) (s : Server) (q : Json) (hq : q.Question) (w : World) :
    w.SameDisk (Server.dispatch X s q w).2 ∧
      (∃ events, w.Since (Server.dispatch X s q w).2 events ∧ ∀ e ∈ events, ∃ b, e = .sent b) ∧
      ∀ s', (Server.dispatch X s q w).1 = .ok s' → s' = s := by
  have h := Server.dispatch_rests X s q hq.2 w
  refine ⟨⟨h.files, h.dirs⟩, h.log, fun s' hs => ?_⟩
  rcases hd : Server.dispatch X s q w with ⟨r, w'⟩
  rw [hd] at hs
  simp only at hs
  subst hs
  exact Server.dispatch_state hq hd

/-- C93: the answer to a question depends on nothing but the disk and the state of the server: not on the network, nor
on what was sent, read or written before. -/
theorem C93_same_answer (X : ServerEnv) (s : Server) (q : Json) (hq : q.Question) (w w' : World) (hw : w.Healthy)
    (hw' : w'.Healthy) (hd : w.SameDisk w') :
    (Server.dispatch X s q w).1 = (Server.dispatch X s q w').1 ∧
      ∃ events, w.Since (Server.dispatch X s q w).2 events ∧ w'.Since (Server.dispatch X s q w').2 events := by
  obtain ⟨h1, _, l, h3, h4, _⟩ := Server.dispatch_even (net := False) (web := fun _ => none) (ok := fun e => ∃ b, e = .sent b) (fun b => ⟨b, rfl⟩)
    X s q (fun h => absurd h hq.2) w w' ⟨hd.1, hd.2, hw, hw', fun h => h.elim⟩
  exact ⟨h1, l, h3, h4⟩

/-- C93: a question at any point of a session makes no difference to the rest of the session: with the question and
without it the session ends in the same way, with the same disk, and the same is done and sent, except for the answer. -/
theorem C93_session (X : ServerEnv) (before after : List Json) (q : Json) (hq : q.Question) (s : Server) (w : World)
    (hw : w.Healthy) (hn : w.Steady) (hstop : ∃ s', (handleAll X (before ++ [q]) s w).1 = .ok s') :
    (handleAll X (before ++ q :: after) s w).1 = (handleAll X (before ++ after) s w).1 ∧
      (handleAll X (before ++ q :: after) s w).2.SameDisk (handleAll X (before ++ after) s w).2 ∧
      ∃ earlier answer later,
        w.Since (handleAll X (before ++ q :: after) s w).2 (earlier ++ answer ++ later) ∧
        w.Since (handleAll X (before ++ after) s w).2 (earlier ++ later) ∧
        w.Since (handleAll X before s w).2 earlier ∧ ∀ e ∈ answer, ∃ b, e = .sent b := by
  obtain ⟨s', hstop⟩ := hstop
  obtain ⟨_, hp, l, hl, _, _⟩ := handleAll_even (web := w.http 0) X before s w w ⟨rfl, rfl, hw, hw, fun _ n url =>
    ⟨hn n 0 url, hn n 0 url⟩⟩
  rcases hb : handleAll X before s w with ⟨r, w1⟩
  rw [handleAll_append, IOM.bind_run, hb] at hstop
  rw [hb] at hp hl
  rcases r with s1 | _ | _
  case err => exact nomatch hstop
  case panic => exact nomatch hstop
  simp only [handleAll] at hstop
  rw [IOM.bind_run] at hstop
  rcases hd : Server.dispatch X s1 q w1 with ⟨r, w2⟩
  rw [hd] at hstop
  rcases r with s2 | _ | _
  case err => exact nomatch hstop
  case panic => exact nomatch hstop
  obtain rfl := Server.dispatch_state hq hd
  have hr := Server.dispatch_rests X s2 q hq.2 w1
  obtain ⟨_, hp2, _⟩ := Server.dispatch_even (net := True) (ok := fun _ => True) (fun _ => trivial)
    X s2 q (fun h => absurd h hq.2) w1 w1 hp
  rw [hd] at hr hp2
  simp only at hr hp2 hp hl
  have e1 : handleAll X (before ++ q :: after) s w = handleAll X after s2 w2 := by
    rw [handleAll_append, IOM.bind_run, hb]
    simp only [handleAll]
    rw [IOM.bind_run, hd]
  have e2 : handleAll X (before ++ after) s w = handleAll X after s2 w1 := by
    rw [handleAll_append, IOM.bind_run, hb]
  rw [e1, e2]
  obtain ⟨g1, g2, l', g3, g4, _⟩ := handleAll_even X after s2 w2 w1 ⟨hr.files.symm, hr.dirs.symm, hp2.left, hp.left,
    fun _ n url => ⟨(hp2.http trivial n url).1, (hp.http trivial n url).1⟩⟩
  obtain ⟨lq, k1, k2⟩ := hr.log
  refine ⟨g1, ⟨g2.files, g2.dirs⟩, l, lq, l', ?_, ?_, hl, k2⟩
  · rw [World.Since, g3, k1, hl]
    simp only [List.append_assoc]
  · rw [World.Since, g4, hl]
    simp only [List.append_assoc]

private theorem request_question {id : Int} {method : Str} {params : Json} (h1 : method ≠ chars! "initialize")
    (h2 : method ≠ chars! "textDocument/didOpen") : (requestJson id method params).Question := by
  have : (requestJson id method params).get (chars! "method") = some (.str method) := rfl
  rw [Json.Question, this]
  exact ⟨fun h => h1 (by injection h with h; injection h), fun h => h2 (by injection h with h; injection h)⟩

/-- Asking for completions between two other messages. -/
example : (handleAll (sampleServerEnv sampleWasm) ([eventJson (chars! "initialized") (.obj [])] ++
      requestJson 7 (chars! "textDocument/completion") (completionParams (chars! "{")) ::
        [eventJson (chars! "textDocument/didSave") documentParams]) sampleServer (workspace (chars! "{"))).1 =
    (handleAll (sampleServerEnv sampleWasm) ([eventJson (chars! "initialized") (.obj [])] ++
        [eventJson (chars! "textDocument/didSave") documentParams]) sampleServer (workspace (chars! "{"))).1 :=
  (C93_session (sampleServerEnv sampleWasm) _ _ _ (request_question (by decide) (by decide)) _ _ (workspace_healthy _) (fun _ _ _ => rfl)
    ⟨_, rfl⟩).1

end Brack
