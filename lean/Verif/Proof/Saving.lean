import Verif.Proof.ServerReplies
import Verif.Props.Transform

/-
Saving a document.
-/

namespace Brack

/-- Positions are bounded by the length of the text. -/
theorem token_bounds {S : Segmenter} {text : Str} {toks : List Token} (h : tokenizeStr S text = .ok toks) :
    ∀ t ∈ toks, t.loc.start.line ≤ text.length ∧ t.loc.start.character ≤ text.length ∧
      t.loc.stop.line ≤ text.length ∧ t.loc.stop.character ≤ text.length := by
  intro t ht
  have h1 := C03_tiles S text toks h
  have hs : (spell toks).length ≤ text.length := by
    have hs := tokens_spell S text
    rw [tokenizeStr_eq] at h
    injection h with h
    rw [h] at hs
    rw [hs]
    exact (List.takeWhile_sublist _).length_le
  have hb := tiles_bound h1 t ht
  have key : ∀ (ts : List Token) p, Tiles S p ts → ∀ u ∈ ts, u.loc.stop.line = u.loc.start.line ∧
      u.loc.start.character ≤ u.loc.stop.character := by
    intro ts
    induction ts with
    | nil => intro p _ u hu; simp at hu
    | cons x ts ih =>
      intro p hp u hu
      obtain ⟨g1, g2, g3⟩ := hp
      rcases List.mem_cons.mp hu with rfl | hu
      · rw [g1, g2]
        exact ⟨rfl, Nat.le_add_right _ _⟩
      · exact ih _ g3 u hu
  have hk := key toks _ h1 t ht
  simp only at hb
  omega

theorem tiles_width (S : Segmenter) : ∀ (ts : List Token) (p : Pos), Tiles S p ts → ∀ t ∈ ts,
    t.loc.stop.character = t.loc.start.character + (S.graphemes t.kind.spelling).length
  | [], _, _, _, h => by simp at h
  | x :: ts, p, hp, t, h => by
    obtain ⟨g1, g2, g3⟩ := hp
    rcases List.mem_cons.mp h with rfl | h
    · rw [g1, g2]
    · exact tiles_width S ts _ g3 t h

theorem single_cluster (S : Segmenter) (c : Char) : S.graphemes [c] = [[c]] := by
  have h1 := S.flatten [c]
  have h2 := S.nonempty [c]
  rcases h : S.graphemes [c] with _ | ⟨g, gs⟩
  · rw [h] at h1
    simp at h1
  · rw [h] at h1 h2
    have hg : g ≠ [] := h2 g (List.mem_cons_self ..)
    rw [List.flatten_cons, List.append_eq_cons_iff] at h1
    rcases h1 with ⟨h1, _⟩ | ⟨g', h1, h3⟩
    · exact absurd h1 hg
    · have h3 := h3.symm
      rw [List.append_eq_nil_iff] at h3
      have hgs : gs = [] := by
        cases gs with
        | nil => rfl
        | cons x xs =>
          have := h2 x (by simp)
          rw [List.flatten_cons, List.append_eq_nil_iff] at h3
          exact absurd h3.2.1 this
      rw [h1, h3.1, hgs]

namespace Server

theorem dispatch_event {X : ServerEnv} {s : Server} {msg : Json} {method : Str} (h : msg.IsEvent method) :
    dispatch X s msg = handleNotification X s msg method := by
  rw [dispatch, h.1, h.2]
  rfl

theorem tokenizeFile_run {S : Segmenter} {path text : Str} {w : World} (hw : w.Healthy) (h : w.Contains path text) :
    tokenizeFile S path w = (tokenizeStr S text, { w with clock := w.clock + 1 }) := by
  obtain ⟨b, hb, ht⟩ := h
  rw [tokenizeFile, IOM.bind_of_ok (readText_run hb ht (hw _ (Nat.le_refl _))), IOM.lift_run]

/-- Handling of a saved document, up to the diagnostics. -/
theorem save_run {X : ServerEnv} {s : Server} {msg : Json} {uri path text : Str} {w : World} {toks : List Token}
    (hw : w.Healthy) (hm : msg.IsEvent (chars! "textDocument/didSave"))
    (hp : X.P.didSave (msg.index (chars! "params")) = some uri) (hf : X.P.toFilePath uri = some path)
    (hc : w.Contains path text) (ht : tokenizeStr X.E.S text = .ok toks) :
    dispatch X s msg w = (match parse toks with
      | .ok c => (match transform (X.E.ids 0) c with
        | .ok (_, es) => (do sendDiagnostics X.P s path (es.map diagnosticOf); return s) { w with clock := w.clock + 1 }
        | .err m => (.err m, { w with clock := w.clock + 1 })
        | .panic => (.panic, { w with clock := w.clock + 1 }))
      | .err m => (.err m, { w with clock := w.clock + 1 })
      | .panic => (.panic, { w with clock := w.clock + 1 })) := by
  have h1 := tokenizeFile_run (S := X.E.S) hw hc
  rw [ht] at h1
  rw [dispatch_event hm, handleNotification, if_neg (by decide), if_neg (by decide), if_neg (by decide), if_pos rfl, hp]
  simp only
  rw [IOM.bind_run, didSave, hf]
  simp only
  rw [IOM.bind_run, attempt_run, h1]
  simp only
  rw [IOM.bind_run, IOM.lift_run]
  rcases parse toks with c | m | _
  · simp only
    rw [IOM.bind_run, IOM.lift_run]
    rcases transform (X.E.ids 0) c with ⟨a, es⟩ | m | _
    · simp only
      rw [IOM.bind_run]
    · rfl
    · rfl
  · rfl
  · rfl

theorem errorMessage_description (k : TErrKind) : errorMessage k = k.description := by
  rcases k with (_ | _ | _) | (_ | _ | _) | _ | _ | _ | _ | _ | _ | _ | _ <;> rfl

/-- A diagnostic as it should be seen. -/
def seenError (e : TErr) : SeenDiagnostic :=
  ⟨e.loc.start.line, e.loc.start.character, e.loc.stop.line, e.loc.stop.character, e.kind.description⟩

theorem seen_json (d : Diagnostic) : d.json.seenDiagnostic =
    some ⟨d.startLine, d.startCharacter, d.endLine, d.endCharacter, d.message⟩ := by
  have hp : ∀ l c : Nat, (positionJson l c).seenPosition = some (l, c) := by
    intro l c
    have : (positionJson l c).seenPosition = (do
      let l ← Json.nat? (.int l)
      let c ← Json.nat? (.int c)
      return (l, c)) := rfl
    rw [this]
    simp [Json.nat?]
  have : d.json.seenDiagnostic = (do
    let s ← (positionJson d.startLine d.startCharacter).seenPosition
    let e ← (positionJson d.endLine d.endCharacter).seenPosition
    return ⟨s.1, s.2, e.1, e.2, d.message⟩) := rfl
  rw [this, hp, hp]
  rfl

theorem mapM_some {α β : Type} {f : α → Option β} {g : α → β} : ∀ l : List α, (∀ x ∈ l, f x = some (g x)) →
    l.mapM f = some (l.map g)
  | [], _ => rfl
  | x :: l, h => by
    rw [List.mapM_cons, h x (List.mem_cons_self ..), mapM_some l (fun y hy => h y (List.mem_cons_of_mem _ hy))]
    rfl

theorem seen_diagnostics (uri : Str) (ds : List Diagnostic) : (diagnosticsJson uri ds).seenDiagnostics =
    some (ds.map (fun d => ⟨d.startLine, d.startCharacter, d.endLine, d.endCharacter, d.message⟩)) := by
  have : (diagnosticsJson uri ds).seenDiagnostics = (ds.map Diagnostic.json).mapM Json.seenDiagnostic := rfl
  rw [this, mapM_some (f := Json.seenDiagnostic)
    (g := fun v => (v.seenDiagnostic).getD ⟨0, 0, 0, 0, []⟩), List.map_map]
  · congr 1
  · intro v hv
    obtain ⟨d, _, rfl⟩ := List.mem_map.mp hv
    simp [seen_json]

end Server

end Brack
