import Verif.Proof.BadInput

/-
Properties of input that is not as the base protocol demands: C106.
-/

namespace Brack

/-! ### C106 -/

/-- C106 (partial): whatever bytes arrive in whatever pieces (fewer than 2^63 in all), the server crashes only if there are
bytes among them as described by `Upsetting`, or a message that is described by `Crashing`. Missing: those. -/
theorem C106_crash_partial (X : ServerEnv) (hpath : ∀ uri path, X.P.toFilePath uri = some path → AbsolutePath path)
    (hh : ∀ s, '/' ∉ X.E.hash s) (reads : List Bytes) (s : Server) (w : World) (hflat : w.FlatConfigs X.E.toml)
    (hsize : reads.flatten.length < 2 ^ 63) (h : (Server.run X reads [] s w).1 = .panic) :
    (∃ part, part <:+: reads.flatten ∧ Upsetting part) ∨
      ∃ text v, utf8 text <:+: reads.flatten ∧ X.P.parse text = some v ∧ Crashing X w v :=
  run_panic hpath hh reads [] s w hflat hsize h

/-- C106: the bytes that were read and not yet used up (`b`) begin, together with those of the next read, with a message:
it is handled, and what follows it is kept. -/
theorem C106_message (X : ServerEnv) (b c rest : Bytes) (msg : Json) (reads : List Bytes) (s : Server) (hc : c ≠ [])
    (hsize : (b ++ c).length < 2 ^ 63) (h : Begins X.P (b ++ c) msg rest) :
    Server.run X (c :: reads) b s = (do let s ← Server.dispatch X s msg; Server.run X reads rest s) :=
  Server.run_cons_some hc (Server.begins_ok hsize h)

/-- C106: if the bytes are not a text, announce a length that is no number or contain a content that is no JSON, the server
stops with an error and without having done anything. -/
theorem C106_refused (X : ServerEnv) (b c : Bytes) (reads : List Bytes) (s : Server) (w : World) (hc : c ≠ [])
    (hsize : (b ++ c).length < 2 ^ 63) (h : Refused X.P (b ++ c)) : ∃ e, Server.run X (c :: reads) b s w = (.err e, w) := by
  obtain ⟨e, he⟩ := Server.refused_err (checks := X.E.checks) hsize h
  exact ⟨e, Server.run_cons_err hc he w⟩

/-- C106: in all other cases the server waits for more bytes. -/
theorem C106_waits (X : ServerEnv) (b c : Bytes) (reads : List Bytes) (s : Server) (hc : c ≠ [])
    (hsize : (b ++ c).length < 2 ^ 63) (hu : ¬ Upsetting (b ++ c)) (hr : ¬ Refused X.P (b ++ c))
    (hm : ∀ msg rest, ¬ Begins X.P (b ++ c) msg rest) : Server.run X (c :: reads) b s = Server.run X reads (b ++ c) s := by
  rcases Server.nextMessage_cases (checks := X.E.checks) (P := X.P) hsize with h | h | ⟨msg, rest, h⟩ | h
  · exact absurd h hu
  · exact absurd h hr
  · exact absurd h (hm msg rest)
  · exact Server.run_cons_none hc h

/-- C106, refuted in these cases: on the bytes described by `Upsetting` the server does crash, whatever follows. -/
theorem C106_crash_refuted (X : ServerEnv) (b c : Bytes) (reads : List Bytes) (s : Server) (w : World) (hc : c ≠ [])
    (hsize : (b ++ c).length < 2 ^ 63) (h : Upsetting (b ++ c)) : Server.run X (c :: reads) b s w = (.panic, w) :=
  run_cons_panic hc (Server.upsetting_panic hsize h) w

/-- C106, refuted in these cases: after the bytes described by `Deafening` the server does nothing any more, whatever
follows. -/
theorem C106_deaf_refuted (X : ServerEnv) (b c : Bytes) (reads : List Bytes) (s : Server) (w : World) (hc : c ≠ [])
    (hsize : (b ++ c ++ reads.flatten).length < 2 ^ 63) (h : Deafening (b ++ c)) :
    (Server.run X (c :: reads) b s w).2 = w ∧
      ((Server.run X (c :: reads) b s w).1 = .ok s ∨ ∃ e, (Server.run X (c :: reads) b s w).1 = .err e) := by
  have hsize' : (b ++ c).length < 2 ^ 63 := by
    rw [List.length_append] at hsize
    omega
  rw [Server.run_cons_none hc (Server.deafening_none hsize' h)]
  exact run_deaf reads (b ++ c) s w h hsize

private theorem lengthField (value : Str) (h : ¬ chars! ": " <:+: value) :
    FieldOf (chars! "Content-Length: " ++ value) (chars! "Content-Length") value :=
  ⟨[], by simp, by decide, h, .inl rfl⟩

private theorem minusFive : IsI32 (chars! "-5") (-5) := isI32_iff.mpr (by decide)

/-- A line without a colon, the length -5, and the length 1 before a character of two bytes. -/
example : Upsetting (utf8 (chars! "Hello\r\n\r\n")) ∧ Upsetting (utf8 (chars! "Content-Length: -5\r\n\r\n")) ∧
    Upsetting (utf8 (chars! "Content-Length: 1\r\n\r\né")) := by
  refine ⟨?_, ?_, ?_⟩
  · exact .line (header := chars! "Hello") (rest := []) (before := []) (line := chars! "Hello") (after := []) rfl
      ⟨by decide, by decide⟩ ⟨by decide, by decide, by decide⟩ (by simp) (by decide)
  · refine .negative (header := chars! "Content-Length: -5") (rest := []) (lines := [chars! "Content-Length: -5"]) (n := -5) rfl
      ⟨by decide, by decide⟩ ⟨by decide, by decide, by decide⟩ ?_ ?_ (by decide) (by decide)
    · intro l hl
      rw [List.mem_singleton.mp hl]
      exact ⟨_, _, lengthField (chars! "-5") (by decide), fun _ => ⟨-5, minusFive⟩⟩
    · exact ⟨[], _, [], _, rfl, lengthField (chars! "-5") (by decide), minusFive, by simp⟩
  · have h1 : IsI32 (chars! "1") 1 := isI32_iff.mpr (by decide)
    refine .inside (header := chars! "Content-Length: 1") (rest := chars! "é") (lines := [chars! "Content-Length: 1"]) (n := 1) rfl
      ⟨by decide, by decide⟩ ⟨by decide, by decide, by decide⟩ ?_ ?_ (by decide) ?_
    · intro l hl
      rw [List.mem_singleton.mp hl]
      exact ⟨_, _, lengthField (chars! "1") (by decide), fun _ => ⟨1, h1⟩⟩
    · exact ⟨[], _, [], _, rfl, lengthField (chars! "1") (by decide), h1, by simp⟩
    · intro a b h
      cases a with
      | nil => decide
      | cons x a =>
        injection h with h1 h2
        obtain ⟨rfl, rfl⟩ := List.append_eq_nil_iff.mp h2.symm
        subst h1
        decide

/-- The length -1, and no length at all. -/
example : Deafening (utf8 (chars! "Content-Length: -1\r\n\r\n")) ∧ Deafening (utf8 (chars! "A: b\r\n\r\n{}")) := by
  have h1 : IsI32 (chars! "-1") (-1) := isI32_iff.mpr (by decide)
  refine ⟨⟨_, chars! "Content-Length: -1", [], [chars! "Content-Length: -1"], rfl, ⟨by decide, by decide⟩,
    ⟨by decide, by decide, by decide⟩, ?_, .inr (.inl ?_)⟩, ⟨_, chars! "A: b", chars! "{}", [chars! "A: b"], rfl, ⟨by decide, by decide⟩,
    ⟨by decide, by decide, by decide⟩, ?_, .inl ?_⟩⟩
  · intro l hl
    rw [List.mem_singleton.mp hl]
    exact ⟨_, _, lengthField (chars! "-1") (by decide), fun _ => ⟨-1, h1⟩⟩
  · exact ⟨[], _, [], _, rfl, lengthField (chars! "-1") (by decide), h1, by simp⟩
  · intro l hl
    rw [List.mem_singleton.mp hl]
    exact ⟨chars! "A", chars! "b", ⟨[], by decide, by decide, by decide, .inl rfl⟩, fun h => absurd h (by decide)⟩
  · rintro n ⟨b, l, a, v, h, hf, _⟩
    have hl : l ∈ [chars! "A: b"] := by rw [h]; simp
    rw [List.mem_singleton.mp hl] at hf
    obtain ⟨m, hm, _⟩ := hf
    have := congrArg List.head? hm
    simp at this

/-- A length that is no number. -/
example (P : Protocol) : Refused P (utf8 (chars! "Content-Length: five\r\n\r\n")) :=
  .length (header := chars! "Content-Length: five") (rest := []) (before := []) (after := []) rfl ⟨by decide, by decide⟩
    ⟨by decide, by decide, by decide⟩ (by simp) (lengthField (chars! "five") (by decide)) (fun n hn => by
      have := isI32_iff.mp hn
      revert this
      have h : parseI32 (chars! "five") = none := by decide
      rw [h]
      intro h
      cases h)

/-- The full statement of C106 says that no input makes the server crash or deaf. It is refuted: a line without a colon
crashes it, and after a header without a length it answers no request any more. -/
theorem C106_refuted (X : ServerEnv) (s : Server) (w : World) :
    (∀ more, Server.run X (utf8 (chars! "Hello\r\n\r\n") :: more) [] s w = (.panic, w)) ∧
      ∀ more : List Bytes, more.flatten.length < 2 ^ 62 → (Server.run X (utf8 (chars! "A: b\r\n\r\n{}") :: more) [] s w).2 = w := by
  constructor
  · intro more
    refine C106_crash_refuted X [] _ more s w (by decide) (by decide) ?_
    exact .line (header := chars! "Hello") (rest := []) (before := []) (line := chars! "Hello") (after := []) rfl
      ⟨by decide, by decide⟩ ⟨by decide, by decide, by decide⟩ (by simp) (by decide)
  · intro more hm
    refine (C106_deaf_refuted X [] _ more s w (by decide) ?_ ?_).1
    · rw [List.nil_append, List.length_append]
      have : (utf8 (chars! "A: b\r\n\r\n{}")).length = 10 := by decide
      omega
    · refine ⟨_, chars! "A: b", chars! "{}", [chars! "A: b"], rfl, ⟨by decide, by decide⟩, ⟨by decide, by decide, by decide⟩, ?_, .inl ?_⟩
      · intro l hl
        rw [List.mem_singleton.mp hl]
        exact ⟨chars! "A", chars! "b", ⟨[], by decide, by decide, by decide, .inl rfl⟩, fun h => absurd h (by decide)⟩
      · rintro n ⟨b, l, a, v, h, hf, _⟩
        have hl : l ∈ [chars! "A: b"] := by rw [h]; simp
        rw [List.mem_singleton.mp hl] at hf
        obtain ⟨m, hm, _⟩ := hf
        have := congrArg List.head? hm
        simp at this

/-- A message, followed by a part of the next one. -/
example : Begins sampleProtocol (utf8 (chars! "Content-Length: 4\r\n\r\nnullCont")) .null (utf8 (chars! "Cont")) := by
  have h4 : IsI32 (chars! "4") 4 := isI32_iff.mpr (by decide)
  refine ⟨chars! "Content-Length: 4", chars! "null", chars! "Cont", [chars! "Content-Length: 4"], rfl, ⟨by decide, by decide⟩,
    ⟨by decide, by decide, by decide⟩, ?_, ?_, by rfl, rfl⟩
  · intro l hl
    rw [List.mem_singleton.mp hl]
    exact ⟨_, _, lengthField (chars! "4") (by decide), fun _ => ⟨4, h4⟩⟩
  · exact ⟨[], _, [], _, rfl, lengthField (chars! "4") (by decide), h4, by simp⟩

/-- A session that crashes, and the bytes that are to blame. -/
example : ∃ part, part <:+: utf8 (chars! "Hello\r\n\r\n") ∧ Upsetting part := by
  let X : ServerEnv := { sampleServerEnv sampleWasm with P := { sampleProtocol with toFilePath := fun _ => none } }
  rcases C106_crash_partial X (fun _ _ h => by cases h) (fun _ => by show _ ∉ chars! "00"; decide)
    [utf8 (chars! "Hello\r\n\r\n")] {} { sampleWorld (fun _ => .none) with files := [] }
    (fun p b t v c _ hb => by cases hb) (by decide)
    (by rw [(C106_refuted X {} _).1 []]) with h | ⟨_, _, _, _, hc⟩
  · simpa using h
  · exfalso
    rcases hc with ⟨_, uri, path, text, _, hf, _⟩ | ⟨id, method, _, ho⟩
    · cases hf
    · obtain ⟨_, uri, _, path, b, text, hf, _⟩ := ho
      cases hf

end Brack
