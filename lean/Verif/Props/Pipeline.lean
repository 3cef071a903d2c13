import Verif.Proof.PlainText
import Verif.Proof.PluginCases
import Verif.Props.Parser
import Verif.Props.Transform
import Verif.Props.Expander
import Verif.Props.Codegen
import Verif.Proof.Macros
import Verif.Props.Parts

/-
Properties of the whole pipeline: C27 and C28 (for whole documents), C36, C37.
-/

namespace Brack

variable {W : Wasm}

/-! ### C27 -/

/-- C27 refuted for whole documents, and how: as the macro calls are still there after expansion, no document with
a macro call ever compiles, whatever the plugins do. -/
theorem C27_compile_refuted (S : Segmenter) (ids : Nat → Str) (checks : Bool) (text : Str) (ts : List Token) (c : CST)
    (a : AST) (es : List TErr) (ps : Plugins W) (ht : tokenizeStr S text = .ok ts) (hp : parse ts = .ok c)
    (hx : transform ids c = .ok (a, es)) (hm : a.macros ≠ []) (gen : Str) :
    (compileText S ids checks text ps).1 ≠ .ok gen := by
  intro h
  rcases hr : compileText S ids checks text ps with ⟨o, ps'⟩
  rw [hr] at h
  simp only at h
  subst h
  obtain ⟨ts', c', a', es', k1, k2, k3, k4, _⟩ := compileText_ok hr
  rw [ht] at k1
  injection k1 with k1
  subst k1
  rw [hp] at k2
  injection k2 with k2
  subst k2
  rw [hx] at k3
  injection k3 with k3
  injection k3 with k3 _
  subst k3
  exact hm k4

/-- Concrete case: a macro call that succeeds, in an otherwise correct document. -/
example : ∃ ts c a es, tokenizeStr sampleSeg (chars! "x [p.f <p.m>]") = .ok ts ∧ parse ts = .ok c ∧
    transform someIds c = .ok (a, es) ∧ es = [] ∧ a.macros.length = 1 ∧
    (expander a (sampleSet noHooks)).1.isOk = true :=
  front_case _ _ (by decide) _ (by decide +kernel)

/-! ### C28 -/

/-- C28 for whole documents: compiling calls the macros of the document before anything else. Either all of them
are called, left to right, and none fails; or compilation does not succeed and ends with a failing macro call, at
a macro that does not exist, or because of an invalid node. -/
theorem C28_compiled (S : Segmenter) (ids : Nat → Str) (checks : Bool) (text : Str) (ts : List Token) (c : CST)
    (a : AST) (es : List TErr) (ps : Plugins W) (ht : tokenizeStr S text = .ok ts) (hp : parse ts = .ok c)
    (hx : transform ids c = .ok (a, es)) :
    ∃ calls, (compileText S ids checks text ps).2.log = ps.log ++ calls ∧
      ((∃ first others, calls = first ++ others ∧ first.map Call.request = a.macros.map (AST.macroRequest a) ∧
          ∀ c ∈ first, c.isFailed = false) ∨
        ((compileText S ids checks text ps).1.isOk = false ∧
          calls.map Call.request <+: a.macros.map (AST.macroRequest a) ∧
          ((∃ c, calls.getLast? = some c ∧ c.isFailed = true) ∨
            (∃ m, a.macros[calls.length]? = some m ∧ m.Unavailable ps) ∨
            ∃ x ∈ a.contents, x.kind = .invalid ∨ x.kind = .ignored))) := by
  have ha : ∀ i cs l, a ≠ .node (.bracket .angle) i cs l := by
    obtain ⟨cs, ds, l, m, h⟩ := transform_trans hp hx
    rintro i cs' l' rfl
    have := h.spec.shape
    simp [AST.shape, CST.sshape, IKind.toAst] at this
  obtain ⟨calls, h1, h2, h3, _, h5, h6⟩ := C28_macro_calls a ps ha
  rw [compileText_front ht hp hx, PM.bind_run]
  rcases hb : expander a ps with ⟨b | m | _, ps1⟩ <;> rw [hb] at h1 h3 h5 h6
  · obtain ⟨h7, h8⟩ := h3 rfl
    obtain ⟨more, h9, _⟩ := (generate_gens checks b ps1).run
    refine ⟨calls ++ more.map (·.2), ?_, .inl ⟨calls, _, rfl, h7, h8⟩⟩
    simp only
    rw [h9.log, h1, List.append_assoc]
  · refine ⟨calls, h1, .inr ⟨rfl, h2, ?_⟩⟩
    rcases h5 rfl with h | h
    · exact .inl h
    · exact .inr (.inl h)
  · exact ⟨calls, h1, .inr ⟨rfl, h2, .inr (.inr (h6 rfl))⟩⟩

/-- Both sides occur: in the first document the macro is called, in the second the second macro fails before the
command `p.f` is run. -/
example : (∃ ts c a es, tokenizeStr sampleSeg (chars! "x [p.f <p.m>]") = .ok ts ∧ parse ts = .ok c ∧
      transform someIds c = .ok (a, es) ∧ a.macros.length = 1 ∧
      ((do let b ← expander a; generate true b : PM _ Str) (sampleSet noHooks)).2.log.map Call.command = [['m']]) ∧
    ∃ ts c a es, tokenizeStr sampleSeg (chars! "[p.f]<p.m><p.bad><p.m>") = .ok ts ∧ parse ts = .ok c ∧
      transform someIds c = .ok (a, es) ∧ a.macros.length = 3 ∧
      ((do let b ← expander a; generate true b : PM _ Str) (sampleSet noHooks)).2.log.map Call.command =
        [['m'], chars! "bad"] :=
  ⟨front_case _ _ (by decide) _ (by decide +kernel), front_case _ _ (by decide) _ (by decide +kernel)⟩

/-! ### C36 -/

/-- C36 (partial): a text without special characters other than line feeds, without a leading line
feed and without CR LF pairs compiles to itself without its line feeds, whatever plugins without hooks
are loaded; no plugin is called. Missing: texts with CR LF line breaks, which are not removed
(`C36_crlf_refuted`). -/
theorem C36_plain_partial (S : Segmenter) (ids : Nat → Str) (checks : Bool) (ps : Plugins W) (h : NoHooks ps)
    (text : Str) (hspec : ∀ c ∈ specialChars, c ≠ '\n' → c ∉ text) (hstart : text.head? ≠ some '\n')
    (hcr : ∀ a b, text ≠ a ++ '\r' :: '\n' :: b) :
    compileText S ids checks text ps = (.ok (text.filter (· ≠ '\n')), ps) := by
  obtain ⟨ts, ht, _, hclose, hc, hw⟩ := compile_plain S ids checks ps h text hspec hstart
  rw [hc, hw (fun c => decide (c ≠ '\n')) (fun _ _ _ => by decide)]
  have hnl : ∀ t ∈ ts, t.kind ≠ .newLine → '\n' ∉ t.kind.spelling := by
    rw [tokenizeStr_eq] at ht
    injection ht with ht
    rw [← ht]
    apply run_no_pooled_nl
    · intro g hgm hn
      rcases S.lf text g hgm hn with h1 | h1
      · exact h1
      · exfalso
        obtain ⟨p, q, hpq⟩ := List.append_of_mem hgm
        apply hcr p.flatten q.flatten
        rw [← S.flatten text, hpq, h1]
        simp
    · apply noNlClose_of
      rw [S.flatten]
      rintro a b c hcm rfl
      exact hclose c hcm (by simp)
    · simp [M.init]
  rintro ⟨k, l⟩ htm v hv c hcv
  have := hnl _ htm
  rcases k <;> simp [Token.word?] at hv <;> subst hv <;> simp [TokKind.spelling] at this <;>
    (have hne : c ≠ '\n' := by rintro rfl; exact this hcv) <;> simp [hne]

/-- C36 refuted: a text with CR LF line breaks keeps all of them. -/
theorem C36_crlf_refuted (S : Segmenter) (ids : Nat → Str) (checks : Bool) (ps : Plugins W) (h : NoHooks ps)
    (text : Str) (hspec : ∀ c ∈ specialChars, c ≠ '\n' → c ∉ text)
    (hcrlf : ∀ a b, text = a ++ '\n' :: b → ∃ a', a = a' ++ ['\r']) :
    compileText S ids checks text ps = (.ok text, ps) := by
  have hstart : text.head? ≠ some '\n' := by
    rcases text with _ | ⟨c, text⟩
    · simp
    · simp only [List.head?_cons, ne_eq, Option.some.injEq]
      rintro rfl
      obtain ⟨a', ha⟩ := hcrlf [] text rfl
      simp at ha
  obtain ⟨ts, ht, _, _, hc, hw⟩ := compile_plain S ids checks ps h text hspec hstart
  rw [hc, hw (fun _ => true) (fun t htm hk => absurd hk (C08_crlf_no_newline S text hcrlf ts ht t htm))
    (fun _ _ _ _ _ _ => rfl)]
  simp

/-- Such a text. -/
example : (∀ c ∈ specialChars, c ≠ '\n' → c ∉ chars! "a\r\nb") ∧
    (∀ a b, chars! "a\r\nb" = a ++ '\n' :: b → ∃ a', a = a' ++ ['\r']) := by
  refine ⟨by decide, ?_⟩
  intro a b hab
  rcases a with _ | ⟨a1, _ | ⟨a2, _ | ⟨a3, _ | ⟨a4, as⟩⟩⟩⟩ <;> simp at hab
  exact ⟨['a'], by simp [← hab.1, ← hab.2.1]⟩

/-- A text of several lines with separators, and a plugin set with a plugin. -/
example : (∀ c ∈ specialChars, c ≠ '\n' → c ∉ chars! "Hello, world.\n\na b\n") ∧
    (chars! "Hello, world.\n\na b\n").head? ≠ some '\n' ∧
    NoHooks (sampleSet noHooks) ∧
    (chars! "Hello, world.\n\na b\n").filter (· ≠ '\n') = chars! "Hello, world.a b" :=
  ⟨by decide, by decide, ⟨rfl, rfl, rfl, rfl⟩, by decide⟩

/-! ### C37 -/

/-- C37 refuted: errors of every kind that transform reports, except invalid backslashes and angle brackets that are
not closed, can go unnoticed: the document has such an error and compiles. -/
theorem C37_reported_refuted (S : Segmenter) (checks : Bool) : ∀ k ∈ [TErrKind.notClosed .square, .notClosed .curly,
      .moduleNotFound, .dotNotFound, .identifierNotFound, .unexpectedDot, .unexpectedComma],
    ∃ text ts c a es, tokenizeStr S text = .ok ts ∧ parse ts = .ok c ∧ transform someIds c = .ok (a, es) ∧
      (∃ e ∈ es, e.kind = k) ∧
      ∃ r, (compileText S someIds checks text (sampleSet noHooks)).1 = .ok r ∧ r ≠ [] := by
  have key : ∀ text k r, (∀ c ∈ text, c.toNat < 128 ∧ c ≠ '\r') → r ≠ [] →
      ((caseFront someIds text).any fun (_, _, a, es) => decide ((∃ e ∈ es, e.kind = k) ∧
        (∀ ck ∈ [true, false], ((do let b ← expander a; generate ck b : PM _ Str) (sampleSet noHooks)).1 = .ok r))) = true →
      ∃ text ts c a es, tokenizeStr S text = .ok ts ∧ parse ts = .ok c ∧ transform someIds c = .ok (a, es) ∧
        (∃ e ∈ es, e.kind = k) ∧
        ∃ r, (compileText S someIds checks text (sampleSet noHooks)).1 = .ok r ∧ r ≠ [] := by
    intro text k r ht hr hc
    obtain ⟨ts, c, a, es, h1, h2, h3, h4, h5⟩ := front_case S text ht (fun _ _ a es => (∃ e ∈ es, e.kind = k) ∧
        (∀ ck ∈ [true, false], ((do let b ← expander a; generate ck b : PM _ Str) (sampleSet noHooks)).1 = .ok r)) hc
    refine ⟨text, ts, c, a, es, h1, h2, h3, h4, r, ?_, hr⟩
    rw [compileText_front h1 h2 h3]
    exact h5 checks (by cases checks <;> simp)
  intro k hk
  simp only [List.mem_cons, List.not_mem_nil, or_false] at hk
  rcases hk with rfl | rfl | rfl | rfl | rfl | rfl | rfl
  · exact key (chars! "[p.g x") _ (chars! "g(x,-,)") (by decide) (by decide) (by decide +kernel)
  · exact key (chars! "{p.h x") _ (chars! "h(x,[],)") (by decide) (by decide) (by decide +kernel)
  · exact key (chars! "[ p.f]") _ (chars! "f()") (by decide) (by decide) (by decide +kernel)
  · exact key (chars! "[ p.f]") _ (chars! "f()") (by decide) (by decide) (by decide +kernel)
  · exact key (chars! "[p. f]") _ (chars! "f()") (by decide) (by decide) (by decide +kernel)
  · exact key (chars! "[p.g x.y]") _ (chars! "g(xy,-,)") (by decide) (by decide) (by decide +kernel)
  · exact key (chars! "[p.g x,]") _ (chars! "g(x,-,)") (by decide) (by decide) (by decide +kernel)

/-- C37 (partial): documents in which a backslash escapes nothing or an angle bracket is not closed are not compiled.
Missing: all other kinds of errors (`C37_reported_refuted`). -/
theorem C37_reported_partial (S : Segmenter) (ids : Nat → Str) (checks : Bool) (text : Str) (ts : List Token)
    (c : CST) (a : AST) (es : List TErr) (ps : Plugins W) (ht : tokenizeStr S text = .ok ts)
    (hp : parse ts = .ok c) (hx : transform ids c = .ok (a, es))
    (he : ∃ e ∈ es, e.kind = .invalidBackslash ∨ e.kind = .notClosed .angle)
    (r : Str) : (compileText S ids checks text ps).1 ≠ .ok r := by
  obtain ⟨e, hem, hk | hk⟩ := he
  · rw [compileText_front ht hp hx, PM.bind_run]
    intro h
    rcases hb : expander a ps with ⟨b | m | _, ps1⟩ <;> rw [hb] at h
    · have hab := C27_unchanged a b ps (by rw [hb])
      subst hab
      have hbs := C21_backslash ts c ids b es hp hx
      have : e.loc ∈ es.filterMap TErr.invalidBackslash? :=
        List.mem_filterMap.mpr ⟨e, hem, by simp [TErr.invalidBackslash?, hk]⟩
      rw [hbs] at this
      obtain ⟨ev, hev, hst⟩ := List.mem_filterMap.mp this
      rcases ev with _ | _ | ⟨st, t⟩ | _ | _ | _ <;> simp [Event.stray?] at hst
      have hcont : (⟨.invalid, none, t.loc⟩ : Content) ∈ b.contents := by
        rw [C22_content ts c ids b es hp hx]
        exact List.mem_filterMap.mpr ⟨_, hev, rfl⟩
      obtain ⟨i, hn⟩ := contents_node hcont
      exact C35_macro_or_invalid checks b ps1 _ hn (.inr (.inl ⟨_, _, _, rfl⟩)) r h
    · cases h
    · cases h
  · have h1 : (Bracket.angle, e.loc.start) ∈ es.filterMap TErr.notClosed? :=
      List.mem_filterMap.mpr ⟨e, hem, by simp [TErr.notClosed?, hk]⟩
    rw [C19_unclosed_reported S text ts c ids a es ht hp hx] at h1
    obtain ⟨ev, hev, hu⟩ := List.mem_filterMap.mp h1
    unfold Event.unclosed? at hu
    split at hu
    · injection hu with hu
      injection hu with hu1 hu2
      subst hu1
      rcases unclosed_part .angle _ ts [] [] hev with h | h
      · simp at h
      · rw [← C97_parts ts c ids a es hp hx] at h
        exact C27_compile_refuted S ids checks text ts c a es ps ht hp hx (macros_of_parts _ a [] h) r
    · cases hu

/-- The kinds of errors are those of the two theorems: each kind always prevents compilation or can go unnoticed. -/
theorem C37_kinds_partial (ids : Nat → Str) (ts : List Token) (c : CST) (a : AST) (es : List TErr)
    (hp : parse ts = .ok c) (hx : transform ids c = .ok (a, es)) (e : TErr) (he : e ∈ es) :
    (e.kind = .invalidBackslash ∨ e.kind = .notClosed .angle) ∨
    e.kind ∈ [TErrKind.notClosed .square, .notClosed .curly, .moduleNotFound, .dotNotFound, .identifierNotFound,
      .unexpectedDot, .unexpectedComma] := by
  obtain ⟨_, _, _, _, hT⟩ := transform_trans hp hx
  rcases hT.rel.kinds e he with h | h | ⟨b, h⟩
  · rcases hk : e.kind <;> rw [hk] at h <;> simp [TErrKind.isContent] at h <;> simp
  · exact .inl (.inl h)
  · cases b <;> simp [h]

/-- Such documents. -/
example : ∃ ts c a es, tokenizeStr sampleSeg (chars! "[p.g \\x]") = .ok ts ∧ parse ts = .ok c ∧
    transform someIds c = .ok (a, es) ∧ ∃ e ∈ es, e.kind = .invalidBackslash :=
  front_case _ _ (by decide) _ (by decide +kernel)

example : ∃ ts c a es, tokenizeStr sampleSeg (chars! "[p.g <p.m x]") = .ok ts ∧ parse ts = .ok c ∧
    transform someIds c = .ok (a, es) ∧ ∃ e ∈ es, e.kind = .notClosed .angle :=
  front_case _ _ (by decide) _ (by decide +kernel)

end Brack
