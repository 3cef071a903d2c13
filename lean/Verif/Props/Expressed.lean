import Verif.Proof.Expressed
import Verif.Proof.Cases
import Verif.Proof.PluginCases
import Verif.Proof.Uax29

/-
Which texts can be written as a document.
-/

namespace Brack

variable {W : Wasm}

/-- C89 (partial): every text without NUL whose line feeds and carriage returns come in CR LF pairs
is the output of a document: the one with each cluster on a line of its own, with a backslash before
`\ < > { } [ ]`, after as many lines `]` as the text has opening brackets. This holds with any plugins
without hooks; no plugin is called. Missing: texts with single line feeds (see
`C89_line_feed_refuted`), NULs or single carriage returns. -/
theorem C89_any_partial (S : Segmenter) (ids : Nat → Str) (checks : Bool) (ps : Plugins W) (h : NoHooks ps)
    (text : Str) (hlf : OnlyCrLf text) (h0 : Char.ofNat 0 ∉ text) :
    compileText S ids checks (onePerLine S text) ps = (.ok text, ps) := by
  have hr := onePerLine_reads S hlf h0
  have ht := tokenizeStr_eq S (onePerLine S text)
  obtain ⟨c, hp⟩ := (C11_accepts_iff _).mpr hr.acc
  rw [compile_flat S ids checks h ht hp hr.flat, hr.content]

/-- A text with all kinds of brackets, spaces, dots and a line break. -/
example (W : Wasm) : compileText UTable.sampleSeg someIds true
    (onePerLine UTable.sampleSeg (chars! "if (a[i] < b.c) {\r\n  f[0], \\g; }")) (noPlugins W) =
      (.ok (chars! "if (a[i] < b.c) {\r\n  f[0], \\g; }"), noPlugins W) := by
  refine C89_any_partial _ _ _ _ ⟨rfl, rfl, rfl, rfl⟩ _ ?_ (by decide)
  repeat' first | exact .nil | refine .crlf ?_ | refine .cons (by decide) ?_

/-- What the document for `a[.` looks like. -/
example : onePerLine UTable.sampleSeg (chars! "a[.") = chars! "]\na\n\\[\n.\n" := by
  decide +kernel

/-- C89: without plugins and hooks no output has a NUL or a line feed that does not follow a carriage
return. -/
theorem C89_limits (S : Segmenter) (ids : Nat → Str) (checks : Bool) (ps ps' : Plugins W) (h : NoHooks ps)
    (hps : ps.nameToPlugin = []) (doc out : Str) (hc : compileText S ids checks doc ps = (.ok out, ps')) :
    (∀ a b, out = a ++ '\n' :: b → ∃ a', a = a' ++ ['\r']) ∧ Char.ofNat 0 ∉ out :=
  bare_tame S h hps hc

/-- C89 refuted: without plugins no document has two lines of output separated by a line feed. -/
theorem C89_line_feed_refuted (S : Segmenter) (ids : Nat → Str) (checks : Bool) (W : Wasm) :
    ¬ ∃ doc ps', compileText S ids checks doc (noPlugins W) = (.ok (chars! "a\nb"), ps') := by
  rintro ⟨doc, ps', hc⟩
  obtain ⟨a', h⟩ := (C89_limits S ids checks _ ps' ⟨rfl, rfl, rfl, rfl⟩ rfl doc _ hc).1 ['a'] ['b'] rfl
  have := congrArg List.getLast? h
  simp at this

/-- The hypotheses of `C89_limits` are met by a document with line breaks of both kinds. -/
example (W : Wasm) : ∃ ps', compileText UTable.sampleSeg someIds true (chars! "]\na\n\r\n\n\\[\n") (noPlugins W) =
    (.ok (chars! "a\r\n["), ps') := by
  have : chars! "]\na\n\r\n\n\\[\n" = onePerLine UTable.sampleSeg (chars! "a\r\n[") := by decide +kernel
  refine ⟨_, this ▸ C89_any_partial UTable.sampleSeg someIds true (noPlugins W) ⟨rfl, rfl, rfl, rfl⟩ _ ?_ (by decide)⟩
  repeat' first | exact .nil | refine .crlf ?_ | refine .cons (by decide) ?_

/-- C89: a backslash before each bracket is not enough: `\[a b` panics, the document for the same text
with one cluster per line does not. -/
theorem C89_backslash_refuted (S : Segmenter) (checks : Bool) (W : Wasm) :
    (compileText S someIds checks (chars! "\\[a b") (noPlugins W)).1 = .panic ∧
    (compileText S someIds checks (onePerLine S (chars! "[a b")) (noPlugins W)).1 = .ok (chars! "[a b") := by
  constructor
  · obtain ⟨ts, c, h1, h2, h3⟩ := panic_case S (chars! "\\[a b") (by decide) (by decide +kernel)
    unfold compileText
    simp only [PM.bind_run, PM.lift_run, h1, h2, h3]
  · rw [C89_any_partial S _ _ _ ⟨rfl, rfl, rfl, rfl⟩ _ _ (by decide)]
    repeat' first | exact .nil | refine .crlf ?_ | refine .cons (by decide) ?_

end Brack
