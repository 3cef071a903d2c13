import Verif.Proof.WrittenParse
import Verif.Proof.WrittenGen
import Verif.Proof.PluginCases
import Verif.Props.Transform
import Verif.Props.Codegen
import Verif.Spec.Paragraphs

/-
Properties of documents as they are written (C72): what is written is what is read and executed.
-/

namespace Brack

/-! ### C72 -/

/-- C72: a document made of paragraphs of lines of texts and commands is read without errors, however
deeply its commands are nested, and the tree read is the one it means: a statement for each paragraph, an
expression for each line, the texts and escaped characters as written, and for each command its module, its
name and its arguments in order. -/
theorem C72_reads (S : Segmenter) (ids : Nat → Str) (d : List (List (List Markup))) (text : Str)
    (h : WrittenAs d text) (ho : OwnClusters S text) :
    ∃ a, Reads S ids text a [] ∧ a.shape = documentShape d := by
  obtain ⟨ts, ht, hk⟩ := written_tokens h ho
  obtain ⟨c, hp, hshape, hwf, hloose⟩ := written_tree hk
  rcases transform_ok_or_panic (ids := ids) hp with ⟨a, es, hx⟩ | hx
  · have hes := (C59_clean_iff ts c ids a es hp hx).2 hwf
    subst hes
    exact ⟨a, ⟨ts, c, ht, hp, hx⟩, by rw [C23_arguments ts c ids a hp hx, hshape]⟩
  · rw [transform_panic_iff hp, hloose] at hx
    cases hx

/-- C72: if it has no macros, compiling it is generating its tree: nothing else in the text, and no
identifier or range, has any influence on the outcome. -/
theorem C72_compiles {W : Wasm} (S : Segmenter) (ids : Nat → Str) (checks : Bool) (ps : Plugins W)
    (d : List (List (List Markup))) (text : Str) (h : WrittenAs d text) (ho : OwnClusters S text)
    (hm : hasMacros d = false) :
    compileText S ids checks text ps = generate checks (documentShape d).tree ps := by
  obtain ⟨a, ha, hs⟩ := C72_reads S ids d text h ho
  exact compileText_calm ha hs (calm_document hm) ps

/-- C72: if it is compiled, exactly the calls due were made, children before parents and from left to
right, each command with the texts its arguments produced, and their results make up the output. -/
theorem C72_executes {W : Wasm} (S : Segmenter) (ids : Nat → Str) (checks : Bool) (ps ps' : Plugins W)
    (d : List (List (List Markup))) (text r : Str) (h : WrittenAs d text) (ho : OwnClusters S text)
    (hm : hasMacros d = false) (hr : compileText S ids checks text ps = (.ok r, ps')) :
    ∃ calls : List (Tag × Call), ps'.log = ps.log ++ calls.map (·.2) ∧
      calls.map (·.1) = (documentShape d).tree.postorder.filter ps.handles ∧
      Produces ps (documentShape d).tree calls r := by
  rw [C72_compiles S ids checks ps d text h ho hm] at hr
  obtain ⟨calls, h1, h2, h3⟩ := C34_hooks checks (documentShape d).tree ps r (by rw [hr])
  rw [hr] at h1
  exact ⟨calls, h1, h2, h3⟩

/-- C72: it is compiled, unless a plugin returns an error, if all its commands exist and are given
admissible numbers of arguments. -/
theorem C72_succeeds {W : Wasm} (S : Segmenter) (ids : Nat → Str) (checks : Bool) (ps : Plugins W)
    (d : List (List (List Markup))) (text : Str) (h : WrittenAs d text) (ho : OwnClusters S text)
    (hc : ∀ p ∈ d, ∀ line ∈ p, ∀ b m n args, CallIn b m n args line →
      ∃ typ ts, b.commandType = some typ ∧ ps.signature m n typ = some ts ∧ Admissible ts (argCount args))
    (hh : ps.HooksExist) (hs : ps.AllStandard) (hl : text.length ≤ usizeMax) :
    ∃ calls, (compileText S ids checks text ps).2.log = ps.log ++ calls ∧
      ((compileText S ids checks text ps).1.isOk = true ∨
        (compileText S ids checks text ps).1.isErr = true ∧ ∃ c, calls.getLast? = some c ∧ c.isFailed = true) := by
  have hm : hasMacros d = false := by
    simp only [hasMacros, List.any_eq_false, List.any_eq_true, not_exists, not_and, Bool.not_eq_true]
    intro p hp line hl
    refine noMacro_list line fun m n args hi => ?_
    obtain ⟨typ, ts, h1, _⟩ := hc p hp line hl _ m n args hi
    simp [Bracket.commandType] at h1
  rw [C72_compiles S ids checks ps d text h ho hm]
  exact C35_only checks (documentShape d).tree ps [] _ _ rfl (fun n hn => (fine_document hc n hn).1)
    (fun n hn => (fine_document hc n hn).2) hh hs (written_fits h hl)

/-- C14 (partial), for texts: in a document as authors write them, with escaped backslashes anywhere and escaped dots and
commas inside of brackets, at any depth, the document is read without errors and as if the escaped characters were plain
text. Missing: escaped brackets and escaped dots and commas outside of brackets, for which it is false
(`C14_escape_refuted`, `C14_rest_refuted`). -/
theorem C14_written_partial (S : Segmenter) (ids : Nat → Str) (d : List (List (List Markup))) (text : Str)
    (h : WrittenAs d text) (ho : OwnClusters S text) :
    ∃ a, Reads S ids text a [] ∧ a.shape = documentShape (d.map fun p => p.map Markup.unescapeL) := by
  rw [unescape_document]
  exact C72_reads S ids d text h ho

/-- C72: with the rules of Unicode for user-perceived characters, whatever the version of the tables, these
are all texts in which no character with a meaning is combined with another one. -/
theorem C72_uncombined (T : UTable) (text : Str) (h : Uncombined T text) : OwnClusters T.segmenter text :=
  own_uncombined h

/-- A document of two paragraphs with nested commands, several arguments, blanks and escaped characters. -/
def writtenSample : List (List (List Markup)) :=
  [[[.words (chars! "Hello, "), .call .square ['p'] ['g'] [[.words ['y'], .blank ' ', .escaped ',']], .escaped '\\']],
   [[.call .curly ['p'] ['h'] [[.words ['a']], [.blank ' ', .call .square ['p'] ['f'] [[.blank ' ']], .blank '\n']]], [.words ['w']]]]

/-- It is written like this. -/
example : WrittenAs writtenSample (chars! "Hello, [p.g y \\,]\\\\\n\n{p.h a, [p.f  ]\n}\nw\n") := by
  have h1 : WrittenAs _ (writeLines writtenSample[1] ++ List.replicate 1 '\n') := .last _ 1 (by decide)
  exact .more writtenSample[0] 2 _ _ (by decide) (by decide) (by simp) h1

/-- It has no macros, its characters are not combined, and this is the result. -/
example : hasMacros writtenSample = false ∧
    (∀ S : Segmenter, OwnClusters S (chars! "Hello, [p.g y \\,]\\\\\n\n{p.h a, [p.f  ]\n}\nw\n")) ∧
    (generate true (documentShape writtenSample).tree (sampleSet noHooks)).1 = .ok (chars! "Hello, g(y,,-,)\\h(a,[f();],)w") := by
  refine ⟨by decide, fun S => own_ascii S (by decide), by decide +kernel⟩

/-- A document with nested commands that exist. -/
def nestedSample : List (List (List Markup)) :=
  [[[.words ['x'], .call .square ['p'] ['c'] [[.call .square ['p'] ['c'] [[.words ['y']]]], [.words ['z']]]]]]

/-- All hypotheses of the last theorem are met. -/
example : WrittenAs nestedSample (chars! "x[p.c [p.c y],z]") ∧
    (∀ p ∈ nestedSample, ∀ line ∈ p, ∀ b m n args, CallIn b m n args line → ∃ typ ts, b.commandType = some typ ∧
      (oneCommand [.inline, .option .inline]).signature m n typ = some ts ∧ Admissible ts (argCount args)) ∧
    (oneCommand [.inline, .option .inline]).HooksExist ∧ (oneCommand [.inline, .option .inline]).AllStandard := by
  refine ⟨.last nestedSample[0] 0 (by decide), ?_, ?_, ?_⟩
  · have h1 : ∀ b m n args, ¬ CallIn b m n args [.words ['y']] ∧ ¬ CallIn b m n args [.words ['z']] := by
      intro b m n args
      constructor <;> intro h <;> cases h with
      | here h => simp at h
      | deeper h => simp at h
    have h2 : ∀ b m n args, CallIn b m n args [.call .square ['p'] ['c'] [[.words ['y']]]] →
        b = .square ∧ m = ['p'] ∧ n = ['c'] ∧ argCount args = 1 := by
      intro b m n args h
      cases h with
      | here h =>
        simp only [List.mem_singleton, Markup.call.injEq] at h
        obtain ⟨rfl, rfl, rfl, rfl⟩ := h
        simp [argCount, onlyBlanks, Markup.isBlank]
      | deeper h ha hc =>
        simp only [List.mem_singleton, Markup.call.injEq] at h
        obtain ⟨rfl, rfl, rfl, rfl⟩ := h
        rw [List.mem_singleton] at ha
        subst ha
        exact absurd hc (h1 b m n args).1
    have h3 : ∀ b m n args, CallIn b m n args nestedSample[0][0] →
        b = .square ∧ m = ['p'] ∧ n = ['c'] ∧ (argCount args = 1 ∨ argCount args = 2) := by
      intro b m n args h
      cases h with
      | here h =>
        simp only [nestedSample, List.getElem_cons_zero, List.mem_cons, reduceCtorEq, List.not_mem_nil, or_false, false_or,
          Markup.call.injEq] at h
        obtain ⟨rfl, rfl, rfl, rfl⟩ := h
        simp [argCount, onlyBlanks, Markup.isBlank]
      | deeper h ha hc =>
        simp only [nestedSample, List.getElem_cons_zero, List.mem_cons, reduceCtorEq, List.not_mem_nil, or_false, false_or,
          Markup.call.injEq] at h
        obtain ⟨rfl, rfl, rfl, rfl⟩ := h
        simp only [List.mem_cons, List.not_mem_nil, or_false] at ha
        rcases ha with rfl | rfl
        · obtain ⟨k1, k2, k3, k4⟩ := h2 b m n args hc
          exact ⟨k1, k2, k3, .inl k4⟩
        · exact absurd hc (h1 b m n args).2
    intro p hp line hl b m n args hc
    rw [show nestedSample = [nestedSample[0]] from rfl, List.mem_singleton] at hp
    subst hp
    rw [show nestedSample[0] = [nestedSample[0][0]] from rfl, List.mem_singleton] at hl
    subst hl
    obtain ⟨rfl, rfl, rfl, hk⟩ := h3 b m n args hc
    refine ⟨.inline, [.inline, .option .inline], rfl, rfl, ?_⟩
    rcases hk with h | h <;> rw [h] <;> exact ⟨by decide, .inr (by decide)⟩
  · refine ⟨?_, ?_, ?_, ?_⟩ <;> intro p hp <;> cases hp
  · intro m c typ ts h
    have hts : ts = [.inline, .option .inline] := by
      simp only [Plugins.signature, oneCommand, HMap.get] at h
      split at h
      · cases h
      · next hp =>
        split at hp
        · injection hp with hp
          subst hp
          simp only [HMap.get] at h
          split at h
          · simp at h; rw [← h]
          · cases h
        · cases hp
    subst hts
    exact ⟨⟨[.inline], [.option .inline], rfl, by simp [PType.isRequired], .inl (by simp)⟩, by decide⟩

end Brack
