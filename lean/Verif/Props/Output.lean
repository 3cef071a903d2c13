import Verif.Proof.Output
import Verif.Proof.PluginCases
import Verif.Props.Written

/-
The output of a document is the sum of its parts (C122).
-/

namespace Brack

variable {W : Wasm}

/-! ### C122 -/

/-- C122: the output of a document as authors write them, for plugins without memory: exactly what is read off the document
by `documentOutput`. It does not compile if and only if `documentOutput` has no result. (Parameters are declared in the
usual order, C32, and the text fits into memory.) -/
theorem C122_output (hW : W.Steady) (S : Segmenter) (ids : Nat → Str) (checks : Bool) (ps : Plugins W)
    (d : List (List (List Markup))) (text : Str) (h : WrittenAs d text) (ho : OwnClusters S text) (hs : ps.AllStandard)
    (hl : text.length ≤ usizeMax) (r : Str) :
    (compileText S ids checks text ps).1 = .ok r ↔ documentOutput ps d = some r := by
  obtain ⟨a, ha, hshape⟩ := C72_reads S ids d text h ho
  rw [← (document_gives hW hs checks d (written_fits h hl) ps (.refl ps)).1 r,
    ← generate_shape checks (a := a) (b := (documentShape d).tree) (by rw [tree_shape, hshape])]
  constructor
  · intro hr
    obtain ⟨b, es, h1, h2⟩ := compileText_iff.mp (show compileText S ids checks text ps =
      (.ok r, (compileText S ids checks text ps).2) by rw [← hr])
    obtain ⟨rfl, rfl⟩ := reads_det h1 ha
    rw [h2]
  · intro hr
    have := compileText_iff.mpr ⟨a, [], ha, show generate checks a ps = (.ok r, (generate checks a ps).2) by rw [← hr]⟩
    rw [this]

/-- C122: the calls before do not matter: in any later state of the plugins, after any documents, the output is the same. -/
theorem C122_again (hW : W.Steady) (S : Segmenter) (ids ids' : Nat → Str) (checks : Bool) (ps : Plugins W)
    (d e : List (List (List Markup))) (text other : Str) (h : WrittenAs d text) (ho : OwnClusters S text)
    (h' : WrittenAs e other) (ho' : OwnClusters S other) (hm : hasMacros e = false) (hs : ps.AllStandard)
    (hl : text.length ≤ usizeMax) (hl' : other.length ≤ usizeMax) (r : Str) :
    (compileText S ids checks text (compileText S ids' checks other ps).2).1 = .ok r ↔
      (compileText S ids checks text ps).1 = .ok r := by
  obtain ⟨a, ha, hshape⟩ := C72_reads S ids d text h ho
  have key : ∀ qs, ps.SameAnswers qs → ((compileText S ids checks text qs).1 = .ok r ↔ documentOutput ps d = some r) := by
    intro qs hq
    rw [← (document_gives hW hs checks d (written_fits h hl) qs hq).1 r,
      ← generate_shape checks (a := a) (b := (documentShape d).tree) (by rw [tree_shape, hshape])]
    constructor
    · intro hr
      obtain ⟨b, es, h1, h2⟩ := compileText_iff.mp (show compileText S ids checks text qs =
        (.ok r, (compileText S ids checks text qs).2) by rw [← hr])
      obtain ⟨rfl, rfl⟩ := reads_det h1 ha
      rw [h2]
    · intro hr
      have := compileText_iff.mpr ⟨a, [], ha, show generate checks a qs = (.ok r, (generate checks a qs).2) by rw [← hr]⟩
      rw [this]
  rw [key ps (.refl ps)]
  refine key _ ?_
  rw [C72_compiles S ids' checks ps e other h' ho' hm]
  exact (document_gives hW hs checks e (written_fits h' hl') ps (.refl ps)).2

/-- C122: parts with the same output can be exchanged anywhere in a document. -/
theorem C122_exchange (hW : W.Steady) (S : Segmenter) (ids ids' : Nat → Str) (checks : Bool) (ps : Plugins W)
    (d d' : List (List (List Markup))) (text text' : Str) (h : WrittenAs d text) (ho : OwnClusters S text)
    (h' : WrittenAs d' text') (ho' : OwnClusters S text') (hs : ps.AllStandard) (hl : text.length ≤ usizeMax)
    (hl' : text'.length ≤ usizeMax) (x y : List Markup) (hd : PutInto x y d d')
    (hx : x.all Markup.isBlank = y.all Markup.isBlank) (hxy : Markup.outputL ps x = Markup.outputL ps y) (r : Str) :
    (compileText S ids checks text ps).1 = .ok r ↔ (compileText S ids' checks text' ps).1 = .ok r := by
  rw [C122_output hW S ids checks ps d text h ho hs hl r, C122_output hW S ids' checks ps d' text' h' ho' hs hl' r,
    hd.output hx hxy]

/-- C122: a command can be replaced by what it returns, also next to other words, if no plugin has the text hook. -/
theorem C122_result (hW : W.Steady) (S : Segmenter) (ids ids' : Nat → Str) (checks : Bool) (ps : Plugins W)
    (d d' : List (List (List Markup))) (text text' : Str) (h : WrittenAs d text) (ho : OwnClusters S text)
    (h' : WrittenAs d' text') (ho' : OwnClusters S text') (hs : ps.AllStandard) (hl : text.length ≤ usizeMax)
    (hl' : text'.length ≤ usizeMax) (hh : ps.textHook = none) (b : Bracket) (m n : Str) (args : List (List Markup)) (w : Str)
    (hw : (Markup.call b m n args).output ps = some w) (before after : Option Str)
    (hd : PutInto ((before.map Markup.words).toList ++ [.call b m n args] ++ (after.map Markup.words).toList)
      [.words (before.getD [] ++ w ++ after.getD [])] d d') (r : Str) :
    (compileText S ids checks text ps).1 = .ok r ↔ (compileText S ids' checks text' ps).1 = .ok r := by
  refine C122_exchange hW S ids ids' checks ps d d' text text' h ho h' ho' hs hl hl' _ _ hd ?_ ?_ r
  · cases before <;> simp [Markup.isBlank]
  · have ht : ∀ s : Str, (Markup.words s).output ps = some s := fun s => by
      rw [Markup.output, hh]
      rfl
    rw [outputL_append, outputL_append]
    cases before <;> cases after <;> simp [Markup.outputL, ht, hw]

/-- The sample plugins have no memory that matters. -/
theorem sampleWasm_steady : sampleWasm.Steady := by
  intro s f vs g ws
  simp only [sampleWasm]
  by_cases h : g = chars! "bad"
  · simp [h]
  · simp [h]

/-- The parameters of `oneCommand` are the given ones. -/
theorem oneCommand_standard {ts : List PType} (h : Standard ts) (hl : ts.length ≤ usizeMax) : (oneCommand ts).AllStandard := by
  intro m c typ us hu
  simp only [oneCommand, Plugins.signature, HMap.get] at hu
  by_cases h1 : ['p'] = m
  · rw [if_pos h1] at hu
    by_cases h2 : (['c'], PType.inline) = (c, typ)
    · simp only [HMap.get, if_pos h2, Option.map_some, Option.some.injEq, List.map_map] at hu
      have : us = ts := by rw [← hu]; exact List.map_id _
      rw [this]
      exact ⟨h, hl⟩
    · simp only [HMap.get, if_neg h2, Option.map_none] at hu
      cases hu
  · rw [if_neg h1] at hu
    cases hu

/-- Concrete case: commands within arguments; the output read off the document. -/
example : documentOutput (oneCommand [.inline, .option .inline]) nestedSample = some (chars! "xc(c(y,-,),+z,)") ∧
    WrittenAs nestedSample (chars! "x[p.c [p.c y],z]") ∧
    (∀ S : Segmenter, OwnClusters S (chars! "x[p.c [p.c y],z]")) ∧ (oneCommand [.inline, .option .inline]).AllStandard :=
  ⟨by decide +kernel, .last nestedSample[0] 0 (by decide), fun S => own_ascii S (by decide),
    oneCommand_standard ⟨[.inline], [.option .inline], rfl, by simp [PType.isRequired], .inl (by simp)⟩
      (by rw [usizeMax]; simp)⟩

/-- Concrete case: a command between words, in the second of two paragraphs, is replaced by what it returns. -/
example :
    let ps := oneCommand [.inline, .option .inline]
    let args := [[Markup.words ['y']]]
    let d := [[[Markup.words ['u']]], [[Markup.words ['a'], .call .square ['p'] ['c'] args, .words ['b']], [.words ['v']]]]
    let d' := [[[Markup.words ['u']]], [[Markup.words (chars! "ac(y,-,)b")], [.words ['v']]]]
    ps.textHook = none ∧ (Markup.call .square ['p'] ['c'] args).output ps = some (chars! "c(y,-,)") ∧
      PutInto (((some ['a']).map Markup.words).toList ++ [.call .square ['p'] ['c'] args] ++ ((some ['b']).map Markup.words).toList)
        [.words ((some ['a']).getD [] ++ chars! "c(y,-,)" ++ (some ['b']).getD [])] d d' ∧
      WrittenAs d (chars! "u\n\na[p.c y]b\nv") ∧ WrittenAs d' (chars! "u\n\nac(y,-,)b\nv") := by
  refine ⟨rfl, by decide +kernel, ?_, ?_, ?_⟩
  · exact ⟨[[[.words ['u']]]], [], _, _, [[.words ['v']]], [], .here [] [], rfl, rfl⟩
  · exact .more [[.words ['u']]] 2 _ _ (by decide) (by decide) (by simp) (.last _ 0 (by decide))
  · exact .more [[.words ['u']]] 2 _ _ (by decide) (by decide) (by simp) (.last _ 0 (by decide))

/-- With a text hook the results of commands are not given to the hook, so that they cannot be replaced by words. -/
example :
    (compileText UTable.sampleSeg someIds true (chars! "a[p.f]b") (sampleSet ⟨false, false, false, true⟩)).1 =
      .ok (chars! "text(a,)f()text(b,)") ∧
    (compileText UTable.sampleSeg someIds true (chars! "af()b") (sampleSet ⟨false, false, false, true⟩)).1 =
      .ok (chars! "text(af()b,)") := by decide +kernel

end Brack
