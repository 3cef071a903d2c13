import Verif.Proof.Rename
import Verif.Props.Written

/-
Properties of plugins under other names (C99): the name under which a plugin is used has no influence.
-/

namespace Brack

/-! ### C99 -/

/-- C99: give the plugins other names and use these in the document: it is compiled to the same output, with the
same calls, and leaves the plugins in the same states. -/
theorem C99_compiles {W : Wasm} (S : Segmenter) (ids ids' : Nat → Str) (checks : Bool) (f : Str → Str) (ps : Plugins W)
    (d : List (List (List Markup))) (text text' : Str) (hf : OneName f) (h : WrittenAs d text) (ho : OwnClusters S text)
    (h' : WrittenAs (renameDocument f d) text') (ho' : OwnClusters S text') :
    (∀ gen ps', compileText S ids checks text ps = (.ok gen, ps') →
      compileText S ids' checks text' (ps.rename f) = (.ok gen, ps'.rename f)) ∧
    (∀ gen, (compileText S ids' checks text' (ps.rename f)).1 = .ok gen → (compileText S ids checks text ps).1 = .ok gen) := by
  obtain ⟨a, ha, hs⟩ := C72_reads S ids d text h ho
  obtain ⟨b, hb, hs'⟩ := C72_reads S ids' (renameDocument f d) text' h' ho'
  rw [documentShape_rename, ← hs] at hs'
  exact compileText_rename hf checks ha hb hs' ps

/-- C99: the same for all texts, written in whatever way, that are read alike up to the names. -/
theorem C99_reads {W : Wasm} (S : Segmenter) (ids ids' : Nat → Str) (checks : Bool) (f : Str → Str) (ps : Plugins W)
    (text text' : Str) (a a' : AST) (es es' : List TErr) (hf : OneName f) (h : Reads S ids text a es)
    (h' : Reads S ids' text' a' es') (hs : a'.shape = a.shape.rename f) :
    (∀ gen ps', compileText S ids checks text ps = (.ok gen, ps') →
      compileText S ids' checks text' (ps.rename f) = (.ok gen, ps'.rename f)) ∧
    (∀ gen, (compileText S ids' checks text' (ps.rename f)).1 = .ok gen → (compileText S ids checks text ps).1 = .ok gen) :=
  compileText_rename hf checks h h' hs ps

/-- C99: if it has no macros, it also fails in the same way after the same calls. -/
theorem C99_fails {W : Wasm} (S : Segmenter) (ids ids' : Nat → Str) (checks : Bool) (f : Str → Str) (ps : Plugins W)
    (d : List (List (List Markup))) (text text' : Str) (hf : OneName f) (h : WrittenAs d text) (ho : OwnClusters S text)
    (h' : WrittenAs (renameDocument f d) text') (ho' : OwnClusters S text') (hm : hasMacros d = false) :
    compileText S ids' checks text' (ps.rename f) =
      ((compileText S ids checks text ps).1, (compileText S ids checks text ps).2.rename f) := by
  rw [C72_compiles S ids checks ps d text h ho hm,
    C72_compiles S ids' checks _ _ text' h' ho' (by rw [hasMacros_rename, hm])]
  exact generate_rename hf checks (by rw [tree_shape, tree_shape, documentShape_rename]) ps

/-- C99: loading the plugins under other names succeeds or fails alike, and gives the same plugins under the other
names, with the same hooks. -/
theorem C99_loads {W : Wasm} (f : Str → Str) (hf : OneName f) :
    (∀ name bin flag, Plugin.new W (f name) bin flag = (Plugin.new W name bin flag).with (Plugin.rename f)) ∧
    (∀ l : List (Plugin W), Plugins.new (l.map (Plugin.rename f)) = (Plugins.new l).with (Plugins.rename f)) :=
  ⟨fun _ _ _ => plugin_rename _ _ _, fun l => newLoop_rename hf l ⟨[], none, none, none, none, []⟩⟩

/-- A name in place of another, and the other way round. -/
def otherName (n : Str) : Str := if n = ['p'] then chars! "other" else if n = chars! "other" then ['p'] else n

/-- Different plugins get different names. -/
example : OneName otherName := by
  intro m n h
  unfold otherName at h
  repeat' split at h
  all_goals simp_all

/-- The document of C72 with the plugin `p` under the name `other`. -/
example : WrittenAs (renameDocument otherName writtenSample)
    (chars! "Hello, [other.g y \\,]\\\\\n\n{other.h a, [other.f  ]\n}\nw\n") := by
  have h1 : WrittenAs _ (writeLines (renameDocument otherName writtenSample)[1] ++ List.replicate 1 '\n') := .last _ 1 (by decide)
  exact .more (renameDocument otherName writtenSample)[0] 2 _ _ (by decide) (by decide) (by decide) h1

/-- The plugins under the other names: the hooks too. -/
example : ((sampleSet allHooks).rename otherName).documentHook = some (chars! "other") ∧
    ((sampleSet allHooks).rename otherName).nameToPlugin.map (·.1) = [chars! "other"] := by
  decide +kernel

end Brack
