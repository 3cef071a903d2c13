import Verif.Proof.ComposeCases
import Verif.Proof.ComposeWritten
import Verif.Proof.WrittenGen
import Verif.Proof.LayoutText
import Verif.Proof.Cases
import Verif.Proof.PluginCases

/-
Properties of complete commands (C98): a command is read where it stands as it is read on its own, and it may be
replaced by another.
-/

namespace Brack

open UTable (sampleSeg)

/-! ### C98 -/

/-- C98: a complete command is a document: it is read as one line with one pair of brackets. -/
theorem C98_alone (S : Segmenter) (ids : Nat → Str) (b : Bracket) (x : Str) (hx : Command S b x) :
    ∃ cs ks, Alone S ids x (.node (.bracket b) cs) ks := by
  obtain ⟨o, body, c, e, B, ex, h1, _, _, _, h5, h6⟩ := hx.filling
  obtain ⟨cs, h7⟩ := h6.shape
  have := h6.read (S := S) (x := x) (e := e) (by rw [h1]; simp) h5 ids
  exact ⟨cs, _, h7 ▸ this⟩

/-- C98: replace a complete command by another in the same kind of brackets, at a place where the brackets closed
before are not more than those opened and neither a name nor a backslash is waiting. The one document is read if and
only if the other is. The trees are the same but for one place: there each has the tree that its command has when read
on its own. The errors reported are the same but for those that the command has when read on its own. -/
theorem C98_place_partial (S : Segmenter) (ids : Nat → Str) (b : Bracket) (u x x' v : Str) (hx : Command S b x)
    (hx' : Command S b x') (hu : Place S u) (ha : Apart S u x v) (ha' : Apart S u x' v) :
    ((∃ a es, Reads S ids (u ++ x ++ v) a es) ↔ ∃ a es, Reads S ids (u ++ x' ++ v) a es) ∧
    ∀ a es a' es', Reads S ids (u ++ x ++ v) a es → Reads S ids (u ++ x' ++ v) a' es' →
      ∃ cs ks cs' ks', Alone S ids x (.node (.bracket b) cs) ks ∧ Alone S ids x' (.node (.bracket b) cs') ks' ∧
        Shape.Swapped (.node (.bracket b) cs) (.node (.bracket b) cs') a.shape a'.shape ∧
        ∃ k1 k2, es.map TErr.kind = k1 ++ ks ++ k2 ∧ es'.map TErr.kind = k1 ++ ks' ++ k2 := by
  obtain ⟨h1, h2⟩ := reads_swapped hx hx' hu ha ha' ids
  refine ⟨h1, fun a es a' es' r r' => ?_⟩
  obtain ⟨s, ks, s', ks', k1, k2, ⟨⟨cs, rfl⟩, cs', rfl⟩, k3, k4⟩ := h2 a es a' es' r r'
  exact ⟨cs, ks, cs', ks', k1, k2, k3, k4⟩

/-- C98: if two commands yield the same output on their own, whatever the state of the plugins, the one may replace
the other in a document. This without a hook for expressions; a hook for texts may be there; and hooks for documents and
statements may be there, too, if the commands yield the same output when compiled without them. -/
theorem C98_output_partial {W : Wasm} (S : Segmenter) (ids : Nat → Str) (checks : Bool) (ps : Plugins W) (b : Bracket)
    (u x x' v : Str) (hx : Command S b x) (hx' : Command S b x') (hu : Place S u) (ha : Apart S u x v) (ha' : Apart S u x' v)
    (h : ps.exprHook = none) (hy : Yields S ids checks ps.plain x x') :
    Yields S ids checks ps (u ++ x ++ v) (u ++ x' ++ v) :=
  yields_swapped hx hx' hu ha ha' ids checks h hy

/-- C98: a command keeps apart from what stands around it, whatever the Unicode version, unless a combining character
follows it or a prepended one stands before it. -/
theorem C98_apart (T : UTable) (u w v : Str) (b : Bracket) (hu : ∀ x ∈ u.getLast?, T.gcb x ≠ .prepend)
    (hv : ∀ x ∈ v.head?, ¬ T.combining x) : Apart T.segmenter u (b.openChar :: w ++ [b.closeChar]) v :=
  T.apart u w v _ _ (by cases b <;> decide) (by cases b <;> decide) hu hv

/-- C98: every command with its arguments, as its author thinks of it, is a complete command in this sense. -/
theorem C98_written (S : Segmenter) (b : Bracket) (m n : Str) (args : List (List Markup))
    (hok : (Markup.call b m n args).ok true = true) (ho : OwnClusters S (Markup.call b m n args).write) :
    Command S b (Markup.call b m n args).write :=
  command_written true hok ho

/-- A command with nested commands and an escaped comma. -/
example : (Markup.call .curly ['p'] ['h'] [[.words ['a'], .escaped ','], [.blank ' ', .call .square ['p'] ['f'] [], .blank '\n']]).ok true = true ∧
    (Markup.call .curly ['p'] ['h'] [[.words ['a'], .escaped ','], [.blank ' ', .call .square ['p'] ['f'] [], .blank '\n']]).write =
      chars! "{p.h a\\,, [p.f]\n}" ∧
    OwnClusters sampleSeg (chars! "{p.h a\\,, [p.f]\n}") :=
  ⟨by decide, by decide, own_ascii _ (by decide)⟩

/-- C98 fails in general: after an escaped closing bracket, a command is not read as it is on its own. In
`\][p.f a]`, the space and the dot are text. -/
theorem C98_place_refuted : ∃ u x : Str, Command sampleSeg .square x ∧ Apart sampleSeg u x [] ∧
    (∃ a, Reads sampleSeg someIds u a []) ∧
    ∃ s a es, Alone sampleSeg someIds x s [] ∧ Reads sampleSeg someIds (u ++ x ++ []) a es ∧ es ≠ [] ∧
      ¬ Shape.Swapped s s a.shape a.shape := by
  refine ⟨chars! "\\]", chars! "[p.f a]", command_case _ _ _ (by decide) (by decide) rfl (by decide +kernel), ?_, ?_, ?_⟩
  · exact C98_apart UTable.sample (chars! "\\]") (chars! "p.f a") [] .square (by decide +kernel) (by simp)
  · obtain ⟨ts, c, a, es, h1, h2, h3, h4⟩ := front_case sampleSeg (chars! "\\]") (by decide) (fun _ _ _ es => es = []) (by decide +kernel)
    exact ⟨a, ts, c, h1, h2, h4 ▸ h3⟩
  · obtain ⟨ts, c, a, es, h1, h2, h3, h4, h5⟩ := front_case sampleSeg (chars! "[p.f a]") (by decide)
      (fun _ _ a es => a.shape = .node .document [.node .stmt [.node .expr [.node (.bracket .square) [.leaf .module (some ['p']),
        .leaf .ident (some ['f']), .node .expr [.leaf .text (some ['a'])]]]]] ∧ es = []) (by decide +kernel)
    obtain ⟨ts', c', a', es', k1, k2, k3, k4, k5⟩ := front_case sampleSeg (chars! "\\][p.f a]") (by decide)
      (fun _ _ a es => Shape.occurs (.node (.bracket .square) [.leaf .module (some ['p']),
        .leaf .ident (some ['f']), .node .expr [.leaf .text (some ['a'])]]) a.shape = false ∧ es ≠ []) (by decide +kernel)
    refine ⟨_, a', es', ⟨a, es, ⟨ts, c, h1, h2, h3⟩, h4, by rw [h5]; rfl⟩, ⟨ts', c', k1, k2, k3⟩, k5, fun h => ?_⟩
    rw [h.occurs] at k4
    cases k4

/-- A plugin for the following case: the commands `a` and `b` yield `1` and `2`, and the hook for expressions puts `3` in
place of a single character. -/
def shortWasm : Wasm where
  State := Unit
  load _ := .ok ()
  metadata _ := (.ok
    [⟨chars! "a", chars! "a", [], .inline⟩, ⟨chars! "b", chars! "b", [], .inline⟩,
     ⟨chars! "expr", chars! "expr", [(chars! "x", .inline)], .inline⟩], ())
  callText _ f vs :=
    if f = chars! "a" then (.ok ['1'], ())
    else if f = chars! "b" then (.ok ['2'], ())
    else match vs with
      | [.text [_]] => (.ok ['3'], ())
      | [.text w] => (.ok w, ())
      | _ => (.error "bad", ())
  callMacro _ _ _ _ := (.error "none", ())

/-- The plugin under the name `p`, with its hook for expressions. -/
def shortSet : Plugins shortWasm :=
  ⟨[(['p'], ⟨['p'], (), [((['a'], .inline), ⟨['a'], ['a'], [], .inline⟩), ((['b'], .inline), ⟨['b'], ['b'], [], .inline⟩),
      ((chars! "expr", .inline), ⟨chars! "expr", chars! "expr", [(['x'], .inline)], .inline⟩)], ⟨false, false, true, false⟩⟩)],
    none, none, some ['p'], none, []⟩

/-- C98 fails with a hook for expressions: `[p.a]` and `[p.b]` yield the same on their own, but not after an `x`, as the
hook sees all of the expression. -/
theorem C98_output_refuted : ∃ u x x' : Str, Command sampleSeg .square x ∧ Command sampleSeg .square x' ∧ Place sampleSeg u ∧
    Apart sampleSeg u x [] ∧ Apart sampleSeg u x' [] ∧ Yields sampleSeg someIds true shortSet x x' ∧
    (∃ gen, (compileText sampleSeg someIds true x shortSet).1 = .ok gen) ∧
    ¬ Yields sampleSeg someIds true shortSet (u ++ x ++ []) (u ++ x' ++ []) := by
  have hu : ∀ {ps qs : Plugins shortWasm}, Plugins.Related (fun _ _ => True) ps qs → Plugins.Related Eq ps qs := fun hq =>
    ⟨hq.documentHook, hq.stmtHook, hq.exprHook, hq.textHook, fun n => by
      rcases hq.plugins n with k | ⟨p, q, k1, k2, k3, _⟩
      · exact .inl k
      · exact .inr ⟨p, q, k1, k2, k3, rfl⟩⟩
  have hw : ∀ x r, (∃ ts c a es, tokenizeStr sampleSeg x = .ok ts ∧ parse ts = .ok c ∧ transform someIds c = .ok (a, es) ∧
      a.macros = [] ∧ ((do let b ← expander a; generate true b : PM _ Str) shortSet).1 = .ok r) →
      ∀ qs, Plugins.Related (fun _ _ => True) shortSet qs → (compileText sampleSeg someIds true x qs).1 = .ok r := by
    rintro x r ⟨ts, c, a, es, h1, h2, h3, h4, h5⟩ qs hq
    have h0 : (compileText sampleSeg someIds true x shortSet).1 = .ok r := by rw [compileText_front h1 h2 h3]; exact h5
    obtain ⟨h7, _⟩ := compileText_rel (W := shortWasm) (R := Eq) sameTexts_eq sampleSeg (ids := someIds) (ids' := someIds)
      true x (fun ts' c' a' es' k1 k2 k3 k4 => by
        rw [h1] at k1; cases k1
        rw [h2] at k2; cases k2
        rw [h3] at k3; cases k3
        exact absurd h4 k4) shortSet qs (hu hq)
    rw [h0] at h7
    rcases h9 : (compileText sampleSeg someIds true x qs).1 with g | _ | _ <;> rw [h9] at h7
    · have : r = g := h7
      rw [this]
    · exact False.elim h7
    · exact False.elim h7
  have e1 := hw (chars! "[p.a]") ['3'] (front_case sampleSeg _ (by decide) (fun _ _ a _ => a.macros = [] ∧
      ((do let b ← expander a; generate true b : PM _ Str) shortSet).1 = .ok ['3']) (by decide +kernel))
  have e2 := hw (chars! "[p.b]") ['3'] (front_case sampleSeg _ (by decide) (fun _ _ a _ => a.macros = [] ∧
      ((do let b ← expander a; generate true b : PM _ Str) shortSet).1 = .ok ['3']) (by decide +kernel))
  have e3 := hw (chars! "x[p.a]") (chars! "x1") (front_case sampleSeg _ (by decide) (fun _ _ a _ => a.macros = [] ∧
      ((do let b ← expander a; generate true b : PM _ Str) shortSet).1 = .ok (chars! "x1")) (by decide +kernel))
  have e4 := hw (chars! "x[p.b]") (chars! "x2") (front_case sampleSeg _ (by decide) (fun _ _ a _ => a.macros = [] ∧
      ((do let b ← expander a; generate true b : PM _ Str) shortSet).1 = .ok (chars! "x2")) (by decide +kernel))
  refine ⟨chars! "x", chars! "[p.a]", chars! "[p.b]", command_case _ _ _ (by decide) (by decide) rfl (by decide +kernel),
    command_case _ _ _ (by decide) (by decide) rfl (by decide +kernel), place_case _ _ (by decide) (by decide) (by decide +kernel),
    C98_apart UTable.sample (chars! "x") (chars! "p.a") [] .square (by decide +kernel) (by simp),
    C98_apart UTable.sample (chars! "x") (chars! "p.b") [] .square (by decide +kernel) (by simp), ?_, ⟨_, e1 _ (.any _)⟩, ?_⟩
  · intro qs qs' h1 h2 gen qs1 h3
    have h4 := h1.trans_of (fun _ _ _ _ _ => trivial) h2.weak
    have h5 := e1 qs h1
    have h6 := e2 qs' h4
    rw [h3] at h5
    cases h5
    rcases h7 : compileText sampleSeg someIds true (chars! "[p.b]") qs' with ⟨r, q⟩
    rw [h7] at h6
    cases h6
    refine ⟨q, rfl, hu ?_⟩
    have k1 := (compileText_keeps h3).flip
    have k2 := h2.weak.trans_of (fun _ _ _ _ _ => trivial) (compileText_keeps h7)
    exact k1.trans_of (fun _ _ _ _ _ => trivial) k2
  · intro h
    rcases h7 : compileText sampleSeg someIds true (chars! "x[p.a]") shortSet with ⟨r, q⟩
    have h5 := e3 shortSet (.any _)
    rw [h7] at h5
    cases h5
    obtain ⟨q1, h8, _⟩ := h shortSet shortSet (.any _) (.refl_of (fun _ => rfl) _) _ _ h7
    have h6 := e4 shortSet (.any _)
    have h8 : compileText sampleSeg someIds true (chars! "x[p.b]") shortSet = _ := h8
    rw [h8] at h6
    cases h6

/-- A command in the argument of another may be replaced. -/
example : Command sampleSeg .square (chars! "[p.f y]") ∧ Command sampleSeg .square (chars! "[p.g {p.h z}, [p.f]]") ∧
    Place sampleSeg (chars! "x {p.h y, [p.f z] ") ∧
    Apart sampleSeg (chars! "x {p.h y, [p.f z] ") (chars! "[p.f y]") (chars! "é}\nnext") ∧
    Apart sampleSeg (chars! "x {p.h y, [p.f z] ") (chars! "[p.g {p.h z}, [p.f]]") (chars! "é}\nnext") := by
  have hv : ∀ x ∈ (chars! "é}\nnext").head?, ¬ UTable.sample.combining x := by
    intro x hx
    have : x = 'é' := by simpa using hx.symm
    subst this
    unfold UTable.combining
    decide
  exact ⟨command_case _ _ _ (by decide) (by decide) rfl (by decide +kernel),
    command_case _ _ _ (by decide) (by decide) rfl (by decide +kernel),
    place_case _ _ (by decide) (by decide) (by decide +kernel),
    C98_apart UTable.sample _ (chars! "p.f y") _ .square (by decide +kernel) hv,
    C98_apart UTable.sample _ (chars! "p.g {p.h z}, [p.f]") _ .square (by decide +kernel) hv⟩

/-- Commands that yield the same, with hooks for documents, statements and texts: they differ in the layout of their
arguments. -/
example : Yields sampleSeg someIds true (sampleSet ⟨true, true, false, true⟩).plain (chars! "[p.g y,z]") (chars! "[p.g y,\n  z]") ∧
    (sampleSet ⟨true, true, false, true⟩).documentHook = some ['p'] ∧ (sampleSet ⟨true, true, false, true⟩).stmtHook = some ['p'] ∧
    (sampleSet ⟨true, true, false, true⟩).exprHook = none ∧
    (∃ gen, (compileText sampleSeg someIds true (chars! "[p.g y,z]") (sampleSet ⟨true, true, false, true⟩).plain).1 = .ok gen) := by
  refine ⟨?_, by decide, by decide, by decide, ?_⟩
  · intro qs qs' _ h2 gen qs1 h3
    have hs : Separates sampleSeg (chars! "[p.g y") ',' := by
      refine ⟨(run (sampleSeg.graphemes (chars! "[p.g y,")) M.init).dropLast.dropLast, ⟨.comma, ⟨⟨0, 6⟩, ⟨0, 7⟩⟩⟩,
        ⟨.eof, ⟨⟨0, 7⟩, ⟨0, 7⟩⟩⟩, ?_, .inl rfl, ?_, ?_⟩
      · rw [tokenizeStr_eq]
        exact congrArg Res.ok (by decide +kernel)
      · decide +kernel
      · decide +kernel
    have hr : Room sampleSeg (chars! "[p.g y,") (chars! "z]") :=
      UTable.sample.room (chars! "[p.g y") ',' _ (by decide) (by decide) (fun x hx => by
        obtain rfl : 'z' = x := by simpa using hx
        exact UTable.sample.not_combining_ascii _ (by decide) (by decide))
    have h4 := ((same_blanks someIds hs hr (chars! "\n  ") (by unfold Blanks; decide)).compile true qs gen qs1).mp h3
    have h5 := compileText_rel (W := sampleWasm) (R := Eq) (by rintro s t f vs rfl; exact ⟨rfl, rfl⟩) sampleSeg (ids := someIds) (ids' := someIds)
      true (chars! "[p.g y,\n  z]") (fun ts c a es h6 h7 h8 h9 => by
        obtain ⟨ts', c', a', es', k1, k2, k3, k4⟩ := front_case sampleSeg (chars! "[p.g y,\n  z]") (by decide)
          (fun _ _ a _ => a.macros = []) (by decide +kernel)
        rw [k1] at h6; cases h6
        rw [k2] at h7; cases h7
        rw [k3] at h8; cases h8
        exact absurd k4 h9) qs qs' h2
    have h4 : compileText sampleSeg someIds true (chars! "[p.g y,\n  z]") qs = (.ok gen, qs1) := h4
    rw [h4] at h5
    rcases h6 : compileText sampleSeg someIds true (chars! "[p.g y,\n  z]") qs' with ⟨r, q⟩
    rw [h6] at h5
    obtain ⟨h7, h8⟩ := h5
    rcases r with g | _ | _
    · have : gen = g := h7
      subst this
      exact ⟨q, rfl, h8⟩
    · exact False.elim h7
    · exact False.elim h7
  · obtain ⟨ts, c, a, es, h1, h2, h3, h4⟩ := front_case sampleSeg (chars! "[p.g y,z]") (by decide)
      (fun _ _ a _ => ((do let b ← expander a; generate true b : PM _ Str) (sampleSet ⟨true, true, false, true⟩).plain).1 =
        .ok (chars! "g(text(y,),+text(z,),)")) (by decide +kernel)
    exact ⟨_, by rw [compileText_front h1 h2 h3]; exact h4⟩

end Brack
