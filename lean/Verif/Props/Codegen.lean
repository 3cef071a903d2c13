import Verif.Proof.GenOne
import Verif.Props.Transform

/-
Properties of `generate` and of argument passing (C30–C35). `ps.log` is the list of the calls made to
plugins so far; `checks` tells whether integer overflow checks are on.
-/

namespace Brack

open UTable (sampleSeg)

variable {W : Wasm}

/-! ### C30 -/

/-- C30: if generation succeeds, every bracket in the document is an existing command applied to an
admissible number of arguments. -/
theorem C30_admissible (checks : Bool) (a : AST) (ps : Plugins W) (r : Str)
    (h : (generate checks a ps).1 = .ok r) : ∀ n, AST.NodeOf n a → n.CommandOk ps :=
  fun n hn => ((generate_fine h).2 n hn).2

/-- C30: also if generation fails or panics, every command called before was called with an
admissible number of arguments. -/
theorem C30_calls_admissible (checks : Bool) (a : AST) (ps : Plugins W) :
    ∃ calls : List (Tag × Call), (generate checks a ps).2.log = ps.log ++ calls.map (·.2) ∧
      calls.map (·.1) <+: a.postorder.filter ps.handles ∧
      ∀ c ∈ calls, c.1 = .command → ∃ ts args vs,
        ps.signature c.2.plugin c.2.command c.2.typ = some ts ∧ Admissible ts args.length ∧
        PassedAll args ts vs ∧ c.2.input = .values vs := by
  obtain ⟨calls, h1, h2, h3, _⟩ := generate_gens checks a ps
  exact ⟨calls, h1.log, h2, h3⟩

/-- One missing and one superfluous argument: generation fails. -/
example : ((generate true (docOf [commandWith .square ['p'] ['g'] []]) (sampleSet noHooks)).1.isErr,
    (generate true (docOf [commandWith .square ['p'] ['g'] [['a'], ['b'], ['c']]]) (sampleSet noHooks)).1.isErr,
    (generate true (docOf [commandWith .square ['p'] ['g'] [['a']]]) (sampleSet noHooks)).1.isOk) =
    (true, true, true) := by decide

/-! ### C31 -/

/-- C31 refuted: counting the parameters of a signature with a parameter after an array panics with
overflow checks and returns the maximum 0 without. -/
theorem C31_counts_refuted :
    argCounter true [.array .inline, .inline] = .panic ∧
    argCounter false [.array .inline, .inline] = .ok (1, 0) := ⟨rfl, rfl⟩

/-- C31: exactly when counting is right. With overflow checks, if no other parameter comes after an
array; without, if there is no array or the last parameter is one. -/
theorem C31_counts_iff (ts : List PType) (h : ts.length ≤ usizeMax) :
    (argCounter true ts = .ok (countsOf ts) ↔ ArraysLast ts) ∧
    (argCounter false ts = .ok (countsOf ts) ↔
      (ts.any PType.isArray = false ∨ ∃ t, ts.getLast? = some t ∧ t.isArray = true)) :=
  argCounter_iff ts h

/-- C31 (partial): counting is right if no other parameter comes after an array. Missing: other
signatures, for which it is wrong (`C31_counts_refuted`, `C31_counts_iff`). -/
theorem C31_counts_partial (checks : Bool) (ts : List PType) (h : ArraysLast ts)
    (hl : ts.length ≤ usizeMax) : argCounter checks ts = .ok (countsOf ts) :=
  argCounter_arraysLast checks ts h hl

example : ArraysLast [.inline, .option .inline, .block, .array .inline] ∧
    countsOf [.inline, .option .inline, .block, .array .inline] = (2, usizeMax) :=
  ⟨⟨[.inline, .option .inline, .block], [.array .inline], rfl, by decide, by decide⟩, rfl⟩

/-! ### C32 -/

/-- C32 refuted: a command with an optional parameter before a required one, called with one argument,
makes generation panic. -/
theorem C32_no_panic_refuted (checks : Bool) : ∃ (ts : List PType) (args : List Str),
    (oneCommand ts).signature ['p'] ['c'] .inline = some ts ∧ Admissible ts args.length ∧
    (generate checks (docOf [commandWith .square ['p'] ['c'] args]) (oneCommand ts)).1 = .panic := by
  refine ⟨[.option .inline, .inline], [['a']], rfl, ⟨by decide, .inr (by decide)⟩, ?_⟩
  cases checks <;> rfl

/-- C32 refuted: so does a command with an optional and an array parameter, called without
arguments. -/
theorem C32_no_panic_refuted_array (checks : Bool) : ∃ (ts : List PType) (args : List Str),
    (oneCommand ts).signature ['p'] ['c'] .inline = some ts ∧ Admissible ts args.length ∧
    (generate checks (docOf [commandWith .square ['p'] ['c'] args]) (oneCommand ts)).1 = .panic := by
  refine ⟨[.option .inline, .array .inline], [], rfl, ⟨by decide, .inl (by decide)⟩, ?_⟩
  cases checks <;> rfl

/-- C32: exactly when binding panics: a required parameter without argument at its position, or an
array starting beyond the end of the arguments. -/
theorem C32_panic_iff (args : List Str) (ts : List PType) :
    bindArgs args 0 ts = .panic ↔ ∃ (j : Nat) (t : PType), ts[j]? = some t ∧
      ((t.isRequired = true ∧ args.length ≤ j) ∨ (t.isArray = true ∧ args.length < j)) := by
  rw [bindArgs_panic]
  simp only [Nat.zero_add, Lacks]

/-- C32 (partial): generation never panics if all commands list required parameters first, then either
optional parameters or one array, on any tree all of whose names and texts are present. Missing:
other signatures (`C32_no_panic_refuted`). -/
theorem C32_no_panic_partial (checks : Bool) (a : AST) (ps : Plugins W) (hs : ps.AllStandard)
    (ha : ∀ x ∈ a.contents, x.value = none → x.kind = .invalid ∨ x.kind = .ignored) :
    (generate checks a ps).1 ≠ .panic :=
  generate_no_panic checks a ps hs ha

/-- C32 (partial), for documents: with such plugins generation never panics on what transform
returns, whatever the errors. -/
theorem C32_no_panic_document_partial (checks : Bool) (ts : List Token) (c : CST) (ids : Nat → Str)
    (a : AST) (es : List TErr) (ps : Plugins W) (hp : parse ts = .ok c)
    (hx : transform ids c = .ok (a, es)) (hs : ps.AllStandard) : (generate checks a ps).1 ≠ .panic := by
  refine C32_no_panic_partial checks a ps hs ?_
  rw [C22_content ts c ids a es hp hx]
  intro x hx hv
  obtain ⟨e, _, h⟩ := List.mem_filterMap.mp hx
  rcases e with ⟨st, k, l⟩ | _ | _ | _ | _ | _ <;> try (simp [Event.content?] at h; done)
  · rcases k <;> simp [Event.content?] at h <;> subst h <;> cases hv
  · simp [Event.content?] at h; subst h; cases hv
  · simp [Event.content?] at h; subst h; exact .inl rfl

/-- Signatures with required, optional and array parameters. -/
example : (oneCommand [.inline, .block, .option .inline]).AllStandard ∧
    (oneCommand [.inline, .array .inline]).AllStandard := by
  have key : ∀ (ts : List PType), Standard ts → ts.length ≤ usizeMax → (oneCommand ts).AllStandard := by
    intro ts h hl m c typ us hu
    have : us = ts := by
      simp only [Plugins.signature, oneCommand, HMap.get] at hu
      split at hu
      · cases hu
      · next hp =>
        split at hp
        · injection hp with hp
          subst hp
          simp only [HMap.get] at hu
          split at hu
          · simp at hu; rw [← hu]; simp [Function.comp_def]
          · cases hu
        · cases hp
    rw [this]
    exact ⟨h, hl⟩
  refine ⟨key _ ⟨[.inline, .block], [.option .inline], rfl, by decide, .inl ?_⟩ (by decide),
    key _ ⟨[.inline], [.array .inline], rfl, by decide, .inr ⟨_, rfl⟩⟩ (by decide)⟩
  intro t ht
  simp at ht
  exact ⟨_, ht⟩

/-! ### C33 -/

/-- C33: for signatures listing required parameters first, then either optional parameters or one
array, and an admissible number of arguments, binding succeeds with one value per parameter; the
values contain the arguments, each once and in order; each value is of the form its parameter asks
for, optional parameters without argument being absent. -/
theorem C33_binding (ts : List PType) (args : List Str) (hs : Standard ts)
    (ha : Admissible ts args.length) : ∃ vs, bindArgs args 0 ts = .ok vs ∧
      vs.flatMap Value.arguments = args ∧ PassedAll args ts vs := by
  obtain ⟨vs, hv⟩ := hs.binds ha.1
  exact ⟨vs, hv, hs.delivers ha (bindArgs_passed hv), bindArgs_passed hv⟩

/-- C33, generating: a document consisting of one command with such a signature applied to texts makes
one call, to that command, with the texts delivered as above. -/
theorem C33_generate (checks : Bool) (ps : Plugins W) (h : NoHooks ps) (b : Bracket) (typ : PType)
    (hb : b.commandType = some typ) (m c : Str) (ts : List PType) (args : List Str)
    (hsig : ps.signature m c typ = some ts) (hs : Standard ts) (hl : ts.length ≤ usizeMax)
    (hn : args.length ≤ usizeMax) (ha : Admissible ts args.length) :
    ∃ vs out, (generate checks (docOf [commandWith b m c args]) ps).2.log =
        ps.log ++ [⟨m, c, typ, .values vs, out⟩] ∧
      vs.flatMap Value.arguments = args ∧ PassedAll args ts vs := by
  obtain ⟨vs, out, hv, hlog⟩ := generate_one_command checks h hb hsig hs hl hn ha
  exact ⟨vs, out, hlog, hs.delivers ha (bindArgs_passed hv), bindArgs_passed hv⟩

/-- C33, for all documents: values as passed in the calls of C34 (and of C30) contain the results of
the arguments, each once and in order, absent optional parameters being passed as absent. -/
theorem C33_delivered (ts : List PType) (args : List Str) (vs : List Value) (hs : Standard ts)
    (ha : Admissible ts args.length) (hv : PassedAll args ts vs) :
    vs.flatMap Value.arguments = args ∧
    ∀ i u, ts[i]? = some (.option u) → args.length ≤ i → vs[i]? = some (.textOption none) := by
  refine ⟨hs.delivers ha hv, ?_⟩
  intro i u hi hl
  have hlt : i < vs.length := by rw [hv.1]; exact (List.getElem?_eq_some_iff.mp hi).1
  have h := hv.2 i _ vs[i] hi (List.getElem?_eq_getElem hlt)
  rw [List.getElem?_eq_getElem hlt]
  generalize vs[i] = v at h
  cases h with
  | option => rw [List.getElem?_eq_none hl]
  | required _ _ hr => simp [PType.isRequired] at hr

example : bindArgs [['a'], ['b']] 0 [.inline, .option .inline, .option .block] =
    .ok [.text ['a'], .textOption (some ['b']), .textOption none] := rfl

example : bindArgs [['a'], ['b'], ['c']] 0 [.inline, .array .inline] =
    .ok [.text ['a'], .textArray [['b'], ['c']]] := rfl

/-! ### C34 -/

/-- C34: if generation succeeds, the calls made are one for each text, expression, statement and for the
document (as far as there is a hook) and one for each command, children before parents and left to
right, and the result is what the document produces with these calls: every hook receives the
concatenated results of the children, without a hook the concatenation is the result. -/
theorem C34_hooks (checks : Bool) (a : AST) (ps : Plugins W) (r : Str)
    (h : (generate checks a ps).1 = .ok r) :
    ∃ calls : List (Tag × Call), (generate checks a ps).2.log = ps.log ++ calls.map (·.2) ∧
      calls.map (·.1) = a.postorder.filter ps.handles ∧ Produces ps a calls r := by
  obtain ⟨calls, h1, _, _, h4⟩ := generate_gens checks a ps
  obtain ⟨h5, h6⟩ := h4 r h
  exact ⟨calls, h1.log, h6, h5⟩

/-- C34: if generation does not succeed, the calls made are the first ones of this order; a failing
call is the last one. -/
theorem C34_prefix (checks : Bool) (a : AST) (ps : Plugins W) :
    ∃ calls : List (Tag × Call), (generate checks a ps).2.log = ps.log ++ calls.map (·.2) ∧
      calls.map (·.1) <+: a.postorder.filter ps.handles ∧
      ∀ pre c post, calls = pre ++ c :: post → c.2.isFailed = true →
        post = [] ∧ (generate checks a ps).1.isOk = false := by
  obtain ⟨calls, h1, h2, _, _⟩ := generate_gens checks a ps
  exact ⟨calls, h1.log, h2, h1.last⟩

/-- Two texts, a command with an argument, and all four hooks. -/
example : (generate true (docOf [leafOf .text ['x'], commandWith .square ['p'] ['g'] [['y']]])
    (sampleSet allHooks)).1 = .ok (chars! "doc(stmt(expr(text(x,)g(expr(text(y,),),-,),),),)") ∧
    ((generate true (docOf [leafOf .text ['x'], commandWith .square ['p'] ['g'] [['y']]])
      (sampleSet allHooks)).2.log.map Call.command) =
      [chars! "text", chars! "text", chars! "expr", chars! "g", chars! "expr", chars! "stmt",
        chars! "document"] := by decide +kernel

/-- The same without hooks. -/
example : (generate true (docOf [leafOf .text ['x'], commandWith .square ['p'] ['g'] [['y']]])
    (sampleSet noHooks)).1 = .ok (chars! "xg(y,-,)") := by decide +kernel

/-! ### C35 -/

/-- C35: generation succeeds only on documents made of statements, expressions, texts and commands,
with names and texts present: no macro, no invalid node, no module or identifier outside a
command. -/
theorem C35_abort (checks : Bool) (a : AST) (ps : Plugins W) (r : Str)
    (h : (generate checks a ps).1 = .ok r) :
    (∃ i cs l, a = .node .document i cs l) ∧ ∀ n, AST.NodeOf n a → n.nodeGenerable = true :=
  ⟨(generate_fine h).1, fun n hn => ((generate_fine h).2 n hn).1⟩

/-- C35: in particular documents with a macro or an invalid node anywhere are not generated. -/
theorem C35_macro_or_invalid (checks : Bool) (a : AST) (ps : Plugins W) (n : AST)
    (hn : AST.NodeOf n a) (hk : (∃ i cs l, n = .node (.bracket .angle) i cs l) ∨
      (∃ i v l, n = .leaf .invalid i v l) ∨ ∃ i v l, n = .leaf .ignored i v l) (r : Str) :
    (generate checks a ps).1 ≠ .ok r := by
  intro h
  have := (C35_abort checks a ps r h).2 n hn
  rcases hk with ⟨i, cs, l, rfl⟩ | ⟨i, v, l, rfl⟩ | ⟨i, v, l, rfl⟩ <;> simp [AST.nodeGenerable] at this

/-- C35, converse: on all other documents, if all commands and hooks exist, with signatures listing
required parameters first, then either optional parameters or one array, and the numbers of
arguments are admissible, generation fails only if a plugin returns an error. -/
theorem C35_only (checks : Bool) (a : AST) (ps : Plugins W) (i : Str) (cs : List AST) (l : Loc)
    (ha : a = .node .document i cs l) (hg : ∀ n, AST.NodeOf n a → n.nodeGenerable = true)
    (hc : ∀ n, AST.NodeOf n a → n.CommandOk ps) (hh : ps.HooksExist) (hs : ps.AllStandard)
    (hf : a.Fits) :
    ∃ calls, (generate checks a ps).2.log = ps.log ++ calls ∧
      ((generate checks a ps).1.isOk = true ∨
        (generate checks a ps).1.isErr = true ∧ ∃ c, calls.getLast? = some c ∧ c.isFailed = true) :=
  generate_done checks ha hh hs ⟨fun n hn => ⟨hg n hn, hc n hn⟩, hf⟩

/-- A document meeting the hypotheses of the converse, with a plugin returning an error. -/
example : (generate true (docOf [leafOf .text ['x'], commandWith .square ['p'] (chars! "bad") []])
    (sampleSet noHooks)).1.isErr = true ∧
    (sampleSet noHooks).HooksExist ∧
    ((docOf [leafOf .text ['x'], commandWith .square ['p'] (chars! "bad") []]).nodes.all AST.nodeGenerable) = true := by
  refine ⟨rfl, ⟨?_, ?_, ?_, ?_⟩, by decide⟩ <;> intro p hp <;> cases hp

end Brack
