import Verif.Proof.TransFinal
import Verif.Proof.TransWell
import Verif.Proof.TransOnce
import Verif.Proof.Cases
import Verif.Props.Tokenizer

/-
Properties of `transform` (C14, C17–C26, C59, C60). They are stated for a text, its tokens, the parsed tree and
the transformed tree; `ids` is the sequence of identifiers drawn for the nodes of the AST.
-/

namespace Brack

open UTable (sampleSeg)

/-! ### C14 -/

/-- C14 (partial): a backslash followed by the token of an escapable character becomes a text
holding just that character, whatever surrounds it. Missing: that such a token follows, and that
the rest of the document is read as if the character were ordinary text, both of which are false
(`C14_escape_refuted`, `C14_rest_refuted`). -/
theorem C14_escape_partial (S : Segmenter) (text : Str) (ts : List Token) (c : CST)
    (ids : Nat → Str) (a : AST) (es : List TErr) (_ht : tokenizeStr S text = .ok ts)
    (hp : parse ts = .ok c) (hx : transform ids c = .ok (a, es)) (st : List Token) (bs : Token)
    (ch : Char) (t : Token) (h : .escape st bs ch t ∈ trace [] ts) :
    ⟨.text, some [ch], t.loc⟩ ∈ a.contents := by
  obtain ⟨_, _, _, _, hT⟩ := transform_trans hp hx
  rw [hT.contents, List.mem_filterMap]
  exact ⟨_, h, rfl⟩

/-- In `[a.b \,c]` the escaped comma is text. -/
example : ∃ ts c a es, tokenizeStr sampleSeg (chars! "[a.b \\,c]") = .ok ts ∧ parse ts = .ok c ∧
    transform someIds c = .ok (a, es) ∧
    .escape [⟨.bopen .square, ⟨⟨0, 0⟩, ⟨0, 1⟩⟩⟩] ⟨.backSlash, ⟨⟨0, 5⟩, ⟨0, 6⟩⟩⟩ ','
      ⟨.comma, ⟨⟨0, 6⟩, ⟨0, 7⟩⟩⟩ ∈ trace [] ts ∧
    a.contents.map (·.value) = [some ['a'], some ['b'], some [','], some ['c']] ∧ es = [] :=
  front_case _ _ (by decide) _ (by decide +kernel)

/-- C14 refuted: outside brackets an escaped dot is an error. -/
theorem C14_escape_refuted (S : Segmenter) : ∃ ts c a es, tokenizeStr S (chars! "\\.") = .ok ts ∧
    parse ts = .ok c ∧ transform someIds c = .ok (a, es) ∧
    es.map (·.kind) = [.invalidBackslash] :=
  front_case _ _ (by decide) _ (by decide +kernel)

/-- C14 refuted: after an escaped closing bracket the rest of the argument list is read as if the
command had been closed: in `[a.b \],c]` the comma no longer separates arguments. -/
theorem C14_rest_refuted (S : Segmenter) : ∃ ts c a es,
    tokenizeStr S (chars! "[a.b \\],c]") = .ok ts ∧ parse ts = .ok c ∧
    transform someIds c = .ok (a, es) ∧ es = [] ∧
    a.contents.map (fun x => (x.kind, x.value)) = [(.module, some ['a']), (.ident, some ['b']),
      (.text, some [']']), (.text, some [',', 'c'])] :=
  front_case _ _ (by decide) _ (by decide +kernel)

/-! ### C17 -/

/-- C17 refuted: `\[hello world` makes transform panic. -/
theorem C17_no_panic_refuted (S : Segmenter) : ∃ ts c, tokenizeStr S (chars! "\\[hello world") = .ok ts ∧
    parse ts = .ok c ∧ transform someIds c = .panic :=
  panic_case _ _ (by decide) (by decide +kernel)

/-- C17 refuted: so does `[a.b {c.d e] f`. -/
theorem C17_no_panic_refuted_unclosed (S : Segmenter) : ∃ ts c,
    tokenizeStr S (chars! "[a.b {c.d e] f") = .ok ts ∧ parse ts = .ok c ∧
    transform someIds c = .panic :=
  panic_case _ _ (by decide) (by decide +kernel)

/-- C17: transform panics exactly on the documents in which a dot, comma or space token stands
outside all brackets; on all others it returns a tree and a list of errors. -/
theorem C17_panic_iff (ts : List Token) (c : CST) (ids : Nat → Str) (hp : parse ts = .ok c) :
    (transform ids c = .panic ↔ ∃ e ∈ trace [] ts, e.looseSeparator = true) ∧
    (transform ids c ≠ .panic → ∃ a es, transform ids c = .ok (a, es)) := by
  refine ⟨by rw [transform_panic_iff hp, List.any_eq_true], fun h => ?_⟩
  rcases transform_ok_or_panic (ids := ids) hp with h' | h'
  · exact h'
  · exact absurd h' h

/-- C17 (partial): transform returns a tree and a list of errors on every text in which no opening
bracket is escaped and brackets are left unclosed at the end of the document only. Missing: the
other texts, on which it may panic (`C17_no_panic_refuted`, `C17_no_panic_refuted_unclosed`). -/
theorem C17_no_panic_partial (S : Segmenter) (text : Str) (ts : List Token) (c : CST)
    (ids : Nat → Str) (ht : tokenizeStr S text = .ok ts) (hp : parse ts = .ok c)
    (hesc : ∀ e ∈ trace [] ts, e.escapedOpen = false) (hun : UnclosedAtEnd (trace [] ts)) :
    ∃ a es, transform ids c = .ok (a, es) := by
  refine (C17_panic_iff ts c ids hp).2 ?_
  rw [Ne, transform_panic_iff hp, Bool.not_eq_true]
  refine trace_no_loose ts.length ts [] 0 (Nat.le_refl _) (by simp) ?_ hun hesc
  intro pre t post e hs
  rw [Int.zero_add]
  refine C05_separators_nested S text pre t post (by rw [ht, e]) ?_
  rcases hk : t.kind <;> simp [hk, isSepKind] at hs ⊢

/-- A text with two unclosed brackets, an escaped closing bracket and a missing name meets the
hypotheses. -/
example : ∃ ts c, tokenizeStr sampleSeg (chars! "x [a.b \\] c, {d.e f} {.g") = .ok ts ∧
    parse ts = .ok c ∧ (∀ e ∈ trace [] ts, e.escapedOpen = false) ∧
    UnclosedAtEnd (trace [] ts) := by
  obtain ⟨ts, c, h1, h2, h3, h4, h5⟩ := parse_case sampleSeg (chars! "x [a.b \\] c, {d.e f} {.g")
    (by decide) (fun ts _ => (∀ e ∈ trace [] ts, e.escapedOpen = false) ∧
      (trace [] ts).drop 16 = [⟨.bopen .curly, ⟨⟨0, 21⟩, ⟨0, 22⟩⟩⟩,
        ⟨.bopen .square, ⟨⟨0, 2⟩, ⟨0, 3⟩⟩⟩].map .unclosed ∧
      ∀ e ∈ (trace [] ts).take 16, (match e with | .unclosed _ => false | _ => true) = true)
    (by decide +kernel)
  refine ⟨ts, c, h1, h2, h3, (trace [] ts).take 16, [⟨.bopen .curly, ⟨⟨0, 21⟩, ⟨0, 22⟩⟩⟩,
    ⟨.bopen .square, ⟨⟨0, 2⟩, ⟨0, 3⟩⟩⟩], ?_, ?_⟩
  · rw [← h4, List.take_append_drop]
  · intro e he o ho
    have := h5 e he
    rw [ho] at this
    cases this

/-! ### C18 -/

/-- C18 (partial): if no error is reported, every command has a module or macro, an identifier or
macro and then only non-empty argument expressions. Missing: the rules for the elements of
expressions, which documents with escaped opening brackets violate (`C18_grammar_refuted`). -/
theorem C18_commands_partial (ts : List Token) (c : CST) (ids : Nat → Str) (a : AST)
    (hp : parse ts = .ok c) (hx : transform ids c = .ok (a, [])) (b : Bracket) (i : Str)
    (cs : List AST) (l : Loc) (hn : AST.NodeOf (.node (.bracket b) i cs l) a) :
    AST.isCommand (.node (.bracket b) i cs l) = true := by
  obtain ⟨_, _, _, _, hT⟩ := transform_trans hp hx
  have := hT.good rfl false ⟨by simp, by simp⟩ _ hn
  rw [← shape_command]
  simpa [AST.shape, Shape.rule] using this

/-- C18 (partial): the whole AST follows brack.ast.ebnf when no error is reported and no opening
bracket is escaped. -/
theorem C18_grammar_partial (S : Segmenter) (text : Str) (ts : List Token) (c : CST)
    (ids : Nat → Str) (a : AST) (ht : tokenizeStr S text = .ok ts) (hp : parse ts = .ok c)
    (hx : transform ids c = .ok (a, [])) (hesc : ∀ e ∈ trace [] ts, e.escapedOpen = false) :
    a.Follows := by
  obtain ⟨cs, _, _, _, hT⟩ := transform_trans hp hx
  intro n hn
  rw [← shape_rule]
  refine hT.good rfl true ⟨fun _ => ?_, fun _ => ?_⟩ n hn
  · rw [tokenizeStr_eq] at ht
    injection ht with ht
    obtain ⟨rest, hr⟩ := hT.tokens hp
    have := run_namesOk (S.graphemes text) M.init
    rw [ht, hr, namesOk_append, Bool.and_eq_true] at this
    exact this.1
  · rw [← hT.evs]; exact hesc

/-- A clean document with a nested command and a macro in command position. -/
example : ∃ ts c a es, tokenizeStr sampleSeg (chars! "x\n[a.b c {d.e f, g}, \\\\] <m.n>") = .ok ts ∧
    parse ts = .ok c ∧ transform someIds c = .ok (a, es) ∧ es = [] ∧
    (∀ e ∈ trace [] ts, e.escapedOpen = false) ∧ a.nodes.length = 23 :=
  front_case _ _ (by decide) _ (by decide +kernel)

/-- C18 refuted: the clean document `[x.y \[z ]` has an identifier inside an argument. -/
theorem C18_grammar_refuted (S : Segmenter) : ∃ ts c a es,
    tokenizeStr S (chars! "[x.y \\[z ]") = .ok ts ∧ parse ts = .ok c ∧
    transform someIds c = .ok (a, es) ∧ es = [] ∧ ¬ a.Follows := by
  obtain ⟨ts, c, a, es, h1, h2, h3, h4, h5⟩ := front_case S (chars! "[x.y \\[z ]") (by decide)
    (fun _ _ a es => es = [] ∧ (a.nodes.all AST.followsRule) = false) (by decide +kernel)
  refine ⟨ts, c, a, es, h1, h2, h3, h4, ?_⟩
  intro h
  have : a.nodes.all AST.followsRule = true :=
    List.all_eq_true.mpr (fun n hn => h n (mem_nodes_nodeOf a n hn))
  rw [h5] at this
  cases this

/-! ### C19 -/

/-- C19: the not-closed errors are, in order, exactly the brackets that are never closed: of the
kind of the bracket and starting where the bracket starts. -/
theorem C19_unclosed_reported (S : Segmenter) (text : Str) (ts : List Token) (c : CST)
    (ids : Nat → Str) (a : AST) (es : List TErr) (ht : tokenizeStr S text = .ok ts)
    (hp : parse ts = .ok c) (hx : transform ids c = .ok (a, es)) :
    es.filterMap TErr.notClosed? = (trace [] ts).filterMap Event.unclosed? := by
  obtain ⟨_, _, _, _, hT⟩ := transform_trans hp hx
  exact hT.unclosed (tiles_ordered S ts _ (C03_tiles S text ts ht)).1 hp

/-- The inner brackets are left unclosed by the closing bracket, the last one by the end. -/
example : ∃ ts c a es, tokenizeStr sampleSeg (chars! "[a.b {c.d <e.f]<m.n") = .ok ts ∧
    parse ts = .ok c ∧ transform someIds c = .ok (a, es) ∧
    es.filterMap TErr.notClosed? = [(.angle, ⟨0, 10⟩), (.curly, ⟨0, 5⟩), (.angle, ⟨0, 15⟩)] :=
  front_case _ _ (by decide) _ (by decide +kernel)

example : ∃ ts c a es, tokenizeStr sampleSeg (chars! "[a.b {c.d e <m.n") = .ok ts ∧
    parse ts = .ok c ∧ transform someIds c = .ok (a, es) ∧
    es.filterMap TErr.notClosed? = [(.angle, ⟨0, 12⟩), (.curly, ⟨0, 5⟩), (.square, ⟨0, 0⟩)] :=
  front_case _ _ (by decide) _ (by decide +kernel)

/-! ### C20 -/

/-- C20 refuted: none of these errors is ever reported, on any document. -/
theorem C20_never_reported (ts : List Token) (c : CST) (ids : Nat → Str) (a : AST) (es : List TErr)
    (hp : parse ts = .ok c) (hx : transform ids c = .ok (a, es)) :
    ∀ e ∈ es, e.kind ≠ .mismatchedBracket ∧ (∀ b, e.kind ≠ .notOpened b) ∧
      e.kind ≠ .commaNotFound := by
  obtain ⟨_, _, _, _, hT⟩ := transform_trans hp hx
  intro e he
  rcases hT.rel.kinds e he with h | h | ⟨b, h⟩
  · rcases hk : e.kind <;> simp [hk, TErrKind.isContent] at h ⊢
  · simp [h]
  · simp [h]

/-- C20 refuted: an unopened bracket alone on its line is accepted without any error. -/
theorem C20_unopened_refuted (S : Segmenter) : ∃ ts c a es, tokenizeStr S (chars! "]\nx") = .ok ts ∧
    parse ts = .ok c ∧ transform someIds c = .ok (a, es) ∧ es = [] ∧
    .unopened ⟨.bclose .square, ⟨⟨0, 0⟩, ⟨0, 1⟩⟩⟩ ∈ trace [] ts :=
  front_case _ _ (by decide) _ (by decide +kernel)

/-- C20 (partial): a document in which a closing bracket closes an outer bracket while an inner one
is open is reported, as a bracket not closed. Missing: unopened brackets, which are not reported
(`C20_unopened_refuted`), and the error kinds named in the property, which are never used
(`C20_never_reported`). -/
theorem C20_mismatch_partial (S : Segmenter) (text : Str) (ts : List Token) (c : CST)
    (ids : Nat → Str) (a : AST) (es : List TErr) (ht : tokenizeStr S text = .ok ts)
    (hp : parse ts = .ok c) (hx : transform ids c = .ok (a, es)) (b : Bracket) (l : Loc)
    (h : .unclosed ⟨.bopen b, l⟩ ∈ trace [] ts) :
    ∃ e ∈ es, e.kind = .notClosed b ∧ e.loc.start = l.start := by
  have hf := C19_unclosed_reported S text ts c ids a es ht hp hx
  have : (b, l.start) ∈ es.filterMap TErr.notClosed? := by
    rw [hf, List.mem_filterMap]
    exact ⟨_, h, rfl⟩
  obtain ⟨e, he, h'⟩ := List.mem_filterMap.mp this
  refine ⟨e, he, ?_⟩
  obtain ⟨k, l'⟩ := e
  rcases k <;> simp [TErr.notClosed?] at h' ⊢
  exact h'

example : ∃ ts c a es, tokenizeStr sampleSeg (chars! "[a.b {c.d e]") = .ok ts ∧
    parse ts = .ok c ∧ transform someIds c = .ok (a, es) ∧
    .unclosed ⟨.bopen .curly, ⟨⟨0, 5⟩, ⟨0, 6⟩⟩⟩ ∈ trace [] ts ∧ es.length = 1 :=
  front_case _ _ (by decide) _ (by decide +kernel)

/-! ### C21 -/

/-- C21: the invalid-backslash errors are, in order, exactly the backslashes not followed by an
escapable character, each at its range. -/
theorem C21_backslash (ts : List Token) (c : CST) (ids : Nat → Str) (a : AST) (es : List TErr)
    (hp : parse ts = .ok c) (hx : transform ids c = .ok (a, es)) :
    es.filterMap TErr.invalidBackslash? = (trace [] ts).filterMap Event.stray? := by
  obtain ⟨_, _, _, _, hT⟩ := transform_trans hp hx
  exact hT.strays

example : ∃ ts c a es, tokenizeStr sampleSeg (chars! "a\\b [c.d \\, \\e]\\") = .ok ts ∧
    parse ts = .ok c ∧ transform someIds c = .ok (a, es) ∧
    es.filterMap TErr.invalidBackslash? = [⟨⟨0, 1⟩, ⟨0, 2⟩⟩, ⟨⟨0, 12⟩, ⟨0, 13⟩⟩, ⟨⟨0, 15⟩, ⟨0, 16⟩⟩] :=
  front_case _ _ (by decide) _ (by decide +kernel)

/-! ### C22 -/

/-- C22: the leaves of the AST are, in order, the names and texts of the document, the escaped
characters, and a mark for every backslash that escapes nothing; each with its range, and whatever
errors are reported. -/
theorem C22_content (ts : List Token) (c : CST) (ids : Nat → Str) (a : AST) (es : List TErr)
    (hp : parse ts = .ok c) (hx : transform ids c = .ok (a, es)) :
    a.contents = (trace [] ts).filterMap Event.content? := by
  obtain ⟨_, _, _, _, hT⟩ := transform_trans hp hx
  exact hT.contents

/-- C22 without escapes: the leaves hold exactly the names and texts of the tokens, in order. -/
theorem C22_words (S : Segmenter) (text : Str) (ts : List Token) (c : CST) (ids : Nat → Str)
    (a : AST) (es : List TErr) (ht : tokenizeStr S text = .ok ts) (hp : parse ts = .ok c)
    (hx : transform ids c = .ok (a, es)) (hb : ∀ t ∈ ts, t.kind ≠ .backSlash) :
    a.contents.filterMap (·.value) = ts.filterMap Token.word? ∧
    a.contents.map (·.loc) = (ts.filter (fun t => t.word?.isSome)).map (·.loc) := by
  obtain ⟨body, eof, h1, h2, h3⟩ := C01_tokenize_total S text
  rw [ht] at h1
  injection h1 with h1
  subst h1
  rw [C22_content _ c ids a es hp hx, trace_eof _ _ h2, trace_words _ _
    (fun t h => hb t (by simp [h])) h3]
  have key : ∀ ts : List Token,
      (ts.filterMap (fun t => (Event.plain [] t).content?)).filterMap (·.value) =
        ts.filterMap Token.word? ∧
      (ts.filterMap (fun t => (Event.plain [] t).content?)).map (·.loc) =
        (ts.filter (fun t => t.word?.isSome)).map (·.loc) := by
    intro ts
    induction ts with
    | nil => exact ⟨rfl, rfl⟩
    | cons t ts ih =>
      obtain ⟨k, l⟩ := t
      rcases k with _ | v | v | v | _ | _ | _ | _ | _ | _ | _ | _ <;>
        first | exact ih | exact ⟨congrArg (v :: ·) ih.1, congrArg (l :: ·) ih.2⟩
  have he : eof.word? = none := by simp [Token.word?, h2]
  rw [List.filterMap_append, List.filter_append]
  simpa [he] using key body

/-- A document with several errors. -/
example : ∃ ts c a es, tokenizeStr sampleSeg (chars! "x [a.b c,,d {.e") = .ok ts ∧
    parse ts = .ok c ∧ transform someIds c = .ok (a, es) ∧ (∀ t ∈ ts, t.kind ≠ .backSlash) ∧
    es.length = 5 ∧ a.contents.filterMap (·.value) =
      [chars! "x ", ['a'], ['b'], ['c'], ['d'], ['e']] :=
  front_case _ _ (by decide) _ (by decide +kernel)

/-! ### C23 -/

/-- C23: if no error is reported, the AST is the one the document stands for: in particular the
arguments of every command are its comma-separated groups, in order. -/
theorem C23_arguments (ts : List Token) (c : CST) (ids : Nat → Str) (a : AST)
    (hp : parse ts = .ok c) (hx : transform ids c = .ok (a, [])) : a.shape = c.docShape := by
  obtain ⟨_, _, _, _, hT⟩ := transform_trans hp hx
  exact hT.shape rfl

/-- C23: none of the arguments is empty. -/
theorem C23_nonempty (ts : List Token) (c : CST) (ids : Nat → Str) (a : AST)
    (hp : parse ts = .ok c) (hx : transform ids c = .ok (a, [])) (b : Bracket) (i : Str)
    (m d : AST) (args : List AST) (l : Loc)
    (hn : AST.NodeOf (.node (.bracket b) i (m :: d :: args) l) a) :
    ∀ x ∈ args, ∃ j y ys k, x = .node .expr j (y :: ys) k := by
  have := C18_commands_partial ts c ids a hp hx b i _ l hn
  simp only [AST.isCommand, Bool.and_eq_true, List.all_eq_true] at this
  intro x hx
  have := this.2 x hx
  rcases x with ⟨k, j, v, l⟩ | ⟨k, j, _ | ⟨y, ys⟩, l⟩ <;> rcases k <;> simp [AST.isFullExpr] at this
  exact ⟨_, _, _, _, rfl⟩

/-- `[a.b c {d.e f, g}, h]` has two arguments, the first with two parts. -/
example : ∃ ts c a es, tokenizeStr sampleSeg (chars! "[a.b c {d.e f, g}, h]") = .ok ts ∧
    parse ts = .ok c ∧ transform someIds c = .ok (a, es) ∧ es = [] ∧
    a.shape = .node .document [.node .stmt [.node .expr [.node (.bracket .square)
      [.leaf .module (some ['a']), .leaf .ident (some ['b']),
       .node .expr [.leaf .text (some ['c']), .node (.bracket .curly)
         [.leaf .module (some ['d']), .leaf .ident (some ['e']),
          .node .expr [.leaf .text (some ['f'])], .node .expr [.leaf .text (some ['g'])]]],
       .node .expr [.leaf .text (some ['h'])]]]]] :=
  front_case _ _ (by decide) _ (by decide +kernel)

/-! ### C24 -/

/-- C24 refuted: the argument `hello world` consists of the texts `hello` and `world`; the space is
gone. -/
theorem C24_spaces_refuted (S : Segmenter) : ∃ ts c a es, tokenizeStr S (chars! "[a.b hello world]") = .ok ts ∧
    parse ts = .ok c ∧ transform someIds c = .ok (a, es) ∧ es = [] ∧
    a.shape = .node .document [.node .stmt [.node .expr [.node (.bracket .square)
      [.leaf .module (some ['a']), .leaf .ident (some ['b']),
       .node .expr [.leaf .text (some (chars! "hello")), .leaf .text (some (chars! "world"))]]]]] :=
  front_case _ _ (by decide) _ (by decide +kernel)

/-- C24 (partial): the words of arguments (and of the rest of the document) survive in order, with
the places where they stand, so that the gap between two words is still visible in their ranges.
Missing: the spaces themselves (`C24_spaces_refuted`). -/
theorem C24_words_partial (S : Segmenter) (text : Str) (ts : List Token) (c : CST)
    (ids : Nat → Str) (a : AST) (es : List TErr) (ht : tokenizeStr S text = .ok ts)
    (hp : parse ts = .ok c) (hx : transform ids c = .ok (a, es))
    (hb : ∀ t ∈ ts, t.kind ≠ .backSlash) :
    a.contents.filterMap (·.value) = ts.filterMap Token.word? ∧
    a.contents.map (·.loc) = (ts.filter (fun t => t.word?.isSome)).map (·.loc) :=
  C22_words S text ts c ids a es ht hp hx hb

example : ∃ ts c a es, tokenizeStr sampleSeg (chars! "[a.b hello  world]") = .ok ts ∧
    parse ts = .ok c ∧ transform someIds c = .ok (a, es) ∧ (∀ t ∈ ts, t.kind ≠ .backSlash) ∧
    a.contents.map (fun x => (x.value, x.loc.start.character, x.loc.stop.character)) =
      [(some ['a'], 1, 2), (some ['b'], 3, 4), (some (chars! "hello"), 5, 10),
       (some (chars! "world"), 12, 17)] :=
  front_case _ _ (by decide) _ (by decide +kernel)

/-! ### C25 -/

/-- C25: if the identifiers drawn are pairwise different, so are the identifiers of the nodes, and
looking an identifier up returns the node that carries it. -/
theorem C25_unique_ids (ts : List Token) (c : CST) (ids : Nat → Str) (a : AST) (es : List TErr)
    (hids : ∀ i j, ids i = ids j → i = j) (hp : parse ts = .ok c)
    (hx : transform ids c = .ok (a, es)) :
    (a.nodes.map AST.id).Nodup ∧ ∀ n, AST.NodeOf n a → a.get n.id = some n := by
  obtain ⟨_, _, _, _, hT⟩ := transform_trans hp hx
  have h := hT.spec.ids.2.2 hids
  exact ⟨h, fun n hn => get_node a h n (NodeOf.mem_nodes hn)⟩

/-- C25: an identifier no node carries is not found. -/
theorem C25_absent_ids (a : AST) (i : Str) (h : ∀ n, AST.NodeOf n a → n.id ≠ i) :
    a.get i = none := by
  refine get_none i a ?_
  intro n hn
  refine h n ?_
  exact mem_nodes_nodeOf a n hn

example : (∀ i j, someIds i = someIds j → i = j) ∧ ∃ ts c a es,
    tokenizeStr sampleSeg (chars! "x [a.b c,,d {.e") = .ok ts ∧ parse ts = .ok c ∧
    transform someIds c = .ok (a, es) ∧ a.nodes.length = 13 :=
  ⟨someIds_inj, front_case _ _ (by decide) _ (by decide +kernel)⟩

/-! ### C26 -/

/-- C26: every reported range starts where a token starts, ends where a token ends, and does not end
before it starts. -/
theorem C26_ranges (S : Segmenter) (text : Str) (ts : List Token) (c : CST) (ids : Nat → Str)
    (a : AST) (es : List TErr) (ht : tokenizeStr S text = .ok ts) (hp : parse ts = .ok c)
    (hx : transform ids c = .ok (a, es)) : ∀ e ∈ es, (∃ t ∈ ts, e.loc.start = t.loc.start) ∧
      (∃ u ∈ ts, e.loc.stop = u.loc.stop) ∧ e.loc.start.le e.loc.stop := by
  obtain ⟨_, _, _, _, hT⟩ := transform_trans hp hx
  have ho := (tiles_ordered S ts _ (C03_tiles S text ts ht)).1
  have hpl := parse_placed ho hp
  rw [hT.doc] at hpl
  exact hT.rel.errsIn ho (hpl.children (by simp))

example : ∃ ts c a es, tokenizeStr sampleSeg (chars! "x [a.b c,,d {.e") = .ok ts ∧
    parse ts = .ok c ∧ transform someIds c = .ok (a, es) ∧
    es.map (fun e => (e.kind, e.loc.start.character, e.loc.stop.character)) =
      [(.notClosed .curly, 12, 15), (.moduleNotFound, 13, 14), (.dotNotFound, 14, 15),
       (.notClosed .square, 2, 15), (.unexpectedComma, 9, 10)] :=
  front_case _ _ (by decide) _ (by decide +kernel)

/-! ### C59 -/

/-- C59: no error is reported exactly if the document is well-formed. -/
theorem C59_clean_iff (ts : List Token) (c : CST) (ids : Nat → Str) (a : AST) (es : List TErr)
    (hp : parse ts = .ok c) (hx : transform ids c = .ok (a, es)) : es = [] ↔ c.WellFormed := by
  obtain ⟨_, _, _, _, hT⟩ := transform_trans hp hx
  exact hT.wellFormed

/-- A document with nested commands, a macro as module, escapes and several arguments is clean. -/
example : ∃ ts c a es, tokenizeStr sampleSeg (chars! "x [a.b c {d.e f}, \\\\ g]\n\n{<m.n>.<o.p>}") = .ok ts ∧
    parse ts = .ok c ∧ transform someIds c = .ok (a, es) ∧ es = [] :=
  front_case _ _ (by decide) _ (by decide +kernel)

/-- A blank argument is reported. -/
example : ∃ ts c a es, tokenizeStr sampleSeg (chars! "x [a.b c, , d]") = .ok ts ∧
    parse ts = .ok c ∧ transform someIds c = .ok (a, es) ∧ es.map (·.kind) = [.unexpectedComma] :=
  front_case _ _ (by decide) _ (by decide +kernel)

/-! ### C60 -/

/-- C60 refuted: one and the same dot is reported twice. -/
theorem C60_once_refuted (S : Segmenter) : ∃ ts c a es, tokenizeStr S (chars! "[a.b c.d]") = .ok ts ∧
    parse ts = .ok c ∧ transform someIds c = .ok (a, es) ∧
    es = [⟨.unexpectedDot, ⟨⟨0, 6⟩, ⟨0, 7⟩⟩⟩, ⟨.unexpectedDot, ⟨⟨0, 6⟩, ⟨0, 7⟩⟩⟩] :=
  front_case _ _ (by decide) _ (by decide +kernel)

/-- C60 (partial): no bracket is reported as not closed twice and no backslash is reported as invalid
twice. Missing: the errors about the contents of commands (`C60_once_refuted`). -/
theorem C60_once_partial (S : Segmenter) (text : Str) (ts : List Token) (c : CST) (ids : Nat → Str)
    (a : AST) (es : List TErr) (ht : tokenizeStr S text = .ok ts) (hp : parse ts = .ok c)
    (hx : transform ids c = .ok (a, es)) :
    (es.filterMap TErr.notClosed?).Nodup ∧ (es.filterMap TErr.invalidBackslash?).Nodup := by
  have hn := trace_reported_nodup (tokens_starts_nodup S text ts ht)
  rw [C19_unclosed_reported S text ts c ids a es ht hp hx, C21_backslash ts c ids a es hp hx]
  refine ⟨nodup_view _ (fun x => x.2) ?_ hn, nodup_view _ (fun x => x.start) ?_ hn⟩
  · intro e b h
    rcases e with _ | _ | _ | _ | ⟨⟨k, l⟩⟩ | _ <;> simp [Event.unclosed?] at h
    rcases k <;> simp at h
    subst h
    exact ⟨_, rfl, rfl⟩
  · intro e b h
    rcases e with _ | _ | ⟨st, t⟩ | _ | _ | _ <;> simp [Event.stray?] at h
    subst h
    exact ⟨_, rfl, rfl⟩

example : ∃ ts c a es, tokenizeStr sampleSeg (chars! "\\a [a.b {c.d \\e <f.g]") = .ok ts ∧
    parse ts = .ok c ∧ transform someIds c = .ok (a, es) ∧
    es.filterMap TErr.notClosed? = [(.angle, ⟨0, 16⟩), (.curly, ⟨0, 8⟩)] ∧
    es.filterMap TErr.invalidBackslash? = [⟨⟨0, 0⟩, ⟨0, 1⟩⟩, ⟨⟨0, 13⟩, ⟨0, 14⟩⟩] :=
  front_case _ _ (by decide) _ (by decide +kernel)

end Brack
