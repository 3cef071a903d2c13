import Verif.Proof.CallDoc
import Verif.Props.Sources

/-
C115: any call can be written as a document.
-/

namespace Brack

variable {W : Wasm}

/-- C115: for each command and arguments without spaces, line ends and brackets there is a document, the same for all
plugins, that makes exactly this call, with exactly these arguments, whatever else they consist of: dots, commas and
backslashes too. Missing: arguments with spaces, line ends, carriage returns, brackets or NUL, and empty arguments. -/
theorem C115_any_partial (S : Segmenter) (b : Bracket) (typ : PType) (hb : b.commandType = some typ) (m n : Str)
    (args : List Str) (hm : plainBut markChars m = true) (hn : plainBut markChars n = true)
    (ho : OwnClusters S (b.openChar :: m ++ '.' :: n ++ [' '])) (hp : ∀ a ∈ args, Passable S a)
    (hlen : args.length ≤ usizeMax) :
    ∃ doc, ∀ (W : Wasm) (ids : Nat → Str) (checks : Bool) (ps : Plugins W) (ts : List PType), NoHooks ps →
      ps.signature m n typ = some ts → Standard ts → ts.length ≤ usizeMax → Admissible ts args.length →
      ∃ vs out, (compileText S ids checks doc ps).2.log = ps.log ++ [⟨m, n, typ, .values vs, out⟩] ∧
        vs.flatMap Value.arguments = args ∧ PassedAll args ts vs := by
  refine ⟨callDoc S b m n args, fun W ids ck ps ts h hsig hs hl ha => ?_⟩
  obtain ⟨vs, out, hv, hlog⟩ := callDoc_compiles ids ck h hb hm hn ho hp hsig hs hl hlen ha
  exact ⟨vs, out, hlog, hs.delivers ha (bindArgs_passed hv), bindArgs_passed hv⟩

/-- C115 refuted for line feeds: no document makes just one call with the argument `a`, line feed, `b`, whatever the
command and the plugins. -/
theorem C115_line_feed_refuted (S : Segmenter) (ids : Nat → Str) (checks : Bool) (ps : Plugins W) (m n : Str) (typ : PType)
    (out : Output) :
    ¬ ∃ doc, (compileText S ids checks doc ps).2.log = ps.log ++ [⟨m, n, typ, .values [.text (chars! "a\nb")], out⟩] := by
  rintro ⟨doc, h⟩
  have := C114_breaks S ids checks doc ps [] [] _ (by rw [List.append_nil]; exact h) (chars! "a\nb")
    (by simp [Call.texts, Value.arguments]) (by simp)
  obtain ⟨a, ha⟩ := this.1 ['a'] ['b'] rfl
  have := congrArg List.getLast? ha
  simp at this

/-- The document for a call with two arguments, one of them a path with backslashes and dots. -/
example : callDoc UTable.sampleSeg .square ['p'] ['g'] [chars! "a.b", chars! "\\x,"] =
    chars! "[p.g \na\n\\.\nb\n,\n\\\\\nx\n\\,\n]" := by decide +kernel

/-- It can be written, and this is the call made. -/
example : (∀ a ∈ [chars! "a.b", chars! "\\x,"], Passable UTable.sampleSeg a) ∧
    OwnClusters UTable.sampleSeg (Bracket.openChar .square :: ['p'] ++ '.' :: ['g'] ++ [' ']) ∧
    (compileText UTable.sampleSeg someIds true (callDoc UTable.sampleSeg .square ['p'] ['g'] [chars! "a.b", chars! "\\x,"])
      (sampleSet noHooks)).2.log.map Call.texts = [[chars! "a.b", chars! "\\x,"]] := by
  refine ⟨?_, own_ascii _ (by decide), by decide +kernel⟩
  intro a ha
  simp only [List.mem_cons, List.not_mem_nil, or_false] at ha
  rcases ha with rfl | rfl <;> exact ⟨by decide, by decide, by decide, own_ascii _ (by decide)⟩

/-- A call without arguments. -/
example : (compileText UTable.sampleSeg someIds true (callDoc UTable.sampleSeg .square ['p'] ['f'] [])
      (sampleSet noHooks)).2.log.map (fun c => (c.command, c.texts)) = [(['f'], [])] := by decide +kernel

end Brack
