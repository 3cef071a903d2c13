import Verif.Proof.Repair
import Verif.Props.Transform
import Verif.Props.Parser
import Verif.Proof.Cases

/-
Properties of repairing documents (C135).
-/

namespace Brack

/-! ### C135 -/

/-- C135: if a document can be read and no name is due at its end, it can still be read after a further line with the closing
brackets of the brackets that are open at its end, innermost first; and then exactly those brackets are no more reported as
not closed. The brackets still reported are those that were passed over by a closing bracket of another kind. -/
theorem C135_closed (S : Segmenter) (ids : Nat → Str) (text : Str) (hcr : ∀ x, text ≠ x ++ ['\r'])
    (hnul : Char.ofNat 0 ∉ text) (ts : List Token) (e : Token) (ht : tokenizeStr S text = .ok (ts ++ [e]))
    (hn : nameDue false ts = false) (a : AST) (es : List TErr) (hr : Reads S ids text a es) :
    ∃ a' es', Reads S ids (text ++ '\n' :: closersOf (openAtEnd [] ts)) a' es' ∧
      es.filterMap TErr.notClosed? = es'.filterMap TErr.notClosed? ++ (openAtEnd [] ts).filterMap Token.opening? := by
  obtain ⟨ts0, c, h1, h2, h3⟩ := hr
  rw [ht] at h1; injection h1 with h1; subst h1
  obtain ⟨he, hts⟩ := tokens_eof ht
  have hO : Opens (openAtEnd [] ts) := openAtEnd_opens ts [] (by simp [Opens])
  obtain ⟨cl, e', hrun, hcl, he'⟩ := run_closers ((openAtEnd [] ts).map Token.bracket) (M.fresh (depth ts) false) rfl
  have hgr : S.graphemes (closersOf (openAtEnd [] ts)) =
      ((openAtEnd [] ts).map Token.bracket).map fun b => [b.closeChar] := by
    rw [closersOf_eq hO, S.ascii _ (by
      intro x hx
      obtain ⟨o, -, rfl⟩ := List.mem_map.mp hx
      cases o.bracket <;> decide)]
    simp
  have hb := tokens_below S text (closersOf (openAtEnd [] ts)) hcr hnul ht hn
  rw [hgr, hrun, List.map_append, List.map_cons, List.map_nil] at hb
  generalize hd : e.loc.start.line + 1 = d at hb
  have hk : ∀ t : Token, (t.down d).kind = t.kind := fun t => rfl
  have hC : ClosesAll (openAtEnd [] ts) (cl.map (Token.down d)) := by
    rw [ClosesAll, List.map_map]
    rw [List.map_map] at hcl
    exact hcl
  have hE : (e'.down d).kind = .eof := he'
  generalize hnl : (⟨.newLine, ⟨e.loc.start, ⟨e.loc.start.line, e.loc.start.character + 1⟩⟩⟩ : Token) = nl at hb
  have hnk : nl.kind = .newLine := by rw [← hnl]
  have hacc := (C11_accepts_iff _).1 ⟨c, h2⟩
  have hacc' : accepts [] .start ((ts ++ nl :: (cl.map (Token.down d) ++ [e'.down d])).map (·.kind)) = true := by
    have := accepts_split e (.newLine :: (cl.map (Token.down d) ++ [e'.down d]).map (·.kind)) he
      (by intro k ks' h; injection h with h; exact h.symm) (by simp) ts [] .start (by simp [Opens])
      (fun q => accepts_newline _ _ _ (fun q => accepts_closesAll _ _ _ q hC hE)) hacc
    rw [List.map_append, List.map_cons, hnk]
    exact this
  obtain ⟨c', h2'⟩ := (C11_accepts_iff _).2 hacc'
  obtain ⟨evs, hev⟩ := trace_split ts [] hts
  have t1 := hev e [] (by rw [he]; decide)
  have t2 := hev nl (cl.map (Token.down d) ++ [e'.down d]) (by rw [hnk]; decide)
  have t3 : trace (openAtEnd [] ts) [e] = (openAtEnd [] ts).map .unclosed := by rw [trace]; simp only [he]
  have t4 : trace (openAtEnd [] ts) (nl :: (cl.map (Token.down d) ++ [e'.down d])) =
      .plain (openAtEnd [] ts) nl :: trace (openAtEnd [] ts) (cl.map (Token.down d) ++ [e'.down d]) := by
    rw [trace.eq_def]; simp only [hnk]
  rw [t3] at t1
  rw [t4] at t2
  obtain ⟨u1, u2⟩ := trace_closesAll _ _ _ hO hC hE
  have hx : transform ids c' ≠ .panic := by
    intro hpan
    obtain ⟨x, hx, hx2⟩ := ((C17_panic_iff _ c' ids h2').1).1 hpan
    rw [t2] at hx
    have hold : transform ids c = .panic := ((C17_panic_iff _ c ids h2).1).2 (by
      rcases List.mem_append.mp hx with hx | hx
      · exact ⟨x, by rw [t1]; exact List.mem_append_left _ hx, hx2⟩
      · rcases List.mem_cons.mp hx with rfl | hx
        · exfalso
          rcases nl with ⟨k, l⟩
          simp only at hnk
          subst hnk
          rcases hst : openAtEnd [] ts with _ | _ <;> rw [hst] at hx2 <;> simp [Event.looseSeparator] at hx2
        · rw [u2 x hx] at hx2; cases hx2)
    rw [h3] at hold; cases hold
  obtain ⟨a', es', h3'⟩ := (C17_panic_iff _ c' ids h2').2 hx
  refine ⟨a', es', ⟨_, c', hb, h2', h3'⟩, ?_⟩
  rw [C19_unclosed_reported S _ _ c ids a es ht h2 h3, C19_unclosed_reported S _ _ c' ids a' es' hb h2' h3', t1, t2]
  rw [List.filterMap_append, List.filterMap_append, List.filterMap_cons]
  simp only [Event.unclosed?, u1, List.append_nil]
  congr 1
  have : ∀ st : List Token, (st.map Event.unclosed).filterMap Event.unclosed? = st.filterMap Token.opening? := by
    intro st
    rw [List.filterMap_map]
    congr 1
    funext o
    rcases o with ⟨k, l⟩
    cases k <;> rfl
  exact this _

/-- C135: in particular, if the brackets reported as not closed are just those open at the end, none is reported as not closed any more. -/
theorem C135_all (S : Segmenter) (ids : Nat → Str) (text : Str) (hcr : ∀ x, text ≠ x ++ ['\r'])
    (hnul : Char.ofNat 0 ∉ text) (ts : List Token) (e : Token) (ht : tokenizeStr S text = .ok (ts ++ [e]))
    (hn : nameDue false ts = false) (a : AST) (es : List TErr) (hr : Reads S ids text a es)
    (hu : es.filterMap TErr.notClosed? = (openAtEnd [] ts).filterMap Token.opening?) :
    ∃ a' es', Reads S ids (text ++ '\n' :: closersOf (openAtEnd [] ts)) a' es' ∧ es'.filterMap TErr.notClosed? = [] := by
  obtain ⟨a', es', h1, h2⟩ := C135_closed S ids text hcr hnul ts e ht hn a es hr
  rw [hu] at h2
  exact ⟨a', es', h1, List.self_eq_append_left.mp h2⟩

/-- The text of the examples below: `{` is passed over by the closing bracket of `[`, `<` and the second `[` are open at the
end; on a further line, they are closed by `]` and `>`. -/
example (S : Segmenter) : ∃ ts e a es, tokenizeStr S (chars! "[m.f {n.g ]<p.h \\{ [q.k x") = .ok (ts ++ [e]) ∧
    Reads S someIds (chars! "[m.f {n.g ]<p.h \\{ [q.k x") a es ∧ nameDue false ts = false ∧
    closersOf (openAtEnd [] ts) = chars! "]>" ∧
    es.filterMap TErr.notClosed? = [(.curly, ⟨0, 5⟩), (.square, ⟨0, 19⟩), (.angle, ⟨0, 11⟩)] := by
  obtain ⟨ts, c, a, es, h1, h2, h3, h4, h5, h6, h7⟩ := front_case S (chars! "[m.f {n.g ]<p.h \\{ [q.k x") (by decide +kernel)
    (fun ts _ _ es => ts ≠ [] ∧ nameDue false ts.dropLast = false ∧ closersOf (openAtEnd [] ts.dropLast) = chars! "]>" ∧
      es.filterMap TErr.notClosed? = [(.curly, ⟨0, 5⟩), (.square, ⟨0, 19⟩), (.angle, ⟨0, 11⟩)]) (by decide +kernel)
  exact ⟨ts.dropLast, ts.getLast h4, a, es, by rw [List.dropLast_concat_getLast]; exact h1, ⟨ts, c, h1, h2, h3⟩, h5, h6, h7⟩

/-- After the further line, only the bracket that was passed over is reported. -/
example (S : Segmenter) : ∃ a es, Reads S someIds (chars! "[m.f {n.g ]<p.h \\{ [q.k x\n]>") a es ∧
    es.filterMap TErr.notClosed? = [(.curly, ⟨0, 5⟩)] := by
  obtain ⟨ts, c, a, es, h1, h2, h3, h4⟩ := front_case S (chars! "[m.f {n.g ]<p.h \\{ [q.k x\n]>") (by decide +kernel)
    (fun _ _ _ es => es.filterMap TErr.notClosed? = [(.curly, ⟨0, 5⟩)]) (by decide +kernel)
  exact ⟨a, es, ⟨ts, c, h1, h2, h3⟩, h4⟩

/-- A text whose brackets are left open at its end only. -/
example (S : Segmenter) : ∃ ts e a es, tokenizeStr S (chars! "[m.f {n.g x") = .ok (ts ++ [e]) ∧
    Reads S someIds (chars! "[m.f {n.g x") a es ∧ nameDue false ts = false ∧ (openAtEnd [] ts).length = 2 ∧
    es.filterMap TErr.notClosed? = (openAtEnd [] ts).filterMap Token.opening? := by
  obtain ⟨ts, c, a, es, h1, h2, h3, h4, h5, h6, h7⟩ := front_case S (chars! "[m.f {n.g x") (by decide +kernel)
    (fun ts _ _ es => ts ≠ [] ∧ nameDue false ts.dropLast = false ∧ (openAtEnd [] ts.dropLast).length = 2 ∧
      es.filterMap TErr.notClosed? = (openAtEnd [] ts.dropLast).filterMap Token.opening?) (by decide +kernel)
  exact ⟨ts.dropLast, ts.getLast h4, a, es, by rw [List.dropLast_concat_getLast]; exact h1, ⟨ts, c, h1, h2, h3⟩, h5, h6, h7⟩

end Brack
