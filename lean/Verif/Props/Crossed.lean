import Verif.Proof.Crossed
import Verif.Proof.PluginCases
import Verif.Props.Exchange

/-
Properties of inline and block commands (C127).
-/

namespace Brack

open UTable (sampleSeg)

/-! ### C127 -/

/-- C127: code generation does the same for inline and block commands. If every inline command becomes a block command and the
other way around, both in the document and in what the plugins offer, then the outcome is the same, be it a text, an error or
a crash; the plugins are called with the same values in the same order and end up in the same states. -/
theorem C127_generate {W : Wasm} (checks : Bool) (a : AST) (ha : a.Unbracketed) (ps qs : Plugins W) (h : Crossed ps qs) :
    (generate checks (a.exchange Bracket.other) qs).1 = (generate checks a ps).1 ∧
      Crossed (generate checks a ps).2 (generate checks (a.exchange Bracket.other) qs).2 := by
  obtain ⟨h1, h2⟩ := generate_crossed checks a ha ps qs h
  exact ⟨h1.symm, h2⟩

/-- C127: a document compiles to a text exactly if the document with square and curly brackets exchanged compiles to it with
the plugins that offer inline commands as block commands and the other way around. -/
theorem C127_compile {W : Wasm} (S : Segmenter) (hS : S.Exchanges Bracket.other) (ids : Nat → Str) (checks : Bool) (text : Str)
    (hu : ∀ a es, Reads S ids text a es → a.Unbracketed) (ps qs : Plugins W) (h : Crossed ps qs) (out : Str) :
    (compileText S ids checks (exchangeStr Bracket.other text) qs).1 = .ok out ↔ (compileText S ids checks text ps).1 = .ok out := by
  have hread : ∀ b fs, Reads S ids (exchangeStr Bracket.other text) b fs ↔
      ∃ a es, Reads S ids text a es ∧ b = a.exchange Bracket.other ∧ fs = es.map (TErr.exchange Bracket.other) := by
    have := C126_read S hS ids text
    intro b fs
    have e : ∀ t b fs, Reads S ids t b fs ↔ (do transform ids (← parse (← tokenizeStr S t))) = Res.ok (b, fs) := by
      intro t b fs
      unfold Reads
      constructor
      · rintro ⟨ts, c, h1, h2, h3⟩
        rw [h1]
        show (parse ts).bind _ = _
        rw [h2]
        exact h3
      · intro h
        rcases h1 : tokenizeStr S t with ts | _ | _
        · rw [h1] at h
          change (parse ts).bind _ = _ at h
          rcases h2 : parse ts with c | _ | _
          · rw [h2] at h
            exact ⟨ts, c, rfl, h2, h⟩
          · rw [h2] at h; cases h
          · rw [h2] at h; cases h
        · rw [h1] at h; cases h
        · rw [h1] at h; cases h
    rw [e, this]
    simp only [e]
    rcases (do transform ids (← parse (← tokenizeStr S text)) : Res (AST × List TErr)) with ⟨a, es⟩ | _ | _
    · simp only [Res.map, Res.ok.injEq, Prod.mk.injEq]
      constructor
      · rintro ⟨rfl, rfl⟩; exact ⟨a, es, ⟨rfl, rfl⟩, rfl, rfl⟩
      · rintro ⟨a', es', ⟨rfl, rfl⟩, rfl, rfl⟩; exact ⟨rfl, rfl⟩
    · simp [Res.map]
    · simp [Res.map]
  have run : ∀ t (xs : Plugins W), (compileText S ids checks t xs).1 = .ok out ↔
      ∃ a es, Reads S ids t a es ∧ (generate checks a xs).1 = .ok out := by
    intro t xs
    constructor
    · intro hx
      obtain ⟨a, es, h1, h2⟩ := compileText_iff.mp (Prod.ext hx rfl : compileText S ids checks t xs = (.ok out, _))
      exact ⟨a, es, h1, by rw [h2]⟩
    · rintro ⟨a, es, h1, h2⟩
      rw [compileText_iff.mpr ⟨a, es, h1, (Prod.ext h2 rfl : generate checks a xs = (.ok out, _))⟩]
  rw [run, run]
  constructor
  · rintro ⟨b, fs, hb, hg⟩
    obtain ⟨a, es, ha, rfl, rfl⟩ := (hread b fs).mp hb
    exact ⟨a, es, ha, by rw [← hg]; exact (C127_generate checks a (hu a es ha) ps qs h).1.symm⟩
  · rintro ⟨a, es, ha, hg⟩
    exact ⟨_, _, (hread _ _).mpr ⟨a, es, ha, rfl, rfl⟩, by rw [← hg]; exact (C127_generate checks a (hu a es ha) ps qs h).1⟩

/-- Plugin sets with a plugin `p` offering the commands `f`, with an optional parameter, and `g`, with any number of
parameters, of these kinds. -/
def twoCommands (t u : PType) : Plugins sampleWasm :=
  ⟨[(['p'], ⟨['p'], (0 : Nat), [((['f'], t), ⟨['f'], chars! "call_f", [(['x'], .inline), (['y'], .option .inline)], t⟩),
    ((['g'], u), ⟨['g'], chars! "call_g", [(['x'], .array .inline)], u⟩)], noHooks⟩)], none, none, none, none, []⟩

theorem twoCommands_crossed : Crossed (twoCommands .inline .block) (twoCommands .block .inline) := by
  refine ⟨fun k => by cases k <;> rfl, fun n => ?_, rfl⟩
  by_cases hn : ['p'] = n
  · subst hn
    refine .inr ⟨_, _, rfl, rfl, rfl, fun c t ht => ?_, fun k hk => by cases k <;> cases hk⟩
    by_cases h1 : ['f'] = c
    · subst h1
      rcases ht with rfl | rfl <;> simp [HMap.get, PType.other, SameOffer]
    · by_cases h2 : ['g'] = c
      · subst h2
        rcases ht with rfl | rfl <;> simp [HMap.get, PType.other, SameOffer]
      · simp [HMap.get, h1, h2, SameOffer]
  · exact .inl ⟨by simp [twoCommands, HMap.get, hn], by simp [twoCommands, HMap.get, hn]⟩

theorem compile_case {text gen : Str} {ps : Plugins sampleWasm} (h : ∃ ts c a es, tokenizeStr sampleSeg text = .ok ts ∧
    parse ts = .ok c ∧ transform someIds c = .ok (a, es) ∧
    ((do let b ← expander a; generate true b : PM _ Str) ps).1 = .ok gen) :
    (compileText sampleSeg someIds true text ps).1 = .ok gen := by
  obtain ⟨ts, c, a, es, h1, h2, h3, h4⟩ := h
  rw [compileText_front h1 h2 h3]
  exact h4

/-- The brackets in words must be left out: an escaped bracket is written as it is. -/
theorem C127_escaped : ∃ (text : Str) (ps qs : Plugins sampleWasm) (out out' : Str), Crossed ps qs ∧ out ≠ out' ∧
    (compileText sampleSeg someIds true text ps).1 = .ok out ∧
    (compileText sampleSeg someIds true (exchangeStr Bracket.other text) qs).1 = .ok out' :=
  ⟨chars! "a \\[", _, _, chars! "a [", chars! "a {", twoCommands_crossed, by decide,
    compile_case (front_case _ _ (by decide) _ (by decide +kernel)), compile_case (front_case _ _ (by decide) _ (by decide +kernel))⟩

/-- A document with nested commands of both kinds, and the one with the brackets exchanged. -/
example : exchangeStr Bracket.other (chars! "a [p.f {p.g x, y}, z]") = chars! "a {p.f [p.g x, y], z}" ∧
    (∀ a es, Reads sampleSeg someIds (chars! "a [p.f {p.g x, y}, z]") a es → a.Unbracketed) ∧
    (compileText sampleSeg someIds true (chars! "a [p.f {p.g x, y}, z]") (twoCommands .inline .block)).1 =
      .ok (chars! "a f(g([x;y;],),+z,)") ∧
    (compileText sampleSeg someIds true (chars! "a {p.f [p.g x, y], z}") (twoCommands .block .inline)).1 =
      .ok (chars! "a f(g([x;y;],),+z,)") := by
  refine ⟨by decide, fun a es h => ?_, compile_case (front_case _ _ (by decide) _ (by decide +kernel)),
    compile_case (front_case _ _ (by decide) _ (by decide +kernel))⟩
  obtain ⟨ts, c, b, fs, h1, h2, h3, h4⟩ := front_case sampleSeg (chars! "a [p.f {p.g x, y}, z]") (by decide)
    (fun _ _ b _ => ∀ c ∈ b.contents, ∀ x ∈ c.value.getD [], x ∉ ['{', '}', '[', ']']) (by decide +kernel)
  obtain ⟨rfl, rfl⟩ := reads_det h ⟨ts, c, h1, h2, h3⟩
  exact h4

end Brack
