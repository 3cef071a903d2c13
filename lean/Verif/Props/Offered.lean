import Verif.Proof.Offered
import Verif.Proof.Paragraphs
import Verif.Proof.Cases
import Verif.Proof.PluginCases
import Verif.Props.Parts
import Verif.Props.Tokenizer

/-
C118: commands that no plugin offers are not passed over.
-/

namespace Brack

/-- C118: if a document compiles, then each command in it (opened by an unescaped bracket, at any depth, closed or not,
and whatever errors were found) begins with the name of a plugin and the name of a command which that plugin offers for
this kind of bracket. -/
theorem C118_offered {W : Wasm} (S : Segmenter) (ids : Nat → Str) (checks : Bool) (text : Str) (ps : Plugins W)
    (ts : List Token) (ht : tokenizeStr S text = .ok ts) (h : (compileText S ids checks text ps).1.isOk = true)
    (pre : List (Around × Part)) (x : Around) (b : Bracket) (p : Pos) (rest : List (Around × Part))
    (hb : tokenParts [] ts = pre ++ (x, .command b p) :: rest) :
    ∃ y m l z n l' rest' typ sig, rest = (y, .leaf ⟨.module, some m, l⟩) :: (z, .leaf ⟨.ident, some n, l'⟩) :: rest' ∧
      b.commandType = some typ ∧ ps.signature m n typ = some sig := by
  rcases hc : compileText S ids checks text ps with ⟨r, ps'⟩
  rw [hc] at h
  rcases r with gen | e | _
  · obtain ⟨a, es, ⟨ts', c, h1, h2, h3⟩, h4⟩ := compileText_iff.mp hc
    rw [ht] at h1
    injection h1 with h1
    subst h1
    have hf := (generate_fine (ck := checks) (a := a) (ps := ps) (r := gen) (by rw [h4])).2
    rw [← C97_parts ts c ids a es h2 h3] at hb
    exact parts_offered a [] (fun n hn => (hf n hn).2) pre x b p rest hb
  · cases h
  · cases h

/-- C118, in the tokens: a document with `[module.name` in it, the bracket not coming after a backslash, does not compile
unless the plugin of this name is loaded and offers a command of this name for this kind of bracket. -/
theorem C118_unknown {W : Wasm} (S : Segmenter) (ids : Nat → Str) (checks : Bool) (text : Str) (ps : Plugins W)
    (pre post : List Token) (b : Bracket) (m n : Str) (l1 l2 l3 l4 : Loc)
    (ht : tokenizeStr S text = .ok (pre ++ ⟨.bopen b, l1⟩ :: ⟨.module m, l2⟩ :: ⟨.dot, l3⟩ :: ⟨.ident n, l4⟩ :: post))
    (hp : ∀ t, pre.getLast? = some t → t.kind ≠ .backSlash)
    (hu : ∀ typ, b.commandType = some typ → ps.signature m n typ = none) :
    (compileText S ids checks text ps).1.isOk = false := by
  rcases ho : (compileText S ids checks text ps).1.isOk
  · rfl
  · exfalso
    obtain ⟨body, eof, h1, h2, h3⟩ := C01_tokenize_total S text
    rw [ht] at h1
    injection h1 with h1
    have hpre : ∀ t ∈ pre, t.kind ≠ .eof ∧ t.kind ≠ .empty := by
      intro t hm
      refine h3 t ?_
      rcases List.append_eq_append_iff.mp h1 with ⟨as, k1, _⟩ | ⟨bs, k1, k2⟩
      · rw [k1]; simp [hm]
      · rcases bs with _ | ⟨q, bs⟩
        · rw [k1] at hm; simpa using hm
        · exfalso
          have := congrArg List.length k2
          simp at this
    obtain ⟨X, a1, a2, hX⟩ := tokenParts_open b l1 (⟨.module m, l2⟩ :: ⟨.dot, l3⟩ :: ⟨.ident n, l4⟩ :: post) pre.length pre []
      (Nat.le_refl _) hpre hp
    obtain ⟨y, m', l, z, n', l', rest', typ, sig, k1, k2, k3⟩ :=
      C118_offered S ids checks text ps _ ht ho X a1 b l1.start _ hX
    simp only [tokenParts] at k1
    injection k1 with k1 k4
    injection k4 with k4 _
    injection k1 with _ k1
    injection k1 with k1
    injection k1 with _ k1
    injection k4 with _ k4
    injection k4 with k4
    injection k4 with _ k4
    injection k1 with k1
    injection k4 with k4
    subst k1 k4
    rw [hu typ k2] at k3
    cases k3

/-- C118, without plugins: only documents without commands compile. -/
theorem C118_no_plugins {W : Wasm} (S : Segmenter) (ids : Nat → Str) (checks : Bool) (text : Str) (ps : Plugins W)
    (hn : ∀ m n typ, ps.signature m n typ = none) (ts : List Token) (ht : tokenizeStr S text = .ok ts)
    (h : (compileText S ids checks text ps).1.isOk = true) : ∀ x ∈ tokenParts [] ts, x.2.command? = none := by
  rintro ⟨x, b | c⟩ hx
  · obtain ⟨pre, rest, hs⟩ := List.append_of_mem hx
    obtain ⟨y, m, l, z, n, l', rest', typ, sig, k1, k2, k3⟩ := C118_offered S ids checks text ps ts ht h pre x b _ rest hs
    rw [hn] at k3
    cases k3
  · rfl

/-- A command of a plugin that is not loaded, deep inside of a faulty document; the same document without it is
compiled. -/
example : (compileText UTable.sampleSeg someIds true (chars! "[p.g [p.g [q.f]]") (sampleSet noHooks)).1.isOk = false ∧
    (compileText UTable.sampleSeg someIds true (chars! "[p.g [p.g [p.f]]") (sampleSet noHooks)).1.isOk = true := by
  decide +kernel

/-- The plugin offers `f` in square brackets only. -/
example : (sampleSet noHooks).signature ['p'] ['f'] .block = none ∧
    (compileText UTable.sampleSeg someIds true (chars! "{p.f}") (sampleSet noHooks)).1.isOk = false ∧
    (compileText UTable.sampleSeg someIds true (chars! "[p.f]") (sampleSet noHooks)).1.isOk = true := by decide +kernel

/-- Without plugins, texts with escaped closing brackets still compile. -/
example : (∀ m n typ, (noPlugins sampleWasm).signature m n typ = none) ∧
    (compileText UTable.sampleSeg someIds true (chars! "a \\} b") (noPlugins sampleWasm)).1.isOk = true :=
  ⟨fun _ _ _ => rfl, by decide +kernel⟩

end Brack
