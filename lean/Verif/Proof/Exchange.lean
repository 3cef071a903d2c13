import Verif.Spec.Exchange
import Verif.Proof.Machine
import Verif.Proof.Uax29
import Verif.Model.Parser

/-
Helper lemmas: exchanging kinds of brackets.
-/

namespace Brack

variable {x : Bracket → Bracket}

/-! ### Tokens -/

/-- What the tokenizer tells clusters apart by. -/
inductive Cls where
  | backslash | opens (b : Bracket) | closes (b : Bracket) | dot | comma | space | lf | nul | rest
  deriving DecidableEq

def clsOf (s : Str) : Cls :=
  if s = ['\\'] then .backslash
  else if s = ['<'] then .opens .angle
  else if s = ['>'] then .closes .angle
  else if s = ['{'] then .opens .curly
  else if s = ['}'] then .closes .curly
  else if s = ['['] then .opens .square
  else if s = [']'] then .closes .square
  else if s = ['.'] then .dot
  else if s = [','] then .comma
  else if s = [' '] then .space
  else if s = ['\n'] then .lf
  else if s = NUL then .nul
  else .rest

theorem clsOf_cases (s : Str) : (s = ['\\'] ∨ s = ['<'] ∨ s = ['>'] ∨ s = ['{'] ∨ s = ['}'] ∨ s = ['['] ∨ s = [']'] ∨ s = ['.'] ∨
    s = [','] ∨ s = [' '] ∨ s = ['\n'] ∨ s = [Char.ofNat 0]) ∨ (s ≠ ['\\'] ∧ s ≠ ['<'] ∧ s ≠ ['>'] ∧ s ≠ ['{'] ∧ s ≠ ['}'] ∧ s ≠ ['['] ∧
    s ≠ [']'] ∧ s ≠ ['.'] ∧ s ≠ [','] ∧ s ≠ [' '] ∧ s ≠ ['\n'] ∧ s ≠ [Char.ofNat 0]) := by
  grind

def actionX (c d : Cls) (look nested : Bool) : Action :=
  match c with
  | .backslash => .backslash
  | _ =>
    match d, look with
    | .closes _, true => .identifier
    | _, _ =>
      match c with
      | .opens b => .bopen b
      | .closes b => .bclose b
      | _ =>
        match c, nested with
        | .dot, true => .dot
        | .comma, true => .comma
        | .space, true => .whitespace
        | _, _ =>
          match c with
          | .lf => .newline
          | _ =>
            match d, look with
            | .space, true => .identifier
            | .dot, true => .module
            | _, _ =>
              match d with
              | .opens _ | .lf | .nul => .text
              | _ =>
                match d, nested with
                | .space, true | .comma, true | .dot, true => .text
                | _, _ =>
                  match d with
                  | .closes _ | .backslash => .text
                  | _ => .pool

theorem action_cls (h h2 : Str) (look nested : Bool) : action h h2 look nested = actionX (clsOf h) (clsOf h2) look nested := by
  rcases clsOf_cases h with (rfl | rfl | rfl | rfl | rfl | rfl | rfl | rfl | rfl | rfl | rfl | rfl) | hh <;>
  rcases clsOf_cases h2 with (rfl | rfl | rfl | rfl | rfl | rfl | rfl | rfl | rfl | rfl | rfl | rfl) | hh2 <;>
  cases look <;> cases nested <;> first | decide | simp [action, actionX, clsOf, NUL, *] 

def Cls.exchange (x : Bracket → Bracket) : Cls → Cls
  | .opens b => .opens (x b)
  | .closes b => .closes (x b)
  | c => c

def Action.exchange (x : Bracket → Bracket) : Action → Action
  | .bopen b => .bopen (x b)
  | .bclose b => .bclose (x b)
  | a => a

theorem clsOf_exchange (x : Bracket → Bracket) (s : Str) : clsOf (exchangeStr x s) = (clsOf s).exchange x := by
  rcases clsOf_cases s with (rfl | rfl | rfl | rfl | rfl | rfl | rfl | rfl | rfl | rfl | rfl | rfl) | hh
  · rfl
  · show clsOf [(x .angle).openChar] = .opens (x .angle)
    cases x .angle <;> decide
  · show clsOf [(x .angle).closeChar] = .closes (x .angle)
    cases x .angle <;> decide
  · show clsOf [(x .curly).openChar] = .opens (x .curly)
    cases x .curly <;> decide
  · show clsOf [(x .curly).closeChar] = .closes (x .curly)
    cases x .curly <;> decide
  · show clsOf [(x .square).openChar] = .opens (x .square)
    cases x .square <;> decide
  · show clsOf [(x .square).closeChar] = .closes (x .square)
    cases x .square <;> decide
  · rfl
  · rfl
  · rfl
  · rfl
  · rfl
  · have hr : clsOf s = .rest := by simp [clsOf, NUL, hh]
    rw [hr]
    rcases s with _ | ⟨c, _ | ⟨d, s⟩⟩
    · rfl
    · have : exchangeStr x [c] = [c] := by
        simp only [ne_eq, List.cons.injEq, and_true] at hh
        simp [exchangeStr, exchangeChar, hh]
      rw [this, hr]
      rfl
    · simp [clsOf, exchangeStr, NUL, Cls.exchange]

theorem actionX_exchange (x : Bracket → Bracket) (c d : Cls) (look nested : Bool) :
    actionX (c.exchange x) (d.exchange x) look nested = (actionX c d look nested).exchange x := by
  cases look <;> cases nested <;> cases c <;> cases d <;> rfl

theorem action_exchange (x : Bracket → Bracket) (h h2 : Str) (look nested : Bool) :
    action (exchangeStr x h) (exchangeStr x h2) look nested = (action h h2 look nested).exchange x := by
  rw [action_cls, action_cls, clsOf_exchange, clsOf_exchange, actionX_exchange]

theorem exchange_nul (x : Bracket → Bracket) (s : Str) : exchangeStr x s = NUL ↔ s = NUL := by
  have h := clsOf_exchange x s
  constructor
  · intro e
    rw [e] at h
    rcases clsOf_cases s with (rfl | rfl | rfl | rfl | rfl | rfl | rfl | rfl | rfl | rfl | rfl | rfl) | hh
    all_goals first | rfl | (exfalso; revert h; simp [clsOf, NUL, Cls.exchange, *])
  · rintro rfl
    rfl

/-- The states of the tokenizer on a text and on the exchanged text. -/
structure ExchM (x : Bracket → Bracket) (m m' : M) : Prop where
  line : m'.line = m.line
  col : m'.col = m.col
  tsl : m'.tsl = m.tsl
  tsc : m'.tsc = m.tsc
  pool : m'.pool = exchangeStr x m.pool
  nest : m'.angle + m'.curly + m'.square = m.angle + m.curly + m.square
  look : m'.look = m.look

theorem exchangeStr_append (x : Bracket → Bracket) (s t : Str) : exchangeStr x (s ++ t) = exchangeStr x s ++ exchangeStr x t :=
  List.map_append

theorem addCount_nest (m : M) (b : Bracket) (d : Int) :
    (m.addCount b d).angle + (m.addCount b d).curly + (m.addCount b d).square = m.angle + m.curly + m.square + d := by
  cases b <;> simp only [M.addCount] <;> omega

theorem emit_exchange {m m' : M} (h : ExchM x m m') (a : Action) (g : Str) :
    (emit (a.exchange x) (exchangeStr x g) m').1 = (emit a g m).1.map (Token.exchange x) ∧
    ExchM x (emit a g m).2 (emit (a.exchange x) (exchangeStr x g) m').2 := by
  obtain ⟨h1, h2, h3, h4, h5, h6, h7⟩ := h
  cases a
  case bopen b =>
    have n1 := addCount_nest m.adv b 1
    have n2 := addCount_nest m'.adv (x b) 1
    simp only [emit, Action.exchange]
    refine ⟨by simp [M.single, Token.exchange, TokKind.exchange, *], ?_, ?_, ?_, ?_, ?_, ?_, rfl⟩
    · cases b <;> cases x _ <;> simp [M.addCount, M.adv, *]
    · cases b <;> cases x _ <;> simp [M.addCount, M.adv, *]
    · cases b <;> cases x _ <;> simp [M.addCount, M.adv, *]
    · cases b <;> cases x _ <;> simp [M.addCount, M.adv, *]
    · have e1 : ∀ (q : M) b d, (q.adv.addCount b d).pool = [] := fun q b d => by cases b <;> rfl
      simp [e1, exchangeStr]
    · simp only [M.adv] at n1 n2 ⊢
      omega
  case bclose b =>
    have n1 := addCount_nest m.adv b (-1)
    have n2 := addCount_nest m'.adv (x b) (-1)
    simp only [emit, Action.exchange]
    refine ⟨by simp [M.single, Token.exchange, TokKind.exchange, *], ?_, ?_, ?_, ?_, ?_, ?_, ?_⟩
    · cases b <;> cases x _ <;> simp [M.addCount, M.adv, *]
    · cases b <;> cases x _ <;> simp [M.addCount, M.adv, *]
    · cases b <;> cases x _ <;> simp [M.addCount, M.adv, *]
    · cases b <;> cases x _ <;> simp [M.addCount, M.adv, *]
    · have e1 : ∀ (q : M) b d, (q.adv.addCount b d).pool = [] := fun q b d => by cases b <;> rfl
      simp [e1, exchangeStr]
    · simp only [M.adv] at n1 n2 ⊢
      omega
    · cases b <;> cases x _ <;> simp [M.addCount, M.adv, *]
  all_goals
    refine ⟨by simp [emit, Action.exchange, M.single, M.pooled, Token.exchange, TokKind.exchange, exchangeStr_append, *], ?_⟩
    constructor <;> simp [emit, Action.exchange, M.adv, exchangeStr_append, *] <;> first | rfl | omega

theorem run_exchange : ∀ (gs : List Str) {m m' : M}, ExchM x m m' →
    run (gs.map (exchangeStr x)) m' = (run gs m).map (Token.exchange x)
  | [], m, m', h => by simp [run, M.eof, Token.exchange, TokKind.exchange, h.line, h.col]
  | g :: gs, m, m', h => by
    rw [List.map_cons, run, run]
    by_cases hg : g = NUL
    · rw [if_pos hg, if_pos ((exchange_nul x g).mpr hg)]
      simp [M.eof, Token.exchange, TokKind.exchange, h.line, h.col]
    · rw [if_neg hg, if_neg (fun e => hg ((exchange_nul x g).mp e))]
      have hact : act (exchangeStr x g) (gs.map (exchangeStr x)) m' = (act g gs m).exchange x := by
        unfold act
        have hn : m'.nested = m.nested := by simp only [M.nested, h.nest]
        rw [h.look, hn, ← action_exchange]
        congr 1
        cases gs <;> rfl
      obtain ⟨h1, h2⟩ := emit_exchange h (act g gs m) g
      rw [hact, h1, run_exchange gs h2, List.map_append]

theorem tokenize_exchange (S : Segmenter) (hS : S.Exchanges x) (text : Str) :
    tokenizeStr S (exchangeStr x text) = (tokenizeStr S text).map (List.map (Token.exchange x)) := by
  rw [tokenizeStr_eq, tokenizeStr_eq, hS]
  exact congrArg _ (run_exchange _ ⟨rfl, rfl, rfl, rfl, rfl, rfl, rfl⟩)

/-- The tables say the same about all brackets. -/
theorem segmenter_exchanges (T : UTable) (h : ∀ b : Bracket, T.gcb b.openChar = .other ∧ T.gcb b.closeChar = .other)
    (x : Bracket → Bracket) : T.segmenter.Exchanges x := by
  have hch : ∀ c : Char, exchangeChar x c = c ∨ ((∃ b : Bracket, c = b.openChar ∨ c = b.closeChar) ∧
      ∃ b : Bracket, exchangeChar x c = b.openChar ∨ exchangeChar x c = b.closeChar) := by
    intro c
    unfold exchangeChar
    by_cases h1 : c = '<'
    · subst h1; exact .inr ⟨⟨.angle, .inl rfl⟩, ⟨x .angle, .inl rfl⟩⟩
    by_cases h2 : c = '>'
    · subst h2; exact .inr ⟨⟨.angle, .inr rfl⟩, ⟨x .angle, .inr rfl⟩⟩
    by_cases h3 : c = '{'
    · subst h3; exact .inr ⟨⟨.curly, .inl rfl⟩, ⟨x .curly, .inl rfl⟩⟩
    by_cases h4 : c = '}'
    · subst h4; exact .inr ⟨⟨.curly, .inr rfl⟩, ⟨x .curly, .inr rfl⟩⟩
    by_cases h5 : c = '['
    · subst h5; exact .inr ⟨⟨.square, .inl rfl⟩, ⟨x .square, .inl rfl⟩⟩
    by_cases h6 : c = ']'
    · subst h6; exact .inr ⟨⟨.square, .inr rfl⟩, ⟨x .square, .inr rfl⟩⟩
    simp [h1, h2, h3, h4, h5, h6]
  have hgcb : ∀ b : Bracket, ∀ c, c = b.openChar ∨ c = b.closeChar → T.gcb c = .other ∧ T.pict c = false ∧ T.incb c = .none := by
    intro b c hc
    have hlt : c.toNat < 128 := by rcases hc with rfl | rfl <;> cases b <;> decide
    refine ⟨?_, T.asciiPict c hlt, T.asciiIncb c hlt⟩
    rcases hc with rfl | rfl
    · exact (h b).1
    · exact (h b).2
  have key : ∀ c, T.gcb (exchangeChar x c) = T.gcb c ∧ T.pict (exchangeChar x c) = T.pict c ∧ T.incb (exchangeChar x c) = T.incb c := by
    intro c
    rcases hch c with e | ⟨⟨b, hb⟩, b', hb'⟩
    · rw [e]; exact ⟨rfl, rfl, rfl⟩
    · obtain ⟨g1, g2, g3⟩ := hgcb b c hb
      obtain ⟨k1, k2, k3⟩ := hgcb b' _ hb'
      rw [g1, g2, g3, k1, k2, k3]
      exact ⟨rfl, rfl, rfl⟩
  have hstart : ∀ c, T.start (exchangeChar x c) = T.start c := fun c => by
    simp only [UTable.start, key c]
  have hnext : ∀ s c, T.next s (exchangeChar x c) = T.next s c := fun s c => by
    simp only [UTable.next, key c]
  have hjoin : ∀ s c, T.join s (exchangeChar x c) = T.join s c := fun s c => by
    simp only [UTable.join, key c]
  have hgo : ∀ (cs : Str) s cur, T.go s (exchangeStr x cur) (exchangeStr x cs) = (T.go s cur cs).map (exchangeStr x) := by
    intro cs
    induction cs with
    | nil => intro s cur; rfl
    | cons c cs ih =>
      intro s cur
      have e1 : exchangeStr x (c :: cs) = exchangeChar x c :: exchangeStr x cs := rfl
      have e2 : exchangeStr x cur ++ [exchangeChar x c] = exchangeStr x (cur ++ [c]) := by simp [exchangeStr]
      have e3 : [exchangeChar x c] = exchangeStr x [c] := rfl
      rw [e1, UTable.go, UTable.go, hjoin, hnext, hstart]
      split
      · rw [e2]
        exact ih _ _
      · rw [e3, ih, List.map_cons]
  intro s
  show T.clusters _ = (T.clusters s).map _
  cases s with
  | nil => rfl
  | cons c cs =>
    show T.go (T.start (exchangeChar x c)) (exchangeStr x [c]) (exchangeStr x cs) = (T.go (T.start c) [c] cs).map _
    rw [hstart, hgo]

/-! ### Trees -/

theorem exchangeL_map (cs : List CST) : CST.exchangeL x cs = cs.map (CST.exchange x) := by
  induction cs with
  | nil => rfl
  | cons c cs ih => rw [CST.exchangeL, ih, List.map_cons]

theorem exchange_loc (c : CST) : (c.exchange x).loc = c.loc := by cases c <;> simp [CST.exchange, CST.loc]

theorem exchange_setLoc (c : CST) (l : Loc) : (c.setLoc l).exchange x = (c.exchange x).setLoc l := by
  cases c <;> simp [CST.exchange, CST.setLoc]

theorem exchange_add (c d : CST) : (c.add d).exchange x = (c.exchange x).add (d.exchange x) := by
  cases c <;> simp [CST.exchange, CST.add, exchangeL_map, exchange_loc]

theorem exchange_new (k : IKind) : (CST.new k).exchange x = CST.new (k.exchange x) := by
  simp [CST.new, CST.exchange, CST.exchangeL]

theorem exchange_foldl : ∀ (cs : List CST) (c : CST),
    (cs.foldl CST.add c).exchange x = (cs.map (CST.exchange x)).foldl CST.add (c.exchange x)
  | [], _ => rfl
  | d :: cs, c => by rw [List.foldl_cons, exchange_foldl cs, exchange_add]; rfl

/-- The result of a parser, with the brackets exchanged. -/
def exch (x : Bracket → Bracket) (r : CST × List Token) : CST × List Token := (r.1.exchange x, r.2.map (Token.exchange x))

def exchs (x : Bracket → Bracket) (r : List CST × List Token) : List CST × List Token :=
  (r.1.map (CST.exchange x), r.2.map (Token.exchange x))

theorem map_orElse (f : α → β) (a : Res α) (b : Unit → Res α) : (a.orElse b).map f = (a.map f).orElse fun u => (b u).map f := by
  cases a <;> rfl

/-- A parser does the same with the exchanged tokens. -/
def Fair (x : Bracket → Bracket) (p : List Token → PRes) : Prop :=
  ∀ ts : List Token, p (ts.map (Token.exchange x)) = (p ts).map (exch x)

def FairL (x : Bracket → Bracket) (p : List Token → Res (List CST × List Token)) : Prop :=
  ∀ ts : List Token, p (ts.map (Token.exchange x)) = (p ts).map (exchs x)

theorem leafParser_fair {f : TokKind → Option LKind} (msg : String)
    (hf : ∀ k, f (k.exchange x) = (f k).map (LKind.exchange x)) : Fair x (leafParser f msg) := by
  intro ts
  cases ts with
  | nil => rfl
  | cons t ts =>
    simp only [List.map_cons, leafParser]
    have : (t.exchange x).kind = t.kind.exchange x := rfl
    rw [this, hf]
    cases f t.kind <;> rfl

theorem pModule_fair : Fair x pModule := leafParser_fair _ fun k => by cases k <;> rfl
theorem pIdent_fair : Fair x pIdent := leafParser_fair _ fun k => by cases k <;> rfl
theorem pText_fair : Fair x pText := leafParser_fair _ fun k => by cases k <;> rfl
theorem pDot_fair : Fair x pDot := leafParser_fair _ fun k => by cases k <;> rfl
theorem pComma_fair : Fair x pComma := leafParser_fair _ fun k => by cases k <;> rfl
theorem pWhitespace_fair : Fair x pWhitespace := leafParser_fair _ fun k => by cases k <;> rfl
theorem pNewline_fair : Fair x pNewline := leafParser_fair _ fun k => by cases k <;> rfl
theorem pEof_fair : Fair x pEof := leafParser_fair _ fun k => by cases k <;> rfl
theorem pBracketClose_fair : Fair x pBracketClose := leafParser_fair _ fun k => by cases k <;> rfl

theorem escapable_exchange (k : TokKind) : escapable (k.exchange x) = (escapable k).map (exchangeStr x) := by
  cases k
  case bopen b =>
    show escapable (.bopen (x b)) = _
    have h1 : ∀ b : Bracket, escapable (.bopen b) = some [b.openChar] := fun b => by cases b <;> rfl
    rw [h1, h1]
    cases b <;> rfl
  case bclose b =>
    show escapable (.bclose (x b)) = _
    have h1 : ∀ b : Bracket, escapable (.bclose b) = some [b.closeChar] := fun b => by cases b <;> rfl
    rw [h1, h1]
    cases b <;> rfl
  all_goals rfl

theorem pEscaped_fair : Fair x pEscaped := by
  intro ts
  rcases ts with _ | ⟨⟨k, l⟩, ts⟩
  · rfl
  · simp only [List.map_cons, pEscaped, Token.exchange]
    cases k <;> try rfl
    rcases ts with _ | ⟨u, us⟩
    · rfl
    · simp only [List.map_cons, show TokKind.exchange x .backSlash = .backSlash from rfl, escapable_exchange, Token.exchange]
      cases escapable u.kind <;> rfl

theorem bracketOf_fair (hx : ∀ b b', x b = x b' → b = b') (b : Bracket) {body} (hb : FairL x body) (ts : List Token) :
    bracketOf (x b) body (ts.map (Token.exchange x)) = (bracketOf b body ts).map (exch x) := by
  have ho : ∀ t : Token, (t.exchange x).kind = .bopen (x b) ↔ t.kind = .bopen b := by
    rintro ⟨k, l⟩
    cases k <;> simp [Token.exchange, TokKind.exchange]
    exact ⟨fun h => hx _ _ h, fun h => by rw [h]⟩
  have hc : ∀ t : Token, (t.exchange x).kind = .bclose (x b) ↔ t.kind = .bclose b := by
    rintro ⟨k, l⟩
    cases k <;> simp [Token.exchange, TokKind.exchange]
    exact ⟨fun h => hx _ _ h, fun h => by rw [h]⟩
  rcases ts with _ | ⟨t, ts⟩
  · rfl
  · simp only [List.map_cons, bracketOf, ho, hb ts]
    split
    · rcases body ts with ⟨cs, _ | ⟨u, us⟩⟩ | _ | _
      · rfl
      · simp only [Res.map, exchs, List.map_cons, hc]
        split
        · simp [Res.map, exch, exchange_setLoc, exchange_add, exchange_foldl, exchange_new, IKind.exchange, CST.exchange, LKind.exchange, Token.exchange]
        · simp [Res.map, exch, exchange_setLoc, exchange_add, exchange_foldl, exchange_new, IKind.exchange, CST.exchange, LKind.exchange, Token.exchange]
      · rfl
      · rfl
    · rfl

theorem bracketOf_not {b : Bracket} {body} {t : Token} {ts : List Token} (h : t.kind ≠ .bopen b) :
    bracketOf b body (t :: ts) = .err "Expected bracket open token, found another token" := by
  simp only [bracketOf, if_neg h]

theorem pBracket_eq (body) (ts : List Token) : pBracket body ts =
    match ts with
    | ⟨.bopen b, l⟩ :: us => (bracketOf b body (⟨.bopen b, l⟩ :: us)).orElse fun _ => .err "Expected angle, curly, or square bracket, found none"
    | _ => .err "Expected angle, curly, or square bracket, found none" := by
  rcases ts with _ | ⟨⟨k, l⟩, ts⟩
  · rfl
  · cases k <;> try rfl
    rename_i b
    unfold pBracket
    cases b
    · rw [bracketOf_not (b := .curly) (by simp), bracketOf_not (b := .square) (by simp)]
      rfl
    · rw [bracketOf_not (b := .angle) (by simp), bracketOf_not (b := .square) (by simp)]
      rfl
    · rw [bracketOf_not (b := .angle) (by simp), bracketOf_not (b := .curly) (by simp)]
      rfl

theorem pBracket_fair (hx : ∀ b b', x b = x b' → b = b') {body} (hb : FairL x body) : Fair x (pBracket body) := by
  intro ts
  rw [pBracket_eq, pBracket_eq]
  rcases ts with _ | ⟨⟨k, l⟩, ts⟩
  · rfl
  · cases k <;> try rfl
    rename_i b
    have := bracketOf_fair hx b hb (⟨.bopen b, l⟩ :: ts)
    simp only [map_orElse, ← this]
    rfl

theorem exprItem_fair (hx : ∀ b b', x b = x b' → b = b') {body} (hb : FairL x body) : Fair x (exprItem body) := by
  intro ts
  simp only [exprItem, pEscaped_fair ts, pModule_fair ts, pIdent_fair ts, pBracket_fair hx hb ts, pDot_fair ts,
    pComma_fair ts, pWhitespace_fair ts, pText_fair ts, map_orElse]

theorem exprOf_fair {items} (hi : FairL x items) : Fair x (exprOf items) := by
  intro ts
  unfold exprOf
  rw [hi ts]
  rcases items ts with ⟨_ | ⟨c, cs⟩, r⟩ | _ | _
  · rfl
  · simp only [Res.map, exchs, List.map_cons, exch, exchange_setLoc, exchange_foldl, exchange_new, IKind.exchange, exchange_loc]
    congr 4
    have : ∀ (l : List CST) (h : l ≠ []) (h' : l.map (CST.exchange x) ≠ []), ((l.map (CST.exchange x)).getLast h').loc = (l.getLast h).loc :=
      fun l h h' => by rw [List.getLast_map, exchange_loc]
    exact congrArg _ (this (c :: cs) (by simp) (by simp))
  · rfl
  · rfl

mutual

theorem exprItems_fair (hx : ∀ b b', x b = x b' → b = b') : ∀ fuel, FairL x (exprItems fuel)
  | 0, _ => rfl
  | n + 1, ts => by
    rw [exprItems, exprItems, exprItem_fair hx (bodyItems_fair hx n) ts]
    rcases exprItem (bodyItems n) ts with ⟨c, ts'⟩ | _ | _
    · simp only [Res.map, exch, exprItems_fair hx n ts']
      rcases exprItems n ts' with ⟨cs, r⟩ | _ | _ <;> rfl
    · rfl
    · rfl

theorem bodyItems_fair (hx : ∀ b b', x b = x b' → b = b') : ∀ fuel, FairL x (bodyItems fuel)
  | 0, _ => rfl
  | n + 1, ts => by
    rw [bodyItems, bodyItems, exprOf_fair (exprItems_fair hx n) ts, pNewline_fair ts, ← map_orElse]
    rcases (exprOf (exprItems n) ts).orElse fun _ => pNewline ts with ⟨c, ts'⟩ | _ | _
    · simp only [Res.map, exch, bodyItems_fair hx n ts']
      rcases bodyItems n ts' with ⟨cs, r⟩ | _ | _ <;> rfl
    · rfl
    · rfl

end

theorem pExpr_fair (hx : ∀ b b', x b = x b' → b = b') : Fair x pExpr := by
  intro ts
  have : FairL x pExprItems := fun ts => by
    simp only [pExprItems, List.length_map]
    exact exprItems_fair hx _ ts
  exact exprOf_fair this ts

theorem pExprOrClose_fair (hx : ∀ b b', x b = x b' → b = b') : Fair x pExprOrClose := by
  intro ts
  simp only [pExprOrClose, pExpr_fair hx ts, pBracketClose_fair ts, map_orElse]
  rfl

theorem stmtItems_fair (hx : ∀ b b', x b = x b' → b = b') : ∀ fuel, FairL x (stmtItems fuel)
  | 0, _ => rfl
  | n + 1, ts => by
    rw [stmtItems, stmtItems, pNewline_fair ts]
    rcases pNewline ts with ⟨c1, ts1⟩ | _ | _
    · simp only [Res.map, exch, pExprOrClose_fair hx ts1]
      rcases pExprOrClose ts1 with ⟨c2, ts2⟩ | _ | _
      · simp only [Res.map, exch, stmtItems_fair hx n ts2]
        rcases stmtItems n ts2 with ⟨cs, r⟩ | _ | _ <;> rfl
      · rfl
      · rfl
    · rfl
    · rfl

theorem pStmt_fair (hx : ∀ b b', x b = x b' → b = b') : Fair x pStmt := by
  intro ts
  rw [pStmt, pStmt, pExprOrClose_fair hx ts]
  rcases pExprOrClose ts with ⟨c, ts1⟩ | _ | _
  · simp only [Res.map, exch, List.length_map, stmtItems_fair hx _ ts1]
    rcases stmtItems (ts1.length + 1) ts1 with ⟨cs, r⟩ | _ | _
    · simp only [Res.map, exchs, exch, exchange_foldl, exchange_new, IKind.exchange, List.map_cons]
    · rfl
    · rfl
  · rfl
  · rfl

theorem newlines_fair : ∀ ts : List Token, newlines (ts.map (Token.exchange x)) = exchs x (newlines ts)
  | [] => rfl
  | t :: ts => by
    rw [List.map_cons, newlines, newlines]
    have := pNewline_fair (x := x) (t :: ts)
    rw [List.map_cons] at this
    rw [this]
    rcases pNewline (t :: ts) with ⟨c, r⟩ | _ | _
    · simp only [Res.map, exch, newlines_fair ts]
      rfl
    · rfl
    · rfl

theorem docItems_fair (hx : ∀ b b', x b = x b' → b = b') : ∀ fuel, FairL x (docItems fuel)
  | 0, _ => rfl
  | n + 1, ts => by
    rw [docItems, docItems, pStmt_fair hx ts]
    rcases pStmt ts with ⟨c1, ts1⟩ | _ | _
    · simp only [Res.map, exch, pNewline_fair ts1]
      rcases pNewline ts1 with ⟨c2, ts2⟩ | _ | _
      · simp only [Res.map, exch, newlines_fair, exchs]
        rw [docItems_fair hx n (newlines ts2).2]
        rcases docItems n (newlines ts2).2 with ⟨cs, r⟩ | _ | _
        · simp [Res.map, exchs]
        · rfl
        · rfl
      · rfl
      · rfl
    · rfl
    · rfl

theorem parse_exchange (hx : ∀ b b', x b = x b' → b = b') (ts : List Token) :
    parse (ts.map (Token.exchange x)) = (parse ts).map (CST.exchange x) := by
  have hopt : FairL x optStmt := fun ts => by
    rw [optStmt, optStmt, pStmt_fair hx ts]
    rcases pStmt ts with ⟨c, r⟩ | _ | _ <;> rfl
  rw [parse, parse, List.length_map, docItems_fair hx _ ts]
  rcases docItems (ts.length + 1) ts with ⟨cs, ts1⟩ | _ | _
  · simp only [Res.map, exchs, hopt ts1]
    rcases optStmt ts1 with ⟨cs2, ts2⟩ | _ | _
    · simp only [exchs, newlines_fair]
      rw [pEof_fair (newlines ts2).2]
      rcases pEof (newlines ts2).2 with ⟨c, r⟩ | _ | _
      · simp [Res.map, exch, exchange_add, exchange_foldl, exchange_new, IKind.exchange]
      · rfl
      · rfl
    · rfl
    · rfl
  · rfl
  · rfl

/-! ### Simplification -/

/-- The result of simplification, with the brackets exchanged. -/
def exchE (x : Bracket → Bracket) (r : CST × List TErr) : CST × List TErr := (r.1.exchange x, r.2.map (TErr.exchange x))

def exchEs (x : Bracket → Bracket) (r : List CST × List TErr) : List CST × List TErr :=
  (r.1.map (CST.exchange x), r.2.map (TErr.exchange x))

theorem checkEnds_exchange (hx : ∀ b b', x b = x b' → b = b') (b : Bracket) (cs : List CST) :
    checkEnds (x b) (cs.map (CST.exchange x)) = (checkEnds b cs).map (List.map (TErr.exchange x)) := by
  unfold checkEnds
  rw [List.head?_map, List.getLast?_map]
  have he : ∀ b1, x b1 = x b ↔ b1 = b := fun b1 => ⟨fun h => hx _ _ h, fun h => by rw [h]⟩
  rcases cs.head? with _ | ⟨k, l⟩ | ⟨k, ds, l⟩
  · rfl
  · cases k <;> try rfl
    rename_i b1
    rcases cs.getLast? with _ | ⟨k2, l2⟩ | ⟨k2, ds2, l2⟩
    · rfl
    · by_cases h1 : b1 = b
      · cases k2 <;> simp [CST.exchange, LKind.exchange, he, h1, Res.map, TErr.exchange, TErrKind.exchange, CST.loc]
        split <;> simp [Res.map, TErr.exchange, TErrKind.exchange]
      · cases k2 <;> simp [CST.exchange, LKind.exchange, he, h1, Res.map]
    · by_cases h1 : b1 = b <;>
        simp [CST.exchange, LKind.exchange, he, h1, Res.map, TErr.exchange, TErrKind.exchange, CST.loc]
  · rfl

theorem checkAt_exchange (i : Nat) (good : CST → Bool) (kind : TErrKind) (hk : kind.exchange x = kind)
    (hg : ∀ c, good (c.exchange x) = good c) (cs : List CST) :
    checkAt i good kind (cs.map (CST.exchange x)) = (checkAt i good kind cs).map (TErr.exchange x) := by
  unfold checkAt
  rw [List.getElem?_map]
  rcases cs[i]? with _ | c
  · rfl
  · simp only [Option.map_some, hg, exchange_loc]
    split
    · rfl
    · simp [TErr.exchange, hk]

theorem isDot_exchange (c : CST) : (c.exchange x).isDot = c.isDot := by
  rcases c with ⟨k, l⟩ | ⟨k, cs, l⟩
  · cases k <;> rfl
  · rfl

theorem isBlank_exchange (c : CST) : (c.exchange x).isBlank = c.isBlank := by
  rcases c with ⟨k, l⟩ | ⟨k, cs, l⟩
  · cases k <;> rfl
  · rfl

theorem notInAst_exchange (c : CST) : (c.exchange x).notInAst = c.notInAst := by
  rcases c with ⟨k, l⟩ | ⟨k, cs, l⟩
  · cases k <;> rfl
  · rfl

theorem isModuleOrAngle_exchange (hx : ∀ b, x b = .angle ↔ b = .angle) (c : CST) :
    (c.exchange x).isModuleOrAngle = c.isModuleOrAngle := by
  rcases c with ⟨k, l⟩ | ⟨k, cs, l⟩
  · cases k <;> rfl
  · cases k <;> try rfl
    rename_i b
    have e : ∀ b cs, (CST.node (.bracket b) cs l).isModuleOrAngle = decide (b = .angle) := fun b cs => by cases b <;> rfl
    rw [CST.exchange, IKind.exchange, e, e]
    simp only [hx b]

theorem isIdentOrAngle_exchange (hx : ∀ b, x b = .angle ↔ b = .angle) (c : CST) :
    (c.exchange x).isIdentOrAngle = c.isIdentOrAngle := by
  rcases c with ⟨k, l⟩ | ⟨k, cs, l⟩
  · cases k <;> rfl
  · cases k <;> try rfl
    rename_i b
    have e : ∀ b cs, (CST.node (.bracket b) cs l).isIdentOrAngle = decide (b = .angle) := fun b cs => by cases b <;> rfl
    rw [CST.exchange, IKind.exchange, e, e]
    simp only [hx b]

theorem filter_exchange (q : CST → Bool) (hq : ∀ c, q (c.exchange x) = q c) (cs : List CST) :
    (cs.map (CST.exchange x)).filter q = (cs.filter q).map (CST.exchange x) := by
  rw [List.filter_map]
  congr 1
  exact List.filter_congr fun c _ => hq c

theorem exchange_children (c : CST) : (c.exchange x).children = c.children.map (CST.exchange x) := by
  cases c <;> simp [CST.exchange, CST.children, exchangeL_map]

theorem argLoop_exchange : ∀ (cs : List CST) (prev expr : CST) (comma : Bool),
    argLoop (prev.exchange x) (expr.exchange x) comma (cs.map (CST.exchange x)) = exchEs x (argLoop prev expr comma cs)
  | [], prev, expr, comma => by
    simp only [List.map_nil, argLoop, exchange_children, List.isEmpty_map, exchEs]
    split <;> rfl
  | c :: cs, prev, expr, comma => by
    have ih := argLoop_exchange cs
    have go : argLoop (c.exchange x) ((expr.exchange x).add (c.exchange x)) false (cs.map (CST.exchange x)) =
        exchEs x (argLoop c (expr.add c) false cs) := by
      rw [← exchange_add]
      exact ih c _ _
    rcases c with ⟨k, l⟩ | ⟨k, ds, l⟩
    · cases k <;> try exact go
      case dot =>
        have := ih (.leaf .dot l) expr comma
        simp only [List.map_cons, CST.exchange, LKind.exchange, argLoop] at this ⊢
        rw [this]
        rfl
      case comma =>
        have h1 := ih (.leaf .comma l) expr comma
        have h2 := ih (.leaf .comma l) (CST.new .expr) true
        rw [exchange_new] at h2
        simp only [List.map_cons, CST.exchange, LKind.exchange, IKind.exchange, argLoop, exchange_children, List.isEmpty_map] at h1 h2 ⊢
        rw [h1, h2]
        split <;> rfl
      case bclose b =>
        simp only [List.map_cons, CST.exchange, LKind.exchange, argLoop, exchange_children, List.isEmpty_map, exchange_loc]
        split
        · rfl
        · split <;> rfl
    · exact go

theorem checkValidArguments_exchange (cs : List CST) :
    checkValidArguments (cs.map (CST.exchange x)) = exchEs x (checkValidArguments cs) := by
  unfold checkValidArguments
  rcases cs with _ | ⟨c0, _ | ⟨c1, _ | ⟨c2, _ | ⟨c3, rest⟩⟩⟩⟩
  · rfl
  · rfl
  · rfl
  · rfl
  · have := argLoop_exchange (x := x) rest c3 (CST.new .expr) false
    rw [exchange_new] at this
    simp only [IKind.exchange] at this
    simp only [List.map_cons, this]
    rfl

theorem finishBracket_exchange (hx : ∀ b b', x b = x b' → b = b') (ha : ∀ b, x b = .angle ↔ b = .angle) (b : Bracket) (l : Loc)
    (cs : List CST) (es : List TErr) :
    finishBracket (x b) l (cs.map (CST.exchange x)) (es.map (TErr.exchange x)) = (finishBracket b l cs es).map (exchE x) := by
  have h1 : checkModule (cs.map (CST.exchange x)) = (checkModule cs).map (TErr.exchange x) :=
    checkAt_exchange _ _ _ rfl (isModuleOrAngle_exchange ha) cs
  have h2 : checkDot (cs.map (CST.exchange x)) = (checkDot cs).map (TErr.exchange x) :=
    checkAt_exchange _ _ _ rfl isDot_exchange cs
  have h3 : checkIdent (cs.map (CST.exchange x)) = (checkIdent cs).map (TErr.exchange x) :=
    checkAt_exchange _ _ _ rfl (isIdentOrAngle_exchange ha) cs
  have h4 : checkUnexpectedDot (cs.map (CST.exchange x)) = (checkUnexpectedDot cs).map (TErr.exchange x) := by
    unfold checkUnexpectedDot
    rw [← List.map_drop, filter_exchange _ isDot_exchange, List.map_map, List.map_map]
    congr 1
    funext c
    simp [exchange_loc, TErr.exchange, TErrKind.exchange]
  have h5 : removeBlanks (cs.map (CST.exchange x)) = (removeBlanks cs).map (CST.exchange x) :=
    filter_exchange _ (fun c => by rw [isBlank_exchange]) cs
  unfold finishBracket
  rw [checkEnds_exchange hx]
  rcases checkEnds b cs with ends | _ | _
  · simp only [Res.map, h1, h2, h3, h4, h5, checkValidArguments_exchange, exchEs, exchE, CST.exchange, IKind.exchange, List.map_append, exchangeL_map]
    have : removeElements ((checkValidArguments (removeBlanks cs)).1.map (CST.exchange x)) =
        (removeElements (checkValidArguments (removeBlanks cs)).1).map (CST.exchange x) :=
      filter_exchange _ (fun c => by rw [notInAst_exchange]) _
    rw [this]
  · rfl
  · rfl

theorem splice_exchange : ∀ cs : List CST, (cs.map (CST.exchange x)).flatMap spliceExpr = (cs.flatMap spliceExpr).map (CST.exchange x)
  | [] => rfl
  | c :: cs => by
    rw [List.map_cons, List.flatMap_cons, List.flatMap_cons, splice_exchange cs, List.map_append]
    congr 1
    rcases c with ⟨k, l⟩ | ⟨k, ds, l⟩
    · rfl
    · cases k <;> simp [CST.exchange, IKind.exchange, spliceExpr, exchangeL_map]

theorem finishNode_exchange (hx : ∀ b b', x b = x b' → b = b') (ha : ∀ b, x b = .angle ↔ b = .angle) (k : IKind) (l : Loc)
    (cs : List CST) (es : List TErr) :
    finishNode (k.exchange x) l (cs.map (CST.exchange x)) (es.map (TErr.exchange x)) = (finishNode k l cs es).map (exchE x) := by
  have hr : removeElements (cs.map (CST.exchange x)) = (removeElements cs).map (CST.exchange x) :=
    filter_exchange _ (fun c => by rw [notInAst_exchange]) _
  cases k
  case bracket b =>
    simp only [IKind.exchange, finishNode, splice_exchange]
    exact finishBracket_exchange hx ha b l _ es
  all_goals simp [IKind.exchange, finishNode, Res.map, exchE, CST.exchange, exchangeL_map, hr]

mutual

theorem simplify_exchange (hx : ∀ b b', x b = x b' → b = b') (ha : ∀ b, x b = .angle ↔ b = .angle) :
    ∀ c : CST, simplify (c.exchange x) = (simplify c).map (exchE x)
  | .leaf k l => by simp [CST.exchange, simplify, Res.map, exchE]
  | .node k cs l => by
    have ih := simplifyL_exchange hx ha cs
    have go : ∀ k, k ≠ .backSlash → simplify ((CST.node k cs l).exchange x) = (simplify (.node k cs l)).map (exchE x) := by
      intro k hk
      have hk' : k.exchange x ≠ .backSlash := by cases k <;> simp_all [IKind.exchange]
      have e1 : ∀ (k : IKind) (cs : List CST), k ≠ .backSlash → simplify (.node k cs l) =
          match simplifyL cs with
          | .ok (ds, es) => finishNode k l ds es
          | .err m => .err m
          | .panic => .panic := by
        intro k cs hk
        cases k <;> first | exact absurd rfl hk | (simp only [simplify]; rfl)
      rw [CST.exchange, e1 _ _ hk', e1 _ _ hk, exchangeL_map, ih]
      rcases simplifyL cs with ⟨ds, es⟩ | _ | _
      · simp only [Res.map, exchEs]
        exact finishNode_exchange hx ha k l ds es
      · rfl
      · rfl
    by_cases hk : k = .backSlash
    · subst hk
      cases cs <;> simp [CST.exchange, CST.exchangeL, IKind.exchange, simplify, Res.map, exchE, LKind.exchange, TErr.exchange, TErrKind.exchange]
    · exact go k hk

theorem simplifyL_exchange (hx : ∀ b b', x b = x b' → b = b') (ha : ∀ b, x b = .angle ↔ b = .angle) :
    ∀ cs : List CST, simplifyL (cs.map (CST.exchange x)) = (simplifyL cs).map (exchEs x)
  | [] => rfl
  | c :: cs => by
    rw [List.map_cons, simplifyL, simplifyL, simplify_exchange hx ha c]
    rcases simplify c with ⟨d, es⟩ | _ | _
    · simp only [Res.map, exchE, simplifyL_exchange hx ha cs]
      rcases simplifyL cs with ⟨ds, fs⟩ | _ | _
      · simp [Res.map, exchEs]
      · rfl
      · rfl
    · rfl
    · rfl

end

mutual

theorem aux_exchange (ids : Nat → Str) : ∀ (n : Nat) (c : CST),
    aux ids n (c.exchange x) = (aux ids n c).map fun r => (r.1.exchange x, r.2)
  | n, .leaf k l => by cases k <;> simp [CST.exchange, LKind.exchange, aux, Res.map, AST.exchange]
  | n, .node k cs l => by
    rw [CST.exchange, aux, aux]
    have hk : (k.exchange x).toAst = k.toAst.map (AKind.exchange x) := by cases k <;> rfl
    rw [hk, exchangeL_map, auxL_exchange ids n cs]
    rcases k.toAst with _ | k'
    · rfl
    · simp only [Option.map_some]
      rcases auxL ids n cs with ⟨as, m⟩ | _ | _
      · simp [Res.map, AST.exchange]
      · rfl
      · rfl

theorem auxL_exchange (ids : Nat → Str) : ∀ (n : Nat) (cs : List CST),
    auxL ids n (cs.map (CST.exchange x)) = (auxL ids n cs).map fun r => (AST.exchangeL x r.1, r.2)
  | n, [] => rfl
  | n, c :: cs => by
    rw [List.map_cons, auxL, auxL, aux_exchange ids n c]
    rcases aux ids n c with ⟨a, m⟩ | _ | _
    · simp only [Res.map, auxL_exchange ids m cs]
      rcases auxL ids m cs with ⟨as, k⟩ | _ | _ <;> rfl
    · rfl
    · rfl

end

theorem transform_exchange (hx : ∀ b b', x b = x b' → b = b') (ha : ∀ b, x b = .angle ↔ b = .angle) (ids : Nat → Str) (c : CST) :
    transform ids (c.exchange x) = (transform ids c).map fun r => (r.1.exchange x, r.2.map (TErr.exchange x)) := by
  rw [transform, transform, simplify_exchange hx ha c]
  rcases simplify c with ⟨d, es⟩ | _ | _
  · simp only [Res.map, exchE, aux_exchange]
    rcases aux ids 0 d with ⟨a, n⟩ | _ | _ <;> rfl
  · rfl
  · rfl

end Brack
