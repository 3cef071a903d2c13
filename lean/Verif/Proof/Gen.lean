import Verif.Proof.PMLemmas

/-
Helper lemmas on code generation.
-/

namespace Brack

variable {W : Wasm}

/-! ### Counting and binding arguments -/

theorem usizeIncr_ok {ck x y} (h : usizeIncr ck x = .ok y) : y ≤ x + 1 := by
  rw [usizeIncr] at h
  split at h
  · injection h with h; omega
  · split at h
    · cases h
    · injection h with h; omega

theorem argCounterLoop_ok (ck : Bool) : ∀ (ts : List PType) (mn mx a b : Nat),
    argCounterLoop ck mn mx ts = .ok (a, b) →
    a = mn + ts.countP PType.isRequired ∧ (ts.any PType.isArray = true ∨ b ≤ mx + ts.length) := by
  intro ts
  induction ts with
  | nil => intro mn mx a b h; simp [argCounterLoop] at h; simp [h]
  | cons t ts ih =>
    intro mn mx a b h
    have hreq : ∀ u, usizeIncr ck mx = u → (match u with
        | .ok max => argCounterLoop ck (mn + 1) max ts
        | .err m => .err m
        | .panic => .panic) = .ok (a, b) → a = mn + 1 + ts.countP PType.isRequired ∧
          (ts.any PType.isArray = true ∨ b ≤ mx + (ts.length + 1)) := by
      intro u hu h
      rcases u with u | _ | _
      · obtain ⟨h1, h2⟩ := ih _ _ _ _ h
        have := usizeIncr_ok hu
        exact ⟨h1, h2.imp _root_.id (fun h => by omega)⟩
      · cases h
      · cases h
    rcases t with _ | _ | _ | _ | _ | _ | _
    case option =>
      simp only [argCounterLoop] at h
      rcases hu : usizeIncr ck mx with u | _ | _
      · rw [hu] at h
        obtain ⟨h1, h2⟩ := ih _ _ _ _ h
        have := usizeIncr_ok hu
        refine ⟨by simpa [PType.isRequired] using h1, ?_⟩
        rcases h2 with h2 | h2
        · exact .inl (by simp [h2])
        · exact .inr (by simp; omega)
      · rw [hu] at h; cases h
      · rw [hu] at h; cases h
    case array =>
      simp only [argCounterLoop] at h
      obtain ⟨h1, _⟩ := ih _ _ _ _ h
      exact ⟨by simpa [PType.isRequired] using h1, .inl (by simp [PType.isArray])⟩
    all_goals
      simp only [argCounterLoop] at h
      obtain ⟨h1, h2⟩ := hreq _ rfl h
      refine ⟨by rw [h1, List.countP_cons_of_pos rfl]; omega, ?_⟩
      rcases h2 with h2 | h2
      · exact .inl (by simp [h2])
      · exact .inr (by simpa using h2)

theorem argCounter_admissible {ck ts mn mx n} (h : argCounter ck ts = .ok (mn, mx)) (h1 : mn ≤ n)
    (h2 : n ≤ mx) : Admissible ts n := by
  obtain ⟨h3, h4⟩ := argCounterLoop_ok ck ts 0 0 mn mx h
  exact ⟨by omega, h4.imp _root_.id (fun h => by omega)⟩

theorem bindArgs_cons (args : List Str) (i : Nat) (t : PType) (ts : List PType) :
    bindArgs args i (t :: ts) = (match bindArg args i t with
      | .ok v => match bindArgs args (i + 1) ts with
        | .ok vs => .ok (v :: vs)
        | .err m => .err m
        | .panic => .panic
      | .err m => .err m
      | .panic => .panic) := by
  rw [bindArgs]; rfl

theorem bindArg_ok {args i t v} (h : bindArg args i t = .ok v) : Passed args i t v := by
  rcases t
  case option =>
    simp only [bindArg] at h
    split at h
    · injection h with h; subst h; exact .option _
    · next hlt =>
      injection h with h; subst h
      have : args[i]? = none := by simp; omega
      rw [← this]; exact .option _
  case array =>
    simp only [bindArg] at h
    split at h
    · next hle => injection h with h; subst h; exact .array _ hle
    · cases h
  all_goals
    simp only [bindArg] at h
    split at h
    · next hlt => injection h with h; subst h; exact .required _ _ rfl hlt
    · cases h

theorem bindArg_err (args i t) : ∀ m, bindArg args i t ≠ .err m := by
  intro m h
  rcases t <;> simp only [bindArg] at h <;> split at h <;> cases h

/-- A parameter for which no argument is there. -/
def Lacks (args : List Str) (i : Nat) (t : PType) : Prop :=
  (t.isRequired = true ∧ args.length ≤ i) ∨ (t.isArray = true ∧ args.length < i)

theorem bindArg_panic {args i t} : bindArg args i t = .panic ↔ Lacks args i t := by
  rcases t
  case option => simp only [bindArg]; split <;> simp [Lacks, PType.isRequired, PType.isArray]
  case array => simp only [bindArg]; split <;> simp [Lacks, PType.isRequired, PType.isArray] <;> omega
  all_goals
    simp only [bindArg]
    split
    · next h =>
      have := (List.getElem?_eq_some_iff.mp h).1
      simp [Lacks, PType.isRequired, PType.isArray]; omega
    · next h =>
      simp at h
      simp [Lacks, PType.isRequired, PType.isArray]; omega

theorem bindArgs_ok (args : List Str) : ∀ (ts : List PType) (i : Nat) (vs : List Value),
    bindArgs args i ts = .ok vs → vs.length = ts.length ∧
      ∀ j t v, ts[j]? = some t → vs[j]? = some v → Passed args (i + j) t v := by
  intro ts
  induction ts with
  | nil => intro i vs h; simp [bindArgs] at h; simp [← h]
  | cons t ts ih =>
    intro i vs h
    rw [bindArgs_cons] at h
    rcases h1 : bindArg args i t with v | _ | _
    · rw [h1] at h
      simp only [] at h
      rcases h2 : bindArgs args (i + 1) ts with us | _ | _
      · rw [h2] at h
        injection h with h
        subst h
        obtain ⟨h3, h4⟩ := ih _ _ h2
        refine ⟨by simp [h3], ?_⟩
        intro j t' v' ht hv
        rcases j with _ | j
        · simp at ht hv
          subst ht hv
          exact bindArg_ok h1
        · simp at ht hv
          have := h4 j t' v' ht hv
          rwa [Nat.add_right_comm, Nat.add_assoc] at this
      · rw [h2] at h; cases h
      · rw [h2] at h; cases h
    · rw [h1] at h; cases h
    · rw [h1] at h; cases h

theorem bindArgs_not_err (args : List Str) : ∀ (ts : List PType) (i : Nat) (m : String),
    bindArgs args i ts ≠ .err m := by
  intro ts
  induction ts with
  | nil => intro i m h; simp [bindArgs] at h
  | cons t ts ih =>
    intro i m h
    rw [bindArgs_cons] at h
    rcases h1 : bindArg args i t with v | _ | _
    · rw [h1] at h
      simp only [] at h
      rcases h2 : bindArgs args (i + 1) ts with us | _ | _
      · rw [h2] at h; cases h
      · exact ih _ _ h2
      · rw [h2] at h; cases h
    · exact bindArg_err _ _ _ _ h1
    · rw [h1] at h; cases h

theorem bindArgs_panic (args : List Str) : ∀ (ts : List PType) (i : Nat),
    bindArgs args i ts = .panic ↔ ∃ j t, ts[j]? = some t ∧ Lacks args (i + j) t := by
  intro ts
  induction ts with
  | nil => intro i; simp [bindArgs]
  | cons t ts ih =>
    intro i
    rw [bindArgs_cons]
    have hsplit : (∃ j u, (t :: ts)[j]? = some u ∧ Lacks args (i + j) u) ↔
        Lacks args i t ∨ ∃ j u, ts[j]? = some u ∧ Lacks args (i + 1 + j) u := by
      constructor
      · rintro ⟨j, u, h1, h2⟩
        rcases j with _ | j
        · simp at h1; subst h1; exact .inl h2
        · simp at h1; exact .inr ⟨j, u, h1, by rwa [Nat.add_right_comm, Nat.add_assoc]⟩
      · rintro (h | ⟨j, u, h1, h2⟩)
        · exact ⟨0, t, rfl, h⟩
        · exact ⟨j + 1, u, by simpa using h1, by rwa [← Nat.add_assoc, Nat.add_right_comm]⟩
    rw [hsplit, ← ih, ← bindArg_panic]
    rcases h1 : bindArg args i t with v | _ | _
    · rcases h2 : bindArgs args (i + 1) ts with us | m | _
      · simp
      · exact absurd h2 (bindArgs_not_err _ _ _ _)
      · simp
    · exact absurd h1 (bindArg_err _ _ _ _)
    · simp

theorem bindArgs_passed {args ts vs} (h : bindArgs args 0 ts = .ok vs) : PassedAll args ts vs := by
  obtain ⟨h1, h2⟩ := bindArgs_ok args ts 0 vs h
  exact ⟨h1, fun i t v ht hv => by simpa using h2 i t v ht hv⟩

/-! ### Runs -/

/-- A call for a command is made with an admissible number of arguments. -/
def CallOk (ps : Plugins W) (c : Tag × Call) : Prop :=
  c.1 = .command → ∃ ts args vs, ps.signature c.2.plugin c.2.command c.2.typ = some ts ∧
    Admissible ts args.length ∧ PassedAll args ts vs ∧ c.2.input = .values vs

/-- What is known about a computation started with `ps`; `ps0` has the same signatures and hooks. -/
structure Gens (ps0 ps : Plugins W) (order : List Tag) (res : Res α) (ps' : Plugins W)
    (good : List (Tag × Call) → α → Prop) : Prop where
  run : ∃ calls, Ran ps ps' calls res.isOk ∧ calls.map (·.1) <+: order ∧ (∀ c ∈ calls, CallOk ps0 c) ∧
    ∀ r, res = .ok r → good calls r ∧ calls.map (·.1) = order

theorem Gens.pure (ps0 ps : Plugins W) (r : α) {good : List (Tag × Call) → α → Prop} (h : good [] r) :
    Gens ps0 ps [] (.ok r) ps good :=
  ⟨[], Ran.nil _ _, List.nil_prefix, by simp, by intro r' h'; injection h' with h'; subst h'; exact ⟨h, rfl⟩⟩

theorem Gens.err (ps0 ps : Plugins W) (m : String) (order) (good : List (Tag × Call) → α → Prop) :
    Gens ps0 ps order (.err m : Res α) ps good :=
  ⟨[], Ran.nil _ _, List.nil_prefix, by simp, by intro r' h'; cases h'⟩

theorem Gens.panic (ps0 ps : Plugins W) (order) (good : List (Tag × Call) → α → Prop) :
    Gens ps0 ps order (.panic : Res α) ps good :=
  ⟨[], Ran.nil _ _, List.nil_prefix, by simp, by intro r' h'; cases h'⟩

theorem Gens.bind {ps0 ps : Plugins W} {o1 o2} {x : PM W α} {f : α → PM W β} {g1 g}
    (hs : Same ps0 ps)
    (h1 : Gens ps0 ps o1 (x ps).1 (x ps).2 g1)
    (h2 : ∀ a ps1 c1, Same ps0 ps1 → g1 c1 a → Gens ps0 ps1 o2 (f a ps1).1 (f a ps1).2 (fun c2 r => g (c1 ++ c2) r)) :
    Gens ps0 ps (o1 ++ o2) ((x >>= f) ps).1 ((x >>= f) ps).2 g := by
  obtain ⟨c1, r1, p1, k1, g1'⟩ := h1
  rw [PM.bind_run]
  rcases hx : x ps with ⟨a | m | _, ps1⟩
  · rw [hx] at r1 g1'
    obtain ⟨hg, ho⟩ := g1' a rfl
    obtain ⟨c2, r2, p2, k2, g2⟩ := h2 a ps1 c1 (hs.trans r1.same) hg
    refine ⟨c1 ++ c2, r1.append r2, ?_, ?_, ?_⟩
    · rw [List.map_append, ho]
      exact (List.prefix_append_right_inj _).mpr p2
    · intro c hc
      rcases List.mem_append.mp hc with h | h
      · exact k1 c h
      · exact k2 c h
    · intro r hr
      obtain ⟨h3, h4⟩ := g2 r hr
      exact ⟨h3, by rw [List.map_append, ho, h4]⟩
  · rw [hx] at r1
    exact ⟨c1, r1, p1.trans (List.prefix_append _ _), k1, by intro r h; cases h⟩
  · rw [hx] at r1
    exact ⟨c1, r1, p1.trans (List.prefix_append _ _), k1, by intro r h; cases h⟩

/-- A hook. -/
def hookBy (hook : Option Str) (command : Str) (typ : PType) (s : Str) : PM W Str := fun ps =>
  match hook with
  | some p => Plugins.callText p command typ [.text s] ps
  | none => (.ok s, ps)

theorem hookBy_gens {ps0 ps : Plugins W} (hook : Option Str) (tag : Tag) (command : Str) (typ : PType)
    (s : Str) (ht : tag ≠ .command) :
    Gens ps0 ps (if hook.isSome then [tag] else []) (hookBy hook command typ s ps).1
      (hookBy hook command typ s ps).2 (HookCall hook tag command typ s) := by
  rcases hook with _ | p
  · exact Gens.pure _ _ _ (.absent rfl)
  · simp only [hookBy, Option.isSome_some, if_true]
    obtain ⟨calls, h1, h2, h3, h4⟩ := callText_cases p command typ [.text s] ps tag
    refine ⟨calls, h1, ?_, ?_, ?_⟩
    · rcases h2 with ⟨o, h2, _⟩ | ⟨h2, _⟩ <;> rw [h2]
      · exact List.prefix_refl _
      · exact List.nil_prefix
    · intro c hc htag
      rcases h2 with ⟨o, h2, _⟩ | ⟨h2, _⟩ <;> rw [h2] at hc
      · simp at hc; subst hc; exact absurd htag ht
      · simp at hc
    · intro r hr
      rw [h3 r hr]
      exact ⟨.called p r rfl, rfl⟩

theorem orElse_hook {f : PM W (Option Str)} {hook command typ} {s : Str} {ps : Plugins W}
    (hf : f ps = (match hook with
      | some p => (do return some (← Plugins.callText p command typ [.text s]) : PM W _) ps
      | none => (.ok none, ps))) :
    (f >>= fun o => pure (orElseText s o) : PM W Str) ps = hookBy hook command typ s ps := by
  rw [PM.bind_run, hf]
  rcases hook with _ | p
  · rfl
  · simp only [hookBy, PM.bind_run]
    rcases Plugins.callText p command typ [.text s] ps with ⟨_ | _ | _, ps'⟩ <;> rfl

theorem stmtHook_run (s : Str) (ps : Plugins W) :
    (Plugins.callStmtHook [.text s] >>= fun o => pure (orElseText s o) : PM W Str) ps =
      hookBy ps.stmtHook (chars! "stmt") .block s ps := orElse_hook rfl

theorem exprHook_run (s : Str) (ps : Plugins W) :
    (Plugins.callExprHook [.text s] >>= fun o => pure (orElseText s o) : PM W Str) ps =
      hookBy ps.exprHook (chars! "expr") .inline s ps := orElse_hook rfl

theorem textHook_run (s : Str) (ps : Plugins W) :
    (Plugins.callTextHook [.text s] >>= fun o => pure (orElseText s o) : PM W Str) ps =
      hookBy ps.textHook (chars! "text") .inline s ps := orElse_hook rfl

theorem documentHook_run (s : Str) (ps : Plugins W) :
    (Plugins.callDocumentHook [.text s] >>= fun o => pure (orElseText s o) : PM W Str) ps =
      hookBy ps.documentHook (chars! "document") .block s ps := orElse_hook rfl

theorem argumentTypes_run (m c : Str) (t : PType) (ps : Plugins W) :
    (∃ ats, Plugins.argumentTypes m c t ps = (.ok ats, ps) ∧ ps.signature m c t = some (ats.map (·.2))) ∨
    ∃ e, Plugins.argumentTypes m c t ps = (.err e, ps) ∧ ps.signature m c t = none := by
  rw [Plugins.argumentTypes, Plugins.signature]
  rcases hp : ps.nameToPlugin.get m with _ | p
  · exact .inr ⟨_, rfl, rfl⟩
  · simp only []
    rcases hs : p.signatures.get (c, t) with _ | md
    · exact .inr ⟨_, rfl, rfl⟩
    · exact .inl ⟨_, rfl, rfl⟩

theorem nameOf_run (k : ALKind) (a : AST) (ps : Plugins W) :
    (∃ i v l, a = .leaf k i (some v) l ∧ nameOf k a ps = (.ok v, ps)) ∨
    ∃ e, nameOf k a ps = (.err e, ps) := by
  rcases a with ⟨k', i, v, l⟩ | ⟨k', i, cs, l⟩
  · by_cases h : k' = k
    · subst h
      rcases v with _ | v
      · exact .inr ⟨_, by simp only [nameOf, if_true]; rfl⟩
      · exact .inl ⟨_, _, _, rfl, by simp only [nameOf, if_true]; rfl⟩
    · exact .inr ⟨_, by simp only [nameOf, h, if_false]; rfl⟩
  · exact .inr ⟨_, rfl⟩

/-- What is good about the call for a command. -/
def CommandGood (ps0 : Plugins W) (b : Bracket) (module ident : AST) (args : List Str)
    (calls : List (Tag × Call)) (r : Str) : Prop :=
  ∃ i1 i2 l1 l2 m c ts vs, module = .leaf .module i1 (some m) l1 ∧ ident = .leaf .ident i2 (some c) l2 ∧
    ps0.signature m c b.returnType = some ts ∧ Admissible ts args.length ∧ PassedAll args ts vs ∧
    calls = [(.command, ⟨m, c, b.returnType, .values vs, .text r⟩)]

theorem commandGenerate_gens {ps0 ps : Plugins W} (hs : Same ps0 ps) (ck : Bool) (b : Bracket)
    (module ident : AST) (args : List Str) :
    Gens ps0 ps [.command] (commandGenerate ck b module ident args ps).1
      (commandGenerate ck b module ident args ps).2 (CommandGood ps0 b module ident args) := by
  rw [commandGenerate, PM.bind_run]
  rcases nameOf_run .module module ps with ⟨i1, m, l1, rfl, h1⟩ | ⟨e, h1⟩
  case inr => rw [h1]; exact Gens.err _ _ _ _ _
  rw [h1]; simp only []
  rw [PM.bind_run]
  rcases nameOf_run .ident ident ps with ⟨i2, c, l2, rfl, h2⟩ | ⟨e, h2⟩
  case inr => rw [h2]; exact Gens.err _ _ _ _ _
  rw [h2]; simp only []
  rw [PM.bind_run]
  rcases argumentTypes_run m c b.returnType ps with ⟨ats, h3, hsig⟩ | ⟨e, h3, _⟩
  case inr => rw [h3]; exact Gens.err _ _ _ _ _
  rw [h3]; simp only [callCommand]
  generalize ats.map (·.2) = types at *
  rcases hc : argCounter ck types with ⟨mn, mx⟩ | e | _
  · simp only []
    split
    · exact Gens.err _ _ _ _ _
    next hmn =>
    split
    · exact Gens.err _ _ _ _ _
    next hmx =>
    rcases hb : bindArgs args 0 types with vs | e | _
    · simp only []
      have hsig0 : ps0.signature m c b.returnType = some types := by
        rw [← hs.sigs, hsig]
      have hadm := argCounter_admissible hc (n := args.length) (by omega) (by omega)
      have hpass := bindArgs_passed hb
      obtain ⟨calls, g1, g2, g3, _⟩ := callText_cases m c b.returnType vs ps .command
      refine ⟨calls, g1, ?_, ?_, ?_⟩
      · rcases g2 with ⟨o, g2, _⟩ | ⟨g2, _⟩ <;> rw [g2]
        · exact List.prefix_refl _
        · exact List.nil_prefix
      · intro x hx _
        rcases g2 with ⟨o, g2, _⟩ | ⟨g2, _⟩ <;> rw [g2] at hx
        · simp at hx
          subst hx
          exact ⟨_, args, vs, hsig0, hadm, hpass, rfl⟩
        · simp at hx
      · intro r hr
        refine ⟨⟨i1, i2, l1, l2, m, c, _, vs, rfl, rfl, hsig0, hadm, hpass, g3 r hr⟩, by rw [g3 r hr]; rfl⟩
    · exact Gens.err _ _ _ _ _
    · exact Gens.panic _ _ _ _
  · exact Gens.err _ _ _ _ _
  · exact Gens.panic _ _ _ _

end Brack
