import Verif.Proof.GenMore

/-
Helper lemmas on code generation: argument counting, binding for the usual signatures, runs that
cannot fail by themselves, runs that cannot panic.
-/

namespace Brack

variable {W : Wasm}

/-! ### Counting -/

theorem usizeIncr_of_lt {ck x} (h : x < usizeMax) : usizeIncr ck x = .ok (x + 1) := by
  rw [usizeIncr, if_pos h]

theorem argCounterLoop_step (ck : Bool) (t : PType) (ts : List PType) (mn mx : Nat) (ht : t.isArray = false) :
    argCounterLoop ck mn mx (t :: ts) = (match usizeIncr ck mx with
      | .ok mx => argCounterLoop ck (if t.isRequired then mn + 1 else mn) mx ts
      | .err m => .err m
      | .panic => .panic) := by
  rcases t <;> first | rfl | cases ht

theorem countP_cons_required (t : PType) (ts : List PType) (mn : Nat) :
    mn + (t :: ts).countP PType.isRequired =
      (if t.isRequired then mn + 1 else mn) + ts.countP PType.isRequired := by
  rw [List.countP_cons]
  split <;> omega

theorem argCounterLoop_pre (ck : Bool) (ts : List PType) : ∀ (pre : List PType) (mn mx : Nat),
    (∀ t ∈ pre, t.isArray = false) → mx + pre.length ≤ usizeMax →
    argCounterLoop ck mn mx (pre ++ ts) =
      argCounterLoop ck (mn + pre.countP PType.isRequired) (mx + pre.length) ts := by
  intro pre
  induction pre with
  | nil => intro mn mx _ _; rfl
  | cons t pre ih =>
    intro mn mx h hl
    simp only [List.length_cons] at hl
    rw [List.cons_append, argCounterLoop_step _ _ _ _ _ (h t (by simp)), usizeIncr_of_lt (by omega)]
    simp only []
    rw [ih _ _ (fun t ht => h t (by simp [ht])) (by omega), countP_cons_required]
    congr 1
    simp only [List.length_cons]; omega

theorem argCounterLoop_arrays (ck : Bool) : ∀ (post : List PType) (mn mx : Nat),
    (∀ t ∈ post, t.isArray = true) →
    argCounterLoop ck mn mx post = .ok (mn, if post.isEmpty then mx else usizeMax) := by
  intro post
  induction post with
  | nil => intro mn mx _; rfl
  | cons t post ih =>
    intro mn mx h
    have ht := h t (by simp)
    rcases t <;> simp [PType.isArray] at ht
    rw [argCounterLoop, ih _ _ (fun t ht => h t (by simp [ht]))]
    rcases post <;> rfl

theorem required_not_array {t : PType} (h : t.isArray = true) : t.isRequired = false := by
  rcases t <;> simp [PType.isArray] at h; rfl

theorem argCounter_arraysLast (ck : Bool) (ts : List PType) (h : ArraysLast ts) (hl : ts.length ≤ usizeMax) :
    argCounter ck ts = .ok (countsOf ts) := by
  obtain ⟨pre, post, rfl, h1, h2⟩ := h
  rw [argCounter, argCounterLoop_pre ck post pre 0 0 h1 (by simp at hl; omega), argCounterLoop_arrays ck _ _ _ h2,
    countsOf, List.countP_append, List.any_append]
  have h3 : post.countP PType.isRequired = 0 := by
    rw [List.countP_eq_zero]
    intro t ht
    simp [required_not_array (h2 t ht)]
  have h4 : pre.any PType.isArray = false := by
    rw [List.any_eq_false]
    intro t ht
    simp [h1 t ht]
  rw [h3, h4]
  rcases post with _ | ⟨t, post⟩
  · simp
  · simp [h2 t (by simp)]

theorem usizeIncr_cases (ck x) : (∃ y, usizeIncr ck x = .ok y) ∨ (ck = true ∧ usizeIncr ck x = .panic) := by
  rw [usizeIncr]
  split
  · exact .inl ⟨_, rfl⟩
  · rcases ck
    · exact .inl ⟨0, rfl⟩
    · exact .inr ⟨rfl, rfl⟩

/-- With overflow checks a parameter after an array makes counting panic. -/
theorem argCounterLoop_bad (u : PType) (t : PType) (ht : t.isArray = false) (post : List PType) :
    ∀ (pre : List PType) (mn mx : Nat),
    argCounterLoop true mn mx (pre ++ .array u :: t :: post) = .panic := by
  intro pre
  induction pre with
  | nil =>
    intro mn mx
    rw [List.nil_append, argCounterLoop, argCounterLoop_step _ _ _ _ _ ht]
    rfl
  | cons s pre ih =>
    intro mn mx
    rcases hs : s.isArray with _ | _
    · rw [List.cons_append, argCounterLoop_step _ _ _ _ _ hs]
      rcases usizeIncr_cases true mx with ⟨y, hy⟩ | ⟨_, hy⟩ <;> rw [hy]
      exact ih _ _
    · rcases s <;> simp [PType.isArray] at hs
      rw [List.cons_append, argCounterLoop]
      exact ih _ _

/-- Without overflow checks the parameters before the last array do not matter. -/
theorem argCounterLoop_any (ts : List PType) : ∀ (pre : List PType) (mn mx : Nat),
    ∃ mx', argCounterLoop false mn mx (pre ++ ts) =
      argCounterLoop false (mn + pre.countP PType.isRequired) mx' ts := by
  intro pre
  induction pre with
  | nil => intro mn mx; exact ⟨mx, rfl⟩
  | cons s pre ih =>
    intro mn mx
    rcases hs : s.isArray with _ | _
    · rw [List.cons_append, argCounterLoop_step _ _ _ _ _ hs]
      rcases usizeIncr_cases false mx with ⟨y, hy⟩ | ⟨h, _⟩
      · rw [hy, countP_cons_required]
        exact ih _ _
      · cases h
    · rcases s <;> simp [PType.isArray] at hs
      rw [List.cons_append, argCounterLoop]
      simpa [PType.isRequired] using ih mn usizeMax

theorem exists_last_array : ∀ (ts : List PType), ts.any PType.isArray = true →
    ∃ pre u post, ts = pre ++ .array u :: post ∧ ∀ t ∈ post, t.isArray = false := by
  intro ts
  induction ts with
  | nil => intro h; cases h
  | cons t ts ih =>
    intro h
    rcases ha : ts.any PType.isArray with _ | _
    · simp only [List.any_cons, ha, Bool.or_false] at h
      rcases t <;> simp [PType.isArray] at h
      refine ⟨[], _, ts, rfl, ?_⟩
      intro t ht
      rw [List.any_eq_false] at ha
      simpa using ha t ht
    · obtain ⟨pre, u, post, rfl, h'⟩ := ih ha
      exact ⟨t :: pre, u, post, rfl, h'⟩

theorem not_arraysLast : ∀ (ts : List PType), ¬ ArraysLast ts →
    ∃ pre u t post, ts = pre ++ .array u :: t :: post ∧ t.isArray = false := by
  intro ts
  induction ts with
  | nil => intro h; exact absurd ⟨[], [], rfl, by simp, by simp⟩ h
  | cons t ts ih =>
    intro h
    by_cases hl : ArraysLast ts
    · obtain ⟨pre, post, rfl, h1, h2⟩ := hl
      rcases ht : t.isArray with _ | _
      · refine absurd ⟨t :: pre, post, rfl, ?_, h2⟩ h
        intro s hs
        rcases List.mem_cons.mp hs with rfl | hs
        · exact ht
        · exact h1 s hs
      · rcases t <;> simp [PType.isArray] at ht
        rcases pre with _ | ⟨p, pre⟩
        · refine absurd ⟨[], _ :: post, rfl, by simp, ?_⟩ h
          intro s hs
          rcases List.mem_cons.mp hs with rfl | hs
          · rfl
          · exact h2 s hs
        · exact ⟨[], _, p, _, rfl, h1 p (by simp)⟩
    · obtain ⟨pre, u, s, post, rfl, h'⟩ := ih hl
      exact ⟨t :: pre, u, s, post, rfl, h'⟩

/-- Without overflow checks, counting from the maximum. -/
theorem argCounterLoop_wrap (post : List PType) (h : ∀ t ∈ post, t.isArray = false)
    (hl : post.length ≤ usizeMax) (mn : Nat) :
    argCounterLoop false mn usizeMax post =
      .ok (mn + post.countP PType.isRequired, if post.isEmpty then usizeMax else post.length - 1) := by
  rcases post with _ | ⟨t, post⟩
  · rfl
  · rw [argCounterLoop_step _ _ _ _ _ (h t (by simp))]
    have : usizeIncr false usizeMax = .ok 0 := by rw [usizeIncr]; simp
    rw [this]
    simp only []
    have := argCounterLoop_pre false [] post (if t.isRequired then mn + 1 else mn) 0
      (fun s hs => h s (by simp [hs])) (by simp at hl; omega)
    rw [List.append_nil] at this
    rw [this, argCounterLoop, countP_cons_required]
    simp

theorem argCounter_iff (ts : List PType) (hl : ts.length ≤ usizeMax) :
    (argCounter true ts = .ok (countsOf ts) ↔ ArraysLast ts) ∧
    (argCounter false ts = .ok (countsOf ts) ↔
      (ts.any PType.isArray = false ∨ ∃ t, ts.getLast? = some t ∧ t.isArray = true)) := by
  constructor
  · constructor
    · intro h
      refine Classical.byContradiction (fun hn => ?_)
      obtain ⟨pre, u, t, post, rfl, ht⟩ := not_arraysLast ts hn
      rw [argCounter, argCounterLoop_bad u t ht] at h
      cases h
    · intro h
      exact argCounter_arraysLast true ts h hl
  · rcases ha : ts.any PType.isArray with _ | _
    · simp only [true_or, iff_true]
      refine argCounter_arraysLast false ts ⟨ts, [], by simp, ?_, by simp⟩ hl
      intro t ht
      rw [List.any_eq_false] at ha
      simpa using ha t ht
    · obtain ⟨pre, u, post, rfl, hp⟩ := exists_last_array ts ha
      obtain ⟨mx, hmx⟩ := argCounterLoop_any (.array u :: post) pre 0 0
      simp only [List.length_append, List.length_cons] at hl
      rw [argCounter, hmx, argCounterLoop, argCounterLoop_wrap post hp (by omega), countsOf, ha]
      rcases post with _ | ⟨t, post⟩
      · simp [PType.isArray, PType.isRequired]
      · have hlast : ∃ s, (t :: post).getLast? = some s ∧ s.isArray = false := by
          refine ⟨(t :: post).getLast (by simp), List.getLast?_eq_some_getLast (by simp), ?_⟩
          exact hp _ (List.getLast_mem _)
        obtain ⟨s, hs, hsa⟩ := hlast
        simp only [List.length_cons] at hl
        have hne : post.length ≠ usizeMax := by omega
        simp [List.getLast?_append, List.getLast?_cons, hsa, hne] at hs ⊢
        simp [hs, hsa]

/-! ### The usual signatures -/

theorem Standard.arraysLast {ts : List PType} (h : Standard ts) : ArraysLast ts := by
  obtain ⟨req, opt, rfl, h1, h2⟩ := h
  have hr : ∀ t ∈ req, t.isArray = false := by
    intro t ht
    have := h1 t ht
    rcases t <;> simp [PType.isRequired] at this <;> rfl
  rcases h2 with h2 | ⟨u, rfl⟩
  · refine ⟨req ++ opt, [], by simp, ?_, by simp⟩
    intro t ht
    rcases List.mem_append.mp ht with ht | ht
    · exact hr t ht
    · obtain ⟨u, rfl⟩ := h2 t ht; rfl
  · exact ⟨req, [.array u], rfl, hr, by simp [PType.isArray]⟩

theorem Standard.binds {ts : List PType} (h : Standard ts) {args : List Str}
    (ha : ts.countP PType.isRequired ≤ args.length) : ∃ vs, bindArgs args 0 ts = .ok vs := by
  rcases hb : bindArgs args 0 ts with vs | m | _
  · exact ⟨vs, rfl⟩
  · exact absurd hb (bindArgs_not_err _ _ _ _)
  · obtain ⟨j, t, ht, hl⟩ := (bindArgs_panic args ts 0).mp hb
    obtain ⟨req, opt, rfl, h1, h2⟩ := h
    have hreq : req.countP PType.isRequired = req.length := List.countP_eq_length.mpr h1
    have hopt : opt.countP PType.isRequired = 0 := by
      rw [List.countP_eq_zero]
      intro t ht
      rcases h2 with h2 | ⟨u, rfl⟩
      · obtain ⟨u, rfl⟩ := h2 t ht; simp [PType.isRequired]
      · simp at ht; subst ht; simp [PType.isRequired]
    rw [List.countP_append, hreq, hopt] at ha
    rw [Nat.zero_add] at hl
    by_cases hj : j < req.length
    · rcases hl with ⟨_, hl⟩ | ⟨_, hl⟩ <;> omega
    · rw [List.getElem?_append_right (by omega)] at ht
      rcases h2 with h2 | ⟨u, rfl⟩
      · obtain ⟨u, rfl⟩ := h2 t (List.mem_of_getElem? ht)
        simp [Lacks, PType.isRequired, PType.isArray] at hl
      · have : j - req.length = 0 := by
          have := (List.getElem?_eq_some_iff.mp ht).1
          simp at this; omega
        rw [this] at ht
        simp at ht
        subst ht
        simp [Lacks, PType.isRequired, PType.isArray] at hl
        omega

/-- Values passed from position `i` on. -/
def PassedFrom (args : List Str) (i : Nat) (ts : List PType) (vs : List Value) : Prop :=
  vs.length = ts.length ∧ ∀ j t v, ts[j]? = some t → vs[j]? = some v → Passed args (i + j) t v

theorem PassedFrom.cons {args i t ts vs} (h : PassedFrom args i (t :: ts) vs) :
    ∃ v vs', vs = v :: vs' ∧ Passed args i t v ∧ PassedFrom args (i + 1) ts vs' := by
  rcases vs with _ | ⟨v, vs⟩
  · simp [PassedFrom] at h
  · refine ⟨v, vs, rfl, ?_, ?_, ?_⟩
    · simpa using h.2 0 t v rfl rfl
    · simpa using h.1
    · intro j t' v' ht hv
      have := h.2 (j + 1) t' v' (by simpa using ht) (by simpa using hv)
      rwa [← Nat.add_assoc, Nat.add_right_comm] at this

theorem passed_options (args : List Str) : ∀ (opt : List PType) (i : Nat) (vs : List Value),
    (∀ t ∈ opt, ∃ u, t = .option u) → args.length ≤ i + opt.length → PassedFrom args i opt vs →
    vs.flatMap Value.arguments = args.drop i := by
  intro opt
  induction opt with
  | nil =>
    intro i vs _ hl h
    have : vs = [] := List.length_eq_zero_iff.mp (by simpa using h.1)
    subst this
    simp only [List.length_nil, Nat.add_zero] at hl
    rw [List.drop_eq_nil_of_le hl]; rfl
  | cons t opt ih =>
    intro i vs ho hl h
    obtain ⟨v, vs', rfl, hp, h'⟩ := h.cons
    obtain ⟨u, rfl⟩ := ho t (by simp)
    rw [List.flatMap_cons, ih (i + 1) vs' (fun t ht => ho t (by simp [ht])) (by simp at hl; omega) h']
    cases hp with
    | option =>
      rcases hi : args[i]? with _ | x
      · have hle : args.length ≤ i := by simpa using hi
        rw [List.drop_eq_nil_of_le hle, List.drop_eq_nil_of_le (by omega)]; rfl
      · obtain ⟨h1, h2⟩ := List.getElem?_eq_some_iff.mp hi
        rw [List.drop_eq_getElem_cons h1, h2]; rfl
    | required _ _ hr => simp [PType.isRequired] at hr

theorem passed_standard (args : List Str) (opt : List PType)
    (ho : (∀ t ∈ opt, ∃ u, t = .option u) ∨ ∃ u, opt = [.array u]) : ∀ (req : List PType) (i : Nat) (vs : List Value),
    (∀ t ∈ req, t.isRequired = true) →
    (args.length ≤ i + req.length + opt.length ∨ ∃ u, opt = [.array u]) →
    PassedFrom args i (req ++ opt) vs → vs.flatMap Value.arguments = args.drop i := by
  intro req
  induction req with
  | nil =>
    intro i vs _ hl h
    rcases ho with ho | ⟨u, rfl⟩
    · rcases hl with hl | ⟨u, rfl⟩
      · exact passed_options args opt i vs ho (by simpa using hl) h
      · obtain ⟨u', h'⟩ := ho (.array u) (by simp); cases h'
    · obtain ⟨v, vs', rfl, hp, h'⟩ := h.cons
      have : vs' = [] := List.length_eq_zero_iff.mp (by simpa using h'.1)
      subst this
      cases hp with
      | array => simp [Value.arguments]
      | required _ _ hr => simp [PType.isRequired] at hr
  | cons t req ih =>
    intro i vs hr hl h
    obtain ⟨v, vs', rfl, hp, h'⟩ := h.cons
    have ht := hr t (by simp)
    rw [List.flatMap_cons, ih (i + 1) vs' (fun t ht => hr t (by simp [ht]))
      (hl.imp (fun h => by simp at h; omega) _root_.id) h']
    cases hp with
    | option => simp [PType.isRequired] at ht
    | array => simp [PType.isRequired] at ht
    | required _ a _ hi =>
      obtain ⟨h1, h2⟩ := List.getElem?_eq_some_iff.mp hi
      rw [List.drop_eq_getElem_cons h1, h2]; rfl

theorem Standard.delivers {ts : List PType} (h : Standard ts) {args vs} (ha : Admissible ts args.length)
    (hp : PassedAll args ts vs) : vs.flatMap Value.arguments = args := by
  obtain ⟨req, opt, rfl, h1, h2⟩ := h
  have := passed_standard args opt h2 req 0 vs h1 ?_ ⟨hp.1, fun j t v ht hv => by simpa using hp.2 j t v ht hv⟩
  · simpa using this
  · rcases h2 with h2 | h2
    · rcases ha.2 with h3 | h3
      · exfalso
        rw [List.any_eq_true] at h3
        obtain ⟨t, ht, hta⟩ := h3
        rcases List.mem_append.mp ht with ht | ht
        · have := h1 t ht
          rw [required_not_array hta] at this; cases this
        · obtain ⟨u, rfl⟩ := h2 t ht
          cases hta
      · exact .inl (by simpa using h3)
    · exact .inr h2

/-! ### Runs that cannot fail by themselves -/

/-- The result is a success, or the last call failed. -/
def Done (ps : Plugins W) (res : Res α) (ps' : Plugins W) : Prop :=
  ∃ calls, ps'.log = ps.log ++ calls ∧
    (res.isOk = true ∨ res.isErr = true ∧ ∃ c, calls.getLast? = some c ∧ c.isFailed = true)

theorem Done.pure (ps : Plugins W) (a : α) : Done ps (.ok a) ps := ⟨[], by simp, .inl rfl⟩

theorem Done.bind {ps : Plugins W} {x : PM W α} {f : α → PM W β} (h1 : Done ps (x ps).1 (x ps).2)
    (h2 : ∀ a, (x ps).1 = .ok a → Done (x ps).2 (f a (x ps).2).1 (f a (x ps).2).2) :
    Done ps ((x >>= f) ps).1 ((x >>= f) ps).2 := by
  rw [PM.bind_run]
  obtain ⟨c1, l1, r1⟩ := h1
  rcases hx : x ps with ⟨a | m | _, ps1⟩
  · rw [hx] at l1 h2
    obtain ⟨c2, l2, r2⟩ := h2 a rfl
    refine ⟨c1 ++ c2, by rw [l2, l1]; simp, ?_⟩
    rcases r2 with r2 | ⟨r2, c, hc, hf⟩
    · exact .inl r2
    · exact .inr ⟨r2, c, by rw [List.getLast?_append, hc]; rfl, hf⟩
  · rw [hx] at l1 r1
    rcases r1 with r1 | ⟨_, r1⟩
    · cases r1
    · exact ⟨c1, l1, .inr ⟨rfl, r1⟩⟩
  · rw [hx] at r1
    rcases r1 with r1 | ⟨r1, _⟩ <;> cases r1

theorem callText_done {ps : Plugins W} {plugin command typ} (args : List Value)
    (h : (ps.signature plugin command typ).isSome = true) :
    Done ps (Plugins.callText plugin command typ args ps).1 (Plugins.callText plugin command typ args ps).2 := by
  rw [Plugins.callText]
  rw [Plugins.signature] at h
  rcases hp : ps.nameToPlugin.get plugin with _ | p
  · rw [hp] at h; cases h
  · rw [hp] at h
    simp only [] at h ⊢
    rcases hs : p.signatures.get (command, typ) with _ | m
    · rw [hs] at h; cases h
    · simp only []
      rcases hc : W.callText p.extism m.callName args with ⟨_ | s, st⟩
      · exact ⟨_, rfl, .inr ⟨rfl, _, rfl, rfl⟩⟩
      · exact ⟨_, rfl, .inl rfl⟩

theorem hookBy_done {ps : Plugins W} {hook command typ} (s : Str)
    (h : ∀ p, hook = some p → (ps.signature p command typ).isSome = true) :
    Done ps (hookBy hook command typ s ps).1 (hookBy hook command typ s ps).2 := by
  rcases hook with _ | p
  · exact .pure ps s
  · exact callText_done _ (h p rfl)

theorem commandGenerate_run {ps : Plugins W} (ck : Bool) {b m c i1 i2 l1 l2 ts} {args : List Str}
    (h : ps.signature m c b.returnType = some ts) :
    commandGenerate ck b (.leaf .module i1 (some m) l1) (.leaf .ident i2 (some c) l2) args ps =
      callCommand ck b.returnType m c ts args ps := by
  rw [commandGenerate, PM.bind_run]
  have h1 : nameOf .module (.leaf .module i1 (some m) l1) ps = (.ok m, ps) := by
    simp only [nameOf, if_true]; rfl
  have h2 : nameOf .ident (.leaf .ident i2 (some c) l2) ps = (.ok c, ps) := by
    simp only [nameOf, if_true]; rfl
  rw [h1]
  simp only []
  rw [PM.bind_run, h2]
  simp only []
  rw [PM.bind_run]
  rcases argumentTypes_run m c b.returnType ps with ⟨ats, h1, h2⟩ | ⟨_, _, h2⟩
  · rw [h1]
    rw [h] at h2
    injection h2 with h2
    rw [h2]
  · rw [h] at h2; cases h2

theorem count_not_gt {ts : List PType} {n : Nat} (hn : n ≤ usizeMax) (ha : Admissible ts n) :
    ¬ n > if ts.any PType.isArray then usizeMax else ts.length := by
  rcases hany : ts.any PType.isArray with _ | _
  · rcases ha.2 with h' | h'
    · rw [hany] at h'; cases h'
    · simp; omega
  · simp; omega

theorem commandGenerate_done {ps : Plugins W} (ck : Bool) {b m c i1 i2 l1 l2 ts} {args : List Str}
    (h : ps.signature m c b.returnType = some ts) (hs : Standard ts) (hl : ts.length ≤ usizeMax)
    (hn : args.length ≤ usizeMax) (ha : Admissible ts args.length) :
    Done ps (commandGenerate ck b (.leaf .module i1 (some m) l1) (.leaf .ident i2 (some c) l2) args ps).1
      (commandGenerate ck b (.leaf .module i1 (some m) l1) (.leaf .ident i2 (some c) l2) args ps).2 := by
  have hc : argCounter ck ts = .ok (ts.countP PType.isRequired,
      if ts.any PType.isArray then usizeMax else ts.length) := argCounter_arraysLast ck ts hs.arraysLast hl
  rw [commandGenerate_run ck h, callCommand, hc]
  simp only []
  rw [if_neg (Nat.not_lt.mpr ha.1), if_neg (count_not_gt hn ha)]
  obtain ⟨vs, hv⟩ := hs.binds ha.1
  rw [hv]
  exact callText_done _ (by rw [h]; rfl)

theorem HooksExist.same {ps0 ps : Plugins W} (h : ps0.HooksExist) (hs : Same ps0 ps) : ps.HooksExist := by
  obtain ⟨h1, h2, h3, h4⟩ := h
  refine ⟨?_, ?_, ?_, ?_⟩
  · intro p hp; rw [hs.document] at hp; rw [hs.sigs]; exact h1 p hp
  · intro p hp; rw [hs.stmt] at hp; rw [hs.sigs]; exact h2 p hp
  · intro p hp; rw [hs.expr] at hp; rw [hs.sigs]; exact h3 p hp
  · intro p hp; rw [hs.text] at hp; rw [hs.sigs]; exact h4 p hp

/-- Conditions under which generation cannot fail by itself. -/
structure Good (ps0 ps : Plugins W) : Prop where
  same : Same ps0 ps
  hooks : ps0.HooksExist
  std : ps0.AllStandard

theorem Good.step {ps0 ps ps' : Plugins W} (h : Good ps0 ps) (hs : Same ps ps') : Good ps0 ps' :=
  ⟨h.same.trans hs, h.hooks, h.std⟩

/-- All nodes below are in order. -/
def FineFits (ps : Plugins W) (a : AST) : Prop := (∀ n, AST.NodeOf n a → NodeFine ps n) ∧ a.Fits

theorem FineFits.child {ps : Plugins W} {k i cs l c} (h : FineFits ps (.node k i cs l)) (hc : c ∈ cs) :
    FineFits ps c :=
  ⟨fun n hn => h.1 n (.child hc hn), fun k i cs l hn => h.2 k i cs l (.child hc hn)⟩

mutual

theorem genChild_done (ck : Bool) : ∀ (inDoc : Bool) (a : AST) (ps0 ps : Plugins W), Good ps0 ps →
    isPartIn inDoc a = true → FineFits ps0 a →
    Done ps (genChild ck inDoc a ps).1 (genChild ck inDoc a ps).2
  | inDoc, .leaf k i v l, ps0, ps, hg, hp, hf => by
    rcases k
    case text =>
      rcases v with _ | v
      · simp [isPartIn, AST.isPart, AST.isStmt] at hp
      · simp only [genChild, textGenerate, textHook_run]
        exact hookBy_done v (HooksExist.same hg.hooks hg.same).2.2.2
    all_goals simp [isPartIn, AST.isPart, AST.isStmt] at hp
  | inDoc, .node .document i cs l, ps0, ps, hg, hp, hf => by
    simp [isPartIn, AST.isPart, AST.isStmt] at hp
  | inDoc, .node .stmt i cs l, ps0, ps, hg, hp, hf => by
    have ih := genChildren_done ck false cs ps0 ps hg
    have hsm := genChildren_gens ck false cs ps0 ps hg.same
    simp only [genChild]
    rcases inDoc
    · simp [isPartIn, AST.isPart] at hp
    · simp only [if_true]
      refine Done.bind (ih ?_) ?_
      · have := (hf.1 _ .self).1
        rw [AST.nodeGenerable, List.all_eq_true] at this
        exact fun c hc => ⟨by simp [isPartIn, this c hc], hf.child hc⟩
      · intro rs _
        simp only [stmtHook_run]
        exact hookBy_done _ (HooksExist.same hg.hooks (hg.same.trans (Same.of_gens hsm))).2.1
  | inDoc, .node .expr i cs l, ps0, ps, hg, hp, hf => by
    have ih := genChildren_done ck false cs ps0 ps hg
    have hsm := genChildren_gens ck false cs ps0 ps hg.same
    simp only [genChild]
    refine Done.bind (ih ?_) ?_
    · have := (hf.1 _ .self).1
      rw [AST.nodeGenerable, List.all_eq_true] at this
      exact fun c hc => ⟨by simp [isPartIn, this c hc], hf.child hc⟩
    · intro rs _
      simp only [exprHook_run]
      exact hookBy_done _ (HooksExist.same hg.hooks (hg.same.trans (Same.of_gens hsm))).2.2.1
  | inDoc, .node (.bracket .angle) i cs l, ps0, ps, hg, hp, hf => by
    simp [isPartIn, AST.isPart, AST.isStmt] at hp
  | inDoc, .node (.bracket .square) i cs l, ps0, ps, hg, hp, hf => by
    rcases cs with _ | ⟨m, _ | ⟨j, args⟩⟩
    · exact absurd (hf.1 _ .self).1 (by simp [AST.nodeGenerable])
    · exact absurd (hf.1 _ .self).1 (by simp [AST.nodeGenerable])
    · have ih := genChildren_done ck false args ps0 ps hg
      have hsm := genChildren_gens ck false args ps0 ps hg.same
      obtain ⟨hn, hc⟩ := hf.1 _ .self
      obtain ⟨typ, mn, cn, args', ts, i1, i2, l1, l2, h1, h2, h3, h4⟩ := hc _ _ _ _ rfl
      simp only [List.cons.injEq] at h2
      obtain ⟨rfl, rfl, rfl⟩ := h2
      rw [AST.nodeGenerable, List.all_eq_true] at hn
      rotate_left
      · simp
      have hfit := hf.2 _ _ _ _ .self
      simp only [genChild]
      refine Done.bind (ih fun c hc => ⟨by simp [isPartIn, hn c hc], hf.child (by simp [hc])⟩) ?_
      intro rs hrs
      have hlen := genChildren_length _ _ _ _ _ hrs
      injection h1 with h1
      subst h1
      simp only [List.length_cons] at hfit
      obtain ⟨h5, h6⟩ := hg.std _ _ _ _ h3
      refine commandGenerate_done ck (b := .square) ?_ h5 h6 (by omega) (by rw [hlen]; exact h4)
      rw [(Same.of_gens hsm).sigs, hg.same.sigs]
      exact h3
  | inDoc, .node (.bracket .curly) i cs l, ps0, ps, hg, hp, hf => by
    rcases cs with _ | ⟨m, _ | ⟨j, args⟩⟩
    · exact absurd (hf.1 _ .self).1 (by simp [AST.nodeGenerable])
    · exact absurd (hf.1 _ .self).1 (by simp [AST.nodeGenerable])
    · have ih := genChildren_done ck false args ps0 ps hg
      have hsm := genChildren_gens ck false args ps0 ps hg.same
      obtain ⟨hn, hc⟩ := hf.1 _ .self
      obtain ⟨typ, mn, cn, args', ts, i1, i2, l1, l2, h1, h2, h3, h4⟩ := hc _ _ _ _ rfl
      simp only [List.cons.injEq] at h2
      obtain ⟨rfl, rfl, rfl⟩ := h2
      rw [AST.nodeGenerable, List.all_eq_true] at hn
      rotate_left
      · simp
      have hfit := hf.2 _ _ _ _ .self
      simp only [genChild]
      refine Done.bind (ih fun c hc => ⟨by simp [isPartIn, hn c hc], hf.child (by simp [hc])⟩) ?_
      intro rs hrs
      have hlen := genChildren_length _ _ _ _ _ hrs
      injection h1 with h1
      subst h1
      simp only [List.length_cons] at hfit
      obtain ⟨h5, h6⟩ := hg.std _ _ _ _ h3
      refine commandGenerate_done ck (b := .curly) ?_ h5 h6 (by omega) (by rw [hlen]; exact h4)
      rw [(Same.of_gens hsm).sigs, hg.same.sigs]
      exact h3

theorem genChildren_done (ck : Bool) : ∀ (inDoc : Bool) (cs : List AST) (ps0 ps : Plugins W), Good ps0 ps →
    (∀ c ∈ cs, isPartIn inDoc c = true ∧ FineFits ps0 c) →
    Done ps (genChildren ck inDoc cs ps).1 (genChildren ck inDoc cs ps).2
  | inDoc, [], ps0, ps, hg, h => by
    simp only [genChildren]
    exact .pure ps _
  | inDoc, c :: cs, ps0, ps, hg, h => by
    have h1 := genChild_done ck inDoc c ps0 ps hg
    have hsm := genChild_gens ck inDoc c ps0 ps hg.same
    have h2 := genChildren_done ck inDoc cs ps0 (genChild ck inDoc c ps).2 (hg.step (Same.of_gens hsm))
      (fun d hd => h d (by simp [hd]))
    simp only [genChildren]
    obtain ⟨h3, h4⟩ := h c (by simp)
    refine Done.bind (h1 h3 h4) (fun r _ => Done.bind h2 (fun rs _ => .pure _ _))

end

theorem generate_done (ck : Bool) {a : AST} {ps : Plugins W} {i cs l} (ha : a = .node .document i cs l)
    (hh : ps.HooksExist) (hs : ps.AllStandard) (hf : FineFits ps a) :
    Done ps (generate ck a ps).1 (generate ck a ps).2 := by
  subst ha
  have hsm := genChildren_gens ck true cs ps ps (.refl ps)
  simp only [generate]
  refine Done.bind (genChildren_done ck true cs ps ps ⟨.refl ps, hh, hs⟩ ?_) ?_
  · have := (hf.1 _ .self).1
    rw [AST.nodeGenerable, List.all_eq_true] at this
    exact fun c hc => ⟨by simpa [isPartIn] using this c hc, hf.child hc⟩
  · intro rs _
    simp only [documentHook_run]
    exact hookBy_done _ (HooksExist.same hh (Same.of_gens hsm)).1

/-! ### Runs that cannot panic -/

/-- Leaves without text are marks for something invalid. -/
def Valued (xs : List Content) : Prop :=
  ∀ x ∈ xs, x.value = none → x.kind = .invalid ∨ x.kind = .ignored

mutual

theorem display_ok : ∀ (n : Nat) (a : AST), Valued a.contents → ∃ s, a.display n = .ok s
  | n, .leaf k i v l, h => by
    have := h ⟨k, v, l⟩ (by simp [AST.contents])
    simp only [AST.display]
    rcases k <;> rcases v with _ | v <;> simp at this <;> simp [AST.leafLabel]
  | n, .node k i cs l, h => by
    obtain ⟨s, hs⟩ := displayL_ok (n + 1) cs h
    simp only [AST.display, hs]
    exact ⟨_, rfl⟩

theorem displayL_ok : ∀ (n : Nat) (cs : List AST), Valued (AST.contentsL cs) → ∃ s, AST.displayL n cs = .ok s
  | n, [], h => ⟨[], rfl⟩
  | n, c :: cs, h => by
    obtain ⟨s, hs⟩ := display_ok n c (fun x hx => h x (by simp [AST.contentsL, hx]))
    obtain ⟨t, ht⟩ := displayL_ok n cs (fun x hx => h x (by simp [AST.contentsL, hx]))
    simp only [AST.displayL, hs, ht]
    exact ⟨_, rfl⟩

end

theorem bind_no_panic {ps : Plugins W} {x : PM W α} {f : α → PM W β} (h1 : (x ps).1 ≠ .panic)
    (h2 : ∀ a, (x ps).1 = .ok a → (f a (x ps).2).1 ≠ .panic) : ((x >>= f) ps).1 ≠ .panic := by
  rw [PM.bind_run]
  rcases hx : x ps with ⟨a | m | _, ps1⟩
  · rw [hx] at h2; exact h2 a rfl
  · simp
  · rw [hx] at h1; exact absurd rfl h1

theorem bailWith_no_panic {a : AST} (h : Valued a.contents) (ps : Plugins W) : (bailWith a ps).1 ≠ .panic := by
  obtain ⟨s, hs⟩ := display_ok 0 a h
  rw [bailWith]
  refine bind_no_panic (by rw [PM.lift_run, hs]; simp) (fun _ _ => by simp [PM.bail])

theorem callText_no_panic (ps : Plugins W) (plugin command typ) (args : List Value) :
    (Plugins.callText plugin command typ args ps).1 ≠ .panic := by
  obtain ⟨_, _, _, _, h⟩ := callText_cases plugin command typ args ps .command
  exact h

theorem hookBy_no_panic (ps : Plugins W) (hook command typ) (s : Str) :
    (hookBy hook command typ s ps).1 ≠ .panic := by
  rcases hook with _ | p
  · simp [hookBy]
  · exact callText_no_panic _ _ _ _ _

theorem commandGenerate_no_panic {ps : Plugins W} (ck : Bool) (b : Bracket) (m j : AST) (args : List Str)
    (hs : ps.AllStandard) : (commandGenerate ck b m j args ps).1 ≠ .panic := by
  rw [commandGenerate]
  rcases nameOf_run .module m ps with ⟨_, mn, _, rfl, h1⟩ | ⟨e, h1⟩
  case inr => rw [PM.bind_run, h1]; simp
  refine bind_no_panic (by rw [h1]; simp) (fun x hx => ?_)
  rw [h1] at hx ⊢
  rcases nameOf_run .ident j ps with ⟨_, cn, _, rfl, h2⟩ | ⟨e, h2⟩
  case inr => rw [PM.bind_run, h2]; simp
  refine bind_no_panic (by rw [h2]; simp) (fun y hy => ?_)
  rw [h2] at hy ⊢
  injection hx with hx
  injection hy with hy
  subst hx hy
  rcases argumentTypes_run mn cn b.returnType ps with ⟨ats, h3, h4⟩ | ⟨e, h3, _⟩
  case inr => rw [PM.bind_run, h3]; simp
  refine bind_no_panic (by rw [h3]; simp) (fun z hz => ?_)
  rw [h3] at hz ⊢
  injection hz with hz
  subst hz
  obtain ⟨hst, hl⟩ := hs _ _ _ _ h4
  have hc := argCounter_arraysLast ck _ hst.arraysLast hl
  rcases hcnt : countsOf (ats.map (·.2)) with ⟨mn', mx'⟩
  have hmn' : mn' = (ats.map (·.2)).countP PType.isRequired := by
    rw [countsOf] at hcnt
    injection hcnt with h _
    exact h.symm
  rw [hcnt] at hc
  simp only [callCommand, hc]
  split
  · simp [PM.bail]
  next hmn =>
  split
  · simp [PM.bail]
  obtain ⟨vs, hv⟩ := hst.binds (hmn' ▸ Nat.not_lt.mp hmn)
  rw [hv]
  exact callText_no_panic _ _ _ _ _

mutual

theorem genChild_no_panic (ck : Bool) : ∀ (inDoc : Bool) (a : AST) (ps0 ps : Plugins W), Same ps0 ps →
    ps0.AllStandard → Valued a.contents → (genChild ck inDoc a ps).1 ≠ .panic
  | inDoc, .leaf k i v l, ps0, ps, hs, hst, hv => by
    rcases k
    case text =>
      rcases v with _ | v
      · simp [genChild, textGenerate, PM.bail]
      · simp only [genChild, textGenerate, textHook_run]
        exact hookBy_no_panic _ _ _ _ _
    all_goals
      simp only [genChild]
      exact bailWith_no_panic hv ps
  | inDoc, .node .document i cs l, ps0, ps, hs, hst, hv => by
    simp only [genChild]
    exact bailWith_no_panic hv ps
  | inDoc, .node .stmt i cs l, ps0, ps, hs, hst, hv => by
    have ih := genChildren_no_panic ck false cs ps0 ps hs hst hv
    simp only [genChild]
    rcases inDoc
    · exact bailWith_no_panic hv ps
    · simp only [if_true]
      refine bind_no_panic ih (fun rs _ => ?_)
      simp only [stmtHook_run]
      exact hookBy_no_panic _ _ _ _ _
  | inDoc, .node .expr i cs l, ps0, ps, hs, hst, hv => by
    have ih := genChildren_no_panic ck false cs ps0 ps hs hst hv
    simp only [genChild]
    refine bind_no_panic ih (fun rs _ => ?_)
    simp only [exprHook_run]
    exact hookBy_no_panic _ _ _ _ _
  | inDoc, .node (.bracket .angle) i cs l, ps0, ps, hs, hst, hv => by
    simp [genChild, PM.bail]
  | inDoc, .node (.bracket .square) i cs l, ps0, ps, hs, hst, hv => by
    rcases cs with _ | ⟨m, _ | ⟨j, args⟩⟩
    · simp [genChild, PM.bail]
    · simp [genChild, PM.bail]
    · have ih := genChildren_no_panic ck false args ps0 ps hs hst
        (fun x hx => hv x (by simp [AST.contents, AST.contentsL, hx]))
      have hsm := genChildren_gens ck false args ps0 ps hs
      simp only [genChild]
      refine bind_no_panic ih (fun rs _ => commandGenerate_no_panic ck _ _ _ _ ?_)
      intro m c t ts h
      rw [(Same.of_gens hsm).sigs, hs.sigs] at h
      exact hst m c t ts h
  | inDoc, .node (.bracket .curly) i cs l, ps0, ps, hs, hst, hv => by
    rcases cs with _ | ⟨m, _ | ⟨j, args⟩⟩
    · simp [genChild, PM.bail]
    · simp [genChild, PM.bail]
    · have ih := genChildren_no_panic ck false args ps0 ps hs hst
        (fun x hx => hv x (by simp [AST.contents, AST.contentsL, hx]))
      have hsm := genChildren_gens ck false args ps0 ps hs
      simp only [genChild]
      refine bind_no_panic ih (fun rs _ => commandGenerate_no_panic ck _ _ _ _ ?_)
      intro m c t ts h
      rw [(Same.of_gens hsm).sigs, hs.sigs] at h
      exact hst m c t ts h

theorem genChildren_no_panic (ck : Bool) : ∀ (inDoc : Bool) (cs : List AST) (ps0 ps : Plugins W), Same ps0 ps →
    ps0.AllStandard → Valued (AST.contentsL cs) → (genChildren ck inDoc cs ps).1 ≠ .panic
  | inDoc, [], ps0, ps, hs, hst, hv => by
    simp only [genChildren]; exact fun h => (by cases h)
  | inDoc, c :: cs, ps0, ps, hs, hst, hv => by
    have h1 := genChild_no_panic ck inDoc c ps0 ps hs hst
      (fun x hx => hv x (by simp [AST.contentsL, hx]))
    have hsm := genChild_gens ck inDoc c ps0 ps hs
    have h2 := genChildren_no_panic ck inDoc cs ps0 (genChild ck inDoc c ps).2 (hs.trans (Same.of_gens hsm)) hst
      (fun x hx => hv x (by simp [AST.contentsL, hx]))
    simp only [genChildren]
    exact bind_no_panic h1 (fun r _ => bind_no_panic h2 (fun rs _ => fun h => (by cases h)))

end

theorem generate_no_panic (ck : Bool) (a : AST) (ps : Plugins W) (hst : ps.AllStandard)
    (hv : Valued a.contents) : (generate ck a ps).1 ≠ .panic := by
  rcases a with ⟨k, i, v, l⟩ | ⟨k, i, cs, l⟩
  · simp [generate, PM.bail]
  · rcases k
    case document =>
      simp only [generate]
      refine bind_no_panic (genChildren_no_panic ck true cs ps ps (.refl ps) hst hv) (fun rs _ => ?_)
      simp only [documentHook_run]
      exact hookBy_no_panic _ _ _ _ _
    all_goals simp [generate, PM.bail]

end Brack
