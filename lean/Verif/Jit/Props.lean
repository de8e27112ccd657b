import Verif.Jit.Lemmas2
/-!
# Properties of `filter_jit` (C27, C28)
-/

namespace Verif.Jit

open PT

variable {V A O C Q R J : Type} [DecidableEq A] [DecidableEq C] [DecidableEq Q] [DecidableEq R] [DecidableEq J]

/-! ## The invariant of the caches -/

/-- Every cached program was traced under its key. -/
def JitOk (w : World V A O C Q R) (j : JitFn V A O C Q R) : Prop :=
  ∀ k pr, j.get? k = some pr →
    ∃ dd dn o, key w dd dn pr.statics = k ∧ funWrapped w dd dn pr.statics = .ok (o, pr.staticOut)

/-- The wrappers are those of the functions `fns`, and all caches are in order. -/
def Inv (w : World V A O C Q R) (p : Proc V A O C Q R J) (fns : List (Val V O C)) : Prop :=
  (∀ j ∈ p.jits, JitOk w j) ∧
  p.wrappers.map (fun wr => (wr.signatureOf, wr.dynFun, wr.staticFun)) =
    fns.map (fun fn => (fn, (hashablePartition fn).1, (hashablePartition fn).2)) ∧
  (∀ e ∈ p.cache, e.2 < p.jits.length) ∧ ∀ wr ∈ p.wrappers, wr.jit < p.jits.length

theorem jitOk_nil (w : World V A O C Q R) : JitOk w ([] : JitFn V A O C Q R) := by
  intro k pr h; simp [Dict.get?] at h

theorem jitCall_inv {w : World V A O C Q R} {j : JitFn V A O C Q R} (hj : JitOk w j) (dd dn : DynDict V)
    (s : Statics O C) : JitOk w (jitCall w j dd dn s).2 := by
  unfold jitCall
  split
  · exact hj
  · split
    · exact hj
    · split
      · rename_i o ho
        intro k pr hk
        simp only [Dict.get?_insert] at hk
        split at hk
        · rename_i e
          simp only [Option.some.injEq] at hk; subst hk
          exact ⟨dd, dn, o.1, e, ho⟩
        · exact hj k pr hk
      · exact hj

theorem mem_of_get? {K X : Type} [DecidableEq K] {d : Dict K X} {k : K} {x : X} (h : Dict.get? d k = some x) :
    ∃ k', (k', x) ∈ d := by
  induction d with
  | nil => simp [Dict.get?] at h
  | cons p d ih =>
    obtain ⟨a, b⟩ := p
    simp only [Dict.get?] at h
    split at h
    · simp only [Option.some.injEq] at h; subst h; exact ⟨a, by simp⟩
    · obtain ⟨k', hk'⟩ := ih h; exact ⟨k', by simp [hk']⟩

theorem mem_insert {K X : Type} [DecidableEq K] {d : Dict K X} {k : K} {x : X} {e} (h : e ∈ Dict.insert d k x) :
    e ∈ d ∨ e.2 = x := by
  induction d with
  | nil => simp [Dict.insert] at h; right; rw [h]
  | cons p d ih =>
    obtain ⟨a, b⟩ := p
    simp only [Dict.insert] at h
    split at h
    · rcases List.mem_cons.1 h with rfl | h
      · right; rfl
      · left; simp [h]
    · rcases List.mem_cons.1 h with rfl | h
      · left; simp
      · rcases ih h with h | h
        · left; simp [h]
        · right; exact h

omit [DecidableEq A] [DecidableEq Q] [DecidableEq R] in
/-- `compile_cache` returns an existing jitted function, and changes none. -/
theorem compileCache_spec (p : Proc V A O C Q R J) (k : CacheKey J) (hc : ∀ e ∈ p.cache, e.2 < p.jits.length) :
    ∃ js, (∀ j ∈ js, j = []) ∧ (compileCache p k).2.jits = p.jits ++ js ∧
      (compileCache p k).2.wrappers = p.wrappers ∧
      (∀ e ∈ (compileCache p k).2.cache, e.2 < (compileCache p k).2.jits.length) ∧
      (compileCache p k).1 < (compileCache p k).2.jits.length := by
  unfold compileCache
  cases h : p.cache.get? k with
  | some i =>
    obtain ⟨k', hk'⟩ := mem_of_get? h
    exact ⟨[], by simp, by simp, rfl, hc, hc _ hk'⟩
  | none =>
    refine ⟨[[]], by simp, rfl, rfl, ?_, by simp⟩
    intro e he
    simp only [List.length_append, List.length_cons, List.length_nil]
    rcases mem_insert he with h' | h'
    · have := hc e h'; omega
    · omega

omit [DecidableEq A] [DecidableEq C] [DecidableEq Q] [DecidableEq R] in
/-- Does `filter_jit` accept? -/
theorem decorate_spec (p : Proc V A O C Q R J) (fn : Val V O C) (k : CacheKey J) (d : Option Donate) :
    (d.isSome ∧ ∀ x ∈ k.jitkwargs, x.1 ∉ ["static_argnums", "static_argnames", "donate_argnums"]) ∧
      (∃ fl, donateFlags d = .ok fl ∧ decorate p fn k d = (.ok (), { (compileCache p k).2 with
        wrappers := (compileCache p k).2.wrappers ++ [⟨fn, (hashablePartition fn).1, (hashablePartition fn).2,
          (compileCache p k).1, fl.2.1, fl.2.2⟩] })) ∨
    ¬ (d.isSome ∧ ∀ x ∈ k.jitkwargs, x.1 ∉ ["static_argnums", "static_argnames", "donate_argnums"]) ∧
      decorate p fn k d = (.error .valueError, p) := by
  by_cases hr : ∀ x ∈ k.jitkwargs, x.1 ∉ ["static_argnums", "static_argnames", "donate_argnums"]
  · have h1 : reserved.any (fun x => (k.jitkwargs.map Prod.fst).contains x) = false := by
      rw [Bool.eq_false_iff]
      intro h
      simp only [List.any_eq_true, List.contains_iff_mem, List.mem_map] at h
      obtain ⟨x, hx, y, hy, rfl⟩ := h
      exact hr y hy hx
    cases d with
    | none => right; exact ⟨by simp, by simp only [decorate, h1]; rfl⟩
    | some d =>
      left
      cases d <;> exact ⟨⟨rfl, hr⟩, _, rfl, by simp only [decorate, h1]; rfl⟩
  · right
    have h1 : reserved.any (fun x => (k.jitkwargs.map Prod.fst).contains x) = true := by
      simp only [List.any_eq_true, List.contains_iff_mem, List.mem_map]
      simp only [Classical.not_forall, Decidable.not_not] at hr
      obtain ⟨x, hx, h⟩ := hr
      exact ⟨x.1, h, x, hx, rfl⟩
    exact ⟨fun h => hr h.2, by simp only [decorate, h1]; rfl⟩

theorem inv_step {w : World V A O C Q R} {p : Proc V A O C Q R J} {fns} (hp : Inv w p fns)
    (e : Event V O C J) : Inv w (step w p e) (fns ++ decorated [e]) := by
  obtain ⟨h1, h2, h3, h4⟩ := hp
  cases e with
  | decorate fn k d =>
    rcases decorate_spec p fn k d with ⟨ha, fl, _, hd⟩ | ⟨ha, hd⟩
    · obtain ⟨js, c1, c2, c3, c4, c5⟩ := compileCache_spec p k h3
      simp only [step, hd, decorated, if_pos ha]
      refine ⟨?_, ?_, c4, ?_⟩
      · intro j hj
        simp only [c2, List.mem_append] at hj
        rcases hj with hj | hj
        · exact h1 j hj
        · rw [c1 j hj]; exact jitOk_nil w
      · simp only [c3, List.map_append, h2, List.map_cons, List.map_nil]
      · intro wr hwr
        simp only [c3, List.mem_append, List.mem_cons, List.not_mem_nil, or_false] at hwr
        rcases hwr with hwr | rfl
        · have := h4 wr hwr; simp only [c2, List.length_append]; omega
        · exact c5
    · simp only [step, hd, decorated, if_neg ha, List.append_nil]
      exact ⟨h1, h2, h3, h4⟩
  | call i args kwargs =>
    simp only [step, decorated, List.append_nil, call]
    split
    · exact ⟨h1, h2, h3, h4⟩
    · rename_i wr hwr
      split
      · exact ⟨h1, h2, h3, h4⟩
      · rename_i dd dn s _
        refine ⟨?_, h2, by simpa using h3, by simpa using h4⟩
        intro j hj
        rcases List.mem_or_eq_of_mem_set hj with hj | rfl
        · exact h1 j hj
        · apply jitCall_inv
          cases hw : p.jits[wr.jit]? with
          | none => exact jitOk_nil w
          | some j => exact h1 j (List.mem_of_getElem? hw)
  | delete fn =>
    simp only [step, decorated, List.append_nil]
    exact ⟨h1, h2, fun e he => h3 e (List.mem_filter.1 he).1, h4⟩
  | clear =>
    simp only [step, decorated, List.append_nil]
    exact ⟨h1, h2, by simp, h4⟩

theorem decorated_append (h h' : List (Event V O C J)) : decorated (h ++ h') = decorated h ++ decorated h' := by
  induction h with
  | nil => rfl
  | cons e h ih =>
    cases e <;> simp only [List.cons_append, decorated, ih]
    split <;> rfl

/-- Every history keeps the caches in order. -/
theorem inv_run (w : World V A O C Q R) (h : List (Event V O C J)) : Inv w (run w h) (decorated h) := by
  have : ∀ (h' : List (Event V O C J)) (p : Proc V A O C Q R J) fns, Inv w p fns →
      Inv w (h'.foldl (step w) p) (fns ++ decorated h') := by
    intro h'
    induction h' with
    | nil => intro p fns hp; simpa [decorated] using hp
    | cons e h' ih =>
      intro p fns hp
      have := ih _ _ (inv_step hp e)
      rw [List.append_assoc, ← decorated_append] at this
      exact this
  exact this h _ [] ⟨by simp, rfl, by simp, by simp⟩

/-! ## C27 -/

/-- C27. Whatever happened before, a call of a decorated function
* raises what binding its arguments raises;
* raises `ValueError` if something that is not an array cannot be hashed;
* otherwise does what the function does, on the same arrays and on static parts equal (`==`) to those
  of the call.
The last point falls short of C27 only where `==` identifies different objects: see
`filter_jit_equal_static` and `filter_jit_exact_partial`. -/
theorem filter_jit_transparent {w : World V A O C Q R} (hT : w.Traceable) (h : List (Event V O C J)) (i : Nat)
    (fn : Val V O C) (hi : (decorated h)[i]? = some fn) (args : List (Val V O C)) (kwargs : Kwargs V O C) :
    (∀ e, w.bind fn args kwargs = .error e → (call w (run w h) i args kwargs).1 = .error e) ∧
    (∀ b, w.bind fn args kwargs = .ok b → ¬ CallHashable w fn b.1 b.2 →
      (call w (run w h) i args kwargs).1 = .error .valueError) ∧
    (∀ b, w.bind fn args kwargs = .ok b → CallHashable w fn b.1 b.2 →
      ∃ fn' args' kwargs', EqUpTo w fn' fn ∧ ArgsEqUpTo w args' b.1 ∧ KwEqUpTo w kwargs' b.2 ∧
        (call w (run w h) i args kwargs).1 = w.apply fn' args' kwargs') := by
  obtain ⟨h1, h2, h3, h4⟩ := inv_run w h
  have hw : ∃ wr, (run w h).wrappers[i]? = some wr ∧ wr.signatureOf = fn ∧
      wr.dynFun = (hashablePartition fn).1 ∧ wr.staticFun = (hashablePartition fn).2 := by
    have := congrArg (fun l => l[i]?) h2
    simp only [List.getElem?_map, hi, Option.map_some] at this
    cases hwr : (run w h).wrappers[i]? with
    | none => simp [hwr] at this
    | some wr =>
      simp only [hwr, Option.map_some, Option.some.injEq, Prod.mk.injEq] at this
      exact ⟨wr, rfl, this⟩
  obtain ⟨wr, e1, e2, e3, e4⟩ := hw
  have hj : JitOk w ((((run w h).jits)[wr.jit]?).getD []) := by
    cases hw : (run w h).jits[wr.jit]? with
    | none => exact jitOk_nil w
    | some j => exact h1 j (List.mem_of_getElem? hw)
  refine ⟨?_, ?_, ?_⟩
  · intro e he
    rw [← e2] at he
    simp only [call, e1, preprocess, he, bind, Except.bind]
  · intro b hb hh
    rw [← e2] at hb
    obtain ⟨dd, dn, first, rest, a1, a2, _⟩ := preprocess_ok hb
    rw [← callHashable_iff a1, ← e4, Bool.not_eq_true] at hh
    simp only [call, e1, a2, jitCall, hh, Bool.not_false, if_true, Except.bind]
  · intro b hb hh
    rw [← e2] at hb
    obtain ⟨dd, dn, first, rest, a1, a2, a3, a4, a5, _⟩ := preprocess_ok hb
    rw [← callHashable_iff a1, ← e4] at hh
    simp only [call, e1, a2, jitCall, hh, Bool.not_true, Bool.false_eq_true, if_false]
    rw [e3] at a3
    split
    · rename_i pr hpr
      obtain ⟨dd0, dn0, o0, k1, k2⟩ := hj _ pr hpr
      simp only [key, Key.mk.injEq] at k1
      obtain ⟨q1, q2, q3, q4, q5⟩ := k1
      rw [e4] at q3
      obtain ⟨fn', args', kw', r1, r2, r3, r4⟩ := funWrapped_related q3 q4 q5 a3 a4 a5 a1
      refine ⟨fn', args', kw', r1, r2, r3, ?_⟩
      cases hf : funWrapped w dd dn pr.statics with
      | error e =>
        rw [hf] at r4
        cases ha : w.apply fn' args' kw' with
        | error e' => rw [ha] at r4; simp only [Except.bind, Except.error.injEq] at r4; rw [r4]; rfl
        | ok t => rw [ha] at r4; simp only [Except.bind, partitionOut_eq, reduceCtorEq] at r4
      | ok o =>
        have hs := funWrapped_static hT q1 q2 k2 hf
        rw [hf] at r4
        cases ha : w.apply fn' args' kw' with
        | error e' => rw [ha] at r4; simp [Except.bind] at r4
        | ok t =>
          rw [ha] at r4
          have := post_partition t
          simp only [Except.bind] at r4
          rw [← r4] at this
          simp only [Except.map, Except.bind]
          simp only at hs
          rw [hs]; exact this
    · have hk : ∀ s : Static O C, staticKey w s = staticKey w s := fun _ => rfl
      obtain ⟨fn', args', kw', r1, r2, r3, r4⟩ := funWrapped_related (s := ⟨wr.staticFun,
        (hashablePartition first).2, (hashablePartition (packRest rest b.2)).2⟩) (by rw [e4]) (hk _) (hk _)
        a3 a4 a5 a1
      refine ⟨fn', args', kw', r1, r2, r3, ?_⟩
      rw [r4]
      cases ha : w.apply fn' args' kw' with
      | error e' => rfl
      | ok t =>
        have := post_partition t
        simp only [Except.bind, partitionOut_eq] at this ⊢
        exact this

/-- C27, exactly: if `==` only identifies identical objects, a decorated function can not be told from
the undecorated one. Missing for all of C27: objects that are equal but different, for which the
statement is false (`filter_jit_equal_static`). -/
theorem filter_jit_exact_partial {w : World V A O C Q R} (hT : w.Traceable) (hB : w.LawfulBind) (hE : w.EqExact)
    (h : List (Event V O C J)) (i : Nat)
    (fn : Val V O C) (hi : (decorated h)[i]? = some fn) (args : List (Val V O C)) (kwargs : Kwargs V O C)
    (hH : ∀ b, w.bind fn args kwargs = .ok b → CallHashable w fn b.1 b.2) :
    (call w (run w h) i args kwargs).1 = w.apply fn args kwargs := by
  obtain ⟨h1, _, h3⟩ := filter_jit_transparent hT h i fn hi args kwargs
  cases hb : w.bind fn args kwargs with
  | error e => rw [h1 e hb, hB.2 _ _ _ _ hb]
  | ok b =>
    obtain ⟨fn', args', kw', r1, r2, r3, r4⟩ := h3 b hb (hH b hb)
    have hg : ∀ a a' : Leaf V O, eqLeaf w a = eqLeaf w a' → a = a' := by
      intro a a' h
      cases a <;> cases a' <;> simp only [eqLeaf, Leaf.arr.injEq, Leaf.obj.injEq, reduceCtorEq] at h
      · rw [h]
      · rw [hE.1 _ _ h]
    have hinj : ∀ t t' : Val V O C, EqUpTo w t t' → t = t' := classes_inj hE.2 hg
    have hargs : ∀ l l' : List (Val V O C), ArgsEqUpTo w l l' → l = l' := by
      intro l l' hl
      apply List.ext_getElem?
      intro n
      cases ha : l[n]? with
      | none =>
        rw [List.getElem?_eq_none_iff] at ha
        rw [List.getElem?_eq_none (by have := hl.1; omega)]
      | some a =>
        cases ha' : l'[n]? with
        | none =>
          rw [List.getElem?_eq_none_iff] at ha'
          rw [List.getElem?_eq_none (by have := hl.1; omega)] at ha; simp at ha
        | some a' => rw [hinj _ _ (hl.2 n a a' ha ha')]
    have hkw : kw' = b.2 := by
      have q1 := r3.1
      have q2 := hargs _ _ r3.2
      have z : ∀ l : Kwargs V O C, l = (l.map Prod.fst).zip (l.map Prod.snd) := by
        intro l
        induction l with
        | nil => rfl
        | cons x l ih => simp [← ih]
      rw [z kw', z b.2, q1, q2]
    rw [r4, hinj _ _ r1, hargs _ _ r2, hkw, hB.1 _ _ _ _ hb]

/-! ### `==` is too coarse -/

/-- A world with two static objects that are equal under `==`, like `1` and `True`, in which every
function returns its first argument. -/
def coarse : World Nat Unit Bool Unit Unit Unit where
  aval _ := ()
  cls _ := ()
  ccls _ := ()
  hashable _ := true
  chashable _ := true
  apply _ args _ := .ok (args.headD .none)
  bind _ args kw := .ok (args, kw)

/-- C27 fails for equal static values: the identity function, called with `1` and then with `True`,
returns `1` the second time. -/
theorem filter_jit_equal_static :
    coarse.Traceable ∧ coarse.LawfulBind ∧
    ∃ (h : List (Event Nat Bool Unit Unit)) (fn : Val Nat Bool Unit) (args : List (Val Nat Bool Unit)),
      (decorated h)[0]? = some fn ∧ CallHashable coarse fn args [] ∧
      (call coarse (run coarse h) 0 args []).1 ≠ coarse.apply fn args [] := by
  refine ⟨?_, ⟨?_, ?_⟩, [.decorate (.leaf (.obj true)) ⟨Option.none, ("f", "f"), []⟩ (some .none),
    .call 0 [.leaf (.obj false)] []], .leaf (.obj true), [.leaf (.obj true)], rfl, ?_, ?_⟩
  · intro f f' args args' kw kw' o o' _ h _ h1 h2
    simp only [coarse, Except.ok.injEq] at h1 h2
    subst h1; subst h2
    cases args with
    | nil => cases args' with
      | nil => rfl
      | cons a' args' => simp at h
    | cons a args => cases args' with
      | nil => simp at h
      | cons a' args' => simp only [List.map_cons, List.cons.injEq] at h; exact h.1
  · intro f args kw b h
    simp only [coarse, Except.ok.injEq] at h ⊢; subst h; rfl
  · intro f args kw e h; simp [coarse] at h
  · simp only [CallHashable, List.mem_cons, List.not_mem_nil, or_false, forall_eq, hashable_leaf, coarse]
    simp
  · have e : (call coarse (run coarse [.decorate (.leaf (.obj true)) ⟨Option.none, ("f", "f"), ([] : List (String × Unit))⟩
        (some .none), .call 0 [.leaf (.obj false)] []]) 0 [.leaf (.obj true)] []).1 =
        .ok (.leaf (.obj false)) := by rfl
    rw [e]
    simp [coarse]

/-! ### A case meeting the hypotheses -/

/-- A world in which `==` is exact and functions return `(first argument, number of arguments)`. -/
def exact : World Nat Unit Nat Unit Nat Unit where
  aval _ := ()
  cls o := o
  ccls c := c
  hashable _ := true
  chashable _ := true
  apply _ args kw := .ok (.node .tuple [args.headD .none, .leaf (.obj (args.length + kw.length))])
  bind _ args kw := .ok (args, kw)

theorem exact_traceable : exact.Traceable := by
  intro f f' args args' kw kw' o o' _ h hk h1 h2
  simp only [exact, Except.ok.injEq] at h1 h2
  subst h1; subst h2
  have hl := congrArg List.length h
  have hl' := congrArg List.length hk
  simp only [List.length_map, absKw] at hl hl'
  have : abs exact (args.headD .none) = abs exact (args'.headD .none) := by
    cases args with
    | nil => cases args' with
      | nil => rfl
      | cons a' args' => simp at h
    | cons a args => cases args' with
      | nil => simp at h
      | cons a' args' => simp only [List.map_cons, List.cons.injEq] at h; exact h.1
  simp only [abs] at this
  simp only [abs, PT.map, mapL_eq, List.map_cons, List.map_nil, this, hl, hl']

/-- Two functions sharing a jitted function, called with arrays, `None`, keyword arguments, and without
arguments; the last call hits the cache. -/
example : (call exact (run exact [.decorate (.leaf (.obj 0)) ⟨Option.none, ("f", "f"), ([] : List (String × Unit))⟩ (some .all),
    .decorate (.leaf (.arr 1)) ⟨Option.none, ("f", "f"), []⟩ (some .none), .call 0 [] [],
    .call 1 [.leaf (.arr 5), .none] [("x", .leaf (.obj 3))]]) 1 [.leaf (.arr 7), .none] [("x", .leaf (.obj 3))]).1
    = exact.apply (.leaf (.arr 1)) [.leaf (.arr 7), .none] [("x", .leaf (.obj 3))] := by
  apply filter_jit_exact_partial exact_traceable
  · refine ⟨?_, ?_⟩
    · intro f args kw b h
      simp only [exact, Except.ok.injEq] at h ⊢; subst h; rfl
    · intro f args kw e h; simp [exact] at h
  · exact ⟨fun _ _ h => h, fun _ _ h => h⟩
  · rfl
  · intro b hb
    simp only [exact, Except.ok.injEq] at hb; subst hb
    simp only [CallHashable, List.mem_cons, List.not_mem_nil, or_false, forall_eq_or_imp, forall_eq, hashable_leaf,
      hashable_none, exact]
    simp

/-- That call leaves the caches alone: nothing is compiled again. -/
example : (call exact (run exact [.decorate (.leaf (.arr 1)) ⟨Option.none, ("f", "f"), ([] : List (String × Unit))⟩ (some .none),
    .call 0 [.leaf (.arr 5), .none] []]) 0 [.leaf (.arr 7), .none] []).2.jits.map List.length = [1] := by
  rfl

/-! ### Ahead-of-time compilation -/

omit [DecidableEq A] [DecidableEq C] [DecidableEq Q] [DecidableEq R] in
theorem partition_abs {w : World V A O C Q R} {t t' : Val V O C} (h : abs w t = abs w t') :
    (hashablePartition t).1.map (fun v => v.map w.aval) = (hashablePartition t').1.map (fun v => v.map w.aval) ∧
      (hashablePartition t).2 = (hashablePartition t').2 := by
  have hs : t.shape = t'.shape := by rw [← shape_map (absLeaf w) t, ← shape_map (absLeaf w) t']; exact congrArg shape h
  have hl : t.leaves.map (absLeaf w) = t'.leaves.map (absLeaf w) := by
    rw [← leaves_map, ← leaves_map]; exact congrArg leaves h
  have e1 : ∀ ls : List (Leaf V O), (ls.map Leaf.dyn).map (fun v => v.map w.aval) =
      (ls.map (absLeaf w)).map Leaf.dyn := by
    intro ls; rw [List.map_map, List.map_map]; congr 1; funext l; cases l <;> rfl
  have e2 : ∀ ls : List (Leaf V O), ls.map Leaf.static = (ls.map (absLeaf w)).map Leaf.static := by
    intro ls; rw [List.map_map]; congr 1; funext l; cases l <;> rfl
  simp only [hashablePartition]
  exact ⟨by rw [e1, e1, hl], by rw [e2, e2 t'.leaves, hl, hs]⟩

omit [DecidableEq A] [DecidableEq C] [DecidableEq Q] [DecidableEq R] in
theorem preprocessDyn_eq (w : World V A O C Q R) (wr : Wrapper V O C) (args : List (Val V O C))
    (kwargs : Kwargs V O C) :
    preprocessDyn w wr args kwargs = (preprocess w wr args kwargs).map fun q => (q.1, q.2.1) := by
  simp only [preprocessDyn, preprocess, bind, Except.bind, pure, Except.pure]
  cases w.bind wr.signatureOf args kwargs <;> rfl

omit [DecidableEq A] [DecidableEq Q] [DecidableEq R] in
theorem funWrapped_exact {w : World V A O C Q R} {dd dn : DynDict V} {fn first : Val V O C} {rest kw args}
    (hp1 : popDyn dd dn "fun" = .ok (hashablePartition fn).1)
    (hp2 : popDyn dd dn "first" = .ok (hashablePartition first).1)
    (hp3 : popDyn dd dn "rest" = .ok (hashablePartition (packRest rest kw)).1)
    (e : first :: rest = args ++ [.none]) :
    funWrapped w dd dn ⟨(hashablePartition fn).2, (hashablePartition first).2,
      (hashablePartition (packRest rest kw)).2⟩ = (w.apply fn args kw).bind partitionOut := by
  have h1 : unpackRest (packRest rest kw) = .ok (rest, kw) := by
    have : (kw.map Prod.fst).zip (kw.map Prod.snd) = kw := by
      clear hp3
      induction kw with
      | nil => rfl
      | cons x l ih => simp [ih]
    simp [unpackRest, packRest, this]
  have h2 : splitDummy first rest = .ok args := by
    simp only [splitDummy]
    rw [e]
    simp
  simp only [funWrapped, hp1, hp2, hp3, hashableCombine_partition, h1, h2, bind, Except.bind]

omit [DecidableEq A] [DecidableEq C] [DecidableEq Q] [DecidableEq R] in
theorem packRest_abs {w : World V A O C Q R} {rest rest' : List (Val V O C)} {kw kw' : Kwargs V O C}
    (h : rest.map (abs w) = rest'.map (abs w)) (h' : absKw w kw = absKw w kw') :
    abs w (packRest rest kw) = abs w (packRest rest' kw') := by
  have e1 := congrArg (List.map Prod.fst) h'
  have e2 := congrArg (List.map Prod.snd) h'
  simp only [absKw, List.map_map, Function.comp_def] at e1 e2
  have e3 : rest.map (PT.map (absLeaf w)) = rest'.map (PT.map (absLeaf w)) := h
  have e4 : (kw.map Prod.snd).map (PT.map (absLeaf w)) = (kw'.map Prod.snd).map (PT.map (absLeaf w)) := by
    rw [List.map_map, List.map_map]; exact e2
  simp only [packRest, abs, PT.map, mapL_eq, List.map_cons, List.map_nil, e3, e4, e1]

omit [DecidableEq A] [DecidableEq C] [DecidableEq Q] [DecidableEq R] in
theorem dynKey_append (w : World V A O C Q R) (d d' : DynDict V) :
    dynKey w (d ++ d') = dynKey w d ++ dynKey w d' := by simp [dynKey]

/-- A function compiled ahead of time is the function, on arguments that have the structure, the static
leaves and the abstract values it was lowered for. -/
theorem aot_transparent {w : World V A O C Q R} (hT : w.Traceable) (h : List (Event V O C J)) (i : Nat)
    (fn : Val V O C) (wr : Wrapper V O C) (hi : (decorated h)[i]? = some fn) (hwr : (run w h).wrappers[i]? = some wr)
    {args0 args : List (Val V O C)} {kwargs0 kwargs : Kwargs V O C} {c : AOT V A O C} {b0 b}
    (hc : lowerCompile w wr args0 kwargs0 = .ok c)
    (hb0 : w.bind fn args0 kwargs0 = .ok b0) (hb : w.bind fn args kwargs = .ok b)
    (ha : b.1.map (abs w) = b0.1.map (abs w)) (hk : absKw w b.2 = absKw w b0.2) :
    c.call w args kwargs = w.apply fn b.1 b.2 := by
  obtain ⟨h1, h2, h3, h4⟩ := inv_run w h
  have e : wr.signatureOf = fn ∧ wr.dynFun = (hashablePartition fn).1 ∧
      wr.staticFun = (hashablePartition fn).2 := by
    have := congrArg (fun l => l[i]?) h2
    simpa only [List.getElem?_map, hi, hwr, Option.map_some, Option.some.injEq, Prod.mk.injEq] using this
  obtain ⟨e2, e3, e4⟩ := e
  rw [← e2] at hb0 hb
  obtain ⟨dd, dn, first, rest, a1, a2, a3, a4, a5, a6, a7⟩ := preprocess_ok hb
  obtain ⟨dd0, dn0, first0, rest0, b1, b2, b3, b4, b5, b6, b7⟩ := preprocess_ok hb0
  have hfr : (first :: rest).map (abs w) = (first0 :: rest0).map (abs w) := by
    rw [a1, b1, List.map_append, List.map_append, ha]
  simp only [List.map_cons, List.cons.injEq] at hfr
  obtain ⟨p1, p2⟩ := partition_abs hfr.1
  obtain ⟨p3, p4⟩ := partition_abs (packRest_abs hfr.2 hk)
  have k1 : dynKey w dd = dynKey w dd0 := by
    rw [a6, b6, dynKey_append, dynKey_append]
    cases wr.donateFirst <;> cases wr.donateRest <;> simp [dynKey, p1, p3]
  have k2 : dynKey w dn = dynKey w dn0 := by
    rw [a7, b7, dynKey_append, dynKey_append]
    cases wr.donateFirst <;> cases wr.donateRest <;> simp [dynKey, p1, p3]
  rw [e3] at a3 b3
  have f1 := funWrapped_exact (w := w) a3 a4 a5 a1
  simp only [lowerCompile, b2, bind, Except.bind, pure, Except.pure] at hc
  cases hf : funWrapped w dd0 dn0 ⟨wr.staticFun, (hashablePartition first0).2,
      (hashablePartition (packRest rest0 b0.2)).2⟩ with
  | error er => simp [hf] at hc
  | ok o0 =>
    simp only [hf, Except.ok.injEq] at hc
    subst hc
    rw [e4, ← p2, ← p4] at hf
    simp only [AOT.call, preprocessDyn_eq, a2, Except.map, bind, Except.bind, k1, k2, ne_eq, not_true_eq_false,
      or_self, if_false]
    rw [e4, ← p2, ← p4, f1]
    cases hap : w.apply fn b.1 b.2 with
    | error er => rfl
    | ok t =>
      rw [hap] at f1
      cases hp : partitionOut t with
      | error er => rw [partitionOut_eq] at hp; simp at hp
      | ok o =>
        simp only [Except.bind, hp] at f1 ⊢
        have := funWrapped_static hT k1.symm k2.symm hf f1
        rw [this]
        have hpp := post_partition t
        rw [hp] at hpp
        exact hpp

omit [DecidableEq Q] [DecidableEq R] in
/-- It refuses arrays with other abstract values, or at other places. -/
theorem aot_refuses {w : World V A O C Q R} {c : AOT V A O C} {args : List (Val V O C)} {kwargs : Kwargs V O C} {q}
    (hq : preprocessDyn w c.wrapper args kwargs = .ok q)
    (h : dynKey w q.1 ≠ c.donate ∨ dynKey w q.2 ≠ c.nodonate) : c.call w args kwargs = .error .typeError := by
  simp only [AOT.call, hq, bind, Except.bind, h, if_true]

/-- It does not look at static arguments: compiled for `1`, the identity returns `1` on every object. This
holds even where `==` is exact. -/
theorem aot_ignores_static :
    exact.Traceable ∧ ∃ (wr : Wrapper Nat Nat Unit) (c : AOT Nat Unit Nat Unit),
      wr.signatureOf = .leaf (.obj 0) ∧ (wr.dynFun, wr.staticFun) = hashablePartition (.leaf (.obj 0)) ∧
      lowerCompile exact wr [.leaf (.obj 1)] [] = .ok c ∧
      c.call exact [.leaf (.obj 2)] [] ≠ exact.apply (.leaf (.obj 0)) [.leaf (.obj 2)] [] := by
  refine ⟨exact_traceable, ⟨.leaf (.obj 0), [Option.none], ⟨[some 0], .leaf ()⟩, 0, false, false⟩, _, rfl, rfl, rfl, ?_⟩
  have e : AOT.call exact (⟨⟨.leaf (.obj 0), [Option.none], ⟨[some 0], .leaf ()⟩, 0, false, false⟩,
      ⟨⟨[some 0], .leaf ()⟩, ⟨[some 1], .leaf ()⟩, ⟨[], .node .tuple [.node .tuple [.none], .node (.dict []) []]⟩⟩,
      .node .tuple [.leaf (.obj 1), .leaf (.obj 1)], dynKey exact [],
      dynKey exact [("first", [Option.none]), ("fun", [Option.none]), ("rest", [])]⟩ : AOT Nat Unit Nat Unit)
      [.leaf (.obj 2)] [] = .ok (.node .tuple [.leaf (.obj 1), .leaf (.obj 1)]) := by rfl
  intro h
  have h2 := e.symm.trans h
  simp [exact] at h2

/-! ## C28 -/

omit [DecidableEq A] [DecidableEq C] [DecidableEq Q] [DecidableEq R] in
/-- C28. Exactly the asked-for arrays are donated: none; all in function and arguments; all but those in the
first argument. The first argument is the first one after binding, so an argument passed by name may
be it. -/
theorem donation {w : World V A O C Q R} {p p' : Proc V A O C Q R J} {fn : Val V O C} {k : CacheKey J} {d : Donate}
    (hd : decorate p fn k (some d) = (.ok (), p')) :
    ∃ wr, p'.wrappers = p.wrappers ++ [wr] ∧
      (∀ args kwargs e, w.bind fn args kwargs = .error e → donated w wr args kwargs = .error e) ∧
      ∀ args kwargs b, w.bind fn args kwargs = .ok b → ∃ l, donated w wr args kwargs = .ok l ∧
        (d = .none → l = []) ∧
        (d = .all ∨ d = .warn → l.Perm (arrays fn ++ b.1.flatMap arrays ++ (b.2.map Prod.snd).flatMap arrays)) ∧
        (d = .allExceptFirst ∨ d = .warnExceptFirst →
          l.Perm (arrays fn ++ b.1.tail.flatMap arrays ++ (b.2.map Prod.snd).flatMap arrays)) := by
  rcases decorate_spec p fn k (some d) with ⟨_, fl, hfl, h⟩ | ⟨_, h⟩
  · rw [hd, Prod.mk.injEq] at h
    obtain ⟨_, rfl⟩ := h
    have hw : (compileCache p k).2.wrappers = p.wrappers := by
      unfold compileCache; split <;> rfl
    refine ⟨⟨fn, (hashablePartition fn).1, (hashablePartition fn).2, (compileCache p k).1, fl.2.1, fl.2.2⟩,
      by simp only [hw], ?_, ?_⟩
    · intro args kwargs e he
      simp only [donated, preprocess, he, bind, Except.bind, Except.map]
    · intro args kwargs b hb
      obtain ⟨dd, dn, first, rest, a1, a2, a3, a4, a5, a6, a7⟩ :=
        preprocess_ok (wr := ⟨fn, (hashablePartition fn).1, (hashablePartition fn).2,
          (compileCache p k).1, fl.2.1, fl.2.2⟩) hb
      refine ⟨(dd.flatMap Prod.snd).filterMap id, by simp only [donated, a2, Except.map], ?_⟩
      have harr : ∀ t : Val V O C, (hashablePartition t).1.filterMap id = arrays t := by
        intro t
        have : (id ∘ Leaf.dyn : Leaf V O → Option V) = Leaf.arr? := by funext l; cases l <;> rfl
        simp only [hashablePartition, arrays, List.filterMap_map, this]
      have hcs : ∀ cs : List (Val V O C), (leavesL cs).filterMap Leaf.arr? = cs.flatMap arrays := by
        intro cs
        induction cs with
        | nil => rfl
        | cons c cs ih => simp only [leavesL, List.filterMap_append, ih, List.flatMap_cons]; rfl
      have hpack : arrays (packRest rest b.2) = rest.flatMap arrays ++ (b.2.map Prod.snd).flatMap arrays := by
        simp only [arrays, packRest, leaves, leavesL, List.filterMap_append, List.append_nil, hcs]
      have hn : arrays (.none : Val V O C) = [] := rfl
      have hrest : rest.flatMap arrays = b.1.tail.flatMap arrays := by
        cases hb1 : b.1 with
        | nil => rw [hb1] at a1; simp at a1; simp [a1.2]
        | cons x xs =>
          rw [hb1] at a1
          simp only [List.cons_append, List.cons.injEq] at a1
          simp [a1.2, hn]
      have hall : arrays first ++ rest.flatMap arrays = b.1.flatMap arrays := by
        have := congrArg (List.flatMap arrays) a1
        simpa [hn] using this
      cases d <;> simp only [donateFlags, Except.ok.injEq] at hfl <;> subst hfl <;>
        simp only [if_true, if_false, Bool.false_eq_true, List.nil_append, List.append_nil] at a6 <;> subst a6 <;>
        simp only [List.cons_append, List.nil_append, List.flatMap_cons, List.flatMap_nil, List.append_nil,
          List.filterMap_append, harr, hpack, reduceCtorEq, false_implies, or_self, or_true, true_or, or_false,
          true_implies, true_and, and_true, List.filterMap_nil]
      · rw [← hall]
        rw [← List.append_assoc, ← List.append_assoc, ← List.append_assoc]
        exact (List.perm_append_comm.append_right _).append_right _
      · rw [hrest, List.append_assoc]
      · rw [← hall]
        rw [← List.append_assoc, ← List.append_assoc, ← List.append_assoc]
        exact (List.perm_append_comm.append_right _).append_right _
      · rw [hrest, List.append_assoc]
  · rw [hd] at h; simp at h

/-- `f(a, (b, 1), k=c)` with `donate="all-except-first"`. -/
example : ∃ wr, donated exact wr [.leaf (.arr 10), .node .tuple [.leaf (.arr 11), .leaf (.obj 1)]]
    [("k", .leaf (.arr 12))] = .ok [9, 11, 12] ∧
    (decorate (⟨[], [], []⟩ : Proc Nat Unit Nat Unit Nat Unit Unit) (.leaf (.arr 9)) ⟨Option.none, ("f", "f"), []⟩
      (some .allExceptFirst)).2.wrappers = [wr] := ⟨_, rfl, rfl⟩

omit [DecidableEq A] [DecidableEq C] [DecidableEq Q] [DecidableEq R] in
/-- C28. Any other value of `donate` raises `ValueError` when decorating, and so do the reserved keyword
arguments of `jax.jit`; nothing is changed. Otherwise decorating succeeds. -/
theorem donate_rejected (p : Proc V A O C Q R J) (fn : Val V O C) (k : CacheKey J) :
    decorate p fn k Option.none = (.error .valueError, p) ∧
    ∀ d, (∃ x ∈ k.jitkwargs, x.1 = "static_argnums" ∨ x.1 = "static_argnames" ∨ x.1 = "donate_argnums") ∧
        decorate p fn k (some d) = (.error .valueError, p) ∨
      ¬ (∃ x ∈ k.jitkwargs, x.1 = "static_argnums" ∨ x.1 = "static_argnames" ∨ x.1 = "donate_argnums") ∧
        (decorate p fn k (some d)).1 = .ok () := by
  constructor
  · rcases decorate_spec p fn k Option.none with ⟨⟨h, _⟩, _⟩ | ⟨_, h⟩
    · simp at h
    · exact h
  · intro d
    rcases decorate_spec p fn k (some d) with ⟨⟨_, h⟩, _, _, h'⟩ | ⟨h, h'⟩
    · right
      refine ⟨?_, by rw [h']⟩
      rintro ⟨x, hx, hh⟩
      exact h x hx (by simpa using hh)
    · left
      refine ⟨?_, h'⟩
      simp only [Option.isSome_some, true_and, Classical.not_forall, Decidable.not_not] at h
      obtain ⟨x, hx, hh⟩ := h
      exact ⟨x, hx, by simpa using hh⟩

end Verif.Jit
