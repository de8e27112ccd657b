import Verif.Finalise.Props
import Verif.Finalise.Registry

/-! # C47: which primitives the library's finalisations leave -/

namespace Verif.Finalise.Registry

variable {V P S O : Type}

/-! ### Vocabulary -/

mutual
/-- All primitives are of this kind, also those in the jaxprs of parameters (other than those with variables for constants). -/
def Only (A : P → Prop) : Body V P O → Prop
  | .done _ => True
  | .eqn p ps _ _ rest => A p ∧ OnlyParams A ps ∧ Only A rest
def OnlyParams (A : P → Prop) : Params V P O → Prop
  | .nil => True
  | .one _ v rest => OnlyVal A v ∧ OnlyParams A rest
  | .tuple _ vs rest => OnlyVals A vs ∧ OnlyParams A rest
def OnlyVals (A : P → Prop) : Vals V P O → Prop
  | .nil => True
  | .cons v rest => OnlyVal A v ∧ OnlyVals A rest
def OnlyVal (A : P → Prop) : Val V P O → Prop
  | .opened cvs _ b => cvs = [] → Only A b
  | .closed _ _ b _ => Only A b
  | .other _ => True
end

/-- A primitive of JAX that has no rule. -/
def IsStd (p : Prim S) : Prop := ∃ s, p = .std s

/-! ### Any table -/

mutual
theorem Only.mono {A B : P → Prop} (h : ∀ p, A p → B p) : ∀ (b : Body V P O), Only A b → Only B b
  | .done _, _ => trivial
  | .eqn _ ps _ _ rest, hb => ⟨h _ hb.1, OnlyParams.mono h ps hb.2.1, Only.mono h rest hb.2.2⟩
theorem OnlyParams.mono {A B : P → Prop} (h : ∀ p, A p → B p) : ∀ (ps : Params V P O), OnlyParams A ps → OnlyParams B ps
  | .nil, _ => trivial
  | .one _ v rest, hb => ⟨OnlyVal.mono h v hb.1, OnlyParams.mono h rest hb.2⟩
  | .tuple _ vs rest, hb => ⟨OnlyVals.mono h vs hb.1, OnlyParams.mono h rest hb.2⟩
theorem OnlyVals.mono {A B : P → Prop} (h : ∀ p, A p → B p) : ∀ (vs : Vals V P O), OnlyVals A vs → OnlyVals B vs
  | .nil, _ => trivial
  | .cons v rest, hb => ⟨OnlyVal.mono h v hb.1, OnlyVals.mono h rest hb.2⟩
theorem OnlyVal.mono {A B : P → Prop} (h : ∀ p, A p → B p) : ∀ (v : Val V P O), OnlyVal A v → OnlyVal B v
  | .opened _ _ b, hb => fun hc => Only.mono h b (hb hc)
  | .closed _ _ b _, hb => Only.mono h b hb
  | .other _, _ => trivial
end

theorem bind_only {B : P → Prop} {small : V → Bool} {p : P} {ps : Params V P O} {os : List (Opnd V)} {len n : Nat}
    {k : List (Opnd V) → Nat → Except Err (Res V P O)} {r : Res V P O} (h : bind small p ps os len n k = .ok r) (hp : B p)
    (hps : OnlyParams B ps) (hk : ∀ os n r, k os n = .ok r → Only B r.body) : Only B r.body := by
  simp only [bind, Bind.bind, Except.bind, pure, Except.pure] at h
  split at h
  · cases h
  · rename_i r' hr
    cases h
    exact ⟨hp, hps, hk _ _ _ hr⟩

theorem inline_only {B : P → Prop} {small : V → Bool} {k : List (Opnd V) → Nat → Except Err (Res V P O)}
    (hk : ∀ os n r, k os n = .ok r → Only B r.body) :
    ∀ (b : Body V P O) (env : Env (Opnd V)) (n : Nat) (r : Res V P O), Only B b → inline small b env n k = .ok r → Only B r.body
  | .done outs, env, n, r, _, h => by
    simp only [inline, Bind.bind, Except.bind] at h
    split at h
    · cases h
    · exact hk _ _ _ h
  | .eqn p ps ins outs rest, env, n, r, hb, h => by
    simp only [inline, Bind.bind, Except.bind] at h
    split at h
    · cases h
    · exact bind_only h hb.1 hb.2.1 fun os n r hr => inline_only hk rest _ _ _ hb.2.2 hr

/-- Primitives without a rule are kept, and the `impl` of those with one brings only these. -/
structure Brings (T : Table V P O) (A B : P → Prop) : Prop where
  kept : ∀ p, A p → T.rule p = none → B p
  impl : ∀ p ps n j, A p → T.rule p = some .impl → T.impl p ps n = .ok j → Only B j.body

mutual
theorem finBody_only {T : Table V P O} {A B : P → Prop} (hT : Brings T A B) :
    ∀ (b : Body V P O) env n r, Only A b → finBody T b env n = .ok r → Only B r.body
  | .done outs, env, n, r, _, h => by
    simp only [finBody, Bind.bind, Except.bind, pure, Except.pure] at h
    split at h
    · cases h
    · cases h; trivial
  | .eqn p ps ins outs rest, env, n, r, hb, h => by
    have hk : ∀ os n r, andWrite outs env (finBody T rest) os n = .ok r → Only B r.body :=
      fun os n r hr => finBody_only hT rest _ _ _ hb.2.2 (andWrite_ok hr).2
    simp only [finBody, Bind.bind, Except.bind] at h
    split at h
    · cases h
    · rename_i ps' hps
      obtain ⟨p1, p2⟩ := finParams_only hT ps ps' hb.2.1 hps
      split at h
      · rename_i hr
        split at h
        · cases h
        · exact bind_only h (hT.kept p hb.1 hr) p1 hk
      · rename_i hr
        split at h
        · cases h
        · split at h
          · cases h
          · rename_i j hj
            exact inline_only hk _ _ _ _ (hT.impl _ _ _ _ hb.1 hr hj) (inlineClosed_ok h).2.2
      · split at h
        · cases h
        · rename_i j hj
          split at h
          · cases h
          · exact inline_only hk _ _ _ _ (p2 j hj) (inlineClosed_ok h).2.2
      · split at h
        · cases h
        · simp only [throw, throwThe, MonadExceptOf.throw, pure, Except.pure] at h
          split at h
          · cases h
          · exact hk _ _ _ h
theorem finParams_only {T : Table V P O} {A B : P → Prop} (hT : Brings T A B) :
    ∀ (ps : Params V P O) ps', OnlyParams A ps → finParams T ps = .ok ps' →
      OnlyParams B ps' ∧ ∀ j, callJaxpr ps' = .ok j → Only B j.body
  | .nil, ps', _, h => by
    cases h
    exact ⟨trivial, fun j hj => (by cases hj)⟩
  | .one k v rest, ps', hb, h => by
    simp only [finParams, Bind.bind, Except.bind, pure, Except.pure] at h
    split at h
    · cases h
    · rename_i v' hv
      split at h
      · cases h
      · rename_i rest' hr
        cases h
        have v1 := finVal_only hT v v' hb.1 hv
        obtain ⟨r1, r2⟩ := finParams_only hT rest rest' hb.2 hr
        refine ⟨⟨v1, r1⟩, ?_⟩
        intro j hj
        simp only [callJaxpr] at hj
        split at hj
        · cases v' with
          | opened _ _ _ => cases hj
          | other _ => cases hj
          | closed cvs ivs b cs => cases hj; exact v1
        · exact r2 j hj
  | .tuple k vs rest, ps', hb, h => by
    simp only [finParams, Bind.bind, Except.bind, pure, Except.pure] at h
    split at h
    · cases h
    · rename_i vs' hv
      split at h
      · cases h
      · rename_i rest' hr
        cases h
        obtain ⟨r1, r2⟩ := finParams_only hT rest rest' hb.2 hr
        refine ⟨⟨finVals_only hT vs vs' hb.1 hv, r1⟩, ?_⟩
        intro j hj
        simp only [callJaxpr] at hj
        split at hj
        · cases hj
        · exact r2 j hj
theorem finVals_only {T : Table V P O} {A B : P → Prop} (hT : Brings T A B) :
    ∀ (vs : Vals V P O) vs', OnlyVals A vs → finVals T vs = .ok vs' → OnlyVals B vs'
  | .nil, vs', _, h => by cases h; trivial
  | .cons v rest, vs', hb, h => by
    simp only [finVals, Bind.bind, Except.bind, pure, Except.pure] at h
    split at h
    · cases h
    · rename_i v' hv
      split at h
      · cases h
      · rename_i rest' hr
        cases h
        exact ⟨finVal_only hT v v' hb.1 hv, finVals_only hT rest rest' hb.2 hr⟩
theorem finVal_only {T : Table V P O} {A B : P → Prop} (hT : Brings T A B) :
    ∀ (v : Val V P O) v', OnlyVal A v → finVal T v = .ok v' → OnlyVal B v'
  | .other x, v', _, h => by cases h; trivial
  | .opened [] ivs b, v', hb, h => by
    simp only [finVal, Bind.bind, Except.bind, pure, Except.pure] at h
    split at h
    · cases h
    · rename_i r hr
      cases h
      exact fun _ => finBody_only hT b _ _ _ (hb rfl) hr
  | .opened (cv :: cvs) ivs b, v', _, h => by
    cases h
    exact fun h => (by cases h)
  | .closed cvs ivs b cs, v', hb, h => by
    simp only [finVal] at h
    split at h
    · cases h
    · simp only [Bind.bind, Except.bind, pure, Except.pure] at h
      split at h
      · cases h
      · rename_i r hr
        cases h
        exact finBody_only hT b _ _ _ hb hr
end

theorem finalise_only {T : Table V P O} {A B : P → Prop} (hT : Brings T A B) {j j' : Closed V P O} (hA : Only A j.body)
    (h : finaliseJaxpr T j = .ok j') : Only B j'.body := by
  simp only [finaliseJaxpr] at h
  split at h
  · cases h
  · simp only [Bind.bind, Except.bind, pure, Except.pure] at h
    split at h
    · cases h
    · rename_i r hr
      cases h
      exact finBody_only hT j.body _ _ _ hA hr

/-! ### The table of the library -/

/-- What may be left of a jaxpr with primitives in `A` if tracing the noinlined functions gives primitives in `N`. -/
def Left (A N : Prim S → Prop) (p : Prim S) : Prop :=
  IsStd p ∨ (A .vprim ∧ p = .vprim) ∨ (A .maybeSet ∧ p = .selectIfVmap) ∨ (A .noinline ∧ N p)

theorem reduce_only {B : Prim S → Prop} (hs : ∀ s, B (.std s)) {s : S} {n : Nat} {j : Closed V (Prim S) O} (h : reduce s n = .ok j) :
    Only B j.body := by
  simp only [reduce] at h
  split at h
  · cases h
    exact ⟨hs s, trivial, trivial⟩
  · cases h

theorem identity_only {B : Prim S → Prop} {n : Nat} {j : Closed V (Prim S) O} (h : identity n = .ok j) : Only B j.body := by
  simp only [identity] at h
  split at h
  · cases h
    trivial
  · cases h

theorem set_only {J : Jax V S O} {B : Prim S → Prop} (hs : ∀ s, B (.std s)) (hv : B .selectIfVmap) {ps : Params V (Prim S) O} {n : Nat}
    {j : Closed V (Prim S) O} (h : setImpl J ps n = .ok j) : Only B j.body := by
  simp only [setImpl] at h
  split at h
  · cases h
  · simp only [Bind.bind, Except.bind, pure, Except.pure] at h
    split at h
    · cases h
    · rename_i b hb
      cases h
      refine ⟨hs _, trivial, ?_, trivial, hs _, trivial, trivial⟩
      split
      · exact hs _
      · exact hv

theorem table_brings {J : Jax V S O} {A N : Prim S → Prop}
    (hN : A .noinline → ∀ ps n t, J.noinline ps n = .ok t → Only N t.body) : Brings (table J) A (Left A N) := by
  have hs : ∀ s, Left A N (.std s) := fun s => .inl ⟨s, rfl⟩
  constructor
  · intro p hp hr
    cases p with
    | std s => exact hs s
    | vprim => exact .inr (.inl ⟨hp, rfl⟩)
    | _ => cases hr
  · intro p ps n j hp hr hj
    simp only [table] at hj
    cases p with
    | std s => cases hr
    | customJvp => cases hr
    | stopGradient => cases hr
    | vprim => cases hr
    | unvmapAll => exact reduce_only hs hj
    | unvmapAny => exact reduce_only hs hj
    | unvmapMax => exact reduce_only hs hj
    | nondifferentiableBackward => exact identity_only hj
    | nontraceable => exact identity_only hj
    | nonbatchable => exact identity_only hj
    | announceJaxpr => cases hj; trivial
    | selectIfVmap =>
      simp only [impl] at hj
      split at hj
      · cases hj; trivial
      · cases hj
    | maybeSet => exact set_only hs (.inr (.inr (.inl ⟨hp, rfl⟩))) hj
    | noinline => exact Only.mono (fun p hp' => .inr (.inr (.inr ⟨hp, hp'⟩))) _ (hN hp ps n j hj)

/-- **C47**, what is left: of the primitives with a rule, and of those that Equinox defines, a finalised jaxpr has none but: `vprim`, if
it was there; `select_if_vmap`, if `maybe_set` was there; what the trace of a noinlined function has. -/
theorem finalise_left {J : Jax V S O} {A N : Prim S → Prop} {j j' : Closed V (Prim S) O} (hA : Only A j.body)
    (hN : A .noinline → ∀ ps n t, J.noinline ps n = .ok t → Only N t.body) (h : finaliseJaxpr (table J) j = .ok j') :
    Only (Left A N) j'.body := finalise_only (table_brings hN) hA h

/-- **C47**, finality, for the library: if there is neither `maybe_set` nor `vprim` nor `noinline`, only JAX's primitives are left. What is
missing: see `maybe_set_left`, `vprim_left`, `noinline_left`. -/
theorem finalise_standard_partial {J : Jax V S O} {j j' : Closed V (Prim S) O}
    (hA : Only (fun p => p ≠ .maybeSet ∧ p ≠ .vprim ∧ p ≠ .noinline) j.body) (h : finaliseJaxpr (table J) j = .ok j') :
    Only IsStd j'.body := by
  refine Only.mono ?_ _ (finalise_left (N := fun _ => False) hA (fun h => absurd rfl h.2.2) h)
  rintro p (hp | ⟨hp, _⟩ | ⟨hp, _⟩ | ⟨hp, _⟩)
  · exact hp
  · exact absurd rfl hp.2.1
  · exact absurd rfl hp.1
  · exact absurd rfl hp.2.2

/-- **C47**, twice: finalising the result again removes what `maybe_set` left. -/
theorem finalise_twice {J : Jax V S O} {j j' j'' : Closed V (Prim S) O} (hA : Only (fun p => p ≠ .vprim ∧ p ≠ .noinline) j.body)
    (h : finaliseJaxpr (table J) j = .ok j') (h' : finaliseJaxpr (table J) j' = .ok j'') : Only IsStd j''.body := by
  refine finalise_standard_partial (Only.mono ?_ _ (finalise_left (N := fun _ => False) hA (fun h => absurd rfl h.2) h)) h'
  rintro p (⟨s, rfl⟩ | ⟨hp, _⟩ | ⟨_, rfl⟩ | ⟨hp, _⟩)
  · exact ⟨by simp, by simp, by simp⟩
  · exact absurd rfl hp.1
  · exact ⟨by simp, by simp, by simp⟩
  · exact absurd rfl hp.2

/-! ### What the primitives mean -/

/-- The truth of `makes_false_steps` among the parameters that were given. -/
def Flag (J : Jax V S O) (ps : Params V (Prim S) O) : Option Bool :=
  match ps with
  | .nil => none
  | .one k v rest => if k = "makes_false_steps" then (match v with | .other o => some (J.truth o) | _ => some true) else Flag J rest
  | .tuple k _ rest => if k = "makes_false_steps" then some true else Flag J rest

/-- The one result. -/
def single : List V → Except Err V
  | [y] => .ok y
  | _ => .error .assertionError

/-- What Equinox's primitives compute when they are executed: reductions over everything, nothing at all, the first of two values, an
update of an array (in which the new value is the old one where the predicate is false, if there can be such steps), a function call. -/
structure Means (sem : Sem V (Prim S) O) (J : Jax V S O) : Prop where
  unvmapAll : ∀ ps x, sem .unvmapAll ps [x] = sem (.std J.reduceAnd) [] [x] >>= fun y => (single y).map ([·])
  unvmapAny : ∀ ps x, sem .unvmapAny ps [x] = sem (.std J.reduceOr) [] [x] >>= fun y => (single y).map ([·])
  unvmapMax : ∀ ps x, sem .unvmapMax ps [x] = sem (.std J.reduceMax) [] [x] >>= fun y => (single y).map ([·])
  nondifferentiableBackward : ∀ ps x, sem .nondifferentiableBackward ps [x] = .ok [x]
  nontraceable : ∀ ps x, sem .nontraceable ps [x] = .ok [x]
  nonbatchable : ∀ ps x, sem .nonbatchable ps [x] = .ok [x]
  announceJaxpr : ∀ ps xs, sem .announceJaxpr ps xs = .ok xs
  selectIfVmap : ∀ ps c x y, sem .selectIfVmap ps [c, x, y] = .ok [x]
  stopGradient : ∀ ps x, sem .stopGradient ps [x] = .ok [x]
  customJvp : ∀ ps j, callJaxpr ps = .ok j → ∀ xs, sem .customJvp (denParams sem ps) xs = j.run sem xs
  noinline : ∀ ps n t, J.noinline ps n = .ok t → ∀ xs, xs.length = n → sem .noinline (denParams sem ps) xs = t.run sem xs
  maybeSet : ∀ ps c arr x index, Flag J ps = some false → sem .maybeSet (denParams sem ps) (c :: arr :: x :: index) = do
    let _ ← sem (.std J.gather) [] (arr :: index) >>= single
    let y ← sem (.std J.scatter) [] (arr :: x :: index) >>= single
    pure [y]
  maybeSetFalse : ∀ ps c arr x index, Flag J ps = some true → sem .maybeSet (denParams sem ps) (c :: arr :: x :: index) = do
    let old ← sem (.std J.gather) [] (arr :: index) >>= single
    let new ← sem (.std J.select) [] [c, x, old] >>= single
    let y ← sem (.std J.scatter) [] (arr :: new :: index) >>= single
    pure [y]

theorem flag_eq (J : Jax V S O) : ∀ (ps : Params V (Prim S) O) b, makesFalseSteps J ps = .ok b → Flag J ps = some b
  | .nil, b, h => by cases h
  | .one k v rest, b, h => by
    simp only [makesFalseSteps] at h
    simp only [Flag]
    split at h
    · rename_i hk
      simp only [hk, if_true]
      cases v <;> simp_all
    · rename_i hk
      simp only [hk, if_false]
      exact flag_eq J rest b h
  | .tuple k vs rest, b, h => by
    simp only [makesFalseSteps] at h
    simp only [Flag]
    split at h
    · rename_i hk
      simp only [hk, if_true]
      cases h; rfl
    · rename_i hk
      simp only [hk, if_false]
      exact flag_eq J rest b h

theorem write_range (env : Env V) (xs : List V) (s k : Nat) :
    env.write (List.range' s xs.length) xs k = if s ≤ k ∧ k < s + xs.length then xs[k - s]? else env k := by
  induction xs generalizing env s with
  | nil =>
    simp only [List.length_nil, List.range'_zero, Env.write]
    split
    · omega
    · rfl
  | cons x xs ih =>
    simp only [List.length_cons, List.range'_succ, Env.write, ih]
    by_cases h : k = s
    · subst h
      simp
      intro h
      omega
    · simp only [h, if_false]
      by_cases h1 : s + 1 ≤ k ∧ k < s + 1 + xs.length
      · have h2 : s ≤ k ∧ k < s + (xs.length + 1) := by omega
        rw [if_pos h1, if_pos h2]
        have : k - s = (k - (s + 1)) + 1 := by omega
        rw [this, List.getElem?_cons_succ]
      · have h2 : ¬ (s ≤ k ∧ k < s + (xs.length + 1)) := by omega
        rw [if_neg h1, if_neg h2]

theorem write_args (xs : List V) (k : Nat) : (Env.empty.write (List.range xs.length) xs) k = xs[k]? := by
  rw [List.range_eq_range', write_range]
  split
  · simp
  · rename_i h
    rw [List.getElem?_eq_none (by omega)]
    rfl

theorem read_vars (env : Env V) (f : Nat → Nat) (ys : List V) (n : Nat) (h : ∀ i, i < ys.length → env (f (i + n)) = ys[i]?) :
    mapAll (readVal env) ((List.range' n ys.length).map fun i => Atom.var (f i)) = .ok ys := by
  induction ys generalizing n with
  | nil => rfl
  | cons y ys ih =>
    have h0 := h 0 (by simp)
    have ih := ih (n + 1) fun i hi => by
      have := h (i + 1) (by simpa using hi)
      rw [List.getElem?_cons_succ] at this
      rw [← this]
      congr 2
      omega
    simp only [Nat.zero_add, List.getElem?_cons_zero] at h0
    simp only [List.length_cons, List.range'_succ, List.map_cons, mapAll, readVal, h0, ih, Bind.bind, Except.bind, pure, Except.pure]

theorem read_index (env : Env V) (ys : List V) (h : ∀ i, i < ys.length → env (i + 3) = ys[i]?) :
    mapAll (readVal env) ((List.range ys.length).map fun i => Atom.var (i + 3)) = .ok ys := by
  rw [List.range_eq_range']
  exact read_vars env (· + 3) ys 0 (by simpa using h)

theorem run_reduce {sem : Sem V (Prim S) O} {s : S} {n : Nat} {j : Closed V (Prim S) O} (h : reduce s n = .ok j) {xs : List V}
    (hl : xs.length = n) : ∃ x, xs = [x] ∧ j.run sem xs = sem (.std s) [] [x] >>= fun y => (single y).map ([·]) := by
  simp only [reduce] at h
  split at h
  · rename_i hn
    cases h
    match xs, hl.trans hn with
    | [x], _ =>
      refine ⟨x, rfl, ?_⟩
      simp [Closed.run, runWith, evalBody, mapAll, readVal, Env.write, denParams, Bind.bind, Except.bind, pure, Except.pure]
      cases sem (.std s) [] [x] with
      | error e => rfl
      | ok ys =>
        match ys with
        | [] => rfl
        | [y] => rfl
        | _ :: _ :: _ => simp [single, throw, throwThe, MonadExceptOf.throw, Except.map]
  · cases h

theorem run_identity {sem : Sem V (Prim S) O} {n : Nat} {j : Closed V (Prim S) O} (h : identity n = .ok j) {xs : List V}
    (hl : xs.length = n) : ∃ x, xs = [x] ∧ j.run sem xs = .ok [x] := by
  simp only [identity] at h
  split at h
  · rename_i hn
    cases h
    match xs, hl.trans hn with
    | [x], _ => exact ⟨x, rfl, rfl⟩
  · cases h

theorem run_announce {sem : Sem V (Prim S) O} (xs : List V) :
    Closed.run sem ⟨[], List.range xs.length, .done ((List.range xs.length).map .var), []⟩ xs = .ok xs := by
  simp only [Closed.run, runWith, evalBody, List.length_nil, List.length_range, ne_eq, not_true_eq_false, if_false]
  rw [List.range_eq_range']
  refine read_vars _ id xs 0 fun i _ => ?_
  rw [← List.range_eq_range']
  exact write_args xs i

theorem run_set {sem : Sem V (Prim S) O} {J : Jax V S O} (hM : Means sem J) {ps : Params V (Prim S) O} {n : Nat} {j : Closed V (Prim S) O}
    (h : setImpl J ps n = .ok j) {xs : List V} (hl : xs.length = n) : sem .maybeSet (denParams sem ps) xs = j.run sem xs := by
  simp only [setImpl] at h
  split at h
  · cases h
  · rename_i hn
    simp only [Bind.bind, Except.bind, pure, Except.pure] at h
    split at h
    · cases h
    · rename_i b hb
      cases h
      match xs, hl, hn with
      | [], hl, hn => exact absurd (by rw [← hl]; simp) hn
      | [_], hl, hn => exact absurd (by rw [← hl]; simp) hn
      | [_, _], hl, hn => exact absurd (by rw [← hl]; simp) hn
      | c :: arr :: x :: index, hl, _ =>
        subst hl
        have e0 : ∀ k, ((Env.empty.write [] []).write (List.range (c :: arr :: x :: index).length) (c :: arr :: x :: index)) k =
            (c :: arr :: x :: index)[k]? := write_args _
        have hx : (c :: arr :: x :: index).length - 3 = index.length := by simp
        have hflag := flag_eq J ps b hb
        simp only [Closed.run, runWith, List.length_nil, List.length_range, ne_eq, not_true_eq_false, if_false, hx]
        generalize hE : ((Env.empty.write [] []).write (List.range (c :: arr :: x :: index).length) (c :: arr :: x :: index)) = E at e0 ⊢
        generalize hN : (c :: arr :: x :: index).length = N at *
        have hN' : index.length + 3 = N := by rw [← hN]; rfl
        have i0 : mapAll (readVal E) ((List.range index.length).map fun i => Atom.var (i + 3)) = .ok index :=
          read_index E index fun i _ => by rw [e0]; rfl
        have i1 : ∀ g s, mapAll (readVal (((fun k => if k = N + 1 then some s else if k = N then some g else E k) : Env V)))
            ((List.range index.length).map fun i => Atom.var (i + 3)) = .ok index := fun g s =>
          read_index _ index fun i hi => by
            have h1 : i + 3 ≠ N + 1 := by omega
            have h2 : i + 3 ≠ N := by omega
            simp only [h1, h2, if_false, e0]
            rfl
        have a0 : E 0 = some c := e0 0
        have a1 : E 1 = some arr := e0 1
        have a2 : E 2 = some x := e0 2
        have n0 : (0 : Nat) ≠ N := by omega
        have n1 : (1 : Nat) ≠ N := by omega
        have n2 : (2 : Nat) ≠ N := by omega
        have m1 : N ≠ 0 := by omega
        simp only [evalBody, mapAll, readVal, a0, a1, a2, i0, Bind.bind, Except.bind, pure, Except.pure, denParams]
        cases b with
        | false =>
          rw [hM.maybeSet ps c arr x index hflag]
          simp only [Bind.bind, Except.bind, pure, Except.pure, Bool.false_eq_true, if_false]
          cases sem (.std J.gather) [] (arr :: index) with
          | error e => rfl
          | ok gs =>
            match gs with
            | [] => rfl
            | _ :: _ :: _ => simp [single, throw, throwThe, MonadExceptOf.throw]
            | [g] =>
              simp [single, Env.write, a0, a1, a2, n0, n1, n2, hM.selectIfVmap, m1, i1]
              cases sem (.std J.scatter) [] (arr :: x :: index) with
              | error e => rfl
              | ok ys =>
                match ys with
                | [] => rfl
                | [y] => simp [single, Env.write]
                | _ :: _ :: _ => simp [single, throw, throwThe, MonadExceptOf.throw]
        | true =>
          rw [hM.maybeSetFalse ps c arr x index hflag]
          simp only [Bind.bind, Except.bind, pure, Except.pure, if_true]
          cases sem (.std J.gather) [] (arr :: index) with
          | error e => rfl
          | ok gs =>
            match gs with
            | [] => rfl
            | _ :: _ :: _ => simp [single, throw, throwThe, MonadExceptOf.throw]
            | [g] =>
              simp [single, Env.write, a0, a1, a2, n0, n1, n2]
              cases sem (.std J.select) [] [c, x, g] with
              | error e => rfl
              | ok ss =>
                match ss with
                | [] => rfl
                | _ :: _ :: _ => simp [single, throw, throwThe, MonadExceptOf.throw]
                | [s] =>
                  simp [single, Env.write, n1, m1, a1, i1]
                  cases sem (.std J.scatter) [] (arr :: s :: index) with
                  | error e => rfl
                  | ok ys =>
                    match ys with
                    | [] => rfl
                    | [y] => simp [single, Env.write]
                    | _ :: _ :: _ => simp [single, throw, throwThe, MonadExceptOf.throw]

theorem table_agrees {sem : Sem V (Prim S) O} {J : Jax V S O} (hM : Means sem J) : Agrees sem (table J) := by
  constructor
  · intro p ps n j hr hj xs hl
    simp only [table] at hj hr
    cases p with
    | std s => cases hr
    | customJvp => cases hr
    | stopGradient => cases hr
    | vprim => cases hr
    | unvmapAll => obtain ⟨x, rfl, h⟩ := run_reduce (sem := sem) hj hl; rw [h, hM.unvmapAll]
    | unvmapAny => obtain ⟨x, rfl, h⟩ := run_reduce (sem := sem) hj hl; rw [h, hM.unvmapAny]
    | unvmapMax => obtain ⟨x, rfl, h⟩ := run_reduce (sem := sem) hj hl; rw [h, hM.unvmapMax]
    | nondifferentiableBackward =>
      obtain ⟨x, rfl, h⟩ := run_identity (sem := sem) hj hl; rw [h, hM.nondifferentiableBackward]
    | nontraceable => obtain ⟨x, rfl, h⟩ := run_identity (sem := sem) hj hl; rw [h, hM.nontraceable]
    | nonbatchable => obtain ⟨x, rfl, h⟩ := run_identity (sem := sem) hj hl; rw [h, hM.nonbatchable]
    | announceJaxpr =>
      cases hj
      subst hl
      rw [hM.announceJaxpr, run_announce]
    | selectIfVmap =>
      simp only [impl] at hj
      split at hj
      · rename_i hn
        cases hj
        match xs, hl.trans hn with
        | [c, x, y], _ => rw [hM.selectIfVmap]; rfl
      · cases hj
    | maybeSet => exact run_set hM hj hl
    | noinline => exact hM.noinline ps n j hj xs hl
  · intro p ps j hr hj xs
    cases p with
    | customJvp => exact hM.customJvp ps j hj xs
    | _ => cases hr
  · intro p ps x hr
    cases p with
    | stopGradient => exact hM.stopGradient ps x
    | _ => cases hr

/-- **C47**, meaning, for the library: with the primitives it registers and what they compute, the finalised jaxpr computes the same. -/
theorem library_meaning {sem : Sem V (Prim S) O} {J : Jax V S O} (hM : Means sem J) {j j' : Closed V (Prim S) O}
    (hs : Safe (table J) false j.body) (h : finaliseJaxpr (table J) j = .ok j') (xs : List V) : j'.run sem xs = j.run sem xs :=
  finalise_meaning (table_agrees hM) hs h xs

/-! ### Examples -/

/-- Standard primitives are named; the noinlined function checks its argument with `nonbatchable`. -/
def exJax : Jax Int String Bool :=
  { reduceAnd := "reduce_and", reduceOr := "reduce_or", reduceMax := "reduce_max", gather := "gather", scatter := "scatter",
    select := "select_n", truth := id, small := fun _ => true,
    noinline := fun _ _ => .ok ⟨[], [0], .eqn .nonbatchable .nil [.var 0] [1] (.done [.var 1]), []⟩ }

/-- `maybe_set` with this value of `makes_false_steps`, for an index without dynamic leaves. -/
def exSet (b : Bool) : Closed Int (Prim String) Bool :=
  ⟨[], [0, 1, 2], .eqn .maybeSet (.one "makes_false_steps" (.other b) .nil) [.var 0, .var 1, .var 2] [3] (.done [.var 3]), []⟩

/-- `unvmap_any` inside of a `scan` -/
def exScan : Closed Int (Prim String) Bool :=
  ⟨[], [0], .eqn (.std "scan") (.one "jaxpr" (.closed [] [0] (.eqn .unvmapAny .nil [.var 0] [1] (.done [.var 1])) []) .nil)
    [.var 0] [1] (.done [.var 1]), []⟩

def exOne (p : Prim String) : Closed Int (Prim String) Bool := ⟨[], [0], .eqn p .nil [.var 0] [1] (.done [.var 1]), []⟩

/-- The hypotheses of `finalise_standard_partial` and `finalise_twice` can be met. -/
example : Only (fun p => p ≠ .maybeSet ∧ p ≠ .vprim ∧ p ≠ .noinline) exScan.body ∧ finaliseJaxpr (table exJax) exScan =
    .ok ⟨[], [0], .eqn (.std "scan") (.one "jaxpr" (.closed [] [0] (.eqn (.std "reduce_or") .nil [.var 0] [1] (.done [.var 1])) []) .nil)
      [.var 0] [1] (.done [.var 1]), []⟩ := ⟨by simp [Only, OnlyParams, OnlyVal, exScan], rfl⟩

example : Only (fun p => p ≠ .vprim ∧ p ≠ .noinline) (exSet false).body ∧ ∃ j' j'', finaliseJaxpr (table exJax) (exSet false) = .ok j' ∧
    finaliseJaxpr (table exJax) j' = .ok j'' ∧ ¬ Only IsStd j'.body :=
  ⟨by simp [Only, OnlyParams, OnlyVal, exSet], _, _, rfl, rfl, by
    rintro ⟨-, -, ⟨s, hs⟩, -⟩
    cases hs⟩

/-- The flag among parameters that have been interpreted. -/
def exFlag : List (String × DParam Int Bool) → Bool
  | [] => true
  | (k, .one (.other b)) :: rest => if k = "makes_false_steps" then b else exFlag rest
  | (k, _) :: rest => if k = "makes_false_steps" then true else exFlag rest

theorem exFlag_eq (sem : Sem Int (Prim String) Bool) : ∀ (ps : Params Int (Prim String) Bool) b, Flag exJax ps = some b →
    exFlag (denParams sem ps) = b
  | .nil, b, h => by cases h
  | .one k v rest, b, h => by
    simp only [Flag] at h
    split at h
    · rename_i hk
      cases v <;> cases h <;> simp [denParams, denVal, exFlag, hk, exJax]
    · rename_i hk
      cases v <;> simp [denParams, denVal, exFlag, hk, exFlag_eq sem rest b h]
  | .tuple k vs rest, b, h => by
    simp only [Flag] at h
    split at h
    · rename_i hk
      cases h
      simp [denParams, exFlag, hk]
    · rename_i hk
      simp [denParams, exFlag, hk, exFlag_eq sem rest b h]

/-- The function of `custom_jvp_call`. -/
def exCall : List (String × DParam Int Bool) → List Int → Except Err (List Int)
  | [], _ => .error .keyError
  | (k, v) :: rest, xs => if k = "call_jaxpr" then match v with
      | .one (.closed f) => f xs
      | _ => .error .attributeError
    else exCall rest xs

theorem exCall_eq (sem : Sem Int (Prim String) Bool) (j : Closed Int (Prim String) Bool) (xs : List Int) :
    ∀ (ps : Params Int (Prim String) Bool), callJaxpr ps = .ok j → exCall (denParams sem ps) xs = j.run sem xs
  | .nil, h => by cases h
  | .one k v rest, h => by
    simp only [callJaxpr] at h
    simp only [denParams, exCall]
    split at h
    · rename_i hk
      rw [if_pos hk]
      cases v with
      | closed cvs ivs b cs => cases h; rfl
      | opened _ _ _ => cases h
      | other _ => cases h
    · rename_i hk
      rw [if_neg hk]
      exact exCall_eq sem j xs rest h
  | .tuple k vs rest, h => by
    simp only [callJaxpr] at h
    simp only [denParams, exCall]
    split at h
    · cases h
    · rename_i hk
      rw [if_neg hk]
      exact exCall_eq sem j xs rest h

/-- All arrays have one element. -/
def exSem : Sem Int (Prim String) Bool := fun p ps xs => match p with
  | .std s =>
    if s = "select_n" then match xs with
      | [c, x, y] => .ok [if c = 0 then y else x]
      | _ => .error .typeError
    else if s = "scatter" then match xs with
      | _ :: x :: _ => .ok [x]
      | _ => .error .typeError
    else .ok (xs.take 1)
  | .customJvp => exCall ps xs
  | .selectIfVmap => .ok ((xs.drop 1).take 1)
  | .maybeSet => match xs with
    | c :: arr :: x :: _ => .ok [if exFlag ps ∧ c = 0 then arr else x]
    | _ => .error .typeError
  | .noinline => match xs with
    | [x] => .ok [x]
    | _ => .error .assertionError
  | _ => .ok xs

/-- The hypotheses of `library_meaning` can be met. -/
theorem exMeans : Means exSem exJax := by
  constructor
  · intro ps x; rfl
  · intro ps x; rfl
  · intro ps x; rfl
  · intro ps x; rfl
  · intro ps x; rfl
  · intro ps x; rfl
  · intro ps xs; rfl
  · intro ps c x y; rfl
  · intro ps x; rfl
  · intro ps j hj xs; exact exCall_eq exSem j xs ps hj
  · intro ps n t ht xs hl
    cases ht
    match xs with
    | [] => rfl
    | [x] => rfl
    | _ :: _ :: _ => simp [exSem, Closed.run, runWith]
  · intro ps c arr x index hf
    have := exFlag_eq exSem ps false hf
    simp [exSem, this, exJax, single, Bind.bind, Except.bind, pure, Except.pure]
  · intro ps c arr x index hf
    have := exFlag_eq exSem ps true hf
    simp [exSem, this, exJax, single, Bind.bind, Except.bind, pure, Except.pure]

example : Safe (table exJax) false (exSet true).body ∧ (exSet true).run exSem [0, 5, 7] = .ok [5] ∧
    (exSet false).run exSem [0, 5, 7] = .ok [7] := ⟨by simp [Safe, SafeParams, SafeVal, exSet], rfl, rfl⟩

/-- **C47**, what is missing (1): finalising `maybe_set`, which every checkpointed loop uses to write into its buffers, leaves
`select_if_vmap`, although this has a rule. -/
theorem maybe_set_left : ∃ j', finaliseJaxpr (table exJax) (exSet false) = .ok j' ∧ ¬ Clean (table exJax) j'.body :=
  ⟨_, rfl, by
    rintro ⟨-, -, h, -⟩
    cases h⟩

/-- **C47**, what is missing (2): `vprim`, which `maybe_set` becomes under `vmap`, has no rule. -/
theorem vprim_left : ∃ j', finaliseJaxpr (table exJax) (exOne .vprim) = .ok j' ∧ ¬ Only IsStd j'.body :=
  ⟨_, rfl, by
    rintro ⟨⟨s, hs⟩, -⟩
    cases hs⟩

/-- **C47**, what is missing (3): the function of a `noinline` is traced, but not finalised. -/
theorem noinline_left : ∃ j', finaliseJaxpr (table exJax) (exOne .noinline) = .ok j' ∧ ¬ Clean (table exJax) j'.body :=
  ⟨_, rfl, by
    rintro ⟨h, -⟩
    cases h⟩

end Verif.Finalise.Registry
