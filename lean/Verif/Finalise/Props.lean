import Verif.Finalise.Lemmas

/-! # C47: finalising a jaxpr preserves its meaning -/

namespace Verif
namespace Finalise

variable {V P O : Type}

/-! ### Vocabulary -/

/-- The rules of the table agree with `bind`: `impl` does the same, `custom_jvp_call` calls its jaxpr, `stop_gradient` is the identity. -/
structure Agrees (sem : Sem V P O) (T : Table V P O) : Prop where
  impl : ∀ p ps n j, T.rule p = some .impl → T.impl p ps n = .ok j → ∀ xs, xs.length = n →
    sem p (denParams sem ps) xs = j.run sem xs
  jvp : ∀ p ps j, T.rule p = some .jvp → callJaxpr ps = .ok j → ∀ xs, sem p (denParams sem ps) xs = j.run sem xs
  stop : ∀ p ps x, T.rule p = some .stop → sem p ps [x] = .ok [x]

/-- Literals are small. -/
def SmallAtoms (T : Table V P O) (as : List (Atom V)) : Prop := ∀ a ∈ as, ∀ v, a = .lit v → T.small v = true

def SmallLits (T : Table V P O) : Body V P O → Prop
  | .done outs => SmallAtoms T outs
  | .eqn _ _ ins _ rest => SmallAtoms T ins ∧ SmallLits T rest

mutual
/-- Jaxprs which are not closed need no constants: neither literals, nor `impl` rules, nor a jaxpr inside of `custom_jvp_call` bring a
value that JAX does not write as a literal. The flag says that this is required here. -/
def Safe (T : Table V P O) : Bool → Body V P O → Prop
  | o, .done outs => o = true → SmallAtoms T outs
  | o, .eqn p ps ins _ rest =>
    (o = true → SmallAtoms T ins) ∧
    (o = true → T.rule p = some .impl → ∀ ps n j, T.impl p ps n = .ok j → j.consts = [] ∧ SmallLits T j.body) ∧
    SafeParams T (o && T.rule p == some .jvp) ps ∧ Safe T o rest
def SafeParams (T : Table V P O) : Bool → Params V P O → Prop
  | _, .nil => True
  | o, .one _ v rest => SafeVal T o v ∧ SafeParams T o rest
  | o, .tuple _ vs rest => SafeVals T o vs ∧ SafeParams T o rest
def SafeVals (T : Table V P O) : Bool → Vals V P O → Prop
  | _, .nil => True
  | o, .cons v rest => SafeVal T o v ∧ SafeVals T o rest
def SafeVal (T : Table V P O) : Bool → Val V P O → Prop
  | _, .opened cvs _ b => cvs = [] → Safe T true b
  | o, .closed _ _ b cs => (o = true → cs = []) ∧ Safe T o b
  | _, .other _ => True
end

mutual
/-- No primitive of the table, also not in the jaxprs of parameters (other than those with variables for constants). -/
def Clean (T : Table V P O) : Body V P O → Prop
  | .done _ => True
  | .eqn p ps _ _ rest => T.rule p = none ∧ CleanParams T ps ∧ Clean T rest
def CleanParams (T : Table V P O) : Params V P O → Prop
  | .nil => True
  | .one _ v rest => CleanVal T v ∧ CleanParams T rest
  | .tuple _ vs rest => CleanVals T vs ∧ CleanParams T rest
def CleanVals (T : Table V P O) : Vals V P O → Prop
  | .nil => True
  | .cons v rest => CleanVal T v ∧ CleanVals T rest
def CleanVal (T : Table V P O) : Val V P O → Prop
  | .opened cvs _ b => cvs = [] → Clean T b
  | .closed _ _ b _ => Clean T b
  | .other _ => True
end

/-! ### Only small values -/

def EnvSmall (T : Table V P O) (env : Env (Opnd V)) : Prop := ∀ x v, env x = some (.conc v) → T.small v = true

def OpsSmall (T : Table V P O) (os : List (Opnd V)) : Prop := ∀ o ∈ os, ∀ v, o = .conc v → T.small v = true

theorem EnvSmall.empty {T : Table V P O} : EnvSmall T Env.empty := by
  intro x v h
  cases h

theorem EnvSmall.write {T : Table V P O} {env : Env (Opnd V)} (h : EnvSmall T env) {os : List (Opnd V)} (ho : OpsSmall T os)
    (ks : List Nat) : EnvSmall T (env.write ks os) := by
  induction ks generalizing env os with
  | nil => exact h
  | cons k ks ih =>
    cases os with
    | nil => exact h
    | cons o os =>
      simp only [Env.write]
      refine ih ?_ (fun o' ho' => ho o' (List.mem_cons_of_mem _ ho'))
      intro x v hx
      by_cases hk : x = k
      · simp only [hk, if_true, Option.some.injEq] at hx
        exact ho o List.mem_cons_self v hx
      · simp only [hk, if_false] at hx
        exact h x v hx

theorem EnvSmall.read {T : Table V P O} {env : Env (Opnd V)} (h : EnvSmall T env) {ins : List (Atom V)} (hi : SmallAtoms T ins)
    {os : List (Opnd V)} (ho : mapAll (readOp env) ins = .ok os) : OpsSmall T os := by
  induction ins generalizing os with
  | nil => cases ho; intro o ho; cases ho
  | cons a ins ih =>
    simp only [mapAll, Bind.bind, Except.bind, pure, Except.pure] at ho
    split at ho
    · cases ho
    · rename_i o h1
      split at ho
      · cases ho
      · rename_i os' h2
        cases ho
        intro o' ho' v hv
        rcases List.mem_cons.1 ho' with rfl | ho'
        · cases a with
          | lit w =>
            cases h1
            cases hv
            exact hi (.lit v) List.mem_cons_self v rfl
          | var m =>
            simp only [readOp] at h1
            split at h1
            · rename_i o'' he
              cases h1
              exact h m v (by rw [he, hv])
            · cases h1
        · exact ih (fun a ha => hi a (List.mem_cons_of_mem _ ha)) h2 o' ho' v hv

theorem opsSmall_tr {T : Table V P O} (ns : List Nat) : OpsSmall T (ns.map .tr) := by
  intro o ho v hv
  obtain ⟨n, _, rfl⟩ := List.mem_map.1 ho
  cases hv

theorem place_small {T : Table V P O} {os : List (Opnd V)} (h : OpsSmall T os) (n : Nat) : (place T.small os n).consts = [] := by
  induction os with
  | nil => rfl
  | cons o os ih =>
    have ih := ih fun o ho => h o (List.mem_cons_of_mem _ ho)
    cases o with
    | tr k => exact ih
    | conc v =>
      have := h (.conc v) List.mem_cons_self v rfl
      simp only [place, this, if_true]
      exact ih

theorem place_atoms (T : Table V P O) (os : List (Opnd V)) (n : Nat) : SmallAtoms T (place T.small os n).atoms := by
  induction os generalizing n with
  | nil => intro a ha; cases ha
  | cons o os ih =>
    cases o with
    | tr k =>
      intro a ha v hv
      rcases List.mem_cons.1 ha with rfl | ha
      · cases hv
      · exact ih n a ha v hv
    | conc w =>
      simp only [place]
      split
      · rename_i hw
        intro a ha v hv
        rcases List.mem_cons.1 ha with rfl | ha
        · cases hv; exact hw
        · exact ih n a ha v hv
      · intro a ha v hv
        rcases List.mem_cons.1 ha with rfl | ha
        · cases hv
        · exact ih _ a ha v hv

theorem bind_small {T : Table V P O} {p : P} {ps : Params V P O} {os : List (Opnd V)} {len n : Nat}
    {k : List (Opnd V) → Nat → Except Err (Res V P O)} {r : Res V P O} (h : bind T.small p ps os len n k = .ok r) :
    ((∀ os n r, k os n = .ok r → SmallLits T r.body) → SmallLits T r.body) ∧
    (OpsSmall T os → (∀ os n r, OpsSmall T os → k os n = .ok r → r.consts = []) → r.consts = []) := by
  simp only [bind, Bind.bind, Except.bind, pure, Except.pure] at h
  split at h
  · cases h
  · rename_i r' hr
    cases h
    constructor
    · intro hk
      exact ⟨place_atoms _ _ _, hk _ _ _ hr⟩
    · intro ho hk
      simp only [place_small ho, List.nil_append]
      exact hk _ _ _ (opsSmall_tr _) hr

theorem inline_small {T : Table V P O} {k : List (Opnd V) → Nat → Except Err (Res V P O)} :
    ∀ (b : Body V P O) (env : Env (Opnd V)) (n : Nat) (r : Res V P O), inline T.small b env n k = .ok r →
      ((∀ os n r, k os n = .ok r → SmallLits T r.body) → SmallLits T r.body) ∧
      (EnvSmall T env → SmallLits T b → (∀ os n r, OpsSmall T os → k os n = .ok r → r.consts = []) → r.consts = [])
  | .done outs, env, n, r, h => by
    simp only [inline, Bind.bind, Except.bind] at h
    split at h
    · cases h
    · rename_i os ho
      exact ⟨fun hk => hk _ _ _ h, fun he hb hk => hk _ _ _ (he.read hb ho) h⟩
  | .eqn p ps ins outs rest, env, n, r, h => by
    simp only [inline, Bind.bind, Except.bind] at h
    split at h
    · cases h
    · rename_i os ho
      obtain ⟨h1, h2⟩ := bind_small h
      constructor
      · intro hk
        exact h1 fun os n r hr => (inline_small rest _ _ _ hr).1 hk
      · intro he hb hk
        exact h2 (he.read hb.1 ho) fun os n r ho hr => (inline_small rest _ _ _ hr).2 (he.write ho outs) hb.2 hk

theorem inlineClosed_small {T : Table V P O} {j : Closed V P O} {os : List (Opnd V)} {n : Nat}
    {k : List (Opnd V) → Nat → Except Err (Res V P O)} {r : Res V P O} (h : inlineClosed T.small j os n k = .ok r) :
    ((∀ os n r, k os n = .ok r → SmallLits T r.body) → SmallLits T r.body) ∧
      (OpsSmall T os → j.consts = [] → SmallLits T j.body → (∀ os n r, OpsSmall T os → k os n = .ok r → r.consts = []) →
        r.consts = []) := by
  obtain ⟨-, -, h⟩ := inlineClosed_ok h
  obtain ⟨h1, h2⟩ := inline_small _ _ _ _ h
  refine ⟨h1, fun ho hj hb hk => h2 ?_ hb hk⟩
  rw [hj]
  refine EnvSmall.write (EnvSmall.empty.write ?_ _) ho _
  intro o ho
  cases ho

/-! ### Meaning -/

theorem andWrite_ok {α β : Type} {outs : List Nat} {env : Env α} {f : Env α → Nat → Except Err β} {os : List α} {n : Nat} {r : β}
    (h : andWrite outs env f os n = .ok r) : outs.length = os.length ∧ f (env.write outs os) n = .ok r := by
  simp only [andWrite] at h
  split at h
  · cases h
  · rename_i hl
    exact ⟨by simpa using hl, h⟩

/-- What is shown of tracing a body. -/
structure Spec (sem : Sem V P O) (T : Table V P O) (o : Bool) (b : Body V P O) (env : Env (Opnd V)) (n : Nat) (r : Res V P O) : Prop where
  inc : Inc n r.consts
  sem : ∀ ρ σ, Rel n ρ env σ → Has σ r.consts → evalBody sem r.body σ = evalBody sem b ρ
  lits : SmallLits T r.body
  consts : o = true → EnvSmall T env → r.consts = []

/-- Running a finalised jaxpr. -/
theorem Spec.run {sem : Sem V P O} {T : Table V P O} {o : Bool} {b : Body V P O} {cvs ivs : List Nat} {cs : List V} {r : Res V P O}
    (hc : cvs.length = cs.length)
    (h : Spec sem T o b ((Env.empty.write cvs (cs.map .conc)).write ivs ((fresh 0 ivs.length).map .tr)) ivs.length r) (xs : List V) :
    runWith (r.consts.map Prod.fst) (fresh 0 ivs.length) (r.consts.map Prod.snd) xs (evalBody sem r.body) =
      runWith cvs ivs cs xs (evalBody sem b) := by
  simp only [runWith, hc, List.length_map, ne_eq, not_true_eq_false, if_false, length_fresh]
  split
  · rfl
  · rename_i hl
    have hl : xs.length = ivs.length := by simp at hl; exact hl.symm
    obtain ⟨c1, c2⟩ := write_consts h.inc Env.empty
    obtain ⟨w1, w2, w3⟩ := write_fresh (n := 0) hl (Env.empty.write (r.consts.map Prod.fst) (r.consts.map Prod.snd))
    rw [Nat.zero_add] at w2 w3
    refine h.sem _ _ ?_ ?_
    · exact ((Rel.empty _ _).write (OVs.conc _ _ cs) cvs).write w3 ivs
    · intro q hq
      rw [w2 q.1 (h.inc.ge q hq)]
      exact c1 q hq

/-- The rest after the results of an equation are known. -/
theorem rest_spec {sem : Sem V P O} {T : Table V P O} {o : Bool} {rest : Body V P O}
    (ih : ∀ env n r, finBody T rest env n = .ok r → Spec sem T o rest env n r) (outs : List Nat) (env : Env (Opnd V)) (n : Nat) :
    KInc n (andWrite outs env (finBody T rest)) ∧
    (∀ ρ σ, Rel n ρ env σ → KSem sem n σ (andWrite outs env (finBody T rest)) fun ys =>
      if outs.length ≠ ys.length then .error .assertionError else evalBody sem rest (ρ.write outs ys)) ∧
    (∀ os n r, andWrite outs env (finBody T rest) os n = .ok r → SmallLits T r.body) ∧
    (o = true → EnvSmall T env → ∀ os n r, OpsSmall T os → andWrite outs env (finBody T rest) os n = .ok r → r.consts = []) := by
  refine ⟨?_, ?_, ?_, ?_⟩
  · intro os n' r hn hr
    exact (ih _ _ _ (andWrite_ok hr).2).inc
  · intro ρ σ hrel os n' r hn hr σ' vs hag hσ' hov
    obtain ⟨h1, h2⟩ := andWrite_ok hr
    have hl : ¬ (outs.length ≠ vs.length) := by rw [h1, hov.length]; simp
    simp only [hl, if_false]
    exact (ih _ _ _ h2).sem _ _ ((hrel.mono hn hag).write hov outs) hσ'
  · intro os n r hr
    exact (ih _ _ _ (andWrite_ok hr).2).lits
  · intro ho he os n r hos hr
    exact (ih _ _ _ (andWrite_ok hr).2).consts ho (he.write hos outs)

theorem map_nil_of_nil {α β : Type} {f : α → β} {l : List α} (h : l = []) : l.map f = [] := by rw [h]; rfl

mutual
theorem finBody_spec {sem : Sem V P O} {T : Table V P O} (hT : Agrees sem T) : ∀ (o : Bool) (b : Body V P O), Safe T o b →
    ∀ env n r, finBody T b env n = .ok r → Spec sem T o b env n r
  | o, .done outs, hs, env, n, r, h => by
    simp only [finBody, Bind.bind, Except.bind, pure, Except.pure] at h
    split at h
    · cases h
    · rename_i os ho
      cases h
      obtain ⟨h1, h2, h3, h4⟩ := place_spec T.small os n
      refine ⟨h2, ?_, place_atoms _ _ _, ?_⟩
      · intro ρ σ hrel hσ
        obtain ⟨xs, hx, hov⟩ := hrel.read ho
        simp only [evalBody, hx]
        exact h4 n σ xs hov hσ
      · intro hot he
        exact place_small (he.read (hs hot) ho) n
  | o, .eqn p ps ins outs rest, hs, env, n, r, h => by
    obtain ⟨s1, s2, s3, s4⟩ := hs
    obtain ⟨k1, k2, k3, k4⟩ := rest_spec (finBody_spec hT o rest s4) outs env n
    simp only [finBody, Bind.bind, Except.bind] at h
    split at h
    · cases h
    · rename_i ps' hps
      obtain ⟨p1, p2⟩ := finParams_spec hT _ ps s3 ps' hps
      split at h
      · -- no rule
        split at h
        · cases h
        · rename_i os ho
          obtain ⟨b1, b2⟩ := bind_small h
          refine ⟨bind_inc h k1, ?_, b1 k3, fun hot he => b2 (he.read (s1 hot) ho) (k4 hot he)⟩
          intro ρ σ hrel hσ
          obtain ⟨xs, hx, hov⟩ := hrel.read ho
          rw [bind_sem h k1 hσ hov (k2 ρ σ hrel)]
          simp only [evalBody, hx, p1, Bind.bind, Except.bind, throw, throwThe, MonadExceptOf.throw, pure, Except.pure]
          cases sem p (denParams sem ps) xs with
          | error e => rfl
          | ok ys =>
            simp only
            split <;> rfl
      · -- impl
        rename_i hr
        split at h
        · cases h
        · rename_i os ho
          split at h
          · cases h
          · rename_i j hj
            obtain ⟨b1, b2⟩ := inlineClosed_small h
            refine ⟨inlineClosed_inc h k1, ?_, b1 k3, fun hot he => b2 (he.read (s1 hot) ho) (s2 hot hr _ _ _ hj).1 (s2 hot hr _ _ _ hj).2 (k4 hot he)⟩
            intro ρ σ hrel hσ
            obtain ⟨xs, hx, hov⟩ := hrel.read ho
            rw [inlineClosed_sem h k1 hσ hov (k2 ρ σ hrel), ← hT.impl p ps' _ j hr hj xs hov.length.symm]
            simp only [evalBody, hx, p1, Bind.bind, Except.bind, throw, throwThe, MonadExceptOf.throw, pure, Except.pure]
      · -- custom_jvp_call
        rename_i hr
        split at h
        · cases h
        · rename_i j hj
          split at h
          · cases h
          · rename_i os ho
            obtain ⟨b1, b2⟩ := inlineClosed_small h
            obtain ⟨q1, q2⟩ := p2 j hj
            refine ⟨inlineClosed_inc h k1, ?_, b1 k3,
              fun hot he => b2 (he.read (s1 hot) ho) (q2 (by simp [hot, hr])) q1 (k4 hot he)⟩
            intro ρ σ hrel hσ
            obtain ⟨xs, hx, hov⟩ := hrel.read ho
            rw [inlineClosed_sem h k1 hσ hov (k2 ρ σ hrel), ← hT.jvp p ps' j hr hj xs]
            simp only [evalBody, hx, p1, Bind.bind, Except.bind, throw, throwThe, MonadExceptOf.throw, pure, Except.pure]
      · -- stop_gradient
        rename_i hr
        split at h
        · cases h
        · rename_i os ho
          simp only [throw, throwThe, MonadExceptOf.throw, pure, Except.pure] at h
          split at h
          · cases h
          · rename_i hlen
            have hlen : os.length = 1 := by simpa using hlen
            refine ⟨k1 _ _ _ (Nat.le_refl _) h, ?_, k3 _ _ _ h, fun hot he => k4 hot he _ _ _ (he.read (s1 hot) ho) h⟩
            intro ρ σ hrel hσ
            obtain ⟨xs, hx, hov⟩ := hrel.read ho
            rw [k2 ρ σ hrel _ _ _ (Nat.le_refl _) h σ xs (fun _ _ => rfl) hσ hov]
            have hxl : xs.length = 1 := by rw [← hov.length, hlen]
            match xs, hxl with
            | [x], _ =>
              simp only [evalBody, hx, hT.stop p _ x hr, Bind.bind, Except.bind, throw, throwThe, MonadExceptOf.throw, pure, Except.pure]
theorem finParams_spec {sem : Sem V P O} {T : Table V P O} (hT : Agrees sem T) : ∀ (o : Bool) (ps : Params V P O), SafeParams T o ps →
    ∀ ps', finParams T ps = .ok ps' → denParams sem ps' = denParams sem ps ∧
      ∀ j, callJaxpr ps' = .ok j → SmallLits T j.body ∧ (o = true → j.consts = [])
  | o, .nil, _, ps', h => by
    cases h
    exact ⟨rfl, fun j hj => (by cases hj)⟩
  | o, .one k v rest, hs, ps', h => by
    simp only [finParams, Bind.bind, Except.bind, pure, Except.pure] at h
    split at h
    · cases h
    · rename_i v' hv
      split at h
      · cases h
      · rename_i rest' hr
        cases h
        obtain ⟨v1, v2⟩ := finVal_spec hT o v hs.1 v' hv
        obtain ⟨r1, r2⟩ := finParams_spec hT o rest hs.2 rest' hr
        refine ⟨by simp only [denParams, v1, r1], ?_⟩
        intro j hj
        simp only [callJaxpr] at hj
        split at hj
        · cases v' with
          | opened _ _ _ => cases hj
          | other _ => cases hj
          | closed cvs ivs b cs => cases hj; exact v2 _ _ _ _ rfl
        · exact r2 j hj
  | o, .tuple k vs rest, hs, ps', h => by
    simp only [finParams, Bind.bind, Except.bind, pure, Except.pure] at h
    split at h
    · cases h
    · rename_i vs' hv
      split at h
      · cases h
      · rename_i rest' hr
        cases h
        obtain ⟨r1, r2⟩ := finParams_spec hT o rest hs.2 rest' hr
        refine ⟨by simp only [denParams, finVals_spec hT o vs hs.1 vs' hv, r1], ?_⟩
        intro j hj
        simp only [callJaxpr] at hj
        split at hj
        · cases hj
        · exact r2 j hj
theorem finVals_spec {sem : Sem V P O} {T : Table V P O} (hT : Agrees sem T) : ∀ (o : Bool) (vs : Vals V P O), SafeVals T o vs →
    ∀ vs', finVals T vs = .ok vs' → denVals sem vs' = denVals sem vs
  | o, .nil, _, vs', h => by cases h; rfl
  | o, .cons v rest, hs, vs', h => by
    simp only [finVals, Bind.bind, Except.bind, pure, Except.pure] at h
    split at h
    · cases h
    · rename_i v' hv
      split at h
      · cases h
      · rename_i rest' hr
        cases h
        simp only [denVals, (finVal_spec hT o v hs.1 v' hv).1, finVals_spec hT o rest hs.2 rest' hr]
theorem finVal_spec {sem : Sem V P O} {T : Table V P O} (hT : Agrees sem T) : ∀ (o : Bool) (v : Val V P O), SafeVal T o v →
    ∀ v', finVal T v = .ok v' → denVal sem v' = denVal sem v ∧
      ∀ cvs ivs b cs, v' = .closed cvs ivs b cs → SmallLits T b ∧ (o = true → cs = [])
  | o, .other x, _, v', h => by
    cases h
    exact ⟨rfl, fun _ _ _ _ h => (by cases h)⟩
  | o, .opened [] ivs b, hs, v', h => by
    simp only [finVal, Bind.bind, Except.bind, pure, Except.pure] at h
    split at h
    · cases h
    · rename_i r hr
      cases h
      have sp := finBody_spec hT true b (hs rfl) _ _ _ hr
      refine ⟨?_, fun _ _ _ _ h => (by cases h)⟩
      have hc := sp.consts rfl (EnvSmall.empty.write (opsSmall_tr _) _)
      have run := Spec.run (cvs := []) (cs := ([] : List V)) (ivs := ivs) (b := b) (r := r) (sem := sem) (T := T) (o := true) rfl (by exact sp)
      simp only [denVal, hc, List.map_nil, List.length_nil] at run ⊢
      congr 1
      funext cs xs
      cases cs with
      | nil => exact run xs
      | cons c cs => rfl
  | o, .opened (cv :: cvs) ivs b, _, v', h => by
    cases h
    exact ⟨rfl, fun _ _ _ _ h => (by cases h)⟩
  | o, .closed cvs ivs b cs, hs, v', h => by
    simp only [finVal] at h
    split at h
    · cases h
    · rename_i hl
      have hl : cvs.length = cs.length := by simpa using hl
      simp only [Bind.bind, Except.bind, pure, Except.pure] at h
      split at h
      · cases h
      · rename_i r hr
        cases h
        have sp := finBody_spec hT o b hs.2 _ _ _ hr
        refine ⟨?_, ?_⟩
        · simp only [denVal]
          congr 1
          funext xs
          exact Spec.run hl sp xs
        · intro _ _ _ _ e
          cases e
          refine ⟨sp.lits, fun hot => ?_⟩
          rw [sp.consts hot]
          · rfl
          · rw [hs.1 hot]
            exact (EnvSmall.empty.write (fun o ho => (by cases ho)) _).write (opsSmall_tr _) _
end

/-- **C47**, meaning: the finalised jaxpr computes, for all inputs, what the jaxpr computes (with the same errors). -/
theorem finalise_meaning {sem : Sem V P O} {T : Table V P O} (hT : Agrees sem T) {j j' : Closed V P O} (hs : Safe T false j.body)
    (h : finaliseJaxpr T j = .ok j') (xs : List V) : j'.run sem xs = j.run sem xs := by
  simp only [finaliseJaxpr] at h
  split at h
  · cases h
  · rename_i hl
    have hl : j.cvs.length = j.consts.length := by simpa using hl
    simp only [Bind.bind, Except.bind, pure, Except.pure] at h
    split at h
    · cases h
    · rename_i r hr
      cases h
      exact Spec.run hl (finBody_spec hT false j.body hs _ _ _ hr) xs

/-! ### No registered primitives -/

theorem bind_clean {T : Table V P O} {small : V → Bool} {p : P} {ps : Params V P O} {os : List (Opnd V)} {len n : Nat}
    {k : List (Opnd V) → Nat → Except Err (Res V P O)} {r : Res V P O} (h : bind small p ps os len n k = .ok r) (hp : T.rule p = none)
    (hps : CleanParams T ps) (hk : ∀ os n r, k os n = .ok r → Clean T r.body) : Clean T r.body := by
  simp only [bind, Bind.bind, Except.bind, pure, Except.pure] at h
  split at h
  · cases h
  · rename_i r' hr
    cases h
    exact ⟨hp, hps, hk _ _ _ hr⟩

theorem inline_clean {T : Table V P O} {small : V → Bool} {k : List (Opnd V) → Nat → Except Err (Res V P O)}
    (hk : ∀ os n r, k os n = .ok r → Clean T r.body) :
    ∀ (b : Body V P O) (env : Env (Opnd V)) (n : Nat) (r : Res V P O), Clean T b → inline small b env n k = .ok r → Clean T r.body
  | .done outs, env, n, r, _, h => by
    simp only [inline, Bind.bind, Except.bind] at h
    split at h
    · cases h
    · exact hk _ _ _ h
  | .eqn p ps ins outs rest, env, n, r, hb, h => by
    simp only [inline, Bind.bind, Except.bind] at h
    split at h
    · cases h
    · exact bind_clean h hb.1 hb.2.1 fun os n r hr => inline_clean hk rest _ _ _ hb.2.2 hr

mutual
theorem finBody_clean {T : Table V P O} (hT : ∀ p ps n j, T.impl p ps n = .ok j → CleanParams T ps → Clean T j.body) :
    ∀ (b : Body V P O) env n r, finBody T b env n = .ok r → Clean T r.body
  | .done outs, env, n, r, h => by
    simp only [finBody, Bind.bind, Except.bind, pure, Except.pure] at h
    split at h
    · cases h
    · cases h; trivial
  | .eqn p ps ins outs rest, env, n, r, h => by
    have hk : ∀ os n r, andWrite outs env (finBody T rest) os n = .ok r → Clean T r.body :=
      fun os n r hr => finBody_clean hT rest _ _ _ (andWrite_ok hr).2
    simp only [finBody, Bind.bind, Except.bind] at h
    split at h
    · cases h
    · rename_i ps' hps
      obtain ⟨p1, p2⟩ := finParams_clean hT ps ps' hps
      split at h
      · rename_i hr
        split at h
        · cases h
        · exact bind_clean h hr p1 hk
      · split at h
        · cases h
        · split at h
          · cases h
          · rename_i j hj
            exact inline_clean hk _ _ _ _ (hT _ _ _ _ hj p1) (inlineClosed_ok h).2.2
      · split at h
        · cases h
        · rename_i j hj
          split at h
          · cases h
          · exact inline_clean hk _ _ _ _ (p2 j hj) (inlineClosed_ok h).2.2
      · split at h
        · cases h
        · simp only [throw, throwThe, MonadExceptOf.throw, pure, Except.pure] at h
          split at h
          · cases h
          · exact hk _ _ _ h
theorem finParams_clean {T : Table V P O} (hT : ∀ p ps n j, T.impl p ps n = .ok j → CleanParams T ps → Clean T j.body) :
    ∀ (ps : Params V P O) ps', finParams T ps = .ok ps' → CleanParams T ps' ∧ ∀ j, callJaxpr ps' = .ok j → Clean T j.body
  | .nil, ps', h => by
    cases h
    exact ⟨trivial, fun j hj => (by cases hj)⟩
  | .one k v rest, ps', h => by
    simp only [finParams, Bind.bind, Except.bind, pure, Except.pure] at h
    split at h
    · cases h
    · rename_i v' hv
      split at h
      · cases h
      · rename_i rest' hr
        cases h
        have v1 := finVal_clean hT v v' hv
        obtain ⟨r1, r2⟩ := finParams_clean hT rest rest' hr
        refine ⟨⟨v1, r1⟩, ?_⟩
        intro j hj
        simp only [callJaxpr] at hj
        split at hj
        · cases v' with
          | opened _ _ _ => cases hj
          | other _ => cases hj
          | closed cvs ivs b cs => cases hj; exact v1
        · exact r2 j hj
  | .tuple k vs rest, ps', h => by
    simp only [finParams, Bind.bind, Except.bind, pure, Except.pure] at h
    split at h
    · cases h
    · rename_i vs' hv
      split at h
      · cases h
      · rename_i rest' hr
        cases h
        obtain ⟨r1, r2⟩ := finParams_clean hT rest rest' hr
        refine ⟨⟨finVals_clean hT vs vs' hv, r1⟩, ?_⟩
        intro j hj
        simp only [callJaxpr] at hj
        split at hj
        · cases hj
        · exact r2 j hj
theorem finVals_clean {T : Table V P O} (hT : ∀ p ps n j, T.impl p ps n = .ok j → CleanParams T ps → Clean T j.body) :
    ∀ (vs : Vals V P O) vs', finVals T vs = .ok vs' → CleanVals T vs'
  | .nil, vs', h => by cases h; trivial
  | .cons v rest, vs', h => by
    simp only [finVals, Bind.bind, Except.bind, pure, Except.pure] at h
    split at h
    · cases h
    · rename_i v' hv
      split at h
      · cases h
      · rename_i rest' hr
        cases h
        exact ⟨finVal_clean hT v v' hv, finVals_clean hT rest rest' hr⟩
theorem finVal_clean {T : Table V P O} (hT : ∀ p ps n j, T.impl p ps n = .ok j → CleanParams T ps → Clean T j.body) :
    ∀ (v : Val V P O) v', finVal T v = .ok v' → CleanVal T v'
  | .other x, v', h => by cases h; trivial
  | .opened [] ivs b, v', h => by
    simp only [finVal, Bind.bind, Except.bind, pure, Except.pure] at h
    split at h
    · cases h
    · rename_i r hr
      cases h
      exact fun _ => finBody_clean hT b _ _ _ hr
  | .opened (cv :: cvs) ivs b, v', h => by
    cases h
    exact fun h => (by cases h)
  | .closed cvs ivs b cs, v', h => by
    simp only [finVal] at h
    split at h
    · cases h
    · simp only [Bind.bind, Except.bind, pure, Except.pure] at h
      split at h
      · cases h
      · rename_i r hr
        cases h
        exact finBody_clean hT b _ _ _ hr
end

/-- **C47**, finality: no primitive of the table is left, at any depth, if `impl` rules bring none. -/
theorem finalise_clean {T : Table V P O} (hT : ∀ p ps n j, T.impl p ps n = .ok j → CleanParams T ps → Clean T j.body)
    {j j' : Closed V P O} (h : finaliseJaxpr T j = .ok j') : Clean T j'.body := by
  simp only [finaliseJaxpr] at h
  split at h
  · cases h
  · simp only [Bind.bind, Except.bind, pure, Except.pure] at h
    split at h
    · cases h
    · rename_i r hr
      cases h
      exact finBody_clean hT j.body _ _ _ hr

/-! ### `finalise_eval_jaxpr` on values -/

theorem finEval_eq {sem : Sem V P O} {T : Table V P O} (hT : Agrees sem T) (o : Bool) : ∀ (b : Body V P O), Safe T o b →
    ∀ env n r, finBody T b env n = .ok r → ∀ ρ, finEval sem T b ρ = evalBody sem b ρ
  | .done outs, _, env, n, r, h, ρ => rfl
  | .eqn p ps ins outs rest, hs, env, n, r, h, ρ => by
    have hk : ∀ os n' r', andWrite outs env (finBody T rest) os n' = .ok r' → ∀ ρ, finEval sem T rest ρ = evalBody sem rest ρ :=
      fun os n' r' hr => finEval_eq hT o rest hs.2.2.2 _ _ _ (andWrite_ok hr).2
    simp only [finBody, Bind.bind, Except.bind] at h
    split at h
    · cases h
    · rename_i ps' hps
      have p1 := (finParams_spec hT _ ps hs.2.2.1 ps' hps).1
      simp only [finEval, evalBody, hps, Bind.bind, Except.bind]
      split at h
      · rename_i hr
        split at h
        · cases h
        · simp only [bind, Bind.bind, Except.bind] at h
          split at h
          · cases h
          · rename_i r' hr'
            have hk := hk _ _ _ hr'
            cases mapAll (readVal ρ) ins with
            | error e => rfl
            | ok xs =>
              simp only [p1]
              cases sem p (denParams sem ps) xs with
              | error e => rfl
              | ok ys =>
                simp only [andWrite, hk]
                split <;> rfl
      · rename_i hr
        split at h
        · cases h
        · rename_i os ho
          split at h
          · cases h
          · rename_i j hj
            obtain ⟨_, _, _, hr'⟩ := inline_cont _ _ _ _ (inlineClosed_ok h).2.2
            have hk := hk _ _ _ hr'
            cases hx : mapAll (readVal ρ) ins with
            | error e => rfl
            | ok xs =>
              have hl : xs.length = os.length := by rw [length_mapAll hx, length_mapAll ho]
              simp only [hl, hj, ← hT.impl p ps' _ j hr hj xs hl, p1]
              cases sem p (denParams sem ps) xs with
              | error e => rfl
              | ok ys =>
                simp only [andWrite, hk]
                split <;> rfl
      · rename_i hr
        split at h
        · cases h
        · rename_i j hj
          split at h
          · cases h
          · obtain ⟨_, _, _, hr'⟩ := inline_cont _ _ _ _ (inlineClosed_ok h).2.2
            have hk := hk _ _ _ hr'
            cases mapAll (readVal ρ) ins with
            | error e => rfl
            | ok xs =>
              simp only [← hT.jvp p ps' j hr hj xs, p1]
              cases sem p (denParams sem ps) xs with
              | error e => rfl
              | ok ys =>
                simp only [andWrite, hk]
                split <;> rfl
      · rename_i hr
        split at h
        · cases h
        · rename_i os ho
          simp only [throw, throwThe, MonadExceptOf.throw, pure, Except.pure] at h
          split at h
          · cases h
          · rename_i hlen
            have hk := hk _ _ _ h
            cases hx : mapAll (readVal ρ) ins with
            | error e => rfl
            | ok xs =>
              have hl : xs.length = 1 := by
                rw [length_mapAll hx, ← length_mapAll ho]
                simpa using hlen
              match xs, hl with
              | [x], _ =>
                simp only [hT.stop p _ x hr, andWrite, hk, List.length_singleton, ne_eq, not_true_eq_false, if_false]
                split <;> rfl

/-- **C47**, `finalise_fn`: evaluating with the rules is evaluating, for jaxprs that can be finalised. -/
theorem finalise_eval {sem : Sem V P O} {T : Table V P O} (hT : Agrees sem T) {j j' : Closed V P O} (hs : Safe T false j.body)
    (h : finaliseJaxpr T j = .ok j') (xs : List V) : finaliseAsFn sem T j xs = j.run sem xs := by
  simp only [finaliseJaxpr] at h
  split at h
  · cases h
  · simp only [Bind.bind, Except.bind] at h
    split at h
    · cases h
    · rename_i r hr
      simp only [finaliseAsFn, Closed.run]
      congr 1
      funext ρ
      exact finEval_eq hT false j.body hs _ _ _ hr ρ

/-! ### Examples -/

/-- Some primitives: addition, a registered identity, `stop_gradient`, `custom_jvp_call`, one which runs a closed jaxpr twice, and one
which runs an open jaxpr (as `jax.checkpoint` does). -/
inductive ExPrim where
  | add
  | wrapped
  | stop
  | jvp
  | twice
  | remat
deriving DecidableEq

/-- The function of `custom_jvp_call`. -/
def exCall : List (String × DParam Int Unit) → List Int → Except Err (List Int)
  | [], _ => .error .keyError
  | (k, v) :: rest, xs => if k = "call_jaxpr" then match v with
      | .one (.closed f) => f xs
      | _ => .error .attributeError
    else exCall rest xs

def exSem : Sem Int ExPrim Unit := fun p ps xs => match p, ps, xs with
  | .add, _, [x, y] => .ok [x + y]
  | .wrapped, _, xs => .ok xs
  | .stop, _, xs => .ok xs
  | .jvp, ps, xs => exCall ps xs
  | .twice, [(_, .one (.closed f))], xs => (f xs).bind f
  | .remat, [(_, .one (.opened _ f))], xs => f [] xs
  | _, _, _ => .error .typeError

def exTable : Table Int ExPrim Unit where
  rule p := match p with
    | .wrapped => some .impl
    | .stop => some .stop
    | .jvp => some .jvp
    | _ => none
  small v := v.natAbs < 10
  impl _ _ n := .ok ⟨[], fresh 0 n, .done ((fresh 0 n).map .var), []⟩

theorem exRun (n : Nat) (xs : List Int) (h : xs.length = n) :
    (⟨[], fresh 0 n, .done ((fresh 0 n).map .var), []⟩ : Closed Int ExPrim Unit).run exSem xs = .ok xs := by
  obtain ⟨-, -, w⟩ := write_fresh (n := 0) h Env.empty
  simp only [Closed.run, runWith, List.length_nil, ne_eq, not_true_eq_false, if_false, length_fresh, h, evalBody]
  have key : ∀ (m : Nat) (σ : Env Int) (l : List Nat) (ys : List Int), OVs m σ (l.map .tr) ys →
      mapAll (readVal σ) (l.map .var) = .ok ys := by
    intro m σ l
    induction l with
    | nil => intro ys hy; cases ys with
      | nil => rfl
      | cons y ys => exact hy.elim
    | cons k l ih => intro ys hy; cases ys with
      | nil => exact hy.elim
      | cons y ys => simp only [List.map_cons, mapAll, readVal, hy.1.2, ih ys hy.2, Bind.bind, Except.bind, pure, Except.pure]
  exact key _ _ _ _ w

theorem exCall_eq (j : Closed Int ExPrim Unit) (xs : List Int) : ∀ (ps : Params Int ExPrim Unit), callJaxpr ps = .ok j →
    exCall (denParams exSem ps) xs = j.run exSem xs
  | .nil, h => by cases h
  | .one k v rest, h => by
    simp only [callJaxpr] at h
    simp only [denParams, exCall]
    split at h
    · rename_i hk
      rw [if_pos hk]
      cases v with
      | closed cvs ivs b cs => cases h; rfl
      | opened _ _ _ => cases h
      | other _ => cases h
    · rename_i hk
      rw [if_neg hk]
      exact exCall_eq j xs rest h
  | .tuple k vs rest, h => by
    simp only [callJaxpr] at h
    simp only [denParams, exCall]
    split at h
    · cases h
    · rename_i hk
      rw [if_neg hk]
      exact exCall_eq j xs rest h

theorem exAgrees : Agrees exSem exTable := by
  constructor
  · intro p ps n j hp hj xs hx
    cases hj
    rw [exRun n xs hx]
    cases p <;> simp [exTable] at hp
    rfl
  · intro p ps j hp hj xs
    cases p <;> simp [exTable] at hp
    exact exCall_eq j xs ps hj
  · intro p ps x hp
    cases p <;> simp [exTable] at hp
    rfl

/-- Twice: the wrapped identity, addition of a constant inside of `custom_jvp_call`, and `stop_gradient`. -/
def exJaxpr : Closed Int ExPrim Unit where
  cvs := [7]
  ivs := [3]
  consts := [100]
  body :=
    .eqn .twice (.one "body" (.closed [9] [1]
      (.eqn .wrapped .nil [.var 1] [2]
        (.eqn .jvp (.one "call_jaxpr" (.closed [] [0, 1] (.eqn .add .nil [.var 0, .var 1] [2] (.done [.var 2])) []) .nil)
          [.var 2, .var 9] [4]
          (.eqn .stop .nil [.var 4] [5] (.done [.var 5])))) [20]) .nil) [.var 3] [8]
    (.eqn .add .nil [.var 8, .var 7] [9] (.done [.var 9, .lit 1]))

def exJaxpr' : Closed Int ExPrim Unit where
  cvs := [2]
  ivs := [0]
  consts := [100]
  body :=
    .eqn .twice (.one "body" (.closed [1] [0] (.eqn .add .nil [.var 0, .var 1] [2] (.done [.var 2])) [20]) .nil) [.var 0] [1]
    (.eqn .add .nil [.var 1, .var 2] [3] (.done [.var 3, .lit 1]))

example : finaliseJaxpr exTable exJaxpr = .ok exJaxpr' := rfl
example : exJaxpr.run exSem [5] = .ok [145, 1] := rfl
example : exJaxpr'.run exSem [5] = .ok [145, 1] := rfl
example : Safe exTable false exJaxpr.body := by simp [Safe, SafeParams, SafeVal, exJaxpr]

/-- An open jaxpr inside of which `custom_jvp_call` has a constant that is not a scalar. -/
def exOpen : Closed Int ExPrim Unit where
  cvs := []
  ivs := [0]
  consts := []
  body :=
    .eqn .remat (.one "jaxpr" (.opened [] [0]
      (.eqn .jvp (.one "call_jaxpr" (.closed [1] [0] (.eqn .add .nil [.var 0, .var 1] [2] (.done [.var 2])) [20]) .nil)
        [.var 0] [1] (.done [.var 1]))) .nil) [.var 0] [1]
    (.done [.var 1])

/-- Without the condition `Safe` the claim is false: `_maybe_finalise_jaxpr` drops the constants that finalising an open jaxpr may
bring (lines 48-49). -/
theorem finalise_open_consts : Agrees exSem exTable ∧ exOpen.run exSem [5] = .ok [25] ∧
    ∃ j', finaliseJaxpr exTable exOpen = .ok j' ∧ j'.run exSem [5] = .error .assertionError :=
  ⟨exAgrees, rfl, _, rfl, rfl⟩

end Finalise
end Verif
