import Verif.Finalise.Model

/-! # Lemmas about tracing -/

namespace Verif
namespace Finalise

variable {V P O : Type}

/-! ### Related values -/

/-- A value while tracing stands for a value, if the variables below `n` have the given values. -/
def OV (n : Nat) (σ : Env V) : Opnd V → V → Prop
  | .tr k, v => k < n ∧ σ k = some v
  | .conc w, v => w = v

def OVs (n : Nat) (σ : Env V) : List (Opnd V) → List V → Prop
  | [], [] => True
  | o :: os, v :: vs => OV n σ o v ∧ OVs n σ os vs
  | _, _ => False

def RelAt (n : Nat) (σ : Env V) : Option (Opnd V) → Option V → Prop
  | none, v => v = none
  | some o, v => ∃ w, v = some w ∧ OV n σ o w

/-- Environments are related. -/
def Rel (n : Nat) (ρ : Env V) (env : Env (Opnd V)) (σ : Env V) : Prop := ∀ x, RelAt n σ (env x) (ρ x)

/-- The constants have their values. -/
def Has (σ : Env V) (cs : List (Nat × V)) : Prop := ∀ p ∈ cs, σ p.1 = some p.2

/-- The variables are increasing, from `n` on. -/
def Inc (n : Nat) : List (Nat × V) → Prop
  | [] => True
  | p :: cs => n ≤ p.1 ∧ Inc (p.1 + 1) cs

theorem OV.mono {n n' : Nat} {σ σ' : Env V} (hn : n ≤ n') (hσ : ∀ k, k < n → σ' k = σ k) {o : Opnd V} {v : V} (h : OV n σ o v) :
    OV n' σ' o v := by
  cases o with
  | tr k => exact ⟨Nat.lt_of_lt_of_le h.1 hn, by rw [hσ k h.1]; exact h.2⟩
  | conc w => exact h

theorem OVs.mono {n n' : Nat} {σ σ' : Env V} (hn : n ≤ n') (hσ : ∀ k, k < n → σ' k = σ k) {os : List (Opnd V)} {vs : List V}
    (h : OVs n σ os vs) : OVs n' σ' os vs := by
  induction os generalizing vs with
  | nil => cases vs with
    | nil => trivial
    | cons v vs => exact h
  | cons o os ih => cases vs with
    | nil => exact h
    | cons v vs => exact ⟨h.1.mono hn hσ, ih h.2⟩

theorem OVs.length {n : Nat} {σ : Env V} {os : List (Opnd V)} {vs : List V} (h : OVs n σ os vs) : os.length = vs.length := by
  induction os generalizing vs with
  | nil => cases vs with
    | nil => rfl
    | cons v vs => exact h.elim
  | cons o os ih => cases vs with
    | nil => exact h.elim
    | cons v vs => simp [ih h.2]

theorem OVs.conc (n : Nat) (σ : Env V) (vs : List V) : OVs n σ (vs.map .conc) vs := by
  induction vs with
  | nil => trivial
  | cons v vs ih => exact ⟨rfl, ih⟩

theorem Rel.mono {n n' : Nat} {ρ : Env V} {env : Env (Opnd V)} {σ σ' : Env V} (hn : n ≤ n') (hσ : ∀ k, k < n → σ' k = σ k)
    (h : Rel n ρ env σ) : Rel n' ρ env σ' := by
  intro x
  have := h x
  cases he : env x with
  | none => rw [he] at this; exact this
  | some o =>
    rw [he] at this
    obtain ⟨w, h1, h2⟩ := this
    exact ⟨w, h1, h2.mono hn hσ⟩

theorem Rel.empty (n : Nat) (σ : Env V) : Rel n Env.empty Env.empty σ := fun _ => rfl

theorem Rel.write {n : Nat} {ρ : Env V} {env : Env (Opnd V)} {σ : Env V} (h : Rel n ρ env σ) {os : List (Opnd V)} {vs : List V}
    (ho : OVs n σ os vs) (ks : List Nat) : Rel n (ρ.write ks vs) (env.write ks os) σ := by
  induction ks generalizing os vs ρ env with
  | nil => exact h
  | cons k ks ih =>
    cases os with
    | nil => cases vs with
      | nil => exact h
      | cons v vs => exact ho.elim
    | cons o os => cases vs with
      | nil => exact ho.elim
      | cons v vs =>
        simp only [Env.write]
        refine ih ?_ ho.2
        intro x
        by_cases hx : x = k
        · simp only [hx, if_true]
          exact ⟨v, rfl, ho.1⟩
        · simp only [hx, if_false]
          exact h x

theorem Rel.read {n : Nat} {ρ : Env V} {env : Env (Opnd V)} {σ : Env V} (h : Rel n ρ env σ) {ins : List (Atom V)} {os : List (Opnd V)}
    (ho : mapAll (readOp env) ins = .ok os) : ∃ xs, mapAll (readVal ρ) ins = .ok xs ∧ OVs n σ os xs := by
  induction ins generalizing os with
  | nil => cases ho; exact ⟨[], rfl, trivial⟩
  | cons a ins ih =>
    simp only [mapAll, Bind.bind, Except.bind, pure, Except.pure] at ho ⊢
    cases h1 : readOp env a with
    | error e => rw [h1] at ho; cases ho
    | ok o =>
      rw [h1] at ho
      simp only at ho
      cases h2 : mapAll (readOp env) ins with
      | error e => rw [h2] at ho; cases ho
      | ok os' =>
        rw [h2] at ho
        cases ho
        obtain ⟨xs, hx, hov⟩ := ih h2
        have : ∃ v, readVal ρ a = .ok v ∧ OV n σ o v := by
          cases a with
          | lit v => cases h1; exact ⟨v, rfl, rfl⟩
          | var m =>
            have hm := h m
            simp only [readOp, readVal] at h1 ⊢
            cases he : env m with
            | none => rw [he] at h1; cases h1
            | some o' =>
              rw [he] at h1 hm
              cases h1
              obtain ⟨w, hw1, hw2⟩ := hm
              exact ⟨w, by rw [hw1], hw2⟩
        obtain ⟨v, hv, hov'⟩ := this
        refine ⟨v :: xs, ?_, hov', hov⟩
        simp only [hv, hx]

theorem length_mapAll {α β : Type} {f : α → Except Err β} {xs : List α} {ys : List β} (h : mapAll f xs = .ok ys) :
    ys.length = xs.length := by
  induction xs generalizing ys with
  | nil => cases h; rfl
  | cons x xs ih =>
    simp only [mapAll, Bind.bind, Except.bind, pure, Except.pure] at h
    split at h
    · cases h
    · split at h
      · cases h
      · rename_i ys' h'
        cases h
        simp [ih h']

/-! ### New variables -/

theorem Inc.mono {n m : Nat} {cs : List (Nat × V)} (hn : n ≤ m) (h : Inc m cs) : Inc n cs := by
  cases cs with
  | nil => trivial
  | cons p cs => exact ⟨Nat.le_trans hn h.1, h.2⟩

theorem Inc.ge {n : Nat} {cs : List (Nat × V)} (h : Inc n cs) : ∀ p ∈ cs, n ≤ p.1 := by
  induction cs generalizing n with
  | nil => simp
  | cons p cs ih =>
    intro q hq
    rcases List.mem_cons.1 hq with rfl | hq
    · exact h.1
    · have := ih h.2 q hq
      have := h.1
      omega

theorem Inc.append {n m : Nat} {cs ds : List (Nat × V)} (h : Inc n cs) (hlt : ∀ p ∈ cs, p.1 < m) (hn : n ≤ m) (hd : Inc m ds) :
    Inc n (cs ++ ds) := by
  induction cs generalizing n with
  | nil => exact hd.mono hn
  | cons p cs ih =>
    refine ⟨h.1, ih h.2 (fun q hq => hlt q (by simp [hq])) ?_⟩
    have := hlt p (by simp)
    omega

theorem place_spec (small : V → Bool) (os : List (Opnd V)) (n : Nat) :
    n ≤ (place small os n).next ∧ Inc n (place small os n).consts ∧
      (∀ p ∈ (place small os n).consts, p.1 < (place small os n).next) ∧
      ∀ m (σ : Env V) xs, OVs m σ os xs → Has σ (place small os n).consts →
        mapAll (readVal σ) (place small os n).atoms = .ok xs := by
  induction os generalizing n with
  | nil =>
    refine ⟨Nat.le_refl _, trivial, by simp [place], ?_⟩
    intro m σ xs h _
    cases xs with
    | nil => rfl
    | cons x xs => exact h.elim
  | cons o os ih =>
    cases o with
    | tr k =>
      obtain ⟨h1, h2, h3, h4⟩ := ih n
      refine ⟨h1, h2, h3, ?_⟩
      intro m σ xs h hh
      cases xs with
      | nil => exact h.elim
      | cons x xs =>
        have := h4 m σ xs h.2 hh
        simp only [place, mapAll, readVal, h.1.2, this, Bind.bind, Except.bind, pure, Except.pure]
    | conc v =>
      simp only [place]
      split
      · obtain ⟨h1, h2, h3, h4⟩ := ih n
        refine ⟨h1, h2, h3, ?_⟩
        intro m σ xs h hh
        cases xs with
        | nil => exact h.elim
        | cons x xs =>
          have := h4 m σ xs h.2 hh
          have hv : v = x := h.1
          subst hv
          simp only [mapAll, readVal, this, Bind.bind, Except.bind, pure, Except.pure]
      · obtain ⟨h1, h2, h3, h4⟩ := ih (n + 1)
        refine ⟨by simp only; omega, ⟨Nat.le_refl _, h2⟩, ?_, ?_⟩
        · intro p hp
          rcases List.mem_cons.1 hp with rfl | hp
          · simp only; omega
          · exact h3 p hp
        · intro m σ xs h hh
          cases xs with
          | nil => exact h.elim
          | cons x xs =>
            have := h4 m σ xs h.2 (fun p hp => hh p (List.mem_cons_of_mem _ hp))
            have hv : v = x := h.1
            subst hv
            have hn := hh (n, v) (List.mem_cons_self)
            simp only at hn
            simp only [mapAll, readVal, hn, this, Bind.bind, Except.bind, pure, Except.pure]

theorem length_fresh (n len : Nat) : (fresh n len).length = len := by
  induction len generalizing n with
  | zero => rfl
  | succ len ih => simp [fresh, ih]

theorem write_fresh {n len : Nat} {ys : List V} (h : ys.length = len) (σ : Env V) :
    (∀ k, k < n → (σ.write (fresh n len) ys) k = σ k) ∧ (∀ k, n + len ≤ k → (σ.write (fresh n len) ys) k = σ k) ∧
      OVs (n + len) (σ.write (fresh n len) ys) ((fresh n len).map .tr) ys := by
  induction len generalizing n ys σ with
  | zero =>
    cases ys with
    | nil => exact ⟨fun _ _ => rfl, fun _ _ => rfl, trivial⟩
    | cons y ys => cases h
  | succ len ih =>
    cases ys with
    | nil => cases h
    | cons y ys =>
      simp only [List.length_cons, Nat.add_right_cancel_iff] at h
      simp only [fresh, Env.write, List.map_cons]
      obtain ⟨h1, h2, h3⟩ := ih (n := n + 1) h (fun x => if x = n then some y else σ x)
      refine ⟨?_, ?_, ⟨by omega, ?_⟩, ?_⟩
      · intro k hk
        rw [h1 k (by omega), if_neg (by omega)]
      · intro k hk
        rw [h2 k (by omega), if_neg (by omega)]
      · rw [h1 n (by omega), if_pos rfl]
      · rw [show n + (len + 1) = n + 1 + len by omega]
        exact h3

theorem write_consts {n : Nat} {cs : List (Nat × V)} (h : Inc n cs) (σ : Env V) :
    Has (σ.write (cs.map Prod.fst) (cs.map Prod.snd)) cs ∧
      ∀ k, k < n → (σ.write (cs.map Prod.fst) (cs.map Prod.snd)) k = σ k := by
  induction cs generalizing n σ with
  | nil => exact ⟨by simp [Has], fun _ _ => rfl⟩
  | cons p cs ih =>
    obtain ⟨h1, h2⟩ := ih h.2 (fun x => if x = p.1 then some p.2 else σ x)
    constructor
    · intro q hq
      rcases List.mem_cons.1 hq with rfl | hq
      · simp only [List.map_cons, Env.write]
        rw [h2 q.1 (by omega), if_pos rfl]
      · exact h1 q hq
    · intro k hk
      have := h.1
      simp only [List.map_cons, Env.write]
      rw [h2 k (by omega), if_neg (by omega)]

/-! ### Tracing -/

/-- The constants of a continuation are new. -/
def KInc (n : Nat) (k : List (Opnd V) → Nat → Except Err (Res V P O)) : Prop :=
  ∀ os n' r, n ≤ n' → k os n' = .ok r → Inc n' r.consts

/-- What a continuation builds computes `K`. -/
def KSem (sem : Sem V P O) (n : Nat) (σ : Env V) (k : List (Opnd V) → Nat → Except Err (Res V P O))
    (K : List V → Except Err (List V)) : Prop :=
  ∀ os n' r, n ≤ n' → k os n' = .ok r → ∀ σ' vs, (∀ i, i < n → σ' i = σ i) → Has σ' r.consts → OVs n' σ' os vs →
    evalBody sem r.body σ' = K vs

theorem bind_inc {small : V → Bool} {p : P} {ps : Params V P O} {os : List (Opnd V)} {len n : Nat}
    {k : List (Opnd V) → Nat → Except Err (Res V P O)} {r : Res V P O} (h : bind small p ps os len n k = .ok r) (hk : KInc n k) :
    Inc n r.consts := by
  obtain ⟨h1, h2, h3, -⟩ := place_spec small os n
  simp only [bind, Bind.bind, Except.bind, pure, Except.pure] at h
  split at h
  · cases h
  · rename_i r' hr
    cases h
    exact h2.append h3 h1 ((hk _ _ _ (by omega) hr).mono (by omega))

theorem bind_sem {sem : Sem V P O} {small : V → Bool} {p : P} {ps : Params V P O} {os : List (Opnd V)} {len n : Nat}
    {k : List (Opnd V) → Nat → Except Err (Res V P O)} {r : Res V P O} (h : bind small p ps os len n k = .ok r) (hk : KInc n k)
    {σ : Env V} (hσ : Has σ r.consts) {xs : List V} (hx : OVs n σ os xs) {K : List V → Except Err (List V)} (hK : KSem sem n σ k K) :
    evalBody sem r.body σ = (sem p (denParams sem ps) xs).bind fun ys =>
      if len ≠ ys.length then .error .assertionError else K ys := by
  obtain ⟨h1, h2, h3, h4⟩ := place_spec small os n
  simp only [bind, Bind.bind, Except.bind, pure, Except.pure] at h
  split at h
  · cases h
  · rename_i r' hr
    cases h
    have hc : Has σ (place small os n).consts := fun q hq => hσ q (List.mem_append_left _ hq)
    simp only [evalBody, h4 n σ xs hx hc, Bind.bind, Except.bind, length_fresh, throw, throwThe, MonadExceptOf.throw, pure, Except.pure]
    cases sem p (denParams sem ps) xs with
    | error e => rfl
    | ok ys =>
      simp only
      split
      · rfl
      · rename_i hl
        have hl : ys.length = len := by simp at hl; exact hl.symm
        obtain ⟨w1, w2, w3⟩ := write_fresh (n := (place small os n).next) hl σ
        have hinc := hk _ _ _ (by omega) hr
        refine hK _ _ _ (by omega) hr _ _ (fun i hi => w1 i (by omega)) ?_ w3
        intro q hq
        rw [w2 q.1 (hinc.ge q hq)]
        exact hσ q (List.mem_append_right _ hq)

theorem inline_inc {small : V → Bool} {k : List (Opnd V) → Nat → Except Err (Res V P O)} :
    ∀ (b : Body V P O) (env : Env (Opnd V)) (n : Nat) (r : Res V P O), inline small b env n k = .ok r → KInc n k → Inc n r.consts
  | .done outs, env, n, r, h, hk => by
    simp only [inline, Bind.bind, Except.bind] at h
    split at h
    · cases h
    · exact hk _ _ _ (Nat.le_refl _) h
  | .eqn p ps ins outs rest, env, n, r, h, hk => by
    simp only [inline, Bind.bind, Except.bind] at h
    split at h
    · cases h
    · refine bind_inc h ?_
      intro os n' r' hn hr
      exact inline_inc rest _ _ _ hr fun os n'' r'' hn' => hk os n'' r'' (by omega)

theorem inline_sem {sem : Sem V P O} {small : V → Bool} {k : List (Opnd V) → Nat → Except Err (Res V P O)}
    {K : List V → Except Err (List V)} :
    ∀ (b : Body V P O) (env : Env (Opnd V)) (n : Nat) (r : Res V P O), inline small b env n k = .ok r → KInc n k →
      ∀ ρ σ, Rel n ρ env σ → Has σ r.consts → KSem sem n σ k K → evalBody sem r.body σ = (evalBody sem b ρ).bind K
  | .done outs, env, n, r, h, hk, ρ, σ, hrel, hσ, hK => by
    simp only [inline, Bind.bind, Except.bind] at h
    split at h
    · cases h
    · rename_i os ho
      obtain ⟨xs, hx, hov⟩ := hrel.read ho
      simp only [evalBody, hx, Except.bind]
      exact hK _ _ _ (Nat.le_refl _) h _ _ (fun _ _ => rfl) hσ hov
  | .eqn p ps ins outs rest, env, n, r, h, hk, ρ, σ, hrel, hσ, hK => by
    simp only [inline, Bind.bind, Except.bind] at h
    split at h
    · cases h
    · rename_i os ho
      obtain ⟨xs, hx, hov⟩ := hrel.read ho
      rw [bind_sem (K := fun ys => (evalBody sem rest (ρ.write outs ys)).bind K) h ?_ hσ hov ?_]
      · simp only [evalBody, hx, Bind.bind, Except.bind, throw, throwThe, MonadExceptOf.throw, pure, Except.pure]
        cases sem p (denParams sem ps) xs with
        | error e => rfl
        | ok ys =>
          simp only
          split <;> rfl
      · intro os' n' r' hn hr
        exact inline_inc rest _ _ _ hr fun os n'' r'' hn' => hk os n'' r'' (by omega)
      · intro os' n' r' hn hr σ' vs hag hσ' hov'
        refine inline_sem rest _ _ _ hr (fun os n'' r'' hn' => hk os n'' r'' (by omega)) _ _ ((hrel.mono hn hag).write hov' outs) hσ' ?_
        intro os'' n'' r'' hn' hr'' σ'' vs' hag' hσ'' hov''
        refine hK _ _ _ (by omega) hr'' _ _ ?_ hσ'' hov''
        intro i hi
        rw [hag' i (by omega), hag i hi]

/-- The continuation is run. -/
theorem inline_cont {small : V → Bool} {k : List (Opnd V) → Nat → Except Err (Res V P O)} :
    ∀ (b : Body V P O) (env : Env (Opnd V)) (n : Nat) (r : Res V P O), inline small b env n k = .ok r → ∃ os n' r', k os n' = .ok r'
  | .done outs, env, n, r, h => by
    simp only [inline, Bind.bind, Except.bind] at h
    split at h
    · cases h
    · exact ⟨_, _, _, h⟩
  | .eqn p ps ins outs rest, env, n, r, h => by
    simp only [inline, Bind.bind, Except.bind] at h
    split at h
    · cases h
    · simp only [bind, Bind.bind, Except.bind] at h
      split at h
      · cases h
      · rename_i hr
        exact inline_cont rest _ _ _ hr

theorem inlineClosed_ok {small : V → Bool} {j : Closed V P O} {os : List (Opnd V)} {n : Nat}
    {k : List (Opnd V) → Nat → Except Err (Res V P O)} {r : Res V P O} (h : inlineClosed small j os n k = .ok r) :
    j.cvs.length = j.consts.length ∧ j.ivs.length = os.length ∧
      inline small j.body ((Env.empty.write j.cvs (j.consts.map .conc)).write j.ivs os) n k = .ok r := by
  simp only [inlineClosed] at h
  split at h
  · cases h
  · split at h
    · cases h
    · rename_i h1 h2
      exact ⟨by simpa using h1, by simpa using h2, h⟩

theorem inlineClosed_inc {small : V → Bool} {j : Closed V P O} {os : List (Opnd V)} {n : Nat}
    {k : List (Opnd V) → Nat → Except Err (Res V P O)} {r : Res V P O} (h : inlineClosed small j os n k = .ok r) (hk : KInc n k) :
    Inc n r.consts := inline_inc _ _ _ _ (inlineClosed_ok h).2.2 hk

theorem inlineClosed_sem {sem : Sem V P O} {small : V → Bool} {j : Closed V P O} {os : List (Opnd V)} {n : Nat}
    {k : List (Opnd V) → Nat → Except Err (Res V P O)} {r : Res V P O} (h : inlineClosed small j os n k = .ok r) (hk : KInc n k)
    {σ : Env V} (hσ : Has σ r.consts) {xs : List V} (hx : OVs n σ os xs) {K : List V → Except Err (List V)} (hK : KSem sem n σ k K) :
    evalBody sem r.body σ = (j.run sem xs).bind K := by
  obtain ⟨h1, h2, h3⟩ := inlineClosed_ok h
  have e := inline_sem (sem := sem) _ _ _ _ h3 hk ((Env.empty.write j.cvs j.consts).write j.ivs xs) σ
    (((Rel.empty n σ).write (OVs.conc n σ j.consts) j.cvs).write hx j.ivs) hσ hK
  rw [e, Closed.run, runWith, if_neg (by simp [h1]), if_neg (by simp [h2, hx.length])]

end Finalise
end Verif
