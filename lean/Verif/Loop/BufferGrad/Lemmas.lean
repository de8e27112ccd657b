import Verif.Loop.BufferGrad.Spec
import Verif.Loop.Checkpoint.Spec
import Mathlib.Topology.Algebra.Module.FiniteDimension
import Mathlib.Analysis.Calculus.FDeriv.Linear
import Mathlib.Analysis.Calculus.FDeriv.Comp
import Mathlib.Algebra.BigOperators.Ring.Finset
import Mathlib.Tactic.Ring
import Mathlib.Tactic.Linarith

/-!
# Lemmas about differentiating through buffers
-/

namespace Verif
namespace BufferGrad

open Topology

variable {D Q R P K : Type} [DecidableEq R] [DecidableEq P]

theorem maybeSet_single (m bt pred : Bool) (b : P → K) (p : P) (x : K) :
    Common.maybeSet m bt pred b (single p x) = Function.update b p (Common.selectIfVmap m bt pred x (b p)) := by
  funext q
  simp only [Common.maybeSet, Common.setAt, single, Function.update_apply]
  by_cases h : q = p
  · subst h; simp
  · simp [h]

theorem select_live {α : Type} {m bt pred : Bool} (h : bt = false → m = false → pred = true) (x y : α) :
    Common.selectIfVmap m bt pred x y = if pred then x else y := by
  cases m <;> cases bt <;> simp_all [Common.selectIfVmap]

theorem update_ite (b : P → K) (p : P) (x : K) (c : Bool) :
    Function.update b p (if c then x else b p) = if c then Function.update b p x else b := by
  cases c <;> simp

theorem runI_eq {θ : Q → K} {i : Instr D Q R P K} {s : St D R P K} (h : Live i s) : runI θ i s = plainI θ i s := by
  cases i with
  | op f jacQ jac => rfl
  | read r i => rfl
  | write x i pred bt m =>
    simp only [runI, plainI, maybeSet_single, select_live h, update_ite]
  | select out x y pred bt m => simp only [runI, plainI, select_live h]

theorem plain_append (θ : Q → K) (a b : List (Instr D Q R P K)) (s : St D R P K) :
    plain θ (a ++ b) s = plain θ b (plain θ a s) := by
  induction a generalizing s with
  | nil => rfl
  | cons i a ih => exact ih _

theorem accesses_append (θ : Q → K) (a b : List (Instr D Q R P K)) (s : St D R P K) :
    accesses θ (a ++ b) s = accesses θ a s ++ accesses θ b (plain θ a s) := by
  induction a generalizing s with
  | nil => rfl
  | cons i a ih => simp only [List.cons_append, accesses, ih, List.append_assoc, plain]

theorem along_append {good : Instr D Q R P K → St D R P K → Prop} {θ : Q → K} {a b : List (Instr D Q R P K)}
    {s : St D R P K} (h : Along good θ (a ++ b) s) : Along good θ a s ∧ Along good θ b (plain θ a s) := by
  induction a generalizing s with
  | nil => exact ⟨trivial, h⟩
  | cons i a ih => exact ⟨⟨h.1, (ih h.2).1⟩, (ih h.2).2⟩

theorem run_eq {θ : Q → K} {is : List (Instr D Q R P K)} {s : St D R P K} (h : Along Live θ is s) :
    run θ is s = plain θ is s := by
  induction is generalizing s with
  | nil => rfl
  | cons i is ih => rw [run, plain, runI_eq h.1, ih h.2]

omit [DecidableEq R] [DecidableEq P] in
theorem unroll_succ (body : List (Instr D Q R P K)) (n : Nat) : unroll body (n + 1) = body ++ unroll body n := by
  simp [unroll, List.replicate_succ]

omit [DecidableEq R] [DecidableEq P] in
theorem unroll_add (body : List (Instr D Q R P K)) (m n : Nat) : unroll body (m + n) = unroll body m ++ unroll body n := by
  rw [unroll, unroll, unroll, ← List.replicate_append_replicate, List.flatten_append]

theorem iter_plain (θ : Q → K) (body : List (Instr D Q R P K)) (n : Nat) (s : St D R P K) :
    iter (plain θ body) n s = plain θ (unroll body n) s := by
  induction n generalizing s with
  | zero => rfl
  | succ n ih => rw [iter, ih, unroll_succ, plain_append]

theorem iter_run {θ : Q → K} {body : List (Instr D Q R P K)} {n : Nat} {s : St D R P K}
    (h : Along Live θ (unroll body n) s) : iter (run θ body) n s = plain θ (unroll body n) s := by
  induction n generalizing s with
  | zero => rfl
  | succ n ih =>
    rw [unroll_succ] at h
    rw [iter, unroll_succ, plain_append, run_eq (along_append h).1, ih (along_append h).2]

/-- What is not written does not change. -/
theorem frame (θ : Q → K) (is : List (Instr D Q R P K)) (s : St D R P K) (p : P) (h : .write p ∉ accesses θ is s) :
    (plain θ is s).b p = s.b p := by
  induction is generalizing s with
  | nil => rfl
  | cons i is ih =>
    rw [accesses, List.mem_append, not_or] at h
    rw [plain, ih _ h.2]
    have h1 := h.1
    cases i with
    | write x i pred bt m =>
      simp only [plainI]
      split
      · rename_i hp
        rw [Function.update_of_ne]
        rintro rfl
        simp [accessI, hp] at h1
      · rfl
    | _ => rfl

section vjp
variable [CommRing K] [Fintype Q] [Fintype R]

omit [Fintype Q] in
theorem pullI_buf (θ : Q → K) (i : Instr D Q R P K) (s : St D R P K) (F : P → K) (c : Tan R P K) :
    pullI θ i { s with b := F } c = pullI θ i s c := by
  cases i <;> rfl

omit [Fintype Q] in
/-- Recomputing with the buffers filled in. -/
theorem filled {θ : Q → K} (mid post : List (Instr D Q R P K)) (s : St D R P K) (F : P → K)
    (hF : F = (plain θ (mid ++ post) s).b) (hl : Along Live θ mid s) (hd : Disciplined (accesses θ (mid ++ post) s)) :
    run θ mid { s with b := F } = { plain θ mid s with b := F } ∧
    vjp θ mid { s with b := F } = vjp θ mid s := by
  induction mid generalizing s with
  | nil => exact ⟨rfl, rfl⟩
  | cons i mid ih =>
    obtain ⟨hl1, hl2⟩ := hl
    rw [List.cons_append, accesses, Disciplined, List.pairwise_append] at hd
    obtain ⟨-, hd2, hd3⟩ := hd
    obtain ⟨ih1, ih2⟩ := ih (plainI θ i s) hF hl2 hd2
    have hfr : ∀ p, (∃ a ∈ accessI i s, a = .read p ∨ a = .write p) → F p = (plainI θ i s).b p := by
      rintro p ⟨a, ha, hap⟩
      rw [hF, List.cons_append, plain, frame]
      intro hw
      have := hd3 a ha _ hw p rfl
      rcases hap with rfl | rfl
      · exact this.2 rfl
      · exact this.1 rfl
    have key : runI θ i { s with b := F } = { plainI θ i s with b := F } := by
      cases i with
      | op f jacQ jac => rfl
      | read r i =>
        simp only [runI, plainI]
        rw [hfr (i s.d) ⟨_, by simp [accessI], Or.inl rfl⟩]
        rfl
      | write x i pred bt m =>
        simp only [runI, plainI, maybeSet_single]
        rw [select_live hl1, update_ite]
        cases hp : pred s.d with
        | false => simp
        | true =>
          have := hfr (i s.d) ⟨.write (i s.d), by simp [accessI, hp], Or.inr rfl⟩
          simp only [plainI, hp, if_true, Function.update_self] at this
          simp only [if_true]
          rw [← this, Function.update_eq_self]
      | select out x y pred bt m =>
        simp only [runI, plainI, select_live hl1]
    refine ⟨?_, ?_⟩
    · rw [run, key, ih1]
      rfl
    · funext c
      simp only [vjp, key, ih2, pullI_buf, runI_eq hl1]

omit [CommRing K] [Fintype Q] [Fintype R] in
theorem iter_run_le {θ : Q → K} {body : List (Instr D Q R P K)} {n k : Nat} {s : St D R P K} (hk : k ≤ n)
    (h : Along Live θ (unroll body n) s) : iter (run θ body) k s = plain θ (unroll body k) s := by
  obtain ⟨m, rfl⟩ := Nat.exists_eq_add_of_le hk
  rw [unroll_add] at h
  exact iter_run (along_append h).1

omit [Fintype Q] in
/-- The restrictions imply the contract on buffers which `Verif.Checkpoint` assumes. -/
theorem contract {θ : Q → K} {body : List (Instr D Q R P K)} {n : Nat} {init : St D R P K}
    (hl : Along Live θ (unroll body n) init) (hd : Disciplined (accesses θ (unroll body n) init)) :
    Checkpoint.BufferContract (run θ body) (vjp θ body) strip (refill (plain θ (unroll body n) init).b) init n := by
  have key : ∀ k, k < n →
      run θ body (refill (plain θ (unroll body n) init).b (strip (iter (run θ body) k init))) =
        { plain θ body (iter (run θ body) k init) with b := (plain θ (unroll body n) init).b } ∧
      vjp θ body (refill (plain θ (unroll body n) init).b (strip (iter (run θ body) k init))) =
        vjp θ body (iter (run θ body) k init) := by
    intro k hk
    rw [iter_run_le (by omega) hl]
    obtain ⟨m, rfl⟩ := Nat.exists_eq_add_of_le hk
    have e : unroll body (k.succ + m) = unroll body k ++ (body ++ unroll body m) := by
      rw [show k.succ + m = k + (m + 1) by omega, unroll_add, unroll_succ]
    rw [e] at hl hd ⊢
    rw [accesses_append, Disciplined, List.pairwise_append] at hd
    rw [plain_append θ (unroll body k)]
    exact filled body (unroll body m) (plain θ (unroll body k) init) _ rfl (along_append (along_append hl).2).1 hd.2.1
  refine ⟨fun k hk => ?_, fun k hk => (key k hk).2⟩
  rw [(key k hk).1, iter_run_le (by omega) hl, iter_run_le (by omega) hl, unroll_add, plain_append]
  simp [unroll, strip]

omit [CommRing K] [Fintype Q] [Fintype R] in
theorem run_append (θ : Q → K) (a b : List (Instr D Q R P K)) (s : St D R P K) :
    run θ (a ++ b) s = run θ b (run θ a s) := by
  induction a generalizing s with
  | nil => rfl
  | cons i a ih => exact ih _

omit [Fintype Q] in
theorem vjp_append (θ : Q → K) (a b : List (Instr D Q R P K)) (s : St D R P K) (c : Tan R P K) :
    vjp θ (a ++ b) s c = ((vjp θ b (run θ a s) c).1 + (vjp θ a s (vjp θ b (run θ a s) c).2).1,
      (vjp θ a s (vjp θ b (run θ a s) c).2).2) := by
  induction a generalizing s with
  | nil => simp [vjp, run]
  | cons i a ih => simp only [List.cons_append, vjp, ih, run, add_assoc]

omit [Fintype Q] in
theorem backprop_eq (θ : Q → K) (body : List (Instr D Q R P K)) (n : Nat) (s : St D R P K) (g : Tan R P K) :
    Checkpoint.backprop (run θ body) (vjp θ body) (· + ·) n s g 0 =
      ((vjp θ (unroll body n) s g).2, (vjp θ (unroll body n) s g).1) := by
  induction n generalizing s with
  | zero => rfl
  | succ n ih => rw [unroll_succ, vjp_append, Checkpoint.backprop]; simp only [ih]

/-! ## The transposed rules are adjoint to the tangent rules -/

variable [Fintype P]

/-- The pairing of cotangents with tangents. -/
def dot (c t : Tan R P K) : K := ∑ r, c.1 r * t.1 r + ∑ p, c.2 p * t.2 p

theorem sum_update {I : Type} [Fintype I] [DecidableEq I] (c t : I → K) (i : I) (x : K) :
    ∑ j, c j * Function.update t i x j = ∑ j, Function.update c i 0 j * t j + c i * x := by
  have : ∀ j, c j * Function.update t i x j = Function.update c i 0 j * t j + if j = i then c i * x else 0 := by
    intro j
    by_cases h : j = i
    · subst h; simp
    · simp [h]
  simp only [this, Finset.sum_add_distrib, Finset.sum_ite_eq', Finset.mem_univ, if_true]

theorem sum_addTo {I : Type} [Fintype I] [DecidableEq I] (c t : I → K) (i : I) (x : K) :
    ∑ j, addTo c i x j * t j = ∑ j, c j * t j + x * t i := by
  simp only [addTo, add_mul, Finset.sum_add_distrib, ite_mul, zero_mul, Finset.sum_ite_eq', Finset.mem_univ, if_true]

theorem sum_update_zero {I : Type} [Fintype I] [DecidableEq I] (c t : I → K) (i : I) (h : t i = 0) :
    ∑ j, Function.update c i 0 j * t j = ∑ j, c j * t j := by
  refine Finset.sum_congr rfl fun j _ => ?_
  by_cases hj : j = i
  · subst hj; simp [h]
  · simp [hj]

theorem adjointI {θ tθ : Q → K} {i : Instr D Q R P K} {s : St D R P K} (hl : Live i s) (c t : Tan R P K)
    (ht : ∀ p, .write p ∈ accessI i s → t.2 p = 0) :
    dot c (jvpI θ tθ i s t) = ∑ q, (pullI θ i s c).1 q * tθ q + dot (pullI θ i s c).2 t := by
  cases i with
  | op f jacQ jac =>
    simp only [dot, jvpI, pullI, mul_add, Finset.sum_add_distrib, Finset.mul_sum, Finset.sum_mul]
    rw [Finset.sum_comm, Finset.sum_comm (s := Finset.univ (α := R)) (t := Finset.univ (α := R))]
    simp only [mul_assoc]
    ring
  | read r i =>
    simp only [dot, jvpI, pullI, sum_update, sum_addTo, Pi.zero_apply, zero_mul, Finset.sum_const_zero]
    ring
  | write x i pred bt m =>
    simp only [dot, jvpI, pullI, maybeSetTranspose, maybeSet_single, select_live hl, sum_addTo, Pi.zero_apply, zero_mul,
      Finset.sum_const_zero, zero_add]
    cases hp : pred s.d with
    | false => simp
    | true =>
      have := ht (i s.d) (by simp [accessI, hp])
      simp only [if_true, sum_update]
      rw [sum_update_zero _ _ _ this]
      ring
  | select out x y pred bt m =>
    simp only [dot, jvpI, pullI, selectTranspose, select_live hl, sum_update, sum_addTo, Pi.zero_apply, zero_mul,
      Finset.sum_const_zero, zero_add]
    cases hp : pred s.d <;> simp

omit [Fintype P] in
theorem jvpI_zero {θ tθ : Q → K} {i : Instr D Q R P K} {s : St D R P K} (hl : Live i s) (t : Tan R P K) (p : P)
    (h : t.2 p = 0) (hp : .write p ∉ accessI i s) : (jvpI θ tθ i s t).2 p = 0 := by
  cases i with
  | write x i pred bt m =>
    simp only [jvpI, maybeSet_single, select_live hl, update_ite]
    cases hq : pred s.d with
    | false => simpa using h
    | true =>
      simp only [if_true]
      rw [Function.update_of_ne, h]
      rintro rfl
      simp [accessI, hq] at hp
  | _ => exact h

/-- Reverse mode is the adjoint of forward mode, on tangents that vanish where the buffers are going to be written. -/
theorem adjoint {θ tθ : Q → K} {is : List (Instr D Q R P K)} {s : St D R P K} (hl : Along Live θ is s)
    (hd : Disciplined (accesses θ is s)) (c t : Tan R P K) (ht : ∀ p, .write p ∈ accesses θ is s → t.2 p = 0) :
    dot c (jvp θ tθ is s t) = ∑ q, (vjp θ is s c).1 q * tθ q + dot (vjp θ is s c).2 t := by
  induction is generalizing s t with
  | nil => simp [vjp, jvp]
  | cons i is ih =>
    rw [accesses, Disciplined, List.pairwise_append] at hd
    obtain ⟨-, hd2, hd3⟩ := hd
    rw [← runI_eq hl.1] at hd2
    have hl2 := hl.2
    rw [← runI_eq hl.1] at hl2
    rw [jvp, ih hl2 hd2]
    · rw [adjointI hl.1 _ t (fun p hp => ht p (by rw [accesses]; exact List.mem_append_left _ hp))]
      simp only [vjp, Pi.add_apply, add_mul, Finset.sum_add_distrib]
      ring
    · intro p hp
      rw [runI_eq hl.1] at hp
      refine jvpI_zero hl.1 t p (ht p (by rw [accesses]; exact List.mem_append_right _ hp)) ?_
      intro hw
      exact (hd3 _ hw _ hp p rfl).1 rfl

end vjp

/-! ## The tangent rules are the derivative -/

section deriv
variable [Fintype Q] [Fintype R] [Fintype P]

/-- The final values of registers and buffers as a function of `Pt`. -/
def out (d : D) (is : List (Instr D Q R P ℝ)) (x : Pt Q R P) : Tan R P ℝ :=
  ((plain x.1 is (x.st d)).v, (plain x.1 is (x.st d)).b)

def outI (d : D) (i : Instr D Q R P ℝ) (x : Pt Q R P) : Pt Q R P :=
  (x.1, (plainI x.1 i (x.st d)).v, (plainI x.1 i (x.st d)).b)

theorem hasFDerivAt_linear {E F : Type} [NormedAddCommGroup E] [NormedSpace ℝ E] [FiniteDimensional ℝ E]
    [NormedAddCommGroup F] [NormedSpace ℝ F] (f : E → F) (hf : IsLinearMap ℝ f) (x : E) :
    ∃ L : E →L[ℝ] F, HasFDerivAt f L x ∧ ∀ t, L t = f t :=
  ⟨LinearMap.toContinuousLinearMap (hf.mk' f), (LinearMap.toContinuousLinearMap (hf.mk' f)).hasFDerivAt, fun _ => rfl⟩

theorem derivI (d : D) (i : Instr D Q R P ℝ) (x : Pt Q R P) (hl : Live i (x.st d)) (hs : Smooth x.1 i (x.st d)) :
    (∃ L : Pt Q R P →L[ℝ] Pt Q R P, HasFDerivAt (outI d i) L x ∧
      ∀ t, L t = (t.1, jvpI x.1 t.1 i (x.st d) t.2)) ∧
    ∀ᶠ y in 𝓝 x, (plainI y.1 i (y.st d)).d = (plainI x.1 i (x.st d)).d := by
  cases i with
  | op f jacQ jac =>
    obtain ⟨h1, L, h2, h3⟩ := hs
    let π : Pt Q R P →L[ℝ] (Q → ℝ) × (R → ℝ) :=
      (ContinuousLinearMap.fst ℝ _ _).prod ((ContinuousLinearMap.fst ℝ _ _).comp (ContinuousLinearMap.snd ℝ _ _))
    refine ⟨⟨(ContinuousLinearMap.fst ℝ _ _).prod ((L.comp π).prod
      ((ContinuousLinearMap.snd ℝ _ _).comp (ContinuousLinearMap.snd ℝ _ _))), ?_, ?_⟩, ?_⟩
    · refine HasFDerivAt.prodMk hasFDerivAt_fst (HasFDerivAt.prodMk ?_ ?_)
      · exact HasFDerivAt.comp x (g := fun y => (f d y.1 y.2).2) (f := π) h2 π.hasFDerivAt
      · exact (ContinuousLinearMap.hasFDerivAt (𝕜 := ℝ) (E := Pt Q R P) (F := P → ℝ)
          ((ContinuousLinearMap.snd ℝ (R → ℝ) (P → ℝ)).comp (ContinuousLinearMap.snd ℝ (Q → ℝ) ((R → ℝ) × (P → ℝ)))))
    · intro t
      refine Prod.ext rfl (Prod.ext ?_ rfl)
      funext r
      exact h3 (t.1, t.2.1) r
    · exact π.continuous.continuousAt.eventually h1
  | read r i =>
    refine ⟨?_, Filter.Eventually.of_forall fun _ => rfl⟩
    refine hasFDerivAt_linear _ ⟨fun y z => ?_, fun a y => ?_⟩ x
    · refine Prod.ext rfl (Prod.ext ?_ rfl)
      funext q
      by_cases h : q = r
      · subst h; simp [outI, plainI, Pt.st]
      · simp [outI, plainI, Pt.st, h]
    · refine Prod.ext rfl (Prod.ext ?_ rfl)
      funext q
      by_cases h : q = r
      · subst h; simp [outI, plainI, Pt.st]
      · simp [outI, plainI, Pt.st, h]
  | write z i pred bt m =>
    refine ⟨?_, Filter.Eventually.of_forall fun _ => rfl⟩
    have : ∀ t : Pt Q R P, (t.1, jvpI x.1 t.1 (.write z i pred bt m : Instr D Q R P ℝ) (x.st d) t.2) =
        outI d (.write z i pred bt m) t := by
      intro t
      have hl' : bt = false → m = false → pred d = true := hl
      simp only [jvpI, maybeSet_single, outI, plainI, Pt.st, select_live hl', update_ite]
      rfl
    simp only [this]
    refine hasFDerivAt_linear _ ⟨fun y z => ?_, fun a y => ?_⟩ x
    · refine Prod.ext rfl (Prod.ext rfl ?_)
      funext q
      cases hp : pred d with
      | false => simp [outI, plainI, Pt.st, hp]
      | true =>
        by_cases h : q = i d
        · subst h; simp [outI, plainI, Pt.st, hp]
        · simp [outI, plainI, Pt.st, hp, h]
    · refine Prod.ext rfl (Prod.ext rfl ?_)
      funext q
      cases hp : pred d with
      | false => simp [outI, plainI, Pt.st, hp]
      | true =>
        by_cases h : q = i d
        · subst h; simp [outI, plainI, Pt.st, hp]
        · simp [outI, plainI, Pt.st, hp, h]
  | select o u w pred bt m =>
    refine ⟨?_, Filter.Eventually.of_forall fun _ => rfl⟩
    have : ∀ t : Pt Q R P, (t.1, jvpI x.1 t.1 (.select o u w pred bt m : Instr D Q R P ℝ) (x.st d) t.2) =
        outI d (.select o u w pred bt m) t := by
      intro t
      have hl' : bt = false → m = false → pred d = true := hl
      simp only [jvpI, outI, plainI, Pt.st, select_live hl']
      rfl
    simp only [this]
    refine hasFDerivAt_linear _ ⟨fun y z => ?_, fun a y => ?_⟩ x
    · refine Prod.ext rfl (Prod.ext ?_ rfl)
      funext q
      by_cases h : q = o
      · subst h; cases hp : pred d <;> simp [outI, plainI, Pt.st, hp]
      · simp [outI, plainI, Pt.st, h]
    · refine Prod.ext rfl (Prod.ext ?_ rfl)
      funext q
      by_cases h : q = o
      · subst h; cases hp : pred d <;> simp [outI, plainI, Pt.st, hp]
      · simp [outI, plainI, Pt.st, h]

theorem deriv (d : D) (is : List (Instr D Q R P ℝ)) (x : Pt Q R P) (hl : Along Live x.1 is (x.st d))
    (hs : Along (Smooth x.1) x.1 is (x.st d)) :
    (∃ L : Pt Q R P →L[ℝ] Tan R P ℝ, HasFDerivAt (out d is) L x ∧ ∀ t, L t = jvp x.1 t.1 is (x.st d) t.2) ∧
    ∀ᶠ y in 𝓝 x, (plain y.1 is (y.st d)).d = (plain x.1 is (x.st d)).d := by
  induction is generalizing d x with
  | nil => exact ⟨⟨ContinuousLinearMap.snd ℝ _ _, hasFDerivAt_snd, fun t => rfl⟩,
      Filter.Eventually.of_forall fun _ => rfl⟩
  | cons i is ih =>
    obtain ⟨⟨L1, a1, a2⟩, a3⟩ := derivI d i x hl.1 hs.1
    let d' := (plainI x.1 i (x.st d)).d
    have e0 : plainI x.1 i (x.st d) = (outI d i x).st d' := rfl
    obtain ⟨⟨L2, b1, b2⟩, b3⟩ := ih d' (outI d i x) (by rw [← e0]; exact hl.2) (by rw [← e0]; exact hs.2)
    have e : ∀ᶠ y in 𝓝 x, plainI y.1 i (y.st d) = (outI d i y).st d' := by
      filter_upwards [a3] with y hy
      simp only [outI, Pt.st, d', ← hy]
    refine ⟨⟨L2.comp L1, ?_, ?_⟩, ?_⟩
    · refine (b1.comp x a1).congr_of_eventuallyEq ?_
      filter_upwards [e] with y hy
      simp only [out, plain, hy, Function.comp]
      rfl
    · intro t
      rw [ContinuousLinearMap.comp_apply, b2, a2, jvp, runI_eq hl.1, e0]
      rfl
    · filter_upwards [e, a1.continuousAt.eventually b3] with y hy h
      rw [plain, plain, hy, e0]
      exact h

end deriv

end BufferGrad
end Verif
