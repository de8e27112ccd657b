import Verif.Loop.BufferGrad.Lemmas
import Verif.Loop.Checkpoint.Props
import Mathlib.Analysis.Calculus.FDeriv.Mul
import Mathlib.Tactic.FinCases
import Mathlib.LinearAlgebra.Matrix.Notation

/-!
# C75: differentiating through loop buffers

`gradient_exact` is the property for the checkpointed loop; `jvp_exact` is forward mode (for any loop), and `reverse_exact`
reverse mode through an unrolled loop (as for `kind="bounded"`).
-/

namespace Verif
namespace BufferGrad

open Topology

variable {D Q R P : Type} [DecidableEq R] [DecidableEq P] [Fintype Q] [Fintype R] [Fintype P]

omit [DecidableEq P] [Fintype P] in
/-- What the documentation asks for suffices. -/
theorem documented_disciplined {as : List (Access P)} (h : Documented as) : Disciplined as := by
  have key : ∀ pre as : List (Access P), Documented (pre ++ as) → Disciplined as := by
    intro pre as
    induction as generalizing pre with
    | nil => intro _; exact List.Pairwise.nil
    | cons a as ih =>
      intro h
      refine List.Pairwise.cons ?_ (ih (pre ++ [a]) (by simpa using h))
      rintro b hb p rfl
      obtain ⟨m, r, rfl⟩ := List.append_of_mem hb
      constructor
      · rintro rfl
        exact h.once pre p m r (by simp)
      · rintro rfl
        obtain ⟨u, w, rfl⟩ := List.append_of_mem (h.readWritten pre p (m ++ .write p :: r) (by simp))
        exact h.once u p (w ++ .read p :: m) r (by simp)
  exact key [] as (by simpa using h)

/-- **C75 (forward mode).** The tangents are the derivative of the loop on plain arrays. No restriction on the use of buffers is
needed. -/
theorem jvp_exact (d : D) (is : List (Instr D Q R P ℝ)) (x : Pt Q R P) (hl : Along Live x.1 is (x.st d))
    (hs : Along (Smooth x.1) x.1 is (x.st d)) :
    ∃ L : Pt Q R P →L[ℝ] (R → ℝ) × (P → ℝ),
      HasFDerivAt (fun y : Pt Q R P => ((plain y.1 is (y.st d)).v, (plain y.1 is (y.st d)).b)) L x ∧
      ∀ t : Pt Q R P, L t = jvp x.1 t.1 is (x.st d) t.2 :=
  (deriv d is x hl hs).1

/-- **C75 (reverse mode).** If the buffers are used as they should be, then the cotangents are the gradient: pairing them with any
direction gives the pairing of the cotangent of the result with the derivative in that direction. Excluded are the initial
contents of the locations which get overwritten. -/
theorem reverse_exact (d : D) (is : List (Instr D Q R P ℝ)) (x : Pt Q R P) (hl : Along Live x.1 is (x.st d))
    (hs : Along (Smooth x.1) x.1 is (x.st d)) (hd : Disciplined (accesses x.1 is (x.st d))) (g : Tan R P ℝ) :
    ∃ L : Pt Q R P →L[ℝ] (R → ℝ) × (P → ℝ),
      HasFDerivAt (fun y : Pt Q R P => ((plain y.1 is (y.st d)).v, (plain y.1 is (y.st d)).b)) L x ∧
      ∀ t : Pt Q R P, (∀ p, .write p ∈ accesses x.1 is (x.st d) → t.2.2 p = 0) →
        ∑ r, g.1 r * (L t).1 r + ∑ p, g.2 p * (L t).2 p =
          ∑ q, (vjp x.1 is (x.st d) g).1 q * t.1 q +
            (∑ r, (vjp x.1 is (x.st d) g).2.1 r * t.2.1 r + ∑ p, (vjp x.1 is (x.st d) g).2.2 p * t.2.2 p) := by
  obtain ⟨⟨L, h1, h2⟩, -⟩ := deriv d is x hl hs
  refine ⟨L, h1, fun t ht => ?_⟩
  rw [h2]
  exact adjoint hl hd g t.2 ht

/-- Near the point, the loop makes the same number of steps. -/
theorem runs_near (d : D) (body : List (Instr D Q R P ℝ)) (x : Pt Q R P) (n : Nat)
    (hl : Along Live x.1 (unroll body n) (x.st d)) (hs : Along (Smooth x.1) x.1 (unroll body n) (x.st d))
    (cond : (Q → ℝ) → St D R P ℝ → Bool)
    (hcond : ∀ k, k ≤ n → let s := iter (plain x.1 body) k (x.st d)
      ∀ᶠ y in 𝓝 (x.1, s.v, s.b), cond y.1 (Pt.st s.d y) = cond x.1 s)
    (final : St D R P ℝ) (hrun : WhileRuns (cond x.1) (plain x.1 body) n (x.st d) final) :
    ∀ᶠ y in 𝓝 x, WhileRuns (cond y.1) (plain y.1 body) n (y.st d) (plain y.1 (unroll body n) (y.st d)) := by
  have key : ∀ k, k ≤ n → ∀ᶠ y in 𝓝 x, cond y.1 (iter (plain y.1 body) k (y.st d)) = cond x.1 (iter (plain x.1 body) k (x.st d)) := by
    intro k hk
    have hk' := hk
    obtain ⟨m, rfl⟩ := Nat.exists_eq_add_of_le hk
    rw [unroll_add] at hl hs
    obtain ⟨⟨L, h1, -⟩, h2⟩ := deriv d (unroll body k) x (along_append hl).1 (along_append hs).1
    have hc : ContinuousAt (fun y : Pt Q R P => (y.1, out d (unroll body k) y)) x :=
      continuousAt_fst.prodMk h1.continuousAt
    have h3 := hcond k hk'
    simp only [iter_plain] at h3 ⊢
    filter_upwards [h2, hc.eventually h3] with y hy hz
    rw [← hz, ← hy]
    rfl
  obtain ⟨-, h2, h3⟩ := whileRuns_iff.1 hrun
  have hall : ∀ᶠ y in 𝓝 x, ∀ k ∈ Finset.range (n + 1),
      cond y.1 (iter (plain y.1 body) k (y.st d)) = cond x.1 (iter (plain x.1 body) k (x.st d)) := by
    rw [Filter.eventually_all_finset]
    intro k hk
    exact key k (by simpa [Nat.lt_succ_iff] using hk)
  filter_upwards [hall] with y hy
  rw [whileRuns_iff]
  refine ⟨(iter_plain _ _ _ _).symm, ?_, fun k hk => ?_⟩
  · rw [hy n (by simp), h2]
  · rw [hy k (by simp; omega), h3 k hk]

/-- **C75.** If the buffers are used as they should be, then the checkpointed loop, which recomputes its values with the buffers
as they are at the end, and which never clears the cotangent of a location, returns the gradient of the loop on plain arrays:
with respect to what the body closes over, to the initial values, and to the initial contents of the buffers where the loop
does not overwrite them. -/
theorem gradient_exact (d : D) (body : List (Instr D Q R P ℝ)) (x : Pt Q R P) (n : Nat)
    (hl : Along Live x.1 (unroll body n) (x.st d)) (hs : Along (Smooth x.1) x.1 (unroll body n) (x.st d))
    (hd : Disciplined (accesses x.1 (unroll body n) (x.st d)))
    (cond : (Q → ℝ) → St D R P ℝ → Bool)
    (hcond : ∀ k, k ≤ n → let s := iter (plain x.1 body) k (x.st d)
      ∀ᶠ y in 𝓝 (x.1, s.v, s.b), cond y.1 (Pt.st s.d y) = cond x.1 s)
    (final : St D R P ℝ) (hrun : WhileRuns (cond x.1) (plain x.1 body) n (x.st d) final)
    (g : Tan R P ℝ) (M : Int) (c : Nat) (maxSteps : Option Nat) (fill : D × (R → ℝ))
    (hc : 1 ≤ c) (hM : (n : Int) < M) (hmax : ∀ m, maxSteps = some m → n ≤ m) :
    ∃ (fwd : Checkpoint.Fwd (St D R P ℝ) (D × (R → ℝ))) (N : Nat) (bwd : Checkpoint.Bwd (D × (R → ℝ)) (Tan R P ℝ) (Q → ℝ))
      (loop : Pt Q R P → St D R P ℝ) (L : Pt Q R P →L[ℝ] (R → ℝ) × (P → ℝ)),
      -- the forward pass
      WhileRuns (Checkpoint.fwdCond (cond x.1)) (Checkpoint.fwdBody (run x.1 body) strip c maxSteps) n
        (Checkpoint.fwdInit M c fill (x.st d)) fwd ∧
      fwd.val = final ∧
      -- the backward pass
      WhileRuns Checkpoint.bwdCond
        (Checkpoint.bwdBody (run x.1 body) (vjp x.1 body) strip (refill fwd.val.b) (· + ·) M c maxSteps) N
        (Checkpoint.bwdInit M c maxSteps (Checkpoint.fwdFinish c maxSteps fwd) g 0) bwd ∧
      -- the loop on plain arrays, and its derivative
      (∀ᶠ y in 𝓝 x, WhileRuns (cond y.1) (plain y.1 body) n (y.st d) (loop y)) ∧
      HasFDerivAt (fun y : Pt Q R P => ((loop y).v, (loop y).b)) L x ∧
      ∀ t : Pt Q R P, (∀ p, .write p ∈ accesses x.1 (unroll body n) (x.st d) → t.2.2 p = 0) →
        ∑ r, g.1 r * (L t).1 r + ∑ p, g.2 p * (L t).2 p =
          ∑ q, bwd.gradBody q * t.1 q + (∑ r, bwd.gradVal.1 r * t.2.1 r + ∑ p, bwd.gradVal.2 p * t.2.2 p) := by
  obtain ⟨L, h1, h2⟩ := reverse_exact d (unroll body n) x hl hs hd g
  have hiter : ∀ k, k ≤ n → iter (run x.1 body) k (x.st d) = iter (plain x.1 body) k (x.st d) := by
    intro k hk
    rw [iter_run_le hk hl, iter_plain]
  have hrun' : WhileRuns (cond x.1) (run x.1 body) n (x.st d) final := by
    rw [whileRuns_iff] at hrun ⊢
    refine ⟨?_, ?_, fun k hk => ?_⟩
    · rw [hiter n (le_refl _)]; exact hrun.1
    · rw [hiter n (le_refl _)]; exact hrun.2.1
    · rw [hiter k (by omega)]; exact hrun.2.2 k hk
  obtain ⟨fwd, f1, f2⟩ := Checkpoint.forward_value (cond x.1) (run x.1 body) strip M c maxSteps fill (x.st d) final n hrun'
  have hfin : fwd.val.b = (plain x.1 (unroll body n) (x.st d)).b := by
    rw [f2, (whileRuns_iff.1 hrun).1, iter_plain]
  obtain ⟨N, bwd, b1, b2⟩ := Checkpoint.checkpointed_grad_exact (cond x.1) (run x.1 body) (vjp x.1 body) (· + ·) strip
    (refill fwd.val.b) M c maxSteps fill (x.st d) n g 0 hc hM hmax (by rw [hfin]; exact contract hl hd) fwd f1
  rw [backprop_eq, Prod.mk.injEq] at b2
  refine ⟨fwd, N, bwd, fun y => plain y.1 (unroll body n) (y.st d), L, f1, f2, b1, runs_near d body x n hl hs cond hcond final hrun,
    h1, fun t ht => ?_⟩
  rw [h2 t ht, b2.1, b2.2]

/-! ## A case which meets the hypotheses -/

section example_
open ContinuousLinearMap

/-- In step `d`: multiply the first register by the parameter, write it to location `d`, read it back into the second register,
and add this to the first. -/
noncomputable def demo : List (Instr Nat (Fin 1) (Fin 2) (Fin 2) ℝ) :=
  [.op (fun d θ v => (d, ![θ 0 * v 0, v 1])) (fun _ _ v r _ => ![v 0, 0] r) (fun _ θ _ r j => !![θ 0, 0; 0, 1] r j),
   .write 0 (fun d => Fin.ofNat 2 d) (fun _ => true) false false,
   .read 1 (fun d => Fin.ofNat 2 d),
   .op (fun d _ v => (d + 1, ![v 0 + v 1, v 1])) (fun _ _ _ _ _ => 0) (fun _ _ _ r j => !![1, 1; 0, 1] r j)]

theorem demo_smooth (θ : Fin 1 → ℝ) (s : St Nat (Fin 2) (Fin 2) ℝ) : ∀ i ∈ demo, Smooth θ i s := by
  intro i hi
  simp only [demo, List.mem_cons, List.not_mem_nil, or_false] at hi
  rcases hi with rfl | rfl | rfl | rfl
  · refine ⟨Filter.Eventually.of_forall fun _ => rfl, pi fun r => ![θ 0 • (proj (R := ℝ) (φ := fun _ : Fin 2 => ℝ) 0).comp (snd ℝ (Fin 1 → ℝ) _) +
        s.v 0 • (proj (R := ℝ) (φ := fun _ : Fin 1 => ℝ) 0).comp (fst ℝ _ _), (proj (R := ℝ) (φ := fun _ : Fin 2 => ℝ) 1).comp (snd ℝ (Fin 1 → ℝ) _)] r, ?_, ?_⟩
    · rw [hasFDerivAt_pi]
      intro r
      fin_cases r
      · have h1 : HasFDerivAt (fun y : (Fin 1 → ℝ) × (Fin 2 → ℝ) => y.1 0)
            ((proj (R := ℝ) (φ := fun _ : Fin 1 => ℝ) 0).comp (fst ℝ (Fin 1 → ℝ) (Fin 2 → ℝ))) (θ, s.v) :=
          ContinuousLinearMap.hasFDerivAt ((proj (R := ℝ) (φ := fun _ : Fin 1 => ℝ) 0).comp (fst ℝ (Fin 1 → ℝ) (Fin 2 → ℝ)))
        have h2 : HasFDerivAt (fun y : (Fin 1 → ℝ) × (Fin 2 → ℝ) => y.2 0)
            ((proj (R := ℝ) (φ := fun _ : Fin 2 => ℝ) 0).comp (snd ℝ (Fin 1 → ℝ) (Fin 2 → ℝ))) (θ, s.v) :=
          ContinuousLinearMap.hasFDerivAt ((proj (R := ℝ) (φ := fun _ : Fin 2 => ℝ) 0).comp (snd ℝ (Fin 1 → ℝ) (Fin 2 → ℝ)))
        exact h1.mul h2
      · exact ContinuousLinearMap.hasFDerivAt
          ((proj (R := ℝ) (φ := fun _ : Fin 2 => ℝ) 1).comp (snd ℝ (Fin 1 → ℝ) (Fin 2 → ℝ)))
    · intro t r
      fin_cases r <;> simp [Fin.sum_univ_two] <;> ring
  · trivial
  · trivial
  · refine ⟨Filter.Eventually.of_forall fun _ => rfl, pi fun r =>
      ![(proj (R := ℝ) (φ := fun _ : Fin 2 => ℝ) 0).comp (snd ℝ (Fin 1 → ℝ) _) +
        (proj (R := ℝ) (φ := fun _ : Fin 2 => ℝ) 1).comp (snd ℝ (Fin 1 → ℝ) _),
        (proj (R := ℝ) (φ := fun _ : Fin 2 => ℝ) 1).comp (snd ℝ (Fin 1 → ℝ) _)] r, ?_, ?_⟩
    · rw [hasFDerivAt_pi]
      intro r
      fin_cases r
      · exact ContinuousLinearMap.hasFDerivAt
          ((proj (R := ℝ) (φ := fun _ : Fin 2 => ℝ) 0).comp (snd ℝ (Fin 1 → ℝ) (Fin 2 → ℝ)) +
            (proj (R := ℝ) (φ := fun _ : Fin 2 => ℝ) 1).comp (snd ℝ (Fin 1 → ℝ) (Fin 2 → ℝ)))
      · exact ContinuousLinearMap.hasFDerivAt
          ((proj (R := ℝ) (φ := fun _ : Fin 2 => ℝ) 1).comp (snd ℝ (Fin 1 → ℝ) (Fin 2 → ℝ)))
    · intro t r
      fin_cases r <;> simp [Fin.sum_univ_two]

omit [Fintype Q] [Fintype R] [Fintype P] in
theorem along_of_forall {K : Type} {good : Instr D Q R P K → St D R P K → Prop} {θ : Q → K} {is : List (Instr D Q R P K)}
    (h : ∀ i ∈ is, ∀ s, good i s) (s : St D R P K) : Along good θ is s := by
  induction is generalizing s with
  | nil => trivial
  | cons i is ih =>
    exact ⟨h i (by simp) s, ih (fun j hj => h j (by simp [hj])) _⟩

theorem demo_mem {n : Nat} {i : Instr Nat (Fin 1) (Fin 2) (Fin 2) ℝ} (h : i ∈ unroll demo n) : i ∈ demo := by
  simp only [unroll, List.mem_flatten, List.mem_replicate] at h
  obtain ⟨l, ⟨-, rfl⟩, h⟩ := h
  exact h

example (x : Pt (Fin 1) (Fin 2) (Fin 2)) :
    Along Live x.1 (unroll demo 2) (x.st 0) ∧ Along (Smooth x.1) x.1 (unroll demo 2) (x.st 0) ∧
    accesses x.1 (unroll demo 2) (x.st 0) = [.write 0, .read 0, .write 1, .read 1] ∧
    Documented (accesses x.1 (unroll demo 2) (x.st 0)) ∧
    ∃ final, WhileRuns (fun s => decide (s.d < 2)) (plain x.1 demo) 2 (x.st 0) final := by
  have e : accesses x.1 (unroll demo 2) (x.st 0) = [.write 0, .read 0, .write 1, .read 1] := rfl
  refine ⟨along_of_forall (fun i hi s => ?_) _, along_of_forall (fun i hi s => demo_smooth _ _ _ (demo_mem hi)) _, e, ?_,
    _, whileRuns_iff.2 ⟨rfl, rfl, fun k hk => ?_⟩⟩
  · have := demo_mem hi
    simp only [demo, List.mem_cons, List.not_mem_nil, or_false] at this
    rcases this with rfl | rfl | rfl | rfl <;> simp [Live]
  · rw [e]
    constructor
    · intro l p m r h
      rcases l with _ | ⟨a, _ | ⟨b, _ | ⟨c, _ | ⟨d, l⟩⟩⟩⟩ <;> simp at h
      · obtain ⟨rfl, h⟩ := h
        rcases m with _ | ⟨a', _ | ⟨b', _ | ⟨c', m⟩⟩⟩ <;> simp at h
      · obtain ⟨-, -, rfl, h⟩ := h
        rcases m with _ | ⟨a', m⟩ <;> simp at h
    · intro l p r h
      rcases l with _ | ⟨a, _ | ⟨b, _ | ⟨c, _ | ⟨d, l⟩⟩⟩⟩ <;> simp at h
      · obtain ⟨rfl, rfl, -⟩ := h; simp
      · obtain ⟨rfl, rfl, rfl, rfl, -⟩ := h; simp
  · have : k = 0 ∨ k = 1 := by omega
    rcases this with rfl | rfl <;> rfl

end example_

/-! ## The restrictions are needed -/

/-- **C75 (finding).** Writing twice to a location: the first value has no effect on the result, but it gets a cotangent. -/
theorem twice_wrong :
    let is : List (Instr Unit (Fin 0) (Fin 2) (Fin 1) Int) :=
      [.write 0 (fun _ => 0) (fun _ => true) false false, .write 1 (fun _ => 0) (fun _ => true) false false]
    let s : St Unit (Fin 2) (Fin 1) Int := ⟨(), ![3, 4], ![0]⟩
    (plain 0 is s).b = ![4] ∧ (jvp 0 0 is s (![1, 0], 0)).2 = 0 ∧ (vjp 0 is s (0, ![1])).2.1 = ![1, 1] := by
  decide

/-- **C75 (finding).** The initial contents of a location which is overwritten has no effect on the result, but it gets a
cotangent. -/
theorem overwritten_wrong :
    let is : List (Instr Unit (Fin 0) (Fin 1) (Fin 1) Int) := [.write 0 (fun _ => 0) (fun _ => true) false false]
    let s : St Unit (Fin 1) (Fin 1) Int := ⟨(), ![3], ![7]⟩
    (plain 0 is s).b = ![3] ∧ (jvp 0 0 is s (0, ![1])).2 = 0 ∧ (vjp 0 is s (0, ![1])).2.2 = ![1] := by
  decide

/-- **C75 (finding).** Reading a location before it is written: the recomputation in the backward pass reads what is written
later. -/
theorem early_read_wrong :
    let body : List (Instr Unit (Fin 0) (Fin 2) (Fin 1) Int) :=
      [.read 1 (fun _ => 0), .write 0 (fun _ => 0) (fun _ => true) false false]
    let s : St Unit (Fin 2) (Fin 1) Int := ⟨(), ![3, 0], ![7]⟩
    (run 0 body s).v = ![3, 7] ∧ (run 0 body (refill (run 0 body s).b (strip s))).v = ![3, 3] := by
  decide

end BufferGrad
end Verif
