import Verif.Loop.While
import Mathlib.Data.Nat.Choose.Basic
import Mathlib.Algebra.BigOperators.Intervals
import Mathlib.Tactic.Linarith

/-!
# What it costs to differentiate a loop backwards

Independent of the model. Costs count calls of the body, once for each step that is recomputed and once for each step that is differentiated.
-/

namespace Verif
namespace Checkpoint

/-- Recursive halving: `L` steps are differentiated backwards, starting from a checkpoint before the first of them, with room for `k` more.
Without room, one runs up to the last step each time. Otherwise one runs half of the way (or, if there is room for all steps, a single step), saves a
checkpoint, does the second part with one place less and then the first part. -/
def halvingCost : Nat → Nat → Nat
  | 0, _ => 0
  | 1, _ => 1
  | L + 2, 0 => (L + 2) + halvingCost (L + 1) 0
  | L + 2, k + 1 =>
    if L ≤ k + 1 then 1 + halvingCost (L + 1) k + halvingCost 1 (k + 1)
    else (L + 2) / 2 + halvingCost (L + 2 - (L + 2) / 2) k + halvingCost ((L + 2) / 2) (k + 1)
termination_by L => L
decreasing_by all_goals omega

/-- `Reverse L k N`: some way of choosing checkpoints differentiates `L` steps backwards, with room for `k` more checkpoints, at cost `N`. -/
inductive Reverse : Nat → Nat → Nat → Prop
  | zero (k) : Reverse 0 k 0
  /-- run up to the last step, and differentiate it -/
  | rerun {L k N} : Reverse L k N → Reverse (L + 1) k (L + 1 + N)
  /-- run `h` steps and save a checkpoint -/
  | save {L k h N₁ N₂} : 1 ≤ h → Reverse L k N₁ → Reverse h (k + 1) N₂ → Reverse (h + L) (k + 1) (h + N₁ + N₂)

/-- Halving is one such way. -/
theorem halving_reverse (L k : Nat) : Reverse L k (halvingCost L k) := by
  induction L using Nat.strongRecOn generalizing k with
  | _ L ih =>
    match L, k with
    | 0, _ => simpa [halvingCost] using Reverse.zero _
    | 1, _ => simpa [halvingCost] using (Reverse.zero _).rerun
    | L + 2, 0 => rw [halvingCost]; exact (ih (L + 1) (by omega) 0).rerun
    | L + 2, k + 1 =>
      rw [halvingCost]
      split
      · have := Reverse.save (h := 1) (by omega) (ih (L + 1) (by omega) k) (ih 1 (by omega) (k + 1))
        rwa [show 1 + (L + 1) = L + 2 by omega] at this
      · have := Reverse.save (h := (L + 2) / 2) (by omega) (ih (L + 2 - (L + 2) / 2) (by omega) k) (ih ((L + 2) / 2) (by omega) (k + 1))
        rwa [show (L + 2) / 2 + (L + 2 - (L + 2) / 2) = L + 2 by omega] at this

/-- If the number of steps is known, `C(k + 1 + t, t)` steps can be done with `k + 1` checkpoints at a cost of `t + 1` per step (Griewank 1992). -/
theorem offline_cost (k t : Nat) : ∃ N, Reverse ((k + 1 + t).choose t) k N ∧ N ≤ (t + 1) * (k + 1 + t).choose t := by
  induction k generalizing t with
  | zero =>
    have key : ∀ L, ∃ N, Reverse L 0 N ∧ N ≤ L * L := by
      intro L
      induction L with
      | zero => exact ⟨0, .zero _, Nat.le_refl _⟩
      | succ L ih =>
        obtain ⟨N, h1, h2⟩ := ih
        exact ⟨_, h1.rerun, by nlinarith⟩
    obtain ⟨N, h1, h2⟩ := key (t + 1)
    have : (0 + 1 + t).choose t = t + 1 := by
      rw [Nat.zero_add, Nat.add_comm 1 t, Nat.choose_succ_self_right]
    rw [this]
    exact ⟨N, h1, h2⟩
  | succ k ih =>
    induction t with
    | zero => exact ⟨1, by simpa using (Reverse.zero (k + 1)).rerun, by simp⟩
    | succ t iht =>
      obtain ⟨N₁, h1, h2⟩ := ih (t + 1)
      obtain ⟨N₂, h3, h4⟩ := iht
      have hp : (k + 1 + 1 + (t + 1)).choose (t + 1) = (k + 1 + 1 + t).choose t + (k + 1 + (t + 1)).choose (t + 1) := by
        rw [show k + 1 + 1 + (t + 1) = (k + 1 + 1 + t) + 1 by omega, Nat.choose_succ_succ,
          show k + 1 + 1 + t = k + 1 + (t + 1) by omega]
      have hpos : 1 ≤ (k + 1 + 1 + t).choose t := Nat.choose_pos (by omega)
      rw [hp]
      exact ⟨_, .save hpos h1 h3, by nlinarith⟩

/-- Halving is quadratic in the number of steps for any number of checkpoints. -/
theorem halving_lower (k L : Nat) : L ^ 2 ≤ 2 * 4 ^ k * halvingCost L k := by
  induction k generalizing L with
  | zero =>
    induction L with
    | zero => simp
    | succ L ih =>
      match L with
      | 0 => simp [halvingCost]
      | L + 1 => rw [halvingCost]; nlinarith
  | succ k ih =>
    match L with
    | 0 => simp
    | 1 => simp [halvingCost]; have := Nat.one_le_pow (k + 1) 4 (by omega); omega
    | L + 2 =>
      have key : ∀ h, 2 * h ≤ L + 2 → (L + 2) ^ 2 ≤ 2 * 4 ^ (k + 1) * halvingCost (L + 2 - h) k := by
        intro h hh
        have h1 := ih (L + 2 - h)
        have h2 : L + 2 ≤ 2 * (L + 2 - h) := by omega
        have h3 : (L + 2) ^ 2 ≤ (2 * (L + 2 - h)) ^ 2 := Nat.pow_le_pow_left h2 2
        rw [pow_succ 4 k]
        nlinarith
      rw [halvingCost]
      split
      · refine (key 1 (by omega)).trans (Nat.mul_le_mul_left _ ?_)
        rw [show L + 2 - 1 = L + 1 by omega]; omega
      · exact (key ((L + 2) / 2) (by omega)).trans (Nat.mul_le_mul_left _ (by omega))

/-- It costs at most `L (L + 1) / 2`. -/
theorem halving_upper (k L : Nat) : 2 * halvingCost L k ≤ L * (L + 1) := by
  induction L using Nat.strongRecOn generalizing k with
  | _ L ih =>
    match L, k with
    | 0, _ => simp [halvingCost]
    | 1, _ => simp [halvingCost]
    | L + 2, 0 => rw [halvingCost]; have := ih (L + 1) (by omega) 0; nlinarith
    | L + 2, k + 1 =>
      rw [halvingCost]
      split
      · have h1 := ih (L + 1) (by omega) k
        have h2 := ih 1 (by omega) (k + 1)
        nlinarith
      · have key : ∀ a b : Nat, 1 ≤ a → 1 ≤ b → a < L + 2 → b < L + 2 → a + b = L + 2 →
            2 * (a + halvingCost b k + halvingCost a (k + 1)) ≤ (L + 2) * (L + 2 + 1) := by
          intro a b ha hb ha' hb' hab
          have h1 := ih b hb' k
          have h2 := ih a ha' (k + 1)
          rw [← hab]
          nlinarith
        exact key _ _ (by omega) (by omega) (by omega) (by omega) (by omega)

/-- With room for all steps but one or two, each step is recomputed at most once. -/
theorem halving_linear (k L : Nat) (hL : 1 ≤ L) (h : L ≤ k + 2) : halvingCost L k = 2 * L - 1 := by
  induction k generalizing L with
  | zero =>
    match L with
    | 1 => simp [halvingCost]
    | 2 => simp [halvingCost]
  | succ k ih =>
    match L with
    | 1 => simp [halvingCost]
    | L + 2 =>
      rw [halvingCost, if_pos (by omega), ih (L + 1) (by omega) (by omega)]
      simp only [halvingCost]
      omega

end Checkpoint
end Verif
