import Verif.Basic
import Mathlib.Analysis.Real.Sqrt
import Mathlib.Algebra.Order.Floor.Ring
import Mathlib.Tactic.Linarith

/-!
# The arguments of `checkpointed_while_loop` (`internal/_loop/checkpointed.py`, lines 211-244)

`max_steps` is a natural number or `none`; for a negative `max_steps` see `Verif.Loop.Common.Args`. The square root is
the exact one; rounding is in `Rounding.lean`.
-/

namespace Verif
namespace Checkpoint

/-- The default number of checkpoints (lines 229-233). -/
noncomputable def defaultCheckpoints (maxSteps : Nat) : Int :=
  if maxSteps = 1 then 1 else ⌊(-1.5 : ℝ) + √(2 * maxSteps + 0.25)⌋ + 1

/-- What `checkpointed_while_loop` decides to do with its arguments. -/
inductive Plan where
  /-- return the initial value (line 238) -/
  | returnInit
  /-- run with this many checkpoints -/
  | run (checkpoints : Int)
deriving DecidableEq

/-- Lines 234-240. -/
def plan (checkpoints : Int) (maxSteps : Option Nat) : Except Err Plan :=
  if checkpoints < 1 then .error .valueError
  else match maxSteps with
    | some 0 => .ok .returnInit
    | some m => .ok (.run (min checkpoints m))
    | none => .ok (.run checkpoints)

/-- Lines 211-240. -/
noncomputable def resolve (checkpoints : Option Int) (maxSteps : Option Nat) : Except Err Plan :=
  match checkpoints, maxSteps with
  | none, none => .error .valueError
  | none, some m =>
    let c := defaultCheckpoints m
    if m ≠ 1 ∧ ¬ 2 * (m : Int) < (c + 1) * (c + 2) then .error .assertionError else plan c maxSteps
  | some c, _ => plan c maxSteps

theorem default_spec (m : Nat) (hm : 1 ≤ m) :
    1 ≤ defaultCheckpoints m ∧
    2 * (m : Int) < (defaultCheckpoints m + 1) * (defaultCheckpoints m + 2) ∧
    (defaultCheckpoints m) * (defaultCheckpoints m + 1) ≤ 2 * (m : Int) := by
  by_cases h1 : m = 1
  · subst h1; simp [defaultCheckpoints]
  · simp only [defaultCheckpoints, if_neg h1]
    have hx2 : √(2 * (m : ℝ) + 0.25) * √(2 * (m : ℝ) + 0.25) = 2 * m + 0.25 := by
      apply Real.mul_self_sqrt
      positivity
    have hx0 : 0 ≤ √(2 * (m : ℝ) + 0.25) := Real.sqrt_nonneg _
    set x := √(2 * (m : ℝ) + 0.25) with hx
    have hlo := Int.floor_le ((-1.5 : ℝ) + x)
    have hhi := Int.lt_floor_add_one ((-1.5 : ℝ) + x)
    set k := ⌊(-1.5 : ℝ) + x⌋ with hk
    have hm' : (1 : ℝ) ≤ m := by exact_mod_cast hm
    have hx15 : (1.5 : ℝ) ≤ x := by nlinarith
    have hk0 : 0 ≤ k := Int.floor_nonneg.2 (by linarith)
    have hk0' : (0 : ℝ) ≤ k := by exact_mod_cast hk0
    refine ⟨by omega, ?_, ?_⟩
    · have : (2 * (m : ℝ)) < ((k : ℝ) + 1 + 1) * ((k : ℝ) + 1 + 2) := by nlinarith
      exact_mod_cast this
    · have : ((k : ℝ) + 1) * ((k : ℝ) + 1 + 1) ≤ 2 * (m : ℝ) := by nlinarith
      exact_mod_cast this

theorem default_zero : defaultCheckpoints 0 = 0 := by
  have h : √(2 * ((0 : Nat) : ℝ) + 0.25) = 0.5 := by
    rw [show (2 * ((0 : Nat) : ℝ) + 0.25) = 0.5 ^ 2 by norm_num]
    exact Real.sqrt_sq (by norm_num)
  simp only [defaultCheckpoints, h]
  norm_num

end Checkpoint
end Verif
