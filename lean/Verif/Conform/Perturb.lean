import Verif.Loop.Perturb.Model
import Mathlib.Algebra.Group.Int.Defs

/-!
# The model against the tests: `tests/test_while_loop.py`, which leaves are differentiated

These are tests, not proofs: they say that the model computes what the tests of equinox expect. The tests read what is
printed for `perturb_val` and `symbolic_zero_gradient`.
-/

namespace Verif
namespace Conform
namespace Perturb

open Verif.Perturb

/-- A body given by which leaves of its input each leaf of its output depends on. `fn i` says that leaf `i` depends on what
the body closes over. A buffer is written to once, with a value that has these dependencies. -/
def body (n : Nat) (inexact buffer : List Bool) (deps : List (List Nat)) (fn : List Bool) : Body n 1 where
  inexact i := inexact.getD i false
  buffer i := buffer.getD i false
  out pb pv i := inexact.getD i false && ((fn.getD i false && pb 0) || decide (∃ j, pv j = true ∧ j.val ∈ deps.getD i []))
  writes pb pv i := [inexact.getD i false && ((fn.getD i false && pb 0) || decide (∃ j, pv j = true ∧ j.val ∈ deps.getD i []))]
  back pv c j := pv j && decide (∃ i, c i = true ∧ j.val ∈ deps.getD i.val [])
  tracer pb pv := pb 0 || decide (∃ j, pv j = true)
  hook _ c := decide (∃ i, c i = true)

def flags {n : Nat} (l : List Bool) : Flags n := fun i => l.getD i false

def list {n : Nat} (f : Flags n) : List Bool := (List.finRange n).map f

/-- `perturb_val` -/
def perturbVal {n : Nat} (b : Body n 1) (strict pb : Bool) (p0 : List Bool) : Option (List Bool) :=
  match resolvePerturb b strict (n + 1) (fun _ => pb) (flags p0) with
  | some (.ok pv) => some (list pv)
  | _ => none

/-- The cotangents of the final value. -/
def cts {n : Nat} (l : List Bool) : Cts (fun _ : Fin n => Int) := fun i => if l.getD i false then some 1 else none

/-- `symbolic_zero_gradient`, if it is computed. The inner `none` says that the backward pass returns before that. -/
def zeros {n : Nat} (b : Body n 1) (pb : Bool) (p0 grad : List Bool) : Option (Option (List Bool)) :=
  match prepare b (n + 1) (fun _ => pb) (flags p0) (cts grad) with
  | some (.ok none) => some none
  | some (.ok (some g)) => some (some (list fun i => (g i).isNone))
  | _ => none

/-! The first three leaves are the step, the maximum step and the condition, which are not floating point. -/

def symbolicZero : Body 9 1 := body 9 [false, false, false, true, true, true, true, false, false] []
  [[0], [1], [2], [5], [6], [], [6], [8], [7]] []

/-- `test_symbolic_zero`, lines 690-712 -/
example : zeros symbolicZero false [false, false, false, true, true, true, true] [false, false, false, true] =
    some (some [true, true, true, false, true, false, true, true, true]) := by decide +kernel

def nondiff2 : Body 7 1 := body 7 [false, false, false, true, true, true, true] []
  [[0], [1], [2], [3], [3, 4], [4, 5], [6]] []

/-- `test_nondifferentiable_body2`, line 799 -/
example : perturbVal nondiff2 true false [false, false, false, true] =
    some [false, false, false, true, true, true, false] := by decide +kernel

/-- `test_nondifferentiable_body2`, lines 800-802: the cotangent of `w` is dropped -/
example : zeros nondiff2 false [false, false, false, true] [false, false, false, false, true, false, true] =
    some (some [true, true, true, false, false, true, true]) := by decide +kernel

def bodyFun : Body 5 1 := body 5 [false, false, false, true, true] [] [[0], [1], [2], [3], [4]] [false, false, false, true]

/-- `test_body_fun_grads`, lines 837-838 -/
example : perturbVal bodyFun true true [false, false, false, false, true] =
    some [false, false, false, true, true] := by decide +kernel
example : zeros bodyFun true [false, false, false, false, true] [false, false, false, true, true] =
    some (some [true, true, true, false, false]) := by decide +kernel

def trivial : Body 5 1 := body 5 [false, false, false, true, true] [] [[0], [1], [2], [3], [4]] []

/-- `test_trivial_vjp`, lines 861-863: symbolic zeros are not computed -/
example : perturbVal trivial true false [false, false, false, true] =
    some [false, false, false, true, false] := by decide +kernel
example : zeros trivial false [false, false, false, true] [false, false, false, false, true] = some none := by decide +kernel

/-- `is_bool`, `is_int`, `is_unperturbed_float`, `is_perturbed_float1`, `is_perturbed_float2`, `is_perturbed_buffer`,
`is_unperturbed_buffer`, of which the last but one is a buffer of the loop. -/
def unperturbed : Body 7 1 := body 7 [false, false, true, true, true, true, true]
  [false, false, false, false, false, true] [[0], [1], [2], [4], [4], [4], [2, 6]] []

/-- `test_unperturbed_output`, lines 895-979: forward mode -/
example : perturbVal unperturbed false false [false, false, false, false, true, true, false] =
    some [false, false, false, true, true, true, false] := by decide +kernel

end Perturb
end Conform
end Verif
