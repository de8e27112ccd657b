import Verif.PyTree.Model

/-!
# `tree_equal` (`equinox/_tree.py`, lines 264-349)
-/

namespace Verif
namespace TreeEqual

open PT

variable {K ν β : Type}

/-- How an array is held. Both `ndarray` and `generic` are NumPy's. -/
inductive Holder where
  | ndarray
  | generic
  | jax
deriving DecidableEq, Repr

/-- An array: its Python type, holder, shape, dtype and its elements in row-major order. -/
structure Arr (ν : Type) where
  ty : Nat
  holder : Holder
  shape : List Nat
  dtype : Nat
  data : List ν

/-- A leaf: an array or something else, with its Python type. -/
inductive Leaf (ν β : Type) where
  | arr (a : Arr ν)
  | other (ty : Nat) (v : β)

/-- Python's part: `==` on array elements, `!=` on other leaves, `allclose` on elements for the given tolerances, and
which dtypes NumPy and JAX regard as inexact (these differ, for example for `bfloat16`). `exact` says that both
tolerances are Python numbers equal to zero (lines 267-270). -/
structure Env (ν β : Type) where
  exact : Bool
  close : ν → ν → Bool
  eq : ν → ν → Bool
  ne : β → β → Bool
  inexactNp : Nat → Bool
  inexactJnp : Nat → Bool

/-- The result: a Python bool, or an array of JAX (a tracer under JIT) with the given value. -/
inductive Res where
  | py (b : Bool)
  | jax (b : Bool)
deriving DecidableEq, Repr

/-- The truth value. -/
def Res.val : Res → Bool
  | .py b => b
  | .jax b => b

/-- `type(x)`. -/
def Leaf.type : Leaf ν β → Nat
  | .arr a => a.ty
  | .other ty _ => ty

/-- `npi.all(...)` for two arrays of the same shape: elements in the same places. -/
def allPairs (f : ν → ν → Bool) : List ν → List ν → Bool
  | [], [] => true
  | x :: xs, y :: ys => f x y && allPairs f xs ys
  | _, _ => false

/-- `_array_equal` (lines 264-274). -/
def arrayEqual (env : Env ν β) (inexact : Nat → Bool) (x y : Arr ν) : Bool :=
  if env.exact || !inexact x.dtype then allPairs env.eq x.data y.data else allPairs env.close x.data y.data

/-- The comparison of two leaves (lines 324-348): `none` is `return False`, otherwise what `traced_out` becomes. -/
def compareLeaf (env : Env ν β) (typematch : Bool) (out : Res) (x y : Leaf ν β) : Option Res :=
  if typematch && x.type ≠ y.type then none
  else match x, y with
    | .arr a, .arr b =>
      if a.holder ≠ .jax ∧ b.holder ≠ .jax then
        if a.shape ≠ b.shape ∨ a.dtype ≠ b.dtype ∨ arrayEqual env env.inexactNp a b = false then none else some out
      else if a.shape ≠ b.shape ∨ a.dtype ≠ b.dtype then none
      else some (.jax (out.val && arrayEqual env env.inexactJnp a b))
    | .arr _, .other _ _ => none
    | .other _ _, .arr _ => none
    | .other _ u, .other _ v => if env.ne u v then none else some out

/-- The loop over the leaves (lines 323-348). -/
def compareLeaves (env : Env ν β) (typematch : Bool) : Res → List (Leaf ν β) → List (Leaf ν β) → Option Res
  | out, x :: xs, y :: ys =>
    match compareLeaf env typematch out x y with
    | some out => compareLeaves env typematch out xs ys
    | Option.none => Option.none
  | out, _, _ => some out

/-- The loop over the other trees (lines 318-348). -/
def compareTrees [DecidableEq K] (env : Env ν β) (typematch : Bool) (t : PT K (Leaf ν β)) :
    Res → List (PT K (Leaf ν β)) → Option Res
  | out, [] => some out
  | out, u :: us =>
    if u.shape ≠ t.shape then none
    else match compareLeaves env typematch out t.leaves u.leaves with
      | some out => compareTrees env typematch t out us
      | Option.none => Option.none

/-- `tree_equal` (lines 277-349). Without trees, `pytrees[0]` is an `IndexError`. -/
def treeEqual [DecidableEq K] (env : Env ν β) (typematch : Bool) : List (PT K (Leaf ν β)) → Except Err Res
  | [] => .error .indexError
  | t :: ts => .ok ((compareTrees env typematch t (.py true) ts).getD (.py false))

end TreeEqual
end Verif
