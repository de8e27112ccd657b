import Verif.AD.Model
import Mathlib.Analysis.Calculus.Deriv.Basic

/-!
# `filter_jacfwd`, `filter_jacrev`, `filter_hessian` (`equinox/_ad.py` 422-528)

Arrays of floating-point numbers are single real numbers here, so that a block of a Jacobian (of shape
`out.shape + in.shape`) is a single number too. JAX's forward and reverse mode are parameters (`Modes`): from a function
between lists of numbers they give the derivative of each output with respect to each input. What JAX does around them is
modelled (`jax.jacfwd`, `jax.jacrev` with `has_aux=True`): inputs and outputs have to be numbers, and both modes make a
standard basis, of the inputs and of the outputs respectively, which raises a `ValueError` when there are none.
-/

namespace Verif
namespace AD
namespace Jac

open PT

variable {K O : Type}

/-- A leaf: a floating-point array (with one element), or anything else. -/
inductive Lf (O : Type) where
  | num (r : ℝ)
  | other (o : O)

/-- `is_inexact_array` -/
def Lf.isNum : Lf O → Bool
  | .num _ => true
  | .other _ => false

/-- The number in a leaf. -/
def Lf.val : Lf O → ℝ
  | .num r => r
  | .other _ => 0

/-- The derivative of output `o` with respect to input `i` of a function at a point, as found by a mode of
differentiation. -/
abbrev Mode := (List ℝ → Except Err (List ℝ)) → List ℝ → (o i : Nat) → ℝ

/-- JAX's two modes. -/
structure Modes where
  fwd : Mode
  rev : Mode

/-- `is_inexact_array` as a filter specification. -/
def isInexact : PT K (Lf O) → Bool
  | .leaf a => a.isNum
  | _ => false

/-- A check that raises. -/
def check (b : Bool) (e : Err) : Except Err Unit := if b then .ok () else .error e

/-- The function on the leaves that is differentiated. -/
def flat {β : Type} (g : PT K (Lf O) → Except Err (PT K (Lf O) × β)) (d : Def K) (ls : List ℝ) : Except Err (List ℝ) := do
  let y ← treeUnflatten d (ls.map fun r => .leaf (.num r))
  let r ← g y
  pure (r.1.leaves.map Lf.val)

/-- `jax.jacfwd(g, has_aux=True)(x)` and `jax.jacrev(g, has_aux=True)(x)`: the output with each leaf replaced by a tree like
`x`. -/
def jaxJac {β : Type} (J : Modes) (rev : Bool) (g : PT K (Lf O) → Except Err (PT K (Lf O) × β)) (x : PT K (Lf O)) :
    Except Err (PT K (Lf O) × β) := do
  check (x.leaves.all Lf.isNum) .typeError
  check (rev || !x.leaves.isEmpty) .valueError
  let r ← g x
  check (r.1.leaves.all Lf.isNum) .typeError
  check (!rev || !r.1.leaves.isEmpty) .valueError
  let D := (if rev then J.rev else J.fwd) (flat g x.shape) (x.leaves.map Lf.val)
  let blocks ← mapE (fun o => treeUnflatten x.shape ((List.range x.leaves.length).map fun i => .leaf (.num (D o i))))
    (List.range r.1.leaves.length)
  let jac ← treeUnflatten r.1.shape blocks
  pure (jac, r.2)

/-- `_fun` (430-437) -/
def innerFun [DecidableEq K] (hasAux : Bool) (fn : PyFn K (Lf O)) (static_x : PT K (Lf O)) (rest : List (PT K (Lf O)))
    (kwargs : List (String × PT K (Lf O))) (diff_x : PT K (Lf O)) : Except Err (PT K (Lf O) × PT K (Lf O)) := do
  let x ← Filters.combine noLeaf [diff_x, static_x]
  let out ← fn (x :: rest) kwargs
  splitAux hasAux out

/-- What is returned (444-447). -/
def withAux (tuple : K) (hasAux : Bool) (out aux : PT K (Lf O)) : PT K (Lf O) :=
  if hasAux then .node tuple [out, aux] else out

/-- `_Jac.__call__` (427-447); a call without positional arguments is a `TypeError`. -/
def jac [DecidableEq K] (J : Modes) (tuple : K) (hasAux rev : Bool) (fn : PyFn K (Lf O)) : PyFn K (Lf O)
  | [], _ => .error .typeError
  | x :: rest, kwargs => do
    let p ← Filters.partition noLeaf (.leaf (.callable fun y => .ok (isInexact y))) .none x
    let r ← jaxJac J rev (innerFun hasAux fn p.2 rest kwargs) p.1
    pure (withAux tuple hasAux r.1 r.2)

/-- `filter_jacfwd` (450-475) -/
def filterJacfwd [DecidableEq K] (J : Modes) (tuple : K) (hasAux : Bool) (fn : PyFn K (Lf O)) : PyFn K (Lf O) :=
  jac J tuple hasAux false fn

/-- `filter_jacrev` (478-503) -/
def filterJacrev [DecidableEq K] (J : Modes) (tuple : K) (hasAux : Bool) (fn : PyFn K (Lf O)) : PyFn K (Lf O) :=
  jac J tuple hasAux true fn

/-- `filter_hessian` (506-528) -/
def filterHessian [DecidableEq K] (J : Modes) (tuple : K) (hasAux : Bool) (fn : PyFn K (Lf O)) : PyFn K (Lf O) :=
  filterJacfwd J tuple hasAux (filterJacrev J tuple hasAux fn)

end Jac
end AD
end Verif
