import Verif.Filters.Model

/-!
# `filter_value_and_grad`, `filter_grad`, `filter_vjp`, `filter_jvp` (`equinox/_ad.py`)

Differentiation itself is JAX's. It works on functions of finitely many arrays, and is a parameter (`Jax`): `grad F xs` is the
gradient of the scalar function `F` at `xs`, and so on. What is modelled is how arguments are taken apart and put together.
Extra keyword arguments of `jax.value_and_grad` (`holomorphic`, ...) are left out.
-/

namespace Verif
namespace AD

open PT

variable {K α : Type}

/-- What is outside of equinox. -/
structure Jax (K α : Type) where
  /-- `is_inexact_array` of a leaf -/
  inexact : α → Bool
  /-- `is_array` of a leaf -/
  array : α → Bool
  /-- the type of tuples -/
  tuple : K
  /-- the check that an output is a real scalar; the array -/
  scalar : PT K α → Except Err α
  grad : (List α → Except Err α) → List α → Except Err (List α)
  /-- The values and the pullback of a function of several arrays into several arrays. -/
  vjp : (List α → Except Err (List α)) → List α → Except Err (List α → Except Err (List α))
  /-- The tangents of a function of several arrays; only leaves that depend on the inputs have one. -/
  jvp : (List α → Except Err (PT K α)) → List α → List α → Except Err (PT K (α × Option α))

/-- A Python function, called with positional and keyword arguments. -/
abbrev PyFn (K α : Type) := List (PT K α) → List (String × PT K α) → Except Err (PT K α)

/-- `is_inexact_array` as a filter specification. -/
def isInexact (J : Jax K α) : PT K α → Bool
  | .leaf a => J.inexact a
  | _ => false

/-- `partition(x, is_inexact_array)` -/
def partitionInexact [DecidableEq K] (J : Jax K α) (x : PT K α) : Except Err (PT K α × PT K α) :=
  Filters.partition noLeaf (.leaf (.callable fun y => .ok (isInexact J y))) .none x

/-- The output which is differentiated: with `has_aux` the first of a pair. -/
def primary [DecidableEq K] (J : Jax K α) (hasAux : Bool) (out : PT K α) : Except Err (PT K α) :=
  if hasAux then match out with
    | .node k [value, _] => if k = J.tuple then .ok value else .error .typeError
    | _ => .error .typeError
  else .ok out

/-- `jax.value_and_grad(g, has_aux=hasAux)(x)`: the leaves of `x` have to be inexact arrays. -/
def jaxValueAndGrad [DecidableEq K] (J : Jax K α) (hasAux : Bool) (g : PT K α → Except Err (PT K α)) (x : PT K α) :
    Except Err (PT K α × PT K α) := do
  if !x.leaves.all J.inexact then throw .typeError
  let out ← g x
  let value ← primary J hasAux out
  let _ ← J.scalar value
  let gs ← J.grad (fun ls => do
    let y ← treeUnflatten x.shape (ls.map fun a => .leaf a)
    let out ← g y
    let value ← primary J hasAux out
    J.scalar value) x.leaves
  let grads ← treeUnflatten x.shape (gs.map fun a => .leaf a)
  pure (out, grads)

/-- `_ValueAndGradWrapper.__call__` (60-81). -/
def valueAndGrad [DecidableEq K] (J : Jax K α) (hasAux : Bool) (fn : PyFn K α) (args : List (PT K α))
    (kwargs : List (String × PT K α)) : Except Err (PT K α × PT K α) :=
  match args with
  | [] => .error .typeError
  | x :: rest => do
    let p ← partitionInexact J x
    jaxValueAndGrad J hasAux (fun d => do
      let x' ← Filters.combine noLeaf [d, p.2]
      fn (x' :: rest) kwargs) p.1

/-- `_GradWrapper.__call__` (97-103). -/
def filterGrad [DecidableEq K] (J : Jax K α) (hasAux : Bool) (fn : PyFn K α) (args : List (PT K α))
    (kwargs : List (String × PT K α)) : Except Err (PT K α) := do
  let r ← valueAndGrad J hasAux fn args kwargs
  if hasAux then match r.1 with
    | .node _ [_, aux] => pure (.node J.tuple [r.2, aux])
    | _ => throw .valueError
  else pure r.2

/-! ## `filter_vjp` -/

/-- `jax.vjp(diff_fun, *diff, has_aux=True)` where `g` gives `(diff_out, aux)`: values, pullback and auxiliary output. A
cotangent must have the structure of `diff_out`. -/
def jaxVjp [DecidableEq K] {β : Type} (J : Jax K α) (g : PT K α → Except Err (PT K α × β)) (x : PT K α) :
    Except Err (PT K α × (PT K α → Except Err (PT K α)) × β) := do
  if !x.leaves.all J.inexact then throw .typeError
  let r ← g x
  let pull ← J.vjp (fun ls => do
    let y ← treeUnflatten x.shape (ls.map fun a => .leaf a)
    let r ← g y
    pure r.1.leaves) x.leaves
  pure (r.1, (fun ct => do
    if ct.shape ≠ r.1.shape then throw .valueError
    let cts ← pull ct.leaves
    treeUnflatten x.shape (cts.map fun a => .leaf a)), r.2)

/-- `_out, _aux = _out` with `has_aux` (407-410). -/
def splitAux (hasAux : Bool) (out : PT K α) : Except Err (PT K α × PT K α) :=
  if hasAux then match out with
    | .node _ [o, aux] => .ok (o, aux)
    | _ => .error .valueError
  else .ok (out, .none)

/-- `diff_fun` of `filter_vjp` (404-412): `(_diff_out, (_nondiff_out, _aux))`. -/
def diffFun [DecidableEq K] (J : Jax K α) (hasAux : Bool) (fn : PyFn K α) (nondiff diff : PT K α) :
    Except Err (PT K α × (PT K α × PT K α)) := do
  let primals ← Filters.combine noLeaf [diff, nondiff]
  match primals with
  | .node _ args => do
    let out ← fn args []
    let oa ← splitAux hasAux out
    let q ← partitionInexact J oa.1
    pure (q.1, (q.2, oa.2))
  | _ => throw .typeError

/-- `filter_vjp` (374-419). The primals are one tuple. Results: output, pullback, auxiliary output (`None` without `has_aux`). -/
def filterVjp [DecidableEq K] (J : Jax K α) (hasAux : Bool) (fn : PyFn K α) (primals : List (PT K α)) :
    Except Err (PT K α × (PT K α → Except Err (PT K α)) × PT K α) := do
  let p ← partitionInexact J (.node J.tuple primals)
  let r ← jaxVjp J (diffFun J hasAux fn p.2) p.1
  let out ← Filters.combine noLeaf [r.1, r.2.2.1]
  pure (out, r.2.1, r.2.2.2)

/-! ## `filter_jvp` -/

/-- The tree with `True` for `None` and `False` for other leaves: `jtu.tree_map(_is_none, tangents, is_leaf=_is_none)`. -/
def noneSpec (t : PT K α) : PT K (Filters.Spec K α) := (t.cut isNone).map fun x => .bool x.isNone

/-- A tangent, or `None`. -/
def tangentLeaf : Option α → PT K α
  | some t => .leaf t
  | Option.none => .none

/-- `_fn` of `filter_jvp` (343-352): the function of the leaves of `dynamic`, up to the split of the output. -/
def jvpFun [DecidableEq K] (fn : PyFn K α) (kwargs : List (String × PT K α)) (static dynamic : PT K α) (ls : List α) :
    Except Err (PT K α) := do
  let d ← treeUnflatten dynamic.shape (ls.map fun a => .leaf a)
  let args ← Filters.combine noLeaf [d, static]
  match args with
  | .node _ as => fn as kwargs
  | _ => throw .typeError

/-- `filter_jvp` (293-359). `J.jvp` is applied to the function of the primals that have a tangent. The three-way split of
the output (350-352) is by whether a leaf is traced, which is the `Option` in `J.jvp`, and by whether it is an array. `jax.jvp` wants as many tangents as primals. -/
def filterJvp [DecidableEq K] (J : Jax K α) (fn : PyFn K α) (primals tangents : List (PT K α))
    (kwargs : List (String × PT K α)) : Except Err (PT K α × PT K α) := do
  let ps := PT.node J.tuple primals
  let ts := PT.node J.tuple tangents
  if ps.treeStructure isNone ≠ ts.treeStructure isNone then throw .valueError
  let p ← Filters.partition noLeaf (noneSpec ts) .none ps
  if p.2.leaves.length ≠ ts.leaves.length then throw .typeError
  let r ← J.jvp (jvpFun fn kwargs p.1 p.2) p.2.leaves ts.leaves
  let out ← Filters.combine noLeaf [(r.map fun a => if a.2.isSome then .leaf a.1 else .none).join,
    (r.map fun a => if a.2.isSome then .none else if J.array a.1 then .leaf a.1 else .none).join,
    (r.map fun a => if a.2.isSome then .none else if J.array a.1 then .none else .leaf a.1).join]
  pure (out, (r.map fun a => tangentLeaf a.2).join)

end AD
end Verif
