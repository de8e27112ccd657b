import Verif.Filters.Model
import Verif.Dict
/-!
# `filter_vmap` and `filter_pmap`

`equinox/_vmap_pmap.py`: `_resolve_axis` (40-48), `_resolve_axes` (51-54), `if_array` (57-76), `_named_in_axes`
(83-113), `_VmapWrapper.__call__` (128-184), `_filter_pmap_cache` (363-418), `_postprocess` (442-445),
`_PmapWrapper._call` (461-500), `filter_pmap` (635-681).

Outside of the repository, after its documentation: `jax.vmap` runs the function once for every lane; mapped
inputs are sliced; outputs with axis 0 are stacked, outputs with axis `None` must not depend on the lane.
JAX runs the Python function once on tracers: here, structure and static parts of the outputs are taken
from the first lane. Which outputs are batched is found by JAX and is a parameter (`World.batched`).

Simplified: a batch of size zero is an error in the model. An axis given as a Python `bool` is not
considered.
-/

namespace Verif.Vmap

open PT

/-- A leaf: an array (`is_array`), or any other object. -/
inductive Leaf (V O : Type)
  | arr (v : V)
  | obj (o : O)
deriving DecidableEq

/-- A Python value seen as a pytree. -/
abbrev Val (K V O : Type) := PT K (Leaf V O)

/-- A Python function of positional arguments. -/
abbrev Fn (K V O : Type) := List (Val K V O) → Except Err (Val K V O)

/-- Array operations, and what JAX finds out about functions. -/
structure World (K V A O : Type) where
  /-- the abstract value of an array: shape, dtype, ... -/
  aval : V → A
  /-- the size along an axis; `none` if there is no such axis -/
  size : V → Int → Option Nat
  /-- one slice along an axis -/
  slice : V → Int → Nat → V
  /-- `jnp.stack(arrays, axis=0)` -/
  stack : List V → V
  /-- `jnp.moveaxis(x, 0, axis)` -/
  moveaxis : V → Int → Except Err V
  /-- objects which JAX takes for arrays, such as Python scalars -/
  asArray : O → Option V
  /-- does the output of the function at this position depend on the lane? -/
  batched : Fn K V O → List (List (Val K V O)) → List Nat → Bool

variable {K V A O : Type}

/-- An entry of `in_axes` or `out_axes` other than `None`. -/
inductive AxSpec (V O : Type)
  | int (n : Int)
  | callable (f : Leaf V O → Except Err (Option Int))
  | other

/-- A resolved axis as a Python value. -/
def axisVal : Option Int → PT K Int
  | some n => .leaf n
  | Option.none => .none

/-- A callable on one leaf. -/
def callAxis (f : Leaf V O → Except Err (Option Int)) : Val K V O → Except Err (PT K Int)
  | .leaf l => (f l).map axisVal
  | _ => .error .treeError

/-- `_resolve_axis` (40-48) -/
def resolveAxis (spec : PT K (AxSpec V O)) (elem : Val K V O) : Except Err (PT K Int) :=
  match spec with
  | .none => treeMap1 noLeaf (fun _ => .ok .none) elem
  | .leaf (.int n) => treeMap1 noLeaf (fun _ => .ok (.leaf n)) elem
  | .leaf (.callable f) => treeMap1 noLeaf (callAxis f) elem
  | _ => .error .valueError

/-- `_resolve_axes` (51-54) -/
def resolveAxes [DecidableEq K] (t : Val K V O) (axes : PT K (AxSpec V O)) : Except Err (PT K Int) :=
  treeMap2 isNone resolveAxis axes t

/-- `if_array(axis)` (57-76) -/
def ifArray (axis : Int) : AxSpec V O :=
  .callable fun l => match l with
    | .arr _ => .ok (some axis)
    | .obj _ => .ok Option.none

/-! ## `_named_in_axes` -/

/-- The loop of lines 94-95 on the copy of the dictionary: `in_axes.pop(param_name, default)` for each passed
argument. -/
def popNames {X : Type} (default : X) : Nat → List String → Dict String X → List X × Dict String X
  | 0, _, d => ([], d)
  | _ + 1, [], d => ([], d)
  | n + 1, p :: ps, d =>
    let r := popNames default n ps (d.filter fun e => e.1 ≠ p)
    ((d.get? p).getD default :: r.1, r.2)

/-- The dictionaries a program holds; `in_axes` is one of them. -/
abbrev Heap (X : Type) := List (Dict String X)

/-- `_named_in_axes` (83-113) for a dictionary at address `addr`. `dict(in_axes)` makes a new one, which is
then emptied. -/
def namedInAxes {X : Type} (default : X) (params : List String) (nargs : Nat) (heap : Heap X) (addr : Nat) :
    Except Err (List X) × Heap X :=
  let copy := (heap[addr]?).getD []
  let r := popNames default nargs params copy
  let heap' := heap ++ [r.2]
  if r.2.length ≠ 0 then (.error .valueError, heap') else (.ok r.1, heap')

/-- `in_axes` as given by the user: a tree, or a dictionary. -/
inductive InAxes (K V O : Type)
  | tree (t : PT K (AxSpec V O))
  | dict (d : Dict String (PT K (AxSpec V O)))

/-- `_named_in_axes` on a value. -/
def namedTree (tup : K) (params : List String) (nargs : Nat) : InAxes K V O → Except Err (PT K (AxSpec V O))
  | .tree t => .ok t
  | .dict d => ((namedInAxes (.leaf (ifArray 0)) params nargs [d] 0).1).map fun l => .node tup l

/-! ## `filter_vmap` -/

/-- `jtu.tree_map(_is_none, axes, is_leaf=_is_none)`, as a filter specification -/
def noneFlags (axes : PT K Int) : Except Err (PT K (Filters.Spec K (Leaf V O))) :=
  treeMap1 isNone (fun x => .ok (.leaf (.bool x.isNone))) axes

/-- `is_array` -/
def isArray : Val K V O → Bool
  | .leaf (.arr _) => true
  | _ => false

/-- What `_fun_wrapper` returns. -/
structure LaneOut (K V O : Type) where
  vmapd : Val K V O
  nonvmapdArr : Val K V O
  nonvmapdStatic : Val K V O
  outAxes : PT K Int

/-- `f(*args)` -/
def applyTuple (f : Fn K V O) : Val K V O → Except Err (Val K V O)
  | .node _ args => f args
  | _ => .error .typeError

/-- `_fun_wrapper` (152-159) -/
def funWrapper [DecidableEq K] (f : Fn K V O) (outAxes : PT K (AxSpec V O)) (static dyn : Val K V O) :
    Except Err (LaneOut K V O) := do
  let args ← Filters.combine noLeaf [dyn, static]
  let out ← applyTuple f args
  let axes ← resolveAxes out outAxes
  let flags ← noneFlags axes
  let p ← Filters.partition isNone flags .none out
  let q ← Filters.partition noLeaf (.leaf (.callable fun x => .ok (isArray x))) .none p.1
  pure ⟨p.2, q.1, q.2, axes⟩

/-- The size of a mapped leaf. -/
def leafSize (w : World K V A O) : Leaf V O × Int → Except Err Nat
  | (.arr v, ax) => match w.size v ax with
    | some n => .ok n
    | Option.none => .error .valueError
  | (.obj _, _) => .error .valueError

/-- The batch size found by `jax.vmap`: all sizes must agree. -/
def batchSize (axisSize : Option Nat) (sizes : List Nat) : Except Err Nat :=
  match axisSize.toList ++ sizes with
  | [] => .error .valueError
  | n :: ns => if ns.all (· == n) then .ok n else .error .valueError

/-- A mapped leaf in lane `i`. -/
def sliceLeaf (w : World K V A O) (i : Nat) : Leaf V O → Int → Leaf V O
  | .arr v, ax => .arr (w.slice v ax i)
  | .obj o, _ => .obj o

/-- The mapped arguments in lane `i`. -/
def laneArgs (w : World K V A O) (dyn : Val K V O) (axes : PT K Int) (i : Nat) : Except Err (Val K V O) :=
  treeUnflatten dyn.shape (List.zipWith (fun l ax => .leaf (sliceLeaf w i l ax)) dyn.leaves axes.leaves)

/-- An output leaf as an array. -/
def asArr (w : World K V A O) : Leaf V O → Except Err V
  | .arr v => .ok v
  | .obj o => match w.asArray o with
    | some v => .ok v
    | Option.none => .error .typeError

/-- The `j`-th leaf of all lanes. -/
def column {X : Type} (rows : List (List X)) (j : Nat) : List X := rows.filterMap (·[j]?)

/-- Outputs with axis 0. -/
def stackLanes (w : World K V A O) (ts : List (Val K V O)) : Except Err (Val K V O) :=
  match ts with
  | [] => .error .notImplemented
  | t :: _ => do
    let rows ← mapE (fun u : Val K V O => mapE (asArr w) u.leaves) ts
    treeUnflatten t.shape ((List.range t.leaves.length).map fun j => .leaf (.arr (w.stack (column rows j))))

mutual
/-- The positions of the leaves of a tree. -/
def positions {α : Type} : PT K α → List (List Nat)
  | .leaf _ => [[]]
  | .none => []
  | .node _ cs => positionsL 0 cs
/-- `positions` on a list of children, numbered from `n`. -/
def positionsL {α : Type} (n : Nat) : List (PT K α) → List (List Nat)
  | [] => []
  | c :: cs => (positions c).map (n :: ·) ++ positionsL (n + 1) cs
end

/-- `jax.vmap(_fun_wrapper, in_axes=(in_axes,), out_axes=(0, None, None), axis_size=...)(dynamic_args)`.
`bat` says which positions of the output are batched. -/
def jaxVmap [DecidableEq K] (w : World K V A O) (g : Val K V O → Except Err (LaneOut K V O))
    (bat : List (Val K V O) → List Nat → Bool)
    (axes : PT K Int) (axisSize : Option Nat) (dyn : Val K V O) : Except Err (LaneOut K V O) :=
  if axes.shape ≠ dyn.shape then .error .valueError
  else do
    let sizes ← mapE (leafSize w) (dyn.leaves.zip axes.leaves)
    let n ← batchSize axisSize sizes
    let lanes ← mapE (laneArgs w dyn axes) (List.range n)
    let outs ← mapE g lanes
    let v ← stackLanes w (outs.map LaneOut.vmapd)
    match outs with
    | [] => .error .notImplemented
    | o :: _ =>
      if (positions o.nonvmapdArr).any (bat lanes) then .error .valueError
      else pure { o with vmapd := v }

/-- `_moveaxis` (79-80) on one leaf -/
def moveLeaf (w : World K V A O) : Val K V O → PT K Int → Except Err (Val K V O)
  | .leaf (.arr v), .leaf n => (w.moveaxis v n).map fun u => .leaf (.arr u)
  | _, _ => .error .treeError

/-- Lines 161-176: without a mapped axis the function is called once. -/
def runLanes [DecidableEq K] (w : World K V A O) (g : Val K V O → Except Err (LaneOut K V O))
    (bat : List (Val K V O) → List Nat → Bool)
    (axes : PT K Int) (axisSize : Option Nat) (dyn : Val K V O) : Except Err (LaneOut K V O) :=
  if axes.leaves.length = 0 ∧ axisSize = Option.none then do
    let r ← g dyn
    if r.vmapd.leaves.length ≠ 0 then .error .valueError else pure r
  else jaxVmap w g bat axes axisSize dyn

/-- Lines 178-184. -/
def finishVmap [DecidableEq K] (w : World K V A O) (r : LaneOut K V O) : Except Err (Val K V O) := do
  let nonvmapd ← Filters.combine noLeaf [r.nonvmapdArr, r.nonvmapdStatic]
  if r.vmapd.shape ≠ r.outAxes.shape then .error .assertionError
  else
    let vmapd ← treeMap2 noLeaf (moveLeaf w) r.vmapd r.outAxes
    Filters.combine noLeaf [vmapd, nonvmapd]

/-- The arguments in all lanes, as the function sees them. -/
def fullLanes [DecidableEq K] (static : Val K V O) (lanes : List (Val K V O)) : List (List (Val K V O)) :=
  lanes.filterMap fun d => match Filters.combine noLeaf [d, static] with
    | .ok (.node _ args) => some args
    | _ => Option.none

/-- `_VmapWrapper.__call__` (128-184) -/
def filterVmap [DecidableEq K] (w : World K V A O) (tup : K) (f : Fn K V O) (params : List String)
    (inAxes : InAxes K V O) (outAxes : PT K (AxSpec V O)) (axisSize : Option Nat) (args : List (Val K V O))
    (kwargs : List String) : Except Err (Val K V O) :=
  if kwargs.length ≠ 0 then .error .runtimeError
  else do
    let spec ← namedTree tup params args.length inAxes
    let axes ← resolveAxes (.node tup args) spec
    let unmapped ← noneFlags axes
    let p ← Filters.partition noLeaf unmapped .none (.node tup args)
    let r ← runLanes w (funWrapper f outAxes p.1) (fun lanes => w.batched f (fullLanes p.1 lanes)) axes axisSize p.2
    finishVmap w r

end Verif.Vmap
