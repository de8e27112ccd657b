import Verif.Vmap.Model
/-!
# `filter_pmap`

`equinox/_vmap_pmap.py`: `_filter_pmap_cache` (363-418), `_common_preprocess` (421-431), `_postprocess` (442-445),
`_PmapWrapper._call` (461-500), `filter_pmap` (635-681); `equinox/_compile_utils.py`: `hashable_partition` (21-25),
`hashable_combine` (28-31).

Outside of the repository: `jax.pmap` runs the function for each lane on a device of its own; inputs are sliced
along `in_axes`; outputs are stacked along `out_axes`; outputs without an axis must not depend on the lane.

Simplified: the function itself has no arrays, and the cache of compiled functions is left out (both are in `PmapCache.lean`). The
computation of `max_out_size` (367-376) is taken from the outcome of the first lane.
-/

namespace Verif.Vmap

open PT

variable {K V A O : Type}

/-- One leaf of `dynamic` in lane `i`. -/
def pmapLeaf (w : World K V A O) (i : Nat) : PT K Int → Val K V O → Except Err (Val K V O)
  | .leaf ax, .leaf l => .ok (.leaf (sliceLeaf w i l ax))
  | _, d => .ok d

/-- `dynamic` in lane `i`; `None` in `in_axes` is a leaf to JAX. -/
def pmapLane [DecidableEq K] (w : World K V A O) (axes : PT K Int) (dyn : Val K V O) (i : Nat) :
    Except Err (Val K V O) :=
  treeMap2 isNone (pmapLeaf w i) axes dyn

/-- The size of one leaf of `dynamic`, if it has an axis. -/
def pmapSizeLeaf (w : World K V A O) : PT K Int → Val K V O → Except Err (PT K Nat)
  | .leaf ax, .leaf l => (leafSize w (l, ax)).map .leaf
  | _, _ => .ok .none

/-- The sizes of all leaves with an axis. -/
def pmapSizes [DecidableEq K] (w : World K V A O) (axes : PT K Int) (dyn : Val K V O) : Except Err (List Nat) :=
  (treeMap2 isNone (pmapSizeLeaf w) axes dyn).map leaves

/-- `tree_reduce(lambda x, y: max(x, y.ndim), struct_out, 0)` (376). `struct_out` has all array-like outputs (371),
after `jax.vmap` with one more axis. -/
def maxOutSize (w : World K V A O) (ndim : V → Nat) (out : Val K V O) : Nat :=
  (out.leaves.filterMap fun l => (asArr w l).toOption).foldl (fun m v => max m (ndim v + 1)) 0

/-- `_check_map_out_axis` (379-389) on an integer; other entries do not get here. -/
def checkMapOutAxis (maxOut : Nat) : PT K Int → Except Err (PT K Unit)
  | .leaf x => if x < -(maxOut : Int) ∨ x ≥ (maxOut : Int) then .error .valueError else .ok .none
  | _ => .ok .none

/-- `a == i` -/
def eqAxis (i : Int) : PT K Int → Bool
  | .leaf a => a == i
  | _ => false

/-- `jtu.tree_map(lambda a: a == i, _out_axes, is_leaf=_is_none)` (398) -/
def axisFlags (i : Int) (axes : PT K Int) : Except Err (PT K (Filters.Spec K (Leaf V O))) :=
  treeMap1 isNone (fun a => .ok (.leaf (.bool (eqAxis i a)))) axes

/-- `range(-max_out_size, max_out_size)` -/
def axisRange (maxOut : Nat) : List Int := (List.range (2 * maxOut)).map fun j : Nat => (j : Int) - maxOut

/-- What `fun_wrapped` returns. -/
structure PmapOut (K V O : Type) where
  pmapd : List (Val K V O)
  dyn : List (Option V)
  static : List (Option O)
  treedef : Def K

/-- A leaf if it is an array. -/
def Leaf.dyn? : Leaf V O → Option V
  | .arr v => some v
  | .obj _ => Option.none

/-- A leaf if it is not an array. -/
def Leaf.static? : Leaf V O → Option O
  | .arr _ => Option.none
  | .obj o => some o

/-- Lines 396-403. -/
def pmapSplit [DecidableEq K] (maxOut : Nat) (outAxes : PT K (AxSpec V O)) (out : Val K V O) :
    Except Err (PmapOut K V O) := do
  let axes ← resolveAxes out outAxes
  let _ ← treeMap1 noLeaf (checkMapOutAxis maxOut) axes
  let pmapd ← mapE (fun i => do
    let flags ← axisFlags i axes
    Filters.filter isNone flags false .none out) (axisRange maxOut)
  let flags ← noneFlags axes
  let nonpmapd ← Filters.filter isNone flags false .none out
  pure ⟨pmapd, nonpmapd.leaves.map Leaf.dyn?, nonpmapd.leaves.map Leaf.static?, nonpmapd.shape⟩

/-- Outputs with axis `i` (409) -/
def stackAt (w : World K V A O) (i : Int) (ts : List (Val K V O)) : Except Err (Val K V O) := do
  let t ← stackLanes w ts
  treeMap1 noLeaf (fun x => moveLeaf w x (.leaf i)) t

/-- The outcomes of all lanes put together by `jax.pmap`; `bat` says which positions of the output are batched. -/
def collect (w : World K V A O) (maxOut : Nat) (bat : List Nat → Bool) (rs : List (PmapOut K V O)) :
    Except Err (PmapOut K V O) :=
  match rs with
  | [] => .error .valueError
  | r :: _ =>
    if ((positions r.treedef).zip r.dyn).any (fun p => p.2.isSome && bat p.1) then .error .valueError
    else do
      let groups ← mapE (fun j : Nat => stackAt w ((j : Int) - maxOut) (rs.filterMap fun r => r.pmapd[j]?))
        (List.range (2 * maxOut))
      pure { r with pmapd := groups }

/-- `d if s is None else s` -/
def pickLeaf : Option V → Option O → Val K V O
  | some v, Option.none => .leaf (.arr v)
  | Option.none, Option.none => .none
  | _, some o => .leaf (.obj o)

/-- `_postprocess` (442-445) -/
def pmapPostprocess [DecidableEq K] (r : PmapOut K V O) : Except Err (Val K V O) := do
  let nonpmapd ← treeUnflatten r.treedef (List.zipWith pickLeaf r.dyn r.static)
  Filters.combine noLeaf (r.pmapd ++ [nonpmapd])

/-- What becomes of the outcomes of the lanes. -/
def pmapOutputs [DecidableEq K] (w : World K V A O) (ndim : V → Nat) (bat : List Nat → Bool)
    (outAxes : PT K (AxSpec V O)) (outs : List (Val K V O)) : Except Err (Val K V O) :=
  match outs with
  | [] => .error .notImplemented
  | o :: _ => do
    let rs ← mapE (pmapSplit (maxOutSize w ndim o) outAxes) outs
    let r ← collect w (maxOutSize w ndim o) bat rs
    pmapPostprocess r

/-- The function on `combine(_dynamic, static)` (394-395) -/
def pmapCall [DecidableEq K] (f : Fn K V O) (static dyn : Val K V O) : Except Err (Val K V O) := do
  let args ← Filters.combine noLeaf [dyn, static]
  applyTuple f args

/-- `_PmapWrapper._call` (461-500) -/
def filterPmap [DecidableEq K] (w : World K V A O) (ndim : V → Nat) (tup : K) (f : Fn K V O) (params : List String)
    (inAxes : InAxes K V O) (outAxes : PT K (AxSpec V O)) (axisSize : Option Nat) (args : List (Val K V O))
    (kwargs : List String) : Except Err (Val K V O) :=
  if kwargs.length ≠ 0 then .error .runtimeError
  else do
    let spec ← namedTree tup params args.length inAxes
    let axes ← resolveAxes (.node tup args) spec
    let p ← Filters.partition noLeaf (.leaf (.callable fun x => .ok (isArray x))) .none (.node tup args)
    let sizes ← pmapSizes w axes p.1
    let n ← batchSize axisSize sizes
    let lanes ← mapE (pmapLane w axes p.1) (List.range n)
    let outs ← mapE (pmapCall f p.2) lanes
    pmapOutputs w ndim (w.batched f (fullLanes p.2 lanes)) outAxes outs

/-- The wrapper `filter_pmap` makes, as far as donation goes. -/
structure PmapConfig where
  filterWarning : Bool
  donateArgnums : Option (List Nat)
deriving DecidableEq

/-- `filter_pmap` (646-681) with these `pmapkwargs` and this `donate` -/
def makePmap (pmapkwargs : List String) (donate : String) : Except Err PmapConfig :=
  if pmapkwargs.any (fun x => x == "default" || x == "fn" || x == "args" || x == "kwargs" || x == "out") then
    .error .valueError
  else if pmapkwargs.any (fun x => x == "static_broadcasted_argnums" || x == "donate_argnums") then .error .valueError
  else
    let donate := if donate == "arrays" then "all" else donate
    if donate ≠ "all" ∧ donate ≠ "warn" ∧ donate ≠ "none" then .error .valueError
    else .ok ⟨donate == "all", if donate ≠ "none" then some [0] else Option.none⟩

end Verif.Vmap
