import Verif.PyTree.Model

/-! # `equinox/_filters.py` and `equinox/_update.py` -/

namespace Verif
namespace Filters

open PT

variable {K : Type} {α : Type}

/-- An entry of a filter specification (`_filters.py:66-75`): a bool, a callable, or anything else.
Simplification: a callable returns a leaf, of which only the truth value matters. -/
inductive Spec (K α : Type) where
  | bool (b : Bool)
  | callable (f : PT K α → Except Err Bool)
  | other

/-- The inner function of `_make_filter_tree(is_leaf)` (`_filters.py:66-77`). `p` is `is_leaf`. -/
def makeFilterTree (p : PT K α → Bool) (mask : PT K (Spec K α)) (arg : PT K α) :
    Except Err (PT K Bool) :=
  match mask with
  | .leaf (.bool b) => treeMap1 p (fun _ => .ok (.leaf b)) arg
  | .leaf (.callable f) => treeMap1 p (fun x => do let b ← f x; pure (.leaf b)) arg
  | _ => .error .valueError

/-- `jtu.tree_map(_make_filter_tree(is_leaf), filter_spec, pytree)` (`_filters.py:129`, `149`). -/
def filterTree [DecidableEq K] (p : PT K α → Bool) (spec : PT K (Spec K α)) (t : PT K α) :
    Except Err (PT K Bool) :=
  treeMap2 noLeaf (makeFilterTree p) spec t

/-- `filter` (`_filters.py:80-132`). -/
def filter [DecidableEq K] (p : PT K α → Bool) (spec : PT K (Spec K α)) (inverse : Bool)
    (replace : PT K α) (t : PT K α) : Except Err (PT K α) := do
  let m ← filterTree p spec t
  treeMap2 noLeaf (fun mask x => match mask with
    | .leaf b => if b != inverse then .ok x else .ok replace
    | _ => .error .treeError) m t

/-- `partition` (`_filters.py:135-152`). -/
def partition [DecidableEq K] (p : PT K α → Bool) (spec : PT K (Spec K α)) (replace : PT K α)
    (t : PT K α) : Except Err (PT K α × PT K α) := do
  let m ← filterTree p spec t
  let left ← treeMap2 noLeaf (fun mask x => match mask with
    | .leaf b => if b then .ok x else .ok replace
    | _ => .error .treeError) m t
  let right ← treeMap2 noLeaf (fun mask x => match mask with
    | .leaf b => if b then .ok replace else .ok x
    | _ => .error .treeError) m t
  pure (left, right)

/-- `_combine` (`_filters.py:155-159`): the first argument that is not `None`. -/
def combineLeaf : List (PT K α) → PT K α
  | [] => .none
  | x :: xs => if x.isNone then combineLeaf xs else x

/-- `combine` (`_filters.py:175-209`). `p` is `is_leaf`; calling it without trees is a `TypeError`. -/
def combine [DecidableEq K] (p : PT K α → Bool) : List (PT K α) → Except Err (PT K α)
  | [] => .error .typeError
  | t :: ts => treeMap (fun x => x.isNone || p x) (fun xs => .ok (combineLeaf xs)) t ts

/-- `_apply_update` (`_update.py:5-9`). `add p u` is the Python expression `p + u`. -/
def applyUpdate (add : PT K α → PT K α → Except Err (PT K α)) (u p : PT K α) : Except Err (PT K α) :=
  if u.isNone then .ok p else add p u

/-- `apply_updates` (`_update.py:16-40`). -/
def applyUpdates [DecidableEq K] (add : PT K α → PT K α → Except Err (PT K α))
    (model updates : PT K α) : Except Err (PT K α) :=
  treeMap2 isNone (applyUpdate add) updates model

end Filters
end Verif
