import Verif.Basic

/-!
# `tree_check` (`equinox/_tree.py`, lines 352-507)

Python objects form a graph, which may have sharing and cycles. An object is identified by a number (its `id`).
Simplifications: flattening an object always gives the same children (a custom node that makes new children on every
flattening is outside of the model), and the name of the type in the message is left out.
-/

namespace Verif
namespace TreeCheck

/-- What an object is for JAX. `None` and empty containers are `node []`. -/
inductive Kind where
  | leaf
  | node (children : List Nat)

/-- The objects in memory. -/
abbrev Heap := Nat → Kind

/-- The three `ValueError`s, and the object they are about. -/
inductive Msg where
  /-- lines 405-410 -/
  | immediate (x : Nat)
  /-- lines 487-491 -/
  | selfReferential (x : Nat)
  /-- lines 493-498 -/
  | multiple (x : Nat)
deriving DecidableEq, Repr

/-- `all_nodes`: the latest value of each key comes first. -/
abbrev Seen := List (Nat × Bool)

/-- `tree_flatten_one_level` (lines 352-417): the children, if the object is not a leaf. -/
def flattenOneLevel (h : Heap) (x : Nat) : Except Msg (Option (List Nat)) :=
  match h x with
  | .leaf => .ok none
  | .node cs => if x ∈ cs then .error (.immediate x) else .ok (some cs)

/-- The loop over the children (lines 505-506), for the function `f` that checks a child. -/
def checkAll (f : Nat → Seen → Option (Except Msg Seen)) : List Nat → Seen → Option (Except Msg Seen)
  | [], seen => some (.ok seen)
  | c :: cs, seen =>
    match f c seen with
    | some (.ok seen') => checkAll f cs seen'
    | r => r

/-- `_tree_check` (lines 477-507). Python recurses without a bound; `fuel` bounds the depth here, and `none` says that
it did not suffice. -/
def check (h : Heap) : Nat → Nat → Seen → Option (Except Msg Seen)
  | 0, _, _ => none
  | fuel + 1, x, seen =>
    match flattenOneLevel h x with
    | .error e => some (.error e)
    | .ok none => some (.ok seen)
    | .ok (some []) => some (.ok seen)
    | .ok (some (c :: cs)) =>
      match seen.lookup x with
      | some true => some (.error (.selfReferential x))
      | some false => some (.error (.multiple x))
      | none =>
        match checkAll (check h fuel) (c :: cs) ((x, true) :: seen) with
        | some (.ok seen') => some (.ok ((x, false) :: seen'))
        | r => r

/-- `tree_check` (lines 420-471), with a bound on the depth. -/
def treeCheck (h : Heap) (fuel : Nat) (x : Nat) : Option (Except Msg Unit) :=
  match check h fuel x [] with
  | some (.ok _) => some (.ok ())
  | some (.error e) => some (.error e)
  | none => none

end TreeCheck
end Verif
