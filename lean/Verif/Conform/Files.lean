import Verif.Serialise.Example
import Verif.Omega.Model

/-!
# The model against the tests: `tests/test_serialisation.py`, `tests/test_misc.py`

These are tests, not proofs: they say that the model computes what the tests of equinox expect.
-/

namespace Verif
namespace Conform
namespace Files

open PT Ser Ser.Ex

/-- Objects: a number for each, negative for callables. -/
abbrev T := PT String (Leaf env Int)

instance : DecidableEq env.Scal := inferInstanceAs (DecidableEq Num)

instance : DecidableEq (Leaf env Int)
  | .jax a, .jax b => decidable_of_iff (a = b) (by simp)
  | .np a, .np b => decidable_of_iff (a = b) (by simp)
  | .struct a b, .struct c d => decidable_of_iff (a = c ∧ b = d) (by simp)
  | .scal a, .scal b => decidable_of_iff (a = b) (by simp)
  | .other a, .other b => decidable_of_iff (a = b) (by simp)
  | .jax _, .np _ | .jax _, .struct _ _ | .jax _, .scal _ | .jax _, .other _
  | .np _, .jax _ | .np _, .struct _ _ | .np _, .scal _ | .np _, .other _
  | .struct _ _, .jax _ | .struct _ _, .np _ | .struct _ _, .scal _ | .struct _ _, .other _
  | .scal _, .jax _ | .scal _, .np _ | .scal _, .struct _ _ | .scal _, .other _
  | .other _, .jax _ | .other _, .np _ | .other _, .struct _ _ | .other _, .scal _ => .isFalse (by simp)

def jax (d : Nat) (shape : List Nat) (raw : Bytes) : T := .leaf (.jax ⟨.std d, shape, raw⟩)
def np (d : Nat) (shape : List Nat) (raw : Bytes) : T := .leaf (.np ⟨.std d, shape, raw⟩)
def scal (n : Num) : T := .leaf (.scal n)
def obj (n : Int) : T := .leaf (.other n)
def tuple (ts : List T) : T := .node "tuple" ts

/-- `tree_serialise_leaves(file, tree, filter_spec=spec)`: the bytes in the file -/
def save (spec : SSpec String env Int) (t : T) : Option Bytes :=
  match serialise (.leaf spec) noLeaf t [] with
  | (.ok _, s) => some s
  | (.error _, _) => Option.none

/-- `tree_deserialise_leaves(file, like, filter_spec=spec)` -/
def load (spec : DSpec String env Int) (like : T) (s : Bytes) : Except TErr T :=
  (deserialise (fun k : String => k) (fun n : Int => n) (.leaf spec) noLeaf like s).1

def both (t like : T) : Option (Except TErr T) := (save defaultSer t).map (load defaultDe like)

def tree : T := tuple [jax 0 [] [1], jax 2 [2] [1, 2], np 0 [] [1], np 2 [2] [1, 2],
  tuple [scal (.bool true), scal (.int 1), scal (.float 10)], obj (-1), obj 1]

/-- `_example_trees` (lines 11-45) but with objects of `like` that are not those of `tree`. Their types are equal. -/
def like2 : T := tuple [jax 0 [] [5], jax 2 [2] [6, 7], np 0 [] [5], np 2 [2] [6, 7],
  tuple [scal (.bool false), scal (.int 6), scal (.float 60)], obj (-2), obj 2]

def loaded : T := tuple [jax 0 [] [1], jax 2 [2] [1, 2], np 0 [] [1], np 2 [2] [1, 2],
  tuple [scal (.bool true), scal (.int 1), scal (.float 10)], obj (-2), obj 2]

/-- `test_leaf_serialisation_file`, lines 65-80: arrays and scalars from the file, other objects from `like` -/
example : both tree like2 = some (.ok loaded) := by decide +kernel

def bad1 : T := tuple [jax 0 [] [2], .node "dict a b" [jax 0 [] [2], jax 0 [] [2]]]

/-- `test_helpful_errors`, lines 83-98: the path is `[1]["a"]` -/
example : both (tuple [jax 0 [] [1], .node "dict" []]) bad1 = some (.error (.path [1, 0])) := by decide +kernel

def good2 : T := tuple [jax 0 [] [1], .node "dict a b" [jax 0 [] [1], jax 0 [] [1]]]
def bad2 : T := tuple [jax 0 [] [2], .node "dict a b" [jax 2 [] [2], jax 0 [] [2]]]

/-- `test_helpful_errors`, lines 100-120: the dtypes differ -/
example : both good2 bad2 = some (.error (.raw .runtimeError)) := by decide +kernel

/-- `test_python_scalar`, lines 164-167 -/
example : both (scal (.float 3)) (scal (.float 0)) = some (.ok (scal (.float 3))) := by decide +kernel

/-- `ser_filter_spec` of `test_custom_leaf_serialisation` -/
def serSpec : SSpec String env Int := fun x => match x with
  | .leaf (.jax _) => (.ok (), [])
  | x => defaultSer x

/-- `deser_filter_spec`; callables are replaced by another one. -/
def deSpec : DSpec String env Int := fun x s => match x with
  | .leaf (.other n) => if n < 0 then (.ok (obj (-9)), s) else defaultDe x s
  | x => defaultDe x s

def like3 : T := tuple [np 0 [] [5], np 2 [2] [6, 7], tuple [scal (.bool false), scal (.int 6), scal (.float 60)], obj (-2), obj 2]

/-- `test_custom_leaf_serialisation`, lines 170-234 -/
example : (save serSpec tree).map (fun s => (deserialise (fun k : String => k) (fun n : Int => decide (n < 0)) (.leaf deSpec)
    noLeaf like3 s).1) = some (.ok (tuple [np 0 [] [1], np 2 [2] [1, 2],
      tuple [scal (.bool true), scal (.int 1), scal (.float 10)], obj (-9), obj 2])) := by decide +kernel

/-! ## `ω` -/

open Omega in
def add (x y : PT String Int) : Except Err (PT String Int) := match x, y with
  | .leaf a, .leaf b => .ok (.leaf (a + b))
  | _, _ => .error .typeError

def lst (l : List Int) : PT String Int := .node "list" (l.map .leaf)

def val (x : Except Err (Omega.Omega String Int Nat)) : Except Err (PT String Int) := x.map (·.val)

/-- `test_ω_add_mul`, lines 10-16 -/
example : val (Omega.binary add (Omega.wrap (lst [0, 1])) (.omega (Omega.wrap (lst [1, 2])))) = .ok (lst [1, 3]) := by decide

/-- `lambda x: isinstance(x, int)`, with its code -/
def isInt : Omega.IsLeaf String Int Nat := ⟨some 0, fun x => match x with | .leaf _ => true | _ => false⟩
/-- `lambda x: isinstance(x, (int, str))` -/
def isIntStr : Omega.IsLeaf String Int Nat := ⟨some 1, fun x => match x with | .leaf _ => true | _ => false⟩

/-- `test_ω_is_leaf`, lines 45-53 -/
example : val (Omega.binary add ⟨lst [0, 1], Option.none⟩ (.omega ⟨lst [0, 1], some isInt⟩)) = .error .valueError := by decide
example : val (Omega.binary add ⟨lst [0, 1], some isInt⟩ (.omega ⟨lst [0, 1], Option.none⟩)) = .error .valueError := by decide
example : val (Omega.binary add ⟨lst [0, 1], some isInt⟩ (.omega ⟨lst [0, 1], some isIntStr⟩)) = .error .valueError := by decide

/-- `test_ω_is_leaf`, lines 55-59: two functions with the same code -/
example : ((Omega.binary add ⟨lst [0, 1], some isInt⟩ (.omega ⟨lst [0, 1], some isInt⟩)).map fun w =>
    (w.val, w.isLeaf.map fun f => f.fn (.leaf 4))) = .ok (lst [0, 2], some true) := by decide

/-- `x.at[()].set(y)` -/
def setOp (_ : PT String Int) (_ : Unit) (y : PT String Int) : Except Err (PT String Int) := .ok y

/-- `test_ω_inplace`, lines 27-39 -/
example : val (Omega.atOp setOp () (Omega.wrap (lst [5, 6])) (.scalar 3)) = .ok (lst [3, 3]) := by decide
example : val (Omega.atOp setOp () (Omega.wrap (lst [5, 6])) (.omega (Omega.wrap (lst [6, 7])))) = .ok (lst [6, 7]) := by decide

/-- `test_ω_is_leaf`, lines 75-78 -/
example : val (Omega.atOp setOp () ⟨lst [5, 6], some isInt⟩ (.omega (Omega.wrap (lst [6, 7])))) = .error .valueError := by decide
example : val (Omega.atOp setOp () (Omega.wrap (lst [5, 6])) (.omega ⟨lst [6, 7], some isInt⟩)) = .error .valueError := by decide

end Files
end Conform
end Verif
