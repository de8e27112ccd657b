import Verif.Vmap.Model

/-!
# The model against the tests: `tests/test_vmap.py`

These are tests, not proofs: they say that the model computes what the tests of equinox expect.
-/

namespace Verif
namespace Conform
namespace Vmap

open PT Verif.Vmap

/-- An array: entries in row-major order. -/
structure Arr where
  inexact : Bool
  shape : List Nat
  data : List Int
deriving DecidableEq

/-- All indices of an array of given shape, in row-major order. -/
def indices : List Nat → List (List Nat)
  | [] => [[]]
  | n :: s => (List.range n).flatMap fun i => (indices s).map (i :: ·)

/-- The position of an index. -/
def ravel : List Nat → List Nat → Nat
  | _ :: s, i :: is => i * s.foldl (· * ·) 1 + ravel s is
  | _, _ => 0

def Arr.get (a : Arr) (idx : List Nat) : Int := (a.data[ravel a.shape idx]?).getD 0

def ofFn (inexact : Bool) (shape : List Nat) (f : List Nat → Int) : Arr := ⟨inexact, shape, (indices shape).map f⟩

/-- An axis, with negative ones counted from the end. -/
def norm (ax : Int) (rank : Nat) : Option Nat :=
  if 0 ≤ ax ∧ ax < rank then some ax.toNat
  else if -(rank : Int) ≤ ax ∧ ax < 0 then some (ax + rank).toNat
  else Option.none

def slice (a : Arr) (ax : Int) (i : Nat) : Arr :=
  match norm ax a.shape.length with
  | some k => ofFn a.inexact (a.shape.eraseIdx k) fun idx => a.get (idx.insertIdx k i)
  | Option.none => a

def moveaxis (a : Arr) (ax : Int) : Except Err Arr :=
  match a.shape, norm ax a.shape.length with
  | n :: s, some k => .ok (ofFn a.inexact (s.insertIdx k n) fun idx => a.get ((idx[k]?).getD 0 :: idx.eraseIdx k))
  | _, _ => .error .valueError

def stack (xs : List Arr) : Arr :=
  ⟨(xs.head?.map Arr.inexact).getD false, xs.length :: (xs.head?.map Arr.shape).getD [], xs.flatMap Arr.data⟩

def world : World String Arr (List Nat × Bool) Int where
  aval a := (a.shape, a.inexact)
  size a ax := (norm ax a.shape.length).bind fun k => a.shape[k]?
  slice := slice
  stack := stack
  moveaxis := moveaxis
  asArray o := some ⟨false, [], [o]⟩
  batched _ _ _ := false

/-- `x + y`, with broadcasting from the right. -/
def dims : List Nat → List Nat → List Nat
  | [], t => t
  | s, [] => s
  | a :: s, b :: t => max a b :: dims s t

def pick : List Nat → List Nat → List Nat
  | a :: s, i :: is => (if a = 1 then 0 else i) :: pick s is
  | _, _ => []

def broadcastGet (a : Arr) (idx : List Nat) : Int := a.get (pick a.shape.reverse idx.reverse).reverse

def asArr' : Leaf Arr Int → Arr
  | .arr a => a
  | .obj n => ⟨false, [], [n]⟩

def plus : Leaf Arr Int → Leaf Arr Int → Leaf Arr Int
  | .obj m, .obj n => .obj (m + n)
  | x, y =>
    let a := asArr' x
    let b := asArr' y
    .arr (ofFn (a.inexact || b.inexact) (dims a.shape.reverse b.shape.reverse).reverse
      fun idx => broadcastGet a idx + broadcastGet b idx)

abbrev T := Val String Arr Int
abbrev Axes := PT String (AxSpec Arr Int)

def ints (shape : List Nat) (data : List Int) : T := .leaf (.arr ⟨false, shape, data⟩)
def floats (shape : List Nat) (data : List Int) : T := .leaf (.arr ⟨true, shape, data⟩)
def py (n : Int) : T := .leaf (.obj n)

/-- `_zero_if_inexact_array_else_none` -/
def zeroIfInexact : Axes := .leaf (.callable fun l => match l with
  | .arr a => .ok (if a.inexact then some 0 else Option.none)
  | .obj _ => .ok Option.none)

def default : Axes := .leaf (ifArray 0)

def vmap (f : Fn String Arr Int) (inAxes : InAxes String Arr Int) (outAxes : Axes) (axisSize : Option Nat)
    (params : List String) (args : List T) : Except Err T :=
  filterVmap world "tuple" f params inAxes outAxes axisSize args []

def fArgs : Fn String Arr Int
  | [.leaf a, .node _ [.node _ [.leaf b]], .leaf c, .leaf d] => .ok (.leaf (plus (plus (plus a b) c) d))
  | _ => .error .typeError

def inArgs : Axes :=
  .node "tuple" [zeroIfInexact, .node "list" [.node "dict a" [.none]], .leaf (.int 0), .leaf (ifArray 0)]

/-- `test_args`, lines 16-24 -/
example : vmap fArgs (.tree inArgs) default Option.none ["a", "b", "c", "d"]
    [ints [1] [1], .node "list" [.node "dict a" [ints [1] [2]]], ints [1] [3], py 4] = .ok (ints [1, 1] [10]) := by decide

def add2 : Fn String Arr Int
  | [.leaf a, .leaf b] => .ok (.leaf (plus a b))
  | _ => .error .typeError

/-- `test_default`, lines 27-32 -/
example : vmap add2 (.tree zeroIfInexact) default Option.none ["a", "b"] [ints [] [3], floats [1] [3]] =
    .ok (floats [1] [6]) := by decide

/-- `test_default`, lines 34-35 -/
example : vmap add2 (.tree zeroIfInexact) default Option.none ["a", "b"] [floats [] [3], floats [1] [3]] =
    .error .valueError := by decide

def ident : Fn String Arr Int
  | [x] => .ok x
  | _ => .error .typeError

/-- `test_out`, lines 42 and 47 -/
example : vmap ident (.tree default) .none (some 5) ["x"] [py 1] = .ok (py 1) := by decide

/-- `test_out`, lines 43 and 48 -/
example : vmap ident (.tree .none) .none (some 5) ["x"] [ints [2] [3, 4]] = .ok (ints [2] [3, 4]) := by decide

/-- `test_out`, lines 44 and 49 -/
example : vmap ident (.tree default) (.leaf (.int 0)) (some 5) ["x"] [py 1] = .ok (ints [5] [1, 1, 1, 1, 1]) := by decide

/-- `test_out`, lines 45 and 50 -/
example : vmap ident (.tree .none) (.leaf (.int 0)) (some 5) ["x"] [ints [2] [3, 4]] =
    .ok (ints [5, 2] [3, 4, 3, 4, 3, 4, 3, 4, 3, 4]) := by decide

/-- `test_no_arrays`, lines 53-58 -/
example : vmap ident (.tree default) zeroIfInexact (some 5) ["x"] [py 1] = .ok (py 1) := by decide

/-- `def __call__(self, x): return x + self.increment` for a module with one field -/
def call : Fn String Arr Int
  | [.node _ [.leaf inc], .leaf x] => .ok (.leaf (plus x inc))
  | _ => .error .typeError

/-- `test_methods`, lines 80-113: the wrapper is called as a method; `m` is the first argument -/
example : vmap call (.tree default) default Option.none ["self", "x"] [.node "M" [py 5], floats [1] [1]] =
    .ok (floats [1] [6]) := by decide

/-- `test_map_non_jax`, lines 125-142, for a tree with an object which is not an array -/
example : vmap ident (.tree default) default Option.none ["x"] [.node "MLP" [floats [2, 1] [7, 8], py 3]] =
    .ok (.node "MLP" [floats [2, 1] [7, 8], py 3]) := by decide

def x34 : T := floats [3, 4] [1, 2, 3, 4, 5, 6, 7, 8, 9, 10, 11, 12]

/-- `test_keyword_in_axes`, lines 145-150 -/
example : vmap add2 (.dict [("y", .leaf (.int 1))]) default Option.none ["x", "y"] [x34, floats [1, 3] [100, 200, 300]] =
    .ok (floats [3, 4] [101, 102, 103, 104, 205, 206, 207, 208, 309, 310, 311, 312]) := by decide

def addOne : Fn String Arr Int
  | [.leaf x] => .ok (.leaf (plus x (.obj 1)))
  | [.leaf x, .leaf y] => .ok (.leaf (plus x y))
  | _ => .error .typeError

/-- `test_keyword_default`, lines 153-157: `y` has a default value and is not passed -/
example : vmap addOne (.dict [("x", .leaf (.int 0))]) default Option.none ["x", "y"] [x34] =
    .ok (floats [3, 4] [2, 3, 4, 5, 6, 7, 8, 9, 10, 11, 12, 13]) := by decide

/-- `test_keyword_default`, lines 159-160 -/
example : vmap ident (.dict [("y", .leaf (.int 0))]) default Option.none ["x", "y"] [x34] = .error .valueError := by decide

def arange24 : List Int := (List.range 24).map Int.ofNat

def double : Fn String Arr Int
  | [.leaf x] => .ok (.leaf (plus x x))
  | _ => .error .typeError

/-- The shape and one entry of the result of `filter_vmap(foo, out_axes=out_axes)(x)`. -/
def entry (ax : Int) (idx : List Nat) : Option (List Nat × Int) :=
  match vmap double (.tree default) (.leaf (.int ax)) Option.none ["x"] [ints [2, 3, 4] arange24] with
  | .ok (.leaf (.arr a)) => some (a.shape, a.get idx)
  | _ => Option.none

/-- `test_out_axes_with_at_least_three_dimensions`, lines 163-173: the entry of `x[1, 2, 3]`, doubled -/
example : entry 0 [1, 2, 3] = some ([2, 3, 4], 46) := by decide +kernel
example : entry 1 [2, 1, 3] = some ([3, 2, 4], 46) := by decide +kernel
example : entry 2 [2, 3, 1] = some ([3, 4, 2], 46) := by decide +kernel
example : entry (-1) [2, 3, 1] = some ([3, 4, 2], 46) := by decide +kernel
example : entry (-2) [2, 1, 3] = some ([3, 2, 4], 46) := by decide +kernel
example : entry (-3) [1, 2, 3] = some ([2, 3, 4], 46) := by decide +kernel
/-- the entry of `x[0, 2, 1]`, doubled -/
example : entry 1 [2, 0, 1] = some ([3, 2, 4], 18) := by decide +kernel
example : entry (-1) [2, 1, 0] = some ([3, 4, 2], 18) := by decide +kernel

end Vmap
end Conform
end Verif
