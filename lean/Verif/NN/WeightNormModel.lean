import Verif.Basic
import Mathlib.Analysis.Real.Sqrt

/-!
# `equinox/nn/_weight_norm.py`

An array is a shape with an element at each multi-index; there is no element outside of the bounds, and an element inside of them is
`none` if it is not a number (`0 / 0`).  Arithmetic is over the real numbers.  A layer is a table of attributes with a function of
them; `tree_at` replaces one attribute (see C05 for `tree_at` itself).  `g` is taken to keep the shape that `__init__` gives it.
-/

namespace Verif
namespace WeightNorm

/-- An array. -/
structure RArr where
  shape : List Nat
  val : List Nat → Option ℝ

/-- All indices of a shape, in row-major order. -/
def indices : List Nat → List (List Nat)
  | [] => [[]]
  | n :: s => (List.range n).flatMap fun i => (indices s).map (i :: ·)

/-- `a + b` of numbers one of which may not be a number. -/
noncomputable def add (a b : Option ℝ) : Option ℝ := a.bind fun a => b.map fun b => a + b

/-- `a * b`. -/
noncomputable def mul (a b : Option ℝ) : Option ℝ := a.bind fun a => b.map fun b => a * b

/-- `a / b`. -/
noncomputable def div (a b : Option ℝ) : Option ℝ := a.bind fun a => b.bind fun b => if b = 0 then none else some (a / b)

/-- The sum of the squares of some elements. -/
noncomputable def sumSq : List (Option ℝ) → Option ℝ
  | [] => some 0
  | a :: as => add (mul a a) (sumSq as)

/-- `jnp.linalg.norm(v, keepdims=True)`: one number, in an array with an axis of size one for each axis of `v`. -/
noncomputable def norm (v : RArr) : RArr :=
  let r := (sumSq ((indices v.shape).map v.val)).map Real.sqrt
  { shape := v.shape.map fun _ => 1,
    val := fun idx => if idx ∈ indices (v.shape.map fun _ => 1) then r else none }

/-- `v[:, …, i, …, :]`, a lane of `jax.vmap(…, in_axes=a)`. -/
def RArr.slice (a i : Nat) (v : RArr) : RArr where
  shape := v.shape.eraseIdx a
  val idx := v.val (idx.insertIdx a i)

/-- The result of `jax.vmap(…, out_axes=a)` over `n` lanes of this shape. -/
def RArr.stack (a n : Nat) (shape : List Nat) (lanes : Nat → RArr) : RArr where
  shape := shape.insertIdx a n
  val idx := (idx[a]?).bind fun i => if i < n then (lanes i).val (idx.eraseIdx a) else none

/-- JAX counts a negative axis from the end; an axis out of range is a `ValueError`. -/
def canonical (axis : Int) (ndim : Nat) : Except Err Nat :=
  if 0 ≤ axis ∧ axis < ndim then .ok axis.toNat
  else if axis < 0 ∧ 0 ≤ axis + ndim then .ok (axis + ndim).toNat
  else .error .valueError

/-- `_norm_except_axis` (lines 17-21). -/
noncomputable def normExceptAxis (v : RArr) (axis : Option Int) : Except Err RArr :=
  match axis with
  | none => .ok (norm v)
  | some axis => do
    let a ← canonical axis v.shape.length
    let lanes := fun i => norm (v.slice a i)
    pure (RArr.stack a ((v.shape[a]?).getD 0) ((v.shape.eraseIdx a).map fun _ => 1) lanes)

/-- The element at `idx` of an array that is broadcast: axes of size one are repeated. -/
def RArr.bcast (x : RArr) (idx : List Nat) : Option ℝ := x.val (List.zipWith (fun n i => if n = 1 then 0 else i) x.shape idx)

/-- A layer: its attributes which are arrays, and what it computes from them. -/
structure Lyr (Name X Y : Type) where
  attr : Name → Option RArr
  call : (Name → Option RArr) → X → Y

/-- `tree_at(lambda l: getattr(l, name), layer, weight)`. -/
def Lyr.withAttr {Name X Y : Type} [DecidableEq Name] (l : Lyr Name X Y) (name : Name) (weight : RArr) : Lyr Name X Y :=
  { l with attr := fun n => if n = name then some weight else l.attr n }

/-- The fields of `WeightNorm` (lines 66-70). -/
structure WN (Name X Y : Type) where
  layer : Lyr Name X Y
  g : RArr
  weightName : Name
  axis : Option Int

/-- `WeightNorm.__init__` (lines 87-96). -/
noncomputable def mk {Name X Y : Type} (layer : Lyr Name X Y) (weightName : Name) (axis : Option Int) : Except Err (WN Name X Y) :=
  match layer.attr weightName with
  | none => .error .attributeError
  | some w => do
    let g ← normExceptAxis w axis
    pure ⟨layer, g, weightName, axis⟩

/-- `v * self.g / self._norm(v)` (line 112). -/
noncomputable def weight (v g n : RArr) : RArr where
  shape := v.shape
  val idx := div (mul (v.val idx) (g.bcast idx)) (n.bcast idx)

/-- `WeightNorm.__call__` (lines 111-114). -/
noncomputable def call {Name X Y : Type} [DecidableEq Name] (W : WN Name X Y) (x : X) : Except Err Y :=
  match W.layer.attr W.weightName with
  | none => .error .attributeError
  | some v => do
    let n ← normExceptAxis v W.axis
    let layer := W.layer.withAttr W.weightName (weight v W.g n)
    pure (layer.call layer.attr x)

end WeightNorm
end Verif
