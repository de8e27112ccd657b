import Verif.Errors.Model

/-! # What `error_if` is about: entries of batched arrays, and NaN-like values -/

namespace Verif.Errors

open PT NN

namespace Traced
variable {α : Type}

/-- Number of dimensions of one batch element. -/
def rank : Traced α → Nat
  | .array a => a.shape.length
  | .batched x _ => x.rank - 1
  | .jitted x => x.rank

/-- Every batch axis exists. -/
def WF : Traced α → Prop
  | .array _ => True
  | .batched x axis => x.WF ∧ axis < x.rank
  | .jitted x => x.WF

/-- In the batch element `lane` (one number for each enclosing `vmap`, innermost first) the array has the
entry `v` at `idx`. -/
def HasEntry : Traced α → (lane : List Nat) → (idx : List Nat) → (v : α) → Prop
  | .array a, lane, idx, v => lane = [] ∧ InB idx a.shape ∧ a.at_ idx = v
  | .batched x axis, lane, idx, v =>
    ∃ i rest, lane = i :: rest ∧ axis ≤ idx.length ∧ x.HasEntry rest (idx.insertIdx axis i) v
  | .jitted x, lane, idx, v => x.HasEntry lane idx v

/-- A scalar that is the same for the whole batch. -/
def Unbatched : Traced α → Prop
  | .array a => a.shape = []
  | .batched _ _ => False
  | .jitted x => x.Unbatched

end Traced

def Pred.WF : Pred → Prop
  | .py _ => True
  | .arr t => t.WF

def Index.WF : Index → Prop
  | .py _ => True
  | .arr t => t.WF

/-- Some entry of the predicate, in some batch element, is true. -/
def Pred.SomeTrue : Pred → Prop
  | .py b => b = true
  | .arr t => ∃ lane idx, t.HasEntry lane idx true

/-- `m` is the largest index in any batch element. -/
def Index.Largest : Index → Int → Prop
  | .py i, m => m = i
  | .arr t, m => (∃ lane idx, t.HasEntry lane idx m) ∧ ∀ lane idx v, t.HasEntry lane idx v → v ≤ m

/-- The NaN-like entry of a dtype. -/
def nanEntry : DType → Scalar
  | .inexact => .nan
  | .extFloat => .nan
  | .integer m => .int m
  | .extInteger m => .int m
  | .bool => .bool true

/-- An array in a dtype that NumPy does not have itself. -/
def Foreign : Leaf → Prop
  | .arr .extFloat _ => True
  | .arr (.extInteger _) _ => True
  | _ => False

/-- An array with all its entries replaced by the NaN-like one; other objects stay. -/
def nanned : Leaf → Leaf
  | .arr d a => .arr d ⟨a.shape, fun _ => nanEntry d⟩
  | .obj n => .obj n

/-- `x` contains an array. -/
def HasArray {K : Type} (x : PT K Leaf) : Prop := ∃ l ∈ x.leaves, l.isArray = true

end Verif.Errors
