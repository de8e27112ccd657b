import Verif.PyTree.Model

/-!
# `ω` (`equinox/internal/_omega.py`)

`α` are the leaves: arrays, Python scalars and so on. An operator of Python on two objects is a function which may raise.
-/

namespace Verif
namespace Omega

open PT

variable {K α C : Type}

/-- A callable passed as `is_leaf`: its bytecode, if it has a `__code__`, and what it computes. -/
structure IsLeaf (K α C : Type) where
  code : Option C
  fn : PT K α → Bool

/-- An instance of `ω` (48-49). -/
structure Omega (K α C : Type) where
  val : PT K α
  isLeaf : Option (IsLeaf K α C)

/-- The `is_leaf` of `jtu.tree_map`. -/
def pred : Option (IsLeaf K α C) → PT K α → Bool
  | some f => f.fn
  | Option.none => noLeaf

/-- `value ** ω` (9-11). -/
def wrap (v : PT K α) : Omega K α C := ⟨v, Option.none⟩

/-- `_equal_code` (77-89): callables without `__code__`, and `None`, have the same sentinel for a code. -/
def equalCode [DecidableEq C] (f g : Option (IsLeaf K α C)) : Bool := f.bind (·.code) = g.bind (·.code)

/-- The right-hand side of a method. -/
inductive Other (K α C : Type) where
  | omega (w : Omega K α C)
  /-- `bool`, `complex`, `float`, `int` or `jax.Array` -/
  | scalar (x : α)
  | unknown

/-- The method made by `_set_binary` (92-111). -/
def binary [DecidableEq K] [DecidableEq C] (op : PT K α → PT K α → Except Err (PT K α)) (self : Omega K α C) :
    Other K α C → Except Err (Omega K α C)
  | .omega other =>
    if self.val.treeStructure noLeaf ≠ other.val.treeStructure noLeaf then .error .valueError
    else if equalCode self.isLeaf other.isLeaf = false then .error .valueError
    else do
      let v ← treeMap2 (pred self.isLeaf) op self.val other.val
      pure ⟨v, self.isLeaf⟩
  | .scalar x => do
    let v ← treeMap1 (pred self.isLeaf) (fun y => op y (.leaf x)) self.val
    pure ⟨v, self.isLeaf⟩
  | .unknown => .error .runtimeError

/-- `ω.call` (60-64), and with `fn` an operator the method made by `_set_unary` (116-125), and with `fn` indexing
`ω.__getitem__` (54-58). -/
def call (fn : PT K α → Except Err (PT K α)) (self : Omega K α C) : Except Err (Omega K α C) := do
  let v ← treeMap1 (pred self.isLeaf) fn self.val
  pure ⟨v, self.isLeaf⟩

/-- `_rev` (128-132). -/
def rev (op : PT K α → PT K α → Except Err (PT K α)) (x y : PT K α) : Except Err (PT K α) := op y x

/-- The binary operators of Python that occur in the table, as functions of the module `operator`. -/
inductive Op where
  | add | sub | mul | matmul | truediv | floordiv | mod | pow | lshift | rshift | and_ | xor | or_
  | lt | le | eq | ne | gt | ge
deriving DecidableEq, Repr

/-- Names of special methods. -/
inductive Name where
  | fwd (o : Op)
  | refl (o : Op)
deriving DecidableEq, Repr

/-- The table (135-169): for each name, the operator and whether it is wrapped in `_rev`. -/
def table : List (Name × Op × Bool) := [
  (.fwd .add, .add, false), (.fwd .sub, .sub, false), (.fwd .mul, .mul, false), (.fwd .matmul, .matmul, false),
  (.fwd .truediv, .truediv, false), (.fwd .floordiv, .floordiv, false), (.fwd .mod, .mod, false), (.fwd .pow, .pow, false),
  (.fwd .lshift, .lshift, false), (.fwd .rshift, .rshift, false), (.fwd .and_, .and_, false), (.fwd .xor, .xor, false),
  (.fwd .or_, .or_, false),
  (.refl .add, .add, true), (.refl .sub, .sub, true), (.refl .mul, .mul, true), (.refl .matmul, .matmul, true),
  (.refl .truediv, .truediv, true), (.refl .floordiv, .floordiv, true), (.refl .mod, .mod, true), (.refl .pow, .pow, true),
  (.refl .lshift, .lshift, true), (.refl .rshift, .rshift, true), (.refl .and_, .and_, true), (.refl .xor, .xor, true),
  (.refl .or_, .or_, true),
  (.fwd .lt, .lt, false), (.fwd .le, .le, false), (.fwd .eq, .eq, false), (.fwd .ne, .ne, false), (.fwd .gt, .gt, false),
  (.fwd .ge, .ge, false)]

/-- The special method of `ω` of this name. -/
def method [DecidableEq K] [DecidableEq C] (sem : Op → PT K α → PT K α → Except Err (PT K α)) (n : Name)
    (self : Omega K α C) (other : Other K α C) : Except Err (Omega K α C) :=
  match table.lookup n with
  | some (o, r) => binary (if r then rev (sem o) else sem o) self other
  | Option.none => .error .typeError

/-- The method which Python tries on the right operand when the left one returns `NotImplemented`. -/
def reflected : Op → Name
  | .lt => .fwd .gt
  | .le => .fwd .ge
  | .gt => .fwd .lt
  | .ge => .fwd .le
  | .eq => .fwd .eq
  | .ne => .fwd .ne
  | o => .refl o

/-- The expression `self o other`. -/
def exprLeft [DecidableEq K] [DecidableEq C] (sem : Op → PT K α → PT K α → Except Err (PT K α)) (o : Op)
    (self : Omega K α C) (other : Other K α C) : Except Err (Omega K α C) := method sem (.fwd o) self other

/-- The expression `x o self` for an object `x` whose own method returns `NotImplemented`. -/
def exprRight [DecidableEq K] [DecidableEq C] (sem : Op → PT K α → PT K α → Except Err (PT K α)) (o : Op)
    (x : α) (self : Omega K α C) : Except Err (Omega K α C) := method sem (reflected o) self (.scalar x)

/-- `self.at[item].op(other)`, the methods made by `_set_binary_at` (197-237). -/
def atOp {I : Type} [DecidableEq K] [DecidableEq C] (op : PT K α → I → PT K α → Except Err (PT K α)) (item : I)
    (self : Omega K α C) : Other K α C → Except Err (Omega K α C)
  | .omega other =>
    if self.val.treeStructure noLeaf ≠ other.val.treeStructure noLeaf then .error .valueError
    else if equalCode self.isLeaf other.isLeaf = false then .error .valueError
    else do
      let v ← treeMap2 (pred self.isLeaf) (fun x y => op x item y) self.val other.val
      pure ⟨v, self.isLeaf⟩
  | .scalar z => do
    let v ← treeMap1 (pred self.isLeaf) (fun x => op x item (.leaf z)) self.val
    pure ⟨v, self.isLeaf⟩
  | .unknown => .error .runtimeError

end Omega
end Verif
