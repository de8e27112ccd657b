import Verif.PyTree.Model
import Mathlib.Analysis.Real.Sqrt

/-!
# `nn.Linear` and `nn.MLP` (`equinox/nn/_linear.py` 13-103, `equinox/nn/_mlp.py` 26-152)

Numbers are real. Inputs of a layer are scalars and vectors; arrays of more dimensions are left out, as are dtypes. An
activation function is a pytree with a `__call__`, which takes a number to a number, or raises, depending on the leaves of the
pytree (`Calls`); among these there may be arrays of any number of dimensions. Random numbers are parameters (`Rand`).
-/

namespace Verif
namespace NN
namespace Mlp

open PT

variable {K O Key : Type}

/-- An array of any number of dimensions. -/
inductive Arr where
  | base (r : ℝ)
  | stack (rows : List Arr)

/-- A leaf of an activation function: an array or anything else. -/
inductive ALeaf (O : Type) where
  | arr (a : Arr)
  | other (o : O)

/-- An activation function. -/
abbrev Act (K O : Type) := PT K (ALeaf O)

/-- `a(b)` for an activation function `a` and a number `b`. -/
abbrev Calls (K O : Type) := Act K O → ℝ → Except Err ℝ

/-- A scalar or a vector. -/
inductive V where
  | scalar (r : ℝ)
  | vec (l : List ℝ)

/-- `"scalar"` or a number of features. -/
inductive Size where
  | scalar
  | num (n : Nat)
deriving DecidableEq

/-- `1 if size == "scalar" else size` -/
def Size.count : Size → Nat
  | .scalar => 1
  | .num n => n

/-- `jax.random`: keys, and uniform numbers in the shape of a matrix or of a vector. -/
structure Rand (Key : Type) where
  split : Key → Nat → List Key
  matrix : Key → (rows cols : Nat) → (lo hi : ℝ) → List (List ℝ)
  vector : Key → (n : Nat) → (lo hi : ℝ) → List ℝ

/-! ## `Linear` -/

structure Linear where
  weight : List (List ℝ)
  bias : Option (List ℝ)
  inFeatures : Size
  outFeatures : Size
  useBias : Bool

/-- `lim` (54-57) -/
noncomputable def lim (n : Nat) : ℝ := if n = 0 then 1 else 1 / Real.sqrt n

/-- The keys of weight and bias (51). -/
def twoKeys (R : Rand Key) (key : Key) : Except Err (Key × Key) :=
  match R.split key 2 with
  | [w, b] => .ok (w, b)
  | _ => .error .valueError

/-- `Linear.__init__` (22-65); `default_init` (`nn/_misc.py`) of a real dtype. -/
noncomputable def Linear.init (R : Rand Key) (inF outF : Size) (useBias : Bool) (key : Key) : Except Err Linear := do
  let ks ← twoKeys R key
  let l := lim inF.count
  pure {
    weight := R.matrix ks.1 outF.count inF.count (-l) l
    bias := if useBias then some (R.vector ks.2 outF.count (-l) l) else Option.none
    inFeatures := inF
    outFeatures := outF
    useBias := useBias }

/-- `x` as it is multiplied (93-96). -/
def Linear.input (L : Linear) (x : V) : Except Err V :=
  match L.inFeatures, x with
  | .scalar, .scalar r => .ok (.vec [r])
  | .scalar, .vec _ => .error .valueError
  | .num _, x => .ok x

/-- `sum_j row[j] * x[j]`, for as many numbers in both. -/
def dot (row x : List ℝ) : Except Err ℝ :=
  if row.length = x.length then .ok (List.zipWith (· * ·) row x).sum else .error .typeError

/-- The number of columns of `weight`, whose shape is `(out_features, in_features)`. -/
def Linear.columns (L : Linear) : Nat := L.inFeatures.count

/-- `weight @ x` (97); the second operand has to have a dimension. -/
def Linear.matmul (L : Linear) : V → Except Err (List ℝ)
  | .scalar _ => .error .valueError
  | .vec l => if l.length = L.columns then mapE (fun row => dot row l) L.weight else .error .typeError

/-- `x + bias` (98-99) -/
def addBias (bias : Option (List ℝ)) (x : List ℝ) : Except Err (List ℝ) :=
  match bias with
  | Option.none => .ok x
  | some b => if x.length = b.length then .ok (List.zipWith (· + ·) x b) else .error .typeError

/-- The output (100-102). -/
def Linear.output (L : Linear) (x : List ℝ) : Except Err V :=
  match L.outFeatures, x with
  | .scalar, [r] => .ok (.scalar r)
  | .scalar, _ => .error .assertionError
  | .num _, x => .ok (.vec x)

/-- `Linear.__call__` (67-103) -/
def Linear.call (L : Linear) (x : V) : Except Err V := do
  let x ← L.input x
  let y ← L.matmul x
  let z ← addBias L.bias y
  L.output z

/-! ## Activation functions -/

/-- One leaf of `filter_vmap(lambda: act, axis_size=n)()`. -/
def copyLeaf (n : Nat) : ALeaf O → ALeaf O
  | .arr a => .arr (.stack (List.replicate n a))
  | .other o => .other o

/-- `filter_vmap(lambda: act, axis_size=n)()`: every array is repeated `n` times along a new first axis. -/
def copies (n : Nat) (act : Act K O) : Act K O := act.map (copyLeaf n)

/-- `x[i] if is_array(x) else x`; indexing a JAX array with an integer out of bounds takes the last row. -/
def indexLeaf (i : Nat) : ALeaf O → Except Err (ALeaf O)
  | .arr (.base _) => .error .indexError
  | .arr (.stack rows) => match rows[min i (rows.length - 1)]? with
    | some a => .ok (.arr a)
    | Option.none => .error .indexError
  | .other o => .ok (.other o)

/-- `jtu.tree_map(lambda x: x[i] if is_array(x) else x, act)` -/
def index (i : Nat) (act : Act K O) : Except Err (Act K O) := do
  let ls ← mapE (indexLeaf i) act.leaves
  treeUnflatten act.shape (ls.map fun a => .leaf a)

/-- The size of a leaf along the axis that is mapped: arrays must have one. -/
def leafSize : ALeaf O → Except Err (List Nat)
  | .arr (.base _) => .error .valueError
  | .arr (.stack rows) => .ok [rows.length]
  | .other _ => .ok []

/-- `filter_vmap(lambda a, b: a(b))(act, x)`: each number has its own copy of the arrays in `act`, and all first axes must be
of the size of `x`. -/
def vmapApply (call : Calls K O) (act : Act K O) : V → Except Err V
  | .scalar _ => .error .valueError
  | .vec l => do
    let sizes ← mapE leafSize act.leaves
    if !sizes.flatten.all (· == l.length) then throw .valueError
    let ys ← mapE (fun k => do
      let a ← index k act
      match l[k]? with
      | some b => call a b
      | Option.none => .error .indexError) (List.range l.length)
    pure (.vec ys)

/-! ## `MLP` -/

structure MLP (K O : Type) where
  layers : List Linear
  activation : Act K O
  finalActivation : Act K O
  outSize : Size
  depth : Nat

/-- A key by its number. -/
def nth (keys : List Key) (i : Nat) : Except Err Key :=
  match keys[i]? with
  | some k => .ok k
  | Option.none => .error .indexError

/-- The layers (90-109). -/
noncomputable def makeLayers (R : Rand Key) (inSize outSize : Size) (width depth : Nat) (useBias useFinalBias : Bool)
    (keys : List Key) : Except Err (List Linear) :=
  match depth with
  | 0 => do
    let k ← nth keys 0
    let l ← Linear.init R inSize outSize useFinalBias k
    pure [l]
  | d + 1 => do
    let k ← nth keys 0
    let first ← Linear.init R inSize (.num width) useBias k
    let middle ← mapE (fun i => do
      let k ← nth keys (i + 1)
      Linear.init R (.num width) (.num width) useBias k) (List.range d)
    let k ← nth keys (keys.length - 1)
    let last ← Linear.init R (.num width) outSize useFinalBias k
    pure (first :: middle ++ [last])

/-- The copies of the final activation (119-124). -/
def finalCopies (outSize : Size) (act : Act K O) : Act K O :=
  match outSize with
  | .scalar => act
  | .num n => copies n act

/-- `MLP.__init__` (44-126) -/
noncomputable def MLP.init (R : Rand Key) (inSize outSize : Size) (width depth : Nat) (activation finalActivation : Act K O)
    (useBias useFinalBias : Bool) (key : Key) : Except Err (MLP K O) := do
  let layers ← makeLayers R inSize outSize width depth useBias useFinalBias (R.split key (depth + 1))
  pure {
    layers := layers
    activation := copies depth (copies width activation)
    finalActivation := finalCopies outSize finalActivation
    outSize := outSize
    depth := depth }

/-- The loop over the hidden layers (141-146), from the layer with number `i`. -/
def hidden (call : Calls K O) (act : Act K O) : Nat → List Linear → V → Except Err V
  | _, [], x => .ok x
  | i, L :: Ls, x => do
    let x ← L.call x
    let a ← index i act
    let x ← vmapApply call a x
    hidden call act (i + 1) Ls x

/-- The final activation (148-151). -/
def finish (call : Calls K O) (m : MLP K O) (x : V) : Except Err V :=
  match m.outSize, x with
  | .scalar, .scalar r => do
    let y ← call m.finalActivation r
    pure (.scalar y)
  | .scalar, .vec _ => .error .typeError
  | .num _, x => vmapApply call m.finalActivation x

/-- The last layer, `self.layers[-1]`. -/
def lastLayer (layers : List Linear) : Except Err Linear :=
  match layers.getLast? with
  | some L => .ok L
  | Option.none => .error .indexError

/-- `MLP.__call__` (128-152) -/
def MLP.call (call : Calls K O) (m : MLP K O) (x : V) : Except Err V := do
  let x ← hidden call m.activation 0 m.layers.dropLast x
  let L ← lastLayer m.layers
  let x ← L.call x
  finish call m x

end Mlp
end NN
end Verif
