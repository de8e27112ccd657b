import Verif.State.Model
import Mathlib.Analysis.Real.Sqrt

/-!
# `equinox/nn/_spectral_norm.py`

Arithmetic is over the real numbers.  A vector is a function with its length kept beside it; `none` stands for a vector which
contains something which is not a number, that is the result of a division by zero.  The weight of a layer is a shape and a list
of elements in row-major order.  A layer is a table of attributes with a function of them; `tree_at` replaces one attribute (see C05
for `tree_at` itself).  `stop_gradient` is the identity.  `jnp.reshape(weight, (weight.shape[0], -1))` is as for a weight with at least
one row.  Vectors whose length is not that of the axis they are contracted with are refused, though `jnp.einsum` (line 153) accepts
a length of one.
-/

namespace Verif
namespace SpectralNorm

open State

/-- The elements of a vector. -/
abbrev Vec := Nat → ℝ

/-- `weight @ v`, for a matrix with `n` columns. -/
noncomputable def matvec (n : Nat) (W : Nat → Nat → ℝ) (v : Vec) : Vec := fun i => ∑ j ∈ Finset.range n, W i j * v j

/-- `weight.T`. -/
def transpose (W : Nat → Nat → ℝ) : Nat → Nat → ℝ := fun j i => W i j

/-- `jnp.sqrt(jnp.sum(x**2))` for a vector of length `k`. -/
noncomputable def norm (k : Nat) (x : Vec) : ℝ := Real.sqrt (∑ i ∈ Finset.range k, x i ^ 2)

/-- `x / d`. -/
noncomputable def quot (x : Vec) (d : ℝ) : Option Vec := if d = 0 then none else some fun i => x i / d

/-- `_power_iteration` (lines 15-24) for a matrix with `m` rows and `n` columns.  The argument `u` is not used. -/
noncomputable def powerIteration (m n : Nat) (W : Nat → Nat → ℝ) (eps : ℝ) (uv : Vec × Vec) : Option (Vec × Vec) :=
  (quot (matvec n W uv.2) (max eps (norm m (matvec n W uv.2)))).bind fun u =>
    (quot (matvec m (transpose W) u) (max eps (norm n (matvec m (transpose W) u)))).map fun v => (u, v)

/-- `for _ in range(k): u, v = _power_iteration(weight, u, v, eps)` (lines 109-110 and 150-151). -/
noncomputable def powerIterations (m n : Nat) (W : Nat → Nat → ℝ) (eps : ℝ) : Nat → Option (Vec × Vec) → Option (Vec × Vec)
  | 0, uv => uv
  | k + 1, uv => powerIterations m n W eps k (uv.bind (powerIteration m n W eps))

/-- `jnp.einsum("i,ij,j->", u, weight, v)` (line 153). -/
noncomputable def sigma (m n : Nat) (W : Nat → Nat → ℝ) (uv : Vec × Vec) : ℝ :=
  ∑ i ∈ Finset.range m, ∑ j ∈ Finset.range n, uv.1 i * W i j * uv.2 j

/-- An array. -/
structure FArr where
  shape : List Nat
  data : List ℝ

/-- The number of rows of `jnp.reshape(weight, (weight.shape[0], -1))`. -/
def FArr.rows (w : FArr) : Nat := w.shape.headD 1
/-- The number of its columns. -/
def FArr.cols (w : FArr) : Nat := w.shape.tail.prod
/-- Its elements. -/
noncomputable def FArr.mat (w : FArr) : Nat → Nat → ℝ := fun i j => if j < w.cols then w.data.getD (i * w.cols + j) 0 else 0

/-- A layer: its attributes which are arrays, and what it computes from them. -/
structure Lyr (Name X Y : Type) where
  attr : Name → Option FArr
  call : (Name → Option FArr) → X → Y

/-- `tree_at(lambda l: getattr(l, name), layer, weight)`. -/
def Lyr.withAttr {Name X Y : Type} [DecidableEq Name] (l : Lyr Name X Y) (name : Name) (weight : FArr) : Lyr Name X Y :=
  { l with attr := fun n => if n = name then some weight else l.attr n }

/-- A value held in the state: the lengths of `u` and `v`, and their elements. -/
structure UV where
  ulen : Nat
  vlen : Nat
  val : Option (Vec × Vec)

/-- The structure of such a value, as compared by `State.set`. -/
def UV.struct (x : UV) : Nat × Nat := (x.ulen, x.vlen)

/-- The fields of `SpectralNorm` (lines 55-60). -/
structure SN (Name X Y K : Type) where
  layer : Lyr Name X Y
  weightName : Name
  uvIndex : K
  numPowerIterations : Nat
  eps : ℝ
  inference : Bool

/-- `SpectralNorm.__init__` (lines 94-111): the layer and the initial value of its `StateIndex`, whose marker is `marker`.
`u0` and `v0` are the random vectors. -/
noncomputable def mk {Name X Y K : Type} (layer : Lyr Name X Y) (weightName : Name) (numPowerIterations : Nat) (eps : ℝ)
    (inference : Bool) (u0 v0 : Vec) (marker : K) : Except Err (SN Name X Y K × UV) :=
  match layer.attr weightName with
  | none => .error .attributeError
  | some w =>
    if w.shape.length < 2 then .error .valueError
    else .ok (⟨layer, weightName, marker, numPowerIterations, eps, inference⟩,
      ⟨w.rows, w.cols, powerIterations w.rows w.cols w.mat eps 15 (some (u0, v0))⟩)

/-- `weight / σ` in the shape of the weight (line 154); `none` if that is a division by zero. -/
noncomputable def divided (w : FArr) (σ : ℝ) : Option FArr :=
  if σ = 0 then none else some ⟨w.shape, w.data.map fun x => x / σ⟩

/-- Lines 153-156: the output of the layer; `none` if it is called with a weight which contains something which is not a number. -/
noncomputable def output {Name X Y K : Type} [DecidableEq Name] (L : SN Name X Y K) (w : FArr) (uv : Option (Vec × Vec)) (x : X) :
    Option Y :=
  (uv.bind fun uv => divided w (sigma w.rows w.cols w.mat uv)).map fun w' =>
    (L.layer.withAttr L.weightName w').call (L.layer.withAttr L.weightName w').attr x

/-- `inference` of the call if given, else that of the layer (lines 146-147). -/
def mode {Name X Y K : Type} (L : SN Name X Y K) (inference : Option Bool) : Bool := inference.getD L.inference

/-- The loop of a call (lines 150-151): `weight @ v` is a `TypeError` if the lengths do not fit; the length of `u` becomes right. -/
noncomputable def iterated {Name X Y K : Type} (L : SN Name X Y K) (w : FArr) (uv : UV) : Except Err UV :=
  if L.numPowerIterations = 0 then .ok uv
  else if uv.vlen ≠ w.cols then .error .typeError
  else .ok ⟨w.rows, w.cols, powerIterations w.rows w.cols w.mat L.eps L.numPowerIterations uv.val⟩

/-- Lines 153-157: `jnp.einsum` is a `ValueError` if the lengths do not fit. -/
noncomputable def finish {Name X Y K : Type} [DecidableEq Name] (L : SN Name X Y K) (w : FArr) (uv : UV) (x : X) (a : Nat) :
    Except Err (Option Y × Nat) :=
  if uv.ulen ≠ w.rows ∨ uv.vlen ≠ w.cols then .error .valueError else .ok (output L w uv.val x, a)

/-- `SpectralNorm.__call__` (lines 142-157) on the heap of `State` objects, with the state at the address `a`; the output and the address
of the new state. -/
noncomputable def call {Name X Y K : Type} [DecidableEq Name] [DecidableEq K] (L : SN Name X Y K) (x : X) (inference : Option Bool)
    (h : Heap K UV) (a : Nat) : Heap K UV × Except Err (Option Y × Nat) :=
  match State.get h a (.index L.uvIndex) with
  | .error e => (h, .error e)
  | .ok uv =>
    match L.layer.attr L.weightName with
    | none => (h, .error .attributeError)
    | some w =>
      if w.shape = [] then (h, .error .indexError)
      else if mode L inference then (h, finish L w uv x a)
      else
        match iterated L w uv with
        | .error e => (h, .error e)
        | .ok uv₁ =>
          match State.set id UV.struct h a (.index L.uvIndex) uv₁ with
          | (h₁, .error e) => (h₁, .error e)
          | (h₁, .ok a₁) => (h₁, finish L w uv₁ x a₁)

/-- A sequence of calls, each with the state returned by the one before.  The layer may have been trained between any two of them: each
call has its own `L`.  Collects the outputs. -/
noncomputable def calls {Name X Y K : Type} [DecidableEq Name] [DecidableEq K] :
    List (SN Name X Y K × X × Option Bool) → Heap K UV → Nat → Heap K UV × Except Err (List (Option Y) × Nat)
  | [], h, a => (h, .ok ([], a))
  | (L, x, inf) :: rest, h, a =>
    match call L x inf h a with
    | (h₁, .error e) => (h₁, .error e)
    | (h₁, .ok (out, a₁)) =>
      match calls rest h₁ a₁ with
      | (h₂, .error e) => (h₂, .error e)
      | (h₂, .ok (outs, a₂)) => (h₂, .ok (out :: outs, a₂))

end SpectralNorm
end Verif
