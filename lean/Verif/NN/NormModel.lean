import Verif.Basic
import Mathlib.Analysis.Real.Sqrt

/-!
# `equinox/nn/_normalisation.py`

`LayerNorm`, `GroupNorm` and `RMSNorm`.  An array is a shape with its elements in row-major order, so that `reshape` keeps the
elements.  Arithmetic is over the real numbers; an element of the output is `none` if it is not finite (`rsqrt` of a number which
is not positive).  There are no dtypes; `named_scope` and the unused `key` argument are not modelled.  A weight or a bias is an
array of the shape that `__init__` gives it (for `LayerNorm`, `RMSNorm`), anything else is taken to be a `TypeError`.
-/

namespace Verif
namespace Norm

/-- The number of elements of an array. -/
def size : List Nat → Nat
  | [] => 1
  | n :: s => n * size s

/-- An array. -/
structure FArr (V : Type) where
  shape : List Nat
  data : List V

/-- `x.reshape(shape)`; JAX raises a `TypeError` if the sizes differ. -/
def FArr.reshape {V : Type} (x : FArr V) (shape : List Nat) : Except Err (FArr V) :=
  if size shape = size x.shape then .ok ⟨shape, x.data⟩ else .error .typeError

/-- `jnp.mean`. -/
noncomputable def mean (xs : List ℝ) : ℝ := xs.sum / xs.length

/-- `jnp.var`. -/
noncomputable def var (xs : List ℝ) : ℝ := mean (xs.map fun x => (x - mean xs) * (x - mean xs))

/-- `lax.rsqrt`. -/
noncomputable def rsqrt (v : ℝ) : Option ℝ := if 0 < v then some (1 / Real.sqrt v) else none

/-- `(x - mean) * inv` (lines 149-153 and 270-274). -/
noncomputable def normalise (eps : ℝ) (xs : List ℝ) : List (Option ℝ) :=
  let variance := max 0 (var xs)
  let inv := rsqrt (variance + eps)
  xs.map fun x => inv.map fun i => (x - mean xs) * i

/-- The fields of `LayerNorm` (lines 54-59) and of `RMSNorm` (lines 315-320). -/
structure Layer where
  shape : List Nat
  eps : ℝ
  useWeight : Bool
  useBias : Bool
  weight : Option (List ℝ)
  bias : Option (List ℝ)

/-- `LayerNorm.__init__` (lines 82-99); an integer `shape` is a list of one number. -/
noncomputable def mkLayerNorm (shape : List Nat) (eps : ℝ) (useWeight useBias : Bool) (elementwiseAffine : Option Bool) : Layer :=
  let w := elementwiseAffine.getD useWeight
  let b := elementwiseAffine.getD useBias
  { shape := shape, eps := eps, useWeight := w, useBias := b,
    weight := if w then some (List.replicate (size shape) 1) else none,
    bias := if b then some (List.replicate (size shape) 0) else none }

/-- `RMSNorm.__init__` (lines 341-351). -/
noncomputable def mkRMSNorm (shape : List Nat) (eps : ℝ) (useWeight useBias : Bool) : Layer :=
  { shape := shape, eps := eps, useWeight := useWeight, useBias := useBias,
    weight := if useWeight then some (List.replicate (size shape) 1) else none,
    bias := if useBias then some (List.replicate (size shape) 0) else none }

/-- `self.weight.astype(dtype) * out` and `out + self.bias.astype(dtype)` (lines 154-157 and 401-404). -/
def affine (op : ℝ → ℝ → ℝ) (use : Bool) (param : Option (List ℝ)) (out : List (Option ℝ)) : Except Err (List (Option ℝ)) :=
  if use then
    match param with
    | none => .error .attributeError
    | some w => if w.length = out.length then .ok (List.zipWith (fun w o => o.map (op w)) w out) else .error .typeError
  else .ok out

/-- `LayerNorm.__call__` (lines 133-161), with the state if there is one. -/
noncomputable def layerNorm {S : Type} (L : Layer) (x : FArr ℝ) (state : Option S) : Except Err (FArr (Option ℝ) × Option S) := do
  if x.shape ≠ L.shape then throw .valueError
  let out := normalise L.eps x.data
  let out ← affine (fun w o => w * o) L.useWeight L.weight out
  let out ← affine (fun b o => o + b) L.useBias L.bias out
  pure (⟨x.shape, out⟩, state)

/-- `RMSNorm.__call__` (lines 385-408). -/
noncomputable def rmsNorm {S : Type} (L : Layer) (x : FArr ℝ) (state : Option S) : Except Err (FArr (Option ℝ) × Option S) := do
  if x.shape ≠ L.shape then throw .valueError
  let invRms := rsqrt (mean (x.data.map fun v => v ^ 2) + L.eps)
  let out := x.data.map fun v => invRms.map fun i => i * v
  let out ← affine (fun w o => w * o) L.useWeight L.weight out
  let out ← affine (fun b o => o + b) L.useBias L.bias out
  pure (⟨x.shape, out⟩, state)

/-- The fields of `GroupNorm` (lines 193-198). -/
structure GLayer where
  groups : Nat
  channels : Option Nat
  eps : ℝ
  channelwiseAffine : Bool
  weight : Option (List ℝ)
  bias : Option (List ℝ)

/-- `GroupNorm.__init__` (lines 220-232). -/
noncomputable def mkGroupNorm (groups : Nat) (channels : Option Nat) (eps : ℝ) (channelwiseAffine : Bool) : Except Err GLayer := do
  match channels with
  | some c =>
    if groups = 0 then throw .zeroDivision
    if c % groups ≠ 0 then throw .valueError
  | none => if channelwiseAffine then throw .valueError
  pure { groups := groups, channels := channels, eps := eps, channelwiseAffine := channelwiseAffine,
         weight := if channelwiseAffine then some (List.replicate (channels.getD 0) 1) else none,
         bias := if channelwiseAffine then some (List.replicate (channels.getD 0) 0) else none }

/-- `left_broadcast_to(arr, shape)` (`equinox/_misc.py:7`) of a vector to an array of shape `channels :: rest` with `inner` elements per
channel: a vector of length one is repeated; `jnp.broadcast_to` raises a `ValueError` for any other length than `channels`. -/
def leftBroadcast (v : List ℝ) (channels inner : Nat) : Except Err (List ℝ) :=
  if v.length = channels then .ok (v.flatMap fun w => List.replicate inner w)
  else match v with
    | [w] => .ok (List.replicate (channels * inner) w)
    | _ => .error .valueError

/-- The rows of an array with `k` rows of `m` elements. -/
def rows {V : Type} (k m : Nat) (data : List V) : List (List V) :=
  (List.range k).map fun g => (data.drop (g * m)).take m

/-- `GroupNorm.__call__` (lines 263-283). -/
noncomputable def groupNorm {S : Type} (L : GLayer) (x : FArr ℝ) (state : Option S) : Except Err (FArr (Option ℝ) × Option S) := do
  match x.shape with
  | [] => throw .indexError
  | channels :: rest =>
    if L.groups = 0 then throw .zeroDivision
    let y ← x.reshape (L.groups :: channels / L.groups :: rest)
    let out := (rows L.groups (size (channels / L.groups :: rest)) y.data).map (normalise L.eps)
    let out := out.flatten
    if L.channelwiseAffine then
      match L.weight, L.bias with
      | some w, some b =>
        let weight ← leftBroadcast w channels (size rest)
        let bias ← leftBroadcast b channels (size rest)
        let out := List.zipWith (fun w o => o.map fun o => w * o) weight out
        pure (⟨x.shape, List.zipWith (fun b o => o.map fun o => o + b) bias out⟩, state)
      | _, _ => throw .attributeError
    else pure (⟨x.shape, out⟩, state)

end Norm
end Verif
