import Verif.State.Model
import Mathlib.Analysis.Real.Sqrt
import Mathlib.Algebra.BigOperators.Group.Finset.Basic
/-!
# `equinox/nn/_batch_norm.py`

The layer runs inside any number of `vmap`s with axis names, so a value is a function of the *lane*: the index along each
named axis. `State` objects are those of `Verif.State`; the values they hold are functions of the lane as well.

Arithmetic is over the real numbers (so `jnp.conj` is the identity) and there are no dtypes. The spatial dimensions of an
array are flattened into one. `named_scope` and the unused `key` argument are not modelled.
-/

namespace Verif
namespace BatchNorm

open State

variable {A K : Type} [DecidableEq A] [DecidableEq K]

/-- The index along every named axis. -/
abbrev Lane (A : Type) := A → Nat

/-- The named axes in scope with their sizes. -/
abbrev Axes (A : Type) := List (A × Nat)

/-- The lane with another index along one axis. -/
def move (l : Lane A) (a : A) (i : Nat) : Lane A := fun b => if b = a then i else l b

/-- The size of a named axis; JAX raises `NameError` if there is no such axis. -/
def axisSize (env : Axes A) (a : A) : Except Err Nat :=
  match env.find? (fun p => p.1 == a) with
  | some p => .ok p.2
  | none => .error .nameError

/-- `lax.psum`. -/
noncomputable def psum (env : Axes A) : List A → (Lane A → ℝ) → Except Err (Lane A → ℝ)
  | [], f => .ok f
  | a :: names, f => do
    let n ← axisSize env a
    let g ← psum env names f
    pure fun l => ∑ i ∈ Finset.range n, g (move l a i)

/-- `lax.pmean`: the sum, divided by the sum of ones. -/
noncomputable def pmean (env : Axes A) (names : List A) (f : Lane A → ℝ) : Except Err (Lane A → ℝ) := do
  let s ← psum env names f
  let n ← psum env names (fun _ => 1)
  pure fun l => s l / n l

/-- An array of shape `(channels, dim_1, ..., dim_N)` in every lane, with `spatial = dim_1 * ... * dim_N`. -/
structure Arr (A : Type) where
  channels : Nat
  spatial : Nat
  val : Lane A → Nat → Nat → ℝ

/-- The values held by `State` objects: a boolean, a pair of vectors, or the state of some other layer (with its structure). -/
inductive Slot (A : Type) where
  | flag (b : Lane A → Bool)
  | stats (size : Nat) (mean var : Lane A → Nat → ℝ)
  | other (structure_ : Nat) (value : Nat)

/-- The structure of a value, as compared by `State.set`. -/
def slotStruct : Slot A → Nat × Nat
  | .flag _ => (0, 0)
  | .stats n _ _ => (1, n)
  | .other s _ => (2, s)

/-- The fields of the layer (lines 46-57). A single `axis_name` is a list of one name. -/
structure Layer (A K : Type) where
  weight : Option (Nat → ℝ)
  bias : Option (Nat → ℝ)
  firstTimeIndex : K
  stateIndex : K
  axisName : List A
  inference : Bool
  inputSize : Nat
  eps : ℝ
  channelwiseAffine : Bool
  momentum : ℝ

/-- `BatchNorm.__init__` (lines 90-108). The indices are the markers of the two `StateIndex` objects. -/
noncomputable def mk (inputSize : Nat) (axisName : List A) (eps : ℝ) (channelwiseAffine : Bool) (momentum : ℝ) (inference : Bool)
    (first stateIdx : K) : Layer A K where
  weight := if channelwiseAffine then some fun _ => 1 else none
  bias := if channelwiseAffine then some fun _ => 0 else none
  firstTimeIndex := first
  stateIndex := stateIdx
  axisName := axisName
  inference := inference
  inputSize := inputSize
  eps := eps
  channelwiseAffine := channelwiseAffine
  momentum := momentum

/-- The initial values of the two `StateIndex` objects (lines 97-102). `junk` is the uninitialised memory of `jnp.empty`. -/
def initFirst : Slot A := .flag fun _ => true
def initStats (inputSize : Nat) (junk : Lane A → Nat → ℝ × ℝ) : Slot A :=
  .stats inputSize (fun l c => (junk l c).1) (fun l c => (junk l c).2)

/-- `jnp.mean` over the spatial dimensions of one channel. -/
noncomputable def spatialMean (spatial : Nat) (y : Nat → ℝ) : ℝ := (∑ j ∈ Finset.range spatial, y j) / spatial

/-- `_stats` for one channel (lines 149-155). -/
noncomputable def stats (env : Axes A) (names : List A) (spatial : Nat) (y : Lane A → Nat → ℝ) :
    Except Err ((Lane A → ℝ) × (Lane A → ℝ)) := do
  let mean ← pmean env names fun l => spatialMean spatial (y l)
  let var ← pmean env names fun l => spatialMean spatial fun j => (y l j - mean l) * (y l j - mean l)
  pure (mean, fun l => max 0 (var l))

/-- `jax.vmap(_stats)(x)` (line 160): the statistics of every channel. The axis sizes do not depend on the channel, so that
`_stats` fails for one channel when it fails for any. -/
noncomputable def allStats (env : Axes A) (names : List A) (x : Arr A) :
    Except Err ((Lane A → Nat → ℝ) × (Lane A → Nat → ℝ)) := do
  let _ ← stats env names x.spatial fun l => x.val l 0
  let get := fun c => stats env names x.spatial fun l => x.val l c
  pure (fun l c => match get c with | .ok r => r.1 l | .error _ => 0,
    fun l c => match get c with | .ok r => r.2 l | .error _ => 0)

/-- `(1 - momentum) * batch + momentum * running` followed by `lax.select(first_time, batch, ·)` (lines 163-166). -/
noncomputable def mix (momentum : ℝ) (first : Lane A → Bool) (batch running : Lane A → Nat → ℝ) : Lane A → Nat → ℝ :=
  fun l c => if first l then batch l c else (1 - momentum) * batch l c + momentum * running l c

/-- `_norm` over all channels (lines 169-175). -/
noncomputable def norm (L : Layer A K) (x : Arr A) (size : Nat) (mean var : Lane A → Nat → ℝ) :
    Except Err (Lane A → Nat → Nat → ℝ) :=
  if size ≠ x.channels then .error .valueError
  else if L.channelwiseAffine then
    match L.weight, L.bias with
    | some w, some b => .ok fun l c j => (x.val l c j - mean l c) / Real.sqrt (var l c + L.eps) * w c + b c
    | _, _ => .error .typeError
  else .ok fun l c j => (x.val l c j - mean l c) / Real.sqrt (var l c + L.eps)

/-- Reading the two kinds of state. The layer itself only ever stores values of the right kind. -/
def asFlag : Slot A → Except Err (Lane A → Bool)
  | .flag b => .ok b
  | _ => .error .typeError
def asStats : Slot A → Except Err (Nat × (Lane A → Nat → ℝ) × (Lane A → Nat → ℝ))
  | .stats n m v => .ok (n, m, v)
  | _ => .error .typeError

/-- The training branch after the flag has been stored (lines 160-167), on the heap `h` with the state at `a`: the running
statistics to normalise with and to store. Shapes: `batch` has `x.channels` entries; both the sum and `lax.select` need
the same size (`lax.select` does not broadcast). -/
noncomputable def running (env : Axes A) (L : Layer A K) (x : Arr A) (first : Lane A → Bool) (h : Heap K (Slot A)) (a : Nat) :
    Except Err (Nat × (Lane A → Nat → ℝ) × (Lane A → Nat → ℝ)) := do
  let batch ← allStats env L.axisName x
  let s ← State.get h a (.index L.stateIndex)
  let r ← asStats s
  if x.channels ≠ r.1 then throw .typeError
  pure (r.1, mix L.momentum first batch.1 r.2.1, mix L.momentum first batch.2 r.2.2)

/-- Normalising, and returning the state at `a` (lines 169-176). -/
noncomputable def finish (L : Layer A K) (x : Arr A) (h : Heap K (Slot A)) (a : Nat)
    (r : Nat × (Lane A → Nat → ℝ) × (Lane A → Nat → ℝ)) :
    Heap K (Slot A) × Except Err ((Lane A → Nat → Nat → ℝ) × Nat) :=
  match norm L x r.1 r.2.1 r.2.2 with
  | .error e => (h, .error e)
  | .ok out => (h, .ok (out, a))

/-- Lines 146: inference mode. -/
noncomputable def callInference (L : Layer A K) (x : Arr A) (h : Heap K (Slot A)) (a : Nat) :
    Heap K (Slot A) × Except Err ((Lane A → Nat → Nat → ℝ) × Nat) :=
  match State.get h a (.index L.stateIndex) >>= asStats with
  | .error e => (h, .error e)
  | .ok r => finish L x h a r

/-- Lines 157-167: training mode. -/
noncomputable def callTraining (env : Axes A) (L : Layer A K) (x : Arr A) (h : Heap K (Slot A)) (a : Nat) :
    Heap K (Slot A) × Except Err ((Lane A → Nat → Nat → ℝ) × Nat) :=
  match State.get h a (.index L.firstTimeIndex) >>= asFlag with
  | .error e => (h, .error e)
  | .ok first =>
    match State.set id slotStruct h a (.index L.firstTimeIndex) (.flag fun _ => false) with
    | (h₁, .error e) => (h₁, .error e)
    | (h₁, .ok a₁) =>
      match running env L x first h₁ a₁ with
      | .error e => (h₁, .error e)
      | .ok r =>
        match State.set id slotStruct h₁ a₁ (.index L.stateIndex) (.stats r.1 r.2.1 r.2.2) with
        | (h₂, .error e) => (h₂, .error e)
        | (h₂, .ok a₂) => finish L x h₂ a₂ r

/-- `inference` of the call if given, else that of the layer (lines 143-144). -/
def mode (L : Layer A K) (inference : Option Bool) : Bool := inference.getD L.inference

/-- `BatchNorm.__call__` (lines 111-176). -/
noncomputable def call (env : Axes A) (L : Layer A K) (x : Arr A) (inference : Option Bool) (h : Heap K (Slot A)) (a : Nat) :
    Heap K (Slot A) × Except Err ((Lane A → Nat → Nat → ℝ) × Nat) :=
  if mode L inference then callInference L x h a else callTraining env L x h a

/-- A sequence of calls, each with the state returned by the one before. Collects the outputs. -/
noncomputable def calls (env : Axes A) (L : Layer A K) :
    List (Arr A × Option Bool) → Heap K (Slot A) → Nat → Heap K (Slot A) × Except Err (List (Lane A → Nat → Nat → ℝ) × Nat)
  | [], h, a => (h, .ok ([], a))
  | (x, inf) :: rest, h, a =>
    match call env L x inf h a with
    | (h₁, .error e) => (h₁, .error e)
    | (h₁, .ok (out, a₁)) =>
      match calls env L rest h₁ a₁ with
      | (h₂, .error e) => (h₂, .error e)
      | (h₂, .ok (outs, a₂)) => (h₂, .ok (out :: outs, a₂))

end BatchNorm
end Verif
