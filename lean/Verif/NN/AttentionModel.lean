import Verif.Basic
import Mathlib.Analysis.Real.Sqrt
import Mathlib.Algebra.BigOperators.Group.Finset.Basic
/-!
# `equinox/nn/_attention.py`, `equinox/nn/_dropout.py` and `Linear` of `equinox/nn/_linear.py`

Arithmetic is over the real numbers. Two things are parameters, so that statements can be about floating point as well:
the exponential `E` (that of floating point numbers underflows to zero), and `M`, the least finite number
`jnp.finfo(dtype).min`. Dtypes, `named_scope` and warnings are not modelled. `einsum`'s broadcasting of axes of size 1 is
not modelled either: sizes that differ are an error.
-/

namespace Verif
namespace Attention

/-- A two-dimensional array. -/
structure Mat where
  rows : Nat
  cols : Nat
  val : Nat → Nat → ℝ

/-- A boolean array of any shape; the entries are those of a list of indices. -/
structure Mask where
  shape : List Nat
  val : List Nat → Bool

/-- The maximum of a row, as `jax.nn.softmax` takes it (that of an empty row is not used). -/
noncomputable def rowMax : List ℝ → ℝ
  | [] => 0
  | [a] => a
  | a :: b :: as => max a (rowMax (b :: as))

/-- `jax.nn.softmax` of a row of `n` numbers: subtract the maximum, exponentiate, divide by the sum. -/
noncomputable def softmax (E : ℝ → ℝ) (n : Nat) (row : Nat → ℝ) : Nat → ℝ := fun t =>
  E (row t - rowMax ((List.range n).map row)) / ∑ u ∈ Finset.range n, E (row u - rowMax ((List.range n).map row))

/-- `einsum("sd,Sd->sS", query / sqrt(d), key)` (lines 25-26). -/
noncomputable def logits (query key : Mat) : Nat → Nat → ℝ := fun s t =>
  ∑ d ∈ Finset.range query.cols, query.val s d / Real.sqrt query.cols * key.val t d

/-- `jnp.where(mask, logits, finfo.min)` (lines 27-35). -/
noncomputable def applyMask (M : ℝ) (rows cols : Nat) (mask : Option Mask) (logits : Nat → Nat → ℝ) :
    Except Err (Nat → Nat → ℝ) :=
  match mask with
  | none => .ok logits
  | some m =>
    if m.shape ≠ [rows, cols] then .error .valueError
    else .ok fun s t => if m.val [s, t] then logits s t else M

/-- `dot_product_attention_weights` (lines 20-40). -/
noncomputable def attentionWeights (E : ℝ → ℝ) (M : ℝ) (query key : Mat) (mask : Option Mask) : Except Err Mat := do
  if query.cols ≠ key.cols then throw .valueError
  let l ← applyMask M query.rows key.rows mask (logits query key)
  pure ⟨query.rows, key.rows, fun s => softmax E key.rows (l s)⟩

/-- The fields of `Dropout`. `isNumber` tells whether `p` is a Python number (and not an array). -/
structure Dropout where
  p : ℝ
  isNumber : Bool
  inference : Bool

/-- `jrandom.bernoulli(key, q, shape)` for a two-dimensional shape. -/
abbrev Bernoulli (Key : Type) := Key → ℝ → Nat × Nat → Nat → Nat → Bool

open Classical in
/-- `Dropout.__call__` (lines 58-97), on an array of two dimensions. -/
noncomputable def Dropout.call {Key : Type} (bern : Bernoulli Key) (D : Dropout) (x : Mat) (key : Option Key)
    (inference deterministic : Option Bool) : Except Err Mat :=
  let inference := match deterministic with
    | some b => b
    | none => inference.getD D.inference
  let inference := if D.isNumber && decide (D.p = 0) then true else inference
  if inference then .ok x
  else match key with
    | none => .error .runtimeError
    | some key => .ok ⟨x.rows, x.cols, fun s t =>
        if bern key (1 - D.p) (x.rows, x.cols) s t then x.val s t / (1 - D.p) else 0⟩

/-- `dot_product_attention` (lines 43-57). -/
noncomputable def dotProductAttention {Key : Type} (bern : Bernoulli Key) (E : ℝ → ℝ) (M : ℝ) (query key value : Mat)
    (mask : Option Mask) (dropout : Option Dropout) (rng : Option Key) (inference : Option Bool) : Except Err Mat := do
  let weights ← attentionWeights E M query key mask
  let weights ← match dropout with
    | none => pure weights
    | some D => D.call bern weights rng inference none
  if weights.cols ≠ value.rows then throw .valueError
  pure ⟨weights.rows, value.cols, fun s c => ∑ t ∈ Finset.range value.rows, weights.val s t * value.val t c⟩

/-- `Linear` with integer sizes. -/
structure Linear where
  inFeatures : Nat
  outFeatures : Nat
  weight : Nat → Nat → ℝ
  bias : Option (Nat → ℝ)

/-- `x + self.bias` unless it is `None`. -/
noncomputable def addBias (b : Option (Nat → ℝ)) (o : Nat) (y : ℝ) : ℝ :=
  match b with
  | none => y
  | some b => y + b o

/-- `jax.vmap(linear)(x)`: `weight @ x + bias` for every row (`_linear.py` lines 67-103). -/
noncomputable def Linear.rows (L : Linear) (x : Mat) : Except Err Mat :=
  if x.cols ≠ L.inFeatures then .error .typeError
  else .ok ⟨x.rows, L.outFeatures, fun s o => addBias L.bias o (∑ i ∈ Finset.range L.inFeatures, L.weight o i * x.val s i)⟩

/-- An array of shape `(seq_length, num_heads, size)`. -/
structure Heads where
  seq : Nat
  heads : Nat
  size : Nat
  val : Nat → Nat → Nat → ℝ

/-- One head. -/
def Heads.head (x : Heads) (h : Nat) : Mat := ⟨x.seq, x.size, fun s j => x.val s h j⟩

/-- `reshape(seq_length, num_heads, -1)` (line 351); `num_heads` has to divide the number of columns. -/
def split (numHeads : Nat) (x : Mat) : Except Err Heads :=
  if x.cols % numHeads ≠ 0 then .error .typeError
  else .ok ⟨x.rows, numHeads, x.cols / numHeads, fun s h j => x.val s (h * (x.cols / numHeads) + j)⟩

/-- `reshape(query_seq_length, -1)` (line 344). -/
def merge (x : Heads) : Mat := ⟨x.seq, x.heads * x.size, fun s i => x.val s (i / x.size) (i % x.size)⟩

/-- The fields of `MultiheadAttention` (lines 122-138) that `__call__` uses. -/
structure MHA where
  queryProj : Linear
  keyProj : Linear
  valueProj : Linear
  outputProj : Linear
  dropout : Dropout
  numHeads : Nat

/-- `_project` (lines 348-351). -/
noncomputable def project (A : MHA) (proj : Linear) (x : Mat) : Except Err Heads := do
  let y ← proj.rows x
  split A.numHeads y

/-- Do two arrays have the same shape? -/
def sameShape (a b : Heads) : Bool := a.seq == b.seq && a.heads == b.heads && a.size == b.size

/-- Lines 311-328. -/
noncomputable def processed (process : Option (Heads → Heads → Heads → Except Err (Heads × Heads × Heads))) (q k v : Heads) :
    Except Err (Heads × Heads × Heads) :=
  match process with
  | none => .ok (q, k, v)
  | some f => do
    let r ← f q k v
    if !(sameShape r.1 q && sameShape r.2.1 k && sameShape r.2.2 v) then throw .valueError
    pure r

/-- The mask of one head (lines 334-343): a mask of three dimensions is batched over the first, any other is shared. -/
def maskFor (mask : Option Mask) (h : Nat) : Option Mask :=
  match mask with
  | some ⟨[_, r, c], val⟩ => some ⟨[r, c], fun i => val (h :: i)⟩
  | m => m

/-- The first axis of a mask of three dimensions has to be as long as the heads (a `ValueError` of `vmap`). -/
def maskBatch (numHeads : Nat) : Option Mask → Except Err Unit
  | some ⟨[n, _, _], _⟩ => if n = numHeads then .ok () else .error .valueError
  | _ => .ok ()

/-- `jax.vmap` of a function of the head: an error does not depend on the head, as all heads have the same shapes. -/
noncomputable def overHeads (numHeads : Nat) (f : Nat → Except Err Mat) : Except Err Heads := do
  let y ← f 0
  pure ⟨y.rows, numHeads, y.cols, fun s h j => match f h with | .ok m => m.val s j | .error _ => 0⟩

/-- `deterministic`, if given, replaces `inference` (lines 293-298). -/
def chosen (deterministic inference : Option Bool) : Option Bool :=
  match deterministic with
  | some b => some b
  | none => inference

/-- `MultiheadAttention.__call__` (lines 239-346). `splitKey` is `jax.random.split`. -/
noncomputable def MHA.call {Key : Type} (bern : Bernoulli Key) (splitKey : Key → Nat → Nat → Key) (E : ℝ → ℝ) (M : ℝ) (A : MHA)
    (query key value : Mat) (mask : Option Mask) (rng : Option Key) (inference deterministic : Option Bool)
    (process : Option (Heads → Heads → Heads → Except Err (Heads × Heads × Heads))) : Except Err Mat := do
  if key.rows ≠ value.rows then throw .valueError
  let q ← project A A.queryProj query
  let k ← project A A.keyProj key
  let v ← project A A.valueProj value
  let r ← processed process q k v
  maskBatch A.numHeads mask
  let attn ← overHeads A.numHeads fun h =>
    dotProductAttention bern E M (r.1.head h) (r.2.1.head h) (r.2.2.head h) (maskFor mask h) (some A.dropout)
      (rng.map fun g => splitKey g A.numHeads h) (chosen deterministic inference)
  A.outputProj.rows (merge attn)

/-- The layer built by `__init__` (lines 186-236) from given parameters. -/
def MHA.mk' (numHeads querySize keySize valueSize outputSize qkSize voSize : Nat)
    (wq wk wv wo : Nat → Nat → ℝ) (bq bk bv bo : Option (Nat → ℝ)) (dropout : Dropout) : MHA where
  queryProj := ⟨querySize, numHeads * qkSize, wq, bq⟩
  keyProj := ⟨keySize, numHeads * qkSize, wk, bk⟩
  valueProj := ⟨valueSize, numHeads * voSize, wv, bv⟩
  outputProj := ⟨numHeads * voSize, outputSize, wo, bo⟩
  dropout := dropout
  numHeads := numHeads

end Attention
end Verif
