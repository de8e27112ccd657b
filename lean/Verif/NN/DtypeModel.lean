import Verif.Basic
/-!
# Dtypes of layers

Which dtypes the arrays of a layer are made with, which dtypes its operations are done in, and which
dtype its result has: `equinox/nn/_misc.py` (`default_init`, 33-44), `equinox/_misc.py`
(`default_floating_dtype`, 16-20), and the constructors and calls of `_linear.py`, `_mlp.py`,
`_conv.py`, `_rnn.py`, `_normalisation.py`, `_batch_norm.py`, `_spectral_norm.py`,
`_weight_norm.py`, `_attention.py`, `_embedding.py`, `_dropout.py`, `_activations.py`.

Only dtypes are tracked here; shapes and values are in the other files of this directory.

JAX is modelled by its promotion lattice (`join`, without the float8 and int4 types), by
`jax_numpy_dtype_promotion` ("standard" or "strict") and by `jax_enable_x64`; Python scalars are
weakly typed. Arrays are strongly typed, except the slope of a `PReLU` made from a Python float.
`lax` functions (`select`, `conv_general_dilated`) ask for equal dtypes.
-/

namespace Verif.NN.Dtypes

/-- The dtypes of arrays. -/
inductive Dtype where
  | bool | u8 | u16 | u32 | u64 | i8 | i16 | i32 | i64 | bf16 | f16 | f32 | f64 | c64 | c128
  deriving DecidableEq, Repr

namespace Dtype

/-- `jnp.issubdtype(d, jnp.floating)`. -/
def isFloat : Dtype → Bool
  | bf16 | f16 | f32 | f64 => true
  | _ => false

/-- `jnp.issubdtype(d, jnp.complexfloating)`. -/
def isComplex : Dtype → Bool
  | c64 | c128 => true
  | _ => false

/-- `jnp.issubdtype(d, jnp.inexact)`. -/
def isInexact (d : Dtype) : Bool := d.isFloat || d.isComplex

/-- The dtype of the real part: `jnp.finfo(d).dtype`, and of `jnp.var`. -/
def real : Dtype → Dtype
  | c64 => f32
  | c128 => f64
  | d => d

/-- The immediate successors of a dtype in JAX's lattice; a step into `f*`, which only unsigned and
signed 64-bit integers and nothing else strong has above it among integers, leads to the floats. -/
def above : Dtype → List Dtype
  | bool => [u8, i8]
  | u8 => [u16, i16]
  | u16 => [u32, i32]
  | u32 => [u64, i64]
  | i8 => [i16]
  | i16 => [i32]
  | i32 => [i64]
  | u64 => [bf16, f16]
  | i64 => [bf16, f16]
  | bf16 => [f32]
  | f16 => [f32]
  | f32 => [f64, c64]
  | f64 => [c128]
  | c64 => [c128]
  | c128 => []

/-- Signed integers by width, for `join`. -/
def signed : Nat → Dtype
  | 0 => i8
  | 1 => i16
  | 2 => i32
  | _ => i64

/-- Unsigned integers by width, for `join`. -/
def unsigned : Nat → Dtype
  | 0 => u8
  | 1 => u16
  | 2 => u32
  | _ => u64

/-- Classes of dtypes with their width. -/
inductive Class where
  | bool | unsigned (n : Nat) | signed (n : Nat) | float (d : Dtype) | complex (n : Nat)

def cls : Dtype → Class
  | bool => .bool
  | u8 => .unsigned 0 | u16 => .unsigned 1 | u32 => .unsigned 2 | u64 => .unsigned 3
  | i8 => .signed 0 | i16 => .signed 1 | i32 => .signed 2 | i64 => .signed 3
  | bf16 => .float bf16 | f16 => .float f16 | f32 => .float f32 | f64 => .float f64
  | c64 => .complex 0 | c128 => .complex 1

/-- `join` of a signed and an unsigned integer. -/
def mixed (s u : Nat) : Dtype := if u = 3 then f64 else signed (max s (u + 1))

/-- `join` of floats. -/
def joinFloat (a b : Dtype) : Dtype :=
  if a = b then a else if a = f64 ∨ b = f64 then f64 else f32

/-- `join` of a float and a complex number of width `n`. -/
def joinComplex (a : Dtype) (n : Nat) : Dtype := if a = f64 ∨ n = 1 then c128 else c64

/-- JAX's `promote_types` on strong types in 64-bit mode. (`u64` with a signed integer is `f*`, by
default a `float64`.) -/
def join (a b : Dtype) : Dtype :=
  match a.cls, b.cls with
  | .bool, _ => b
  | _, .bool => a
  | .unsigned m, .unsigned n => unsigned (max m n)
  | .signed m, .signed n => signed (max m n)
  | .unsigned m, .signed n => mixed n m
  | .signed m, .unsigned n => mixed m n
  | .float d, .float e => joinFloat d e
  | .float d, .complex n => joinComplex d n
  | .complex n, .float d => joinComplex d n
  | .complex m, .complex n => if m = 0 ∧ n = 0 then c64 else c128
  | .float _, _ => a
  | .complex _, _ => a
  | _, .float _ => b
  | _, .complex _ => b

end Dtype

open Dtype

/-- The settings of JAX that dtypes depend on. -/
structure Config where
  /-- `jax_enable_x64` -/
  x64 : Bool
  /-- `jax_numpy_dtype_promotion == "strict"` -/
  strict : Bool
  deriving DecidableEq

/-- Without 64-bit mode there are no 64-bit arrays. -/
def canon (c : Config) (d : Dtype) : Dtype :=
  if c.x64 then d else
    match d with
    | u64 => u32
    | i64 => i32
    | f64 => f32
    | c128 => c64
    | _ => d

/-- `default_floating_dtype` (`_misc.py:16-20`). -/
def defaultFloat (c : Config) : Dtype := if c.x64 then f64 else f32

/-- What goes wrong. -/
inductive Fault where
  /-- `TypePromotionError` of strict promotion -/
  | promotion
  /-- `TypeError` of a `lax` function that asks for equal dtypes -/
  | type
  /-- `ValueError`: `State.set` with another dtype, or random numbers of a dtype that has none -/
  | value
  deriving DecidableEq, Repr

/-- `with jax.numpy_dtype_promotion("standard")`. -/
def Config.standard (c : Config) : Config := { c with strict := false }

/-- A binary `jnp` operation on arrays. -/
def op (c : Config) (a b : Dtype) : Except Fault Dtype :=
  if a = b then .ok a else if c.strict then .error .promotion else .ok (canon c (join a b))

/-- An operation of an array with a Python float (or integer, where the array is inexact). -/
def scalar (c : Config) (a : Dtype) : Except Fault Dtype :=
  if a.isInexact then .ok a else if c.strict then .error .promotion else .ok (defaultFloat c)

/-- `jnp.mean`: integers become floats of the default dtype. -/
def mean (c : Config) (a : Dtype) : Dtype := if a.isInexact then a else defaultFloat c

/-- A `lax` operation which asks for equal dtypes. -/
def same (a b : Dtype) : Except Fault Dtype := if a = b then .ok a else .error .type

/-- `.astype(d)`. -/
def cast (_ d : Dtype) : Dtype := d

/-- Add a bias, or multiply with a weight, if there is one: `if self.bias is not None`. -/
def opt (c : Config) (a : Dtype) : Option Dtype → Except Fault Dtype
  | none => .ok a
  | some b => op c a b

/-- As `opt`, with the parameter cast first. -/
def optCast (c : Config) (a work : Dtype) : Option Dtype → Except Fault Dtype
  | none => .ok a
  | some b => op c a (cast b work)

/-! ## Calls -/

/-- What a call does: the dtypes of everything it computes on the way, and that of the result. -/
structure Run where
  steps : List Dtype
  out : Dtype
  deriving DecidableEq

/-- `LayerNorm.__call__` (`_normalisation.py:144-161`), with the dtypes of weight and bias. -/
def layerNorm (c : Config) (w b : Option Dtype) (x : Dtype) : Except Fault Run := do
  let work ← op c.standard x f32
  let y := cast x work
  let m := mean c y
  let v := (mean c y).real
  let v ← scalar c v
  let inv ← scalar c v
  let cen ← op c y m
  let out ← op c cen inv
  let out1 ← optCast c out work w
  let out2 ← optCast c out1 work b
  pure ⟨[y, m, v, inv, cen, out, out1, out2], cast out2 x⟩

/-- `GroupNorm.__call__` (`_normalisation.py:263-283`): weight and bias are there together. -/
def groupNorm (c : Config) (wb : Option (Dtype × Dtype)) (x : Dtype) : Except Fault Run := do
  let work ← op c.standard x f32
  let y := cast x work
  let m := mean c y
  let v := (mean c y).real
  let v ← scalar c v
  let inv ← scalar c v
  let cen ← op c y m
  let out ← op c cen inv
  let out1 ← optCast c out work (wb.map Prod.fst)
  let out2 ← optCast c out1 work (wb.map Prod.snd)
  pure ⟨[y, m, v, inv, cen, out, out1, out2], cast out2 x⟩

/-- `RMSNorm.__call__` (`_normalisation.py:392-408`). -/
def rmsNorm (c : Config) (w b : Option Dtype) (x : Dtype) : Except Fault Run := do
  let work ← op c.standard x f32
  let y := cast x work
  let sq ← scalar c y
  let inv ← scalar c (mean c sq)
  let out ← op c inv y
  let out1 ← optCast c out work w
  let out2 ← optCast c out1 work b
  pure ⟨[y, sq, inv, out, out1, out2], cast out2 x⟩

/-- `jnp.where(mask, logits, jnp.finfo(logits.dtype).min)` (`_attention.py:34`). -/
def masked (c : Config) (l : Dtype) : Bool → Except Fault Dtype
  | false => .ok l
  | true => op c l l.real

/-- `dot_product_attention_weights` (`_attention.py:20-40`). -/
def attentionWeights (c : Config) (mask : Bool) (q k : Dtype) : Except Fault Run := do
  let q ← scalar c q
  let l ← op c q k
  let l ← masked c l mask
  let work ← op c.standard l f32
  let y := cast l work
  pure ⟨[y], cast y l⟩

/-- `Dropout.__call__` (`_dropout.py:76-91`), active or not, with a Python number `p`:
`jnp.where(mask, x / q, 0)`. -/
def dropout (c : Config) (active : Bool) (x : Dtype) : Except Fault Dtype :=
  if active then scalar c x else .ok x

/-- `dot_product_attention` (`_attention.py:43-57`). -/
def attentionHead (c : Config) (mask drop : Bool) (q k v : Dtype) : Except Fault Dtype := do
  let w ← attentionWeights c mask q k
  let w ← dropout c drop w.out
  op c w v

/-- The dtypes of weight and bias of a `Linear`. -/
structure Affine where
  weight : Dtype
  bias : Option Dtype
  deriving DecidableEq

/-- `Linear.__call__` (`_linear.py:92-103`). -/
def linear (c : Config) (L : Affine) (x : Dtype) : Except Fault Dtype := do
  let y ← op c L.weight x
  opt c y L.bias

/-- `MultiheadAttention.__call__` (`_attention.py:293-346`), without `process_heads`. -/
structure Heads where
  query : Affine
  key : Affine
  value : Affine
  output : Affine
  deriving DecidableEq

def attention (c : Config) (A : Heads) (mask drop : Bool) (q k v : Dtype) : Except Fault Dtype := do
  let q ← linear c A.query q
  let k ← linear c A.key k
  let v ← linear c A.value v
  let a ← attentionHead c mask drop q k v
  linear c A.output a

/-- `MLP.__call__` (`_mlp.py:128-152`); activations keep the dtype. -/
def mlp (c : Config) : List Affine → Dtype → Except Fault Dtype
  | [], x => .ok x
  | L :: Ls, x => do
    let y ← linear c L x
    mlp c Ls y

/-- `Conv.__call__` (`_conv.py:224-250`) and `ConvTranspose.__call__` (`_conv.py:596-620`): `lax.conv_general_dilated`
asks for equal dtypes. -/
def conv (c : Config) (L : Affine) (x : Dtype) : Except Fault Dtype := do
  let y ← same x L.weight
  opt c y L.bias

/-- `GRUCell.__call__` (`_rnn.py:100-111`), with the dtypes of `weight_ih`, `weight_hh` and of
`bias`, `bias_n`. -/
def gru (c : Config) (ih hh : Dtype) (b : Option (Dtype × Dtype)) (input hidden : Dtype) :
    Except Fault Dtype := do
  let igates ← op c ih input
  let igates ← opt c igates (b.map Prod.fst)
  let hgates ← op c hh hidden
  let gate ← op c igates hgates
  let n ← opt c hgates (b.map Prod.snd)
  let n ← op c gate n
  let new ← op c igates n
  let d ← op c hidden new
  let d ← op c gate d
  op c new d

/-- `LSTMCell.__call__` (`_rnn.py:196-216`): hidden state and cell state. -/
def lstm (c : Config) (ih hh : Dtype) (b : Option Dtype) (input hidden cell : Dtype) :
    Except Fault (Dtype × Dtype) := do
  let l1 ← op c ih input
  let l2 ← op c hh hidden
  let lin ← op c l1 l2
  let lin ← opt c lin b
  let forget ← op c lin cell
  let cell ← op c forget lin
  let hidden ← op c lin cell
  pure (hidden, cell)

/-- The dtypes in a `BatchNorm` and its state. -/
structure Batch where
  affine : Option (Dtype × Dtype)
  mean : Dtype
  var : Dtype
  deriving DecidableEq

/-- `State.set` (`_stateful.py:155-190`): the dtypes have to be those of the old value. -/
def set (old new : Dtype × Dtype) : Except Fault (Dtype × Dtype) :=
  if old = new then .ok new else .error .value

/-- The new running statistics of `BatchNorm.__call__` in training mode (`_batch_norm.py:149-167`). -/
def batchStats (c : Config) (held : Dtype × Dtype) (x : Dtype) : Except Fault (Dtype × Dtype) := do
  let bm := mean c x
  let cen ← op c x bm
  let bv ← scalar c (mean c cen)
  let m1 ← scalar c bm
  let m2 ← scalar c held.1
  let m ← op c m1 m2
  let v1 ← scalar c bv
  let v2 ← scalar c held.2
  let v ← op c v1 v2
  let m ← same bm m
  let v ← same bv v
  set held (m, v)

/-- `_norm` of `BatchNorm.__call__` (`_batch_norm.py:169-175`). -/
def batchNormalise (c : Config) (affine : Option (Dtype × Dtype)) (stats : Dtype × Dtype) (x : Dtype) :
    Except Fault Dtype := do
  let cen ← op c x stats.1
  let sd ← scalar c stats.2
  let out ← op c cen sd
  let out ← opt c out (affine.map Prod.fst)
  opt c out (affine.map Prod.snd)

/-- The statistics a call uses (`_batch_norm.py:143-167`). -/
def batchUsed (c : Config) (held : Dtype × Dtype) (inference : Bool) (x : Dtype) :
    Except Fault (Dtype × Dtype) :=
  if inference then .ok held else batchStats c held x

/-- `BatchNorm.__call__` (`_batch_norm.py:111-176`): the dtype of the result and the new statistics. -/
def batchNorm (c : Config) (B : Batch) (inference : Bool) (x : Dtype) : Except Fault (Dtype × Batch) := do
  let s ← batchUsed c (B.mean, B.var) inference x
  let out ← batchNormalise c B.affine s x
  pure (out, { B with mean := s.1, var := s.2 })

/-- `_power_iteration` (`_spectral_norm.py:15-24`). -/
def powerStep (c : Config) (w : Dtype) (uv : Dtype × Dtype) : Except Fault (Dtype × Dtype) := do
  let u ← op c w uv.2
  let n ← scalar c u
  let u ← op c u n
  let v ← op c w u
  let n ← scalar c v
  let v ← op c v n
  pure (u, v)

def powerSteps (c : Config) (w : Dtype) : Nat → Dtype × Dtype → Except Fault (Dtype × Dtype)
  | 0, uv => .ok uv
  | n + 1, uv => do
    let uv ← powerStep c w uv
    powerSteps c w n uv

/-- The vectors a call of `SpectralNorm` uses (`_spectral_norm.py:142-152`). -/
def spectralUsed (c : Config) (w : Dtype) (n : Nat) (held : Dtype × Dtype) (inference : Bool) :
    Except Fault (Dtype × Dtype) :=
  if inference then .ok held else do
    let uv ← powerSteps c w n held
    set held uv

/-- `SpectralNorm.__call__` (`_spectral_norm.py:115-157`) around a `Linear`. -/
def spectralNorm (c : Config) (L : Affine) (n : Nat) (held : Dtype × Dtype) (inference : Bool) (x : Dtype) :
    Except Fault (Dtype × Dtype × Dtype) := do
  let uv ← spectralUsed c L.weight n held inference
  let s ← op c uv.1 L.weight
  let s ← op c s uv.2
  let w ← op c L.weight s
  let out ← linear c { L with weight := w } x
  pure (out, uv)

/-- `WeightNorm.__call__` (`_weight_norm.py:105-121`) around a `Linear`; `g` is the dtype of its
scale. -/
def weightNorm (c : Config) (L : Affine) (g x : Dtype) : Except Fault Dtype := do
  let w ← op c L.weight g
  let w ← op c w L.weight.real
  linear c { L with weight := w } x

/-- `RotaryPositionalEmbedding.__call__` (`_embedding.py:238-255`). -/
def rope (c : Config) (d x : Dtype) : Except Fault Dtype := do
  let a ← op c x d
  let b ← op c x d
  let y ← op c a b
  pure (cast y x)

/-- `PReLU.__call__` (`_activations.py:44-45`); a slope made from a Python float is weakly typed. -/
def prelu (c : Config) (x : Dtype) : Option Dtype → Except Fault Dtype
  | none => do
    let y ← scalar c.standard x
    op c.standard x y
  | some s => do
    let y ← op c.standard s x
    op c.standard x y

/-! ## Constructors -/

/-- `jrandom.uniform` and `jrandom.normal`. -/
def random (c : Config) (complexToo : Bool) (d : Dtype) : Except Fault Dtype :=
  if d.isFloat || (complexToo && d.isComplex) then .ok (canon c d) else .error .value

/-- `default_init` for complex dtypes (`_misc.py:36-41`). -/
def complexInit (c : Config) (d : Dtype) : Except Fault Dtype := do
  let re ← random c false d.real
  let im ← random c false d.real
  let re := canon c (cast re d)
  let im := canon c (cast im d)
  let im ← scalar c im
  op c re im

/-- `default_init` (`_misc.py:33-44`). -/
def defaultInit (c : Config) (d : Dtype) : Except Fault Dtype :=
  if d.isComplex then complexInit c d else random c false d

/-- `jnp.ones`, `jnp.zeros`, `jnp.empty`; without a dtype they are floats. -/
def filled (c : Config) : Option Dtype → Dtype
  | none => defaultFloat c
  | some d => canon c d

/-- `dtype = default_floating_dtype() if dtype is None else dtype`. -/
def asked (c : Config) (d : Option Dtype) : Dtype := d.getD (defaultFloat c)

/-- An initialisation done only if asked for: `... if use_bias else None`. -/
def optInit (c : Config) (d : Dtype) : Bool → Except Fault (Option Dtype)
  | false => .ok none
  | true => do
    let b ← defaultInit c d
    pure (some b)

/-- `Linear.__init__` (`_linear.py:50-61`), `Conv.__init__` (`_conv.py:167-174`) and
`ConvTranspose.__init__` (`_conv.py:495-513`). -/
def newAffine (c : Config) (d : Option Dtype) (bias : Bool) : Except Fault Affine := do
  let w ← defaultInit c (asked c d)
  let b ← optInit c (asked c d) bias
  pure ⟨w, b⟩

/-- The hidden layers of `MLP.__init__` (`_mlp.py:100-106`). -/
def newHidden (c : Config) (d : Dtype) (bias : Bool) : Nat → Except Fault (List Affine)
  | 0 => .ok []
  | n + 1 => do
    let L ← newAffine c (some d) bias
    let Ls ← newHidden c d bias n
    pure (L :: Ls)

/-- The layers of `MLP.__init__` (`_mlp.py:89-109`) for a depth above zero. -/
def newDeep (c : Config) (d : Dtype) (n : Nat) (bias final : Bool) : Except Fault (List Affine) := do
  let first ← newAffine c (some d) bias
  let mid ← newHidden c d bias n
  let last ← newAffine c (some d) final
  pure (first :: (mid ++ [last]))

/-- The layers of an `MLP` of depth zero (`_mlp.py:91-96`). -/
def newShallow (c : Config) (d : Dtype) (final : Bool) : Except Fault (List Affine) := do
  let only ← newAffine c (some d) final
  pure [only]

/-- `MLP.__init__` (`_mlp.py:89-109`). -/
def newMLP (c : Config) (d : Option Dtype) (bias final : Bool) : Nat → Except Fault (List Affine)
  | 0 => newShallow c (asked c d) final
  | n + 1 => newDeep c (asked c d) n bias final

/-- `MultiheadAttention.__init__` (`_attention.py:186-223`). -/
def newHeads (c : Config) (d : Option Dtype) (bq bk bv bo : Bool) : Except Fault Heads := do
  let q ← newAffine c (some (asked c d)) bq
  let k ← newAffine c (some (asked c d)) bk
  let v ← newAffine c (some (asked c d)) bv
  let o ← newAffine c (some (asked c d)) bo
  pure ⟨q, k, v, o⟩

/-- `LayerNorm.__init__` (`_normalisation.py:98-99`), which hands `dtype=None` to `jnp.ones`. -/
def newLayerNorm (c : Config) (d : Option Dtype) (w b : Bool) : Option Dtype × Option Dtype :=
  (if w then some (filled c d) else none, if b then some (filled c d) else none)

/-- `RMSNorm.__init__` (`_normalisation.py:341-351`). -/
def newRMSNorm (c : Config) (d : Option Dtype) (w b : Bool) : Option Dtype × Option Dtype :=
  (if w then some (filled c (some (asked c d))) else none, if b then some (filled c (some (asked c d))) else none)

/-- `GroupNorm.__init__` (`_normalisation.py:231-232`). -/
def newGroupNorm (c : Config) (d : Option Dtype) (affine : Bool) : Option (Dtype × Dtype) :=
  if affine then some (filled c d, filled c d) else none

/-- `BatchNorm.__init__` (`_batch_norm.py:90-102`). -/
def newBatchNorm (c : Config) (d : Option Dtype) (affine : Bool) : Batch :=
  { affine := if affine then some (filled c (some (asked c d)), filled c (some (asked c d))) else none
    mean := filled c (some (asked c d))
    var := filled c (some (asked c d)) }

/-- `GRUCell.__init__` (`_rnn.py:65-78`): `weight_ih`, `weight_hh`, `bias`, `bias_n`. -/
def newGRU (c : Config) (d : Option Dtype) (bias : Bool) : Except Fault (Dtype × Dtype × Option Dtype × Option Dtype) := do
  let ih ← defaultInit c (asked c d)
  let hh ← defaultInit c (asked c d)
  let b ← optInit c (asked c d) bias
  let bn ← optInit c (asked c d) bias
  pure (ih, hh, b, bn)

/-- `LSTMCell.__init__` (`_rnn.py:165-174`). -/
def newLSTM (c : Config) (d : Option Dtype) (bias : Bool) : Except Fault (Dtype × Dtype × Option Dtype) := do
  let ih ← defaultInit c (asked c d)
  let hh ← defaultInit c (asked c d)
  let b ← optInit c (asked c d) bias
  pure (ih, hh, b)

/-- `Embedding.__init__` (`_embedding.py:53-67`). -/
def newEmbedding (c : Config) (d : Option Dtype) : Except Fault Dtype := random c true (asked c d)

/-- `SpectralNorm.__init__` (`_spectral_norm.py:100-111`): the vectors get the weight's dtype and are
improved fifteen times. -/
def newSpectral (c : Config) (w : Dtype) : Except Fault (Dtype × Dtype) := do
  let u ← random c true w
  let v ← random c true w
  powerSteps c w 15 (u, v)

/-! ## Layers in sequence -/

/-- Layers with the dtypes of everything they hold. -/
inductive Layer where
  | linear (L : Affine)
  | mlp (Ls : List Affine)
  | conv (L : Affine)
  | layerNorm (w b : Option Dtype)
  | groupNorm (wb : Option (Dtype × Dtype))
  | rmsNorm (w b : Option Dtype)
  | batchNorm (B : Batch) (inference : Bool)
  | attention (A : Heads) (mask drop : Bool)
  | spectral (L : Affine) (n : Nat) (uv : Dtype × Dtype) (inference : Bool)
  | weightNorm (L : Affine) (g : Dtype)
  | rope (d : Dtype)
  | dropout (active : Bool)
  | prelu (slope : Option Dtype)
  deriving DecidableEq

/-- Call a layer: the dtype of the result, and the layer with its new state. Attention is
self-attention. -/
def Layer.call (c : Config) (l : Layer) (x : Dtype) : Except Fault (Dtype × Layer) :=
  match l with
  | .linear L => (Dtypes.linear c L x).map fun y => (y, l)
  | .mlp Ls => (Dtypes.mlp c Ls x).map fun y => (y, l)
  | .conv L => (Dtypes.conv c L x).map fun y => (y, l)
  | .layerNorm w b => (Dtypes.layerNorm c w b x).map fun r => (r.out, l)
  | .groupNorm wb => (Dtypes.groupNorm c wb x).map fun r => (r.out, l)
  | .rmsNorm w b => (Dtypes.rmsNorm c w b x).map fun r => (r.out, l)
  | .batchNorm B i => (Dtypes.batchNorm c B i x).map fun r => (r.1, .batchNorm r.2 i)
  | .attention A m dr => (Dtypes.attention c A m dr x x x).map fun y => (y, l)
  | .spectral L n uv i => (Dtypes.spectralNorm c L n uv i x).map fun r => (r.1, .spectral L n r.2 i)
  | .weightNorm L g => (Dtypes.weightNorm c L g x).map fun y => (y, l)
  | .rope d => (Dtypes.rope c d x).map fun y => (y, l)
  | .dropout a => (Dtypes.dropout c a x).map fun y => (y, l)
  | .prelu s => (Dtypes.prelu c x s).map fun y => (y, l)

/-- Layers called one after the other, as by `Sequential.__call__` (`_sequential.py:101-105`); which of
them `Sequential` can call is another question, for keys and states see `Verif/NN/Sequential.lean`. -/
def run (c : Config) : List Layer → Dtype → Except Fault (Dtype × List Layer)
  | [], x => .ok (x, [])
  | l :: ls, x => do
    let r ← l.call c x
    let rs ← run c ls r.1
    pure (rs.1, r.2 :: rs.2)

/-- What a constructor is asked for, besides its dtype. -/
inductive Ask where
  | linear (bias : Bool)
  | mlp (depth : Nat) (bias final : Bool)
  | conv (bias : Bool)
  | layerNorm (w b : Bool)
  | groupNorm (affine : Bool)
  | rmsNorm (w b : Bool)
  | batchNorm (affine inference : Bool)
  | attention (bq bk bv bo mask drop : Bool)
  | spectral (bias : Bool) (n : Nat) (inference : Bool)
  | weightNorm (bias : Bool)
  | rope
  | dropout (active : Bool)
  | prelu

/-- `SpectralNorm(Linear(..., dtype=d), "weight", num_power_iterations=n)`. -/
def newSpectralLinear (c : Config) (d : Option Dtype) (bias : Bool) (n : Nat) (i : Bool) : Except Fault Layer := do
  let L ← newAffine c d bias
  let uv ← newSpectral c L.weight
  pure (.spectral L n uv i)

/-- `WeightNorm(Linear(..., dtype=d))` (`_weight_norm.py:83-103`): the scale is a norm of the weight. -/
def newWeightNormLinear (c : Config) (d : Option Dtype) (bias : Bool) : Except Fault Layer := do
  let L ← newAffine c d bias
  pure (.weightNorm L L.weight.real)

/-- Construct a layer with `dtype=d`. `Dropout` and `PReLU` have no such argument; that of
`RotaryPositionalEmbedding` is a static field with the same default (`_embedding.py:167`). -/
def build (c : Config) (d : Option Dtype) : Ask → Except Fault Layer
  | .linear b => (newAffine c d b).map .linear
  | .mlp n b f => (newMLP c d b f n).map .mlp
  | .conv b => (newAffine c d b).map .conv
  | .layerNorm w b => .ok (.layerNorm (newLayerNorm c d w b).1 (newLayerNorm c d w b).2)
  | .groupNorm a => .ok (.groupNorm (newGroupNorm c d a))
  | .rmsNorm w b => .ok (.rmsNorm (newRMSNorm c d w b).1 (newRMSNorm c d w b).2)
  | .batchNorm a i => .ok (.batchNorm (newBatchNorm c d a) i)
  | .attention bq bk bv bo m dr => (newHeads c d bq bk bv bo).map fun A => .attention A m dr
  | .spectral b n i => newSpectralLinear c d b n i
  | .weightNorm b => newWeightNormLinear c d b
  | .rope => .ok (.rope (canon c (asked c d)))
  | .dropout a => .ok (.dropout a)
  | .prelu => .ok (.prelu none)

/-- Construct a list of layers. -/
def builds (c : Config) (d : Option Dtype) : List Ask → Except Fault (List Layer)
  | [] => .ok []
  | a :: as => do
    let l ← build c d a
    let ls ← builds c d as
    pure (l :: ls)

end Verif.NN.Dtypes
