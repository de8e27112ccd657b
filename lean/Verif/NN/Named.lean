import Verif.NN.ConvModel
import Verif.NN.Pool
import Verif.NN.AdaptiveValue
/-!
# C104: the layers named after their number of dimensions

`equinox/nn/_conv.py`: `Conv1d`, `Conv2d`, `Conv3d` (253-352), `ConvTranspose1d`, `ConvTranspose2d`,
`ConvTranspose3d` (623-727), documented "As `Conv` with `num_spatial_dims=1`" and so on;
`equinox/nn/_pool.py`: `AvgPool1d` ... `MaxPool3d` (158-441) and `AdaptiveAvgPool1d` ... `AdaptiveMaxPool3d`
(535-598).

A call is a list of positional arguments and a list of keyword arguments, which Python matches with the
parameters of the signature (`bind`) before the body runs. The bodies are the constructors of
`ConvModel` and `PoolModel`, applied to what the arguments are.

Simplified: a number of dimensions or of channels that is not a natural number is taken to be a
TypeError. The random initial weights are a function of the key and the dtype. `init=0` and
`init=-jnp.inf` are the zero and the least element of the type of elements.
-/

namespace Verif.NN.Named

/-! ## Calls -/

/-- The names of parameters; `other` are all names which are no parameter of these layers. -/
inductive Param
  | init | operation | numSpatialDims | inChannels | outChannels | kernelSize | stride | padding
  | outputPadding | dilation | groups | useBias | paddingMode | dtype | key | useCeil | targetShape
  | other (s : String)
deriving DecidableEq, Repr

/-- What is passed. `ρ` are the functions passed as `operation`, `α` the elements of arrays, `D` the
dtypes, `K` the random keys. -/
inductive Val (α ρ D K : Type)
  | int (n : Int)
  | seq (l : List Int)
  | pairs (l : List (Int × Int))
  | bool (b : Bool)
  | padding (p : Pad)
  | mode (m : Mode)
  | str (s : String)
  | elem (a : α)
  | fn (f : ρ)
  | dtype (d : D)
  | key (k : K)
  | none

variable {α ρ D K : Type}

/-- The parameters before and after the `*`. -/
structure Sig where
  positional : List Param
  kwOnly : List Param

/-- What Python does with the arguments of a call: the value passed for each parameter, if any. The
parameters without default must all get a value. -/
def bind (sig : Sig) (required : List Param) (pos : List (Val α ρ D K)) (kw : List (Param × Val α ρ D K)) :
    Except Err (Param → Option (Val α ρ D K)) :=
  if sig.positional.length < pos.length then .error .typeError
  else if kw.any fun p => !sig.positional.contains p.1 && !sig.kwOnly.contains p.1 then .error .typeError
  else if kw.any fun p => (sig.positional.take pos.length).contains p.1 then .error .typeError
  else if required.any fun r => ((sig.positional.zip pos ++ kw).lookup r).isNone then .error .typeError
  else .ok fun r => (sig.positional.zip pos ++ kw).lookup r

/-! ## What the arguments are -/

def Val.toIntOrSeq : Val α ρ D K → IntOrSeq
  | .int n => .int n
  | .seq l => .seq l
  | _ => .other

def Val.toPadArg : Val α ρ D K → PadArg
  | .int n => .int n
  | .seq l => .ints l
  | .pairs l => .pairs l
  | _ => .other

def Val.toConvPad : Val α ρ D K → ConvPadArg
  | .padding p => .str p
  | .str _ => .badStr
  | v => .arg v.toPadArg

def Val.toMode : Val α ρ D K → Option Mode
  | .mode m => some m
  | _ => Option.none

def Val.toNat : Val α ρ D K → Except Err Nat
  | .int n => if 0 ≤ n then .ok n.toNat else .error .typeError
  | _ => .error .typeError

/-- truth -/
def Val.truth : Val α ρ D K → Bool
  | .bool b => b
  | .int n => n ≠ 0
  | .str s => s ≠ ""
  | .seq l => !l.isEmpty
  | .pairs l => !l.isEmpty
  | .none => false
  | _ => true

/-- `default_floating_dtype() if dtype is None else dtype` (167, 495) -/
def Val.toDtype (float : D) : Val α ρ D K → Except Err D
  | .none => .ok float
  | .dtype d => .ok d
  | _ => .error .typeError

def Val.toKey : Val α ρ D K → Except Err K
  | .key k => .ok k
  | _ => .error .typeError

/-- an initial value -/
def Val.toElem : Val α ρ D K → Except Err α
  | .elem a => .ok a
  | _ => .error .typeError

/-- an operation -/
def Val.toFn : Val α ρ D K → Except Err ρ
  | .fn f => .ok f
  | _ => .error .typeError

/-- The argument of a parameter without default (`bind` has checked that there is one). -/
def need : Option (Val α ρ D K) → Except Err (Val α ρ D K)
  | some v => .ok v
  | Option.none => .error .typeError

/-! ## Convolutions -/

/-- What JAX provides: the dtype used by default, and the weights made for a key and a dtype. -/
structure Jax (R D K : Type) where
  float : D
  weight : K → D → NArr R
  bias : K → D → Nat → R

/-- A layer with the dtype of its weights. -/
structure Layer (R D : Type) where
  conv : Conv R
  dtype : D

/-- The arguments with which the body of `Conv.__init__` or `ConvTranspose.__init__` runs. -/
structure Args (α ρ D K : Type) where
  numSpatialDims : Val α ρ D K
  inChannels : Val α ρ D K
  outChannels : Val α ρ D K
  kernelSize : Val α ρ D K
  stride : Val α ρ D K
  padding : Val α ρ D K
  outputPadding : Val α ρ D K
  dilation : Val α ρ D K
  groups : Val α ρ D K
  useBias : Val α ρ D K
  paddingMode : Val α ρ D K
  dtype : Val α ρ D K
  key : Val α ρ D K

/-- The body of `Conv.__init__` (156-185) -/
def convBody {R : Type} (J : Jax R D K) (a : Args α ρ D K) : Except Err (Layer R D) := do
  let n ← a.numSpatialDims.toNat
  let i ← a.inChannels.toNat
  let o ← a.outChannels.toNat
  let g ← a.groups.toNat
  let d ← a.dtype.toDtype J.float
  let k ← a.key.toKey
  let c ← Conv.mk' n i o a.kernelSize.toIntOrSeq a.stride.toIntOrSeq a.padding.toConvPad
    a.dilation.toIntOrSeq g a.paddingMode.toMode (J.weight k d) (if a.useBias.truth then some (J.bias k d) else Option.none)
  pure ⟨c, d⟩

/-- The body of `ConvTranspose.__init__` (495-543) -/
def convTBody {R : Type} (J : Jax R D K) (a : Args α ρ D K) : Except Err (Layer R D) := do
  let n ← a.numSpatialDims.toNat
  let i ← a.inChannels.toNat
  let o ← a.outChannels.toNat
  let g ← a.groups.toNat
  let d ← a.dtype.toDtype J.float
  let k ← a.key.toKey
  let c ← Conv.mkTranspose n i o a.kernelSize.toIntOrSeq a.stride.toIntOrSeq a.padding.toConvPad
    a.outputPadding.toIntOrSeq a.dilation.toIntOrSeq g a.paddingMode.toMode (J.weight k d)
    (if a.useBias.truth then some (J.bias k d) else Option.none)
  pure ⟨c, d⟩

/-- `Conv(*pos, **kw)`: the signature of `Conv.__init__` (86-101) -/
def conv {R : Type} (J : Jax R D K) (pos : List (Val α ρ D K)) (kw : List (Param × Val α ρ D K)) :
    Except Err (Layer R D) := do
  let e ← bind ⟨[.numSpatialDims, .inChannels, .outChannels, .kernelSize, .stride, .padding, .dilation,
    .groups, .useBias, .paddingMode, .dtype], [.key]⟩
    [.numSpatialDims, .inChannels, .outChannels, .kernelSize, .key] pos kw
  let n ← need (e .numSpatialDims)
  let i ← need (e .inChannels)
  let o ← need (e .outChannels)
  let ks ← need (e .kernelSize)
  let k ← need (e .key)
  convBody J {
    numSpatialDims := n, inChannels := i, outChannels := o, kernelSize := ks
    stride := (e .stride).getD (.int 1)
    padding := (e .padding).getD (.int 0)
    outputPadding := .none
    dilation := (e .dilation).getD (.int 1)
    groups := (e .groups).getD (.int 1)
    useBias := (e .useBias).getD (.bool true)
    paddingMode := (e .paddingMode).getD (.mode .zeros)
    dtype := (e .dtype).getD .none
    key := k }

/-- `Conv1d(*pos, **kw)` (256-284) -/
def conv1d {R : Type} (J : Jax R D K) (pos : List (Val α ρ D K)) (kw : List (Param × Val α ρ D K)) :
    Except Err (Layer R D) := do
  let e ← bind ⟨[.inChannels, .outChannels, .kernelSize, .stride, .padding, .dilation,
    .groups, .useBias, .paddingMode, .dtype], [.key]⟩
    [.inChannels, .outChannels, .kernelSize, .key] pos kw
  let i ← need (e .inChannels)
  let o ← need (e .outChannels)
  let ks ← need (e .kernelSize)
  let k ← need (e .key)
  conv J [] [
    (.numSpatialDims, .int 1),
    (.inChannels, i),
    (.outChannels, o),
    (.kernelSize, ks),
    (.stride, (e .stride).getD (.int 1)),
    (.padding, (e .padding).getD (.int 0)),
    (.dilation, (e .dilation).getD (.int 1)),
    (.groups, (e .groups).getD (.int 1)),
    (.useBias, (e .useBias).getD (.bool true)),
    (.paddingMode, (e .paddingMode).getD (.mode .zeros)),
    (.dtype, (e .dtype).getD .none),
    (.key, k)]

/-- `Conv2d(*pos, **kw)` (290-318) -/
def conv2d {R : Type} (J : Jax R D K) (pos : List (Val α ρ D K)) (kw : List (Param × Val α ρ D K)) :
    Except Err (Layer R D) := do
  let e ← bind ⟨[.inChannels, .outChannels, .kernelSize, .stride, .padding, .dilation,
    .groups, .useBias, .paddingMode, .dtype], [.key]⟩
    [.inChannels, .outChannels, .kernelSize, .key] pos kw
  let i ← need (e .inChannels)
  let o ← need (e .outChannels)
  let ks ← need (e .kernelSize)
  let k ← need (e .key)
  conv J [] [
    (.numSpatialDims, .int 2),
    (.inChannels, i),
    (.outChannels, o),
    (.kernelSize, ks),
    (.stride, (e .stride).getD (.seq [1, 1])),
    (.padding, (e .padding).getD (.seq [0, 0])),
    (.dilation, (e .dilation).getD (.seq [1, 1])),
    (.groups, (e .groups).getD (.int 1)),
    (.useBias, (e .useBias).getD (.bool true)),
    (.paddingMode, (e .paddingMode).getD (.mode .zeros)),
    (.dtype, (e .dtype).getD .none),
    (.key, k)]

/-- `Conv3d(*pos, **kw)` (324-352) -/
def conv3d {R : Type} (J : Jax R D K) (pos : List (Val α ρ D K)) (kw : List (Param × Val α ρ D K)) :
    Except Err (Layer R D) := do
  let e ← bind ⟨[.inChannels, .outChannels, .kernelSize, .stride, .padding, .dilation,
    .groups, .useBias, .paddingMode, .dtype], [.key]⟩
    [.inChannels, .outChannels, .kernelSize, .key] pos kw
  let i ← need (e .inChannels)
  let o ← need (e .outChannels)
  let ks ← need (e .kernelSize)
  let k ← need (e .key)
  conv J [] [
    (.numSpatialDims, .int 3),
    (.inChannels, i),
    (.outChannels, o),
    (.kernelSize, ks),
    (.stride, (e .stride).getD (.seq [1, 1, 1])),
    (.padding, (e .padding).getD (.seq [0, 0, 0])),
    (.dilation, (e .dilation).getD (.seq [1, 1, 1])),
    (.groups, (e .groups).getD (.int 1)),
    (.useBias, (e .useBias).getD (.bool true)),
    (.paddingMode, (e .paddingMode).getD (.mode .zeros)),
    (.dtype, (e .dtype).getD .none),
    (.key, k)]

/-- `ConvTranspose(*pos, **kw)`: the signature of `ConvTranspose.__init__` (372-388) -/
def convT {R : Type} (J : Jax R D K) (pos : List (Val α ρ D K)) (kw : List (Param × Val α ρ D K)) :
    Except Err (Layer R D) := do
  let e ← bind ⟨[.numSpatialDims, .inChannels, .outChannels, .kernelSize, .stride, .padding,
    .outputPadding, .dilation, .groups, .useBias, .paddingMode, .dtype], [.key]⟩
    [.numSpatialDims, .inChannels, .outChannels, .kernelSize, .key] pos kw
  let n ← need (e .numSpatialDims)
  let i ← need (e .inChannels)
  let o ← need (e .outChannels)
  let ks ← need (e .kernelSize)
  let k ← need (e .key)
  convTBody J {
    numSpatialDims := n, inChannels := i, outChannels := o, kernelSize := ks
    stride := (e .stride).getD (.int 1)
    padding := (e .padding).getD (.int 0)
    outputPadding := (e .outputPadding).getD (.int 0)
    dilation := (e .dilation).getD (.int 1)
    groups := (e .groups).getD (.int 1)
    useBias := (e .useBias).getD (.bool true)
    paddingMode := (e .paddingMode).getD (.mode .zeros)
    dtype := (e .dtype).getD .none
    key := k }

/-- `ConvTranspose1d(*pos, **kw)` (626-656); `output_padding` comes before `padding`. -/
def convT1d {R : Type} (J : Jax R D K) (pos : List (Val α ρ D K)) (kw : List (Param × Val α ρ D K)) :
    Except Err (Layer R D) := do
  let e ← bind ⟨[.inChannels, .outChannels, .kernelSize, .stride, .outputPadding, .padding, .dilation,
    .groups, .useBias, .paddingMode, .dtype], [.key]⟩
    [.inChannels, .outChannels, .kernelSize, .key] pos kw
  let i ← need (e .inChannels)
  let o ← need (e .outChannels)
  let ks ← need (e .kernelSize)
  let k ← need (e .key)
  convT J [] [
    (.numSpatialDims, .int 1),
    (.inChannels, i),
    (.outChannels, o),
    (.kernelSize, ks),
    (.stride, (e .stride).getD (.int 1)),
    (.outputPadding, (e .outputPadding).getD (.int 0)),
    (.padding, (e .padding).getD (.int 0)),
    (.dilation, (e .dilation).getD (.int 1)),
    (.groups, (e .groups).getD (.int 1)),
    (.useBias, (e .useBias).getD (.bool true)),
    (.paddingMode, (e .paddingMode).getD (.mode .zeros)),
    (.dtype, (e .dtype).getD .none),
    (.key, k)]

/-- `ConvTranspose2d(*pos, **kw)` (662-692) -/
def convT2d {R : Type} (J : Jax R D K) (pos : List (Val α ρ D K)) (kw : List (Param × Val α ρ D K)) :
    Except Err (Layer R D) := do
  let e ← bind ⟨[.inChannels, .outChannels, .kernelSize, .stride, .outputPadding, .padding, .dilation,
    .groups, .useBias, .paddingMode, .dtype], [.key]⟩
    [.inChannels, .outChannels, .kernelSize, .key] pos kw
  let i ← need (e .inChannels)
  let o ← need (e .outChannels)
  let ks ← need (e .kernelSize)
  let k ← need (e .key)
  convT J [] [
    (.numSpatialDims, .int 2),
    (.inChannels, i),
    (.outChannels, o),
    (.kernelSize, ks),
    (.stride, (e .stride).getD (.seq [1, 1])),
    (.outputPadding, (e .outputPadding).getD (.seq [0, 0])),
    (.padding, (e .padding).getD (.seq [0, 0])),
    (.dilation, (e .dilation).getD (.seq [1, 1])),
    (.groups, (e .groups).getD (.int 1)),
    (.useBias, (e .useBias).getD (.bool true)),
    (.paddingMode, (e .paddingMode).getD (.mode .zeros)),
    (.dtype, (e .dtype).getD .none),
    (.key, k)]

/-- `ConvTranspose3d(*pos, **kw)` (698-727). `dtype` is a parameter, but it is not passed on. -/
def convT3d {R : Type} (J : Jax R D K) (pos : List (Val α ρ D K)) (kw : List (Param × Val α ρ D K)) :
    Except Err (Layer R D) := do
  let e ← bind ⟨[.inChannels, .outChannels, .kernelSize, .stride, .outputPadding, .padding, .dilation,
    .groups, .useBias, .paddingMode, .dtype], [.key]⟩
    [.inChannels, .outChannels, .kernelSize, .key] pos kw
  let i ← need (e .inChannels)
  let o ← need (e .outChannels)
  let ks ← need (e .kernelSize)
  let k ← need (e .key)
  convT J [] [
    (.numSpatialDims, .int 3),
    (.inChannels, i),
    (.outChannels, o),
    (.kernelSize, ks),
    (.stride, (e .stride).getD (.seq [1, 1, 1])),
    (.outputPadding, (e .outputPadding).getD (.seq [0, 0, 0])),
    (.padding, (e .padding).getD (.seq [0, 0, 0])),
    (.dilation, (e .dilation).getD (.seq [1, 1, 1])),
    (.groups, (e .groups).getD (.int 1)),
    (.useBias, (e .useBias).getD (.bool true)),
    (.paddingMode, (e .paddingMode).getD (.mode .zeros)),
    (.key, k)]

/-! ## Pools -/

/-- `Pool(*pos, **kw)`: the signature (26-35) and the body (57-93) of `Pool.__init__` -/
def pool (pos : List (Val α (α → α → α) D K)) (kw : List (Param × Val α (α → α → α) D K)) :
    Except Err (Pool α) := do
  let e ← bind ⟨[.init, .operation, .numSpatialDims, .kernelSize, .stride, .padding, .useCeil], []⟩
    [.init, .operation, .numSpatialDims, .kernelSize] pos kw
  let i ← need (e .init)
  let f ← need (e .operation)
  let n ← need (e .numSpatialDims)
  let k ← need (e .kernelSize)
  let n ← n.toNat
  let i ← i.toElem
  let f ← f.toFn
  Pool.mk' i f n k.toIntOrSeq ((e .stride).getD (.int 1)).toIntOrSeq
    ((e .padding).getD (.int 0)).toPadArg ((e .useCeil).getD (.bool false)).truth

/-- The `__init__` which the six named pools have in common (161-187, 208-234, 256-282, 303-329, 351-377,
399-425): `super().__init__` with the initial value, operation and number of dimensions of the class. -/
def superPool (init : α) (operation : α → α → α) (n : Int) (pos : List (Val α (α → α → α) D K))
    (kw : List (Param × Val α (α → α → α) D K)) : Except Err (Pool α) := do
  let e ← bind ⟨[.kernelSize, .stride, .padding, .useCeil], []⟩ [.kernelSize] pos kw
  let k ← need (e .kernelSize)
  pool [] [
    (.init, .elem init),
    (.operation, .fn operation),
    (.numSpatialDims, .int n),
    (.kernelSize, k),
    (.stride, (e .stride).getD (.int 1)),
    (.padding, (e .padding).getD (.int 0)),
    (.useCeil, (e .useCeil).getD (.bool false))]

section Avg
variable [Zero α] [Add α]

/-- `AvgPool1d` (179-187) -/
def avgPool1d : List (Val α (α → α → α) D K) → List (Param × Val α (α → α → α) D K) → Except Err (Pool α) :=
  superPool 0 (· + ·) 1

/-- `AvgPool2d` (274-282) -/
def avgPool2d : List (Val α (α → α → α) D K) → List (Param × Val α (α → α → α) D K) → Except Err (Pool α) :=
  superPool 0 (· + ·) 2

/-- `AvgPool3d` (369-377) -/
def avgPool3d : List (Val α (α → α → α) D K) → List (Param × Val α (α → α → α) D K) → Except Err (Pool α) :=
  superPool 0 (· + ·) 3

end Avg

section Max
variable [Max α] [Bot α]

/-- `MaxPool1d` (226-234) -/
def maxPool1d : List (Val α (α → α → α) D K) → List (Param × Val α (α → α → α) D K) → Except Err (Pool α) :=
  superPool ⊥ max 1

/-- `MaxPool2d` (321-329) -/
def maxPool2d : List (Val α (α → α → α) D K) → List (Param × Val α (α → α → α) D K) → Except Err (Pool α) :=
  superPool ⊥ max 2

/-- `MaxPool3d` (417-425) -/
def maxPool3d : List (Val α (α → α → α) D K) → List (Param × Val α (α → α → α) D K) → Except Err (Pool α) :=
  superPool ⊥ max 3

end Max

/-! ## Adaptive pools -/

/-- The argument `target_shape`: an integer, a sequence of integers, a sequence of the given length of
anything else (a string, say), or not a sequence. -/
inductive Target
  | int (n : Int)
  | seq (l : List Int)
  | otherSeq (len : Nat)
  | other

/-- The fields of `AdaptivePool` (477-478); the operation on arrays and on scalars. `target_shape` is a
sequence of integers or (`inr`) a sequence of the given length of other things. -/
structure AdaptiveLayer (α : Type) where
  targetShape : List Int ⊕ Nat
  op : List α → α
  op0 : α → α

/-- `AdaptivePool.__init__` (480-503) -/
def adaptiveInit (op : List α → α) (op0 : α → α) (n : Nat) : Target → Except Err (AdaptiveLayer α)
  | .int t => .ok ⟨.inl (List.replicate n t), op, op0⟩
  | .seq l => if l.length = n then .ok ⟨.inl l, op, op0⟩ else .error .valueError
  | .otherSeq len => if len = n then .ok ⟨.inr len, op, op0⟩ else .error .valueError
  | .other => .error .valueError

/-- `AdaptivePool.__call__` (505-532). After the check of the rank, a size which is negative or not an integer
raises some error of JAX, here `typeError`. -/
def AdaptiveLayer.call [Inhabited α] (a : AdaptiveLayer α) (x : NArr α) : Except Err (NArr α) :=
  match a.targetShape with
  | .inl l =>
    if (x.shape.length : Int) - 1 ≠ l.length then .error .valueError
    else if l.any (· < 0) then .error .typeError
    else adaptivePool a.op a.op0 (l.map Int.toNat) x
  | .inr len =>
    if (x.shape.length : Int) - 1 ≠ len then .error .valueError else .error .typeError

section
variable {F : Type} [Field F]

/-- `AdaptiveAvgPool1d` (535-543) -/
def adaptiveAvgPool1d : Target → Except Err (AdaptiveLayer F) := adaptiveInit Adaptive.mean Adaptive.mean0 1
/-- `AdaptiveAvgPool2d` (546-554) -/
def adaptiveAvgPool2d : Target → Except Err (AdaptiveLayer F) := adaptiveInit Adaptive.mean Adaptive.mean0 2
/-- `AdaptiveAvgPool3d` (557-565) -/
def adaptiveAvgPool3d : Target → Except Err (AdaptiveLayer F) := adaptiveInit Adaptive.mean Adaptive.mean0 3

end

section
variable [LinearOrder α] [Inhabited α]

/-- `AdaptiveMaxPool1d` (568-576) -/
def adaptiveMaxPool1d : Target → Except Err (AdaptiveLayer α) := adaptiveInit Adaptive.maxl id 1
/-- `AdaptiveMaxPool2d` (579-587) -/
def adaptiveMaxPool2d : Target → Except Err (AdaptiveLayer α) := adaptiveInit Adaptive.maxl id 2
/-- `AdaptiveMaxPool3d` (590-598) -/
def adaptiveMaxPool3d : Target → Except Err (AdaptiveLayer α) := adaptiveInit Adaptive.maxl id 3

end

end Verif.NN.Named
