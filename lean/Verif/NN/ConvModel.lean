import Verif.NN.PoolModel
import Verif.NN.BoxSum
/-!
# Convolutions and transposed convolutions

`equinox/nn/_conv.py`: `_ntuple` (20-32), `_padding_init` (35-57), `_padding_mode_init` (60-67), `Conv`
(70-250) and `ConvTranspose` (355-620).

`lax.conv_general_dilated`, `lax.padtype_to_pads` and `jnp.pad` are not part of the repository; they
are modelled by `convGeneral`, `samePads` and `padArr` after their documentation. Values are exact:
elements of a commutative semiring.

Simplified: the random initial weights are an argument; after `_ntuple` has forced all tuples to have
`num_spatial_dims` entries, the tuples `kernel_size`, `stride`, `dilation`, `output_padding` are kept as
one list of `HDim`s, one per dimension. The batch axis added by `expand_dims` is left out.
-/

namespace Verif.NN

/-! ## Constructors -/

/-- The hyperparameters of one spatial dimension: kernel size, stride, dilation and (for transposed
convolutions) output padding. -/
structure HDim where
  k : Int
  s : Int
  d : Int
  a : Int
deriving DecidableEq, Repr

/-- `padding` after `_padding_init`. -/
inductive Pad
  | same
  | sameLower
  | valid
  | pairs (l : List (Int × Int))
deriving DecidableEq, Repr

/-- The `padding` argument of the constructors; `str` are the three legal strings (in any case),
`badStr` any other string. -/
inductive ConvPadArg
  | str (p : Pad)
  | badStr
  | arg (p : PadArg)

/-- `padding_mode` after `upper()`. -/
inductive Mode
  | zeros
  | reflect
  | replicate
  | circular
deriving DecidableEq, Repr

/-- `_ntuple(n)(x)` (20-32); anything that is not a sequence is repeated. -/
def ntuple (n : Nat) : IntOrSeq → Except Err (List Int)
  | .int x => .ok (List.replicate n x)
  | .seq l => if l.length = n then .ok l else .error .valueError
  | .other => .error .typeError

/-- `_padding_init` (35-57) -/
def paddingInit (n : Nat) : ConvPadArg → Except Err Pad
  | .str p => .ok p
  | .badStr => .error .valueError
  | .arg (.int p) => .ok (.pairs (List.replicate n (p, p)))
  | .arg (.ints l) => if l.length = n then .ok (.pairs (l.map fun p => (p, p))) else .error .valueError
  | .arg (.pairs l) => if l.length = n then .ok (.pairs l) else .error .valueError
  | .arg .other => .error .valueError

/-- `_padding_mode_init` (60-67); `none` is a string that is not one of the four modes. -/
def modeInit : Option Mode → Except Err Mode
  | some m => .ok m
  | none => .error .valueError

/-- Python's comparison of tuples: `a >= b`, lexicographically. -/
def tupleGe : List Int → List Int → Bool
  | _, [] => true
  | [], _ :: _ => false
  | a :: as, b :: bs => if a = b then tupleGe as bs else b < a

/-- The check of `ConvTranspose.__init__` (504-506): a loop over the dimensions whose body compares
the whole tuples. -/
def outputPaddingCheck (stride outputPadding : List Int) : Except Err Unit :=
  if (stride.zip outputPadding).any fun _ => tupleGe outputPadding stride then .error .valueError
  else .ok ()

/-- The fields of `Conv` and of `ConvTranspose` that matter for calls. -/
structure Conv (R : Type) where
  dims : List HDim
  padding : Pad
  mode : Mode
  inChannels : Nat
  outChannels : Nat
  groups : Nat
  /-- shape `(out_channels, in_channels // groups) + kernel_size` -/
  weight : NArr R
  /-- one value per output channel, if `use_bias` -/
  bias : Option (Nat → R)

/-- The tuples as one list (all have length `n`). -/
def zipDims : List Int → List Int → List Int → List Int → List HDim
  | k :: ks, s :: ss, d :: ds, a :: as => ⟨k, s, d, a⟩ :: zipDims ks ss ds as
  | _, _, _, _ => []

/-- `lim = 1 / math.sqrt(grouped_in_channels * math.prod(kernel_size))` (170, 509), and making the weights, which cannot have a
negative size (171-172, 510-511). -/
def limCheck (groupedInC : Nat) (kernel : List Int) : Except Err Unit :=
  if groupedInC * kernel.prod = 0 then .error .zeroDivision
  else if groupedInC * kernel.prod < 0 then .error .valueError
  else if kernel.any (· < 0) then .error .valueError
  else .ok ()

/-- `Conv.__init__` (156-185), for given weights. -/
def Conv.mk' {R : Type} (n inC outC : Nat) (kernel stride : IntOrSeq) (padding : ConvPadArg)
    (dilation : IntOrSeq) (groups : Nat) (mode : Option Mode) (weight : NArr R)
    (bias : Option (Nat → R)) : Except Err (Conv R) := do
  let k ← ntuple n kernel
  let s ← ntuple n stride
  let d ← ntuple n dilation
  if groups = 0 then .error .zeroDivision
  else if inC % groups ≠ 0 then .error .valueError
  else do
    let _ ← limCheck (inC / groups) k
    let p ← paddingInit n padding
    let m ← modeInit mode
    .ok ⟨zipDims k s d (List.replicate n 0), p, m, inC, outC, groups, weight, bias⟩

/-- `ConvTranspose.__init__` (495-543), for given weights. -/
def Conv.mkTranspose {R : Type} (n inC outC : Nat) (kernel stride : IntOrSeq) (padding : ConvPadArg)
    (outputPadding dilation : IntOrSeq) (groups : Nat) (mode : Option Mode) (weight : NArr R)
    (bias : Option (Nat → R)) : Except Err (Conv R) := do
  let k ← ntuple n kernel
  let s ← ntuple n stride
  let a ← ntuple n outputPadding
  let d ← ntuple n dilation
  let _ ← outputPaddingCheck s a
  if groups = 0 then .error .zeroDivision
  else do
    let _ ← limCheck (inC / groups) k
    let p ← paddingInit n padding
    let m ← modeInit mode
    match m with
    | .reflect => .error .notImplemented
    | .replicate => .error .notImplemented
    | .circular =>
      if a.any (· ≠ 0) then .error .notImplemented
      else if p ≠ .same ∧ p ≠ .sameLower then .error .notImplemented
      else .ok ⟨zipDims k s d a, p, m, inC, outC, groups, weight, bias⟩
    | .zeros => .ok ⟨zipDims k s d a, p, m, inC, outC, groups, weight, bias⟩

/-! ## The primitives -/

/-- One dimension of a call of `lax.conv_general_dilated`: input size, kernel size, window stride,
kernel dilation, padding before and after, input dilation. -/
structure CDim where
  n : Nat
  k : Int
  s : Int
  d : Int
  p0 : Int
  p1 : Int
  ld : Int

/-- The size of the output: the number of windows that fit into the dilated and padded input. -/
def CDim.out (c : CDim) : Nat :=
  let dilated : Int := if c.n = 0 then 0 else (c.n - 1) * c.ld + 1
  let padded := dilated + c.p0 + c.p1
  let window := c.d * (c.k - 1) + 1
  (if padded < window then 0 else (padded - window) / c.s + 1).toNat

/-- Which input element meets kernel position `kk` at output position `o`; `none` if that is one of
the zeros put in by padding or dilation. -/
def CDim.read (c : CDim) (o kk : Nat) : Option Nat :=
  let z : Int := o * c.s + kk * c.d - c.p0
  if z % c.ld = 0 ∧ 0 ≤ z / c.ld ∧ z / c.ld < c.n then some (z / c.ld).toNat else none

/-- The same in all dimensions. -/
def gather : List CDim → List Nat → List Nat → Option (List Nat)
  | [], [], [] => some []
  | c :: cs, o :: os, k :: ks => match c.read o k, gather cs os ks with
    | some i, some is => some (i :: is)
    | _, _ => none
  | _, _, _ => none

/-- `lax.conv_general_dilated` (without the batch axis). -/
def convGeneral {R : Type} [CommSemiring R] (x w : NArr R) (inC outC groups : Nat) (dims : List CDim) :
    Except Err (NArr R) :=
  if dims.any fun c => c.s ≤ 0 ∨ c.d ≤ 0 ∨ c.ld ≤ 0 ∨ c.k ≤ 0 then .error .valueError
  else if x.shape.head? ≠ some inC then .error .valueError
  else if groups = 0 ∨ inC % groups ≠ 0 ∨ outC % groups ≠ 0 then .error .valueError
  else .ok ⟨outC :: dims.map CDim.out, fun idx => match idx with
    | [] => 0
    | co :: o => ∑ ci ∈ Finset.range (inC / groups), boxSum (dims.map fun c => c.k.toNat) fun kk =>
        match gather dims o kk with
        | some i => w.at_ (co :: ci :: kk) * x.at_ ((co / (outC / groups) * (inC / groups) + ci) :: i)
        | none => 0⟩

/-- `lax.padtype_to_pads` for `"SAME"` and `"SAME_LOWER"`, one dimension. -/
def samePads (lower : Bool) (n : Nat) (window stride : Int) : Int × Int :=
  let out : Int := -((-(n : Int)) / stride)
  let p := max 0 ((out - 1) * stride + window - n)
  if lower then (p - p / 2, p / 2) else (p / 2, p - p / 2)

/-- The padding of one dimension, given the entry of an explicit padding. -/
def convPads (pad : Pad) (n : Nat) (h : HDim) (e : Int × Int) : Int × Int :=
  match pad with
  | .same => samePads false n (h.d * (h.k - 1) + 1) h.s
  | .sameLower => samePads true n (h.d * (h.k - 1) + 1) h.s
  | .valid => (0, 0)
  | .pairs _ => e

/-- The explicit padding of dimension `j`. -/
def Pad.entry : Pad → Nat → Int × Int
  | .pairs l, j => l[j]?.getD (0, 0)
  | _, _ => (0, 0)

/-- The index map of `jnp.pad` in the modes `"wrap"`, `"edge"` and `"reflect"`: the element of the
unpadded array of size `n` found at position `i - l`. -/
def padIndex (m : Mode) (n : Nat) (l : Int) (i : Nat) : Nat :=
  let z : Int := i - l
  match m with
  | .circular => (z % n).toNat
  | .replicate => (min (max z 0) (n - 1)).toNat
  | .reflect =>
    if n ≤ 1 then 0
    else
      let y := z % (2 * (n - 1))
      (if y < n then y else 2 * (n - 1) - y).toNat
  | .zeros => i

/-- The indices of all spatial dimensions through `padIndex`. -/
def padIndices (m : Mode) : List Nat → List (Int × Int) → List Nat → List Nat
  | n :: ns, p :: ps, i :: is => padIndex m n p.1 i :: padIndices m ns ps is
  | _, _, _ => []

/-- The spatial shape after padding. -/
def padShape : List Nat → List (Int × Int) → List Nat
  | n :: ns, p :: ps => ((n : Int) + p.1 + p.2).toNat :: padShape ns ps
  | _, _ => []

/-- `jnp.pad(x, [(0, 0)] + padding, mode)`: negative widths and extending an empty axis are errors. -/
def padArr {R : Type} (m : Mode) (x : NArr R) (ps : List (Int × Int)) : Except Err (NArr R) :=
  match x.shape with
  | [] => .error .valueError
  | c :: ns =>
    if ps.any fun p => p.1 < 0 ∨ p.2 < 0 then .error .valueError
    else if (ns.zip ps).any fun q => q.1 = 0 ∧ (q.2.1 ≠ 0 ∨ q.2.2 ≠ 0) then .error .valueError
    else .ok ⟨c :: padShape ns ps, fun idx => match idx with
      | [] => x.at_ []
      | ch :: i => x.at_ (ch :: padIndices m ns ps i)⟩

/-! ## Calls -/

/-- The paddings of all dimensions of a convolution. -/
def allPads (pad : Pad) : Nat → List Nat → List HDim → List (Int × Int)
  | j, n :: ns, h :: hs => convPads pad n h (pad.entry j) :: allPads pad (j + 1) ns hs
  | _, _, _ => []

/-- The dimensions of the call of `conv_general_dilated` by `Conv`: no input dilation. -/
def convDims : List Nat → List HDim → List (Int × Int) → List CDim
  | n :: ns, h :: hs, p :: ps => ⟨n, h.k, h.s, h.d, p.1, p.2, 1⟩ :: convDims ns hs ps
  | _, _, _ => []

/-- `x + bias` -/
def addBias {R : Type} [Add R] (bias : Option (Nat → R)) (x : NArr R) : NArr R :=
  match bias with
  | none => x
  | some b => ⟨x.shape, fun idx => x.at_ idx + b (idx.headD 0)⟩

/-- `Conv.__call__` (210-250), with `_nonzero_pad` (187-208): in the modes other than zeros the input
is padded first and `"VALID"` is used. -/
def Conv.call {R : Type} [CommSemiring R] (c : Conv R) (x : NArr R) : Except Err (NArr R) :=
  if x.shape.length ≠ c.dims.length + 1 then .error .valueError
  else
    let pads := allPads c.padding 0 x.shape.tail c.dims
    if c.mode = .zeros then do
      let y ← convGeneral x c.weight c.inChannels c.outChannels c.groups (convDims x.shape.tail c.dims pads)
      .ok (addBias c.bias y)
    else do
      let x' ← padArr c.mode x pads
      let y ← convGeneral x' c.weight c.inChannels c.outChannels c.groups
        (convDims x'.shape.tail c.dims (c.dims.map fun _ => (0, 0)))
      .ok (addBias c.bias y)

/-- `_padding_transpose` (545-571), one dimension. -/
def padTranspose (pad : Pad) (h : HDim) (e : Int × Int) : Int × Int :=
  let finish (p0 p1 a : Int) : Int × Int := (h.d * (h.k - 1) - p0, h.d * (h.k - 1) - p1 + a)
  let same (lower : Int) : Int × Int :=
    let pSum := h.d * (h.k - 1) - h.s + h.a + 1
    let a := if pSum < 0 then -pSum else 0
    let pSum' := if pSum < 0 then 0 else pSum
    let p0 := (pSum' + lower) / 2
    finish p0 (pSum' - p0) a
  match pad with
  | .valid => finish 0 0 h.a
  | .same => same 0
  | .sameLower => same 1
  | .pairs _ => finish e.1 e.2 h.a

/-- `_padding_transpose` (545-571) -/
def allPadsT (pad : Pad) : Nat → List HDim → List (Int × Int)
  | j, h :: hs => padTranspose pad h (pad.entry j) :: allPadsT pad (j + 1) hs
  | _, [] => []

/-- The dimensions of the call of `conv_general_dilated` by `ConvTranspose`: window stride one, input
dilated by the stride. -/
def convDimsT : List Nat → List HDim → List (Int × Int) → List CDim
  | n :: ns, h :: hs, p :: ps => ⟨n, h.k, 1, h.d, p.1, p.2, h.s⟩ :: convDimsT ns hs ps
  | _, _, _ => []

/-- `ConvTranspose.__call__` (582-620), with `_circular_pad` (573-580). A stride of zero makes
`padding_t // stride` meaningless; `conv_general_dilated` rejects it. -/
def Conv.callT {R : Type} [CommSemiring R] (c : Conv R) (x : NArr R) : Except Err (NArr R) :=
  if x.shape.length ≠ c.dims.length + 1 then .error .valueError
  else
    let padT := allPadsT c.padding 0 c.dims
    if c.mode = .circular then do
      let whole := List.zipWith (fun p h => (p.1 / h.s, p.2 / h.s)) padT c.dims
      let rest := List.zipWith (fun p h => (p.1 % h.s, p.2 % h.s)) padT c.dims
      let x' ← padArr .circular x whole
      let y ← convGeneral x' c.weight c.inChannels c.outChannels c.groups
        (convDimsT x'.shape.tail c.dims rest)
      .ok (addBias c.bias y)
    else do
      let y ← convGeneral x c.weight c.inChannels c.outChannels c.groups
        (convDimsT x.shape.tail c.dims padT)
      .ok (addBias c.bias y)

end Verif.NN
