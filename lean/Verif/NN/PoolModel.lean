import Verif.NN.NArr
/-!
# Pooling

`equinox/nn/_pool.py`: `Pool` (15-155), the average and maximum pools (157-441, which only choose
`init`, `operation` and `num_spatial_dims` and, for averages, divide by `math.prod(kernel_size)`),
`_adaptive_pool1d` (444-471) and `AdaptivePool` (474-532).

`lax.reduce_window` is not part of the repository; `reduceWindow` below is its documented meaning:
each output element folds the operation over the window, padding positions holding `init`. XLA leaves
the order of the fold open; the model uses row-major order, and the theorems about sums and maxima do
not depend on it. `jax.vmap` is modelled by `Op.vmap`, with shapes inferred apart from values as JAX
does when tracing.

Simplified: `jnp.moveaxis`/`expand_dims`/`squeeze` around `reduce_window` only move the channel axis
to the end and back, so channels are handled as a leading index here. The sequence arguments of the
constructor are lists of integers (or of pairs).
-/

namespace Verif.NN

/-! ## `Pool` -/

/-- An argument that should be an integer or a sequence of integers. -/
inductive IntOrSeq
  | int (n : Int)
  | seq (l : List Int)
  | other

/-- The `padding` argument: an integer, a sequence of integers, a sequence of pairs, or anything
else. -/
inductive PadArg
  | int (n : Int)
  | ints (l : List Int)
  | pairs (l : List (Int × Int))
  | other

/-- The fields of `Pool` (18-24). -/
structure Pool (α : Type) where
  init : α
  operation : α → α → α
  numSpatialDims : Nat
  kernelSize : List Int
  stride : List Int
  padding : List (Int × Int)
  useCeil : Bool

/-- `Pool.__init__` (26-93) -/
def Pool.mk' {α : Type} (init : α) (operation : α → α → α) (n : Nat) (kernelSize stride : IntOrSeq)
    (padding : PadArg) (useCeil : Bool) : Except Err (Pool α) := do
  let k ← match kernelSize with
    | .int k => .ok (List.replicate n k)
    | .seq l => .ok l
    | .other => .error .valueError
  let s ← match stride with
    | .int s => .ok (List.replicate n s)
    | .seq l => .ok l
    | .other => .error .valueError
  let p ← match padding with
    | .int p => .ok (List.replicate n (p, p))
    | .ints l => if l.length = n then .ok (l.map fun p => (p, p)) else .error .valueError
    | .pairs l => if l.length = n then .ok l else .error .valueError
    | .other => .error .valueError
  .ok ⟨init, operation, n, k, s, p, useCeil⟩

/-- `_update_padding_for_ceil` (95-104), after `input_shape[1:]`; `zip` stops at the shortest list,
and `% stride` raises for a zero stride. -/
def updatePadding : List Nat → List (Int × Int) → List Int → List Int →
    Except Err (List (Int × Int))
  | n :: ns, (l, r) :: ps, k :: ks, s :: ss =>
    if s = 0 then .error .zeroDivision
    else do
      let rest ← updatePadding ns ps ks ss
      .ok ((if ((n : Int) + l + r - k).fmod s = 0 then (l, r) else (l, r + s)) :: rest)
  | _, _, _, _ => .ok []

/-- `_check_is_padding_valid` (106-115) -/
def checkPadding : List (Int × Int) → List Int → Except Err Unit
  | (l, r) :: ps, k :: ks => if max l r > k then .error .runtimeError else checkPadding ps ks
  | _, _ => .ok ()

/-- One dimension of the output shape of `lax.reduce_window`. -/
def windows (n : Nat) (p : Int × Int) (k s : Int) : Nat :=
  (if (n : Int) + p.1 + p.2 < k then 0 else ((n : Int) + p.1 + p.2 - k) / s + 1).toNat

/-- The output shape of `lax.reduce_window` (all lists of equal length). -/
def windowShape : List Nat → List (Int × Int) → List Int → List Int → List Nat
  | n :: ns, p :: ps, k :: ks, s :: ss => windows n p k s :: windowShape ns ps ks ss
  | _, _, _, _ => []

/-- All offsets inside a window, in row-major order. -/
def offsets : List Int → List (List Nat)
  | [] => [[]]
  | k :: ks => (List.range k.toNat).flatMap fun j => (offsets ks).map fun js => j :: js

/-- Where offset `js` of window `is` lies in the unpadded input; `none` in the padding. -/
def position : List Nat → List (Int × Int) → List Int → List Nat → List Nat → Option (List Nat)
  | [], [], [], [], [] => some []
  | n :: ns, p :: ps, s :: ss, i :: is, j :: js =>
    let q : Int := i * s + j - p.1
    if 0 ≤ q ∧ q < n then (position ns ps ss is js).map (q.toNat :: ·) else none
  | _, _, _, _, _ => none

/-- `lax.reduce_window` over the spatial dimensions, for one channel. JAX rejects window dimensions
and strides that are not positive, and arguments of the wrong length. -/
def reduceWindow {α : Type} (x : NArr α) (init : α) (op : α → α → α) (ks ss : List Int)
    (ps : List (Int × Int)) : Except Err (NArr α) :=
  match x.shape with
  | [] => .error .typeError
  | c :: ns =>
    if ks.length ≠ ns.length ∨ ss.length ≠ ns.length ∨ ps.length ≠ ns.length then .error .typeError
    else if (∃ k ∈ ks, k ≤ 0) ∨ (∃ s ∈ ss, s ≤ 0) then .error .valueError
    else .ok ⟨c :: windowShape ns ps ks ss, fun idx => match idx with
      | [] => init
      | ch :: is => (offsets ks).foldl (fun acc js =>
          op acc (match position ns ps ss is js with
            | some q => x.at_ (ch :: q)
            | none => init)) init⟩

/-- The padding used by a call (135-138); `ns` is `x.shape[1:]`. -/
def effPad {α : Type} (p : Pool α) (ns : List Nat) : Except Err (List (Int × Int)) :=
  if p.useCeil then updatePadding ns p.padding p.kernelSize p.stride else .ok p.padding

/-- `Pool.__call__` (118-155) -/
def Pool.call {α : Type} (p : Pool α) (x : NArr α) : Except Err (NArr α) :=
  if x.shape.length ≠ p.numSpatialDims + 1 then .error .assertionError
  else do
    let padding ← effPad p x.shape.tail
    let _ ← checkPadding padding p.kernelSize
    reduceWindow x p.init p.operation p.kernelSize p.stride padding

/-- `math.prod` -/
def prod (l : List Int) : Int := l.foldl (· * ·) 1

/-- `AvgPool1d`/`2d`/`3d.__call__` (202, 297, 393): the pool's result divided by the size of the
kernel. -/
def Pool.avgCall {α : Type} (divInt : α → Int → α) (p : Pool α) (x : NArr α) : Except Err (NArr α) := do
  let y ← p.call x
  .ok ⟨y.shape, fun i => divInt (y.at_ i) (prod p.kernelSize)⟩

/-! ## Adaptive pooling -/

/-- A function of one array, as JAX sees it: the output shape is inferred from the input shape. -/
structure Op (α : Type) where
  shape : List Nat → Except Err (List Nat)
  val : NArr α → List Nat → α

/-- The slice of `x` at position `k` of axis `a`. -/
def NArr.slice {α : Type} (x : NArr α) (a k : Nat) : NArr α :=
  ⟨x.shape.eraseIdx a, fun i => x.at_ (i.insertIdx a k)⟩

/-- `jax.vmap(f, in_axes=(a, None, None), out_axes=b)` -/
def Op.vmap {α : Type} (f : Op α) (a b : Nat) : Op α where
  shape s := match s[a]? with
    | none => .error .valueError
    | some n => do
      let o ← f.shape (s.eraseIdx a)
      if b ≤ o.length then .ok (o.insertIdx b n) else .error .valueError
  val x i := f.val (x.slice a (i[b]?.getD 0)) (i.eraseIdx b)

/-- `l.reshape(-1, k)` for `k > 0` dividing the length: consecutive blocks of size `k`. -/
def chunk {α : Type} (k : Nat) : Nat → List α → List (List α)
  | 0, _ => []
  | m + 1, l => l.take k :: chunk k m (l.drop k)

/-- The values of `_adaptive_pool1d` (458-471) on a one-dimensional array. The operation maps a
one-dimensional array to a scalar (`op`), and is also applied to scalars (`op0`). `head.reshape(h, -1)`
has rows of length `head_end_index // h`. -/
def adaptiveValues {α : Type} (op : List α → α) (op0 : α → α) (t : Nat) (x : List α) : List α :=
  let dims := x.length
  let numHead := dims % t
  if numHead ≠ 0 then
    let headEnd := numHead * (dims / t + 1)
    let head := chunk (headEnd / numHead) numHead (x.take headEnd)
    let tail := chunk (dims / t) ((dims - headEnd) / (dims / t)) (x.drop headEnd)
    head.map op ++ tail.map op
  else ((chunk (dims / t) (dims / (dims / t)) x).map op).map op0

/-- `_adaptive_pool1d` (444-471). `dims % 0` raises; if `dims < t` the reshape to rows of length zero (some error of JAX, here `typeError`)
raises. -/
def adaptive1d {α : Type} [Inhabited α] (op : List α → α) (op0 : α → α) (t : Nat) : Op α where
  shape s := match s with
    | [n] => if t = 0 then .error .zeroDivision
        else if n / t = 0 then .error .typeError else .ok [t]
    | _ => .error .typeError
  val x i := match i with
    | [j] => ((adaptiveValues op op0 t ((List.range (x.shape.headD 0)).map fun q => x.at_ [q]))[j]?).getD
        default
    | _ => default

/-- The inner loop of `AdaptivePool.__call__` (524-530): the function mapped over every axis but `i`;
`js` are the values of `j` still to come. -/
def wrapAxes {α : Type} (i : Nat) : List Nat → Op α → Op α
  | [], op => op
  | j :: js, op => if i = j then wrapAxes i js op else wrapAxes i js (op.vmap j j)

/-- The outer loop of `AdaptivePool.__call__` (523-532) -/
def adaptiveLoop {α : Type} [Inhabited α] (op : List α → α) (op0 : α → α) (target : List Nat) :
    List Nat → NArr α → Except Err (NArr α)
  | [], x => .ok x
  | i :: is, x =>
    match target[i - 1]? with
    | none => .error .indexError
    | some t =>
      let f := wrapAxes i ((List.range (x.shape.length - 1)).map (· + 1)) ((adaptive1d op op0 t).vmap 0 0)
      match f.shape x.shape with
      | .error e => .error e
      | .ok s => adaptiveLoop op op0 target is ⟨s, f.val x⟩

/-- `AdaptivePool.__call__` (505-532) -/
def adaptivePool {α : Type} [Inhabited α] (op : List α → α) (op0 : α → α) (target : List Nat)
    (x : NArr α) : Except Err (NArr α) :=
  if (x.shape.length : Int) - 1 ≠ target.length then .error .valueError
  else adaptiveLoop op op0 target ((List.range (x.shape.length - 1)).map (· + 1)) x

end Verif.NN
