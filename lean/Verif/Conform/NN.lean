import Verif.NN.PoolModel
import Verif.NN.ConvModel
import Verif.NN.AdaptiveValue
import Mathlib.Algebra.Ring.Int.Defs
import Mathlib.Algebra.Order.Ring.Rat

/-!
# The model against the tests: `tests/test_nn.py`, pooling and convolutions

These are tests, not proofs: they say that the model computes what the tests of equinox expect.
-/

namespace Verif
namespace Conform
namespace NN

open Verif.NN

/-- All indices of an array of given shape, in row-major order. -/
def indices : List Nat → List (List Nat)
  | [] => [[]]
  | n :: s => (List.range n).flatMap fun i => (indices s).map (i :: ·)

/-- The position of an index. -/
def ravel : List Nat → List Nat → Nat
  | _ :: s, i :: is => i * s.foldl (· * ·) 1 + ravel s is
  | _, _ => 0

/-- `jnp.arange(lo, ...).reshape(shape)` -/
def arange (lo : Int) (shape : List Nat) : NArr Int := ⟨shape, fun i => lo + ravel shape i⟩
/-- the same with floating point numbers -/
def arangef (shape : List Nat) : NArr Rat := ⟨shape, fun i => (ravel shape i : Nat)⟩

/-- Shape and entries of a result. -/
def out {α : Type} (x : Except Err (NArr α)) : Option (List Nat × List α) :=
  match x with
  | .ok a => some (a.shape, (indices a.shape).map a.at_)
  | .error _ => none

def shape {α : Type} (x : Except Err (NArr α)) : Option (List Nat) :=
  match x with
  | .ok a => some a.shape
  | .error _ => none

/-! ## Pooling -/

def maxPool (n : Nat) (k s : IntOrSeq) (p : PadArg) (ceil : Bool) (x : NArr Int) : Option (List Nat × List Int) :=
  out ((Pool.mk' (-1000) max n k s p ceil).bind fun q => q.call x)

def avgPool (n : Nat) (k s : IntOrSeq) (x : NArr Rat) : Option (List Nat × List Rat) :=
  out ((Pool.mk' 0 (· + ·) n k s (.int 0) false).bind fun q => q.avgCall (fun a b => a / b) x)

/-- `test_maxpool1d`, lines 1132-1143 -/
example : maxPool 1 (.int 2) (.int 3) (.int 0) false (arange 0 [1, 14]) = some ([1, 5], [1, 4, 7, 10, 13]) := by decide +kernel
example : maxPool 1 (.int 3) (.int 3) (.int 0) true (arange 0 [1, 14]) = some ([1, 5], [2, 5, 8, 11, 13]) := by decide +kernel

/-- `test_avgpool1d`, lines 1146-1152 -/
example : avgPool 1 (.int 2) (.int 3) (arangef [1, 14]) = some ([1, 5], [1/2, 7/2, 13/2, 19/2, 25/2]) := by decide +kernel

/-- `test_maxpool2d`, lines 1179-1193 -/
example : maxPool 2 (.int 2) (.seq [3, 2]) (.int 0) false (arange 0 [1, 6, 6]) =
    some ([1, 2, 3], [7, 9, 11, 25, 27, 29]) := by decide +kernel
example : maxPool 2 (.seq [3, 3]) (.int 2) (.ints [1, 1]) true (arange 0 [1, 6, 6]) =
    some ([1, 4, 4], [7, 9, 11, 11, 19, 21, 23, 23, 31, 33, 35, 35, 31, 33, 35, 35]) := by decide +kernel

/-- `test_avgpool2d`, lines 1196-1202 -/
example : avgPool 2 (.seq [1, 3]) (.int 2) (arangef [1, 6, 6]) =
    some ([1, 3, 2], [1, 3, 13, 15, 25, 27]) := by decide +kernel

/-- `test_maxpool3d`, lines 1229-1249 -/
example : maxPool 3 (.int 2) (.seq [3, 2, 1]) (.int 0) false (arange 0 [1, 4, 4, 4]) =
    some ([1, 1, 2, 3], [21, 22, 23, 29, 30, 31]) := by decide +kernel
example : maxPool 3 (.int 3) (.int 2) (.ints [0, 1, 1]) true (arange 0 [1, 4, 4, 4]) =
    some ([1, 2, 3, 3], [37, 39, 39, 45, 47, 47, 45, 47, 47, 53, 55, 55, 61, 63, 63, 61, 63, 63]) := by decide +kernel

/-- `test_avgpool3d`, lines 1252-1258 -/
example : avgPool 3 (.seq [1, 3, 1]) (.int 2) (arangef [1, 4, 4, 4]) =
    some ([1, 2, 1, 2], [4, 6, 36, 38]) := by decide +kernel

/-- `test_poolpadding`, lines 1285-1290 -/
example : (maxPool 3 (.int 2) (.int 1) (.pairs [(0, 1), (0, 1), (0, 1)]) false (arange 0 [1, 4, 4, 4])).map Prod.fst =
    some [1, 4, 4, 4] := by decide +kernel

def avgOf (l : List Rat) : Rat := l.sum / (l.length : Nat)
def maxOf (l : List Rat) : Rat := l.foldl max (-1000)

def adaptiveAvg (t : List Nat) (x : NArr Rat) : Option (List Nat × List Rat) := out (adaptivePool avgOf (· / 1) t x)
def adaptiveMax (t : List Nat) (x : NArr Rat) : Option (List Nat × List Rat) := out (adaptivePool maxOf id t x)

/-- `test_adaptive_avgpool1d`, lines 1155-1164 -/
example : adaptiveAvg [4] (arangef [1, 14]) = some ([1, 4], [3/2, 11/2, 9, 12]) := by decide +kernel
example : adaptiveAvg [14] (arangef [1, 14]) = out (.ok (arangef [1, 14])) := by decide +kernel

/-- `test_adaptive_maxpool1d`, lines 1167-1176 -/
example : adaptiveMax [4] (arangef [1, 14]) = some ([1, 4], [3, 7, 10, 13]) := by decide +kernel
example : adaptiveMax [14] (arangef [1, 14]) = out (.ok (arangef [1, 14])) := by decide +kernel

/-- `test_adaptive_avgpool2d`, lines 1205-1214 -/
example : adaptiveAvg [2, 3] (arangef [1, 3, 4]) = some ([1, 2, 3], [5/2, 4, 5, 17/2, 10, 11]) := by decide +kernel
example : adaptiveAvg [3, 4] (arangef [1, 3, 4]) = out (.ok (arangef [1, 3, 4])) := by decide +kernel

/-- `test_adaptive_maxpool2d`, lines 1217-1226 -/
example : adaptiveMax [2, 3] (arangef [1, 3, 4]) = some ([1, 2, 3], [5, 6, 7, 9, 10, 11]) := by decide +kernel
example : adaptiveMax [3, 4] (arangef [1, 3, 4]) = out (.ok (arangef [1, 3, 4])) := by decide +kernel

/-- `test_adaptive_avgpool3d`, lines 1261-1270 -/
example : adaptiveAvg [2, 1, 3] (arangef [1, 3, 2, 3]) =
    some ([1, 2, 1, 3], [9/2, 11/2, 13/2, 27/2, 29/2, 31/2]) := by decide +kernel
example : adaptiveAvg [3, 2, 3] (arangef [1, 3, 2, 3]) = out (.ok (arangef [1, 3, 2, 3])) := by decide +kernel

/-- `test_adaptive_maxpool3d`, lines 1273-1282 -/
example : adaptiveMax [2, 1, 3] (arangef [1, 3, 2, 3]) = some ([1, 2, 1, 3], [9, 10, 11, 15, 16, 17]) := by decide +kernel
example : adaptiveMax [3, 2, 3] (arangef [1, 3, 2, 3]) = out (.ok (arangef [1, 3, 2, 3])) := by decide +kernel

/-! ## Convolutions -/

def zeros (shape : List Nat) : NArr Int := ⟨shape, fun _ => 0⟩

/-- The shape of `Conv(...)(x)`. -/
def convShape (n inC outC : Nat) (k s : IntOrSeq) (p : ConvPadArg) (x : List Nat) : Option (List Nat) :=
  shape ((Conv.mk' n inC outC k s p (.int 1) 1 (some .zeros) (zeros []) none).bind fun c => c.call (zeros x))

/-- `test_conv1d`, lines 265-299 -/
example : convShape 1 1 3 (.int 3) (.int 1) (.arg (.int 0)) [1, 32] = some [3, 30] := by decide +kernel
example : convShape 1 1 3 (.seq [3]) (.int 1) (.arg (.int 0)) [1, 32] = some [3, 30] := by decide +kernel
example : convShape 1 1 3 (.seq [3]) (.int 1) (.arg (.int 1)) [1, 32] = some [3, 32] := by decide +kernel
example : convShape 1 3 1 (.seq [3]) (.int 2) (.arg (.int 1)) [3, 32] = some [1, 16] := by decide +kernel

/-- `test_conv2d`, lines 315-349 -/
example : convShape 2 1 3 (.int 3) (.int 1) (.arg (.int 0)) [1, 32, 32] = some [3, 30, 30] := by decide +kernel
example : convShape 2 1 3 (.seq [3, 3]) (.int 1) (.arg (.int 1)) [1, 32, 32] = some [3, 32, 32] := by decide +kernel
example : convShape 2 3 1 (.seq [3, 3]) (.int 2) (.arg (.int 1)) [3, 32, 32] = some [1, 16, 16] := by decide +kernel

/-- `test_conv3d`, lines 409-443 -/
example : convShape 3 1 3 (.int 3) (.int 1) (.arg (.int 0)) [1, 3, 32, 32] = some [3, 1, 30, 30] := by decide +kernel
example : convShape 3 1 3 (.seq [3, 3, 3]) (.int 1) (.arg (.int 1)) [1, 3, 32, 32] = some [3, 3, 32, 32] := by decide +kernel
example : convShape 3 3 1 (.seq [3, 3, 3]) (.int 2) (.arg (.int 1)) [3, 3, 32, 32] = some [1, 2, 16, 16] := by decide +kernel

/-- `test_conv_padding`, lines 457-461 -/
example : convShape 2 3 8 (.int 1) (.int 2) (.arg (.pairs [(0, 1), (0, 3)])) [3, 32, 32] = some [8, 17, 18] := by decide +kernel

def bias (l : List Int) : Option (Nat → Int) := some fun i => l.getD i 0

/-- `Conv(...)(x)` with given weights. -/
def conv (n inC outC : Nat) (k : IntOrSeq) (p : ConvPadArg) (groups : Nat) (w : NArr Int) (b : List Int) (x : NArr Int) :
    Option (List Nat × List Int) :=
  out ((Conv.mk' n inC outC k (.int 1) p (.int 1) groups (some .zeros) w (bias b)).bind fun c => c.call x)

/-- `test_conv1d`, lines 301-312 -/
example : conv 1 1 3 (.int 3) (.arg (.int 1)) 1 (arange 0 [3, 1, 3]) [1, 2, 3] (arange (-3) [1, 6]) =
    some ([3, 6], [-6, -3, 0, 3, 6, 3, -20, -20, -8, 4, 16, 13, -34, -37, -16, 5, 26, 23]) := by decide +kernel

/-- `test_conv2d`, lines 351-360 -/
example : conv 2 1 1 (.int 3) (.arg (.int 1)) 1 (arange 0 [1, 1, 3, 3]) [1] (arange (-4) [1, 3, 3]) =
    some ([1, 3, 3], [-37, -31, -9, 25, 61, 49, 23, 41, 27]) := by decide +kernel

/-- Two copies of the weights, the second one doubled. -/
def groupWeight : NArr Int := ⟨[2, 1, 3, 3], fun i => match i with
  | co :: rest => (co + 1) * ravel [1, 3, 3] rest
  | [] => 0⟩

/-- The same data in both channels. -/
def groupData : NArr Int := ⟨[2, 3, 3], fun i => -4 + ravel [3, 3] i.tail⟩

/-- `test_conv2d`, lines 375-406: groups -/
example : conv 2 2 2 (.int 3) (.arg (.int 1)) 2 groupWeight [1, 2] groupData =
    some ([2, 3, 3], [-38, -32, -10, 24, 60, 48, 22, 40, 26].map (· + 1) ++
      [-38, -32, -10, 24, 60, 48, 22, 40, 26].map (2 * · + 2)) := by decide +kernel

/-- `test_conv3d`, lines 445-454 -/
example : conv 3 1 1 (.seq [2, 1, 1]) (.arg (.ints [1, 0, 0])) 1 (arange 0 [1, 1, 2, 1, 1]) [1] (arange (-4) [1, 2, 2, 2]) =
    some ([1, 3, 2, 2], [-3, -2, -1, 0, 1, 2, 3, 4, 1, 1, 1, 1]) := by decide +kernel

/-! ## Transposed convolutions -/

def convTShape (n inC outC : Nat) (k s : IntOrSeq) (p : ConvPadArg) (a d : IntOrSeq) (x : List Nat) : Option (List Nat) :=
  shape ((Conv.mkTranspose n inC outC k s p a d 1 (some .zeros) (zeros []) none).bind fun c => c.callT (zeros x))

/-- `test_convtranspose1d`, lines 481-500 -/
example : convTShape 1 1 3 (.int 3) (.int 1) (.arg (.int 0)) (.int 0) (.int 1) [1, 32] = some [3, 34] := by decide +kernel
example : convTShape 1 3 1 (.int 3) (.int 2) (.arg (.int 1)) (.int 1) (.int 2) [3, 31] = some [1, 64] := by decide +kernel

/-- `test_convtranspose2d`, lines 541-560 -/
example : convTShape 2 1 3 (.int 3) (.int 1) (.arg (.int 0)) (.int 0) (.int 1) [1, 32, 32] = some [3, 34, 34] := by decide +kernel
example : convTShape 2 3 1 (.seq [3, 3]) (.int 2) (.arg (.int 1)) (.int 1) (.int 2) [3, 31, 31] =
    some [1, 64, 64] := by decide +kernel

/-- `test_convtranspose3d`, lines 610-629 -/
example : convTShape 3 1 3 (.int 3) (.int 1) (.arg (.int 0)) (.int 0) (.int 1) [1, 3, 32, 32] =
    some [3, 5, 34, 34] := by decide +kernel
example : convTShape 3 3 1 (.seq [3, 3, 3]) (.int 2) (.arg (.int 1)) (.int 1) (.int 2) [3, 2, 31, 31] =
    some [1, 6, 64, 64] := by decide +kernel

/-- `test_convtranspose_padding`, lines 675-679 -/
example : convTShape 2 8 3 (.int 1) (.int 2) (.arg (.pairs [(0, 1), (0, 3)])) (.int 0) (.int 1) [8, 17, 18] =
    some [3, 32, 32] := by decide +kernel

def convT (n inC outC : Nat) (k : IntOrSeq) (p : ConvPadArg) (groups : Nat) (w : NArr Int) (b : List Int) (x : NArr Int) :
    Option (List Nat × List Int) :=
  out ((Conv.mkTranspose n inC outC k (.int 1) p (.int 0) (.int 1) groups (some .zeros) w (bias b)).bind fun c => c.callT x)

/-- `test_convtranspose1d`, lines 502-538 -/
example : convT 1 1 3 (.int 3) (.arg (.int 0)) 1 (arange 0 [3, 1, 3]) [1, 2, 3] (arange (-3) [1, 6]) =
    some ([3, 8], [-5, -6, -3, 0, 3, 6, 3, 1, -13, -20, -20, -8, 4, 16, 13, 8, -21, -34, -37, -16, 5, 26, 23, 15]) := by
  decide +kernel

/-- `test_convtranspose2d`, lines 562-571 -/
example : convT 2 1 1 (.int 3) (.arg (.int 1)) 1 (arange 0 [1, 1, 3, 3]) [1] (arange (-4) [1, 3, 3]) =
    some ([1, 3, 3], [-37, -31, -9, 25, 61, 49, 23, 41, 27]) := by decide +kernel

/-- `test_convtranspose2d`, lines 573-607: groups -/
example : convT 2 2 2 (.int 3) (.arg (.int 1)) 2 groupWeight [1, 2] groupData =
    some ([2, 3, 3], [-38, -32, -10, 24, 60, 48, 22, 40, 26].map (· + 1) ++
      [-38, -32, -10, 24, 60, 48, 22, 40, 26].map (2 * · + 2)) := by decide +kernel

/-- `test_convtranspose3d`, lines 631-672 -/
example : convT 3 1 1 (.seq [2, 2, 2]) (.arg (.ints [0, 0, 0])) 1 (arange 0 [1, 1, 2, 2, 2]) [1] (arange (-4) [1, 2, 2, 2]) =
    some ([1, 3, 3, 3], [-27, -44, -17, -33, -49, -17, -9, -12, -3, -11, -9, 1, 5, 29, 21, 9, 23, 13, 1, 4, 3, 7, 15, 7,
      3, 4, 1]) := by decide +kernel

/-- The array with a one at position `j`. -/
def unit (shape : List Nat) (j : Nat) : NArr Int := ⟨shape, fun i => if ravel shape i = j then 1 else 0⟩

def ones (shape : List Nat) : NArr Int := ⟨shape, fun _ => 1⟩

/-- The columns of the Jacobian of a convolution with a kernel of ones. -/
def jac (mode : Mode) (n : Nat) : List (Option (List Int)) :=
  (List.range n).map fun j => (out ((Conv.mk' 1 1 1 (.int 3) (.int 2) (.str .same) (.int 2) 1 (some mode) (ones [1, 1, 3])
    none).bind fun c => c.call (unit [1, n] j))).map Prod.snd

/-- The columns of the Jacobian of the transposed convolution. -/
def jacT (mode : Mode) (a : Int) (n : Nat) : List (Option (List Int)) :=
  (List.range n).map fun j => (out ((Conv.mkTranspose 1 1 1 (.int 3) (.int 2) (.str .same) (.int a) (.int 2) 1 (some mode)
    (ones [1, 1, 3]) none).bind fun c => c.callT (unit [1, n] j))).map Prod.snd

/-- The transpose of a list of columns. -/
def transpose (rows : Nat) (m : List (Option (List Int))) : List (Option (List Int)) :=
  (List.range rows).map fun i => some (m.map fun c => (c.getD []).getD i 0)

/-- `test_convtranspose_same_padding`, lines 682-716 -/
example : jac .zeros 5 = transpose 5 (jacT .zeros 1 3) := by decide +kernel

/-- `test_convtranspose_circular`, lines 719-754 -/
example : jac .circular 6 = transpose 6 (jacT .circular 0 3) := by decide +kernel

end NN
end Conform
end Verif
