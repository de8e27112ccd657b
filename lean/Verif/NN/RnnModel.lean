import Verif.Basic
import Mathlib.Analysis.SpecialFunctions.Sigmoid
import Mathlib.Analysis.Complex.Trigonometric

/-!
# `equinox/nn/_rnn.py`

Arithmetic is over the real numbers.  A vector is a list.  The random numbers of `default_init` are given to `__init__`.  A sequence of
steps is what `jax.lax.scan` does with a cell (as in the docstrings); `lax.scan` itself checks that the carry keeps its shape, which it
does here.
-/

namespace Verif
namespace Rnn

/-- A matrix. -/
structure Mat where
  rows : Nat
  cols : Nat
  elt : Nat → Nat → ℝ

/-- `weight @ x`. -/
noncomputable def matvec (W : Mat) (x : List ℝ) : Except Err (List ℝ) :=
  if x.length = W.cols then .ok ((List.range W.rows).map fun i => ∑ j ∈ Finset.range W.cols, W.elt i j * x.getD j 0)
  else .error .typeError

/-- An elementwise operation of two vectors; a vector of length one is broadcast. -/
noncomputable def bin (f : ℝ → ℝ → ℝ) (x y : List ℝ) : Except Err (List ℝ) :=
  if x.length = y.length then .ok (List.zipWith f x y)
  else if x.length = 1 then .ok (y.map fun b => f (x.getD 0 0) b)
  else if y.length = 1 then .ok (x.map fun a => f a (y.getD 0 0))
  else .error .typeError

/-- `jnp.split(x, k)`. -/
def split (x : List ℝ) (k : Nat) : Except Err (List (List ℝ)) :=
  if x.length % k = 0 then .ok ((List.range k).map fun q => (x.drop (q * (x.length / k))).take (x.length / k))
  else .error .valueError

/-- A bias which is an array, or the number `0`. -/
noncomputable def addBias (x : List ℝ) (bias : Option (List ℝ)) : Except Err (List ℝ) :=
  match bias with
  | none => .ok (x.map (· + 0))
  | some b => bin (· + ·) x b

/-- The fields of `GRUCell` (lines 36-42). -/
structure GRU where
  weightIh : Mat
  weightHh : Mat
  bias : Option (List ℝ)
  biasN : Option (List ℝ)
  inputSize : Nat
  hiddenSize : Nat
  useBias : Bool

/-- `GRUCell.__init__` (lines 65-82); `rih`, `rhh`, `rb` and `rb2` are the random numbers. -/
noncomputable def GRU.mk' (inputSize hiddenSize : Nat) (useBias : Bool) (rih rhh : Nat → Nat → ℝ) (rb rb2 : Nat → ℝ) : Except Err GRU :=
  if hiddenSize = 0 then .error .zeroDivision
  else .ok {
    weightIh := ⟨3 * hiddenSize, inputSize, rih⟩
    weightHh := ⟨3 * hiddenSize, hiddenSize, rhh⟩
    bias := if useBias then some ((List.range (3 * hiddenSize)).map rb) else none
    biasN := if useBias then some ((List.range hiddenSize).map rb2) else none
    inputSize := inputSize, hiddenSize := hiddenSize, useBias := useBias }

/-- `GRUCell.__call__` (lines 100-111). -/
noncomputable def GRU.call (c : GRU) (input hidden : List ℝ) : Except Err (List ℝ) := do
  let bias := if c.useBias then c.bias else none
  let biasN := if c.useBias then c.biasN else none
  let wi ← matvec c.weightIh input
  let wib ← addBias wi bias
  let igates ← split wib 3
  let wh ← matvec c.weightHh hidden
  let hgates ← split wh 3
  let r ← bin (· + ·) (igates.getD 0 []) (hgates.getD 0 [])
  let reset := r.map Real.sigmoid
  let z ← bin (· + ·) (igates.getD 1 []) (hgates.getD 1 [])
  let inp := z.map Real.sigmoid
  let hb ← addBias (hgates.getD 2 []) biasN
  let rh ← bin (· * ·) reset hb
  let n ← bin (· + ·) (igates.getD 2 []) rh
  let new := n.map Real.tanh
  let d ← bin (· - ·) hidden new
  let zd ← bin (· * ·) inp d
  bin (· + ·) new zd

/-- The fields of `LSTMCell` (lines 137-142). -/
structure LSTM where
  weightIh : Mat
  weightHh : Mat
  bias : Option (List ℝ)
  inputSize : Nat
  hiddenSize : Nat
  useBias : Bool

/-- `LSTMCell.__init__` (lines 165-178). -/
noncomputable def LSTM.mk' (inputSize hiddenSize : Nat) (useBias : Bool) (rih rhh : Nat → Nat → ℝ) (rb : Nat → ℝ) : Except Err LSTM :=
  if hiddenSize = 0 then .error .zeroDivision
  else .ok {
    weightIh := ⟨4 * hiddenSize, inputSize, rih⟩
    weightHh := ⟨4 * hiddenSize, hiddenSize, rhh⟩
    bias := if useBias then some ((List.range (4 * hiddenSize)).map rb) else none
    inputSize := inputSize, hiddenSize := hiddenSize, useBias := useBias }

/-- `if self.use_bias: lin = lin + self.bias` (lines 197-198). -/
noncomputable def LSTM.biased (l : LSTM) (lin : List ℝ) : Except Err (List ℝ) := if l.useBias then addBias lin l.bias else .ok lin

/-- `LSTMCell.__call__` (lines 195-206). -/
noncomputable def LSTM.call (l : LSTM) (input : List ℝ) (hidden : List ℝ × List ℝ) : Except Err (List ℝ × List ℝ) := do
  let wi ← matvec l.weightIh input
  let wh ← matvec l.weightHh hidden.1
  let lin ← bin (· + ·) wi wh
  let lin ← l.biased lin
  let gates ← split lin 4
  let i := (gates.getD 0 []).map Real.sigmoid
  let f := (gates.getD 1 []).map Real.sigmoid
  let g := (gates.getD 2 []).map Real.tanh
  let o := (gates.getD 3 []).map Real.sigmoid
  let fc ← bin (· * ·) f hidden.2
  let ig ← bin (· * ·) i g
  let c ← bin (· + ·) fc ig
  let h ← bin (· * ·) o (c.map Real.tanh)
  pure (h, c)

/-- Steps for a sequence of inputs, each from the hidden state that the one before gave. -/
def run {H : Type} (step : List ℝ → H → Except Err H) : List (List ℝ) → H → Except Err H
  | [], h => .ok h
  | x :: xs, h => do
    let h ← step x h
    run step xs h

end Rnn
end Verif
