import Verif.Loop.Common.Model
import Mathlib.Algebra.BigOperators.Fin
import Mathlib.Algebra.Ring.Int.Defs

/-!
# Loops: differentiating through buffers
(`equinox/internal/_loop/common.py` lines 39-77 and 154-212)

A loop body, as JAX has traced it, is a list of instructions, here on one lane (`Verif.Loop.Common.Model` says what a lane is).
The registers `R` hold the inexact values, `D` is everything else (integers, booleans), `Q` are the inexact values that the
body closes over, and `P` are the locations of all buffers. An index which stands for several locations is a sequence of
reads or writes, one for each of them.

An instruction that does not involve a buffer is any function, with the Jacobian that JAX uses for it. The instructions
for buffers, and the `select` of `common_rewrite` (line 468), come with the rules of common.py.

Not modelled: symbolic zeros (for them see `Verif.Loop.Perturb`; here they are zeros), dtypes and shapes, indices out of bounds.
-/

namespace Verif
namespace BufferGrad

variable {D Q R P K : Type}

/-- The loop state on one lane. -/
structure St (D R P K : Type) where
  d : D
  v : R → K
  b : P → K

/-- Tangents or cotangents, of the registers and of the buffers. -/
abbrev Tan (R P K : Type) := (R → K) × (P → K)

/-- One instruction of a traced body. -/
inductive Instr (D Q R P K : Type) where
  /-- any JAX primitives on values that are not buffers, with their Jacobians -/
  | op (f : D → (Q → K) → (R → K) → D × (R → K)) (jacQ : D → (Q → K) → (R → K) → R → Q → K)
      (jac : D → (Q → K) → (R → K) → R → R → K)
  /-- `r = buffer[i]` (lines 291-292) -/
  | read (r : R) (i : D → P)
  /-- `_maybe_set(pred, buffer, x, i)` (lines 231-258) -/
  | write (x : R) (i : D → P) (pred : D → Bool) (batched makesFalseSteps : Bool)
  /-- `out = _select_if_vmap(pred, x, y)` (lines 124-137) -/
  | select (out x y : R) (pred : D → Bool) (batched makesFalseSteps : Bool)

variable [DecidableEq R] [DecidableEq P]

/-- The value `x` at the location `p`. -/
def single (p : P) (x : K) : P → Option K := fun q => if q = p then some x else none

/-- Executing an instruction: `_maybe_set_impl` (lines 140-145), `_select_if_vmap_impl` (lines 23-32). -/
def runI (θ : Q → K) : Instr D Q R P K → St D R P K → St D R P K
  | .op f _ _, s => { d := (f s.d θ s.v).1, v := (f s.d θ s.v).2, b := s.b }
  | .read r i, s => { s with v := Function.update s.v r (s.b (i s.d)) }
  | .write x i pred bt m, s => { s with b := Common.maybeSet m bt (pred s.d) s.b (single (i s.d) (s.v x)) }
  | .select out x y pred bt m, s =>
    { s with v := Function.update s.v out (Common.selectIfVmap m bt (pred s.d) (s.v x) (s.v y)) }

/-- Executing a list of instructions. -/
def run (θ : Q → K) : List (Instr D Q R P K) → St D R P K → St D R P K
  | [], s => s
  | i :: is, s => run θ is (runI θ i s)

variable [CommRing K] [Fintype Q] [Fintype R]

/-- The rules for tangents: `_maybe_set_jvp` (lines 154-171), `_select_if_vmap_jvp` (lines 39-55). -/
def jvpI (θ : Q → K) (tθ : Q → K) : Instr D Q R P K → St D R P K → Tan R P K → Tan R P K
  | .op _ jacQ jac, s, t =>
    (fun r => ∑ q, jacQ s.d θ s.v r q * tθ q + ∑ j, jac s.d θ s.v r j * t.1 j, t.2)
  | .read r i, s, t => (Function.update t.1 r (t.2 (i s.d)), t.2)
  | .write x i pred bt m, s, t => (t.1, Common.maybeSet m bt (pred s.d) t.2 (single (i s.d) (t.1 x)))
  | .select out x y pred bt m, s, t =>
    (Function.update t.1 out (Common.selectIfVmap m bt (pred s.d) (t.1 x) (t.1 y)), t.2)

/-- Forward-mode differentiation. -/
def jvp (θ : Q → K) (tθ : Q → K) : List (Instr D Q R P K) → St D R P K → Tan R P K → Tan R P K
  | [], _, t => t
  | i :: is, s, t => jvp θ tθ is (runI θ i s) (jvpI θ tθ i s t)

/-- `_maybe_set_transpose` (lines 174-209): the cotangents of `xs` and of `x`. -/
def maybeSetTranspose (makesFalseSteps batched pred : Bool) (ctOut : P → K) (p : P) : (P → K) × K :=
  (ctOut, Common.selectIfVmap makesFalseSteps batched pred (ctOut p) 0)

/-- `_select_if_vmap_transpose` (lines 59-77): the cotangents of `x` and of `y`. With `makes_false_steps` it is the rule of
`lax.select`. -/
def selectTranspose (makesFalseSteps batched pred : Bool) (ct : K) : K × K :=
  (Common.selectIfVmap makesFalseSteps batched pred ct 0, Common.selectIfVmap makesFalseSteps batched pred 0 ct)

/-- JAX adds up the cotangents of the several uses of a value. -/
def addTo {I : Type} [DecidableEq I] (c : I → K) (i : I) (x : K) : I → K := fun j => c j + if j = i then x else 0

/-- Pulling cotangents back through an instruction: the cotangent of what the body closes over, and that of the state.
The transpose of reading is adding to the location that was read. -/
def pullI (θ : Q → K) : Instr D Q R P K → St D R P K → Tan R P K → (Q → K) × Tan R P K
  | .op _ jacQ jac, s, c =>
    (fun q => ∑ r, c.1 r * jacQ s.d θ s.v r q, (fun j => ∑ r, c.1 r * jac s.d θ s.v r j, c.2))
  | .read r i, s, c => (0, (Function.update c.1 r 0, addTo c.2 (i s.d) (c.1 r)))
  | .write x i pred bt m, s, c =>
    let t := maybeSetTranspose m bt (pred s.d) c.2 (i s.d)
    (0, (addTo c.1 x t.2, t.1))
  | .select out x y pred bt m, s, c =>
    let t := selectTranspose m bt (pred s.d) (c.1 out)
    (0, (addTo (addTo (Function.update c.1 out 0) x t.1) y t.2, c.2))

/-- `jax.vjp` of a list of instructions (checkpointed.py lines 829-837): the values are recomputed, and the cotangents pulled
back in reverse. -/
def vjp (θ : Q → K) : List (Instr D Q R P K) → St D R P K → Tan R P K → (Q → K) × Tan R P K
  | [], _, c => (0, c)
  | i :: is, s, c =>
    let r := vjp θ is (runI θ i s) c
    let q := pullI θ i s r.2
    (r.1 + q.1, q.2)

/-- `tree_at(buffers(None), val, replace_fn=lambda _: None)` (checkpointed.py lines 489 and 838): the values that are
checkpointed. -/
def strip (s : St D R P K) : D × (R → K) := (s.d, s.v)

/-- `tree_at(buffers(_is_none), val, filled_buffers, is_leaf=_is_none)` (checkpointed.py line 822). `filled` are the contents after
the forward pass (line 510). -/
def refill (filled : P → K) (x : D × (R → K)) : St D R P K := { d := x.1, v := x.2, b := filled }

end BufferGrad
end Verif
