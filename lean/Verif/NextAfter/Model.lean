import Verif.Basic

/-!
# `nextafter` and `prevbefore` (`equinox/internal/_nextafter.py`)

Elementwise on one dtype. A floating point dtype of IEEE 754 is given by the number of its fraction bits, its exponent
bias, and its largest exponent field, which is the one of infinities and NaNs.
-/

namespace Verif
namespace NextAfter

/-- A dtype: `frac` fraction bits, the exponent bias, and `top` for the exponent field with all bits set. -/
structure Fmt where
  frac : Nat
  bias : Int
  top : Nat

/-- A floating point number by its sign bit, exponent field and fraction field. -/
inductive Flt where
  | fin (neg : Bool) (expo frac : Nat)
  | inf (neg : Bool)
  | nan
deriving DecidableEq, Repr

/-- The magnitude with the next larger bit pattern: the fraction overflows into the exponent, and the largest finite
number is followed by infinity. -/
def up (F : Fmt) (neg : Bool) (e f : Nat) : Flt :=
  if f + 1 < 2 ^ F.frac then .fin neg e (f + 1)
  else if e + 1 < F.top then .fin neg (e + 1) 0
  else .inf neg

/-- The magnitude with the next smaller bit pattern, for numbers other than zero. -/
def down (F : Fmt) (neg : Bool) (e f : Nat) : Flt :=
  if f = 0 then .fin neg (e - 1) (2 ^ F.frac - 1) else .fin neg e (f - 1)

/-- `jnp.nextafter(x, inf)` for `toNeg = false` and `jnp.nextafter(x, -inf)` for `toNeg = true`. JAX works on the bit
patterns, so that it is not affected by how denormals are treated. -/
def libNextafter (F : Fmt) (toNeg : Bool) : Flt → Flt
  | .nan => .nan
  | .inf n => if n = toNeg then .inf n else .fin n (F.top - 1) (2 ^ F.frac - 1)
  | .fin n e f =>
    if e = 0 ∧ f = 0 then .fin toNeg 0 1
    else if n = toNeg then up F n e f
    else down F n e f

/-- `x == 0`. With `daz` (denormals are zero), as XLA does on some platforms, it also holds for denormals. -/
def eqZero (daz : Bool) : Flt → Bool
  | .fin _ e f => e == 0 && (daz || f == 0)
  | _ => false

/-- `jnp.finfo(x.dtype).tiny`, the smallest normal number, or its negative. -/
def tiny (neg : Bool) : Flt := .fin neg 1 0

/-- `nextafter` (lines 6-15). -/
def nextafter (F : Fmt) (daz : Bool) (x : Flt) : Flt :=
  let y := libNextafter F false x
  if eqZero daz x then tiny false else y

/-- `prevbefore` (lines 25-29). -/
def prevbefore (F : Fmt) (daz : Bool) (x : Flt) : Flt :=
  let y := libNextafter F true x
  if eqZero daz x then tiny true else y

/-- `nextafter_jvp` (lines 18-22), the derivative rule: `t` is the tangent. -/
def nextafterJvp {T : Type} (F : Fmt) (daz : Bool) (x : Flt) (t : T) : Flt × T := (nextafter F daz x, t)

/-- `prevbefore_jvp` (lines 32-36). -/
def prevbeforeJvp {T : Type} (F : Fmt) (daz : Bool) (x : Flt) (t : T) : Flt × T := (prevbefore F daz x, t)

end NextAfter
end Verif
