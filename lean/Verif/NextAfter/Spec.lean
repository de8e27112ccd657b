import Verif.NextAfter.Model
import Mathlib.Data.EReal.Operations

/-!
# Specification of `nextafter` and `prevbefore`: the numbers that bit patterns stand for
-/

namespace Verif
namespace NextAfter

/-- Formats with denormals, normal numbers and infinities: those of all floating point dtypes of IEEE 754. -/
def Fmt.Proper (F : Fmt) : Prop := 1 ≤ F.frac ∧ 2 ≤ F.top

/-- Bit patterns of the format. -/
def IsFloat (F : Fmt) : Flt → Prop
  | .fin _ e f => e < F.top ∧ f < 2 ^ F.frac
  | _ => True

/-- The sign of a number. -/
def sgn (neg : Bool) : ℝ := if neg then -1 else 1

/-- The smallest normal number. -/
noncomputable def smallestNormal (F : Fmt) : ℝ := 2 ^ (1 - F.bias)

/-- The number a bit pattern stands for, by IEEE 754: NaN is no number. -/
noncomputable def value (F : Fmt) : Flt → Option EReal
  | .nan => none
  | .inf neg => some (if neg then ⊥ else ⊤)
  | .fin neg 0 f => some ((sgn neg * (f / 2 ^ F.frac) * 2 ^ (1 - F.bias) : ℝ) : EReal)
  | .fin neg (e + 1) f => some ((sgn neg * (1 + f / 2 ^ F.frac) * 2 ^ ((e : ℤ) + 1 - F.bias) : ℝ) : EReal)

open Classical in
/-- The number that arithmetic and comparisons work with: numbers between zero and the smallest normal ones are
flushed to zero where denormals are zero. -/
noncomputable def seen (F : Fmt) (daz : Bool) (x : Flt) : Option EReal :=
  (value F x).map (fun v =>
    if daz = true ∧ -(smallestNormal F : EReal) < v ∧ v < (smallestNormal F : EReal) then 0 else v)

/-- `x < y`, which is false for NaNs. -/
def Less (F : Fmt) (daz : Bool) (x y : Flt) : Prop :=
  ∃ a b, seen F daz x = some a ∧ seen F daz y = some b ∧ a < b

/-- `x == y`, which is false for NaNs. -/
def Same (F : Fmt) (daz : Bool) (x y : Flt) : Prop :=
  ∃ a, seen F daz x = some a ∧ seen F daz y = some a

/-- Neither zero nor a denormal number (infinities count as normal here). -/
def Normal : Flt → Prop
  | .fin _ e _ => e ≠ 0
  | .inf _ => True
  | .nan => False

end NextAfter
end Verif
