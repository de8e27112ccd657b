import Verif.Loop.Common.Props
import Verif.Loop.Checkpoint.Rounding
import Mathlib.Analysis.SpecialFunctions.Log.Basic

/-!
# C23: rounding in the logarithm of `bounded_while_loop` (`internal/_loop/bounded.py`, line 58)

`math.log(max_steps, base)` is the quotient of two logarithms. What is assumed of them: their relative error is at most `2⁻⁵⁰` (four units in the last
place; the C library promises less than one), and the quotient is a nearest double (`Checkpoint/Rounding.lean`).
-/

namespace Verif
namespace Common
namespace Log

open Checkpoint.Rounding (IsDouble Rounds isDouble_of)

/-- `int(math.ceil(math.log(max_steps, base)))` (line 58). `log` is the logarithm of the C library, `rnd` rounds the quotient. -/
noncomputable def ceilLog (log : Nat → ℝ) (rnd : ℝ → ℝ) (maxSteps base : Nat) : Nat := ⌈rnd (log maxSteps / log base)⌉.toNat

/-- The relative error of the logarithm is at most `2⁻⁵⁰`. -/
def Accurate (log : Nat → ℝ) : Prop := ∀ n : Nat, 1 ≤ n → |log n - Real.log n| ≤ Real.log n * (2⁻¹) ^ 50

theorem log_lt_24 (n : Nat) (h1 : 1 ≤ n) (hn : n < 2 ^ 31) : Real.log n < 24 := by
  have h2 : Real.log n < Real.log (2 ^ 31) := by
    apply Real.log_lt_log (by exact_mod_cast h1)
    exact_mod_cast hn
  rw [Real.log_pow] at h2
  have h3 : Real.log 2 < 0.75 := by
    rw [Real.log_lt_iff_lt_exp (by norm_num)]
    have h := Real.quadratic_le_exp_of_nonneg (x := 0.375) (by norm_num)
    have : Real.exp 0.75 = Real.exp 0.375 * Real.exp 0.375 := by rw [← Real.exp_add]; norm_num
    rw [this]
    nlinarith
  push_cast at h2
  linarith

/-- **C23**: below `2³¹` steps the logarithm is never rounded down too far: the number of steps of a bounded loop, rounded up to a power of the base, is
not less than `max_steps`. -/
theorem log_not_rounded_down (log : Nat → ℝ) (rnd : ℝ → ℝ) (hlog : Accurate log) (hr : ∀ x, Rounds x (rnd x)) (m base : Nat)
    (hm : 1 ≤ m) (hm' : m < 2 ^ 31) (hb : 2 ≤ base) (hb' : base < 2 ^ 31) : m ≤ base ^ ceilLog log rnd m base := by
  by_contra hlt
  push Not at hlt
  have hk : (rnd (log m / log base)) ≤ (ceilLog log rnd m base : ℝ) := by
    rw [ceilLog]
    have h1 := Int.le_ceil (rnd (log m / log base))
    have h2 : (⌈rnd (log m / log base)⌉ : ℝ) ≤ ((⌈rnd (log m / log base)⌉.toNat : ℤ) : ℝ) := by
      exact_mod_cast Int.self_le_toNat _
    have h3 : ((⌈rnd (log m / log base)⌉.toNat : ℤ) : ℝ) = (⌈rnd (log m / log base)⌉.toNat : ℝ) := by norm_cast
    linarith
  generalize ceilLog log rnd m base = k at *
  set N := base ^ k with hN
  have hNpos : 1 ≤ N := Nat.one_le_pow _ _ (by omega)
  have hNR : (1 : ℝ) ≤ N := by exact_mod_cast hNpos
  have hmN : (N : ℝ) + 1 ≤ m := by exact_mod_cast hlt
  have hmR : (m : ℝ) < 2 ^ 31 := by exact_mod_cast hm'
  -- the gap between the logarithms
  have hlogN : Real.log N = k * Real.log base := by rw [hN]; push_cast; rw [Real.log_pow]
  have hgap : k * Real.log base + (2⁻¹) ^ 31 ≤ Real.log m := by
    have h1 : 1 - ((m : ℝ) / N)⁻¹ ≤ Real.log (m / N) := Real.one_sub_inv_le_log_of_pos (by positivity)
    rw [Real.log_div (by positivity) (by positivity), hlogN, inv_div] at h1
    have h2 : (2⁻¹ : ℝ) ^ 31 ≤ 1 - (N : ℝ) / m := by
      have hmpos : (0 : ℝ) < m := by linarith
      have h3 : (N : ℝ) / m ≤ 1 - 1 / m := by
        rw [div_le_iff₀ hmpos]
        field_simp
        linarith
      have h4 : (2⁻¹ : ℝ) ^ 31 ≤ 1 / m := by
        rw [le_div_iff₀ hmpos]
        have : (2⁻¹ : ℝ) ^ 31 * 2 ^ 31 = 1 := by norm_num
        nlinarith
      linarith
    linarith
  have hlb : 0 < Real.log base := Real.log_pos (by exact_mod_cast hb)
  have hlb22 := log_lt_24 base (by omega) hb'
  have hlm22 := log_lt_24 m hm hm'
  have hX0 : 0 ≤ k * Real.log base := by positivity
  have e1 := (abs_le.1 (hlog m hm)).1
  have e2 := (abs_le.1 (hlog base (by omega))).2
  have e3 := (abs_le.1 (hlog base (by omega))).1
  have hlbase : 0 < log base := by
    have : (2⁻¹ : ℝ) ^ 50 ≤ 1 / 2 := by norm_num
    nlinarith
  -- so that the quotient stays above `k`
  have hq : (k : ℝ) + (2⁻¹) ^ 40 ≤ log m / log base := by
    rw [le_div_iff₀ hlbase]
    have hk0 : (0 : ℝ) ≤ (k : ℝ) + (2⁻¹) ^ 40 := by positivity
    have h1 : ((k : ℝ) + (2⁻¹) ^ 40) * log base ≤ ((k : ℝ) + (2⁻¹) ^ 40) * (Real.log base * (1 + (2⁻¹) ^ 50)) := by
      apply mul_le_mul_of_nonneg_left _ hk0
      linarith
    have h2 : Real.log m * (1 - (2⁻¹) ^ 50) ≤ log m := by linarith
    have h3 : (k * Real.log base + (2⁻¹) ^ 31) * (1 - (2⁻¹) ^ 50) ≤ Real.log m * (1 - (2⁻¹) ^ 50) :=
      mul_le_mul_of_nonneg_right hgap (by norm_num)
    have hX22 : k * Real.log base < 24 := by
      have : (0 : ℝ) < 2⁻¹ ^ 31 := by positivity
      linarith
    have h4 : ((k : ℝ) + (2⁻¹) ^ 40) * (Real.log base * (1 + (2⁻¹) ^ 50)) ≤ (k * Real.log base + (2⁻¹) ^ 31) * (1 - (2⁻¹) ^ 50) := by
      have : ((k : ℝ) + (2⁻¹) ^ 40) * (Real.log base * (1 + (2⁻¹) ^ 50)) =
          k * Real.log base * (1 + (2⁻¹) ^ 50) + (2⁻¹) ^ 40 * (1 + (2⁻¹) ^ 50) * Real.log base := by ring
      rw [this]
      norm_num
      linarith
    linarith
  have hk31 : k < 31 := by
    by_contra hge
    have h1 : 2 ^ 31 ≤ base ^ k := by
      calc 2 ^ 31 ≤ 2 ^ k := Nat.pow_le_pow_right (by norm_num) (by omega)
        _ ≤ base ^ k := Nat.pow_le_pow_left hb k
    omega
  have hd : IsDouble ((k : ℝ) + (2⁻¹) ^ 40) := by
    refine isDouble_of (k * 2 ^ 40 + 1) 40 (by norm_num) ?_ _ (by push_cast; ring)
    rw [abs_of_nonneg (by positivity)]
    omega
  have := (hr _).ge hd hq
  have hpos : (0 : ℝ) < 2⁻¹ ^ 40 := by positivity
  linarith

/-- The exact logarithm is accurate: the assumptions can be met (`Checkpoint.Rounding.exists_rounding` for rounding). -/
example : Accurate fun n => Real.log n := by
  intro n hn
  have : 0 ≤ Real.log n := Real.log_nonneg (by exact_mod_cast hn)
  simp only [sub_self, abs_zero]
  positivity

/-- **C23**: a bounded loop of fewer than `2³¹` steps, with its logarithm computed in floating point, returns what the plain loop with at most
`max_steps` steps returns. -/
theorem bounded_while_loop {B : Nat} {σ P V : Type} {L : Loop B σ P V} {plain : Fin B → σ × (P → V) → σ × (P → V)} {init : Fin B → Lane σ P V}
    (hbody : Lanewise L.body plain) (harr : ∀ i, (init i).buf.wraps = []) (hu : L.batched = true ∨ Unbatched L plain (fun i => (init i).st))
    (log : Nat → ℝ) (rnd : ℝ → ℝ) (hlog : Accurate log) (hr : ∀ x, Rounds x (rnd x)) (m base : Nat) (hm : m < 2 ^ 31) (hb : 2 ≤ base)
    (hb' : base < 2 ^ 31) (hL : L.maxSteps = some m) :
    (∃ out, WhileLoop L init (.bounded base (ceilLog log rnd m base)) (.ok out)) ∧
    ∀ out, WhileLoop L init (.bounded base (ceilLog log rnd m base)) (.ok out) →
      ∀ i, Returns (L.condAt i) (plain i) (some m) (init i).st (out i).st := by
  have hk : (Kind.bounded base (ceilLog log rnd m base)).Sensible L.maxSteps := by
    refine ⟨hb, ?_⟩
    intro m' hm'
    rw [hL] at hm'
    cases hm'
    rcases Nat.eq_zero_or_pos m with rfl | h1
    · exact Nat.zero_le _
    · exact log_not_rounded_down log rnd hlog hr m base h1 hm hb hb'
  constructor
  · refine (while_loop_returns hbody harr hu hk ?_).1.2 (by simp [Kind.Rejected, hL])
    intro i
    rw [hL]
    exact ⟨_, fstep_Returns _ _ _ _⟩
  · intro out h i
    rw [← hL]
    exact while_loop_value hbody harr hu hk h i

end Log
end Common
end Verif
