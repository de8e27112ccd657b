import Verif.NextAfter.Spec
import Mathlib.Tactic.Linarith
import Mathlib.Tactic.Positivity
import Mathlib.Tactic.Ring
import Mathlib.Tactic.FieldSimp
import Mathlib.Order.Monotone.Basic

/-!
# Lemmas: bit patterns are ordered like the numbers they stand for
-/

namespace Verif
namespace NextAfter

variable {F : Fmt}

/-- The position of a bit pattern in the order. -/
def key (F : Fmt) : Flt → ℤ
  | .nan => 0
  | .inf neg => if neg then -(F.top * 2 ^ F.frac : ℕ) else (F.top * 2 ^ F.frac : ℕ)
  | .fin neg e f => if neg then -(e * 2 ^ F.frac + f : ℕ) else (e * 2 ^ F.frac + f : ℕ)

/-- The magnitude at a position, in multiples of the smallest denormal. -/
def mag (P i : ℕ) : ℕ := if i < P then i else (P + i % P) * 2 ^ (i / P - 1)

theorem mag_mono {P : ℕ} (hP : 0 < P) : StrictMono (mag P) := by
  refine strictMono_nat_of_lt_succ (fun i => ?_)
  unfold mag
  by_cases h1 : i + 1 < P
  · rw [if_pos (by omega), if_pos h1]; omega
  · rw [if_neg h1]
    by_cases h2 : i < P
    · have : i + 1 = P := by omega
      rw [if_pos h2, this]
      simp [Nat.div_self hP]; omega
    · rw [if_neg h2]
      obtain ⟨q, r, hr, rfl⟩ : ∃ q r, r < P ∧ i = P * q + r :=
        ⟨i / P, i % P, Nat.mod_lt _ hP, (Nat.div_add_mod i P).symm⟩
      have hq : 1 ≤ q := by
        by_contra hq
        have : q = 0 := by omega
        subst this; simp at h2; omega
      obtain ⟨q, rfl⟩ : ∃ k, q = k + 1 := ⟨q - 1, by omega⟩
      have e1 : (P * (q + 1) + r) / P = q + 1 := by
        rw [Nat.mul_add_div hP, Nat.div_eq_of_lt hr]
      have e2 : (P * (q + 1) + r) % P = r := by
        rw [Nat.mul_add_mod, Nat.mod_eq_of_lt hr]
      rw [e1, e2]
      by_cases hr' : r + 1 < P
      · have e3 : (P * (q + 1) + r + 1) / P = q + 1 := by
          rw [Nat.add_assoc, Nat.mul_add_div hP, Nat.div_eq_of_lt hr']
        have e4 : (P * (q + 1) + r + 1) % P = r + 1 := by
          rw [Nat.add_assoc, Nat.mul_add_mod, Nat.mod_eq_of_lt hr']
        rw [e3, e4]
        exact Nat.mul_lt_mul_of_pos_right (by omega) (by positivity)
      · have hr'' : r + 1 = P := by omega
        have e0 : P * (q + 1) + r + 1 = P * (q + 2) := by rw [Nat.add_assoc, hr'']; ring
        rw [e0, Nat.mul_div_cancel_left _ hP, Nat.mul_mod_right]
        have : (2:ℕ) ^ (q + 2 - 1) = 2 * 2 ^ (q + 1 - 1) := by
          simp [pow_succ]; ring
        rw [this]
        have hpos : 0 < 2 ^ (q + 1 - 1) := Nat.two_pow_pos _
        nlinarith

/-- The smallest denormal number. -/
noncomputable def unit (F : Fmt) : ℝ := 2 ^ (1 - F.bias) / 2 ^ F.frac

theorem unit_pos : 0 < unit F := div_pos (zpow_pos (by norm_num) _) (by positivity)

/-- The number at a position. -/
noncomputable def numAt (F : Fmt) (k : ℤ) : EReal :=
  if (F.top * 2 ^ F.frac : ℕ) ≤ k then ⊤
  else if k ≤ -(F.top * 2 ^ F.frac : ℕ) then ⊥
  else (((if k < 0 then -1 else 1) * mag (2 ^ F.frac) k.natAbs * unit F : ℝ) : EReal)

theorem fin_lt {e f : ℕ} (h : e < F.top) (h' : f < 2 ^ F.frac) :
    e * 2 ^ F.frac + f < F.top * 2 ^ F.frac := by
  have : (e + 1) * 2 ^ F.frac ≤ F.top * 2 ^ F.frac := Nat.mul_le_mul_right _ h
  linarith [this, Nat.succ_mul e (2 ^ F.frac)]

theorem mag_fin {P e f : ℕ} (hf : f < P) :
    mag P (e * P + f) = if e = 0 then f else (P + f) * 2 ^ (e - 1) := by
  unfold mag
  have hP : 0 < P := by omega
  rcases Nat.eq_zero_or_pos e with rfl | he
  · simp [hf]
  · have h1 : ¬ e * P + f < P := by
      have : 1 * P ≤ e * P := Nat.mul_le_mul_right _ he
      omega
    rw [if_neg h1, if_neg (by omega), Nat.mul_comm e P, Nat.mul_add_div hP, Nat.div_eq_of_lt hf, Nat.mul_add_mod,
      Nat.mod_eq_of_lt hf]
    simp

theorem value_fin {n : Bool} {e f : ℕ} (h : e < F.top) (h' : f < 2 ^ F.frac) :
    value F (.fin n e f) = some (numAt F (key F (.fin n e f))) := by
  have hb := fin_lt h h'
  have hlt : ¬ ((F.top * 2 ^ F.frac : ℕ) : ℤ) ≤ key F (.fin n e f) := by
    cases n <;> simp only [key, Bool.false_eq_true, if_false, if_true] <;> omega
  have hgt : ¬ key F (.fin n e f) ≤ -((F.top * 2 ^ F.frac : ℕ) : ℤ) := by
    cases n <;> simp only [key, Bool.false_eq_true, if_false, if_true] <;> omega
  have habs : (key F (.fin n e f)).natAbs = e * 2 ^ F.frac + f := by
    cases n <;> simp only [key, Bool.false_eq_true, if_false, if_true] <;> omega
  have hmag : (0:ℝ) < 2 ^ F.frac := by positivity
  have hval : (if key F (.fin n e f) < 0 then (-1:ℝ) else 1) * (mag (2 ^ F.frac) (e * 2 ^ F.frac + f) : ℝ) =
      sgn n * (mag (2 ^ F.frac) (e * 2 ^ F.frac + f) : ℝ) := by
    cases n
    · have : ¬ key F (.fin false e f) < 0 := by
        simp only [key, Bool.false_eq_true, if_false]; omega
      simp only [if_neg this, sgn, Bool.false_eq_true, if_false]
    · rcases Nat.eq_zero_or_pos (e * 2 ^ F.frac + f) with h0 | h0
      · rw [h0]; simp [mag]
      · have : key F (.fin true e f) < 0 := by
          simp only [key, if_true]; omega
        simp only [if_pos this, sgn, if_true]
  unfold numAt
  rw [if_neg hlt, if_neg hgt, habs, hval, mag_fin h']
  cases e with
  | zero =>
    simp only [value, if_true, unit]
    congr 2
    field_simp
  | succ e =>
    simp only [value, unit]
    rw [if_neg (by omega)]
    congr 2
    push_cast
    have h2 : (2:ℝ) ^ ((e:ℤ) + 1 - F.bias) = 2 ^ e * 2 ^ (1 - F.bias) := by
      rw [show (e:ℤ) + 1 - F.bias = (e:ℤ) + (1 - F.bias) by ring, zpow_add₀ (by norm_num), zpow_natCast]
    rw [h2]
    field_simp
    try simp

theorem value_eq {x : Flt} (hF : F.Proper) (hx : IsFloat F x) (hn : x ≠ .nan) :
    value F x = some (numAt F (key F x)) := by
  have hpos : 0 < F.top * 2 ^ F.frac := Nat.mul_pos (by have := hF.2; omega) (by positivity)
  cases x with
  | nan => exact absurd rfl hn
  | fin n e f => exact value_fin hx.1 hx.2
  | inf n =>
    cases n
    · simp only [value, key, numAt, Bool.false_eq_true, if_false]
      rw [if_pos (le_refl _)]
    · simp only [value, key, numAt, if_true]
      rw [if_neg (by omega), if_pos (le_refl _)]

theorem key_range {x : Flt} (hx : IsFloat F x) :
    -((F.top * 2 ^ F.frac : ℕ) : ℤ) ≤ key F x ∧ key F x ≤ (F.top * 2 ^ F.frac : ℕ) := by
  cases x with
  | nan => simp [key]
  | fin n e f =>
    have := fin_lt hx.1 hx.2
    cases n <;> simp only [key, Bool.false_eq_true, if_false, if_true] <;> omega
  | inf n => cases n <;> simp only [key, Bool.false_eq_true, if_false, if_true] <;> omega

/-- The magnitude with its sign. -/
theorem signed_mono {P : ℕ} (hP : 0 < P) {a b : ℤ} (h : a < b) {u : ℝ} (hu : 0 < u) :
    (if a < 0 then (-1:ℝ) else 1) * mag P a.natAbs * u < (if b < 0 then (-1:ℝ) else 1) * mag P b.natAbs * u := by
  refine mul_lt_mul_of_pos_right ?_ hu
  have hm := mag_mono hP
  have h0 : mag P 0 = 0 := by simp [mag, hP]
  by_cases ha : a < 0
  · by_cases hb : b < 0
    · have : mag P b.natAbs < mag P a.natAbs := hm (by omega)
      rw [if_pos ha, if_pos hb]
      have : (mag P b.natAbs : ℝ) < mag P a.natAbs := by exact_mod_cast this
      linarith
    · have : mag P 0 < mag P a.natAbs := hm (by omega)
      rw [if_pos ha, if_neg hb]
      rw [h0] at this
      have h1 : (0:ℝ) < mag P a.natAbs := by exact_mod_cast this
      have h2 : (0:ℝ) ≤ mag P b.natAbs := by positivity
      linarith
  · rw [if_neg ha, if_neg (by omega)]
    have : mag P a.natAbs < mag P b.natAbs := hm (by omega)
    have : (mag P a.natAbs : ℝ) < mag P b.natAbs := by exact_mod_cast this
    linarith

theorem numAt_mono {a b : ℤ} (ha : -((F.top * 2 ^ F.frac : ℕ) : ℤ) ≤ a) (h : a < b)
    (hb : b ≤ (F.top * 2 ^ F.frac : ℕ)) : numAt F a < numAt F b := by
  unfold numAt
  rw [if_neg (show ¬ ((F.top * 2 ^ F.frac : ℕ) : ℤ) ≤ a by omega)]
  by_cases h1 : a ≤ -((F.top * 2 ^ F.frac : ℕ) : ℤ)
  · rw [if_pos h1]
    by_cases h2 : ((F.top * 2 ^ F.frac : ℕ) : ℤ) ≤ b
    · rw [if_pos h2]; exact bot_lt_top
    · rw [if_neg h2, if_neg (by omega)]; exact EReal.bot_lt_coe _
  · rw [if_neg h1]
    by_cases h2 : ((F.top * 2 ^ F.frac : ℕ) : ℤ) ≤ b
    · rw [if_pos h2]; exact EReal.coe_lt_top _
    · rw [if_neg h2, if_neg (show ¬ b ≤ -((F.top * 2 ^ F.frac : ℕ) : ℤ) by omega)]
      exact EReal.coe_lt_coe_iff.2 (signed_mono (Nat.two_pow_pos _) h unit_pos)

/-- The position that arithmetic works with. -/
def dkey (F : Fmt) (daz : Bool) (x : Flt) : ℤ :=
  if daz = true ∧ -(2 ^ F.frac : ℕ) < key F x ∧ key F x < (2 ^ F.frac : ℕ) then 0 else key F x

theorem numAt_normal (hF : F.Proper) : numAt F ((2 ^ F.frac : ℕ) : ℤ) = (smallestNormal F : EReal) := by
  have hP : 0 < 2 ^ F.frac := by positivity
  have hT : 2 * 2 ^ F.frac ≤ F.top * 2 ^ F.frac := Nat.mul_le_mul_right _ hF.2
  unfold numAt
  rw [if_neg (by omega), if_neg (by omega), if_neg (by omega)]
  simp only [Int.natAbs_natCast, mag, lt_irrefl, if_false, Nat.div_self hP, Nat.mod_self, unit, smallestNormal]
  congr 1
  push_cast
  field_simp
  simp

theorem numAt_negNormal (hF : F.Proper) : numAt F (-((2 ^ F.frac : ℕ) : ℤ)) = -(smallestNormal F : EReal) := by
  have hP : 0 < 2 ^ F.frac := by positivity
  have hT : 2 * 2 ^ F.frac ≤ F.top * 2 ^ F.frac := Nat.mul_le_mul_right _ hF.2
  unfold numAt
  rw [if_neg (by omega), if_neg (by omega), if_pos (by omega), ← EReal.coe_neg]
  simp only [Int.natAbs_neg, Int.natAbs_natCast, mag, lt_irrefl, if_false, Nat.div_self hP, Nat.mod_self, unit,
    smallestNormal]
  congr 1
  push_cast
  field_simp
  simp

theorem numAt_zero (hF : F.Proper) : numAt F 0 = 0 := by
  have hP : 0 < 2 ^ F.frac := by positivity
  have hT : 2 * 2 ^ F.frac ≤ F.top * 2 ^ F.frac := Nat.mul_le_mul_right _ hF.2
  unfold numAt
  rw [if_neg (by omega), if_neg (by omega)]
  simp [mag]

theorem numAt_lt_iff {a b : ℤ} (ha : -((F.top * 2 ^ F.frac : ℕ) : ℤ) ≤ a) (ha' : a ≤ (F.top * 2 ^ F.frac : ℕ))
    (hb : -((F.top * 2 ^ F.frac : ℕ) : ℤ) ≤ b) (hb' : b ≤ (F.top * 2 ^ F.frac : ℕ)) :
    numAt F a < numAt F b ↔ a < b := by
  constructor
  · intro h
    by_contra hc
    rcases Int.lt_or_eq_of_le (not_lt.1 hc) with h1 | h1
    · exact lt_asymm h (numAt_mono hb h1 ha')
    · rw [h1] at h; exact lt_irrefl _ h
  · exact fun h => numAt_mono ha h hb'

theorem seen_eq {x : Flt} (hF : F.Proper) (daz : Bool) (hx : IsFloat F x) (hn : x ≠ .nan) :
    seen F daz x = some (numAt F (dkey F daz x)) := by
  have hT : 2 * 2 ^ F.frac ≤ F.top * 2 ^ F.frac := Nat.mul_le_mul_right _ hF.2
  obtain ⟨h1, h2⟩ := key_range hx
  have i1 : -(smallestNormal F : EReal) < numAt F (key F x) ↔ -((2 ^ F.frac : ℕ) : ℤ) < key F x := by
    rw [← numAt_negNormal hF, numAt_lt_iff (by omega) (by omega) h1 h2]
  have i2 : numAt F (key F x) < (smallestNormal F : EReal) ↔ key F x < ((2 ^ F.frac : ℕ) : ℤ) := by
    rw [← numAt_normal hF, numAt_lt_iff h1 h2 (by omega) (by omega)]
  unfold seen dkey
  rw [value_eq hF hx hn, Option.map_some]
  simp only [i1, i2]
  split
  · rw [numAt_zero hF]
  · rfl

theorem dkey_range {x : Flt} (daz : Bool) (hx : IsFloat F x) :
    -((F.top * 2 ^ F.frac : ℕ) : ℤ) ≤ dkey F daz x ∧ dkey F daz x ≤ (F.top * 2 ^ F.frac : ℕ) := by
  have := key_range hx
  unfold dkey
  split <;> omega

theorem seen_nan (daz : Bool) : seen F daz .nan = none := rfl

theorem less_iff (hF : F.Proper) (daz : Bool) {x y : Flt} (hx : IsFloat F x) (hy : IsFloat F y) :
    Less F daz x y ↔ x ≠ .nan ∧ y ≠ .nan ∧ dkey F daz x < dkey F daz y := by
  obtain ⟨a1, a2⟩ := dkey_range daz hx
  obtain ⟨b1, b2⟩ := dkey_range daz hy
  by_cases hxn : x = .nan
  · subst hxn; simp [Less, seen_nan]
  by_cases hyn : y = .nan
  · subst hyn; simp [Less, seen_nan]
  unfold Less
  rw [seen_eq hF daz hx hxn, seen_eq hF daz hy hyn]
  simp only [Option.some.injEq, hxn, hyn, not_false_eq_true, ne_eq, true_and]
  constructor
  · rintro ⟨a, b, rfl, rfl, h⟩; exact (numAt_lt_iff a1 a2 b1 b2).1 h
  · intro h; exact ⟨_, _, rfl, rfl, (numAt_lt_iff a1 a2 b1 b2).2 h⟩

theorem same_iff (hF : F.Proper) (daz : Bool) {x y : Flt} (hx : IsFloat F x) (hy : IsFloat F y) :
    Same F daz x y ↔ x ≠ .nan ∧ y ≠ .nan ∧ dkey F daz x = dkey F daz y := by
  obtain ⟨a1, a2⟩ := dkey_range daz hx
  obtain ⟨b1, b2⟩ := dkey_range daz hy
  by_cases hxn : x = .nan
  · subst hxn; simp [Same, seen_nan]
  by_cases hyn : y = .nan
  · subst hyn; simp [Same, seen_nan]
  unfold Same
  rw [seen_eq hF daz hx hxn, seen_eq hF daz hy hyn]
  simp only [Option.some.injEq, hxn, hyn, not_false_eq_true, ne_eq, true_and]
  constructor
  · rintro ⟨a, rfl, h⟩
    by_contra hc
    rcases Int.lt_or_gt_of_ne hc with h1 | h1
    · have := (numAt_lt_iff a1 a2 b1 b2).2 h1; rw [h] at this; exact lt_irrefl _ this
    · have := (numAt_lt_iff b1 b2 a1 a2).2 h1; rw [h] at this; exact lt_irrefl _ this
  · intro h; exact ⟨_, rfl, by rw [h]⟩

/-! ## What JAX's function does to positions -/

theorem lib_up (hF : F.Proper) {x : Flt} (hx : IsFloat F x) (hn : x ≠ .nan) (hi : x ≠ .inf false) :
    key F (libNextafter F false x) = key F x + 1 ∧ IsFloat F (libNextafter F false x) ∧
      libNextafter F false x ≠ .nan := by
  obtain ⟨h1, h2⟩ := hF
  have hP : 0 < 2 ^ F.frac := by positivity
  have hP2 : 2 ≤ 2 ^ F.frac := by
    calc 2 = 2 ^ 1 := rfl
    _ ≤ 2 ^ F.frac := Nat.pow_le_pow_right (by omega) h1
  cases x with
  | nan => exact absurd rfl hn
  | inf n =>
    cases n
    · exact absurd rfl hi
    · obtain ⟨t, ht⟩ : ∃ t, F.top = t + 1 := ⟨F.top - 1, by omega⟩
      simp only [libNextafter, Bool.true_eq_false, if_false, key, if_true, IsFloat, ht, Nat.add_sub_cancel]
      refine ⟨?_, ⟨by omega, by omega⟩, by simp⟩
      rw [Nat.succ_mul]; omega
  | fin n e f =>
    obtain ⟨he, hf⟩ := hx
    by_cases h0 : e = 0 ∧ f = 0
    · obtain ⟨rfl, rfl⟩ := h0
      simp only [libNextafter, and_self, if_true, IsFloat]
      refine ⟨?_, ⟨by omega, by omega⟩, by simp⟩
      cases n <;> simp [key]
    · simp only [libNextafter, if_neg h0]
      cases n
      · simp only [if_true, up]
        split
        · refine ⟨?_, ⟨he, by assumption⟩, by simp⟩
          simp only [key, Bool.false_eq_true, if_false]; omega
        · have hf' : f + 1 = 2 ^ F.frac := by omega
          split
          · refine ⟨?_, ⟨by assumption, hP⟩, by simp⟩
            simp only [key, Bool.false_eq_true, if_false, Nat.succ_mul]; omega
          · have : F.top = e + 1 := by omega
            refine ⟨?_, trivial, by simp⟩
            simp only [key, Bool.false_eq_true, if_false, this, Nat.succ_mul]; omega
      · simp only [Bool.true_eq_false, if_false, down]
        split
        · rename_i hz
          subst hz
          obtain ⟨k, rfl⟩ : ∃ k, e = k + 1 := ⟨e - 1, by omega⟩
          refine ⟨?_, ⟨by omega, by omega⟩, by simp⟩
          simp only [key, if_true, Nat.add_sub_cancel, Nat.succ_mul]; omega
        · refine ⟨?_, ⟨he, by omega⟩, by simp⟩
          simp only [key, if_true]; omega

/-- The number with the other sign. -/
def negate : Flt → Flt
  | .fin n e f => .fin (!n) e f
  | .inf n => .inf (!n)
  | .nan => .nan

theorem negate_negate (x : Flt) : negate (negate x) = x := by cases x <;> simp [negate]

theorem lib_negate (x : Flt) : libNextafter F true x = negate (libNextafter F false (negate x)) := by
  cases x with
  | nan => rfl
  | inf n => cases n <;> simp [libNextafter, negate]
  | fin n e f =>
    by_cases h0 : e = 0 ∧ f = 0
    · simp [libNextafter, negate, h0]
    · cases n <;> simp only [libNextafter, negate, if_neg h0, Bool.not_true, Bool.not_false, Bool.false_eq_true,
        Bool.true_eq_false, if_true, if_false]
      · simp only [down]; split <;> rfl
      · simp only [up]; split
        · rfl
        · split <;> rfl

theorem eqZero_negate (daz : Bool) (x : Flt) : eqZero daz (negate x) = eqZero daz x := by cases x <;> rfl

theorem prev_negate (daz : Bool) (x : Flt) : prevbefore F daz x = negate (nextafter F daz (negate x)) := by
  simp only [prevbefore, nextafter, eqZero_negate, lib_negate]
  split <;> rfl

theorem key_negate (x : Flt) : key F (negate x) = -key F x := by
  cases x with
  | nan => rfl
  | inf n => cases n <;> simp [key, negate]
  | fin n e f => cases n <;> simp only [key, negate, Bool.not_true, Bool.not_false, Bool.false_eq_true, if_true,
      if_false] <;> omega

theorem dkey_negate (daz : Bool) (x : Flt) : dkey F daz (negate x) = -dkey F daz x := by
  unfold dkey
  rw [key_negate]
  generalize ((2 ^ F.frac : ℕ) : ℤ) = P
  cases daz
  · simp
  · simp only [true_and]
    split <;> split <;> omega

theorem isFloat_negate (x : Flt) : IsFloat F (negate x) ↔ IsFloat F x := by cases x <;> rfl

theorem negate_nan {x : Flt} : negate x = .nan ↔ x = .nan := by cases x <;> simp [negate]

theorem eqZero_iff (daz : Bool) {x : Flt} (hx : IsFloat F x) (hn : x ≠ .nan) (hF : F.Proper) :
    eqZero daz x = true ↔ dkey F daz x = 0 := by
  have hP : 0 < 2 ^ F.frac := by positivity
  have hT : 2 * 2 ^ F.frac ≤ F.top * 2 ^ F.frac := Nat.mul_le_mul_right _ hF.2
  cases x with
  | nan => exact absurd rfl hn
  | inf n =>
    simp only [eqZero, Bool.false_eq_true, false_iff, dkey]
    cases n <;> simp only [key, Bool.false_eq_true, if_false, if_true] <;> split <;> omega
  | fin n e f =>
    obtain ⟨he, hf⟩ := hx
    rcases Nat.eq_zero_or_pos e with rfl | hpos
    · cases n <;> cases daz <;>
        simp only [eqZero, dkey, key, beq_self_eq_true, Bool.true_and, Bool.false_or, Bool.true_or, beq_iff_eq,
          Bool.false_eq_true, if_false, if_true, Nat.zero_mul, Nat.zero_add, false_and, true_and, true_iff] <;>
        omega
    · have h1 : 1 * 2 ^ F.frac ≤ e * 2 ^ F.frac := Nat.mul_le_mul_right _ hpos
      have : (e == 0) = false := by simp; omega
      simp only [eqZero, this, Bool.false_and, Bool.false_eq_true, false_iff, dkey]
      cases n <;> simp only [key, Bool.false_eq_true, if_false, if_true] <;> split <;> omega

theorem next_facts (hF : F.Proper) (daz : Bool) {x : Flt} (hx : IsFloat F x) (hn : x ≠ .nan) (hi : x ≠ .inf false) :
    IsFloat F (nextafter F daz x) ∧ nextafter F daz x ≠ .nan ∧
      key F (nextafter F daz x) = if dkey F daz x = 0 then ((2 ^ F.frac : ℕ) : ℤ) else key F x + 1 := by
  have hz := eqZero_iff daz hx hn hF
  obtain ⟨l1, l2, l3⟩ := lib_up hF hx hn hi
  unfold nextafter
  by_cases h : dkey F daz x = 0
  · simp only [hz.2 h, if_true, if_pos h, tiny]
    refine ⟨⟨by have := hF.2; omega, by positivity⟩, by simp, ?_⟩
    simp [key]
  · have : ¬ eqZero daz x = true := fun hc => h (hz.1 hc)
    simp only [this, if_neg h]
    exact ⟨l2, l3, l1⟩

end NextAfter
end Verif
