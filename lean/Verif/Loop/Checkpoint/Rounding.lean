import Verif.Loop.Checkpoint.Props

/-!
# C22: rounding in the default number of checkpoints (`internal/_loop/checkpointed.py`, lines 229-233)

`Entry.lean` has the exact square root. Here the four floating point operations of line 232 are rounded: the conversion of `2 * max_steps` to a float, the
addition of `0.25`, the square root and the addition of `-1.5`. Python floats are IEEE doubles; an operation returns a double nearest to the exact result,
and nothing is assumed about which one if there are two.
-/

namespace Verif
namespace Checkpoint
namespace Rounding

/-! ### Model -/

/-- The finite doubles, with the exponent not bounded from above (overflow does not happen below). -/
def IsDouble (x : ℝ) : Prop := ∃ a e : ℤ, |a| ≤ 2 ^ 53 ∧ -1074 ≤ e ∧ x = a * (2 : ℝ) ^ e

/-- `r` is a double nearest to `x`. -/
def Rounds (x r : ℝ) : Prop := IsDouble r ∧ ∀ y, IsDouble y → |r - x| ≤ |y - x|

/-- The default number of checkpoints (lines 229-233) with rounding `rnd`. -/
noncomputable def defaultCheckpoints (rnd : ℝ → ℝ) (maxSteps : Nat) : Int :=
  if maxSteps = 1 then 1
  else ⌊rnd ((-1.5 : ℝ) + rnd (√(rnd (rnd (2 * maxSteps) + 0.25))))⌋ + 1

/-- Lines 211-240 with rounding. -/
noncomputable def resolve (rnd : ℝ → ℝ) (checkpoints : Option Int) (maxSteps : Option Nat) : Except Err Plan :=
  match checkpoints, maxSteps with
  | none, none => .error .valueError
  | none, some m =>
    let c := defaultCheckpoints rnd m
    if m ≠ 1 ∧ ¬ 2 * (m : Int) < (c + 1) * (c + 2) then .error .assertionError else plan c maxSteps
  | some c, _ => plan c maxSteps

/-! ### Proofs -/

theorem Rounds.le {x r p : ℝ} (h : Rounds x r) (hp : IsDouble p) (hx : x ≤ p) : r ≤ p := by
  by_contra hlt
  have := h.2 p hp
  rw [abs_of_nonneg (by linarith : 0 ≤ r - x), abs_of_nonneg (by linarith : 0 ≤ p - x)] at this
  linarith

theorem Rounds.ge {x r p : ℝ} (h : Rounds x r) (hp : IsDouble p) (hx : p ≤ x) : p ≤ r := by
  by_contra hlt
  have := h.2 p hp
  rw [abs_of_nonpos (by linarith : r - x ≤ 0), abs_of_nonpos (by linarith : p - x ≤ 0)] at this
  linarith

theorem Rounds.eq {x r : ℝ} (h : Rounds x r) (hx : IsDouble x) : r = x :=
  le_antisymm (h.le hx le_rfl) (h.ge hx le_rfl)

/-- Multiples of `2⁻ⁿ` of moderate size are doubles. -/
theorem isDouble_of (a : ℤ) (n : ℕ) (hn : n ≤ 1000) (ha : |a| ≤ 2 ^ 53) (x : ℝ) (hx : x * 2 ^ n = a) : IsDouble x := by
  refine ⟨a, -n, ha, by omega, ?_⟩
  rw [zpow_neg, zpow_natCast, ← hx]
  field_simp

/-- **C22**: below `2⁵⁰` steps, rounding makes no difference to the default number of checkpoints. -/
theorem default_rounded (rnd : ℝ → ℝ) (hr : ∀ x, Rounds x (rnd x)) (m : Nat) (hm : m < 2 ^ 50) :
    defaultCheckpoints rnd m = Checkpoint.defaultCheckpoints m := by
  by_cases h1 : m = 1
  · simp [defaultCheckpoints, Checkpoint.defaultCheckpoints, h1]
  simp only [defaultCheckpoints, Checkpoint.defaultCheckpoints, if_neg h1]
  have hmR : (m : ℝ) < 2 ^ 50 := by exact_mod_cast hm
  have hm0 : (0 : ℝ) ≤ m := by positivity
  have e1 : rnd (2 * m) = 2 * m := by
    refine (hr _).eq (isDouble_of (2 * m) 0 (by norm_num) ?_ _ (by push_cast; ring))
    rw [abs_of_nonneg (by omega)]
    have : (m : ℤ) < 2 ^ 50 := by exact_mod_cast hm
    omega
  have e2 : rnd (2 * m + 0.25) = 2 * m + 0.25 := by
    refine (hr _).eq (isDouble_of (8 * m + 1) 2 (by norm_num) ?_ _ (by push_cast; ring))
    rw [abs_of_nonneg (by omega)]
    have : (m : ℤ) < 2 ^ 50 := by exact_mod_cast hm
    omega
  rw [e1, e2]
  have hx2 : √(2 * (m : ℝ) + 0.25) * √(2 * (m : ℝ) + 0.25) = 2 * m + 0.25 := Real.mul_self_sqrt (by positivity)
  have hx0 : 0 ≤ √(2 * (m : ℝ) + 0.25) := Real.sqrt_nonneg _
  have hs := hr (√(2 * (m : ℝ) + 0.25))
  generalize √(2 * (m : ℝ) + 0.25) = x at *
  have hlo := Int.floor_le ((-1.5 : ℝ) + x)
  have hhi := Int.lt_floor_add_one ((-1.5 : ℝ) + x)
  generalize hk : ⌊(-1.5 : ℝ) + x⌋ = k at *
  have hx5 : (0.5 : ℝ) ≤ x := by nlinarith
  have hkm1 : -1 ≤ k := by
    rw [← hk, Int.le_floor]
    push_cast
    linarith
  have hkm1' : (-1 : ℝ) ≤ k := by exact_mod_cast hkm1
  -- `x` is at most about `2 ^ 25.5`
  have hxu : x < 2 ^ 26 - 4 := by nlinarith
  have hku' : (k : ℝ) < 2 ^ 26 - 5 := by linarith
  have hku : k < 2 ^ 26 - 5 := by exact_mod_cast hku'
  -- both sides of the next half integer are even
  have heven : 2 * (m : ℤ) + 2 ≤ (k + 2) * (k + 3) := by
    have hlt : 2 * (m : ℝ) < ((k : ℝ) + 2) * (k + 3) := by nlinarith
    have hlt' : 2 * (m : ℤ) < (k + 2) * (k + 3) := by exact_mod_cast hlt
    have hpar : (k + 2) * (k + 3) % 2 = 0 := by
      rcases Int.even_or_odd k with ⟨j, rfl⟩ | ⟨j, rfl⟩
      · have : (j + j + 2) * (j + j + 3) = 2 * ((j + 1) * (j + j + 3)) := by ring
        rw [this]; omega
      · have : (2 * j + 1 + 2) * (2 * j + 1 + 3) = 2 * ((2 * j + 3) * (j + 2)) := by ring
        rw [this]; omega
    omega
  have heven' : 2 * (m : ℝ) + 2 ≤ ((k : ℝ) + 2) * (k + 3) := by exact_mod_cast heven
  -- so `x` stays away from it
  have hgap : x ≤ k + 2.5 - 2⁻¹ ^ 26 := by
    by_contra hlt
    push Not at hlt
    have h26 : ((2 : ℝ)⁻¹ ^ 26) * 2 ^ 26 = 1 := by norm_num
    have hpos : (0 : ℝ) < 2⁻¹ ^ 26 := by positivity
    have hy : 0 < (k : ℝ) + 2.5 - 2⁻¹ ^ 26 := by
      have : (2 : ℝ)⁻¹ ^ 26 ≤ 1 := by norm_num
      linarith
    have h2 : ((k : ℝ) + 2.5 - 2⁻¹ ^ 26) * ((k : ℝ) + 2.5 - 2⁻¹ ^ 26) < x * x := by nlinarith
    rw [hx2] at h2
    have h3 : ((k : ℝ) + 2.5) * 2⁻¹ ^ 26 ≤ 1 := by
      have : ((k : ℝ) + 2.5) * 2⁻¹ ^ 26 ≤ 2 ^ 26 * 2⁻¹ ^ 26 := by
        apply mul_le_mul_of_nonneg_right _ hpos.le
        linarith
      linarith
    nlinarith
  have hp : IsDouble (k + 2.5 - 2⁻¹ ^ 26) := by
    refine isDouble_of (k * 2 ^ 26 + 5 * 2 ^ 25 - 1) 26 (by norm_num) ?_ _ (by push_cast; ring)
    rw [abs_of_nonneg (by omega)]
    omega
  have hq : IsDouble (k + 1 - 2⁻¹ ^ 26) := by
    refine isDouble_of (k * 2 ^ 26 + 2 ^ 26 - 1) 26 (by norm_num) ?_ _ (by push_cast; ring)
    rw [abs_le]
    constructor <;> omega
  have hp' : IsDouble (k + 1.5) := by
    refine isDouble_of (2 * k + 3) 1 (by norm_num) ?_ _ (by push_cast; ring)
    rw [abs_of_nonneg (by omega)]
    omega
  have hq' : IsDouble k := by
    refine isDouble_of k 0 (by norm_num) ?_ _ (by simp)
    rw [abs_le]
    constructor <;> omega
  have s1 := hs.le hp hgap
  have s2 := hs.ge hp' (by linarith)
  have t1 := (hr (-1.5 + rnd x)).le hq (by linarith)
  have t2 := (hr (-1.5 + rnd x)).ge hq' (by linarith)
  have : ⌊rnd (-1.5 + rnd x)⌋ = k := by
    rw [Int.floor_eq_iff]
    refine ⟨t2, ?_⟩
    have : (0 : ℝ) < 2⁻¹ ^ 26 := by positivity
    linarith
  rw [this]

/-- **C22**: below `2⁵⁰` steps, what is decided is what is decided without rounding (`resolve_spec`); in particular the assertion holds. -/
theorem resolve_rounded (rnd : ℝ → ℝ) (hr : ∀ x, Rounds x (rnd x)) (checkpoints : Option Int) (maxSteps : Option Nat)
    (hm : ∀ m, maxSteps = some m → m < 2 ^ 50) : resolve rnd checkpoints maxSteps = Checkpoint.resolve checkpoints maxSteps := by
  cases checkpoints with
  | some c => rfl
  | none => cases maxSteps with
    | none => rfl
    | some m => simp only [resolve, Checkpoint.resolve, default_rounded rnd hr m (hm m rfl)]

/-- The assumption on rounding can be met: there is a nearest double to every number. -/
theorem exists_rounding : ∃ rnd : ℝ → ℝ, ∀ x, Rounds x (rnd x) := by
  have key : ∀ x : ℝ, ∃ r, Rounds x r := by
    intro x
    have hfin : {y : ℝ | IsDouble y ∧ |y - x| ≤ |x|}.Finite := by
      refine Set.Finite.subset ((Set.finite_Icc (-⌈2 * |x| * 2 ^ 1074⌉) ⌈2 * |x| * 2 ^ 1074⌉).image fun n : ℤ => (n : ℝ) * (2 : ℝ) ^ (-1074 : ℤ)) ?_
      rintro y ⟨⟨a, e, ha, he, rfl⟩, hy⟩
      obtain ⟨j, rfl⟩ : ∃ j : ℕ, e = -1074 + j := ⟨(e + 1074).toNat, by omega⟩
      refine ⟨a * 2 ^ j, ?_, ?_⟩
      · have h1 : |(a : ℝ) * (2 : ℝ) ^ (-1074 + (j : ℤ))| ≤ 2 * |x| := by
          have := abs_sub_abs_le_abs_sub ((a : ℝ) * (2 : ℝ) ^ (-1074 + (j : ℤ))) x
          linarith
        have h2 : ((a : ℝ) * (2 : ℝ) ^ (-1074 + (j : ℤ))) * 2 ^ 1074 = ((a * 2 ^ j : ℤ) : ℝ) := by
          rw [zpow_add₀ (by norm_num), zpow_natCast, zpow_neg]
          push_cast
          have : ((2 : ℝ) ^ (1074 : ℤ)) = 2 ^ 1074 := by rw [← zpow_natCast]; rfl
          rw [this]
          field_simp
        have h3 : |((a * 2 ^ j : ℤ) : ℝ)| ≤ 2 * |x| * 2 ^ 1074 := by
          rw [← h2, abs_mul, abs_of_pos (by positivity : (0 : ℝ) < 2 ^ 1074)]
          exact mul_le_mul_of_nonneg_right h1 (by positivity)
        have h4 : |((a * 2 ^ j : ℤ) : ℝ)| ≤ ((⌈2 * |x| * 2 ^ 1074⌉ : ℤ) : ℝ) := h3.trans (Int.le_ceil _)
        have h5 : |(a * 2 ^ j : ℤ)| ≤ ⌈2 * |x| * 2 ^ 1074⌉ := by exact_mod_cast h4
        exact Set.mem_Icc.2 (abs_le.1 h5)
      · simp only
        rw [zpow_add₀ (by norm_num), zpow_natCast]
        push_cast
        ring
    have hzero : IsDouble 0 := ⟨0, 0, by norm_num, by norm_num, by simp⟩
    obtain ⟨r, ⟨h1, h2⟩, h3⟩ := Set.exists_min_image _ (fun y => |y - x|) hfin ⟨0, hzero, by simp⟩
    refine ⟨r, h1, ?_⟩
    intro y hy
    by_cases hyx : |y - x| ≤ |x|
    · exact h3 y ⟨hy, hyx⟩
    · linarith
  exact ⟨fun x => (key x).choose, fun x => (key x).choose_spec⟩

/-- Ten steps: four checkpoints. -/
example (rnd : ℝ → ℝ) (hr : ∀ x, Rounds x (rnd x)) : defaultCheckpoints rnd 10 = 4 := by
  rw [default_rounded rnd hr 10 (by norm_num)]
  obtain ⟨h1, h2, h3⟩ := default_checkpoints_least 10 (by norm_num)
  have h4 := h3 4 (by norm_num) (by norm_num)
  by_contra hne
  have h5 : Checkpoint.defaultCheckpoints 10 ≤ 3 := by omega
  have h6 : (Checkpoint.defaultCheckpoints 10 + 1) * (Checkpoint.defaultCheckpoints 10 + 2) ≤ 20 := by nlinarith
  push_cast at h2
  omega

end Rounding
end Checkpoint
end Verif
