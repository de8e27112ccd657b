import Verif.NN.SpectralNormModel
import Verif.State.Lemmas
import Mathlib.Algebra.Order.BigOperators.Ring.Finset
import Mathlib.Algebra.BigOperators.Ring.Finset
import Mathlib.Algebra.BigOperators.Field
import Mathlib.Algebra.Order.Archimedean.Basic
import Mathlib.Tactic.Ring
import Mathlib.Tactic.Linarith
import Mathlib.Tactic.NormNum
import Mathlib.Tactic.FieldSimp
import Mathlib.Tactic.Positivity

/-!
# C66: spectral normalisation
-/

namespace Verif
namespace SpectralNorm

open State

/-! ## Specification -/

/-- The scalar product of two vectors of length `k`. -/
noncomputable def ip (k : Nat) (x y : Vec) : ℝ := ∑ i ∈ Finset.range k, x i * y i
/-- The Euclidean length of a vector. -/
noncomputable def len (k : Nat) (x : Vec) : ℝ := Real.sqrt (ip k x x)
/-- `W x`. -/
noncomputable def app (n : Nat) (W : Nat → Nat → ℝ) (x : Vec) : Vec := fun i => ip n (W i) x
/-- `Wᵀ y`. -/
noncomputable def tapp (m : Nat) (W : Nat → Nat → ℝ) (y : Vec) : Vec := fun j => ip m (fun i => W i j) y
/-- `x` scaled to length one, if it is not shorter than `eps`. -/
noncomputable def unit (eps : ℝ) (k : Nat) (x : Vec) : Vec := fun i => x i / max eps (len k x)
/-- One step of the power method for the largest singular value. -/
noncomputable def next (m n : Nat) (W : Nat → Nat → ℝ) (eps : ℝ) (uv : Vec × Vec) : Vec × Vec :=
  (unit eps m (app n W uv.2), unit eps n (tapp m W (unit eps m (app n W uv.2))))
/-- `k` steps. -/
noncomputable def steps (m n : Nat) (W : Nat → Nat → ℝ) (eps : ℝ) : Nat → Vec × Vec → Vec × Vec
  | 0, uv => uv
  | k + 1, uv => next m n W eps (steps m n W eps k uv)
/-- The estimate of the largest singular value, `uᵀ W v`. -/
noncomputable def estimate (m n : Nat) (W : Nat → Nat → ℝ) (uv : Vec × Vec) : ℝ := ip m uv.1 (app n W uv.2)
/-- `B` is at least the spectral norm (the largest singular value) of `W`. -/
def Bounds (m n : Nat) (W : Nat → Nat → ℝ) (B : ℝ) : Prop := ∀ x, len m (app n W x) ≤ B * len n x
/-- Neither vector is longer than one. -/
def Short (m n : Nat) (uv : Vec × Vec) : Prop := len m uv.1 ≤ 1 ∧ len n uv.2 ≤ 1

/-- The element in row `i` and column `j` of a weight whose axes but the first have been flattened. -/
noncomputable def entry (w : FArr) : Nat → Nat → ℝ := fun i j =>
  if j < w.shape.tail.prod then w.data.getD (i * w.shape.tail.prod + j) 0 else 0

/-- What the layer computes if the weight is divided by `σ`. -/
noncomputable def withWeight {Name X Y : Type} [DecidableEq Name] (l : Lyr Name X Y) (name : Name) (w : FArr) (σ : ℝ) (x : X) : Y :=
  l.call (fun n => if n = name then some ⟨w.shape, w.data.map (· / σ)⟩ else l.attr n) x

/-! ## Vectors -/

theorem ip_self_nonneg (k : Nat) (x : Vec) : 0 ≤ ip k x x := Finset.sum_nonneg fun i _ => mul_self_nonneg (x i)

theorem len_nonneg (k : Nat) (x : Vec) : 0 ≤ len k x := Real.sqrt_nonneg _

theorem len_sq (k : Nat) (x : Vec) : len k x ^ 2 = ip k x x := Real.sq_sqrt (ip_self_nonneg k x)

theorem ip_comm (k : Nat) (x y : Vec) : ip k x y = ip k y x := Finset.sum_congr rfl fun _ _ => mul_comm _ _

theorem cauchy (k : Nat) (x y : Vec) : |ip k x y| ≤ len k x * len k y := by
  apply abs_le_of_sq_le_sq _ (mul_nonneg (len_nonneg _ _) (len_nonneg _ _))
  rw [mul_pow, len_sq, len_sq]
  have := Finset.sum_mul_sq_le_sq_mul_sq (Finset.range k) x y
  simpa only [ip, sq] using this

theorem ip_div_left (k : Nat) (x y : Vec) (c : ℝ) : ip k (fun i => x i / c) y = ip k x y / c := by
  simp only [ip, Finset.sum_div]
  exact Finset.sum_congr rfl fun i _ => by ring

theorem ip_div_right (k : Nat) (x y : Vec) (c : ℝ) : ip k x (fun i => y i / c) = ip k x y / c := by
  rw [ip_comm, ip_div_left, ip_comm]

theorem len_div (k : Nat) (x : Vec) {c : ℝ} (hc : 0 < c) : len k (fun i => x i / c) = len k x / c := by
  have h : len k (fun i => x i / c) ^ 2 = (len k x / c) ^ 2 := by
    rw [len_sq, ip_div_left, ip_div_right, div_pow, len_sq]
    field_simp
  exact (pow_left_inj₀ (len_nonneg _ _) (div_nonneg (len_nonneg _ _) hc.le) (by norm_num)).1 h

theorem adjoint (m n : Nat) (W : Nat → Nat → ℝ) (x y : Vec) : ip m y (app n W x) = ip n (tapp m W y) x := by
  simp only [ip, app, tapp, Finset.mul_sum, Finset.sum_mul]
  rw [Finset.sum_comm]
  exact Finset.sum_congr rfl fun i _ => Finset.sum_congr rfl fun j _ => by ring

theorem app_div (n : Nat) (W : Nat → Nat → ℝ) (x : Vec) (c : ℝ) : app n W (fun i => x i / c) = fun i => app n W x i / c := by
  funext i; exact ip_div_right n (W i) x c

theorem tapp_div (m : Nat) (W : Nat → Nat → ℝ) (x : Vec) (c : ℝ) : tapp m W (fun i => x i / c) = fun i => tapp m W x i / c := by
  funext i; exact ip_div_right m _ x c

/-! ## One step -/

theorem unit_eq (eps : ℝ) (k : Nat) (x : Vec) : unit eps k x = fun i => x i / max eps (len k x) := rfl

theorem max_pos {eps : ℝ} (he : 0 < eps) (r : ℝ) : 0 < max eps r := lt_max_of_lt_left he

theorem len_unit {eps : ℝ} (he : 0 < eps) (k : Nat) (x : Vec) : len k (unit eps k x) = len k x / max eps (len k x) :=
  len_div k x (max_pos he _)

theorem len_unit_le {eps : ℝ} (he : 0 < eps) (k : Nat) (x : Vec) : len k (unit eps k x) ≤ 1 := by
  rw [len_unit he]
  exact (div_le_one (max_pos he _)).2 (le_max_right _ _)

theorem len_unit_eq {eps : ℝ} (he : 0 < eps) (k : Nat) (x : Vec) (hx : eps ≤ len k x) : len k (unit eps k x) = 1 := by
  rw [len_unit he, max_eq_right hx]
  exact div_self (by linarith)

/-- After a step neither vector is longer than one. -/
theorem next_short (m n : Nat) (W : Nat → Nat → ℝ) {eps : ℝ} (he : 0 < eps) (uv : Vec × Vec) : Short m n (next m n W eps uv) :=
  ⟨len_unit_le he _ _, len_unit_le he _ _⟩

/-- The estimate after a step: not negative, and the length of `Wᵀ u` if that is not below `eps`. -/
theorem estimate_next (m n : Nat) (W : Nat → Nat → ℝ) (eps : ℝ) (uv : Vec × Vec) :
    estimate m n W (next m n W eps uv) =
      len n (tapp m W (next m n W eps uv).1) ^ 2 / max eps (len n (tapp m W (next m n W eps uv).1)) := by
  simp only [estimate, adjoint, next]
  rw [len_sq]
  exact ip_div_right n _ _ _

/-- The estimate never exceeds the largest singular value. -/
theorem estimate_le (m n : Nat) (W : Nat → Nat → ℝ) (B : ℝ) (hB : Bounds m n W B) (uv : Vec × Vec) (hs : Short m n uv) (h0 : 0 ≤ B) :
    |estimate m n W uv| ≤ B := by
  have h1 := cauchy m uv.1 (app n W uv.2)
  have h2 := hB uv.2
  have h3 := len_nonneg m uv.1
  have h4 := len_nonneg n uv.2
  have h5 := len_nonneg m (app n W uv.2)
  have h6 : B * len n uv.2 ≤ B * 1 := mul_le_mul_of_nonneg_left hs.2 h0
  have h7 : len m uv.1 * len m (app n W uv.2) ≤ 1 * len m (app n W uv.2) := mul_le_mul_of_nonneg_right hs.1 h5
  unfold estimate
  linarith

/-- The estimate before a step, if `u` is not longer than one, is at most the length of `W v`. -/
theorem estimate_le_len (m n : Nat) (W : Nat → Nat → ℝ) (uv : Vec × Vec) (hs : len m uv.1 ≤ 1) :
    estimate m n W uv ≤ len m (app n W uv.2) := by
  have h1 := cauchy m uv.1 (app n W uv.2)
  have h5 := len_nonneg m (app n W uv.2)
  have h7 : len m uv.1 * len m (app n W uv.2) ≤ 1 * len m (app n W uv.2) := mul_le_mul_of_nonneg_right hs h5
  have := le_abs_self (estimate m n W uv)
  unfold estimate at *
  linarith

/-- The estimate after a step, if `W v` is not shorter than `eps`. -/
theorem estimate_next_ge (m n : Nat) (W : Nat → Nat → ℝ) {eps : ℝ} (he : 0 < eps) (uv : Vec × Vec) (hv : len n uv.2 ≤ 1)
    (ha : eps ≤ len m (app n W uv.2)) :
    len m (app n W uv.2) ≤ estimate m n W (next m n W eps uv) ∧
      estimate m n W (next m n W eps uv) = len n (tapp m W (next m n W eps uv).1) := by
  have hpos : 0 < len m (app n W uv.2) := by linarith
  -- `uᵀ W v` for the new `u` and the old `v` is the length of `W v`
  have h1 : ip m (next m n W eps uv).1 (app n W uv.2) = len m (app n W uv.2) := by
    have : (next m n W eps uv).1 = fun i => app n W uv.2 i / len m (app n W uv.2) := by
      simp only [next]
      rw [unit_eq, max_eq_right ha]
    rw [this, ip_div_left, ← len_sq]
    field_simp
  have h2 := cauchy n (tapp m W (next m n W eps uv).1) uv.2
  rw [← adjoint, h1, abs_of_pos hpos] at h2
  have h3 := len_nonneg n (tapp m W (next m n W eps uv).1)
  have h4 : len n (tapp m W (next m n W eps uv).1) * len n uv.2 ≤ len n (tapp m W (next m n W eps uv).1) * 1 :=
    mul_le_mul_of_nonneg_left hv h3
  have h5 : len m (app n W uv.2) ≤ len n (tapp m W (next m n W eps uv).1) := by linarith
  have h6 : estimate m n W (next m n W eps uv) = len n (tapp m W (next m n W eps uv).1) := by
    rw [estimate_next, max_eq_right (by linarith)]
    have : 0 < len n (tapp m W (next m n W eps uv).1) := by linarith
    field_simp
  exact ⟨by linarith, h6⟩

/-- Each step improves the estimate, once it is not below `eps`. -/
theorem estimate_mono (m n : Nat) (W : Nat → Nat → ℝ) {eps : ℝ} (he : 0 < eps) (uv : Vec × Vec) (hs : Short m n uv)
    (ha : eps ≤ estimate m n W uv) : estimate m n W uv ≤ estimate m n W (next m n W eps uv) := by
  have h := estimate_le_len m n W uv hs.1
  have := (estimate_next_ge m n W he uv hs.2 (by linarith)).1
  linarith

/-! ## Many steps -/

theorem steps_short (m n : Nat) (W : Nat → Nat → ℝ) {eps : ℝ} (he : 0 < eps) (uv : Vec × Vec) (hs : Short m n uv) (k : Nat) :
    Short m n (steps m n W eps k uv) := by
  cases k with
  | zero => exact hs
  | succ k => exact next_short m n W he _

theorem steps_short_pos (m n : Nat) (W : Nat → Nat → ℝ) {eps : ℝ} (he : 0 < eps) (uv : Vec × Vec) (k : Nat) (hk : 0 < k) :
    Short m n (steps m n W eps k uv) := by
  cases k with
  | zero => omega
  | succ k => exact next_short m n W he _

/-- The estimates increase with the number of steps. -/
theorem estimate_steps_mono (m n : Nat) (W : Nat → Nat → ℝ) {eps : ℝ} (he : 0 < eps) (uv : Vec × Vec) (hs : Short m n uv)
    (ha : eps ≤ estimate m n W uv) (k l : Nat) (hkl : k ≤ l) :
    estimate m n W (steps m n W eps k uv) ≤ estimate m n W (steps m n W eps l uv) ∧
      eps ≤ estimate m n W (steps m n W eps k uv) := by
  have key : ∀ k, eps ≤ estimate m n W (steps m n W eps k uv) := by
    intro k
    induction k with
    | zero => exact ha
    | succ k ih => exact le_trans ih (estimate_mono m n W he _ (steps_short m n W he uv hs k) ih)
  refine ⟨?_, key k⟩
  induction l, hkl using Nat.le_induction with
  | base => exact le_rfl
  | succ l _ ih => exact le_trans ih (estimate_mono m n W he _ (steps_short m n W he uv hs l) (key l))

/-- What remains of a singular vector in `v` after a step. -/
theorem overlap_next (m n : Nat) (W : Nat → Nat → ℝ) {eps : ℝ} (he : 0 < eps) (uv : Vec × Vec) (hv : len n uv.2 ≤ 1)
    (ha : eps ≤ len m (app n W uv.2)) (x : Vec) (s : ℝ) (hx : ∀ j, tapp m W (app n W x) j = s ^ 2 * x j) :
    s ^ 2 * |ip n uv.2 x| ≤ |ip n (next m n W eps uv).2 x| * estimate m n W (next m n W eps uv) ^ 2 := by
  obtain ⟨h1, h2⟩ := estimate_next_ge m n W he uv hv ha
  have hpos : 0 < len m (app n W uv.2) := by linarith
  have e1 : (next m n W eps uv).1 = fun i => app n W uv.2 i / len m (app n W uv.2) := by
    simp only [next]
    rw [unit_eq, max_eq_right ha]
  have e2 : (next m n W eps uv).2 = fun j => tapp m W (next m n W eps uv).1 j / estimate m n W (next m n W eps uv) := by
    have : max eps (len n (tapp m W (next m n W eps uv).1)) = estimate m n W (next m n W eps uv) := by
      rw [h2]; exact max_eq_right (by linarith)
    rw [← this]; rfl
  have e3 : ip n (next m n W eps uv).2 x =
      s ^ 2 * ip n uv.2 x / (len m (app n W uv.2) * estimate m n W (next m n W eps uv)) := by
    rw [e2, ip_div_left, ← adjoint, e1, ip_div_left, ip_comm, adjoint]
    have : ip n (tapp m W (app n W x)) uv.2 = s ^ 2 * ip n uv.2 x := by
      simp only [ip, Finset.mul_sum]
      exact Finset.sum_congr rfl fun j _ => by rw [hx]; ring
    rw [this, div_div]
  have hq : 0 < estimate m n W (next m n W eps uv) := by linarith
  rw [e3, abs_div, abs_mul, abs_of_nonneg (sq_nonneg s), abs_of_pos (mul_pos hpos hq)]
  rw [div_mul_eq_mul_div, le_div_iff₀ (mul_pos hpos hq)]
  apply mul_le_mul_of_nonneg_left _ (mul_nonneg (sq_nonneg s) (abs_nonneg _))
  nlinarith

/-- The estimates reach every singular value whose singular vector the starting vector is not orthogonal to: with `c` the scalar product
with it, after `k` steps the estimate is at least `s * |c| ^ (1 / 2k)`. -/
theorem estimate_rate (m n : Nat) (W : Nat → Nat → ℝ) {eps : ℝ} (he : 0 < eps) (uv : Vec × Vec) (hs : Short m n uv)
    (ha : eps ≤ estimate m n W uv) (x : Vec) (s : ℝ) (hl : len n x = 1) (hx : ∀ j, tapp m W (app n W x) j = s ^ 2 * x j) (k : Nat) :
    |ip n uv.2 x| * s ^ (2 * k) ≤ estimate m n W (steps m n W eps k uv) ^ (2 * k) := by
  -- the overlap times the power of the estimate grows at least as `s ^ 2k`
  have key : ∀ k, |ip n uv.2 x| * s ^ (2 * k) ≤
      |ip n (steps m n W eps k uv).2 x| * estimate m n W (steps m n W eps k uv) ^ (2 * k) := by
    intro k
    induction k with
    | zero => simp [steps]
    | succ k ih =>
      obtain ⟨hm, hk⟩ := estimate_steps_mono m n W he uv hs ha k (k + 1) (by omega)
      have hsh := steps_short m n W he uv hs k
      have h := overlap_next m n W he (steps m n W eps k uv) hsh.2 (le_trans hk (estimate_le_len m n W _ hsh.1)) x s hx
      have e : steps m n W eps (k + 1) uv = next m n W eps (steps m n W eps k uv) := rfl
      rw [← e] at h
      set σ := estimate m n W (steps m n W eps k uv)
      set σ' := estimate m n W (steps m n W eps (k + 1) uv)
      have h0 : 0 ≤ σ := by linarith
      have hp : σ ^ (2 * k) ≤ σ' ^ (2 * k) := pow_le_pow_left₀ h0 hm _
      have hp0 : 0 ≤ σ ^ (2 * k) := pow_nonneg h0 _
      calc |ip n uv.2 x| * s ^ (2 * (k + 1)) = s ^ 2 * (|ip n uv.2 x| * s ^ (2 * k)) := by ring
        _ ≤ s ^ 2 * (|ip n (steps m n W eps k uv).2 x| * σ ^ (2 * k)) := mul_le_mul_of_nonneg_left ih (sq_nonneg s)
        _ = (s ^ 2 * |ip n (steps m n W eps k uv).2 x|) * σ ^ (2 * k) := by ring
        _ ≤ (|ip n (steps m n W eps (k + 1) uv).2 x| * σ' ^ 2) * σ ^ (2 * k) := mul_le_mul_of_nonneg_right h hp0
        _ ≤ (|ip n (steps m n W eps (k + 1) uv).2 x| * σ' ^ 2) * σ' ^ (2 * k) :=
          mul_le_mul_of_nonneg_left hp (mul_nonneg (abs_nonneg _) (sq_nonneg _))
        _ = |ip n (steps m n W eps (k + 1) uv).2 x| * σ' ^ (2 * (k + 1)) := by ring
  have h1 := key k
  have h2 : |ip n (steps m n W eps k uv).2 x| ≤ 1 := by
    have := cauchy n (steps m n W eps k uv).2 x
    rw [hl, mul_one] at this
    exact le_trans this (steps_short m n W he uv hs k).2
  have h3 : 0 ≤ estimate m n W (steps m n W eps k uv) ^ (2 * k) := by
    rw [pow_mul]; exact pow_nonneg (sq_nonneg _) _
  have := mul_le_mul_of_nonneg_right h2 h3
  linarith

/-- The estimates converge to the largest singular value `s`, if the starting vector is not orthogonal to its singular vector. -/
theorem estimate_converges (m n : Nat) (W : Nat → Nat → ℝ) {eps : ℝ} (he : 0 < eps) (uv : Vec × Vec) (hs : Short m n uv)
    (ha : eps ≤ estimate m n W uv) (x : Vec) (s : ℝ) (hl : len n x = 1) (hx : ∀ j, tapp m W (app n W x) j = s ^ 2 * x j)
    (h0 : 0 < s) (hB : Bounds m n W s) (hc : ip n uv.2 x ≠ 0) (δ : ℝ) (hδ : 0 < δ) :
    ∃ K, ∀ k, K ≤ k → |estimate m n W (steps m n W eps k uv) - s| < δ := by
  by_cases hδs : s ≤ δ
  · refine ⟨0, fun k _ => ?_⟩
    have h1 := estimate_le m n W s hB _ (steps_short m n W he uv hs k) h0.le
    have h2 := (estimate_steps_mono m n W he uv hs ha k k le_rfl).2
    have h3 := le_abs_self (estimate m n W (steps m n W eps k uv))
    rw [abs_lt]
    constructor <;> linarith
  · have hδs : δ < s := not_le.1 hδs
    have hq1 : 1 - δ / s < 1 := by have : 0 < δ / s := div_pos hδ h0; linarith
    have hq0 : 0 ≤ 1 - δ / s := by
      have : δ / s ≤ 1 := (div_le_one h0).2 hδs.le
      linarith
    obtain ⟨K, hK⟩ := exists_pow_lt_of_lt_one (abs_pos.2 hc) hq1
    refine ⟨K + 1, fun k hk => ?_⟩
    have h1 := estimate_le m n W s hB _ (steps_short m n W he uv hs k) h0.le
    have h2 := (estimate_steps_mono m n W he uv hs ha k k le_rfl).2
    have h3 := le_abs_self (estimate m n W (steps m n W eps k uv))
    have hr := estimate_rate m n W he uv hs ha x s hl hx k
    rw [abs_lt]
    refine ⟨?_, by linarith⟩
    by_contra hlt
    have hlt : estimate m n W (steps m n W eps k uv) ≤ s * (1 - δ / s) := by
      have : s * (1 - δ / s) = s - δ := by field_simp
      rw [this]; linarith [not_lt.1 hlt]
    have h4 : estimate m n W (steps m n W eps k uv) ^ (2 * k) ≤ (s * (1 - δ / s)) ^ (2 * k) := pow_le_pow_left₀ (by linarith) hlt _
    rw [mul_pow] at h4
    have h5 : (1 - δ / s) ^ (2 * k) ≤ (1 - δ / s) ^ K := pow_le_pow_of_le_one hq0 hq1.le (by omega)
    have hsp : 0 < s ^ (2 * k) := pow_pos h0 _
    have h6 : s ^ (2 * k) * (1 - δ / s) ^ (2 * k) < s ^ (2 * k) * |ip n uv.2 x| := mul_lt_mul_of_pos_left (by linarith) hsp
    linarith

/-- For a matrix of rank one a single step is exact. -/
theorem estimate_rank_one (m n : Nat) (a b : Vec) {eps : ℝ} (he : 0 < eps) (uv : Vec × Vec)
    (hv : eps ≤ len m (app n (fun i j => a i * b j) uv.2)) (hab : eps ≤ len m a * len n b) :
    estimate m n (fun i j => a i * b j) (next m n (fun i j => a i * b j) eps uv) = len m a * len n b := by
  have hW : ∀ v, app n (fun i j => a i * b j) v = fun i => a i * ip n b v := by
    intro v; funext i
    simp only [app, ip, Finset.mul_sum]
    exact Finset.sum_congr rfl fun j _ => by ring
  have hT : ∀ u, tapp m (fun i j => a i * b j) u = fun j => b j * ip m a u := by
    intro u; funext j
    simp only [tapp, ip, Finset.mul_sum]
    exact Finset.sum_congr rfl fun i _ => by ring
  have hlen : ∀ (k : Nat) (y : Vec) (c : ℝ), len k (fun i => y i * c) = len k y * |c| := by
    intro k y c
    have : len k (fun i => y i * c) ^ 2 = (len k y * |c|) ^ 2 := by
      rw [mul_pow, len_sq, len_sq, sq_abs]
      simp only [ip, Finset.sum_mul]
      exact Finset.sum_congr rfl fun j _ => by ring
    exact (pow_left_inj₀ (len_nonneg _ _) (mul_nonneg (len_nonneg _ _) (abs_nonneg _)) (by norm_num)).1 this
  have hA : 0 ≤ len m a := len_nonneg _ _
  have hBn : 0 ≤ len n b := len_nonneg _ _
  have h1 : len m (app n (fun i j => a i * b j) uv.2) = len m a * |ip n b uv.2| := by rw [hW, hlen]
  have hpos : 0 < len m a * |ip n b uv.2| := by linarith
  have h2 : |ip m a (next m n (fun i j => a i * b j) eps uv).1| = len m a := by
    have : (next m n (fun i j => a i * b j) eps uv).1 = fun i => a i * ip n b uv.2 / (len m a * |ip n b uv.2|) := by
      simp only [next]
      rw [unit_eq, max_eq_right hv, h1, hW]
    rw [this, ip_div_right]
    have e : ip m a (fun i => a i * ip n b uv.2) = len m a ^ 2 * ip n b uv.2 := by
      rw [len_sq]
      simp only [ip, Finset.sum_mul]
      exact Finset.sum_congr rfl fun j _ => by ring
    rw [e, abs_div, abs_mul, abs_of_pos hpos, abs_of_nonneg (sq_nonneg _)]
    have h3 : len m a ≠ 0 := fun h => by rw [h] at hpos; simp at hpos
    have h4 : |ip n b uv.2| ≠ 0 := fun h => by rw [h] at hpos; simp at hpos
    field_simp
  rw [estimate_next, hT, hlen, h2, max_eq_right (by linarith)]
  have : 0 < len n b * len m a := by linarith
  have h3 : len n b ≠ 0 := fun h => by rw [h] at this; simp at this
  have h4 : len m a ≠ 0 := fun h => by rw [h] at this; simp at this
  field_simp

/-! ## The layer -/

theorem mat_eq (w : FArr) : w.mat = entry w := rfl

theorem norm_eq (k : Nat) (x : Vec) : norm k x = len k x := by simp only [norm, len, ip, sq]

theorem sigma_eq (m n : Nat) (W : Nat → Nat → ℝ) (uv : Vec × Vec) : sigma m n W uv = estimate m n W uv := by
  simp only [sigma, estimate, ip, app, Finset.mul_sum]
  exact Finset.sum_congr rfl fun i _ => Finset.sum_congr rfl fun j _ => by ring

theorem powerIteration_eq (m n : Nat) (W : Nat → Nat → ℝ) {eps : ℝ} (he : 0 < eps) (uv : Vec × Vec) :
    powerIteration m n W eps uv = some (next m n W eps uv) := by
  have h1 : ∀ k x, norm k x = len k x := norm_eq
  have h2 : ∀ r, max eps r ≠ 0 := fun r => (max_pos he r).ne'
  simp only [powerIteration, h1, quot, if_neg (h2 _), Option.bind_some, Option.map_some]
  rfl

theorem steps_next (m n : Nat) (W : Nat → Nat → ℝ) (eps : ℝ) (k : Nat) (uv : Vec × Vec) :
    steps m n W eps k (next m n W eps uv) = steps m n W eps (k + 1) uv := by
  induction k with
  | zero => rfl
  | succ k ih => show next m n W eps _ = next m n W eps _; rw [ih]

theorem powerIterations_eq (m n : Nat) (W : Nat → Nat → ℝ) {eps : ℝ} (he : 0 < eps) (k : Nat) (uv : Vec × Vec) :
    powerIterations m n W eps k (some uv) = some (steps m n W eps k uv) := by
  induction k generalizing uv with
  | zero => rfl
  | succ k ih => rw [powerIterations, Option.bind_some, powerIteration_eq m n W he, ih, steps_next]

variable {Name X Y K : Type} [DecidableEq Name] [DecidableEq K]

omit [DecidableEq Name] [DecidableEq K] in
/-- What a new `SpectralNorm` holds: fifteen steps from the random vectors. -/
theorem mk_eq (layer : Lyr Name X Y) (name : Name) (k : Nat) (eps : ℝ) (he : 0 < eps) (inf : Bool) (u0 v0 : Vec) (marker : K) (w : FArr)
    (hw : layer.attr name = some w) (m : Nat) (s : List Nat) (hs : w.shape = m :: s) (hne : s ≠ []) :
    mk layer name k eps inf u0 v0 marker =
      .ok (⟨layer, name, marker, k, eps, inf⟩, ⟨m, s.prod, some (steps m s.prod (entry w) eps 15 (u0, v0))⟩) := by
  have h1 : ¬ w.shape.length < 2 := by
    rw [hs]
    cases s with
    | nil => exact absurd rfl hne
    | cons a s => simp
  have h2 : w.rows = m := by simp [FArr.rows, hs]
  have h3 : w.cols = s.prod := by simp [FArr.cols, hs]
  simp only [mk, hw, if_neg h1, h2, h3, mat_eq, powerIterations_eq m s.prod (entry w) he]

omit [DecidableEq Name] [DecidableEq K] in
/-- A weight with fewer than two axes is refused. -/
theorem mk_error (layer : Lyr Name X Y) (name : Name) (k : Nat) (eps : ℝ) (inf : Bool) (u0 v0 : Vec) (marker : K) (w : FArr)
    (hw : layer.attr name = some w) (hs : w.shape.length < 2) : mk layer name k eps inf u0 v0 marker = .error .valueError := by
  simp only [mk, hw, if_pos hs]

omit [DecidableEq Name] [DecidableEq K] in
theorem mk_error_attr (layer : Lyr Name X Y) (name : Name) (k : Nat) (eps : ℝ) (inf : Bool) (u0 v0 : Vec) (marker : K)
    (hw : layer.attr name = none) : mk layer name k eps inf u0 v0 marker = .error .attributeError := by
  simp only [mk, hw]

/-- The output for the vectors `uv`. -/
def IsOutput (L : SN Name X Y K) (w : FArr) (m n : Nat) (uv : Vec × Vec) (x : X) (out : Option Y) : Prop :=
  (estimate m n (entry w) uv ≠ 0 → out = some (withWeight L.layer L.weightName w (estimate m n (entry w) uv) x)) ∧
  (estimate m n (entry w) uv = 0 → out = none)

omit [DecidableEq K] in
theorem output_ok (L : SN Name X Y K) (w : FArr) (m : Nat) (s : List Nat) (hs : w.shape = m :: s) (uv : Vec × Vec) (x : X) :
    IsOutput L w m s.prod uv x (output L w (some uv) x) := by
  have h2 : w.rows = m := by simp [FArr.rows, hs]
  have h3 : w.cols = s.prod := by simp [FArr.cols, hs]
  have e : output L w (some uv) x = (divided w (estimate m s.prod (entry w) uv)).map fun w' =>
      (L.layer.withAttr L.weightName w').call (L.layer.withAttr L.weightName w').attr x := by
    simp only [output, Option.bind_some, sigma_eq, h2, h3, mat_eq]
  rw [e]
  constructor
  · intro h
    simp only [divided, if_neg h, Option.map_some]
    rfl
  · intro h
    simp only [divided, if_pos h, Option.map_none]

/-- A call in inference mode (the argument `inference` goes first, then the attribute) divides the weight by the estimate of the stored
vectors, and returns the state it was given. -/
theorem call_inference (L : SN Name X Y K) (w : FArr) (hw : L.layer.attr L.weightName = some w) (m : Nat) (s : List Nat)
    (hs : w.shape = m :: s) (x : X) (inf : Option Bool) (hi : inf = some true ∨ inf = none ∧ L.inference = true)
    (h : Heap K UV) (a : Nat) (uv : Vec × Vec) (hg : State.get h a (.index L.uvIndex) = .ok ⟨m, s.prod, some uv⟩) :
    ∃ out, call L x inf h a = (h, .ok (out, a)) ∧ IsOutput L w m s.prod uv x out := by
  have h2 : w.rows = m := by simp [FArr.rows, hs]
  have h3 : w.cols = s.prod := by simp [FArr.cols, hs]
  have h4 : ¬ (m ≠ w.rows ∨ s.prod ≠ w.cols) := by simp [h2, h3]
  have h5 : mode L inf = true := by
    rcases hi with rfl | ⟨rfl, hi⟩
    · rfl
    · exact hi
  refine ⟨output L w (some uv) x, ?_, output_ok L w m s hs uv x⟩
  simp only [call, hg, hw]
  rw [if_neg (by simp [hs]), if_pos h5, finish, if_neg h4]

/-- Calls that raise.  Nothing is changed if there is nothing in the state for the layer, if the layer has lost its weight, or if its weight is
a scalar now.  If the weight has got another shape since the vectors were made, that is a `ValueError` in inference mode.  In training mode
it is a `TypeError` if there are too few or too many columns, and a `ValueError` of `State.set` if there are too few or too many rows only;
without any power iterations it is a `ValueError` after which the state given can no longer be used. -/
theorem call_raises (L : SN Name X Y K) (x : X) (inf : Option Bool) (h : Heap K UV) (a : Nat) :
    (∀ e, State.get h a (.index L.uvIndex) = .error e → call L x inf h a = (h, .error e)) ∧
    (∀ uv, State.get h a (.index L.uvIndex) = .ok uv →
      (L.layer.attr L.weightName = none → call L x inf h a = (h, .error .attributeError)) ∧
      (∀ w, L.layer.attr L.weightName = some w → w.shape = [] → call L x inf h a = (h, .error .indexError)) ∧
      ∀ w m s, L.layer.attr L.weightName = some w → w.shape = m :: s →
        ((inf = some true ∨ inf = none ∧ L.inference = true) → (uv.ulen ≠ m ∨ uv.vlen ≠ s.prod) →
          call L x inf h a = (h, .error .valueError)) ∧
        ((inf = some false ∨ inf = none ∧ L.inference = false) → L.numPowerIterations ≠ 0 →
          (uv.vlen ≠ s.prod → call L x inf h a = (h, .error .typeError)) ∧
          (uv.vlen = s.prod → uv.ulen ≠ m → call L x inf h a = (h, .error .valueError))) ∧
        ((inf = some false ∨ inf = none ∧ L.inference = false) → L.numPowerIterations = 0 → (uv.ulen ≠ m ∨ uv.vlen ≠ s.prod) →
          ∃ h', call L x inf h a = (h', .error .valueError) ∧ ∀ k, State.get h' a (.index k) = .error .valueError)) := by
  refine ⟨fun e he => by simp only [call, he], fun uv hu => ⟨fun hw => by simp only [call, hu, hw], ?_, ?_⟩⟩
  · intro w hw hs
    simp only [call, hu, hw]
    rw [if_pos hs]
  intro w m s hw hs
  have h2 : w.rows = m := by simp [FArr.rows, hs]
  have h3 : w.cols = s.prod := by simp [FArr.cols, hs]
  have h5 : (inf = some false ∨ inf = none ∧ L.inference = false) → ¬ mode L inf = true := by
    rintro (rfl | ⟨rfl, hi⟩)
    · simp [mode]
    · simp [mode, hi]
  have ⟨d, hd, hget⟩ : ∃ d, h[a]? = some (some d) ∧ d.get? L.uvIndex = some uv := by
    simp only [State.get, bind, Except.bind] at hu
    split at hu
    · contradiction
    · rename_i d hd
      split at hu
      · rename_i v' hv
        injection hu with hu
        exact ⟨d, deref_ok.1 hd, hu ▸ hv⟩
      · contradiction
  refine ⟨?_, ?_, ?_⟩
  · intro hi hne
    have h6 : mode L inf = true := by
      rcases hi with rfl | ⟨rfl, hi⟩
      · rfl
      · exact hi
    simp only [call, hu, hw]
    rw [if_neg (by simp [hs]), if_pos h6, finish, if_pos (by rw [h2, h3]; exact hne)]
  · intro hi h0
    refine ⟨fun hne => ?_, fun heq hne => ?_⟩
    · have : iterated L w uv = .error .typeError := by
        simp only [iterated]
        rw [if_neg h0, if_pos (by rw [h3]; exact hne)]
      simp only [call, hu, hw, this]
      rw [if_neg (by simp [hs]), if_neg (h5 hi)]
    · have : iterated L w uv = .ok ⟨m, s.prod, powerIterations m s.prod w.mat L.eps L.numPowerIterations uv.val⟩ := by
        simp only [iterated, h2, h3]
        rw [if_neg h0, if_neg (by simpa using heq)]
      have hset : State.set id UV.struct h a (.index L.uvIndex)
          (⟨m, s.prod, powerIterations m s.prod w.mat L.eps L.numPowerIterations uv.val⟩ : UV) = (h, .error .valueError) := by
        simp only [State.set, setDict, bind, Except.bind, deref_ok.2 hd, hget]
        rw [if_neg (by simp [UV.struct, hne])]
      simp only [call, hu, hw, this, hset]
      rw [if_neg (by simp [hs]), if_neg (h5 hi)]
  · intro hi h0 hne
    have hlt : a < h.length := by
      by_contra hc
      rw [List.getElem?_eq_none (by omega)] at hd
      contradiction
    have : iterated L w uv = .ok uv := by simp only [iterated]; rw [if_pos h0]
    have hset : State.set id UV.struct h a (.index L.uvIndex) uv =
        (setCell (alloc h (d.insert L.uvIndex uv)) a none, .ok h.length) := by
      simp only [State.set, setDict, bind, Except.bind, deref_ok.2 hd, hget, id, if_true]
    refine ⟨setCell (alloc h (d.insert L.uvIndex uv)) a none, ?_, ?_⟩
    · simp only [call, hu, hw, this, hset]
      rw [if_neg (by simp [hs]), if_neg (h5 hi), finish, if_pos (by rw [h2, h3]; exact hne)]
    · intro k
      have hold : deref (setCell (alloc h (d.insert L.uvIndex uv)) a none) a = .error .valueError := by
        apply deref_err
        simp only [setCell, alloc]
        rw [List.getElem?_set_self (by simp; omega)]
      simp only [State.get, hold, bind, Except.bind]

/-- A call in training mode makes `num_power_iterations` steps first, and the new state holds the vectors they give; it divides the weight by
the estimate after them.  Everything else in the new state is as in the old one, which can no longer be used. -/
theorem call_training (L : SN Name X Y K) (he : 0 < L.eps) (w : FArr) (hw : L.layer.attr L.weightName = some w) (m : Nat) (s : List Nat)
    (hs : w.shape = m :: s) (x : X) (inf : Option Bool) (hi : inf = some false ∨ inf = none ∧ L.inference = false)
    (h : Heap K UV) (a : Nat) (uv : Vec × Vec) (hg : State.get h a (.index L.uvIndex) = .ok ⟨m, s.prod, some uv⟩) :
    ∃ h' out, call L x inf h a = (h', .ok (out, h.length)) ∧
      IsOutput L w m s.prod (steps m s.prod (entry w) L.eps L.numPowerIterations uv) x out ∧
      State.get h' h.length (.index L.uvIndex) =
        .ok ⟨m, s.prod, some (steps m s.prod (entry w) L.eps L.numPowerIterations uv)⟩ ∧
      (∀ k, k ≠ L.uvIndex → State.get h' h.length (.index k) = State.get h a (.index k)) ∧
      (∀ k, State.get h' a (.index k) = .error .valueError) ∧
      (∀ b, b < h.length → b ≠ a → ∀ k, State.get h' b (.index k) = State.get h b (.index k)) := by
  have h2 : w.rows = m := by simp [FArr.rows, hs]
  have h3 : w.cols = s.prod := by simp [FArr.cols, hs]
  have h4 : ¬ (m ≠ w.rows ∨ s.prod ≠ w.cols) := by simp [h2, h3]
  have h5 : ¬ mode L inf = true := by
    rcases hi with rfl | ⟨rfl, hi⟩
    · simp [mode]
    · simp [mode, hi]
  have e : powerIterations w.rows w.cols w.mat L.eps L.numPowerIterations (some uv) =
      some (steps m s.prod (entry w) L.eps L.numPowerIterations uv) := by
    rw [h2, h3, mat_eq, powerIterations_eq m s.prod (entry w) he]
  -- the object holding the state
  have ⟨d, hd, hget⟩ : ∃ d, h[a]? = some (some d) ∧ d.get? L.uvIndex = some ⟨m, s.prod, some uv⟩ := by
    simp only [State.get, bind, Except.bind] at hg
    split at hg
    · contradiction
    · rename_i d hd
      split at hg
      · rename_i v' hv
        injection hg with hg
        exact ⟨d, deref_ok.1 hd, hg ▸ hv⟩
      · contradiction
  have hlt : a < h.length := by
    by_contra hc
    rw [List.getElem?_eq_none (by omega)] at hd
    contradiction
  have hset : State.set id UV.struct h a (.index L.uvIndex)
      (⟨m, s.prod, some (steps m s.prod (entry w) L.eps L.numPowerIterations uv)⟩ : UV) =
      (setCell (alloc h (d.insert L.uvIndex ⟨m, s.prod, some (steps m s.prod (entry w) L.eps L.numPowerIterations uv)⟩)) a none,
        .ok h.length) := by
    have : setDict id UV.struct h a (.index L.uvIndex)
        (⟨m, s.prod, some (steps m s.prod (entry w) L.eps L.numPowerIterations uv)⟩ : UV) =
        .ok (d.insert L.uvIndex ⟨m, s.prod, some (steps m s.prod (entry w) L.eps L.numPowerIterations uv)⟩) :=
      setDict_ok.2 ⟨L.uvIndex, d, _, rfl, hd, hget, rfl, rfl⟩
    simp only [State.set, this]
  generalize hu : (⟨m, s.prod, some (steps m s.prod (entry w) L.eps L.numPowerIterations uv)⟩ : UV) = new at hset ⊢
  have hnew : deref (setCell (alloc h (d.insert L.uvIndex new)) a none) h.length = .ok (d.insert L.uvIndex new) := by
    rw [deref_ok]
    simp only [setCell, alloc]
    rw [List.getElem?_set_ne (by omega), List.getElem?_append_right (by omega)]
    simp
  have hold : deref (setCell (alloc h (d.insert L.uvIndex new)) a none) a = .error .valueError := by
    apply deref_err
    simp only [setCell, alloc]
    rw [List.getElem?_set_self (by simp; omega)]
  have hoth : ∀ b, b < h.length → b ≠ a → deref (setCell (alloc h (d.insert L.uvIndex new)) a none) b = deref h b := by
    intro b hb hne
    have : (setCell (alloc h (d.insert L.uvIndex new)) a none)[b]? = h[b]? := by
      simp only [setCell, alloc]
      rw [List.getElem?_set_ne (fun h => hne h.symm), List.getElem?_append_left hb]
    simp only [deref, this]
  refine ⟨setCell (alloc h (d.insert L.uvIndex new)) a none,
    output L w (some (steps m s.prod (entry w) L.eps L.numPowerIterations uv)) x, ?_, output_ok L w m s hs _ x, ?_, ?_, ?_, ?_⟩
  · have hit : iterated L w ⟨m, s.prod, some uv⟩ = .ok new := by
      rw [← hu]
      simp only [iterated, h2, h3, ne_eq, not_true_eq_false, if_false]
      split
      · rename_i h0; rw [h0]; rfl
      · rw [h2, h3] at e
        rw [e]
    simp only [call, hg, hw, hit]
    rw [if_neg (by simp [hs]), if_neg h5, hset]
    subst hu
    simp only [finish]
    rw [if_neg h4]
  · simp only [State.get, hnew, bind, Except.bind, Dict.get?_insert]
    rw [if_pos trivial]
  · intro k hk
    simp only [State.get, hnew, deref_ok.2 hd, bind, Except.bind, Dict.get?_insert]
    rw [if_neg (by first | exact hk | exact fun h => hk h.symm)]
  · intro k
    simp only [State.get, hold, bind, Except.bind]
  · intro b hb hne k
    simp only [State.get, hoth b hb hne]

/-! ## Sequences of calls -/

/-- A call of a layer whose weight is `w`, with this many rows and columns, and whose state is held under `idx`. -/
structure Fits (idx : K) (m n : Nat) (c : SN Name X Y K × X × Option Bool) (w : FArr) : Prop where
  index : c.1.uvIndex = idx
  eps : 0 < c.1.eps
  attr : c.1.layer.attr c.1.weightName = some w
  shape : ∃ s : List Nat, w.shape = m :: s ∧ s.prod = n

/-- Any call: the vectors stored stay short, and the weight is divided by the estimate for some short vectors. -/
theorem call_short (idx : K) (m n : Nat) (c : SN Name X Y K × X × Option Bool) (w : FArr) (hc : Fits idx m n c w)
    (h : Heap K UV) (a : Nat) (uv : Vec × Vec) (hg : State.get h a (.index idx) = .ok ⟨m, n, some uv⟩) (hs : Short m n uv) :
    ∃ h' out a' uv', call c.1 c.2.1 c.2.2 h a = (h', .ok (out, a')) ∧ IsOutput c.1 w m n uv' c.2.1 out ∧
      State.get h' a' (.index idx) = .ok ⟨m, n, some uv'⟩ ∧ Short m n uv' := by
  obtain ⟨L, x, inf⟩ := c
  obtain ⟨rfl, he, hw, s, hsh, rfl⟩ := hc
  by_cases hi : inf = some true ∨ inf = none ∧ L.inference = true
  · obtain ⟨out, h1, h2⟩ := call_inference L w hw m s hsh x inf hi h a uv hg
    exact ⟨h, out, a, uv, h1, h2, hg, hs⟩
  · have hi' : inf = some false ∨ inf = none ∧ L.inference = false := by
      cases inf with
      | none => cases hL : L.inference <;> simp_all
      | some b => cases b <;> simp_all
    obtain ⟨h', out, h1, h2, h3, -⟩ := call_training L he w hw m s hsh x inf hi' h a uv hg
    exact ⟨h', out, h.length, _, h1, h2, h3, steps_short m s.prod (entry w) he uv hs _⟩

/-- For every sequence of calls, in any modes and with the weights changing in between: none raises, and each divides the weight it finds by
the estimate for two vectors no longer than one. -/
theorem calls_short (idx : K) (m n : Nat) (cs : List ((SN Name X Y K × X × Option Bool) × FArr)) (hc : ∀ c ∈ cs, Fits idx m n c.1 c.2)
    (h : Heap K UV) (a : Nat) (uv : Vec × Vec) (hg : State.get h a (.index idx) = .ok ⟨m, n, some uv⟩) (hs : Short m n uv) :
    ∃ h' outs a' uv', calls (cs.map Prod.fst) h a = (h', .ok (outs, a')) ∧
      State.get h' a' (.index idx) = .ok ⟨m, n, some uv'⟩ ∧ Short m n uv' ∧ outs.length = cs.length ∧
      ∀ (i : Nat) (c : (SN Name X Y K × X × Option Bool) × FArr) (out : Option Y), cs[i]? = some c → outs[i]? = some out →
        ∃ uvi, Short m n uvi ∧ IsOutput c.1.1 c.2 m n uvi c.1.2.1 out := by
  induction cs generalizing h a uv with
  | nil => exact ⟨h, [], a, uv, rfl, hg, hs, rfl, fun i c out h1 => by simp at h1⟩
  | cons c cs ih =>
    obtain ⟨h1, out, a1, uv1, e1, e2, e3, e4⟩ := call_short idx m n c.1 c.2 (hc c (by simp)) h a uv hg hs
    obtain ⟨h2, outs, a2, uv2, f1, f2, f3, f4, f5⟩ := ih (fun c' h' => hc c' (by simp [h'])) h1 a1 uv1 e3 e4
    refine ⟨h2, out :: outs, a2, uv2, ?_, f2, f3, by simp [f4], ?_⟩
    · obtain ⟨⟨L, x, inf⟩, w⟩ := c
      simp only [List.map_cons, calls]
      simp only at e1
      rw [e1]
      simp only
      rw [f1]
    · intro i c' o h1 h2
      cases i with
      | zero =>
        simp only [List.getElem?_cons_zero, Option.some.injEq] at h1 h2
        subst h1; subst h2
        exact ⟨uv1, e4, e2⟩
      | succ i =>
        simp only [List.getElem?_cons_succ] at h1 h2
        exact f5 i c' o h1 h2

/-- The weight divided by an estimate for short vectors: its largest singular value is at least one. -/
theorem used_ge_one (w : FArr) (m n : Nat) (uv : Vec × Vec) (hu : Short m n uv)
    (hσ : estimate m n (entry w) uv ≠ 0) (B : ℝ) (h0 : 0 ≤ B)
    (hB : Bounds m n (entry ⟨w.shape, w.data.map (· / estimate m n (entry w) uv)⟩) B) : 1 ≤ B := by
  have h1 := estimate_le m n _ B hB uv hu h0
  have h2 : estimate m n (entry ⟨w.shape, w.data.map (· / estimate m n (entry w) uv)⟩) uv = 1 := by
    generalize hc : estimate m n (entry w) uv = c at *
    have e : entry ⟨w.shape, w.data.map (· / c)⟩ = fun i j => entry w i j / c := by
      funext i j
      simp only [entry]
      split
      · simp only [List.getD_eq_getElem?_getD, List.getElem?_map]
        cases w.data[i * w.shape.tail.prod + j]? <;> simp
      · simp
    have e2 : app n (fun i j => entry w i j / c) uv.2 = fun i => app n (entry w) uv.2 i / c := by
      funext i; exact ip_div_left n (entry w i) uv.2 c
    rw [e]
    unfold estimate
    rw [e2, ip_div_right]
    unfold estimate at hc
    rw [hc, div_self hσ]
  rw [h2] at h1
  simpa using h1

theorem steps_add (m n : Nat) (W : Nat → Nat → ℝ) (eps : ℝ) (k l : Nat) (uv : Vec × Vec) :
    steps m n W eps (k + l) uv = steps m n W eps l (steps m n W eps k uv) := by
  induction l with
  | zero => rfl
  | succ l ih => show next m n W eps _ = next m n W eps _; rw [← ih]; rfl

/-- A sequence of `xs.length` calls in training mode of a layer whose weight does not change: call number `i` divides the weight by the estimate after
`(i + 1) * num_power_iterations` steps from the vectors the state held at the beginning. -/
theorem calls_training (L : SN Name X Y K) (he : 0 < L.eps) (w : FArr) (hw : L.layer.attr L.weightName = some w) (m : Nat) (s : List Nat)
    (hs : w.shape = m :: s) (xs : List X) (h : Heap K UV) (a : Nat) (uv : Vec × Vec)
    (hg : State.get h a (.index L.uvIndex) = .ok ⟨m, s.prod, some uv⟩) :
    ∃ h' outs a', calls (xs.map fun x => (L, x, some false)) h a = (h', .ok (outs, a')) ∧
      State.get h' a' (.index L.uvIndex) =
        .ok ⟨m, s.prod, some (steps m s.prod (entry w) L.eps (xs.length * L.numPowerIterations) uv)⟩ ∧
      outs.length = xs.length ∧
      ∀ (i : Nat) (x : X) (out : Option Y), xs[i]? = some x → outs[i]? = some out →
        IsOutput L w m s.prod (steps m s.prod (entry w) L.eps ((i + 1) * L.numPowerIterations) uv) x out := by
  induction xs generalizing h a uv with
  | nil => exact ⟨h, [], a, rfl, by simpa [steps] using hg, rfl, fun i c out h1 => by simp at h1⟩
  | cons x xs ih =>
    obtain ⟨h1, out, e1, e2, e3, -⟩ := call_training L he w hw m s hs x (some false) (Or.inl rfl) h a uv hg
    obtain ⟨h2, outs, a2, f1, f2, f3, f4⟩ := ih h1 h.length _ e3
    refine ⟨h2, out :: outs, a2, ?_, ?_, by simp [f3], ?_⟩
    · simp only [List.map_cons, calls]
      rw [e1]
      simp only
      rw [f1]
    · rw [f2, ← steps_add, List.length_cons]
      congr 5; ring
    · intro i x' o g1 g2
      cases i with
      | zero =>
        simp only [List.getElem?_cons_zero, Option.some.injEq] at g1 g2
        subst g1; subst g2
        simpa using e2
      | succ i =>
        simp only [List.getElem?_cons_succ] at g1 g2
        have := f4 i x' o g1 g2
        rw [← steps_add] at this
        have e : L.numPowerIterations + (i + 1) * L.numPowerIterations = (i + 1 + 1) * L.numPowerIterations := by ring
        rwa [e] at this

/-! ## A concrete case -/

/-- The matrix with rows `3, 0` and `0, 1`. -/
noncomputable def exW : FArr := ⟨[2, 2], [3, 0, 0, 1]⟩
/-- The vector `3/5, 4/5`. -/
noncomputable def exV : Vec := fun i => if i = 0 then 3 / 5 else if i = 1 then 4 / 5 else 0
/-- The vector `1, 0`. -/
noncomputable def exX : Vec := fun i => if i = 0 then 1 else 0

theorem ex_len (x : Vec) : len 2 x ^ 2 = x 0 ^ 2 + x 1 ^ 2 := by
  rw [len_sq]; simp only [ip, Finset.sum_range_succ, Finset.sum_range_zero]; ring

theorem ex_app (x : Vec) : app 2 (entry exW) x 0 = 3 * x 0 ∧ app 2 (entry exW) x 1 = x 1 := by
  constructor <;> simp [app, ip, Finset.sum_range_succ, entry, exW]

theorem ex_converges (δ : ℝ) (hδ : 0 < δ) :
    ∃ K, ∀ k, K ≤ k → |estimate 2 2 (entry exW) (steps 2 2 (entry exW) 1 k (exV, exV)) - 3| < δ := by
  have hl : len 2 exV = 1 := by
    have : len 2 exV ^ 2 = 1 ^ 2 := by rw [ex_len]; simp [exV]; norm_num
    exact (pow_left_inj₀ (len_nonneg _ _) (by norm_num) (by norm_num)).1 this
  apply estimate_converges 2 2 (entry exW) (eps := 1) (by norm_num) (exV, exV) ⟨hl.le, hl.le⟩ _ exX 3 _ _ (by norm_num) _ _ δ hδ
  · simp only [estimate, ip, Finset.sum_range_succ, Finset.sum_range_zero]
    rw [(ex_app exV).1, (ex_app exV).2]
    simp [exV]; norm_num
  · have : len 2 exX ^ 2 = 1 ^ 2 := by rw [ex_len]; simp [exX]
    exact (pow_left_inj₀ (len_nonneg _ _) (by norm_num) (by norm_num)).1 this
  · intro j
    simp only [tapp, ip, Finset.sum_range_succ, Finset.sum_range_zero]
    rw [(ex_app exX).1, (ex_app exX).2]
    rcases j with _ | _ | j <;> simp [entry, exW, exX]
    norm_num
  · intro x
    apply le_of_sq_le_sq _ (mul_nonneg (by norm_num) (len_nonneg _ _))
    rw [mul_pow, ex_len, ex_len, (ex_app x).1, (ex_app x).2]
    nlinarith [sq_nonneg (x 1)]
  · simp [ip, exV, exX]

end SpectralNorm
end Verif
