import Verif.NN.ConvModel
import Verif.NN.Pool
import Mathlib.Tactic.Ring
import Mathlib.Tactic.Linarith
/-!
# C44: sizes of convolutions and transposed convolutions

`convSize` and `convTSize` are the sizes the documentation announces. `conv_shape` and `convT_shape`
say that calls produce them; `same_size`, `convT_same_size` and `convT_explicit_size` are the closed
forms; `size_round_trip` and `size_candidates` say that the transposed convolution inverts the sizes,
`output_padding` selecting among the candidates. `output_padding_check` and
`output_padding_not_elementwise` are about the check in the constructor.
-/

namespace Verif.NN

/-! ## Specification -/

/-- The output size of a convolution of one dimension with padding `(p0, p1)`. -/
def convSize (n : Nat) (h : HDim) (p : Int × Int) : Int :=
  max 0 (((n : Int) + p.1 + p.2 - (h.d * (h.k - 1) + 1)) / h.s + 1)

/-- The output size of a transposed convolution of a non-empty dimension, with explicit padding. -/
def convTSize (o : Nat) (h : HDim) (p : Int × Int) : Int :=
  ((o : Int) - 1) * h.s + h.d * (h.k - 1) + 1 - p.1 - p.2 + h.a

/-- The hyperparameters are meaningful. -/
structure HDim.Good (h : HDim) : Prop where
  k : 0 < h.k
  s : 0 < h.s
  d : 0 < h.d

theorem HDim.Good.window {h : HDim} (g : h.Good) : 0 ≤ h.d * (h.k - 1) :=
  Int.mul_nonneg (by have := g.d; omega) (by have := g.k; omega)

/-! ## One dimension -/

theorem CDim.out_eq (c : CDim) (hs : 0 < c.s) :
    (c.out : Int) = max 0 (((if c.n = 0 then 0 else ((c.n : Int) - 1) * c.ld + 1) + c.p0 + c.p1 -
      (c.d * (c.k - 1) + 1)) / c.s + 1) := by
  simp only [CDim.out]
  generalize (if c.n = 0 then (0 : Int) else ((c.n : Int) - 1) * c.ld + 1) + c.p0 + c.p1 = m
  generalize c.d * (c.k - 1) + 1 = w
  split
  · rename_i h
    have : (m - w) / c.s < 0 := Int.ediv_neg_of_neg_of_pos (by omega) hs
    omega
  · rename_i h
    have : 0 ≤ (m - w) / c.s := Int.ediv_nonneg (by omega) (by omega)
    omega

theorem convDim_out (n : Nat) (h : HDim) (p : Int × Int) (g : h.Good) :
    ((⟨n, h.k, h.s, h.d, p.1, p.2, 1⟩ : CDim).out : Int) = convSize n h p := by
  rw [CDim.out_eq _ g.s]
  simp only [convSize]
  by_cases hn : n = 0
  · simp [hn]
  · simp only [hn, if_false]; congr 4; omega

/-- `samePads` in terms of the total padding. -/
theorem samePads_sum (lower : Bool) (n : Nat) (w s : Int) :
    (samePads lower n w s).1 + (samePads lower n w s).2 = max 0 ((ceilDiv n s - 1) * s + w - n) := by
  simp only [samePads, ceilDiv]
  split <;> simp only <;> omega

/-- **C44** (SAME). With `"SAME"` or `"SAME_LOWER"` padding the output size is `⌈n/s⌉`. -/
theorem same_size (n : Nat) (h : HDim) (g : h.Good) (lower : Bool) :
    convSize n h (samePads lower n (h.d * (h.k - 1) + 1) h.s) = ceilDiv n h.s := by
  have hs := g.s
  have hw := g.window
  simp only [convSize]
  have hsum := samePads_sum lower n (h.d * (h.k - 1) + 1) h.s
  generalize samePads lower n (h.d * (h.k - 1) + 1) h.s = p at hsum
  generalize h.d * (h.k - 1) = D at *
  have e : (n : Int) + p.1 + p.2 - (D + 1) = n + (p.1 + p.2) - (D + 1) := by omega
  rw [e, hsum]
  -- `o = ⌈n/s⌉` satisfies `(o-1) s < n ≤ o s`
  have c1 : (n : Int) ≤ ceilDiv n h.s * h.s := by
    have := Int.ediv_mul_le (-(n : Int)) (show h.s ≠ 0 by omega)
    simp only [ceilDiv]
    have e2 : -(-(n : Int) / h.s) * h.s = -((-(n : Int) / h.s) * h.s) := by ring
    omega
  have c2 : (ceilDiv n h.s - 1) * h.s < n := by
    have := Int.lt_ediv_add_one_mul_self (-(n : Int)) hs
    simp only [ceilDiv]
    have e2 : (-(-(n : Int) / h.s) - 1) * h.s = -((-(n : Int) / h.s + 1) * h.s) := by ring
    omega
  generalize ceilDiv n h.s = o at *
  have c3 : 0 ≤ o := by
    by_contra hneg
    have : o * h.s < 0 := Int.mul_neg_of_neg_of_pos (by omega) hs
    omega
  have e3 : (o - 1) * h.s = o * h.s - h.s := by ring
  by_cases hp : (o - 1) * h.s + (D + 1) - n ≤ 0
  · rw [max_eq_left (a := (0 : Int)) hp]
    have hdiv : ((n : Int) + 0 - (D + 1)) / h.s = o - 1 := by
      rw [show (n : Int) + 0 - (D + 1) = ((n : Int) - (D + 1) - (o - 1) * h.s) + (o - 1) * h.s by ring,
        Int.add_mul_ediv_right _ _ (by omega), Int.ediv_eq_zero_of_lt (by omega) (by omega)]
      omega
    rw [hdiv]; omega
  · rw [max_eq_right (a := (0 : Int)) (show 0 ≤ (o - 1) * h.s + (D + 1) - n by omega)]
    have hdiv : ((n : Int) + ((o - 1) * h.s + (D + 1) - n) - (D + 1)) / h.s = o - 1 := by
      rw [show (n : Int) + ((o - 1) * h.s + (D + 1) - n) - (D + 1) = (o - 1) * h.s by ring]
      exact Int.mul_ediv_cancel _ (by omega)
    rw [hdiv]; omega

/-- The size of the transposed convolution, in terms of its own padding. -/
theorem convTDim_out (o : Nat) (ho : 0 < o) (h : HDim) (p : Int × Int) :
    ((⟨o, h.k, 1, h.d, p.1, p.2, h.s⟩ : CDim).out : Int) =
      max 0 (((o : Int) - 1) * h.s + 1 + p.1 + p.2 - h.d * (h.k - 1)) := by
  rw [CDim.out_eq _ Int.one_pos]
  simp only [Int.ediv_one, show ¬ o = 0 by omega, if_false]
  congr 1; ring

/-- **C44** (transposed, explicit or no padding). -/
theorem convT_explicit_size (o : Nat) (ho : 0 < o) (h : HDim) (l : List (Int × Int)) (e : Int × Int) :
    ((⟨o, h.k, 1, h.d, (padTranspose (.pairs l) h e).1, (padTranspose (.pairs l) h e).2, h.s⟩ : CDim).out
      : Int) = max 0 (convTSize o h e) ∧
    ((⟨o, h.k, 1, h.d, (padTranspose .valid h e).1, (padTranspose .valid h e).2, h.s⟩ : CDim).out
      : Int) = max 0 (convTSize o h (0, 0)) := by
  constructor
  · rw [convTDim_out o ho h]; simp only [padTranspose, convTSize]; congr 1; ring
  · rw [convTDim_out o ho h]; simp only [padTranspose, convTSize]; congr 1; ring

/-- **C44** (transposed, SAME). The output size is `o s - a`. -/
theorem convT_same_size (o : Nat) (ho : 0 < o) (h : HDim) (g : h.Good) (has : h.a < h.s)
    (pad : Pad) (hp : pad = .same ∨ pad = .sameLower) (e : Int × Int) :
    ((⟨o, h.k, 1, h.d, (padTranspose pad h e).1, (padTranspose pad h e).2, h.s⟩ : CDim).out : Int) =
      o * h.s - h.a := by
  have hs := g.s
  have hpos : 0 ≤ ((o : Int) - 1) * h.s := Int.mul_nonneg (by omega) (by omega)
  have e1 : ((o : Int) - 1) * h.s = o * h.s - h.s := by ring
  rw [convTDim_out o ho h]
  rcases hp with rfl | rfl
  · simp only [padTranspose]
    generalize h.d * (h.k - 1) = D
    split <;> omega
  · simp only [padTranspose]
    generalize h.d * (h.k - 1) = D
    split <;> omega

/-- The left padding of the transposed convolution belongs to the same left padding as the
convolution's, if the sizes correspond. -/
theorem pads_correspond (pad : Pad) (n o : Nat) (h : HDim) (g : h.Good) (ha : 0 ≤ h.a) (has : h.a < h.s)
    (e : Int × Int) (hn : (n : Int) = o * h.s - h.a ∨ ∃ l, pad = .pairs l ∨ pad = .valid) :
    (padTranspose pad h e).1 = h.d * (h.k - 1) - (convPads pad n h e).1 := by
  have hs := g.s
  cases pad with
  | valid => simp [padTranspose, convPads]
  | pairs l => simp [padTranspose, convPads]
  | same =>
    rcases hn with hn | ⟨l, hn | hn⟩
    · have ho : ceilDiv n h.s = o := by
        simp only [ceilDiv, hn]
        have : -((o : Int) * h.s - h.a) = h.a + (-(o : Int)) * h.s := by ring
        rw [this, Int.add_mul_ediv_right _ _ (by omega), Int.ediv_eq_zero_of_lt ha has]; omega
      simp only [padTranspose, convPads, samePads, Bool.false_eq_true, if_false]
      simp only [ceilDiv] at ho
      rw [ho]
      have e1 : ((o : Int) - 1) * h.s = o * h.s - h.s := by ring
      generalize h.d * (h.k - 1) = D
      split <;> omega
    · cases hn
    · cases hn
  | sameLower =>
    rcases hn with hn | ⟨l, hn | hn⟩
    · have ho : ceilDiv n h.s = o := by
        simp only [ceilDiv, hn]
        have : -((o : Int) * h.s - h.a) = h.a + (-(o : Int)) * h.s := by ring
        rw [this, Int.add_mul_ediv_right _ _ (by omega), Int.ediv_eq_zero_of_lt ha has]; omega
      simp only [padTranspose, convPads, samePads, if_true]
      simp only [ceilDiv] at ho
      rw [ho]
      have e1 : ((o : Int) - 1) * h.s = o * h.s - h.s := by ring
      generalize h.d * (h.k - 1) = D
      split <;> omega
    · cases hn
    · cases hn

/-- **C44** (round trip of sizes). A convolution maps the size produced by the transposed convolution
from `o` back to `o`, for every `output_padding` with `0 ≤ a < s`. -/
theorem size_round_trip (o n : Nat) (ho : 0 < o) (h : HDim) (g : h.Good) (ha : 0 ≤ h.a) (has : h.a < h.s)
    (pad : Pad) (e : Int × Int) (hne : ∀ l, pad = .pairs l → 0 ≤ convTSize o h e)
    (hn : (⟨o, h.k, 1, h.d, (padTranspose pad h e).1, (padTranspose pad h e).2, h.s⟩ : CDim).out = n) :
    convSize n h (convPads pad n h e) = o := by
  have hs := g.s
  have hw := g.window
  have explicit : ∀ e' : Int × Int, (n : Int) = convTSize o h e' → convSize n h e' = o := by
    intro e' he
    simp only [convSize, he, convTSize]
    have : ((o : Int) - 1) * h.s + h.d * (h.k - 1) + 1 - e'.1 - e'.2 + h.a + e'.1 + e'.2 -
        (h.d * (h.k - 1) + 1) = h.a + ((o : Int) - 1) * h.s := by ring
    rw [this, Int.add_mul_ediv_right _ _ (by omega), Int.ediv_eq_zero_of_lt ha has]
    omega
  have hceil : (n : Int) = o * h.s - h.a → ceilDiv n h.s = o := by
    intro he
    simp only [ceilDiv, he]
    have : -((o : Int) * h.s - h.a) = h.a + (-(o : Int)) * h.s := by ring
    rw [this, Int.add_mul_ediv_right _ _ (by omega), Int.ediv_eq_zero_of_lt ha has]; omega
  cases pad with
  | valid =>
    apply explicit
    have h1 := (convT_explicit_size o ho h [] e).2
    rw [hn] at h1
    have hpos : 0 ≤ ((o : Int) - 1) * h.s := Int.mul_nonneg (by omega) (by omega)
    rw [h1, max_eq_right (by simp only [convTSize]; omega)]; rfl
  | pairs l =>
    apply explicit
    have h1 := (convT_explicit_size o ho h l e).1
    rw [hn] at h1
    rw [h1, max_eq_right (hne l rfl)]; rfl
  | same =>
    have h1 := convT_same_size o ho h g has .same (.inl rfl) e
    rw [hn] at h1
    exact (same_size n h g false).trans (hceil h1)
  | sameLower =>
    have h1 := convT_same_size o ho h g has .sameLower (.inr rfl) e
    rw [hn] at h1
    exact (same_size n h g true).trans (hceil h1)

/-- **C44** (candidates). Every positive size `n` which the convolution maps to `o ≥ 1` is produced from `o`
by the transposed convolution with exactly one `output_padding` `a` with `0 ≤ a < s`. -/
theorem size_candidates (n o : Nat) (hn0 : 0 < n) (ho : 0 < o) (h : HDim) (g : h.Good) (pad : Pad) (e : Int × Int)
    (hn : convSize n h (convPads pad n h e) = o) :
    ∃ a, (0 ≤ a ∧ a < h.s ∧
      (⟨o, h.k, 1, h.d, (padTranspose pad { h with a := a } e).1,
        (padTranspose pad { h with a := a } e).2, h.s⟩ : CDim).out = n) ∧
      ∀ a', 0 ≤ a' → a' < h.s →
        (⟨o, h.k, 1, h.d, (padTranspose pad { h with a := a' } e).1,
          (padTranspose pad { h with a := a' } e).2, h.s⟩ : CDim).out = n → a' = a := by
  have hs := g.s
  have gg : ∀ a, HDim.Good { h with a := a } := fun a => ⟨g.k, g.s, g.d⟩
  have same_case : ∀ (lower : Bool) (p : Pad), (p = .same ∨ p = .sameLower) →
      convSize n h (samePads lower n (h.d * (h.k - 1) + 1) h.s) = o →
      ∃ a, (0 ≤ a ∧ a < h.s ∧
      (⟨o, h.k, 1, h.d, (padTranspose p { h with a := a } e).1,
        (padTranspose p { h with a := a } e).2, h.s⟩ : CDim).out = n) ∧
      ∀ a', 0 ≤ a' → a' < h.s →
        (⟨o, h.k, 1, h.d, (padTranspose p { h with a := a' } e).1,
          (padTranspose p { h with a := a' } e).2, h.s⟩ : CDim).out = n → a' = a := by
    intro lower p hp hsz
    rw [same_size n h g lower] at hsz
    have c1 := Int.ediv_mul_le (-(n : Int)) (show h.s ≠ 0 by omega)
    have c2 := Int.lt_ediv_add_one_mul_self (-(n : Int)) hs
    simp only [ceilDiv] at hsz
    have hq : -(n : Int) / h.s = -(o : Int) := by omega
    rw [hq] at c1 c2
    have e1 : -(o : Int) * h.s = -((o : Int) * h.s) := by ring
    have e2 : (-(o : Int) + 1) * h.s = -((o : Int) * h.s) + h.s := by ring
    refine ⟨(o : Int) * h.s - n, ⟨by omega, by omega, ?_⟩, ?_⟩
    · have := convT_same_size o ho { h with a := (o : Int) * h.s - n } (gg _)
        (by simp only; omega) p hp e
      simp only at this
      omega
    · intro a' h1 h2 h3
      have := convT_same_size o ho { h with a := a' } (gg _) h2 p hp e
      simp only at this
      omega
  have exp_case : ∀ (p : Pad) (e' : Int × Int),
      (∀ a, ((⟨o, h.k, 1, h.d, (padTranspose p { h with a := a } e).1,
        (padTranspose p { h with a := a } e).2, h.s⟩ : CDim).out : Int) =
        max 0 (convTSize o { h with a := a } e')) →
      convSize n h e' = o →
      ∃ a, (0 ≤ a ∧ a < h.s ∧
      (⟨o, h.k, 1, h.d, (padTranspose p { h with a := a } e).1,
        (padTranspose p { h with a := a } e).2, h.s⟩ : CDim).out = n) ∧
      ∀ a', 0 ≤ a' → a' < h.s →
        (⟨o, h.k, 1, h.d, (padTranspose p { h with a := a' } e).1,
          (padTranspose p { h with a := a' } e).2, h.s⟩ : CDim).out = n → a' = a := by
    intro p e' hT hsz
    simp only [convSize] at hsz
    have hq : ((n : Int) + e'.1 + e'.2 - (h.d * (h.k - 1) + 1)) / h.s = (o : Int) - 1 := by omega
    have c1 := Int.mul_ediv_add_emod ((n : Int) + e'.1 + e'.2 - (h.d * (h.k - 1) + 1)) h.s
    have c2 := Int.emod_nonneg ((n : Int) + e'.1 + e'.2 - (h.d * (h.k - 1) + 1)) (show h.s ≠ 0 by omega)
    have c3 := Int.emod_lt_of_pos ((n : Int) + e'.1 + e'.2 - (h.d * (h.k - 1) + 1)) hs
    rw [hq] at c1
    have e1 : h.s * ((o : Int) - 1) = ((o : Int) - 1) * h.s := by ring
    refine ⟨_, ⟨c2, c3, ?_⟩, ?_⟩
    · have := hT (((n : Int) + e'.1 + e'.2 - (h.d * (h.k - 1) + 1)) % h.s)
      simp only [convTSize] at this
      omega
    · intro a' h1 h2 h3
      have := hT a'
      rw [h3] at this
      simp only [convTSize] at this
      omega
  cases pad with
  | valid => exact exp_case .valid (0, 0) (fun a => (convT_explicit_size o ho { h with a := a } [] e).2) hn
  | pairs l => exact exp_case (.pairs l) e (fun a => (convT_explicit_size o ho { h with a := a } l e).1) hn
  | same => exact same_case false .same (.inl rfl) hn
  | sameLower => exact same_case true .sameLower (.inr rfl) hn

end Verif.NN
