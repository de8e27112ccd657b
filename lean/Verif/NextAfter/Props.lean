import Verif.NextAfter.Lemmas

/-!
# Properties of `nextafter` and `prevbefore`
-/

namespace Verif
namespace NextAfter

variable {F : Fmt}

/-- The number of fractions, as an integer. -/
theorem exists_step (F : Fmt) : ∃ P : ℤ, 0 < P ∧ ((2 ^ F.frac : ℕ) : ℤ) = P ∧
    (∀ x, dkey F true x = if -P < key F x ∧ key F x < P then 0 else key F x) ∧ ∀ x, dkey F false x = key F x :=
  ⟨_, by positivity, rfl, fun x => by simp [dkey], fun x => by simp [dkey]⟩

/-- Where denormals are zero, as on the platforms the function was written for, `nextafter(x)` compares greater than
`x`, and nothing compares to be in between: for every number but `inf`. -/
theorem next_daz (hF : F.Proper) {x : Flt} (hx : IsFloat F x) (hn : x ≠ .nan) (hi : x ≠ .inf false) :
    IsFloat F (nextafter F true x) ∧ Less F true x (nextafter F true x) ∧
      ∀ y, IsFloat F y → Less F true x y → ¬ Less F true y (nextafter F true x) := by
  obtain ⟨f1, f2, f3⟩ := next_facts hF true hx hn hi
  obtain ⟨P, hP, hPe, hd, -⟩ := exists_step F
  rw [hPe] at f3
  refine ⟨f1, ?_, ?_⟩
  · rw [less_iff hF true hx f1, hd, hd]
    refine ⟨hn, f2, ?_⟩
    have hx' := hd x
    split at f3 <;> split at hx' <;> split <;> split <;> omega
  · intro y hy h1 h2
    rw [less_iff hF true hx hy] at h1
    rw [less_iff hF true hy f1] at h2
    have h1 := h1.2.2
    have h2 := h2.2.2
    have hx' := hd x
    have hy' := hd y
    have hw' := hd (nextafter F true x)
    split at f3 <;> split at hx' <;> split at hy' <;> split at hw' <;> omega

/-- With denormals, `nextafter(x)` is the next number for every number but zero and `inf`. -/
theorem next_denormals (hF : F.Proper) {x : Flt} (hx : IsFloat F x) (hn : x ≠ .nan) (hi : x ≠ .inf false)
    (h0 : value F x ≠ some 0) :
    IsFloat F (nextafter F false x) ∧ Less F false x (nextafter F false x) ∧
      ∀ y, IsFloat F y → Less F false x y → ¬ Less F false y (nextafter F false x) := by
  obtain ⟨f1, f2, f3⟩ := next_facts hF false hx hn hi
  obtain ⟨P, hP, hPe, -, hd⟩ := exists_step F
  rw [hd] at f3
  have hk : key F x ≠ 0 := by
    intro hk
    rw [value_eq hF hx hn, hk, numAt_zero hF] at h0
    exact h0 rfl
  rw [if_neg hk] at f3
  refine ⟨f1, ?_, ?_⟩
  · rw [less_iff hF false hx f1, hd, hd]
    exact ⟨hn, f2, by omega⟩
  · intro y hy h1 h2
    rw [less_iff hF false hx hy, hd, hd] at h1
    rw [less_iff hF false hy f1, hd, hd] at h2
    omega

/-- In any case zero is followed by the smallest normal number: it compares greater than zero, and no normal number is
in between. -/
theorem next_zero (hF : F.Proper) (daz : Bool) {x : Flt} (hx : IsFloat F x) (h0 : value F x = some 0) :
    value F (nextafter F daz x) = some (smallestNormal F : EReal) ∧ Less F daz x (nextafter F daz x) ∧
      ∀ y, IsFloat F y → Normal y → Less F daz x y → ¬ Less F daz y (nextafter F daz x) := by
  have hn : x ≠ .nan := by rintro rfl; simp [value] at h0
  have hk : key F x = 0 := by
    rw [value_eq hF hx hn, Option.some.injEq, ← numAt_zero hF] at h0
    obtain ⟨h1, h2⟩ := key_range hx
    by_contra hc
    rcases Int.lt_or_gt_of_ne hc with h | h
    · have := numAt_mono (F := F) h1 h (by omega); rw [h0] at this; exact lt_irrefl _ this
    · have := numAt_mono (F := F) (by omega) h h2; rw [h0] at this; exact lt_irrefl _ this
  have hi : x ≠ .inf false := by
    rintro rfl
    have : 0 < F.top * 2 ^ F.frac := Nat.mul_pos (by have := hF.2; omega) (by positivity)
    simp only [key, Bool.false_eq_true, if_false] at hk
    omega
  obtain ⟨f1, f2, f3⟩ := next_facts hF daz hx hn hi
  obtain ⟨P, hP, hPe, hd, hd'⟩ := exists_step F
  have hdx : dkey F daz x = 0 := by unfold dkey; split <;> omega
  rw [if_pos hdx] at f3
  have hdw : dkey F daz (nextafter F daz x) = ((2 ^ F.frac : ℕ) : ℤ) := by
    unfold dkey; rw [f3]; split <;> omega
  refine ⟨?_, ?_, ?_⟩
  · rw [value_eq hF f1 f2, f3, numAt_normal hF]
  · rw [less_iff hF daz hx f1, hdx, hdw]
    exact ⟨hn, f2, by omega⟩
  · intro y hy hyn h1 h2
    rw [less_iff hF daz hx hy, hdx] at h1
    rw [less_iff hF daz hy f1, hdw] at h2
    have hy' : ((2 ^ F.frac : ℕ) : ℤ) ≤ key F y ∨ key F y ≤ -((2 ^ F.frac : ℕ) : ℤ) := by
      cases y with
      | nan => exact absurd rfl h1.2.1
      | inf n =>
        have : 1 * 2 ^ F.frac ≤ F.top * 2 ^ F.frac := Nat.mul_le_mul_right _ (by have := hF.2; omega)
        cases n <;> simp only [key, Bool.false_eq_true, if_false, if_true] <;> omega
      | fin n e f =>
        have : 1 * 2 ^ F.frac ≤ e * 2 ^ F.frac := Nat.mul_le_mul_right _ (Nat.pos_of_ne_zero hyn)
        cases n <;> simp only [key, Bool.false_eq_true, if_false, if_true] <;> omega
    have h1 := h1.2.2
    have h2 := h2.2.2
    unfold dkey at h1 h2
    split at h1 <;> omega

/-- The claim of the docstring, "the floating point number after `x`", is not true of zero where there are denormals. -/
theorem next_zero_skips (hF : F.Proper) :
    ∃ y, IsFloat F y ∧ Less F false (.fin false 0 0) y ∧ Less F false y (nextafter F false (.fin false 0 0)) := by
  have hP2 : 2 ≤ 2 ^ F.frac := by
    calc 2 = 2 ^ 1 := rfl
    _ ≤ 2 ^ F.frac := Nat.pow_le_pow_right (by omega) hF.1
  have ht : 0 < F.top := by have := hF.2; omega
  have h0 : IsFloat F (.fin false 0 0) := ⟨ht, by omega⟩
  have h1 : IsFloat F (.fin false 0 1) := ⟨ht, by omega⟩
  have h2 : IsFloat F (nextafter F false (.fin false 0 0)) := (next_facts hF false h0 (by simp) (by simp)).1
  refine ⟨.fin false 0 1, h1, ?_, ?_⟩
  · rw [less_iff hF false h0 h1]; simp [dkey, key]
  · rw [less_iff hF false h1 h2]
    refine ⟨by simp, by simp [nextafter, eqZero, tiny], ?_⟩
    simp only [nextafter, eqZero, tiny, dkey, key, Bool.false_eq_true, false_and, if_false, beq_self_eq_true,
      Bool.false_or, Bool.and_self, if_true]
    omega

/-- NaN stays NaN and `inf` stays `inf`. -/
theorem next_special (F : Fmt) (daz : Bool) :
    nextafter F daz .nan = .nan ∧ nextafter F daz (.inf false) = .inf false ∧
      prevbefore F daz .nan = .nan ∧ prevbefore F daz (.inf true) = .inf true := ⟨rfl, rfl, rfl, rfl⟩

theorem less_negate (hF : F.Proper) (daz : Bool) {x y : Flt} (hx : IsFloat F x) (hy : IsFloat F y) :
    Less F daz (negate x) (negate y) ↔ Less F daz y x := by
  rw [less_iff hF daz ((isFloat_negate x).2 hx) ((isFloat_negate y).2 hy), less_iff hF daz hy hx, dkey_negate,
    dkey_negate]
  simp only [ne_eq, negate_nan]
  constructor <;> rintro ⟨a, b, c⟩ <;> exact ⟨b, a, by omega⟩

theorem negate_inf {x : Flt} (h : x ≠ .inf true) : negate x ≠ .inf false := by
  intro hc
  cases x with
  | inf n => cases n <;> simp [negate] at hc h
  | _ => simp [negate] at hc

theorem less_negate' (hF : F.Proper) (daz : Bool) {x w : Flt} (hx : IsFloat F x) (hw : IsFloat F w) :
    (Less F daz (negate x) w ↔ Less F daz (negate w) x) ∧ (Less F daz w (negate x) ↔ Less F daz x (negate w)) := by
  have hw' := (isFloat_negate (F := F) w).2 hw
  have h1 := less_negate hF daz hx hw'
  have h2 := less_negate hF daz hw' hx
  rw [negate_negate] at h1 h2
  exact ⟨h1, h2⟩

theorem mirror (hF : F.Proper) (daz : Bool) {x : Flt} (hx : IsFloat F x) {N : Flt → Prop}
    (hN : ∀ y, N y → N (negate y))
    (h : IsFloat F (nextafter F daz (negate x)) ∧ Less F daz (negate x) (nextafter F daz (negate x)) ∧
      ∀ y, IsFloat F y → N y → Less F daz (negate x) y → ¬ Less F daz y (nextafter F daz (negate x))) :
    IsFloat F (prevbefore F daz x) ∧ Less F daz (prevbefore F daz x) x ∧
      ∀ y, IsFloat F y → N y → Less F daz y x → ¬ Less F daz (prevbefore F daz x) y := by
  obtain ⟨a, b, c⟩ := h
  rw [prev_negate]
  refine ⟨(isFloat_negate _).2 a, ((less_negate' hF daz hx a).1).1 b, fun y hy hny h1 h2 => ?_⟩
  exact c (negate y) ((isFloat_negate _).2 hy) (hN y hny) ((less_negate hF daz hx hy).2 h1)
    (((less_negate' hF daz hy a).1).2 h2)

/-- Where denormals are zero, `prevbefore(x)` compares less than `x`, and nothing compares to be in between. -/
theorem prev_daz (hF : F.Proper) {x : Flt} (hx : IsFloat F x) (hn : x ≠ .nan) (hi : x ≠ .inf true) :
    IsFloat F (prevbefore F true x) ∧ Less F true (prevbefore F true x) x ∧
      ∀ y, IsFloat F y → Less F true y x → ¬ Less F true (prevbefore F true x) y := by
  obtain ⟨a, b, c⟩ := next_daz hF ((isFloat_negate (F := F) x).2 hx) (fun h => hn (negate_nan.1 h)) (negate_inf hi)
  obtain ⟨a, b, c⟩ := mirror hF true hx (N := fun _ => True) (fun _ _ => trivial) ⟨a, b, fun y hy _ => c y hy⟩
  exact ⟨a, b, fun y hy => c y hy trivial⟩

theorem value_zero_iff (hF : F.Proper) {x : Flt} (hx : IsFloat F x) :
    value F x = some 0 ↔ x ≠ .nan ∧ key F x = 0 := by
  by_cases hn : x = .nan
  · subst hn; simp [value]
  rw [value_eq hF hx hn, Option.some.injEq, ← numAt_zero hF]
  obtain ⟨h1, h2⟩ := key_range hx
  constructor
  · intro h0
    refine ⟨hn, ?_⟩
    by_contra hc
    rcases Int.lt_or_gt_of_ne hc with h | h
    · have := numAt_mono (F := F) h1 h (by omega); rw [h0] at this; exact lt_irrefl _ this
    · have := numAt_mono (F := F) (by omega) h h2; rw [h0] at this; exact lt_irrefl _ this
  · rintro ⟨-, h⟩; rw [h]

theorem value_zero_negate (hF : F.Proper) {x : Flt} (hx : IsFloat F x) :
    value F (negate x) = some 0 ↔ value F x = some 0 := by
  rw [value_zero_iff hF hx, value_zero_iff hF ((isFloat_negate x).2 hx), key_negate, ne_eq, negate_nan]
  simp

/-- With denormals, `prevbefore(x)` is the number before `x` for every number but zero and `-inf`. -/
theorem prev_denormals (hF : F.Proper) {x : Flt} (hx : IsFloat F x) (hn : x ≠ .nan) (hi : x ≠ .inf true)
    (h0 : value F x ≠ some 0) :
    IsFloat F (prevbefore F false x) ∧ Less F false (prevbefore F false x) x ∧
      ∀ y, IsFloat F y → Less F false y x → ¬ Less F false (prevbefore F false x) y := by
  obtain ⟨a, b, c⟩ := next_denormals hF ((isFloat_negate (F := F) x).2 hx) (fun h => hn (negate_nan.1 h))
    (negate_inf hi) (fun h => h0 ((value_zero_negate hF hx).1 h))
  obtain ⟨a, b, c⟩ := mirror hF false hx (N := fun _ => True) (fun _ _ => trivial) ⟨a, b, fun y hy _ => c y hy⟩
  exact ⟨a, b, fun y hy => c y hy trivial⟩

theorem normal_negate (y : Flt) (h : Normal y) : Normal (negate y) := by cases y <;> exact h

/-- Zero comes after the largest negative normal number. -/
theorem prev_zero (hF : F.Proper) (daz : Bool) {x : Flt} (hx : IsFloat F x) (h0 : value F x = some 0) :
    value F (prevbefore F daz x) = some (-(smallestNormal F : EReal)) ∧ Less F daz (prevbefore F daz x) x ∧
      ∀ y, IsFloat F y → Normal y → Less F daz y x → ¬ Less F daz (prevbefore F daz x) y := by
  obtain ⟨hn, hk⟩ := (value_zero_iff hF hx).1 h0
  have hx' := (isFloat_negate (F := F) x).2 hx
  have h0' := (value_zero_negate hF hx).2 h0
  obtain ⟨a, b, c⟩ := next_zero hF daz hx' h0'
  have hi : negate x ≠ .inf false := by
    intro hc; rw [hc] at h0'; simp [value] at h0'
  obtain ⟨f1, f2, f3⟩ := next_facts hF daz hx' (fun h => hn (negate_nan.1 h)) hi
  obtain ⟨a', b', c'⟩ := mirror hF daz hx (N := Normal) normal_negate ⟨f1, b, c⟩
  refine ⟨?_, b', c'⟩
  have hz : dkey F daz (negate x) = 0 := by
    rw [dkey_negate]; unfold dkey; split <;> omega
  rw [if_pos hz] at f3
  have hne : prevbefore F daz x ≠ .nan := by
    rw [prev_negate, ne_eq, negate_nan]; exact f2
  rw [value_eq hF a' hne, prev_negate, key_negate, f3, numAt_negNormal hF]

/-- Where denormals are zero, `prevbefore` undoes `nextafter`, up to what compares equal. -/
theorem prev_next_daz (hF : F.Proper) {x : Flt} (hx : IsFloat F x) (hn : x ≠ .nan) (hi : x ≠ .inf false) :
    Same F true (prevbefore F true (nextafter F true x)) x := by
  obtain ⟨f1, f2, -⟩ := next_facts hF true hx hn hi
  obtain ⟨-, b, c⟩ := next_daz hF hx hn hi
  have hi' : nextafter F true x ≠ .inf true := by
    intro hc
    rw [hc] at b f1
    obtain ⟨-, -, h⟩ := (less_iff hF true hx f1).1 b
    have := (dkey_range true hx).1
    have h2 : dkey F true (.inf true) ≤ -((F.top * 2 ^ F.frac : ℕ) : ℤ) := by
      have : 1 * 2 ^ F.frac ≤ F.top * 2 ^ F.frac := Nat.mul_le_mul_right _ (by have := hF.2; omega)
      simp only [dkey, key, if_true, true_and]
      split <;> omega
    omega
  obtain ⟨a', b', c'⟩ := prev_daz hF f1 f2 hi'
  have hne : prevbefore F true (nextafter F true x) ≠ .nan :=
    ((less_iff hF true a' f1).1 b').1
  rw [same_iff hF true a' hx]
  refine ⟨hne, hn, ?_⟩
  have h1 := c' x hx b
  rw [less_iff hF true a' hx] at h1
  have h2 : ¬ Less F true x (prevbefore F true (nextafter F true x)) := fun h => c _ a' h b'
  rw [less_iff hF true hx a'] at h2
  have h1 : ¬ _ := fun h => h1 ⟨hne, hn, h⟩
  have h2 : ¬ _ := fun h => h2 ⟨hn, hne, h⟩
  omega

/-- The derivative of both is one: the tangent is passed on. -/
theorem jvp_identity {T : Type} (F : Fmt) (daz : Bool) (x : Flt) (t : T) :
    nextafterJvp F daz x t = (nextafter F daz x, t) ∧ prevbeforeJvp F daz x t = (prevbefore F daz x, t) := ⟨rfl, rfl⟩

/-! A case: single precision. Its format is proper, `1.0` is the number below, and with the theorems there is nothing
between it and `nextafter(1.0)`, which is the pattern one above. -/

/-- `float32`. -/
def float32 : Fmt := ⟨23, 127, 255⟩

example : float32.Proper ∧ IsFloat float32 (.fin false 127 0) ∧
    nextafter float32 true (.fin false 127 0) = .fin false 127 1 ∧
    nextafter float32 true (.fin true 0 5) = .fin false 1 0 ∧
    nextafter float32 false (.fin true 0 5) = .fin true 0 4 ∧
    nextafter float32 true (.fin true 1 0) = .fin true 0 (2 ^ 23 - 1) ∧
    nextafter float32 true (.fin false 254 (2 ^ 23 - 1)) = .inf false ∧
    prevbefore float32 true (.fin false 127 0) = .fin false 126 (2 ^ 23 - 1) := by
  refine ⟨⟨by decide, by decide⟩, ⟨by decide, by decide⟩, ?_, ?_, ?_, ?_, ?_, ?_⟩ <;> decide

end NextAfter
end Verif
