import Mathlib.Analysis.Calculus.Deriv.Mul
import Mathlib.MeasureTheory.Integral.IntervalIntegral.Basic
import Verif.NN.NArr
/-!
# Dropout on arrays of any number of dimensions, and its derivative

`nn/_dropout.py`. Numbers are real, or an infinity or NaN (`Num.other`); rounding is left out. `p` is a Python number or an array
without dimensions. The draws of `jax.random.bernoulli(key, q, shape)` are `uniform(key, shape) < q`, where `uniform` is any function
of the key, the shape and the index into `[0, 1)`.
-/

namespace Verif.NN.Drop

open Verif.NN

/-! ## The model -/

/-- A floating-point number without rounding. -/
inductive Num where
  | real (r : ℝ)
  /-- an infinity, or NaN -/
  | other

open Classical in
/-- Division by a real number: `x / 0` is an infinity or NaN. -/
noncomputable def Num.over : Num → ℝ → Num
  | .real a, q => if q = 0 then .other else .real (a / q)
  | .other, _ => .other

/-- The field `p` -/
inductive P where
  /-- an `int` or `float` -/
  | number (r : ℝ)
  /-- an array without dimensions -/
  | array (r : ℝ)

def P.value : P → ℝ
  | .number r => r
  | .array r => r

/-- The fields of `Dropout` (lines 23-24). -/
structure Dropout where
  p : P
  inference : Bool

/-- A result, and whether a warning about `deterministic` is given. -/
structure Warned (α : Type) where
  value : α
  warns : Bool

/-- `Dropout.__init__` (lines 43-50) -/
def Dropout.init (p : P) (inference : Bool) (deterministic : Option Bool) : Warned Dropout :=
  match deterministic with
  | some d => ⟨⟨p, d⟩, true⟩
  | none => ⟨⟨p, inference⟩, false⟩

/-- `uniform(key, shape)[index]` -/
abbrev Uniform (Key : Type) := Key → List Nat → List Nat → ℝ

open Classical in
/-- `jrandom.bernoulli(key, q, shape)` -/
noncomputable def bernoulli {Key : Type} (U : Uniform Key) (key : Key) (q : ℝ) (shape : List Nat) : NArr Bool :=
  ⟨shape, fun i => decide (U key shape i < q)⟩

open Classical in
/-- `isinstance(self.p, (int, float)) and self.p == 0` (line 86) -/
noncomputable def P.isZero : P → Bool
  | .number r => decide (r = 0)
  | .array _ => false

/-- The flag after lines 77-87. -/
noncomputable def Dropout.off (D : Dropout) (inference deterministic : Option Bool) : Bool :=
  let inference := match deterministic with
    | some d => some d
    | none => inference
  let inference := match inference with
    | some b => b
    | none => D.inference
  if D.p.isZero then true else inference

/-- `jnp.where(mask, x, 0)` -/
def whereZero (mask : NArr Bool) (x : NArr Num) : NArr Num := ⟨x.shape, fun i => if mask.at_ i then x.at_ i else .real 0⟩

/-- `x / q` -/
noncomputable def divide (x : NArr Num) (q : ℝ) : NArr Num := ⟨x.shape, fun i => (x.at_ i).over q⟩

/-- `Dropout.__call__` (lines 77-97) -/
noncomputable def Dropout.call {Key : Type} (U : Uniform Key) (D : Dropout) (x : NArr Num) (key : Option Key)
    (inference deterministic : Option Bool) : Warned (Except Err (NArr Num)) :=
  ⟨if D.off inference deterministic then .ok x
   else match key with
    | none => .error .runtimeError
    | some key =>
      let q := 1 - D.p.value
      .ok (whereZero (bernoulli U key q x.shape) (divide x q)),
   deterministic.isSome⟩

/-- The cotangent of `x` for a cotangent `ct` of the output, by JAX's rules: `where(mask, ·, 0)` is its own transpose, and so is
division by `q`. Nothing reaches `p` (`stop_gradient`, line 95). -/
noncomputable def Dropout.pullback {Key : Type} (U : Uniform Key) (D : Dropout) (x : NArr Num) (key : Option Key)
    (inference deterministic : Option Bool) (ct : NArr Num) : Except Err (NArr Num) :=
  if D.off inference deterministic then .ok ct
  else match key with
    | none => .error .runtimeError
    | some key =>
      let q := 1 - D.p.value
      .ok (divide (whereZero (bernoulli U key q x.shape) ct) q)

/-! ## Vocabulary -/

/-- Elements are dropped: the layer is not in inference, as the call says or else the layer does, and `p` is not the number zero. -/
def Active (D : Dropout) (inference deterministic : Option Bool) : Prop :=
  D.p ≠ .number 0 ∧
    (deterministic = some false ∨ (deterministic = none ∧ (inference = some false ∨ (inference = none ∧ D.inference = false))))

/-- An array of real numbers. -/
def reals (shape : List Nat) (v : List Nat → ℝ) : NArr Num := ⟨shape, fun i => .real (v i)⟩

/-! ## Lemmas -/

theorem off_iff (D : Dropout) (inference deterministic : Option Bool) :
    D.off inference deterministic = false ↔ Active D inference deterministic := by
  unfold Dropout.off Active
  cases D with
  | mk p b =>
    cases p with
    | number r =>
      by_cases h : r = 0
      · subst h; simp [P.isZero]
      · rcases deterministic with _ | (_ | _) <;> rcases inference with _ | (_ | _) <;> simp [P.isZero, h]
    | array r => rcases deterministic with _ | (_ | _) <;> rcases inference with _ | (_ | _) <;> simp [P.isZero]

theorem integral_below (q c : ℝ) (h0 : 0 ≤ q) (h1 : q ≤ 1) : ∫ u in (0 : ℝ)..1, (if u < q then c else 0) = q * c := by
  have hf : (fun u : ℝ => if u < q then c else 0) = (Set.Iio q).indicator (fun _ => c) := by
    funext u
    simp [Set.indicator]
  have hs : Set.Iio q ∩ Set.Ioc 0 1 = Set.Ioo 0 q ∪ (Set.Iio q ∩ Set.Ioc q 1) := by
    ext u
    simp only [Set.mem_inter_iff, Set.mem_Iio, Set.mem_Ioc, Set.mem_union, Set.mem_Ioo]
    constructor
    · rintro ⟨h, h', _⟩; exact Or.inl ⟨h', h⟩
    · rintro (⟨h, h'⟩ | ⟨h, h', _⟩)
      · exact ⟨h', h, by linarith⟩
      · exact absurd h (by linarith)
  have he : Set.Iio q ∩ Set.Ioc q 1 = ∅ := by
    ext u
    simp only [Set.mem_inter_iff, Set.mem_Iio, Set.mem_Ioc, Set.mem_empty_iff_false, iff_false]
    rintro ⟨h, h', _⟩
    linarith
  rw [intervalIntegral.integral_of_le (by norm_num), hf, MeasureTheory.integral_indicator measurableSet_Iio,
    MeasureTheory.Measure.restrict_restrict measurableSet_Iio, hs, he, Set.union_empty, MeasureTheory.setIntegral_const]
  simp [MeasureTheory.measureReal_def, h0]

theorem call_active {Key : Type} (U : Uniform Key) {D : Dropout} {inference deterministic : Option Bool}
    (h : Active D inference deterministic) (x : NArr Num) (key : Key) :
    (D.call U x (some key) inference deterministic).value =
      .ok (whereZero (bernoulli U key (1 - D.p.value) x.shape) (divide x (1 - D.p.value))) := by
  simp [Dropout.call, (off_iff D inference deterministic).2 h]

theorem pullback_active {Key : Type} (U : Uniform Key) {D : Dropout} {inference deterministic : Option Bool}
    (h : Active D inference deterministic) (x ct : NArr Num) (key : Key) :
    D.pullback U x (some key) inference deterministic ct =
      .ok (divide (whereZero (bernoulli U key (1 - D.p.value) x.shape) ct) (1 - D.p.value)) := by
  simp [Dropout.pullback, (off_iff D inference deterministic).2 h]

/-! ## The properties -/

variable {Key : Type} (U : Uniform Key) (D : Dropout) (inference deterministic : Option Bool)

/-- The argument `deterministic` goes before `inference`, which goes before the field; the argument of `__init__` sets the field.
Unless elements are dropped the input comes back, with or without a key, and so do cotangents. If they are, a key is needed. A warning
is given exactly if `deterministic` is used. -/
theorem flags (x ct : NArr Num) (key : Option Key) :
    (¬ Active D inference deterministic → (D.call U x key inference deterministic).value = .ok x ∧
      D.pullback U x key inference deterministic ct = .ok ct) ∧
    (Active D inference deterministic →
      (D.call U x none inference deterministic).value = .error .runtimeError ∧
      ∀ k, ∃ y, (D.call U x (some k) inference deterministic).value = .ok y ∧ y.shape = x.shape) ∧
    ((D.call U x key inference deterministic).warns = true ↔ deterministic ≠ none) ∧
    (∀ p b, Dropout.init p b none = ⟨⟨p, b⟩, false⟩) ∧ (∀ p b d, Dropout.init p b (some d) = ⟨⟨p, d⟩, true⟩) := by
  refine ⟨?_, ?_, ?_, fun _ _ => rfl, fun _ _ _ => rfl⟩
  · intro h
    have : D.off inference deterministic = true := by
      by_contra hc
      exact h ((off_iff D inference deterministic).1 (by simpa using hc))
    simp [Dropout.call, Dropout.pullback, this]
  · intro h
    refine ⟨by simp [Dropout.call, (off_iff D inference deterministic).2 h], fun k => ?_⟩
    exact ⟨_, call_active U h x k, rfl⟩
  · cases deterministic <;> simp [Dropout.call]

/-- Every element is divided by `1 - p` or is zero, as its own draw says: `p` of the interval is dropped. An infinity or NaN that is
dropped leaves no trace. -/
theorem values (h : Active D inference deterministic) (hp : D.p.value < 1) (x : NArr Num) (key : Key) :
    ∃ y, (D.call U x (some key) inference deterministic).value = .ok y ∧ y.shape = x.shape ∧
      ∀ i, (1 - D.p.value ≤ U key x.shape i → y.at_ i = .real 0) ∧
        (U key x.shape i < 1 - D.p.value → (∀ r, x.at_ i = .real r → y.at_ i = .real (r / (1 - D.p.value))) ∧
          (x.at_ i = .other → y.at_ i = .other)) := by
  refine ⟨_, call_active U h x key, rfl, fun i => ⟨fun hu => ?_, fun hu => ⟨fun r hr => ?_, fun hr => ?_⟩⟩⟩
  · simp [whereZero, bernoulli, not_lt.2 hu]
  · have : (1 - D.p.value) ≠ 0 := by linarith
    simp [whereZero, bernoulli, hu, divide, hr, Num.over, this]
  · simp [whereZero, bernoulli, hu, divide, hr, Num.over]

/-- With `p ≥ 1` everything is dropped, whatever the key; with `p ≤ 0` nothing is, and (with an array `p = 0`) the input comes back. -/
theorem extremes (hU : ∀ k s i, 0 ≤ U k s i ∧ U k s i < 1) (h : Active D inference deterministic) (sh : List Nat)
    (v : List Nat → ℝ) (key : Key) :
    (1 ≤ D.p.value → ∀ x, x.shape = sh → (D.call U x (some key) inference deterministic).value = .ok (reals sh fun _ => 0)) ∧
    (D.p.value ≤ 0 → (D.call U (reals sh v) (some key) inference deterministic).value =
      .ok (reals sh fun i => v i / (1 - D.p.value))) := by
  refine ⟨fun hp x hx => ?_, fun hp => ?_⟩
  · rw [call_active U h]
    subst hx
    simp only [whereZero, bernoulli, reals, divide, Except.ok.injEq, NArr.mk.injEq, true_and]
    funext i
    have := (hU key x.shape i).1
    simp [show ¬ U key x.shape i < 1 - D.p.value by linarith]
  · rw [call_active U h]
    simp only [whereZero, bernoulli, reals, divide, Except.ok.injEq, NArr.mk.injEq, true_and]
    funext i
    have := (hU key sh i).2
    have hq : 1 - D.p.value ≠ 0 := by linarith
    simp [show U key sh i < 1 - D.p.value by linarith, Num.over, hq]

/-- The mean of every element over a uniform draw is the input, and the mean of its square is the square divided by `1 - p`. -/
theorem mean (h : Active D inference deterministic) (h0 : 0 ≤ D.p.value) (h1 : D.p.value < 1) (sh : List Nat) (v : List Nat → ℝ)
    (i : List Nat) : ∃ f : ℝ → ℝ,
      (∀ (U : Uniform Key) key, ∃ y, (D.call U (reals sh v) (some key) inference deterministic).value = .ok y ∧
        y.at_ i = .real (f (U key sh i))) ∧
      ∫ u in (0 : ℝ)..1, f u = v i ∧ ∫ u in (0 : ℝ)..1, f u ^ 2 = v i ^ 2 / (1 - D.p.value) := by
  have hq : 1 - D.p.value ≠ 0 := by linarith
  refine ⟨fun u => if u < 1 - D.p.value then v i / (1 - D.p.value) else 0, fun U key => ⟨_, call_active U h _ key, ?_⟩, ?_, ?_⟩
  · by_cases hu : U key sh i < 1 - D.p.value <;> simp [whereZero, bernoulli, divide, reals, Num.over, hq, hu]
  · rw [integral_below _ _ (by linarith) (by linarith)]
    field_simp
  · have : (fun u : ℝ => (if u < 1 - D.p.value then v i / (1 - D.p.value) else 0) ^ 2) =
        fun u => if u < 1 - D.p.value then (v i / (1 - D.p.value)) ^ 2 else 0 := by
      funext u
      split <;> simp
    rw [this, integral_below _ _ (by linarith) (by linarith)]
    field_simp

/-- For a given key dropout is linear. -/
theorem linear (h : Active D inference deterministic) (hp : D.p.value ≠ 1) (sh : List Nat) (v w : List Nat → ℝ) (a b : ℝ)
    (key : Key) : ∃ f g : List Nat → ℝ,
      (D.call U (reals sh v) (some key) inference deterministic).value = .ok (reals sh f) ∧
      (D.call U (reals sh w) (some key) inference deterministic).value = .ok (reals sh g) ∧
      (D.call U (reals sh fun i => a * v i + b * w i) (some key) inference deterministic).value =
        .ok (reals sh fun i => a * f i + b * g i) := by
  have hq : 1 - D.p.value ≠ 0 := by intro hc; apply hp; linarith
  have key' : ∀ v : List Nat → ℝ, (D.call U (reals sh v) (some key) inference deterministic).value =
      .ok (reals sh fun i => if U key sh i < 1 - D.p.value then v i / (1 - D.p.value) else 0) := by
    intro v
    rw [call_active U h]
    simp only [whereZero, bernoulli, reals, divide, Except.ok.injEq, NArr.mk.injEq, true_and]
    funext i
    by_cases hu : U key sh i < 1 - D.p.value <;> simp [Num.over, hq, hu]
  refine ⟨_, _, key' v, key' w, ?_⟩
  rw [key']
  congr 3
  funext i
  split
  · field_simp
  · ring

/-- The gradient, except with `p = 1`: the cotangent of an element is that of the output, times the derivative of the output's element
with respect to it. -/
theorem gradient_partial (h : Active D inference deterministic) (hp : D.p.value ≠ 1) (sh : List Nat) (v ct : List Nat → ℝ)
    (key : Key) : ∃ d : List Nat → ℝ,
      D.pullback U (reals sh v) (some key) inference deterministic (reals sh ct) = .ok (reals sh fun i => ct i * d i) ∧
      ∀ i, ∃ f : ℝ → ℝ, HasDerivAt f (d i) (v i) ∧ ∀ w : List Nat → ℝ, ∃ y,
        (D.call U (reals sh w) (some key) inference deterministic).value = .ok y ∧ y.at_ i = .real (f (w i)) := by
  have hq : 1 - D.p.value ≠ 0 := by intro hc; apply hp; linarith
  refine ⟨fun i => if U key sh i < 1 - D.p.value then 1 / (1 - D.p.value) else 0, ?_, fun i => ?_⟩
  · rw [pullback_active U h]
    simp only [whereZero, bernoulli, reals, divide, Except.ok.injEq, NArr.mk.injEq, true_and]
    funext i
    by_cases hu : U key sh i < 1 - D.p.value
    · simp [Num.over, hq, hu, div_eq_mul_inv]
    · simp [Num.over, hq, hu]
  · by_cases hu : U key sh i < 1 - D.p.value
    · refine ⟨fun t => t / (1 - D.p.value), ?_, fun w => ⟨_, call_active U h _ key, ?_⟩⟩
      · simpa [hu] using (hasDerivAt_id (v i)).div_const (1 - D.p.value)
      · simp [whereZero, bernoulli, divide, reals, Num.over, hq, hu]
    · refine ⟨fun _ => 0, ?_, fun w => ⟨_, call_active U h _ key, ?_⟩⟩
      · simpa [hu] using hasDerivAt_const (v i) (0 : ℝ)
      · simp [whereZero, bernoulli, divide, reals, hu]

/-- With `p = 1` the output is constantly zero, and no element of the gradient is a number. -/
theorem gradient_one (hU : ∀ k s i, 0 ≤ U k s i ∧ U k s i < 1) (h : Active D inference deterministic) (hp : D.p.value = 1)
    (x ct : NArr Num) (key : Key) :
    (D.call U x (some key) inference deterministic).value = .ok (reals x.shape fun _ => 0) ∧
    ∃ g, D.pullback U x (some key) inference deterministic ct = .ok g ∧ ∀ i, g.at_ i = .other := by
  refine ⟨(extremes U D inference deterministic hU h x.shape (fun _ => 0) key).1 (by linarith) x rfl, _, pullback_active U h x ct key, ?_⟩
  intro i
  simp only [divide, hp, sub_self]
  cases (whereZero (bernoulli U key 0 x.shape) ct).at_ i <;> simp [Num.over]

/-! ## Concrete cases -/

/-- A layer that drops a quarter, called in training; it is in inference by default. -/
example : Active ⟨.number (1 / 4), true⟩ (some false) none ∧ ¬ Active ⟨.number (1 / 4), true⟩ none none ∧
    ¬ Active ⟨.number 0, false⟩ none (some false) ∧ Active ⟨.array 0, false⟩ none none := by
  simp [Active]

/-- Draws in `[0, 1)` of which some are dropped. -/
noncomputable def exDraws : Uniform Unit := fun _ _ i => if i = [0] then 1 / 8 else 7 / 8

example : (∀ k s i, 0 ≤ exDraws k s i ∧ exDraws k s i < 1) ∧
    ∃ y, (Dropout.call exDraws ⟨.number (1 / 4), false⟩ (reals [2] fun _ => 3) (some ()) none none).value = .ok y ∧
      y.at_ [0] = .real 4 ∧ y.at_ [1] = .real 0 := by
  refine ⟨fun k s i => ?_, ?_⟩
  · unfold exDraws
    split <;> norm_num
  · obtain ⟨y, hy, -, hv⟩ := values exDraws ⟨.number (1 / 4), false⟩ none none (by simp [Active]) (by norm_num [P.value])
      (reals [2] fun _ => 3) ()
    refine ⟨y, hy, ?_, ?_⟩
    · rw [((hv [0]).2 (by norm_num [exDraws, P.value])).1 3 rfl]
      norm_num [P.value]
    · exact (hv [1]).1 (by norm_num [exDraws, P.value])

example : Active ⟨.number 1, false⟩ none none ∧ (P.number 1).value = 1 := by simp [Active, P.value]

end Verif.NN.Drop
