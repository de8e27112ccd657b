import Verif.NN.NormModel
import Mathlib.Tactic.Ring
import Mathlib.Tactic.Linarith
import Mathlib.Tactic.NormNum
import Mathlib.Tactic.FieldSimp

/-!
# C63: normalisation layers

The documentation gives the formulas; the specification writes them out over all elements of the input (or over all elements of
the group of a channel), with the variance as the mean of the squares minus the square of the mean.
-/

namespace Verif
namespace Norm

/-! ### Specification -/

/-- `E[x]`. -/
noncomputable def avg (xs : List ℝ) : ℝ := xs.sum / xs.length

/-- `E[x²]`. -/
noncomputable def avgSq (xs : List ℝ) : ℝ := (xs.map fun x => x * x).sum / xs.length

/-- `Var[x] = E[x²] - E[x]²`. -/
noncomputable def variance (xs : List ℝ) : ℝ := avgSq xs - avg xs * avg xs

/-- `(x - E[x]) / sqrt(Var[x] + ε)`. -/
noncomputable def standard (eps : ℝ) (xs : List ℝ) (x : ℝ) : ℝ := (x - avg xs) / Real.sqrt (variance xs + eps)

/-- The elements of an array fill its shape. -/
def FArr.Proper {V : Type} (x : FArr V) : Prop := x.data.length = size x.shape

/-- The parameters are there if they are used, and have the shape of the layer. -/
def Layer.Proper (L : Layer) : Prop :=
  (L.useWeight = true → ∃ w, L.weight = some w ∧ w.length = size L.shape) ∧
  (L.useBias = true → ∃ b, L.bias = some b ∧ b.length = size L.shape)

/-- `γ` at an index. -/
noncomputable def Layer.gamma (L : Layer) (i : Nat) : ℝ := if L.useWeight then ((L.weight.getD [])[i]?).getD 1 else 1

/-- `β` at an index. -/
noncomputable def Layer.beta (L : Layer) (i : Nat) : ℝ := if L.useBias then ((L.bias.getD [])[i]?).getD 0 else 0

/-- The position of an element in row-major order. -/
def ravel : List Nat → List Nat → Nat
  | _ :: s, i :: is => i * size s + ravel s is
  | _, _ => 0

/-- An index of an array of this shape. -/
def InBounds : List Nat → List Nat → Prop
  | [], [] => True
  | n :: s, i :: is => i < n ∧ InBounds s is
  | _, _ => False

/-- The elements of the channels in group `g`, when `k` channels make a group and a channel has `inner` elements. -/
def groupOf (k inner g : Nat) (data : List ℝ) : List ℝ :=
  ((List.range data.length).filter fun i => (i / inner) / k = g).filterMap fun i => data[i]?

/-! ### Sums -/

theorem sum_sq (m : ℝ) : ∀ xs : List ℝ, (xs.map fun x => (x - m) * (x - m)).sum =
    (xs.map fun x => x * x).sum - 2 * m * xs.sum + xs.length * (m * m)
  | [] => by simp
  | x :: xs => by
    simp only [List.map_cons, List.sum_cons, List.length_cons, sum_sq m xs]
    push_cast
    ring

theorem sum_sq_nonneg (m : ℝ) : ∀ xs : List ℝ, 0 ≤ (xs.map fun x => (x - m) * (x - m)).sum
  | [] => by simp
  | x :: xs => by
    simp only [List.map_cons, List.sum_cons]
    exact add_nonneg (mul_self_nonneg _) (sum_sq_nonneg m xs)

theorem sum_lin (a c : ℝ) : ∀ xs : List ℝ, (xs.map fun x => a * x + c).sum = a * xs.sum + xs.length * c
  | [] => by simp
  | x :: xs => by
    simp only [List.map_cons, List.sum_cons, List.length_cons, sum_lin a c xs]
    push_cast
    ring

theorem sum_lin_sq (a c : ℝ) : ∀ xs : List ℝ, (xs.map fun x => (a * x + c) * (a * x + c)).sum =
    a * a * (xs.map fun x => x * x).sum + 2 * a * c * xs.sum + xs.length * (c * c)
  | [] => by simp
  | x :: xs => by
    simp only [List.map_cons, List.sum_cons, List.length_cons, sum_lin_sq a c xs]
    push_cast
    ring

theorem var_eq (xs : List ℝ) : var xs = variance xs := by
  unfold var mean variance avgSq avg
  rw [sum_sq, List.length_map]
  rcases xs with _ | ⟨x, xs⟩
  · simp
  · have : ((x :: xs).length : ℝ) ≠ 0 := by
      rw [List.length_cons]
      exact_mod_cast Nat.succ_ne_zero xs.length
    field_simp
    ring

theorem variance_nonneg (xs : List ℝ) : 0 ≤ variance xs := by
  rw [← var_eq]
  unfold var mean
  exact div_nonneg (sum_sq_nonneg _ _) (Nat.cast_nonneg _)

theorem avgSq_nonneg (xs : List ℝ) : 0 ≤ avgSq xs := by
  have := sum_sq_nonneg 0 xs
  simp only [sub_zero] at this
  exact div_nonneg this (Nat.cast_nonneg _)

theorem normalise_eq {eps : ℝ} (he : 0 < eps) (xs : List ℝ) :
    normalise eps xs = xs.map fun x => some (standard eps xs x) := by
  unfold normalise
  have h0 : max 0 (var xs) = variance xs := by rw [var_eq]; exact max_eq_right (variance_nonneg xs)
  have hp : 0 < variance xs + eps := by linarith [variance_nonneg xs]
  simp only [h0, rsqrt, if_pos hp, Option.map_some, standard, mean, avg]
  congr 1
  funext x
  congr 1
  rw [mul_one_div]

theorem affine_ok {op : ℝ → ℝ → ℝ} {use : Bool} {param : Option (List ℝ)} {out : List (Option ℝ)} {d : ℝ}
    (h : use = true → ∃ w, param = some w ∧ w.length = out.length) (hd : ∀ x, op d x = x) :
    ∃ o, affine op use param out = .ok o ∧ o.length = out.length ∧
      ∀ (i : Nat) (x : ℝ), out[i]? = some (some x) →
        o[i]? = some (some (op (if use then ((param.getD [])[i]?).getD d else d) x)) := by
  unfold affine
  cases use with
  | false => exact ⟨out, rfl, rfl, by intro i x hx; simpa [hd] using hx⟩
  | true =>
    obtain ⟨w, rfl, hw⟩ := h rfl
    simp only [if_true, hw]
    refine ⟨_, rfl, by simp [hw], ?_⟩
    intro i x hx
    have hi : i < w.length := by
      rw [hw]
      exact (List.getElem?_eq_some_iff.1 hx).1
    rw [List.getElem?_zipWith, hx, List.getElem?_eq_getElem hi]
    simp [hi]

theorem affine_both {L : Layer} (hL : L.Proper) {out : List ℝ} (hl : out.length = size L.shape) :
    ∃ o, (do
        let o ← affine (fun w o => w * o) L.useWeight L.weight (out.map some)
        affine (fun b o => o + b) L.useBias L.bias o) = .ok o ∧ o.length = size L.shape ∧
      ∀ (i : Nat) (x : ℝ), out[i]? = some x → o[i]? = some (some (L.gamma i * x + L.beta i)) := by
  obtain ⟨o1, h1, h2, h3⟩ := affine_ok (op := fun w o => w * o) (use := L.useWeight) (param := L.weight) (out := out.map some)
    (d := 1) (by intro h; obtain ⟨w, hw, hw'⟩ := hL.1 h; exact ⟨w, hw, by simpa [hl] using hw'⟩) (by intro x; ring)
  have hlen : o1.length = size L.shape := by rw [h2, List.length_map, hl]
  obtain ⟨o2, g1, g2, g3⟩ := affine_ok (op := fun b o => o + b) (use := L.useBias) (param := L.bias) (out := o1)
    (d := 0) (by intro h; obtain ⟨w, hw, hw'⟩ := hL.2 h; exact ⟨w, hw, by rw [hlen]; exact hw'⟩) (by intro x; ring)
  refine ⟨o2, ?_, by rw [g2, hlen], ?_⟩
  · rw [h1]; exact g1
  · intro i x hx
    exact g3 i _ (h3 i x (by rw [List.getElem?_map, hx]; rfl))

/-! ### LayerNorm -/

/-- **LayerNorm**: every element is `γ (x - E[x]) / sqrt(Var[x] + ε) + β`; the state is returned as it was. -/
theorem layerNorm_eq {S : Type} {L : Layer} (hL : L.Proper) (he : 0 < L.eps) {x : FArr ℝ} (hx : x.Proper) (hs : x.shape = L.shape)
    (state : Option S) :
    ∃ out, layerNorm L x state = .ok (⟨x.shape, out⟩, state) ∧ out.length = size x.shape ∧
      ∀ (i : Nat) (v : ℝ), x.data[i]? = some v → out[i]? = some (some (L.gamma i * standard L.eps x.data v + L.beta i)) := by
  obtain ⟨o, h1, h2, h3⟩ := affine_both hL (out := x.data.map (standard L.eps x.data))
    (by rw [List.length_map, ← hs]; exact hx)
  refine ⟨o, ?_, by rw [h2, hs], ?_⟩
  · unfold layerNorm
    rw [if_neg (by simpa using hs), normalise_eq he]
    have hz : (x.data.map fun v => some (standard L.eps x.data v)) = (x.data.map (standard L.eps x.data)).map some := by
      rw [List.map_map]; rfl
    rw [hz]
    cases ha : affine (fun w o => w * o) L.useWeight L.weight ((x.data.map (standard L.eps x.data)).map some) with
    | error e => rw [ha] at h1; cases h1
    | ok o1 =>
      rw [ha] at h1
      have h1' : affine (fun b o => o + b) L.useBias L.bias o1 = .ok o := h1
      simp only [bind, Except.bind, pure, Except.pure, ha, h1']
  · intro i v hv
    exact h3 i _ (by rw [List.getElem?_map, hv]; rfl)

/-- A layer that was just made has `γ = 1` and `β = 0`, with and without parameters. -/
theorem fresh_layerNorm (shape : List Nat) (eps : ℝ) (w b : Bool) (ea : Option Bool) :
    (mkLayerNorm shape eps w b ea).Proper ∧ (mkLayerNorm shape eps w b ea).shape = shape ∧
    (mkLayerNorm shape eps w b ea).eps = eps ∧
    (mkLayerNorm shape eps w b ea).useWeight = ea.getD w ∧ (mkLayerNorm shape eps w b ea).useBias = ea.getD b ∧
    ∀ i, (mkLayerNorm shape eps w b ea).gamma i = 1 ∧ (mkLayerNorm shape eps w b ea).beta i = 0 := by
  refine ⟨⟨?_, ?_⟩, rfl, rfl, rfl, rfl, ?_⟩
  · intro h
    exact ⟨_, by simp only [mkLayerNorm] at h ⊢; rw [if_pos h], by simp [mkLayerNorm]⟩
  · intro h
    exact ⟨_, by simp only [mkLayerNorm] at h ⊢; rw [if_pos h], by simp [mkLayerNorm]⟩
  · intro i
    simp only [Layer.gamma, Layer.beta, mkLayerNorm]
    constructor
    · by_cases h : ea.getD w = true
      · simp only [h, if_true, Option.getD_some, List.getElem?_replicate]
        split <;> rfl
      · simp [h]
    · by_cases h : ea.getD b = true
      · simp only [h, if_true, Option.getD_some, List.getElem?_replicate]
        split <;> rfl
      · simp [h]

theorem fresh_rmsNorm (shape : List Nat) (eps : ℝ) (w b : Bool) :
    (mkRMSNorm shape eps w b).Proper ∧ (mkRMSNorm shape eps w b).shape = shape ∧ (mkRMSNorm shape eps w b).eps = eps ∧
    (mkRMSNorm shape eps w b).useWeight = w ∧ (mkRMSNorm shape eps w b).useBias = b ∧
    ∀ i, (mkRMSNorm shape eps w b).gamma i = 1 ∧ (mkRMSNorm shape eps w b).beta i = 0 :=
  fresh_layerNorm shape eps w b none

/-- Any other shape is refused, by both layers. -/
theorem norm_wrong_shape {S : Type} {L : Layer} {x : FArr ℝ} (hs : x.shape ≠ L.shape) (state : Option S) :
    layerNorm L x state = .error .valueError ∧ rmsNorm L x state = .error .valueError := by
  unfold layerNorm rmsNorm
  constructor <;> rw [if_pos hs] <;> rfl

/-- The formula has mean zero. -/
theorem standard_mean (eps : ℝ) {xs : List ℝ} (hn : xs ≠ []) : avg (xs.map (standard eps xs)) = 0 := by
  have hl : (xs.length : ℝ) ≠ 0 := by
    have := List.length_pos_of_ne_nil hn
    exact_mod_cast Nat.pos_iff_ne_zero.1 this
  unfold avg
  have : (xs.map (standard eps xs)) = xs.map fun x => (1 / Real.sqrt (variance xs + eps)) * x + -(avg xs / Real.sqrt (variance xs + eps)) := by
    congr 1
    funext x
    unfold standard
    ring
  rw [this, sum_lin]
  have h2 : (xs.length : ℝ) * avg xs = xs.sum := by unfold avg; field_simp
  have h3 : 1 / √(variance xs + eps) * xs.sum + xs.length * -(avg xs / √(variance xs + eps)) =
      (xs.sum - xs.length * avg xs) / √(variance xs + eps) := by ring
  rw [h3, h2]
  simp

/-- The formula has mean square `Var[x] / (Var[x] + ε)`, less than one. -/
theorem standard_meanSq {eps : ℝ} (he : 0 < eps) {xs : List ℝ} (hn : xs ≠ []) :
    avgSq (xs.map (standard eps xs)) = variance xs / (variance xs + eps) ∧ avgSq (xs.map (standard eps xs)) < 1 := by
  have hl : (xs.length : ℝ) ≠ 0 := by
    have := List.length_pos_of_ne_nil hn
    exact_mod_cast Nat.pos_iff_ne_zero.1 this
  have hv := variance_nonneg xs
  have hp : 0 < variance xs + eps := by linarith
  have e : avgSq (xs.map (standard eps xs)) = variance xs / (variance xs + eps) := by
    unfold avgSq
    rw [List.map_map, List.length_map]
    have : (xs.map ((fun x => x * x) ∘ standard eps xs)) = xs.map fun x => (1 / Real.sqrt (variance xs + eps) * x +
        -(avg xs / Real.sqrt (variance xs + eps))) * (1 / Real.sqrt (variance xs + eps) * x + -(avg xs / Real.sqrt (variance xs + eps))) := by
      congr 1
      funext x
      simp only [Function.comp, standard]
      ring
    rw [this, sum_lin_sq]
    have hs : Real.sqrt (variance xs + eps) * Real.sqrt (variance xs + eps) = variance xs + eps := Real.mul_self_sqrt hp.le
    have hs0 : Real.sqrt (variance xs + eps) ≠ 0 := (Real.sqrt_pos.2 hp).ne'
    generalize hr : Real.sqrt (variance xs + eps) = r at *
    rw [← hs]
    have h1 : (xs.map fun x => x * x).sum = xs.length * avgSq xs := by unfold avgSq; field_simp
    have h2 : xs.sum = xs.length * avg xs := by unfold avg; field_simp
    rw [h1, h2]
    unfold variance
    field_simp
    ring
  refine ⟨e, ?_⟩
  rw [e, div_lt_one hp]
  linarith

theorem avg_lin (a c : ℝ) {xs : List ℝ} (hn : xs ≠ []) : avg (xs.map fun x => a * x + c) = a * avg xs + c := by
  have hl : (xs.length : ℝ) ≠ 0 := by
    have := List.length_pos_of_ne_nil hn
    exact_mod_cast Nat.pos_iff_ne_zero.1 this
  unfold avg
  rw [sum_lin, List.length_map]
  field_simp

theorem variance_lin (a c : ℝ) (xs : List ℝ) : variance (xs.map fun x => a * x + c) = a * a * variance xs := by
  rcases Decidable.em (xs = []) with rfl | hn
  · simp [variance, avgSq, avg]
  have hl : (xs.length : ℝ) ≠ 0 := by
    have := List.length_pos_of_ne_nil hn
    exact_mod_cast Nat.pos_iff_ne_zero.1 this
  unfold variance
  rw [avg_lin a c hn]
  unfold avgSq avg
  rw [List.map_map]
  have : (xs.map ((fun x => x * x) ∘ fun x => a * x + c)) = xs.map fun x => (a * x + c) * (a * x + c) := rfl
  rw [this, sum_lin_sq, List.length_map]
  field_simp
  ring

/-- **Invariance**: adding a constant to all elements changes nothing, and scaling them by a positive number amounts to dividing `ε`
by its square. -/
theorem layerNorm_affine_input {S : Type} {L : Layer} (he : 0 < L.eps) {x : FArr ℝ} (a c : ℝ) (ha : 0 < a) (state : Option S) :
    layerNorm { L with eps := a * a * L.eps } { x with data := x.data.map fun v => a * v + c } state = layerNorm L x state := by
  have key : normalise (a * a * L.eps) (x.data.map fun v => a * v + c) = normalise L.eps x.data := by
    have he' : 0 < a * a * L.eps := by positivity
    rw [normalise_eq he', normalise_eq he, List.map_map]
    apply List.map_congr_left
    intro v hv
    have hn : x.data ≠ [] := by rintro h; rw [h] at hv; cases hv
    simp only [Function.comp, standard]
    rw [avg_lin a c hn, variance_lin]
    congr 1
    have e1 : a * a * variance x.data + a * a * L.eps = a ^ 2 * (variance x.data + L.eps) := by ring
    rw [e1, Real.sqrt_mul (by positivity), Real.sqrt_sq ha.le]
    have e2 : a * v + c - (a * avg x.data + c) = a * (v - avg x.data) := by ring
    rw [e2, mul_div_mul_left _ _ ha.ne']
  unfold layerNorm
  simp only [key]

/-! ### RMSNorm -/

theorem rms_core {eps : ℝ} (he : 0 < eps) (xs : List ℝ) :
    (xs.map fun v => (rsqrt (mean (xs.map fun v => v ^ 2) + eps)).map fun i => i * v) =
      (xs.map fun v => v / Real.sqrt (eps + avgSq xs)).map some := by
  have e : mean (xs.map fun v => v ^ 2) = avgSq xs := by
    unfold mean avgSq
    rw [List.length_map]
    simp only [pow_two]
  have hp : 0 < avgSq xs + eps := by linarith [avgSq_nonneg xs]
  rw [e]
  simp only [rsqrt, if_pos hp, Option.map_some, List.map_map]
  congr 1
  funext v
  simp only [Function.comp]
  rw [add_comm, one_div_mul_eq_div]

/-- **RMSNorm**: every element is `γ x / sqrt(ε + E[x²]) + β`. -/
theorem rmsNorm_eq {S : Type} {L : Layer} (hL : L.Proper) (he : 0 < L.eps) {x : FArr ℝ} (hx : x.Proper) (hs : x.shape = L.shape)
    (state : Option S) :
    ∃ out, rmsNorm L x state = .ok (⟨x.shape, out⟩, state) ∧ out.length = size x.shape ∧
      ∀ (i : Nat) (v : ℝ), x.data[i]? = some v →
        out[i]? = some (some (L.gamma i * (v / Real.sqrt (L.eps + avgSq x.data)) + L.beta i)) := by
  obtain ⟨o, h1, h2, h3⟩ := affine_both hL (out := x.data.map fun v => v / Real.sqrt (L.eps + avgSq x.data))
    (by rw [List.length_map, ← hs]; exact hx)
  refine ⟨o, ?_, by rw [h2, hs], ?_⟩
  · unfold rmsNorm
    rw [if_neg (by simpa using hs)]
    simp only [rms_core he]
    generalize hz : ((x.data.map fun v => v / Real.sqrt (L.eps + avgSq x.data)).map some) = z at *
    cases ha : affine (fun w o => w * o) L.useWeight L.weight z with
    | error e => rw [ha] at h1; cases h1
    | ok o1 =>
      rw [ha] at h1
      have h1' : affine (fun b o => o + b) L.useBias L.bias o1 = .ok o := h1
      simp only [bind, Except.bind, pure, Except.pure, ha, h1']
  · intro i v hv
    exact h3 i _ (by rw [List.getElem?_map, hv]; rfl)

/-- The outputs of RMSNorm without parameters have mean square `E[x²] / (E[x²] + ε)`, less than one. -/
theorem rms_meanSq {eps : ℝ} (he : 0 < eps) (xs : List ℝ) :
    avgSq (xs.map fun v => v / Real.sqrt (eps + avgSq xs)) = avgSq xs / (avgSq xs + eps) ∧
    avgSq (xs.map fun v => v / Real.sqrt (eps + avgSq xs)) < 1 := by
  have h0 := avgSq_nonneg xs
  have hp : 0 < eps + avgSq xs := by linarith
  have e : avgSq (xs.map fun v => v / Real.sqrt (eps + avgSq xs)) = avgSq xs / (avgSq xs + eps) := by
    have hs : Real.sqrt (eps + avgSq xs) * Real.sqrt (eps + avgSq xs) = eps + avgSq xs := Real.mul_self_sqrt hp.le
    have hs0 : Real.sqrt (eps + avgSq xs) ≠ 0 := (Real.sqrt_pos.2 hp).ne'
    rw [add_comm (avgSq xs) eps]
    generalize Real.sqrt (eps + avgSq xs) = r at *
    rw [← hs]
    unfold avgSq
    rw [List.map_map, List.length_map]
    have : (xs.map ((fun x => x * x) ∘ fun v => v / r)) = xs.map fun x => (1 / r * x + 0) * (1 / r * x + 0) := by
      congr 1
      funext x
      simp only [Function.comp]
      ring
    rw [this, sum_lin_sq]
    field_simp
    ring
  refine ⟨e, ?_⟩
  rw [e, div_lt_one (by linarith)]
  linarith

/-- On inputs of mean zero, RMSNorm is LayerNorm. -/
theorem rms_eq_layerNorm {S : Type} {L : Layer} (he : 0 < L.eps) {x : FArr ℝ} (h0 : avg x.data = 0) (state : Option S) :
    rmsNorm L x state = layerNorm L x state := by
  unfold rmsNorm layerNorm
  simp only [rms_core he, normalise_eq he]
  have e : (x.data.map fun v => v / Real.sqrt (L.eps + avgSq x.data)).map some =
      x.data.map fun x_1 => some (standard L.eps x.data x_1) := by
    rw [List.map_map]
    congr 1
    funext v
    simp only [Function.comp, standard, h0, variance]
    rw [mul_zero, sub_zero, sub_zero, add_comm]
  rw [e]

/-! ### GroupNorm -/

/-- The parameters are there if they are used. -/
def GLayer.Proper (L : GLayer) (channels : Nat) : Prop :=
  L.channelwiseAffine = true → (∃ w, L.weight = some w ∧ w.length = channels) ∧ ∃ b, L.bias = some b ∧ b.length = channels

/-- `γ` of a channel. -/
noncomputable def GLayer.gamma (L : GLayer) (c : Nat) : ℝ := if L.channelwiseAffine then ((L.weight.getD [])[c]?).getD 1 else 1

/-- `β` of a channel. -/
noncomputable def GLayer.beta (L : GLayer) (c : Nat) : ℝ := if L.channelwiseAffine then ((L.bias.getD [])[c]?).getD 0 else 0

theorem rows_succ {V : Type} (k m : Nat) (data : List V) : rows (k + 1) m data = data.take m :: rows k m (data.drop m) := by
  unfold rows
  rw [List.range_succ_eq_map, List.map_cons, List.map_map]
  simp only [Nat.zero_mul, List.drop_zero, List.cons.injEq, true_and]
  apply List.map_congr_left
  intro g _
  simp only [Function.comp, List.drop_drop]
  congr 2
  rw [Nat.succ_mul, Nat.add_comm]

theorem flat_get {W : Type} (F : List ℝ → ℝ → W) {m : Nat} (hm : 0 < m) : ∀ (k : Nat) (data : List ℝ), data.length = k * m →
    ((rows k m data).map fun r => r.map (F r)).flatten.length = data.length ∧
    ∀ (i : Nat) (v : ℝ), data[i]? = some v →
      ((rows k m data).map fun r => r.map (F r)).flatten[i]? = some (F ((data.drop (i / m * m)).take m) v)
  | 0, data, h => by
    have : data = [] := List.eq_nil_of_length_eq_zero (by simpa using h)
    subst this
    exact ⟨rfl, by intro i v h; simp at h⟩
  | k + 1, data, h => by
    have hl : (data.take m).length = m := by rw [List.length_take, h, Nat.succ_mul]; omega
    obtain ⟨h1, h2⟩ := flat_get F hm k (data.drop m) (by rw [List.length_drop, h, Nat.succ_mul]; omega)
    rw [rows_succ, List.map_cons, List.flatten_cons]
    constructor
    · rw [List.length_append, List.length_map, hl, h1, List.length_drop, h, Nat.succ_mul]; omega
    · intro i v hv
      by_cases hi : i < m
      · rw [List.getElem?_append_left (by rw [List.length_map, hl]; exact hi), List.getElem?_map, List.getElem?_take_of_lt hi, hv,
          Nat.div_eq_of_lt hi]
        simp
      · have hi' : m ≤ i := Nat.le_of_not_lt hi
        rw [List.getElem?_append_right (by rw [List.length_map, hl]; exact hi'), List.length_map, hl,
          h2 (i - m) v (by rw [List.getElem?_drop]; rw [← hv]; congr 1; omega), List.drop_drop]
        have e : i / m = (i - m) / m + 1 := by
          conv_lhs => rw [← Nat.sub_add_cancel hi']
          rw [Nat.add_div_right _ hm]
        rw [e, Nat.succ_mul, Nat.add_comm m]

theorem filter_range_div {m : Nat} (hm : 0 < m) (g : Nat) : ∀ k : Nat, g < k →
    ((List.range (k * m)).filter fun i => i / m = g) = List.range' (g * m) m
  | 0, h => absurd h (Nat.not_lt_zero _)
  | k + 1, h => by
    have hnone : ∀ j, j ≤ g → ((List.range (j * m)).filter fun i => i / m = g) = [] := by
      intro j hj
      rw [List.filter_eq_nil_iff]
      intro i hi
      simp only [List.mem_range] at hi
      have : i / m < j := (Nat.div_lt_iff_lt_mul hm).2 hi
      simp only [decide_eq_true_eq]
      omega
    have hsplit : List.range ((k + 1) * m) = List.range (k * m) ++ List.range' (k * m) m := by
      rw [Nat.succ_mul, List.range_add, List.range'_eq_map_range]
    have hblock : ∀ i ∈ List.range' (k * m) m, i / m = k := by
      intro i hi
      rw [List.mem_range'_1] at hi
      have h1 : k ≤ i / m := (Nat.le_div_iff_mul_le hm).2 hi.1
      have h2 : i / m < k + 1 := (Nat.div_lt_iff_lt_mul hm).2 (by rw [Nat.succ_mul]; exact hi.2)
      omega
    rw [hsplit, List.filter_append]
    by_cases hg : g = k
    · subst hg
      rw [hnone g (Nat.le_refl _), List.nil_append, List.filter_eq_self]
      intro i hi
      simpa using hblock i hi
    · rw [filter_range_div hm g k (by omega)]
      have : (List.range' (k * m) m).filter (fun i => decide (i / m = g)) = [] := by
        rw [List.filter_eq_nil_iff]
        intro i hi
        rw [hblock i hi]
        simp only [decide_eq_true_eq]
        omega
      rw [this, List.append_nil]

theorem filterMap_range' (data : List ℝ) : ∀ (m a : Nat), a + m ≤ data.length →
    (List.range' a m).filterMap (fun i => data[i]?) = (data.drop a).take m
  | 0, a, _ => by simp
  | m + 1, a, h => by
    rw [List.range'_succ, List.filterMap_cons, List.getElem?_eq_getElem (by omega)]
    simp only
    rw [filterMap_range' data m (a + 1) (by omega), List.drop_eq_getElem_cons (i := a) (by omega), List.take_succ_cons]

theorem groupOf_eq {k inner : Nat} {G : Nat} {data : List ℝ} (hl : data.length = G * (k * inner)) (hm : 0 < k * inner)
    {g : Nat} (hg : g < G) : groupOf k inner g data = (data.drop (g * (k * inner))).take (k * inner) := by
  unfold groupOf
  have e : (fun i => decide ((i / inner) / k = g)) = fun i => decide (i / (k * inner) = g) := by
    funext i
    rw [Nat.div_div_eq_div_mul, Nat.mul_comm inner k]
  rw [e, hl, filter_range_div hm g G hg, filterMap_range']
  rw [hl]
  calc g * (k * inner) + k * inner = (g + 1) * (k * inner) := by rw [Nat.succ_mul]
    _ ≤ G * (k * inner) := Nat.mul_le_mul_right _ hg

theorem flatMap_replicate_get (inner : Nat) (hi : 0 < inner) : ∀ (v : List ℝ),
    (v.flatMap fun w => List.replicate inner w).length = v.length * inner ∧
    ∀ i : Nat, (v.flatMap fun w => List.replicate inner w)[i]? = v[i / inner]?
  | [] => ⟨by simp, by intro i; simp⟩
  | w :: v => by
    obtain ⟨h1, h2⟩ := flatMap_replicate_get inner hi v
    rw [List.flatMap_cons]
    constructor
    · rw [List.length_append, List.length_replicate, h1, List.length_cons, Nat.succ_mul]; omega
    · intro i
      by_cases hlt : i < inner
      · rw [List.getElem?_append_left (by rw [List.length_replicate]; exact hlt), Nat.div_eq_of_lt hlt,
          List.getElem?_replicate, if_pos hlt]
        rfl
      · have hle : inner ≤ i := Nat.le_of_not_lt hlt
        rw [List.getElem?_append_right (by rw [List.length_replicate]; exact hle), List.length_replicate, h2]
        have e : i / inner = (i - inner) / inner + 1 := by
          conv_lhs => rw [← Nat.sub_add_cancel hle]
          rw [Nat.add_div_right _ hi]
        rw [e, List.getElem?_cons_succ]

theorem ravel_lt : ∀ {s is : List Nat}, InBounds s is → ravel s is < size s
  | [], [], _ => Nat.one_pos
  | n :: s, i :: is, h => by
    have := ravel_lt h.2
    simp only [ravel, size]
    calc i * size s + ravel s is < i * size s + size s := Nat.add_lt_add_left this _
      _ = (i + 1) * size s := by rw [Nat.succ_mul]
      _ ≤ n * size s := Nat.mul_le_mul_right _ h.1

theorem ravel_div {n c : Nat} {s is : List Nat} (h : InBounds (n :: s) (c :: is)) :
    0 < size s ∧ ravel (n :: s) (c :: is) / size s = c := by
  have := ravel_lt h.2
  have hp : 0 < size s := Nat.lt_of_le_of_lt (Nat.zero_le _) this
  refine ⟨hp, ?_⟩
  simp only [ravel]
  rw [Nat.add_comm, Nat.add_mul_div_right _ _ hp, Nat.div_eq_of_lt this, Nat.zero_add]

theorem normalise_fun {eps : ℝ} (he : 0 < eps) :
    normalise eps = fun r => r.map fun v => some (standard eps r v) := by
  funext r
  exact normalise_eq he r

/-- The reshape of `GroupNorm` succeeds, and what it computes before the affine map. -/
theorem group_core {eps : ℝ} (he : 0 < eps) {G C : Nat} (hG : 0 < G) (hd : G ∣ C) {rest : List Nat} {data : List ℝ}
    (hl : data.length = C * size rest) :
    ((rows G (size (C / G :: rest)) data).map (normalise eps)).flatten.length = data.length ∧
    ∀ (c : Nat) (is : List Nat), InBounds (C :: rest) (c :: is) →
      ∃ v, data[ravel (C :: rest) (c :: is)]? = some v ∧
        ((rows G (size (C / G :: rest)) data).map (normalise eps)).flatten[ravel (C :: rest) (c :: is)]? =
          some (some (standard eps (groupOf (C / G) (size rest) (c / (C / G)) data) v)) := by
  obtain ⟨k, rfl⟩ := hd
  have hk : G * k / G = k := Nat.mul_div_cancel_left k hG
  rw [hk]
  simp only [size]
  rw [normalise_fun he]
  have hl' : data.length = G * (k * size rest) := by rw [hl, Nat.mul_assoc]
  by_cases hm : 0 < k * size rest
  · obtain ⟨h1, h2⟩ := flat_get (fun r v => some (standard eps r v)) hm G data hl'
    refine ⟨h1, ?_⟩
    intro c is hin
    have hlt := ravel_lt hin
    simp only [size] at hlt
    obtain ⟨hp, hdiv⟩ := ravel_div hin
    have hi : ravel (G * k :: rest) (c :: is) < data.length := by rw [hl]; exact hlt
    refine ⟨data[ravel (G * k :: rest) (c :: is)], List.getElem?_eq_getElem hi, ?_⟩
    rw [h2 _ _ (List.getElem?_eq_getElem hi)]
    have hkp : 0 < k := Nat.pos_of_mul_pos_right hm
    have hc : c / k < G := (Nat.div_lt_iff_lt_mul hkp).2 hin.1
    rw [groupOf_eq hl' hm hc]
    have : ravel (G * k :: rest) (c :: is) / (k * size rest) = c / k := by
      rw [Nat.mul_comm k, ← Nat.div_div_eq_div_mul, hdiv]
    rw [this]
  · have h0 : k * size rest = 0 := by omega
    have hnil : data = [] := List.eq_nil_of_length_eq_zero (by rw [hl', h0, Nat.mul_zero])
    subst hnil
    constructor
    · rw [h0]
      simp only [rows, List.map_map, List.length_nil, List.length_flatten]
      rw [List.sum_eq_zero]
      intro n hn
      obtain ⟨g, _, rfl⟩ := List.mem_map.1 hn
      simp
    · intro c is hin
      exfalso
      have hlt := ravel_lt hin
      simp only [size] at hlt
      rw [Nat.mul_assoc, h0] at hlt
      omega

/-- **GroupNorm**: the element of channel `c` at any position is `γ_c (x - E[x_g]) / sqrt(Var[x_g] + ε) + β_c`, where `x_g` are all
elements of the channels of the group of `c`. -/
theorem groupNorm_eq {S : Type} {L : GLayer} {C : Nat} (hL : L.Proper C) (he : 0 < L.eps) (hG : 0 < L.groups) (hd : L.groups ∣ C)
    {x : FArr ℝ} {rest : List Nat} (hx : x.Proper) (hs : x.shape = C :: rest) (state : Option S) :
    ∃ out, groupNorm L x state = .ok (⟨x.shape, out⟩, state) ∧ out.length = size x.shape ∧
      ∀ (c : Nat) (is : List Nat), InBounds (C :: rest) (c :: is) →
        ∃ v, x.data[ravel (C :: rest) (c :: is)]? = some v ∧
          out[ravel (C :: rest) (c :: is)]? = some (some (L.gamma c *
            standard L.eps (groupOf (C / L.groups) (size rest) (c / (C / L.groups)) x.data) v + L.beta c)) := by
  have hl : x.data.length = C * size rest := by
    have := hx
    unfold FArr.Proper at this
    rw [hs] at this
    exact this
  obtain ⟨h1, h2⟩ := group_core he hG hd hl
  have hr : x.reshape (L.groups :: C / L.groups :: rest) = .ok ⟨L.groups :: C / L.groups :: rest, x.data⟩ := by
    unfold FArr.reshape
    rw [hs, if_pos]
    simp only [size]
    rw [← Nat.mul_assoc, Nat.mul_div_cancel' hd]
  generalize hout : ((rows L.groups (size (C / L.groups :: rest)) x.data).map (normalise L.eps)).flatten = out at *
  cases hc : L.channelwiseAffine with
  | false =>
    refine ⟨out, ?_, ?_, ?_⟩
    · unfold groupNorm
      rw [hs]
      simp only [bind, Except.bind, pure, Except.pure, if_neg (Nat.pos_iff_ne_zero.1 hG), hr, hc, hout]
      rfl
    · rw [h1]; exact hx
    · intro c is hin
      obtain ⟨v, hv, ho⟩ := h2 c is hin
      refine ⟨v, hv, ?_⟩
      rw [ho]
      simp [GLayer.gamma, GLayer.beta, hc]
  | true =>
    obtain ⟨⟨w, hw, hwl⟩, b, hb, hbl⟩ := hL hc
    have key : ∀ p : List ℝ, p.length = C → leftBroadcast p C (size rest) = .ok (p.flatMap fun w => List.replicate (size rest) w) := by
      intro p hp
      unfold leftBroadcast
      rw [if_pos hp]
    refine ⟨List.zipWith (fun b o => o.map fun o => o + b) (b.flatMap fun w => List.replicate (size rest) w)
        (List.zipWith (fun w o => o.map fun o => w * o) (w.flatMap fun w => List.replicate (size rest) w) out), ?_, ?_, ?_⟩
    · unfold groupNorm
      rw [hs]
      simp only [bind, Except.bind, pure, Except.pure, if_neg (Nat.pos_iff_ne_zero.1 hG), hr, hc, hw, hb, key w hwl, key b hbl, hout]
      rfl
    · have hlen : ∀ p : List ℝ, p.length = C → (p.flatMap fun w => List.replicate (size rest) w).length = C * size rest := by
        intro p hp
        rw [List.length_flatMap]
        simp only [List.length_replicate, List.map_const', List.sum_replicate, smul_eq_mul, hp]
      rw [List.length_zipWith, List.length_zipWith, hlen w hwl, hlen b hbl, h1, hl, hs]
      simp [size]
    · intro c is hin
      obtain ⟨v, hv, ho⟩ := h2 c is hin
      refine ⟨v, hv, ?_⟩
      obtain ⟨hp, hdiv⟩ := ravel_div hin
      have hcw : c < w.length := by rw [hwl]; exact hin.1
      have hcb : c < b.length := by rw [hbl]; exact hin.1
      rw [List.getElem?_zipWith, List.getElem?_zipWith, (flatMap_replicate_get _ hp w).2, (flatMap_replicate_get _ hp b).2, hdiv, ho,
        List.getElem?_eq_getElem hcw, List.getElem?_eq_getElem hcb]
      simp [GLayer.gamma, GLayer.beta, hc, hw, hb, hcw, hcb]

/-- Which arguments `GroupNorm.__init__` takes, and what it makes of them. -/
theorem mkGroupNorm_eq (groups : Nat) (channels : Option Nat) (eps : ℝ) (affine : Bool) :
    (∀ L, mkGroupNorm groups channels eps affine = .ok L →
      L.groups = groups ∧ L.eps = eps ∧ L.channelwiseAffine = affine ∧ L.channels = channels ∧
      (∀ c, channels = some c → groups ∣ c ∧ L.Proper c ∧ ∀ i, L.gamma i = 1 ∧ L.beta i = 0)) ∧
    (mkGroupNorm groups channels eps affine = .error .zeroDivision ↔ groups = 0 ∧ channels ≠ none) ∧
    (mkGroupNorm groups channels eps affine = .error .valueError ↔
      (channels = none ∧ affine = true) ∨ ∃ c, channels = some c ∧ groups ≠ 0 ∧ ¬ groups ∣ c) := by
  cases channels with
  | none =>
    cases affine with
    | true =>
      simp only [mkGroupNorm, bind, Except.bind, throw, throwThe, MonadExceptOf.throw, if_true]
      simp
    | false =>
      simp only [mkGroupNorm, bind, Except.bind, pure, Except.pure]
      simp
  | some c =>
    by_cases hg : groups = 0
    · subst hg
      simp only [mkGroupNorm, bind, Except.bind, throw, throwThe, MonadExceptOf.throw, if_true]
      simp
    · by_cases hd : c % groups = 0
      · have hdvd : groups ∣ c := Nat.dvd_of_mod_eq_zero hd
        simp only [mkGroupNorm, bind, Except.bind, pure, Except.pure, if_neg hg, hd, ne_eq, not_true_eq_false, if_false]
        refine ⟨?_, by simp [hg], by simp [hdvd]⟩
        intro L hL
        simp only [Except.ok.injEq] at hL
        subst hL
        refine ⟨rfl, rfl, rfl, rfl, ?_⟩
        intro c' hc'
        cases hc'
        refine ⟨hdvd, ?_, ?_⟩
        · intro ha
          simp only at ha
          subst ha
          exact ⟨⟨_, rfl, by simp⟩, _, rfl, by simp⟩
        · intro i
          simp only [GLayer.gamma, GLayer.beta]
          cases affine with
          | false => simp
          | true =>
            simp only [if_true, Option.getD_some, List.getElem?_replicate]
            constructor <;> (split <;> rfl)
      · have hdvd : ¬ groups ∣ c := fun h => hd (Nat.mod_eq_zero_of_dvd h)
        simp only [mkGroupNorm, bind, Except.bind, pure, Except.pure, throw, throwThe, MonadExceptOf.throw, if_neg hg, ne_eq, hd,
          not_false_eq_true, if_true]
        simp [hg, hdvd]

/-- Inputs that are refused: a scalar; everything else, if there are no groups; a number of channels which the groups do not divide
(unless the array is empty); and with parameters, a number of channels other than that of the layer, unless the layer has one channel. -/
theorem groupNorm_refused {S : Type} (L : GLayer) (x : FArr ℝ) (state : Option S) :
    (x.shape = [] → groupNorm L x state = .error .indexError) ∧
    (L.groups = 0 → x.shape ≠ [] → groupNorm L x state = .error .zeroDivision) ∧
    (∀ C rest, 0 < L.groups → x.shape = C :: rest → ¬ L.groups ∣ C → 0 < size rest →
      groupNorm L x state = .error .typeError) ∧
    (∀ C rest C0, 0 < L.groups → x.shape = C :: rest → L.groups ∣ C → L.channelwiseAffine = true → L.Proper C0 → C0 ≠ C → C0 ≠ 1 →
      groupNorm L x state = .error .valueError) := by
  refine ⟨?_, ?_, ?_, ?_⟩
  · intro h
    unfold groupNorm
    rw [h]
    rfl
  · intro hg hs
    unfold groupNorm
    cases h : x.shape with
    | nil => exact absurd h hs
    | cons C rest =>
      simp only [bind, Except.bind, hg, if_true]
      rfl
  · intro C rest hG hs hd hp
    unfold groupNorm
    have hr : x.reshape (L.groups :: C / L.groups :: rest) = .error .typeError := by
      unfold FArr.reshape
      rw [hs, if_neg]
      simp only [size]
      intro h
      rw [← Nat.mul_assoc] at h
      exact hd ⟨C / L.groups, (Nat.eq_of_mul_eq_mul_right hp h).symm⟩
    rw [hs]
    simp only [bind, Except.bind, pure, Except.pure, if_neg (Nat.pos_iff_ne_zero.1 hG), hr]
  · intro C rest C0 hG hs hd ha hL hne h1
    obtain ⟨⟨w, hw, hwl⟩, b, hb, hbl⟩ := hL ha
    have hr : x.reshape (L.groups :: C / L.groups :: rest) = .ok ⟨L.groups :: C / L.groups :: rest, x.data⟩ := by
      unfold FArr.reshape
      rw [hs, if_pos]
      simp only [size]
      rw [← Nat.mul_assoc, Nat.mul_div_cancel' hd]
    have hl : leftBroadcast w C (size rest) = .error .valueError := by
      unfold leftBroadcast
      rw [if_neg (by rw [hwl]; exact hne)]
      match w, hwl with
      | [], _ => rfl
      | [_], h => exact absurd h.symm h1
      | _ :: _ :: _, _ => rfl
    unfold groupNorm
    rw [hs]
    simp only [bind, Except.bind, pure, Except.pure, if_neg (Nat.pos_iff_ne_zero.1 hG), hr, ha, hw, hb, hl, if_true]

/-- With one group and no parameters, GroupNorm is LayerNorm. -/
theorem groupNorm_one {S : Type} {G : GLayer} {L : Layer} (h1 : G.groups = 1) (ha : G.channelwiseAffine = false)
    (hw : L.useWeight = false) (hb : L.useBias = false) (he : G.eps = L.eps) {x : FArr ℝ} (hx : x.Proper) {C : Nat} {rest : List Nat}
    (hs : x.shape = C :: rest) (hL : L.shape = x.shape) (state : Option S) :
    groupNorm G x state = layerNorm L x state := by
  have hr : x.reshape (1 :: C / 1 :: rest) = .ok ⟨1 :: C / 1 :: rest, x.data⟩ := by
    unfold FArr.reshape
    rw [hs, if_pos]
    simp [size]
  have hrow : rows 1 (size (C / 1 :: rest)) x.data = [x.data] := by
    have : x.data.length = C * size rest := by
      have := hx
      unfold FArr.Proper at this
      rw [hs] at this
      exact this
    simp only [rows, List.range_one, List.map_cons, List.map_nil, Nat.zero_mul, List.drop_zero, Nat.div_one, size, ← this, List.take_length]
  have hlay : layerNorm L x state = .ok (⟨x.shape, normalise L.eps x.data⟩, state) := by
    unfold layerNorm
    rw [if_neg (by simp [hL])]
    simp only [affine, hw, hb, bind, Except.bind, pure, Except.pure]
    rfl
  rw [hlay]
  unfold groupNorm
  rw [hs, h1]
  simp only [bind, Except.bind, pure, Except.pure, if_neg Nat.one_ne_zero, hr, hrow, ha, he]
  simp

/-! ### Concrete cases: the hypotheses of the theorems above can be met -/

/-- A fresh GroupNorm of two groups and four channels on a `(4, 2)` array: channel 2 is normalised with channel 3 (the values 5 … 8),
its mean is `13/2` and its variance `5/4`. -/
theorem groupNorm_case : ∃ L out, mkGroupNorm 2 (some 4) 1 true = .ok L ∧
    groupNorm L ⟨[4, 2], [1, 2, 3, 4, 5, 6, 7, 8]⟩ (some ()) = .ok (⟨[4, 2], out⟩, some ()) ∧
    out[4]? = some (some ((5 - 13 / 2) / Real.sqrt (5 / 4 + 1))) := by
  obtain ⟨L, hL⟩ : ∃ L, mkGroupNorm 2 (some 4) 1 true = .ok L := ⟨_, rfl⟩
  obtain ⟨h1, h2, h3, _, h5⟩ := (mkGroupNorm_eq 2 (some 4) 1 true).1 L hL
  obtain ⟨_, hp, hg⟩ := h5 4 rfl
  obtain ⟨out, ho, _, hv⟩ := groupNorm_eq hp (by rw [h2]; norm_num) (by rw [h1]; decide) (by rw [h1]; decide)
    (x := ⟨[4, 2], [1, 2, 3, 4, 5, 6, 7, 8]⟩) (rest := [2]) (by rfl) rfl (some ())
  obtain ⟨v, hv1, hv2⟩ := hv 2 [0] ⟨by decide, by decide, trivial⟩
  refine ⟨L, out, hL, ho, ?_⟩
  have hv1' : v = 5 := by
    have : ([1, 2, 3, 4, 5, 6, 7, 8] : List ℝ)[4]? = some v := hv1
    simpa using this.symm
  have e : out[4]? = out[ravel [4, 2] [2, 0]]? := rfl
  rw [e, hv2, (hg 2).1, (hg 2).2, h1, h2, hv1']
  have hgr : groupOf (4 / 2) (size [2]) (2 / (4 / 2)) ([1, 2, 3, 4, 5, 6, 7, 8] : List ℝ) = [5, 6, 7, 8] := by
    rw [groupOf_eq (G := 2) (by rfl) (by decide) (by decide)]
    rfl
  rw [hgr]
  have ha : avg [5, 6, 7, (8 : ℝ)] = 13 / 2 := by
    norm_num [avg]
  have hvar : variance [5, 6, 7, (8 : ℝ)] = 5 / 4 := by
    simp only [variance, ha]
    norm_num [avgSq]
  simp only [standard, ha, hvar]
  norm_num

/-- A fresh LayerNorm on three numbers. -/
theorem layerNorm_case : (mkLayerNorm [3] 1 true true none).Proper ∧
    ∃ out, layerNorm (mkLayerNorm [3] 1 true true none) ⟨[3], [1, 2, 6]⟩ (none : Option Unit) = .ok (⟨[3], out⟩, none) ∧
      avg [1, 2, (6 : ℝ)] = 3 ∧ variance [1, 2, (6 : ℝ)] = 14 / 3 ∧
      out[0]? = some (some ((1 - 3) / Real.sqrt (14 / 3 + 1))) := by
  have ha : avg [1, 2, (6 : ℝ)] = 3 := by norm_num [avg]
  have hv : variance [1, 2, (6 : ℝ)] = 14 / 3 := by
    simp only [variance, ha]
    norm_num [avgSq]
  have hp : (mkLayerNorm [3] 1 true true none).Proper := ⟨fun _ => ⟨_, rfl, rfl⟩, fun _ => ⟨_, rfl, rfl⟩⟩
  refine ⟨hp, [some ((1 - 3) / Real.sqrt (14 / 3 + 1)), some ((2 - 3) / Real.sqrt (14 / 3 + 1)), some ((6 - 3) / Real.sqrt (14 / 3 + 1))],
    ?_, ha, hv, rfl⟩
  have hn : normalise 1 [1, 2, (6 : ℝ)] = [some ((1 - 3) / Real.sqrt (14 / 3 + 1)), some ((2 - 3) / Real.sqrt (14 / 3 + 1)),
      some ((6 - 3) / Real.sqrt (14 / 3 + 1))] := by
    rw [normalise_eq one_pos]
    simp only [List.map_cons, List.map_nil, standard, ha, hv]
  simp [layerNorm, affine, mkLayerNorm, hn, bind, Except.bind, pure, Except.pure, size]

/-- A layer of one channel takes an input of any number of channels: its one weight and bias are broadcast. -/
theorem groupNorm_channels_unchecked {S : Type} {L : GLayer} {w b : ℝ} (he : 0 < L.eps) (h1 : L.groups = 1) (ha : L.channelwiseAffine = true)
    (hw : L.weight = some [w]) (hb : L.bias = some [b]) {x : FArr ℝ} (hx : x.Proper) {C : Nat} {rest : List Nat} (hC : C ≠ 1)
    (hs : x.shape = C :: rest) (state : Option S) :
    groupNorm L x state = .ok (⟨x.shape, x.data.map fun v => some (w * standard L.eps x.data v + b)⟩, state) := by
  have hr : x.reshape (1 :: C / 1 :: rest) = .ok ⟨1 :: C / 1 :: rest, x.data⟩ := by
    unfold FArr.reshape
    rw [hs, if_pos]
    simp [size]
  have hl : x.data.length = C * size rest := by
    have := hx
    unfold FArr.Proper at this
    rw [hs] at this
    exact this
  have hrow : rows 1 (size (C / 1 :: rest)) x.data = [x.data] := by
    simp only [rows, List.range_one, List.map_cons, List.map_nil, Nat.zero_mul, List.drop_zero, Nat.div_one, size, ← hl, List.take_length]
  have hb' : ∀ p : ℝ, leftBroadcast [p] C (size rest) = .ok (List.replicate x.data.length p) := by
    intro p
    unfold leftBroadcast
    rw [if_neg (by simpa using Ne.symm hC), hl]
  have hz : ∀ (f : ℝ → Option ℝ → Option ℝ) (p : ℝ) (l : List (Option ℝ)), List.zipWith f (List.replicate l.length p) l = l.map (f p) := by
    intro f p l
    induction l with
    | nil => rfl
    | cons a l ih => simp only [List.length_cons, List.replicate_succ, List.zipWith_cons_cons, ih, List.map_cons]
  have hn : (normalise L.eps x.data).length = x.data.length := by
    rw [normalise_eq he, List.length_map]
  unfold groupNorm
  rw [hs, h1]
  simp only [bind, Except.bind, pure, Except.pure, if_neg Nat.one_ne_zero, hr, hrow, ha, hw, hb, hb', if_true, List.map_cons, List.map_nil,
    List.flatten_cons, List.flatten_nil, List.append_nil]
  rw [← hn, hz]
  conv_lhs => rw [← List.length_map (as := normalise L.eps x.data) (f := fun o => Option.map (fun o => w * o) o)]
  rw [hz, normalise_eq he, List.map_map, List.map_map]
  rfl

end Norm
end Verif
