import Verif.NN.AttentionModel
import Mathlib.Analysis.SpecialFunctions.Exp
import Mathlib.Algebra.BigOperators.Ring.Finset
import Mathlib.Algebra.BigOperators.Field
import Mathlib.Algebra.Order.BigOperators.Group.Finset
import Mathlib.Tactic.Ring
import Mathlib.Tactic.Linarith
import Mathlib.Tactic.NormNum
/-!
# C51 and C60: attention

C51 is about a single head (`dot_product_attention`), C60 about `MultiheadAttention` and `Dropout`.
-/

namespace Verif
namespace Attention

/-! ## Specification -/

/-- What is used of the exponential. The real one and the floating point one have it. -/
structure IsExp (E : ℝ → ℝ) : Prop where
  zero : E 0 = 1
  nonneg : ∀ x, 0 ≤ E x

/-- The exponential underflows to zero below `-T`. -/
def Underflow (E : ℝ → ℝ) (T : ℝ) : Prop := ∀ x, x ≤ -T → E x = 0

/-- May query `s` look at position `t`? -/
def Visible : Option Mask → Nat → Nat → Bool
  | none, _, _ => true
  | some m, s, t => m.val [s, t]

/-- A mask of the right shape. -/
def MaskOk (rows cols : Nat) : Option Mask → Prop
  | none => True
  | some m => m.shape = [rows, cols]

/-- The scaled inner product of a query and a key. -/
noncomputable def score (query key : Mat) (s t : Nat) : ℝ :=
  (∑ d ∈ Finset.range query.cols, query.val s d * key.val t d) / Real.sqrt query.cols

/-- The same with `M` for the positions that may not be looked at. -/
noncomputable def maskedScore (M : ℝ) (query key : Mat) (vis : Nat → Nat → Bool) (s t : Nat) : ℝ :=
  if vis s t then score query key s t else M

/-- `softmax(Q Kᵀ / √d) V`, with the masked score, for the real exponential. -/
noncomputable def idealAttention (M : ℝ) (query key value : Mat) (vis : Nat → Nat → Bool) (s c : Nat) : ℝ :=
  ∑ t ∈ Finset.range key.rows, Real.exp (maskedScore M query key vis s t) /
    (∑ u ∈ Finset.range key.rows, Real.exp (maskedScore M query key vis s u)) * value.val t c

/-! ## The softmax -/

theorem le_rowMax : ∀ (l : List ℝ), ∀ a ∈ l, a ≤ rowMax l
  | [], a, h => by simp at h
  | [b], a, h => by simp at h; simp [rowMax, h]
  | b :: c :: l, a, h => by
    rw [rowMax]
    rcases List.mem_cons.1 h with rfl | h
    · exact le_max_left _ _
    · exact le_trans (le_rowMax (c :: l) a h) (le_max_right _ _)

theorem rowMax_mem : ∀ (l : List ℝ), l ≠ [] → rowMax l ∈ l
  | [], h => absurd rfl h
  | [b], _ => by simp [rowMax]
  | b :: c :: l, _ => by
    rw [rowMax]
    rcases max_choice b (rowMax (c :: l)) with e | e
    · rw [e]; exact List.mem_cons_self
    · rw [e]; exact List.mem_cons_of_mem _ (rowMax_mem (c :: l) (by simp))

theorem exists_max {n : Nat} (hn : 0 < n) (row : Nat → ℝ) : ∃ u, u < n ∧ row u = rowMax ((List.range n).map row) := by
  have := rowMax_mem ((List.range n).map row) (by simp; omega)
  obtain ⟨u, hu, e⟩ := List.mem_map.1 this
  exact ⟨u, List.mem_range.1 hu, e⟩

theorem denom_pos {E : ℝ → ℝ} (hE : IsExp E) {n : Nat} (hn : 0 < n) (row : Nat → ℝ) :
    0 < ∑ u ∈ Finset.range n, E (row u - rowMax ((List.range n).map row)) := by
  obtain ⟨u, hu, e⟩ := exists_max hn row
  refine lt_of_lt_of_le (b := E (row u - rowMax ((List.range n).map row))) ?_
    (Finset.single_le_sum (f := fun u => E (row u - rowMax ((List.range n).map row))) (fun _ _ => hE.nonneg _)
      (Finset.mem_range.2 hu))
  rw [e, sub_self, hE.zero]
  exact one_pos

theorem softmax_nonneg {E : ℝ → ℝ} (hE : IsExp E) (n : Nat) (row : Nat → ℝ) (t : Nat) : 0 ≤ softmax E n row t :=
  div_nonneg (hE.nonneg _) (Finset.sum_nonneg fun _ _ => hE.nonneg _)

theorem softmax_sum {E : ℝ → ℝ} (hE : IsExp E) {n : Nat} (hn : 0 < n) (row : Nat → ℝ) :
    ∑ t ∈ Finset.range n, softmax E n row t = 1 := by
  simp only [softmax]
  rw [← Finset.sum_div, div_self (denom_pos hE hn row).ne']

theorem softmax_exp (n : Nat) (row : Nat → ℝ) (t : Nat) :
    softmax Real.exp n row t = Real.exp (row t) / ∑ u ∈ Finset.range n, Real.exp (row u) := by
  simp only [softmax, Real.exp_sub]
  rw [← Finset.sum_div]
  exact div_div_div_cancel_right₀ (Real.exp_pos _).ne' _ _

theorem softmax_congr {E : ℝ → ℝ} {n : Nat} {row row' : Nat → ℝ} (h : ∀ t < n, row t = row' t) {t : Nat} (ht : t < n) :
    softmax E n row t = softmax E n row' t := by
  have e : (List.range n).map row = (List.range n).map row' :=
    List.map_congr_left fun u hu => h u (List.mem_range.1 hu)
  simp only [softmax, e, h t ht]
  congr 1
  exact Finset.sum_congr rfl fun u hu => by rw [h u (Finset.mem_range.1 hu)]

theorem softmax_underflow {E : ℝ → ℝ} {T : ℝ} (hT : Underflow E T) {n : Nat} {row : Nat → ℝ} {t u : Nat} (hu : u < n)
    (h : row t + T ≤ row u) : softmax E n row t = 0 := by
  have : row u ≤ rowMax ((List.range n).map row) := le_rowMax _ _ (List.mem_map.2 ⟨u, List.mem_range.2 hu, rfl⟩)
  simp only [softmax, hT (row t - rowMax ((List.range n).map row)) (by linarith), zero_div]

theorem real_isExp : IsExp Real.exp := ⟨Real.exp_zero, fun x => (Real.exp_pos x).le⟩

/-- An exponential that underflows. -/
noncomputable def flushExp (T x : ℝ) : ℝ := if x ≤ -T then 0 else Real.exp x

theorem flushExp_isExp {T : ℝ} (hT : 0 < T) : IsExp (flushExp T) := by
  refine ⟨?_, fun x => ?_⟩
  · rw [flushExp, if_neg (by linarith), Real.exp_zero]
  · rw [flushExp]
    split
    · exact le_refl _
    · exact (Real.exp_pos x).le

theorem flushExp_underflow (T : ℝ) : Underflow (flushExp T) T := fun x hx => by rw [flushExp, if_pos hx]

/-! ## One head -/

theorem logits_eq (query key : Mat) (s t : Nat) : logits query key s t = score query key s t := by
  simp only [logits, score, Finset.sum_div]
  exact Finset.sum_congr rfl fun d _ => by ring

theorem applyMask_eq {M : ℝ} {query key : Mat} {mask : Option Mask} (hm : MaskOk query.rows key.rows mask) :
    applyMask M query.rows key.rows mask (logits query key) = .ok (maskedScore M query key (Visible mask)) := by
  cases mask with
  | none =>
    simp only [applyMask, Except.ok.injEq]
    funext s t
    simp [maskedScore, Visible, logits_eq]
  | some m =>
    simp only [MaskOk] at hm
    simp only [applyMask, hm, ne_eq, not_true_eq_false, if_false, Except.ok.injEq]
    funext s t
    simp only [maskedScore, Visible, logits_eq]
    rfl

theorem weights_eq (E : ℝ → ℝ) (M : ℝ) {query key : Mat} (hd : query.cols = key.cols) {mask : Option Mask}
    (hm : MaskOk query.rows key.rows mask) :
    attentionWeights E M query key mask = .ok ⟨query.rows, key.rows, fun s => softmax E key.rows (maskedScore M query key (Visible mask) s)⟩ := by
  simp only [attentionWeights, applyMask_eq hm, bind, Except.bind]
  rw [if_neg (by simpa using hd)]
  rfl

/-- The result of attention without dropout. -/
noncomputable def result (E : ℝ → ℝ) (M : ℝ) (query key value : Mat) (vis : Nat → Nat → Bool) (s c : Nat) : ℝ :=
  ∑ t ∈ Finset.range key.rows, softmax E key.rows (maskedScore M query key vis s) t * value.val t c

theorem attention_eq {Key : Type} (bern : Bernoulli Key) (E : ℝ → ℝ) (M : ℝ) {query key value : Mat} (hd : query.cols = key.cols)
    (hv : key.rows = value.rows) {mask : Option Mask} (hm : MaskOk query.rows key.rows mask) (rng : Option Key) (inference : Option Bool) :
    dotProductAttention bern E M query key value mask none rng inference =
      .ok ⟨query.rows, value.cols, result E M query key value (Visible mask)⟩ := by
  simp only [dotProductAttention, weights_eq E M hd hm, bind, Except.bind, pure, Except.pure]
  rw [if_neg (by simpa using hv)]
  simp only [← hv]
  rfl

/-- Attention is `softmax(Q Kᵀ / √d) V`. -/
theorem attention_formula {Key : Type} (bern : Bernoulli Key) (M : ℝ) {query key value : Mat} (hd : query.cols = key.cols)
    (hv : key.rows = value.rows) {mask : Option Mask} (hm : MaskOk query.rows key.rows mask) (rng : Option Key) (inference : Option Bool) :
    dotProductAttention bern Real.exp M query key value mask none rng inference =
      .ok ⟨query.rows, value.cols, idealAttention M query key value (Visible mask)⟩ := by
  rw [attention_eq bern Real.exp M hd hv hm]
  congr 2
  funext s c
  simp only [result, idealAttention, softmax_exp]

/-- Every row of the output is a convex combination of the rows of the value array. -/
theorem attention_convex {Key : Type} (bern : Bernoulli Key) {E : ℝ → ℝ} (hE : IsExp E) (M : ℝ) {query key value : Mat}
    (hd : query.cols = key.cols) (hv : key.rows = value.rows) (hk : 0 < key.rows) {mask : Option Mask}
    (hm : MaskOk query.rows key.rows mask) (rng : Option Key) (inference : Option Bool) :
    ∃ out, dotProductAttention bern E M query key value mask none rng inference = .ok out ∧
      ∀ s, ∃ w : Nat → ℝ, (∀ t, 0 ≤ w t) ∧ ∑ t ∈ Finset.range value.rows, w t = 1 ∧
        ∀ c, out.val s c = ∑ t ∈ Finset.range value.rows, w t * value.val t c := by
  refine ⟨_, attention_eq bern E M hd hv hm rng inference, fun s => ?_⟩
  refine ⟨softmax E key.rows (maskedScore M query key (Visible mask) s), fun t => softmax_nonneg hE _ _ _, ?_, fun c => ?_⟩
  · rw [← hv]; exact softmax_sum hE hk _
  · rw [← hv]; rfl

/-- The weights of a query do not depend on the keys it may not look at, whatever the exponential. -/
theorem masked_key_irrelevant (E : ℝ → ℝ) (M : ℝ) {query key key' : Mat} (hd : query.cols = key.cols) (hd' : key'.cols = key.cols)
    (hr : key'.rows = key.rows) {mask : Option Mask} (hm : MaskOk query.rows key.rows mask) (s : Nat)
    (h : ∀ t < key.rows, Visible mask s t = true → ∀ d, key'.val t d = key.val t d) :
    ∃ w w', attentionWeights E M query key mask = .ok w ∧ attentionWeights E M query key' mask = .ok w' ∧
      ∀ t < key.rows, w'.val s t = w.val s t := by
  refine ⟨_, _, weights_eq E M hd hm, weights_eq E M (by rw [hd, hd']) (by rw [hr]; exact hm), fun t ht => ?_⟩
  simp only [hr]
  refine softmax_congr (fun u hu => ?_) ht
  simp only [maskedScore]
  split
  · rename_i hvis
    simp only [score, h u hu hvis]
  · rfl

theorem result_congr {E : ℝ → ℝ} {T M : ℝ} (hT : Underflow E T) {query key key' value value' : Mat}
    (hr : key'.rows = key.rows) {vis : Nat → Nat → Bool} (s : Nat)
    (hk : ∀ t < key.rows, vis s t = true → ∀ d, key'.val t d = key.val t d)
    (hv : ∀ t < key.rows, vis s t = true → ∀ c, value'.val t c = value.val t c)
    (hu : ∃ u < key.rows, vis s u = true ∧ M + T ≤ score query key s u) (c : Nat) :
    result E M query key' value' vis s c = result E M query key value vis s c := by
  have hms : ∀ u < key.rows, maskedScore M query key' vis s u = maskedScore M query key vis s u := by
    intro u hu
    simp only [maskedScore]
    split
    · rename_i hvis
      simp only [score, hk u hu hvis]
    · rfl
  simp only [result, hr]
  refine Finset.sum_congr rfl fun t ht => ?_
  have ht := Finset.mem_range.1 ht
  rw [softmax_congr hms ht]
  cases hvis : vis s t with
  | true => rw [hv t ht hvis]
  | false =>
    obtain ⟨u, hu, hvu, hle⟩ := hu
    have : softmax E key.rows (maskedScore M query key vis s) t = 0 := by
      refine softmax_underflow hT hu ?_
      simp only [maskedScore, hvis, hvu, Bool.false_eq_true, if_false, if_true]
      exact hle
    rw [this, zero_mul, zero_mul]

/-- With an exponential that underflows, changing keys and values a query may not look at does not change its output at
all. One position has to be visible, with a score that is not itself at the very bottom of the number range. -/
theorem masked_position_irrelevant {Key : Type} (bern : Bernoulli Key) {E : ℝ → ℝ} {T M : ℝ} (hT : Underflow E T)
    {query key key' value value' : Mat} (hd : query.cols = key.cols) (hrv : key.rows = value.rows) (hd' : key'.cols = key.cols)
    (hr : key'.rows = key.rows) (hrv' : value'.rows = value.rows) {mask : Option Mask}
    (hm : MaskOk query.rows key.rows mask) (s : Nat)
    (hk : ∀ t < key.rows, Visible mask s t = true → ∀ d, key'.val t d = key.val t d)
    (hv : ∀ t < key.rows, Visible mask s t = true → ∀ c, value'.val t c = value.val t c)
    (hu : ∃ u < key.rows, Visible mask s u = true ∧ M + T ≤ score query key s u) (rng : Option Key) (inference : Option Bool) :
    ∃ out out', dotProductAttention bern E M query key value mask none rng inference = .ok out ∧
      dotProductAttention bern E M query key' value' mask none rng inference = .ok out' ∧
      ∀ c, out'.val s c = out.val s c :=
  ⟨_, _, attention_eq bern E M hd hrv hm rng inference,
    attention_eq bern E M (by rw [hd, hd']) (by rw [hr, hrv', hrv]) (by rw [hr]; exact hm) rng inference,
    fun c => result_congr hT hr s hk hv hu c⟩

/-- With the real exponential the weight of a masked position is at most `exp (M - score)` of any visible one. -/
theorem masked_weight_small (M : ℝ) {query key : Mat} (hd : query.cols = key.cols) {mask : Option Mask}
    (hm : MaskOk query.rows key.rows mask) {s t u : Nat} (ht : Visible mask s t = false) (hu : u < key.rows)
    (hvu : Visible mask s u = true) :
    ∃ w, attentionWeights Real.exp M query key mask = .ok w ∧ w.val s t ≤ Real.exp (M - score query key s u) := by
  refine ⟨_, weights_eq Real.exp M hd hm, ?_⟩
  simp only [softmax_exp]
  have h1 : maskedScore M query key (Visible mask) s t = M := by simp [maskedScore, ht]
  have h2 : maskedScore M query key (Visible mask) s u = score query key s u := by simp [maskedScore, hvu]
  rw [h1, Real.exp_sub]
  refine div_le_div_of_nonneg_left (Real.exp_pos _).le (Real.exp_pos _) ?_
  rw [← h2]
  exact Finset.single_le_sum (f := fun u => Real.exp (maskedScore M query key (Visible mask) s u)) (fun _ _ => (Real.exp_pos _).le)
    (Finset.mem_range.2 hu)

open Filter Topology in
/-- As the mask value goes to minus infinity, attention tends to the attention over the visible positions alone. -/
theorem masked_limit {Key : Type} (bern : Bernoulli Key) {query key value : Mat} (hd : query.cols = key.cols)
    (hv : key.rows = value.rows) {mask : Option Mask} (hm : MaskOk query.rows key.rows mask) (rng : Option Key)
    (inference : Option Bool) {s : Nat} (hu : ∃ u < key.rows, Visible mask s u = true) (c : Nat) :
    ∃ out : ℝ → Mat, (∀ M, dotProductAttention bern Real.exp M query key value mask none rng inference = .ok (out M)) ∧
      Tendsto (fun M => (out M).val s c) atBot
        (𝓝 (∑ t ∈ (Finset.range key.rows).filter (fun t => Visible mask s t = true), Real.exp (score query key s t) /
          (∑ u ∈ (Finset.range key.rows).filter (fun t => Visible mask s t = true), Real.exp (score query key s u)) * value.val t c)) := by
  refine ⟨_, fun M => attention_formula bern M hd hv hm rng inference, ?_⟩
  simp only [idealAttention]
  -- the limit of each exponential
  have hlim : ∀ t, Tendsto (fun M => Real.exp (maskedScore M query key (Visible mask) s t)) atBot
      (𝓝 (if Visible mask s t = true then Real.exp (score query key s t) else 0)) := by
    intro t
    simp only [maskedScore]
    split
    · exact tendsto_const_nhds
    · exact Real.tendsto_exp_atBot
  have hsum : Tendsto (fun M => ∑ u ∈ Finset.range key.rows, Real.exp (maskedScore M query key (Visible mask) s u)) atBot
      (𝓝 (∑ u ∈ (Finset.range key.rows).filter (fun t => Visible mask s t = true), Real.exp (score query key s u))) := by
    rw [Finset.sum_filter]
    exact tendsto_finsetSum _ fun u _ => hlim u
  have hpos : (∑ u ∈ (Finset.range key.rows).filter (fun t => Visible mask s t = true), Real.exp (score query key s u)) ≠ 0 := by
    obtain ⟨u, hu, hvu⟩ := hu
    refine (Finset.sum_pos (fun _ _ => Real.exp_pos _) ⟨u, ?_⟩).ne'
    rw [Finset.mem_filter]
    exact ⟨Finset.mem_range.2 hu, hvu⟩
  generalize (∑ u ∈ (Finset.range key.rows).filter (fun t => Visible mask s t = true), Real.exp (score query key s u)) = Z at hsum hpos ⊢
  rw [Finset.sum_filter]
  refine tendsto_finsetSum _ fun t _ => ?_
  have := ((hlim t).div hsum hpos).mul_const (value.val t c)
  have e : (if Visible mask s t = true then Real.exp (score query key s t) else 0) / Z * value.val t c =
      if Visible mask s t = true then Real.exp (score query key s t) / Z * value.val t c else 0 := by
    split <;> simp
  rw [← e]
  exact this

/-- A query that may look at nothing gets the same weight for every position. -/
theorem all_masked_uniform {E : ℝ → ℝ} (hE : IsExp E) (M : ℝ) {query key : Mat} (hd : query.cols = key.cols) {mask : Option Mask}
    (hm : MaskOk query.rows key.rows mask) {s : Nat} (h : ∀ t < key.rows, Visible mask s t = false) {t : Nat} (ht : t < key.rows) :
    ∃ w, attentionWeights E M query key mask = .ok w ∧ w.val s t = 1 / key.rows := by
  refine ⟨_, weights_eq E M hd hm, ?_⟩
  have hrow : ∀ u < key.rows, maskedScore M query key (Visible mask) s u = M := fun u hu => by simp [maskedScore, h u hu]
  have hmax : rowMax ((List.range key.rows).map (maskedScore M query key (Visible mask) s)) = M := by
    obtain ⟨u, hu, e⟩ := exists_max (by omega : 0 < key.rows) (maskedScore M query key (Visible mask) s)
    rw [← e, hrow u hu]
  simp only [softmax, hmax, hrow t ht, sub_self, hE.zero]
  congr 1
  rw [Finset.sum_congr rfl fun u hu => by rw [hrow u (Finset.mem_range.1 hu), sub_self, hE.zero]]
  simp

/-- A mask of the wrong shape raises `ValueError`. -/
theorem mask_shape (E : ℝ → ℝ) (M : ℝ) (query key : Mat) (mask : Option Mask) (h : ¬ MaskOk query.rows key.rows mask) :
    attentionWeights E M query key mask = .error .valueError := by
  cases mask with
  | none => exact absurd trivial h
  | some m =>
    simp only [MaskOk] at h
    simp only [attentionWeights, applyMask, bind, Except.bind]
    split
    · rfl
    · simp [h, pure, Except.pure]

end Attention
end Verif
