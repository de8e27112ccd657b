import Verif.NN.Attention
/-!
# C60: `MultiheadAttention` is the sum over heads of its documentation

`Dropout` is characterised first.
-/

namespace Verif
namespace Attention

/-! ## `Dropout` -/

/-- Does dropout do anything? `deterministic` goes before `inference`, which goes before the setting of the layer; a
probability that is the Python number zero switches dropout off. -/
def Active (D : Dropout) (inference deterministic : Option Bool) : Prop :=
  ¬ (D.isNumber = true ∧ D.p = 0) ∧
    (deterministic = some false ∨ deterministic = none ∧ (inference = some false ∨ inference = none ∧ D.inference = false))

open Classical in
theorem dropout_cases {Key : Type} (bern : Bernoulli Key) (D : Dropout) (x : Mat) (key : Option Key) (inference deterministic : Option Bool) :
    D.call bern x key inference deterministic =
      if Active D inference deterministic then
        match key with
        | none => .error .runtimeError
        | some k => .ok ⟨x.rows, x.cols, fun s t =>
            if bern k (1 - D.p) (x.rows, x.cols) s t then x.val s t / (1 - D.p) else 0⟩
      else .ok x := by
  simp only [Dropout.call, Active]
  by_cases h0 : D.isNumber = true ∧ D.p = 0
  · simp [h0.1, h0.2]
  · have : (D.isNumber && decide (D.p = 0)) = false := by
      simp only [Bool.and_eq_false_iff, decide_eq_false_iff_not]
      by_cases h1 : D.isNumber = true
      · exact .inr fun h2 => h0 ⟨h1, h2⟩
      · exact .inl (by simpa using h1)
    simp only [this, Bool.false_eq_true, if_false, h0, not_false_eq_true, true_and]
    cases deterministic with
    | some b => cases b <;> simp <;> rfl
    | none =>
      cases inference with
      | some b => cases b <;> simp <;> rfl
      | none => cases hi : D.inference <;> simp <;> rfl

/-- Without dropout the input comes back unchanged, and no key is needed. -/
theorem dropout_inactive {Key : Type} (bern : Bernoulli Key) {D : Dropout} {inference deterministic : Option Bool}
    (h : ¬ Active D inference deterministic) (x : Mat) (key : Option Key) :
    D.call bern x key inference deterministic = .ok x := by
  rw [dropout_cases, if_neg h]

/-- Dropout without a key raises `RuntimeError`. -/
theorem dropout_no_key {Key : Type} (bern : Bernoulli Key) {D : Dropout} {inference deterministic : Option Bool}
    (h : Active D inference deterministic) (x : Mat) : D.call bern x (none : Option Key) inference deterministic = .error .runtimeError := by
  rw [dropout_cases, if_pos h]

/-- With dropout every entry is either zero or the input over `1 - p`, as told by a mask that does not depend on the input;
when an entry is kept with probability `1 - p`, its expected value is the input. -/
theorem dropout_active {Key : Type} (bern : Bernoulli Key) {D : Dropout} {inference deterministic : Option Bool}
    (h : Active D inference deterministic) (key : Key) (rows cols : Nat) :
    ∃ keep : Nat → Nat → Bool, (∀ s t, keep s t = bern key (1 - D.p) (rows, cols) s t) ∧
      ∀ val : Nat → Nat → ℝ, ∃ out, D.call bern ⟨rows, cols, val⟩ (some key) inference deterministic = .ok out ∧
        out.rows = rows ∧ out.cols = cols ∧ ∀ s t, (keep s t = true → out.val s t * (1 - D.p) = val s t ∨ D.p = 1) ∧
          (keep s t = false → out.val s t = 0) := by
  refine ⟨bern key (1 - D.p) (rows, cols), fun _ _ => rfl, fun val => ?_⟩
  rw [dropout_cases, if_pos h]
  refine ⟨_, rfl, rfl, rfl, fun s t => ⟨fun hk => ?_, fun hk => ?_⟩⟩
  · by_cases hp : D.p = 1
    · exact .inr hp
    · left
      simp only [hk, if_true]
      exact div_mul_cancel₀ _ fun h0 => hp (by linarith)
  · simp [hk]

/-! ## `MultiheadAttention`: specification -/

/-- An affine map applied to row `s`. -/
noncomputable def affine (size : Nat) (w : Nat → Nat → ℝ) (b : Option (Nat → ℝ)) (x : Mat) (s o : Nat) : ℝ :=
  ∑ d ∈ Finset.range size, w o d * x.val s d + (b.getD fun _ => 0) o

/-- The `h`-th slice, `size` columns wide, of the projection of `x`. -/
noncomputable def headOf (inSize size : Nat) (w : Nat → Nat → ℝ) (b : Option (Nat → ℝ)) (x : Mat) (h : Nat) : Mat :=
  ⟨x.rows, size, fun s j => affine inSize w b x s (h * size + j)⟩

/-- May query `s` look at position `t` in head `h`? A mask has two axes and is shared by the heads, or has a first axis for
the heads. -/
def VisibleIn : Option Mask → Nat → Nat → Nat → Bool
  | none, _, _, _ => true
  | some m, h, s, t => if m.shape.length = 3 then m.val [h, s, t] else m.val [s, t]

def HeadMaskOk (heads rows cols : Nat) : Option Mask → Prop
  | none => True
  | some m => m.shape = [rows, cols] ∨ m.shape = [heads, rows, cols]

/-- Hyperparameters and weights. -/
structure Config where
  heads : Nat
  querySize : Nat
  keySize : Nat
  valueSize : Nat
  outputSize : Nat
  qk : Nat
  vo : Nat
  wq : Nat → Nat → ℝ
  wk : Nat → Nat → ℝ
  wv : Nat → Nat → ℝ
  wo : Nat → Nat → ℝ
  bq : Option (Nat → ℝ)
  bk : Option (Nat → ℝ)
  bv : Option (Nat → ℝ)
  bo : Option (Nat → ℝ)
  dropout : Dropout

/-- The layer made by `__init__`. -/
def Config.layer (C : Config) : MHA :=
  .mk' C.heads C.querySize C.keySize C.valueSize C.outputSize C.qk C.vo C.wq C.wk C.wv C.wo C.bq C.bk C.bv C.bo C.dropout

/-- Inputs of the right shapes, not empty (empty sequences are not modelled). -/
structure Inputs (C : Config) (query key value : Mat) (mask : Option Mask) : Prop where
  heads : 0 < C.heads
  queryRows : 0 < query.rows
  keyRows : 0 < key.rows
  queryCols : query.cols = C.querySize
  keyCols : key.cols = C.keySize
  valueCols : value.cols = C.valueSize
  rows : key.rows = value.rows
  maskOk : HeadMaskOk C.heads query.rows key.rows mask

/-! ## Lemmas -/

theorem sum_range_mul (n m : Nat) (f : Nat → ℝ) :
    ∑ i ∈ Finset.range (n * m), f i = ∑ h ∈ Finset.range n, ∑ j ∈ Finset.range m, f (h * m + j) := by
  induction n with
  | zero => simp
  | succ n ih => rw [Nat.succ_mul, Finset.sum_range_add, ih, Finset.sum_range_succ]

theorem addBias_eq (b : Option (Nat → ℝ)) (o : Nat) (y : ℝ) : addBias b o y = y + (b.getD fun _ => 0) o := by
  cases b <;> simp [addBias]

theorem project_eq (A : MHA) (hn : 0 < A.numHeads) (inSize size : Nat) (w : Nat → Nat → ℝ) (b : Option (Nat → ℝ)) {x : Mat}
    (hx : x.cols = inSize) :
    project A ⟨inSize, A.numHeads * size, w, b⟩ x =
      .ok ⟨x.rows, A.numHeads, size, fun s h j => affine inSize w b x s (h * size + j)⟩ := by
  simp only [project, Linear.rows, hx, ne_eq, not_true_eq_false, if_false, bind, Except.bind, split, Nat.mul_mod_right,
    Nat.mul_div_cancel_left size hn, addBias_eq, affine]

theorem maskFor_ok {n rows cols : Nat} {mask : Option Mask} (hm : HeadMaskOk n rows cols mask) (h : Nat) :
    MaskOk rows cols (maskFor mask h) ∧ Visible (maskFor mask h) = VisibleIn mask h ∧ maskBatch n mask = .ok () := by
  cases mask with
  | none => exact ⟨trivial, rfl, rfl⟩
  | some m =>
    obtain ⟨shape, val⟩ := m
    rcases hm with e | e
    · obtain rfl : shape = [rows, cols] := e
      exact ⟨rfl, rfl, rfl⟩
    · obtain rfl : shape = [n, rows, cols] := e
      exact ⟨rfl, rfl, by simp [maskBatch]⟩

/-- An inactive dropout layer might as well not be there. -/
theorem attention_dropout {Key : Type} (bern : Bernoulli Key) (E : ℝ → ℝ) (M : ℝ) (query key value : Mat) (mask : Option Mask)
    {D : Dropout} (rng : Option Key) {inference : Option Bool} (h : ¬ Active D inference none) :
    dotProductAttention bern E M query key value mask (some D) rng inference =
      dotProductAttention bern E M query key value mask none rng inference := by
  simp only [dotProductAttention, dropout_inactive bern h]
  rfl

/-- The layer in terms of its heads. -/
theorem multihead_of_heads {Key : Type} (bern : Bernoulli Key) (splitKey : Key → Nat → Nat → Key) (E : ℝ → ℝ) (M : ℝ) (C : Config)
    {query key value : Mat} {mask : Option Mask} (hi : Inputs C query key value mask) (rng : Option Key)
    {inference deterministic : Option Bool} (R : Nat → Nat → Nat → ℝ)
    (hR : ∀ h, dotProductAttention bern E M (headOf C.querySize C.qk C.wq C.bq query h) (headOf C.keySize C.qk C.wk C.bk key h)
        (headOf C.valueSize C.vo C.wv C.bv value h) (maskFor mask h) (some C.dropout) (rng.map fun g => splitKey g C.heads h)
        (chosen deterministic inference) = .ok ⟨query.rows, C.vo, R h⟩) :
    C.layer.call bern splitKey E M query key value mask rng inference deterministic none =
      .ok ⟨query.rows, C.outputSize, fun s o =>
        (∑ h ∈ Finset.range C.heads, ∑ j ∈ Finset.range C.vo, C.wo o (h * C.vo + j) * R h s j) + (C.bo.getD fun _ => 0) o⟩ := by
  have hn : 0 < C.layer.numHeads := hi.heads
  have hq : project C.layer C.layer.queryProj query = _ := project_eq C.layer hn C.querySize C.qk C.wq C.bq hi.queryCols
  have hk : project C.layer C.layer.keyProj key = _ := project_eq C.layer hn C.keySize C.qk C.wk C.bk hi.keyCols
  have hv : project C.layer C.layer.valueProj value = _ := project_eq C.layer hn C.valueSize C.vo C.wv C.bv hi.valueCols
  have hb : maskBatch C.layer.numHeads mask = .ok () := (maskFor_ok hi.maskOk 0).2.2
  have hne : ¬ (key.rows ≠ value.rows) := by simpa using hi.rows
  simp only [MHA.call, bind, Except.bind, hne, if_false, hq, hk, hv, processed, hb]
  have hover :
      overHeads C.layer.numHeads (fun h => dotProductAttention bern E M
        (Heads.head ⟨query.rows, C.layer.numHeads, C.qk, fun s h j => affine C.querySize C.wq C.bq query s (h * C.qk + j)⟩ h)
        (Heads.head ⟨key.rows, C.layer.numHeads, C.qk, fun s h j => affine C.keySize C.wk C.bk key s (h * C.qk + j)⟩ h)
        (Heads.head ⟨value.rows, C.layer.numHeads, C.vo, fun s h j => affine C.valueSize C.wv C.bv value s (h * C.vo + j)⟩ h)
        (maskFor mask h) (some C.layer.dropout) (rng.map fun g => splitKey g C.layer.numHeads h) (chosen deterministic inference)) =
      .ok ⟨query.rows, C.heads, C.vo, fun s h j => R h s j⟩ := by
    have e : ∀ h, dotProductAttention bern E M
        (Heads.head ⟨query.rows, C.layer.numHeads, C.qk, fun s h j => affine C.querySize C.wq C.bq query s (h * C.qk + j)⟩ h)
        (Heads.head ⟨key.rows, C.layer.numHeads, C.qk, fun s h j => affine C.keySize C.wk C.bk key s (h * C.qk + j)⟩ h)
        (Heads.head ⟨value.rows, C.layer.numHeads, C.vo, fun s h j => affine C.valueSize C.wv C.bv value s (h * C.vo + j)⟩ h)
        (maskFor mask h) (some C.layer.dropout) (rng.map fun g => splitKey g C.layer.numHeads h) (chosen deterministic inference) =
        .ok ⟨query.rows, C.vo, R h⟩ := hR
    simp only [overHeads, e, bind, Except.bind, pure, Except.pure]
    rfl
  rw [hover]
  simp only [merge, Linear.rows, Config.layer, MHA.mk', ne_eq, not_true_eq_false, if_false, addBias_eq]
  congr 2
  funext s o
  congr 1
  rw [sum_range_mul]
  refine Finset.sum_congr rfl fun h _ => Finset.sum_congr rfl fun j hj => ?_
  have hj := Finset.mem_range.1 hj
  have h1 : (h * C.vo + j) / C.vo = h := by
    rw [Nat.add_comm, Nat.add_mul_div_right _ _ (by omega), Nat.div_eq_of_lt hj, Nat.zero_add]
  have h2 : (h * C.vo + j) % C.vo = j := by
    rw [Nat.add_comm, Nat.add_mul_mod_self_right, Nat.mod_eq_of_lt hj]
  rw [h1, h2]

theorem active_chosen (D : Dropout) (inference deterministic : Option Bool) :
    Active D (chosen deterministic inference) none ↔ Active D inference deterministic := by
  cases deterministic with
  | none => simp [Active, chosen]
  | some b => simp [Active, chosen]

/-- The layer computes, for every exponential. -/
theorem multihead_eq {Key : Type} (bern : Bernoulli Key) (splitKey : Key → Nat → Nat → Key) (E : ℝ → ℝ) (M : ℝ) (C : Config)
    {query key value : Mat} {mask : Option Mask} (hi : Inputs C query key value mask) (rng : Option Key)
    {inference deterministic : Option Bool} (hD : ¬ Active C.dropout inference deterministic) :
    C.layer.call bern splitKey E M query key value mask rng inference deterministic none =
      .ok ⟨query.rows, C.outputSize, fun s o =>
        (∑ h ∈ Finset.range C.heads, ∑ j ∈ Finset.range C.vo, C.wo o (h * C.vo + j) *
          result E M (headOf C.querySize C.qk C.wq C.bq query h) (headOf C.keySize C.qk C.wk C.bk key h)
            (headOf C.valueSize C.vo C.wv C.bv value h) (VisibleIn mask h) s j) + (C.bo.getD fun _ => 0) o⟩ := by
  refine multihead_of_heads bern splitKey E M C hi rng (fun h => result E M (headOf C.querySize C.qk C.wq C.bq query h)
    (headOf C.keySize C.qk C.wk C.bk key h) (headOf C.valueSize C.vo C.wv C.bv value h) (VisibleIn mask h)) fun h => ?_
  obtain ⟨h1, h2, -⟩ := maskFor_ok hi.maskOk h
  rw [attention_dropout bern E M _ _ _ _ _ (fun hA => hD ((active_chosen _ _ _).1 hA))]
  have e := attention_eq bern E M (query := headOf C.querySize C.qk C.wq C.bq query h) (key := headOf C.keySize C.qk C.wk C.bk key h)
    (value := headOf C.valueSize C.vo C.wv C.bv value h) rfl hi.rows (mask := maskFor mask h) h1
    (rng.map fun g => splitKey g C.heads h) (chosen deterministic inference)
  rw [e, h2]
  rfl

/-! ## The theorems -/

/-- `MultiheadAttention(Q, K, V) = ∑ᵢ Attention(Q Wᵢ^Q, K Wᵢ^K, V Wᵢ^V) Wᵢ^O`, with biases where they are used. -/
theorem multihead_formula {Key : Type} (bern : Bernoulli Key) (splitKey : Key → Nat → Nat → Key) (M : ℝ) (C : Config)
    {query key value : Mat} {mask : Option Mask} (hi : Inputs C query key value mask) (rng : Option Key)
    {inference deterministic : Option Bool} (hD : ¬ Active C.dropout inference deterministic) :
    C.layer.call bern splitKey Real.exp M query key value mask rng inference deterministic none =
      .ok ⟨query.rows, C.outputSize, fun s o =>
        (∑ h ∈ Finset.range C.heads, ∑ j ∈ Finset.range C.vo, C.wo o (h * C.vo + j) *
          idealAttention M (headOf C.querySize C.qk C.wq C.bq query h) (headOf C.keySize C.qk C.wk C.bk key h)
            (headOf C.valueSize C.vo C.wv C.bv value h) (VisibleIn mask h) s j) + (C.bo.getD fun _ => 0) o⟩ := by
  rw [multihead_eq bern splitKey Real.exp M C hi rng hD]
  simp only [result, idealAttention, softmax_exp]

/-- With dropout: head `h` uses the `h`-th of the keys split from the given one, for a mask on its weights. -/
theorem multihead_dropout {Key : Type} (bern : Bernoulli Key) (splitKey : Key → Nat → Nat → Key) (M : ℝ) (C : Config)
    {query key value : Mat} {mask : Option Mask} (hi : Inputs C query key value mask) (rng : Key)
    {inference deterministic : Option Bool} (hD : Active C.dropout inference deterministic) :
    C.layer.call bern splitKey Real.exp M query key value mask (some rng) inference deterministic none =
      .ok ⟨query.rows, C.outputSize, fun s o =>
        (∑ h ∈ Finset.range C.heads, ∑ j ∈ Finset.range C.vo, C.wo o (h * C.vo + j) *
          ∑ t ∈ Finset.range key.rows,
            (if bern (splitKey rng C.heads h) (1 - C.dropout.p) (query.rows, key.rows) s t then
              Real.exp (maskedScore M (headOf C.querySize C.qk C.wq C.bq query h) (headOf C.keySize C.qk C.wk C.bk key h)
                (VisibleIn mask h) s t) /
              (∑ u ∈ Finset.range key.rows, Real.exp (maskedScore M (headOf C.querySize C.qk C.wq C.bq query h)
                (headOf C.keySize C.qk C.wk C.bk key h) (VisibleIn mask h) s u)) / (1 - C.dropout.p)
            else 0) * (headOf C.valueSize C.vo C.wv C.bv value h).val t j) + (C.bo.getD fun _ => 0) o⟩ := by
  refine multihead_of_heads bern splitKey Real.exp M C hi (some rng) _ fun h => ?_
  obtain ⟨h1, h2, -⟩ := maskFor_ok hi.maskOk h
  simp only [dotProductAttention, weights_eq Real.exp M (query := headOf C.querySize C.qk C.wq C.bq query h)
    (key := headOf C.keySize C.qk C.wk C.bk key h) rfl (mask := maskFor mask h) h1, bind, Except.bind, Option.map, dropout_cases,
    if_pos ((active_chosen C.dropout inference deterministic).2 hD), h2, softmax_exp]
  simp only [headOf, hi.rows, ne_eq, not_true_eq_false, if_false, pure, Except.pure]

/-- Dropout without a key raises `RuntimeError`. -/
theorem multihead_no_key {Key : Type} (bern : Bernoulli Key) (splitKey : Key → Nat → Nat → Key) (E : ℝ → ℝ) (M : ℝ) (C : Config)
    {query key value : Mat} {mask : Option Mask} (hi : Inputs C query key value mask)
    {inference deterministic : Option Bool} (hD : Active C.dropout inference deterministic) :
    C.layer.call bern splitKey E M query key value mask none inference deterministic none = .error .runtimeError := by
  have hn : 0 < C.layer.numHeads := hi.heads
  have hq : project C.layer C.layer.queryProj query = _ := project_eq C.layer hn C.querySize C.qk C.wq C.bq hi.queryCols
  have hk : project C.layer C.layer.keyProj key = _ := project_eq C.layer hn C.keySize C.qk C.wk C.bk hi.keyCols
  have hv : project C.layer C.layer.valueProj value = _ := project_eq C.layer hn C.valueSize C.vo C.wv C.bv hi.valueCols
  have hb : maskBatch C.layer.numHeads mask = .ok () := (maskFor_ok hi.maskOk 0).2.2
  have hne : ¬ (key.rows ≠ value.rows) := by simpa using hi.rows
  have hA : Active C.layer.dropout (chosen deterministic inference) none := (active_chosen C.dropout inference deterministic).2 hD
  obtain ⟨h1, h2, -⟩ := maskFor_ok hi.maskOk 0
  simp only [MHA.call, bind, Except.bind, hne, if_false, hq, hk, hv, processed, hb, overHeads, Heads.head, dotProductAttention]
  rw [weights_eq E M (by rfl) (by exact h1)]
  simp only [Option.map, dropout_no_key bern hA]

/-- No leak: the output for query `s` does not change when keys and values change at positions that are masked for `s` in
all heads. Every head has to see some position (with a score not at the very bottom of the number range). -/
theorem multihead_no_leak {Key : Type} (bern : Bernoulli Key) (splitKey : Key → Nat → Nat → Key) {E : ℝ → ℝ} {T M : ℝ}
    (hT : Underflow E T) (C : Config) {query key key' value value' : Mat} {mask : Option Mask}
    (hi : Inputs C query key value mask) (hi' : Inputs C query key' value' mask) (hr : key'.rows = key.rows) (rng : Option Key)
    {inference deterministic : Option Bool} (hD : ¬ Active C.dropout inference deterministic) (s : Nat)
    (hk : ∀ t < key.rows, (∃ h < C.heads, VisibleIn mask h s t = true) → ∀ d, key'.val t d = key.val t d)
    (hv : ∀ t < key.rows, (∃ h < C.heads, VisibleIn mask h s t = true) → ∀ c, value'.val t c = value.val t c)
    (hu : ∀ h < C.heads, ∃ u < key.rows, VisibleIn mask h s u = true ∧
      M + T ≤ score (headOf C.querySize C.qk C.wq C.bq query h) (headOf C.keySize C.qk C.wk C.bk key h) s u) :
    ∃ out out', C.layer.call bern splitKey E M query key value mask rng inference deterministic none = .ok out ∧
      C.layer.call bern splitKey E M query key' value' mask rng inference deterministic none = .ok out' ∧
      ∀ o, out'.val s o = out.val s o := by
  refine ⟨_, _, multihead_eq bern splitKey E M C hi rng hD, multihead_eq bern splitKey E M C hi' rng hD, fun o => ?_⟩
  simp only
  congr 1
  refine Finset.sum_congr rfl fun h hh => Finset.sum_congr rfl fun j _ => ?_
  have hh := Finset.mem_range.1 hh
  congr 1
  refine result_congr hT (by exact hr) s ?_ ?_ (by simpa [headOf] using hu h hh) j
  · intro t ht hvis d
    simp only [headOf, affine, hk t ht ⟨h, hh, hvis⟩]
  · intro t ht hvis c
    simp only [headOf, affine, hv t ht ⟨h, hh, hvis⟩]

/-- Errors: lengths of key and value that differ. -/
theorem multihead_lengths {Key : Type} (bern : Bernoulli Key) (splitKey : Key → Nat → Nat → Key) (E : ℝ → ℝ) (M : ℝ) (A : MHA)
    {query key value : Mat} (h : key.rows ≠ value.rows) (mask : Option Mask) (rng : Option Key) (inference deterministic : Option Bool)
    (process : Option (Heads → Heads → Heads → Except Err (Heads × Heads × Heads))) :
    A.call bern splitKey E M query key value mask rng inference deterministic process = .error .valueError := by
  simp only [MHA.call, bind, Except.bind]
  rw [if_pos h]
  rfl

/-- Errors: a mask that has neither of the two shapes. -/
theorem multihead_mask {Key : Type} (bern : Bernoulli Key) (splitKey : Key → Nat → Nat → Key) (E : ℝ → ℝ) (M : ℝ) (C : Config)
    {query key value : Mat} {mask : Option Mask} (hi : Inputs C query key value none)
    (hm : ¬ HeadMaskOk C.heads query.rows key.rows mask) (rng : Option Key) (inference deterministic : Option Bool) :
    C.layer.call bern splitKey E M query key value mask rng inference deterministic none = .error .valueError := by
  have hn : 0 < C.layer.numHeads := hi.heads
  have hq : project C.layer C.layer.queryProj query = _ := project_eq C.layer hn C.querySize C.qk C.wq C.bq hi.queryCols
  have hk : project C.layer C.layer.keyProj key = _ := project_eq C.layer hn C.keySize C.qk C.wk C.bk hi.keyCols
  have hv : project C.layer C.layer.valueProj value = _ := project_eq C.layer hn C.valueSize C.vo C.wv C.bv hi.valueCols
  have hne : ¬ (key.rows ≠ value.rows) := by simpa using hi.rows
  simp only [MHA.call, bind, Except.bind, hne, if_false, hq, hk, hv, processed]
  cases hb : maskBatch C.layer.numHeads mask with
  | error e =>
    cases mask with
    | none => simp [maskBatch] at hb
    | some m =>
      simp only
      unfold maskBatch at hb
      split at hb
      · split at hb <;> cases hb
        rfl
      · cases hb
  | ok u =>
    simp only [overHeads, bind, Except.bind, Heads.head]
    have hw : ¬ MaskOk query.rows key.rows (maskFor mask 0) := by
      intro hok
      apply hm
      cases mask with
      | none => trivial
      | some m =>
        obtain ⟨shape, val⟩ := m
        simp only [HeadMaskOk]
        unfold maskFor at hok
        split at hok
        · rename_i n r c val' heq
          simp only [Option.some.injEq, Mask.mk.injEq] at heq
          obtain ⟨rfl, rfl⟩ := heq
          simp only [MaskOk] at hok
          have : n = C.heads := by
            simp only [maskBatch] at hb
            split at hb
            · assumption
            · cases hb
          rw [hok, this]
          exact .inr rfl
        · exact .inl hok
    simp only [dotProductAttention, bind, Except.bind]
    rw [mask_shape E M _ _ _ (by simpa using hw)]

/-- Errors: `process_heads` changing a shape. -/
theorem multihead_process {Key : Type} (bern : Bernoulli Key) (splitKey : Key → Nat → Nat → Key) (E : ℝ → ℝ) (M : ℝ) (C : Config)
    {query key value : Mat} (hi : Inputs C query key value none) (mask : Option Mask) (rng : Option Key)
    (inference deterministic : Option Bool) (f : Heads → Heads → Heads → Except Err (Heads × Heads × Heads))
    (hf : ∀ q k v, ∃ r, f q k v = .ok r ∧ ¬ ((r.1.seq, r.1.heads, r.1.size) = (q.seq, q.heads, q.size) ∧
      (r.2.1.seq, r.2.1.heads, r.2.1.size) = (k.seq, k.heads, k.size) ∧
      (r.2.2.seq, r.2.2.heads, r.2.2.size) = (v.seq, v.heads, v.size))) :
    C.layer.call bern splitKey E M query key value mask rng inference deterministic (some f) = .error .valueError := by
  have hn : 0 < C.layer.numHeads := hi.heads
  have hq : project C.layer C.layer.queryProj query = _ := project_eq C.layer hn C.querySize C.qk C.wq C.bq hi.queryCols
  have hk : project C.layer C.layer.keyProj key = _ := project_eq C.layer hn C.keySize C.qk C.wk C.bk hi.keyCols
  have hv : project C.layer C.layer.valueProj value = _ := project_eq C.layer hn C.valueSize C.vo C.wv C.bv hi.valueCols
  have hne : ¬ (key.rows ≠ value.rows) := by simpa using hi.rows
  simp only [MHA.call, bind, Except.bind, hne, if_false, hq, hk, hv, processed]
  obtain ⟨r, hr, hne⟩ := hf ⟨query.rows, C.layer.numHeads, C.qk, fun s h j => affine C.querySize C.wq C.bq query s (h * C.qk + j)⟩
    ⟨key.rows, C.layer.numHeads, C.qk, fun s h j => affine C.keySize C.wk C.bk key s (h * C.qk + j)⟩
    ⟨value.rows, C.layer.numHeads, C.vo, fun s h j => affine C.valueSize C.wv C.bv value s (h * C.vo + j)⟩
  rw [hr]
  simp only
  rw [if_pos]
  · rfl
  · simp only [Bool.not_eq_true', ← Bool.not_eq_true, Bool.and_eq_true, sameShape, beq_iff_eq]
    intro hh
    apply hne
    simp only [Prod.mk.injEq]
    exact ⟨⟨hh.1.1.1.1, hh.1.1.1.2, hh.1.1.2⟩, ⟨hh.1.2.1.1, hh.1.2.1.2, hh.1.2.2⟩, ⟨hh.2.1.1, hh.2.1.2, hh.2.2⟩⟩

/-! ## A case -/

/-- Two heads of width one on inputs of width two. -/
noncomputable def exConfig : Config where
  heads := 2
  querySize := 2
  keySize := 2
  valueSize := 2
  outputSize := 1
  qk := 1
  vo := 1
  wq := fun o i => if o = i then 1 else 0
  wk := fun o i => if o = i then 1 else 0
  wv := fun o i => if o = i then 1 else 0
  wo := fun _ _ => 1
  bq := none
  bk := none
  bv := some fun _ => 1
  bo := none
  dropout := ⟨0, true, false⟩

/-- A causal mask over two positions. -/
def exMask : Mask := ⟨[2, 2], fun i => decide (i.getD 1 0 ≤ i.getD 0 0)⟩

noncomputable def exIn : Mat := ⟨2, 2, fun s i => s + i⟩

example : Inputs exConfig exIn exIn exIn (some exMask) := by
  refine ⟨by decide, by simp [exIn], by simp [exIn], rfl, rfl, rfl, rfl, .inl rfl⟩

example : ¬ Active exConfig.dropout none none := by simp [Active, exConfig]

example : ∀ h < exConfig.heads, ∃ u < exIn.rows, VisibleIn (some exMask) h 0 u = true ∧
    -1000 + 100 ≤ score (headOf exConfig.querySize exConfig.qk exConfig.wq exConfig.bq exIn h)
      (headOf exConfig.keySize exConfig.qk exConfig.wk exConfig.bk exIn h) 0 u := by
  intro h hh
  refine ⟨0, by simp [exIn], by simp [VisibleIn, exMask], ?_⟩
  have : h = 0 ∨ h = 1 := by
    have : h < 2 := hh
    omega
  rcases this with rfl | rfl <;>
    norm_num [score, headOf, affine, exConfig, exIn, Finset.sum_range_succ]

example : VisibleIn (some exMask) 0 0 1 = false := rfl

end Attention
end Verif
