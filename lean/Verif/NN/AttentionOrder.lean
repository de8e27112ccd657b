import Verif.NN.MultiHead
import Mathlib.Logic.Equiv.Basic
/-!
# C124: attention and the order of positions

Consequences for `MultiheadAttention.__call__` (`equinox/nn/_attention.py:239-346`) in terms of its inputs and outputs only: the order of keys and values does not
matter, outputs follow their queries, and positions that a query may not look at can be left out, which is what incremental decoding rests on.
-/

namespace Verif.Attention.Order

open Verif.Attention

/-! ## Specification -/

/-- The rows of `x` in another order (or with repetitions). -/
def reorder (r : Nat → Nat) (x : Mat) : Mat := ⟨x.rows, x.cols, fun s d => x.val (r s) d⟩

/-- The first `n` rows of `x`. -/
def firstRows (n : Nat) (x : Mat) : Mat := ⟨n, x.cols, x.val⟩

/-- `σ` permutes the first `n` numbers. -/
def Permutes (σ : Equiv.Perm Nat) (n : Nat) : Prop := ∀ t, σ t < n ↔ t < n

/-! ## Lemmas -/

theorem rowMax_reorder {n : Nat} {σ : Equiv.Perm Nat} (hσ : Permutes σ n) (row : Nat → ℝ) :
    rowMax ((List.range n).map fun t => row (σ t)) = rowMax ((List.range n).map row) := by
  rcases Nat.eq_zero_or_pos n with rfl | hn
  · simp
  · obtain ⟨u, hu, e⟩ := exists_max hn row
    obtain ⟨u', hu', e'⟩ := exists_max hn fun t => row (σ t)
    refine le_antisymm ?_ ?_
    · rw [← e']
      exact le_rowMax _ _ (List.mem_map.2 ⟨σ u', List.mem_range.2 ((hσ u').2 hu'), rfl⟩)
    · rw [← e]
      refine le_rowMax _ _ (List.mem_map.2 ⟨σ.symm u, List.mem_range.2 ((hσ _).1 ?_), ?_⟩)
      · rwa [Equiv.apply_symm_apply]
      · simp only [Equiv.apply_symm_apply]

theorem sum_reorder {n : Nat} {σ : Equiv.Perm Nat} (hσ : Permutes σ n) (f : Nat → ℝ) :
    ∑ t ∈ Finset.range n, f (σ t) = ∑ t ∈ Finset.range n, f t :=
  Finset.sum_equiv σ (fun t => by simp only [Finset.mem_range, hσ t]) fun _ _ => rfl

theorem softmax_reorder (E : ℝ → ℝ) {n : Nat} {σ : Equiv.Perm Nat} (hσ : Permutes σ n) (row : Nat → ℝ) (t : Nat) :
    softmax E n (fun t => row (σ t)) t = softmax E n row (σ t) := by
  simp only [softmax, rowMax_reorder hσ]
  rw [sum_reorder hσ fun u => E (row u - rowMax ((List.range n).map row))]

theorem headOf_row (inSize size : Nat) (w : Nat → Nat → ℝ) (b : Option (Nat → ℝ)) {x y : Mat} {s t : Nat} (h : ∀ d, x.val s d = y.val t d)
    (i j : Nat) : (headOf inSize size w b x i).val s j = (headOf inSize size w b y i).val t j := by
  simp only [headOf, affine, h]

theorem result_reorder (E : ℝ → ℝ) (M : ℝ) {query key key' value value' : Mat} {vis vis' : Nat → Nat → Bool} {σ : Equiv.Perm Nat}
    (hσ : Permutes σ key.rows) (hr : key'.rows = key.rows) (hk : ∀ t d, key'.val t d = key.val (σ t) d)
    (hv : ∀ t c, value'.val t c = value.val (σ t) c) {s : Nat} (hvis : ∀ t < key.rows, vis' s t = vis s (σ t)) (c : Nat) :
    result E M query key' value' vis' s c = result E M query key value vis s c := by
  have hrow : ∀ t < key.rows, maskedScore M query key' vis' s t = maskedScore M query key vis s (σ t) := by
    intro t ht
    simp only [maskedScore, hvis t ht, score, hk]
  simp only [result, hr]
  rw [← sum_reorder hσ fun t => softmax E key.rows (maskedScore M query key vis s) t * value.val t c]
  refine Finset.sum_congr rfl fun t ht => ?_
  rw [softmax_congr hrow (Finset.mem_range.1 ht), softmax_reorder E hσ (maskedScore M query key vis s), hv]

theorem result_query (E : ℝ → ℝ) (M : ℝ) {query query' key value : Mat} {vis vis' : Nat → Nat → Bool} {s s' : Nat}
    (hc : query'.cols = query.cols) (hq : ∀ d, query'.val s' d = query.val s d) (hvis : ∀ t, vis' s' t = vis s t) (c : Nat) :
    result E M query' key value vis' s' c = result E M query key value vis s c := by
  have hrow : maskedScore M query' key vis' s' = maskedScore M query key vis s := by
    funext t
    simp only [maskedScore, hvis t, score, hq, hc]
  simp only [result, hrow]

/-- A softmax over a longer row whose further entries are far below one of the first. -/
theorem softmax_longer {E : ℝ → ℝ} {T : ℝ} (hT : Underflow E T) (hT0 : 0 ≤ T) {n m : Nat} (hn : n ≤ m) {row : Nat → ℝ} {u : Nat} (hu : u < n)
    (h : ∀ t, n ≤ t → t < m → row t + T ≤ row u) (t : Nat) : softmax E m row t = softmax E n row t := by
  have hmax : rowMax ((List.range m).map row) = rowMax ((List.range n).map row) := by
    have hun : row u ≤ rowMax ((List.range n).map row) := le_rowMax _ _ (List.mem_map.2 ⟨u, List.mem_range.2 hu, rfl⟩)
    obtain ⟨a, ha, ea⟩ := exists_max (n := m) (by omega) row
    obtain ⟨b, hb, eb⟩ := exists_max (n := n) (by omega) row
    refine le_antisymm ?_ ?_
    · rw [← ea]
      by_cases hlt : a < n
      · exact le_rowMax _ _ (List.mem_map.2 ⟨a, List.mem_range.2 hlt, rfl⟩)
      · have := h a (by omega) ha
        linarith
    · rw [← eb]
      exact le_rowMax _ _ (List.mem_map.2 ⟨b, List.mem_range.2 (by omega), rfl⟩)
  simp only [softmax, hmax]
  congr 1
  have hsub : Finset.range n ⊆ Finset.range m := fun x hx => Finset.mem_range.2 (lt_of_lt_of_le (Finset.mem_range.1 hx) hn)
  refine (Finset.sum_subset hsub fun x hx hx' => ?_).symm
  have hxm := Finset.mem_range.1 hx
  have hxn : n ≤ x := by
    by_contra hc
    exact hx' (Finset.mem_range.2 (by omega))
  have hun : row u ≤ rowMax ((List.range n).map row) := le_rowMax _ _ (List.mem_map.2 ⟨u, List.mem_range.2 hu, rfl⟩)
  have := h x hxn hxm
  exact hT _ (by linarith)

theorem result_prefix {E : ℝ → ℝ} {T M : ℝ} (hT : Underflow E T) (hT0 : 0 ≤ T) {query query' key key' value value' : Mat}
    {vis vis' : Nat → Nat → Bool} {s s' : Nat} (hc : query'.cols = query.cols) (hn : key'.rows ≤ key.rows)
    (hq : ∀ d, query'.val s' d = query.val s d) (hk : ∀ t < key'.rows, ∀ d, key'.val t d = key.val t d)
    (hv : ∀ t < key'.rows, ∀ c, value'.val t c = value.val t c) (hvis : ∀ t < key'.rows, vis' s' t = vis s t)
    (hfar : ∀ t, key'.rows ≤ t → t < key.rows → vis s t = false)
    (hu : ∃ u < key'.rows, vis s u = true ∧ M + T ≤ score query key s u) (c : Nat) :
    result E M query' key' value' vis' s' c = result E M query key value vis s c := by
  obtain ⟨u, hu, hvu, hle⟩ := hu
  have hrow : ∀ t < key'.rows, maskedScore M query' key' vis' s' t = maskedScore M query key vis s t := by
    intro t ht
    simp only [maskedScore, hvis t ht, score, hq, hk t ht, hc]
  have hlow : ∀ t, key'.rows ≤ t → t < key.rows → maskedScore M query key vis s t + T ≤ maskedScore M query key vis s u := by
    intro t h1 h2
    simp only [maskedScore, hfar t h1 h2, hvu, Bool.false_eq_true, if_false, if_true]
    exact hle
  simp only [result]
  have hsub : Finset.range key'.rows ⊆ Finset.range key.rows :=
    fun x hx => Finset.mem_range.2 (lt_of_lt_of_le (Finset.mem_range.1 hx) hn)
  rw [← Finset.sum_subset hsub]
  · refine Finset.sum_congr rfl fun t ht => ?_
    have ht := Finset.mem_range.1 ht
    rw [softmax_congr hrow ht, softmax_longer hT hT0 hn hu hlow, hv t ht]
  · intro t ht ht'
    have h1 := Finset.mem_range.1 ht
    have h2 : key'.rows ≤ t := by
      by_contra hcon
      exact ht' (Finset.mem_range.2 (by omega))
    rw [softmax_underflow hT (lt_of_lt_of_le hu hn) (hlow t h2 h1), zero_mul]

/-! ## The claims -/

/-- **C124**, keys and values: if keys and values are put in another order, and the mask too, the output is the same, for every
exponential. -/
theorem keys_unordered {Key : Type} (bern : Bernoulli Key) (splitKey : Key → Nat → Nat → Key) (E : ℝ → ℝ) (M : ℝ) (C : Config)
    {query key value : Mat} {mask mask' : Option Mask} (hi : Inputs C query key value mask) {σ : Equiv.Perm Nat} (hσ : Permutes σ key.rows)
    (hm : HeadMaskOk C.heads query.rows key.rows mask')
    (hvis : ∀ h s t, t < key.rows → VisibleIn mask' h s t = VisibleIn mask h s (σ t)) (rng : Option Key) {inference deterministic : Option Bool}
    (hD : ¬ Active C.dropout inference deterministic) :
    C.layer.call bern splitKey E M query (reorder σ key) (reorder σ value) mask' rng inference deterministic none =
      C.layer.call bern splitKey E M query key value mask rng inference deterministic none := by
  have hi' : Inputs C query (reorder σ key) (reorder σ value) mask' :=
    ⟨hi.heads, hi.queryRows, hi.keyRows, hi.queryCols, hi.keyCols, hi.valueCols, hi.rows, hm⟩
  rw [multihead_eq bern splitKey E M C hi rng hD, multihead_eq bern splitKey E M C hi' rng hD]
  refine congrArg Except.ok (congrArg (Mat.mk _ _) (funext fun s => funext fun o => ?_))
  congr 1
  refine Finset.sum_congr rfl fun h _ => Finset.sum_congr rfl fun j _ => ?_
  congr 1
  exact result_reorder E M (query := headOf C.querySize C.qk C.wq C.bq query h) (key := headOf C.keySize C.qk C.wk C.bk key h)
    (key' := headOf C.keySize C.qk C.wk C.bk (reorder σ key) h) (value := headOf C.valueSize C.vo C.wv C.bv value h)
    (value' := headOf C.valueSize C.vo C.wv C.bv (reorder σ value) h) (vis := VisibleIn mask h) (vis' := VisibleIn mask' h) hσ rfl
    (fun t d => headOf_row _ _ _ _ (fun _ => rfl) h d) (fun t d => headOf_row _ _ _ _ (fun _ => rfl) h d) (fun t ht => hvis h s t ht) j

/-- **C124**, queries: every query is answered for itself. If the queries are put in another order, or repeated, and the rows of the mask too, so are
the outputs. -/
theorem queries_separate {Key : Type} (bern : Bernoulli Key) (splitKey : Key → Nat → Nat → Key) (E : ℝ → ℝ) (M : ℝ) (C : Config)
    {query key value : Mat} {mask mask' : Option Mask} (hi : Inputs C query key value mask) (r : Nat → Nat)
    (hm : HeadMaskOk C.heads query.rows key.rows mask')
    (hvis : ∀ h s t, VisibleIn mask' h s t = VisibleIn mask h (r s) t) (rng : Option Key) {inference deterministic : Option Bool}
    (hD : ¬ Active C.dropout inference deterministic) :
    C.layer.call bern splitKey E M (reorder r query) key value mask' rng inference deterministic none =
      (C.layer.call bern splitKey E M query key value mask rng inference deterministic none).map (reorder r) := by
  have hi' : Inputs C (reorder r query) key value mask' :=
    ⟨hi.heads, hi.queryRows, hi.keyRows, hi.queryCols, hi.keyCols, hi.valueCols, hi.rows, hm⟩
  rw [multihead_eq bern splitKey E M C hi rng hD, multihead_eq bern splitKey E M C hi' rng hD]
  show Except.ok _ = Except.ok _
  congr 1
  refine congrArg (Mat.mk _ _) (funext fun s => funext fun o => ?_)
  congr 1
  refine Finset.sum_congr rfl fun h _ => Finset.sum_congr rfl fun j _ => ?_
  congr 1
  exact result_query E M (query := headOf C.querySize C.qk C.wq C.bq query h) (query' := headOf C.querySize C.qk C.wq C.bq (reorder r query) h)
    (vis := VisibleIn mask h) (vis' := VisibleIn mask' h) rfl (headOf_row _ _ _ _ (fun _ => rfl) h) (fun t => hvis h s t) j

/-- **C124**, self-attention of a sequence without mask: putting the sequence in another order does so to the output. -/
theorem self_attention_equivariant {Key : Type} (bern : Bernoulli Key) (splitKey : Key → Nat → Nat → Key) (E : ℝ → ℝ) (M : ℝ) (C : Config) {x : Mat}
    (hi : Inputs C x x x none) {σ : Equiv.Perm Nat} (hσ : Permutes σ x.rows) (rng : Option Key) {inference deterministic : Option Bool}
    (hD : ¬ Active C.dropout inference deterministic) :
    C.layer.call bern splitKey E M (reorder σ x) (reorder σ x) (reorder σ x) none rng inference deterministic none =
      (C.layer.call bern splitKey E M x x x none rng inference deterministic none).map (reorder σ) := by
  have hi' : Inputs C (reorder σ x) x x none :=
    ⟨hi.heads, hi.queryRows, hi.keyRows, hi.queryCols, hi.keyCols, hi.valueCols, hi.rows, trivial⟩
  rw [keys_unordered bern splitKey E M C (mask' := none) hi' hσ trivial (fun _ _ _ _ => rfl) rng hD,
    queries_separate bern splitKey E M C (mask' := none) hi σ trivial (fun _ _ _ => rfl) rng hD]

/-- **C124**, incremental decoding: if a query may look at the first `n` positions only, its output is the one it gets alone, or among any other queries, from
the first `n` keys and values; with an exponential that underflows, as that of floating point numbers does. Every head has to see some position, with a score
not at the very bottom of the number range. -/
theorem decoding {Key : Type} (bern : Bernoulli Key) (splitKey : Key → Nat → Nat → Key) {E : ℝ → ℝ} {T M : ℝ} (hT : Underflow E T) (hT0 : 0 ≤ T)
    (C : Config) {query query' key value : Mat} {mask mask' : Option Mask} {n : Nat} (hi : Inputs C query key value mask)
    (hi' : Inputs C query' (firstRows n key) (firstRows n value) mask') (hn : n ≤ key.rows) (s s' : Nat)
    (hq : ∀ d, query'.val s' d = query.val s d)
    (hvis : ∀ h < C.heads, ∀ t < n, VisibleIn mask' h s' t = VisibleIn mask h s t)
    (hfar : ∀ h < C.heads, ∀ t, n ≤ t → t < key.rows → VisibleIn mask h s t = false)
    (hu : ∀ h < C.heads, ∃ u < n, VisibleIn mask h s u = true ∧
      M + T ≤ score (headOf C.querySize C.qk C.wq C.bq query h) (headOf C.keySize C.qk C.wk C.bk key h) s u)
    (rng : Option Key) {inference deterministic : Option Bool} (hD : ¬ Active C.dropout inference deterministic) :
    ∃ out out', C.layer.call bern splitKey E M query key value mask rng inference deterministic none = .ok out ∧
      C.layer.call bern splitKey E M query' (firstRows n key) (firstRows n value) mask' rng inference deterministic none = .ok out' ∧
      ∀ o, out'.val s' o = out.val s o := by
  refine ⟨_, _, multihead_eq bern splitKey E M C hi rng hD, multihead_eq bern splitKey E M C hi' rng hD, fun o => ?_⟩
  simp only
  congr 1
  refine Finset.sum_congr rfl fun h hh => Finset.sum_congr rfl fun j _ => ?_
  have hh := Finset.mem_range.1 hh
  congr 1
  exact result_prefix hT hT0 (query := headOf C.querySize C.qk C.wq C.bq query h) (query' := headOf C.querySize C.qk C.wq C.bq query' h)
    (key := headOf C.keySize C.qk C.wk C.bk key h) (key' := headOf C.keySize C.qk C.wk C.bk (firstRows n key) h)
    (value := headOf C.valueSize C.vo C.wv C.bv value h) (value' := headOf C.valueSize C.vo C.wv C.bv (firstRows n value) h)
    (vis := VisibleIn mask h) (vis' := VisibleIn mask' h) rfl hn (headOf_row _ _ _ _ hq h) (fun _ _ _ => rfl) (fun _ _ _ => rfl) (hvis h hh) (hfar h hh) (hu h hh) j

/-! ## Cases -/

/-- Two positions swapped. -/
example : Permutes (Equiv.swap 0 1) 2 := by
  intro t
  rcases lt_trichotomy t 1 with h | rfl | h
  · obtain rfl : t = 0 := by omega
    simp
  · simp
  · rw [Equiv.swap_apply_of_ne_of_ne (by omega) (by omega)]

/-- The causal mask with its two columns swapped. -/
def exMaskSwapped : Mask := ⟨[2, 2], fun i => decide (Equiv.swap 0 1 (i.getD 1 0) ≤ i.getD 0 0)⟩

example : HeadMaskOk exConfig.heads exIn.rows exIn.rows (some exMaskSwapped) := .inl rfl

example : ∀ h s t, t < exIn.rows → VisibleIn (some exMaskSwapped) h s t = VisibleIn (some exMask) h s (Equiv.swap 0 1 t) := fun _ _ _ _ => rfl

/-- The causal mask with its rows repeated. -/
example : ∀ h s t, VisibleIn (some ⟨[2, 2], fun i => decide (i.getD 1 0 ≤ i.getD 0 0 / 2)⟩) h s t = VisibleIn (some exMask) h (s / 2) t :=
  fun _ _ _ => rfl

theorem exScore : ∀ h < exConfig.heads, ∃ u < 1, VisibleIn (some exMask) h 0 u = true ∧
    -1000 + 100 ≤ score (headOf exConfig.querySize exConfig.qk exConfig.wq exConfig.bq exIn h)
      (headOf exConfig.keySize exConfig.qk exConfig.wk exConfig.bk exIn h) 0 u := by
  intro h hh
  refine ⟨0, by omega, by simp [VisibleIn, exMask], ?_⟩
  have : h = 0 ∨ h = 1 := by
    have : h < 2 := hh
    omega
  rcases this with rfl | rfl <;>
    norm_num [score, headOf, affine, exConfig, exIn, Finset.sum_range_succ]

/-- The first position of a sequence of two under a causal mask, and a sequence of one without mask. -/
example (bern : Bernoulli Nat) (splitKey : Nat → Nat → Nat → Nat) :
    ∃ out out', exConfig.layer.call bern splitKey (flushExp 100) (-1000) exIn exIn exIn (some exMask) none none none none = .ok out ∧
      exConfig.layer.call bern splitKey (flushExp 100) (-1000) (firstRows 1 exIn) (firstRows 1 exIn) (firstRows 1 exIn) none none none none none =
        .ok out' ∧ ∀ o, out'.val 0 o = out.val 0 o := by
  refine decoding bern splitKey (flushExp_underflow 100) (by norm_num) exConfig (query := exIn) (query' := firstRows 1 exIn) (key := exIn)
    (value := exIn) (mask := some exMask) (mask' := none) (n := 1)
    ⟨by decide, by simp [exIn], by simp [exIn], rfl, rfl, rfl, rfl, .inl rfl⟩
    ⟨by decide, by simp [firstRows], by simp [firstRows], rfl, rfl, rfl, rfl, trivial⟩
    (by simp [exIn]) 0 0 (fun _ => rfl) ?_ ?_ exScore none (by simp [Active, exConfig])
  · intro h _ t ht
    obtain rfl : t = 0 := by omega
    rfl
  · intro h _ t h1 h2
    have h2 : t < 2 := h2
    obtain rfl : t = 1 := by omega
    rfl

end Verif.Attention.Order
