import Verif.NN.PoolModel
import Mathlib.Tactic.Ring
import Mathlib.Tactic.Linarith
/-!
# C43: adaptive pooling partitions its input

`blockStart n t i` is where block `i` of `t` starts. `blocks_partition` and `block_sizes` are the facts
about the partition; `adaptive1d_value` says that the one-dimensional function applies the operation
to each block; `adaptive_value` says that `AdaptivePool` pools each spatial axis in turn, and
`adaptive_shape`, `adaptive_ok_iff` give the shape and the calls that succeed.
-/

namespace Verif.NN

variable {α : Type}

/-! ## Specification -/

/-- Where block `i` of `t` blocks of a dimension of size `n` starts: the first `n % t` blocks have
one element more than the others. -/
def blockStart (n t i : Nat) : Nat := i * (n / t) + min i (n % t)

/-- The positions of block `i`. -/
def block (n t i : Nat) : List Nat :=
  (List.range (blockStart n t (i + 1) - blockStart n t i)).map (blockStart n t i + ·)

/-- What pooling does to one block: apply the operation; if `t` divides `n`, the operation is applied
once more to the scalar result. -/
def poolBlock (op : List α → α) (op0 : α → α) (n t : Nat) (l : List α) : α :=
  if n % t = 0 then op0 (op l) else op l

/-- Pooling axis `i` of `x` to size `t`: element `idx` of the result pools block `idx[i]` of the
line through `idx` along the axis. -/
def poolAlong (op : List α → α) (op0 : α → α) (i t : Nat) (x : NArr α) : NArr α where
  shape := x.shape.set i t
  at_ idx := poolBlock op op0 (x.shape[i]?.getD 0) t
    ((block (x.shape[i]?.getD 0) t (idx[i]?.getD 0)).map fun q => x.at_ (idx.set i q))

/-- Pooling the axes `i, i+1, ...` to the sizes `ts`. -/
def poolAll (op : List α → α) (op0 : α → α) : Nat → List Nat → NArr α → NArr α
  | _, [], x => x
  | i, t :: ts, x => poolAll op op0 (i + 1) ts (poolAlong op op0 i t x)

/-! ## The partition -/

theorem blockStart_zero (n t : Nat) : blockStart n t 0 = 0 := by simp [blockStart]

theorem blockStart_last (n t : Nat) (ht : 0 < t) : blockStart n t t = n := by
  have h1 := Nat.mod_lt n ht
  have h2 := Nat.div_add_mod n t
  simp only [blockStart]
  omega

theorem blockStart_succ (n t i : Nat) :
    blockStart n t (i + 1) = blockStart n t i + (n / t + if i < n % t then 1 else 0) := by
  simp only [blockStart, Nat.add_mul]
  split <;> omega

/-- **C43** (sizes). Blocks are non-empty, their sizes are `⌊n/t⌋` or `⌊n/t⌋ + 1`, and the larger ones
come first. -/
theorem block_sizes (n t : Nat) (ht : 0 < t) (hn : t ≤ n) (i : Nat) :
    (block n t i).length = n / t + (if i < n % t then 1 else 0) ∧ 0 < (block n t i).length := by
  have h := blockStart_succ n t i
  have h2 : 0 < n / t := Nat.div_pos hn ht
  have h3 : (block n t i).length = blockStart n t (i + 1) - blockStart n t i := by simp [block]
  omega

theorem flatMap_block (n t m : Nat) :
    (List.range m).flatMap (block n t) = List.range (blockStart n t m) := by
  induction m with
  | zero => simp [blockStart_zero]
  | succ m ih =>
    rw [List.range_succ, List.flatMap_append, ih]
    have h := blockStart_succ n t m
    have : blockStart n t (m + 1) = blockStart n t m + (blockStart n t (m + 1) - blockStart n t m) :=
      (Nat.add_sub_cancel' (by rw [h]; exact Nat.le_add_right _ _)).symm
    rw [this, List.range_add]
    simp [block]

/-- **C43** (partition). The blocks in order list every position exactly once. -/
theorem blocks_partition (n t : Nat) (ht : 0 < t) :
    (List.range t).flatMap (block n t) = List.range n := by
  rw [flatMap_block, blockStart_last n t ht]

/-! ## One dimension -/

theorem chunk_length (k m : Nat) (l : List α) : (chunk k m l).length = m := by
  induction m generalizing l with
  | zero => rfl
  | succ m ih => simp [chunk, ih]

theorem chunk_get (k m : Nat) (l : List α) (i : Nat) (h : i < m) :
    (chunk k m l)[i]? = some ((l.drop (i * k)).take k) := by
  induction m generalizing l i with
  | zero => omega
  | succ m ih =>
    cases i with
    | zero => simp [chunk]
    | succ i =>
      simp only [chunk, List.getElem?_cons_succ]
      rw [ih _ i (by omega), List.drop_drop]
      congr 3
      ring

theorem take_drop_eq (x : List α) (a b : Nat) (h : a + b ≤ x.length) (d : α) :
    (x.drop a).take b = (List.range b).map fun q => x[a + q]?.getD d := by
  apply List.ext_getElem?
  intro i
  by_cases hi : i < b
  · rw [List.getElem?_take_of_lt hi, List.getElem?_drop, List.getElem?_map,
      List.getElem?_range hi, List.getElem?_eq_getElem (show a + i < x.length by omega)]
    simp [List.getElem?_eq_getElem (show a + i < x.length by omega)]
  · rw [List.getElem?_eq_none (by simp; omega), List.getElem?_eq_none (by simp; omega)]

theorem adaptiveValues_length (op : List α → α) (op0 : α → α) (t : Nat) (x : List α) (ht : 0 < t)
    (hn : t ≤ x.length) : (adaptiveValues op op0 t x).length = t := by
  have h1 := Nat.mod_lt x.length ht
  have h2 := Nat.div_add_mod x.length t
  have h3 : 0 < x.length / t := Nat.div_pos hn ht
  simp only [adaptiveValues]
  split
  · rename_i hm
    simp only [List.length_append, List.length_map, chunk_length]
    have : x.length - x.length % t * (x.length / t + 1) = (t - x.length % t) * (x.length / t) := by
      rw [Nat.sub_mul, Nat.mul_add]; omega
    rw [this, Nat.mul_div_cancel _ h3]
    omega
  · rename_i hm
    simp only [List.length_map, chunk_length]
    have : x.length = t * (x.length / t) := by omega
    exact Nat.div_eq_of_eq_mul_left h3 this

/-- **C43** (one dimension). Element `i` of the result is the operation applied to block `i`. -/
theorem adaptive1d_value (op : List α → α) (op0 : α → α) (t : Nat) (x : List α) (ht : 0 < t)
    (hn : t ≤ x.length) (i : Nat) (hi : i < t) (d : α) :
    (adaptiveValues op op0 t x)[i]? = some (poolBlock op op0 x.length t
      ((block x.length t i).map fun q => x[q]?.getD d)) := by
  have h1 := Nat.mod_lt x.length ht
  have h2 := Nat.div_add_mod x.length t
  have h3 : 0 < x.length / t := Nat.div_pos hn ht
  have hlast := blockStart_last x.length t ht
  have hmono : ∀ a b, a ≤ b → blockStart x.length t a ≤ blockStart x.length t b := by
    intro a b hab
    induction b with
    | zero => have : a = 0 := by omega
              subst this; exact Nat.le_refl _
    | succ b ih =>
      rcases Nat.eq_or_lt_of_le hab with rfl | h
      · exact Nat.le_refl _
      · have := ih (by omega)
        have := blockStart_succ x.length t b
        omega
  have hend := hmono (i + 1) t (by omega)
  rw [hlast] at hend
  have hsucc := blockStart_succ x.length t i
  have hblock : (block x.length t i).map (fun q => x[q]?.getD d) =
      (x.drop (blockStart x.length t i)).take (blockStart x.length t (i + 1) - blockStart x.length t i) := by
    rw [take_drop_eq _ _ _ (by omega) d]
    simp [block, Function.comp_def]
  rw [hblock]
  simp only [adaptiveValues, poolBlock]
  by_cases hm : x.length % t = 0
  · simp only [hm, ne_eq, not_true_eq_false, if_false, if_true]
    have hl : x.length = t * (x.length / t) := by omega
    have ht' : x.length / (x.length / t) = t := Nat.div_eq_of_eq_mul_left h3 hl
    rw [List.map_map, List.getElem?_map, chunk_get _ _ _ i (by omega)]
    simp only [Option.map_some, Function.comp_def, Option.some.injEq]
    congr 3
    · rw [hsucc]; simp [hm]
    · simp [blockStart, hm]
  · simp only [ne_eq, hm, not_false_eq_true, if_true, if_false]
    have hh : 0 < x.length % t := by omega
    have hq : x.length % t * (x.length / t + 1) / (x.length % t) = x.length / t + 1 :=
      Nat.mul_div_cancel_left _ hh
    have ht2 : x.length - x.length % t * (x.length / t + 1) = (t - x.length % t) * (x.length / t) := by
      rw [Nat.sub_mul, Nat.mul_add]; omega
    rw [hq, ht2, Nat.mul_div_cancel _ h3]
    by_cases hlt : i < x.length % t
    · rw [List.getElem?_append_left (by simpa [chunk_length] using hlt), List.getElem?_map,
        chunk_get _ _ _ i hlt]
      simp only [Option.map_some, Option.some.injEq]
      congr 1
      have e1 : blockStart x.length t i = i * (x.length / t + 1) := by
        simp only [blockStart, Nat.mul_add]; omega
      have e2 : blockStart x.length t (i + 1) - blockStart x.length t i = x.length / t + 1 := by
        rw [hsucc, if_pos hlt]; omega
      rw [e2, e1, List.drop_take, List.take_take]
      congr 1
      have : (i + 1) * (x.length / t + 1) ≤ x.length % t * (x.length / t + 1) :=
        Nat.mul_le_mul_right _ hlt
      rw [Nat.add_mul] at this
      omega
    · rw [List.getElem?_append_right (by simp [chunk_length]; omega), List.getElem?_map]
      simp only [List.length_map, chunk_length]
      rw [chunk_get _ _ _ _ (by omega)]
      simp only [Option.map_some, Option.some.injEq]
      congr 1
      have e2 : blockStart x.length t (i + 1) - blockStart x.length t i = x.length / t := by
        rw [hsucc, if_neg hlt]; omega
      have e1 : blockStart x.length t i =
          x.length % t * (x.length / t + 1) + (i - x.length % t) * (x.length / t) := by
        have : i = x.length % t + (i - x.length % t) := by omega
        simp only [blockStart]
        rw [Nat.min_eq_right (by omega), Nat.mul_add]
        conv_lhs => rw [this, Nat.add_mul]
        omega
      rw [List.drop_drop, e2, e1]

/-! ## Any number of dimensions -/

/-- The rows of a one-dimensional array, as a list. -/
theorem adaptive1d_val [Inhabited α] (op : List α → α) (op0 : α → α) (t : Nat) (x : NArr α) (n j : Nat)
    (hs : x.shape = [n]) (ht : 0 < t) (hn : t ≤ n) (hj : j < t) :
    (adaptive1d op op0 t).val x [j] = poolBlock op op0 n t ((block n t j).map fun q => x.at_ [q]) := by
  simp only [adaptive1d, hs, List.headD_cons]
  have hl : ((List.range n).map fun q => x.at_ [q]).length = n := by simp
  have := adaptive1d_value op op0 t ((List.range n).map fun q => x.at_ [q]) ht (by simpa using hn) j hj
    default
  rw [this, Option.getD_some, hl]
  congr 1
  apply List.map_congr_left
  intro q hq
  have hb : q < n := by
    have hm : q ∈ (List.range t).flatMap (block n t) :=
      List.mem_flatMap.mpr ⟨j, List.mem_range.mpr hj, hq⟩
    rw [blocks_partition n t ht] at hm
    exact List.mem_range.mp hm
  rw [List.getElem?_map, List.getElem?_range hb]
  rfl

/-- Mapping over axis `j` of an operation that acts along axis `a` of the remaining axes gives an
operation along axis `a` or `a + 1`, whichever is the same axis of the whole array. -/
theorem insert_set_erase (l : List Nat) (j a q : Nat) (hj : j < l.length) :
    (((l.eraseIdx j).set a q).insertIdx j (l[j]?.getD 0)) =
      l.set (if a < j then a else a + 1) q := by
  apply List.ext_getElem
  · simp only [List.length_insertIdx, List.length_set, List.length_eraseIdx, hj, if_true]
    rw [if_pos (by omega)]; omega
  intro k h1 h2
  have hk : k < l.length := by simpa using h2
  simp only [List.getElem_insertIdx, List.getElem_set, List.getElem_eraseIdx,
    List.getElem?_eq_getElem hj, Option.getD_some]
  by_cases c1 : k < j
  · simp only [c1, dite_true]
    by_cases c2 : a < j
    · simp [c2]
    · simp only [c2, if_false]
      rw [if_neg (by omega), if_neg (by omega)]
  · by_cases c3 : k = j
    · subst c3
      simp only [Nat.lt_irrefl, dite_false, dite_true]
      split <;> rw [if_neg (by omega)]
    · simp only [c1, c3, dite_false]
      by_cases c2 : a < j
      · simp only [c2, if_true]
        rw [if_neg (by omega), if_neg (by omega), dif_neg (by omega)]
        congr 1; omega
      · simp only [c2, if_false]
        by_cases c4 : a = k - 1
        · rw [if_pos c4, if_pos (by omega)]
        · rw [if_neg c4, if_neg (by omega), dif_neg (by omega)]
          congr 1; omega

theorem set_getD (l : List Nat) (j a : Nat) : (l.eraseIdx j)[a]? = l[if a < j then a else a + 1]? := by
  rw [List.getElem?_eraseIdx]; split <;> rfl

/-- The operation acts along axis `a` of arrays of rank `R`, pooling it to size `t`. -/
structure Along [Inhabited α] (op : List α → α) (op0 : α → α) (t : Nat) (f : Op α) (R a : Nat) : Prop where
  lt : a < R
  shape_ok : ∀ s : List Nat, s.length = R → ∀ n, s[a]? = some n → 0 < t → t ≤ n →
    f.shape s = .ok (s.set a t)
  shape_err : ∀ s : List Nat, s.length = R → ∀ n, s[a]? = some n → ¬ (0 < t ∧ t ≤ n) →
    ∃ e, f.shape s = .error e
  val : ∀ x : NArr α, x.shape.length = R → ∀ n, x.shape[a]? = some n → 0 < t → t ≤ n →
    ∀ idx : List Nat, idx.length = R → ∀ j, idx[a]? = some j → j < t →
    f.val x idx = poolBlock op op0 n t ((block n t j).map fun q => x.at_ (idx.set a q))

theorem along_base [Inhabited α] (op : List α → α) (op0 : α → α) (t : Nat) :
    Along op op0 t (adaptive1d op op0 t) 1 0 where
  lt := by omega
  shape_ok s hs n hn ht hle := by
    match s, hs with
    | [m], _ =>
      simp only [List.getElem?_cons_zero, Option.some.injEq] at hn; subst hn
      have : 0 < m / t := Nat.div_pos hle ht
      simp only [adaptive1d]
      rw [if_neg (by omega), if_neg (by omega)]; rfl
  shape_err s hs n hn h := by
    match s, hs with
    | [m], _ =>
      simp only [List.getElem?_cons_zero, Option.some.injEq] at hn; subst hn
      simp only [adaptive1d]
      by_cases ht : t = 0
      · exact ⟨_, if_pos ht⟩
      · rw [if_neg ht, if_pos (Nat.div_eq_of_lt (by omega))]; exact ⟨_, rfl⟩
  val x hx n hn ht hle idx hi j hj hlt := by
    match idx, hi with
    | [i], _ =>
      simp only [List.getElem?_cons_zero, Option.some.injEq] at hj; subst hj
      have hs : x.shape = [n] := by
        match hsh : x.shape, hx with
        | [m], _ => rw [hsh] at hn; simpa using hn
      rw [adaptive1d_val op op0 t x n i hs ht hle hlt]
      rfl

theorem along_vmap [Inhabited α] (op : List α → α) (op0 : α → α) (t : Nat) (f : Op α) (R a j : Nat)
    (h : Along op op0 t f R a) (hj : j ≤ R) :
    Along op op0 t (f.vmap j j) (R + 1) (if a < j then a else a + 1) where
  lt := by have := h.lt; split <;> omega
  shape_ok s hs n hn ht hle := by
    have hj' : j < s.length := by omega
    have h1 : (s.eraseIdx j).length = R := by rw [List.length_eraseIdx, if_pos hj']; omega
    have h2 : (s.eraseIdx j)[a]? = some n := by rw [set_getD s j a]; exact hn
    simp only [Op.vmap, List.getElem?_eq_getElem hj', h.shape_ok _ h1 n h2 ht hle, bind, Except.bind]
    rw [if_pos (by simp [h1]; omega)]
    have := insert_set_erase s j a t hj'
    rw [List.getElem?_eq_getElem hj', Option.getD_some] at this
    rw [this]
  shape_err s hs n hn hne := by
    have hj' : j < s.length := by omega
    have h1 : (s.eraseIdx j).length = R := by rw [List.length_eraseIdx, if_pos hj']; omega
    have h2 : (s.eraseIdx j)[a]? = some n := by rw [set_getD s j a]; exact hn
    obtain ⟨e, he⟩ := h.shape_err _ h1 n h2 hne
    exact ⟨e, by simp [Op.vmap, List.getElem?_eq_getElem hj', he, bind, Except.bind]⟩
  val x hx n hn ht hle idx hi k hk hlt := by
    have hj' : j < idx.length := by omega
    have h1 : (x.slice j (idx[j]?.getD 0)).shape.length = R := by
      simp only [NArr.slice]; rw [List.length_eraseIdx, if_pos (by omega)]; omega
    have h2 : (x.slice j (idx[j]?.getD 0)).shape[a]? = some n := by
      simp only [NArr.slice]; rw [set_getD _ j a]; exact hn
    have h3 : (idx.eraseIdx j).length = R := by rw [List.length_eraseIdx, if_pos hj']; omega
    have h4 : (idx.eraseIdx j)[a]? = some k := by rw [set_getD _ j a]; exact hk
    simp only [Op.vmap]
    rw [h.val _ h1 n h2 ht hle _ h3 k h4 hlt]
    congr 1
    apply List.map_congr_left
    intro q _
    simp only [NArr.slice]
    rw [insert_set_erase idx j a q hj']

/-- Mapping over the axes `j, j+1, ..., j+m-1` except `i`. -/
theorem along_wrap [Inhabited α] (op : List α → α) (op0 : α → α) (t i : Nat) (m : Nat) :
    ∀ (j : Nat) (f : Op α), (if j ≤ i then Along op op0 t f (j + 1) j else Along op op0 t f j i) →
      (if j + m ≤ i then Along op op0 t (wrapAxes i ((List.range m).map (· + j)) f) (j + m + 1) (j + m)
        else Along op op0 t (wrapAxes i ((List.range m).map (· + j)) f) (j + m) i) := by
  induction m with
  | zero => intro j f h; simpa [wrapAxes] using h
  | succ m ih =>
    intro j f h
    have hr : (List.range (m + 1)).map (· + j) = j :: (List.range m).map (· + (j + 1)) := by
      rw [List.range_succ_eq_map, List.map_cons, List.map_map]
      simp only [Nat.zero_add, List.cons.injEq, true_and]
      apply List.map_congr_left; intro a _; simp only [Function.comp_def]; omega
    rw [hr]
    simp only [wrapAxes]
    have e : j + (m + 1) = j + 1 + m := by omega
    by_cases hij : i = j
    · subst hij
      rw [if_pos (Nat.le_refl _)] at h
      simp only [if_true, e]
      apply ih
      rw [if_neg (by omega)]; exact h
    · simp only [if_neg hij, e]
      apply ih
      by_cases hlt : j ≤ i
      · rw [if_pos hlt] at h
        rw [if_pos (by omega)]
        have := along_vmap op op0 t f (j + 1) j j h (by omega)
        rw [if_neg (Nat.lt_irrefl _)] at this
        exact this
      · rw [if_neg hlt] at h
        rw [if_neg (by omega)]
        have := along_vmap op op0 t f j i j h (Nat.le_refl _)
        rw [if_pos (by omega)] at this
        exact this

/-- The function called for axis `i` pools along axis `i`. -/
theorem along_axis [Inhabited α] (op : List α → α) (op0 : α → α) (t i N : Nat) (hi : 1 ≤ i) (hN : i ≤ N) :
    Along op op0 t (wrapAxes i ((List.range N).map (· + 1)) ((adaptive1d op op0 t).vmap 0 0)) (N + 1) i := by
  have h0 := along_vmap op op0 t _ 1 0 0 (along_base op op0 t) (by omega)
  rw [if_neg (by omega)] at h0
  have := along_wrap op op0 t i N 1 _ (by rw [if_pos hi]; exact h0)
  rw [if_neg (by omega)] at this
  rwa [Nat.add_comm] at this

theorem poolAlong_congr (op : List α → α) (op0 : α → α) (i t : Nat) (x y : NArr α) (h : x.Eq y)
    (hi : i < x.shape.length) (ht : 0 < t) :
    (poolAlong op op0 i t x).Eq (poolAlong op op0 i t y) := by
  obtain ⟨h1, h2⟩ := h
  refine ⟨by simp [poolAlong, h1], fun idx hidx => ?_⟩
  simp only [poolAlong] at hidx ⊢
  rw [← h1]
  congr 1
  apply List.map_congr_left
  intro q hq
  apply h2
  have hl : idx.length = x.shape.length := by simpa using inB_length hidx
  rw [inB_iff] at hidx ⊢
  refine ⟨by simpa using hl, fun k hk hk' => ?_⟩
  rw [List.getElem_set]
  split
  · rename_i heq
    subst heq
    rw [List.getElem?_eq_getElem hi, Option.getD_some] at hq
    have hj : idx[i]?.getD 0 < t := by
      have := hidx.2 i (by omega) (by simpa using hi)
      rw [List.getElem_set_self] at this
      rw [List.getElem?_eq_getElem (by omega)]; exact this
    have hm : q ∈ (List.range t).flatMap (block x.shape[i] t) :=
      List.mem_flatMap.mpr ⟨_, List.mem_range.mpr hj, hq⟩
    rw [blocks_partition _ t ht] at hm
    exact List.mem_range.mp hm
  · rename_i hne
    have := hidx.2 k (by omega) (by simpa using hk')
    rwa [List.getElem_set_ne hne] at this

theorem poolAll_congr (op : List α → α) (op0 : α → α) (i : Nat) (ts : List Nat) (x y : NArr α)
    (h : x.Eq y) (hl : i + ts.length ≤ x.shape.length) (ht : ∀ t ∈ ts, 0 < t) :
    (poolAll op op0 i ts x).Eq (poolAll op op0 i ts y) := by
  induction ts generalizing i x y with
  | nil => exact h
  | cons t ts ih =>
    simp only [poolAll, List.length_cons] at *
    apply ih
    · exact poolAlong_congr op op0 i t x y h (by omega) (ht t (List.mem_cons_self ..))
    · simp [poolAlong]; omega
    · exact fun t' hm => ht t' (List.mem_cons_of_mem _ hm)

theorem NArr.Eq.trans {x y z : NArr α} (h : x.Eq y) (h' : y.Eq z) : x.Eq z :=
  ⟨h.1.trans h'.1, fun i hi => (h.2 i hi).trans (h'.2 i (h.1 ▸ hi))⟩

theorem adaptiveLoop_ok [Inhabited α] (op : List α → α) (op0 : α → α) (target : List Nat) (m : Nat) :
    ∀ (i : Nat) (x : NArr α), 1 ≤ i → i - 1 + m = target.length → x.shape.length = target.length + 1 →
      (∀ (d t n : Nat), i - 1 ≤ d → target[d]? = some t → x.shape[d + 1]? = some n → 0 < t ∧ t ≤ n) →
      ∃ y, adaptiveLoop op op0 target ((List.range m).map (· + i)) x = .ok y ∧
        y.Eq (poolAll op op0 i (target.drop (i - 1)) x) := by
  induction m with
  | zero =>
    intro i x h1 h2 h3 _
    refine ⟨x, rfl, ?_⟩
    rw [List.drop_of_length_le (by omega)]
    exact ⟨rfl, fun _ _ => rfl⟩
  | succ m ih =>
    intro i x h1 h2 h3 hd
    have hr : (List.range (m + 1)).map (· + i) = i :: (List.range m).map (· + (i + 1)) := by
      rw [List.range_succ_eq_map, List.map_cons, List.map_map]
      simp only [Nat.zero_add, List.cons.injEq, true_and]
      apply List.map_congr_left; intro a _; simp only [Function.comp_def]; omega
    rw [hr]
    have hlt : i - 1 < target.length := by omega
    have hi : i < x.shape.length := by omega
    have hN : x.shape.length - 1 = target.length := by omega
    have hal := along_axis op op0 target[i - 1] i target.length h1 (by omega)
    have ht := hd (i - 1) target[i - 1] x.shape[i] (Nat.le_refl _) (List.getElem?_eq_getElem hlt)
      (by rw [show i - 1 + 1 = i by omega]; exact List.getElem?_eq_getElem hi)
    have hsh := hal.shape_ok x.shape (by omega) x.shape[i] (List.getElem?_eq_getElem hi) ht.1 ht.2
    simp only [adaptiveLoop, List.getElem?_eq_getElem hlt, hN, hsh]
    obtain ⟨y, hy, heq⟩ := ih (i + 1) ⟨x.shape.set i target[i - 1], _⟩ (by omega) (by omega)
      (by simpa using h3) (by
        intro d t n h4 h5 h6
        refine hd d t n (by omega) h5 ?_
        simp only at h6
        rwa [List.getElem?_set_ne (by omega)] at h6)
    refine ⟨y, hy, heq.trans ?_⟩
    have hdrop : target.drop (i - 1) = target[i - 1] :: target.drop (i + 1 - 1) := by
      rw [List.drop_eq_getElem_cons hlt, show i - 1 + 1 = i + 1 - 1 by omega]
    rw [hdrop]
    simp only [poolAll]
    apply poolAll_congr
    · refine ⟨by simp [poolAlong], fun idx hidx => ?_⟩
      simp only at hidx
      have hl : idx.length = x.shape.length := by simpa using inB_length hidx
      rw [inB_iff] at hidx
      have hj : idx[i]'(by omega) < target[i - 1] := by
        have := hidx.2 i (by omega) (by simpa using hi)
        rwa [List.getElem_set_self] at this
      simp only [poolAlong, List.getElem?_eq_getElem hi, Option.getD_some,
        List.getElem?_eq_getElem (show i < idx.length by omega)]
      exact hal.val x (by omega) x.shape[i] (List.getElem?_eq_getElem hi) ht.1 ht.2 idx (by omega)
        _ (List.getElem?_eq_getElem (by omega)) hj
    · simp; omega
    · intro t hm
      obtain ⟨k, hk, rfl⟩ := List.getElem_of_mem hm
      rw [List.getElem_drop]
      have hk' : i + 1 - 1 + k < target.length := by simp at hk; omega
      exact (hd (i + 1 - 1 + k) _ (x.shape[i + 1 - 1 + k + 1]'(by omega)) (by omega)
        (List.getElem?_eq_getElem hk') (List.getElem?_eq_getElem (by omega))).1

/-- **C43** (any number of dimensions). If the input has the right rank and every target size is
positive and at most the size of its dimension, `AdaptivePool` returns the array obtained by pooling
the spatial axes one after the other. -/
theorem adaptive_value [Inhabited α] (op : List α → α) (op0 : α → α) (target : List Nat) (x : NArr α)
    (hr : x.shape.length = target.length + 1)
    (ht : ∀ d t n : Nat, target[d]? = some t → x.shape[d + 1]? = some n → 0 < t ∧ t ≤ n) :
    ∃ y, adaptivePool op op0 target x = .ok y ∧ y.Eq (poolAll op op0 1 target x) := by
  simp only [adaptivePool]
  rw [if_neg (by omega), hr]
  have := adaptiveLoop_ok op op0 target target.length 1 x (by omega) (by omega) hr
    (fun d t n _ h1 h2 => ht d t n h1 h2)
  simpa using this

theorem poolAll_shape (op : List α → α) (op0 : α → α) (pre ts : List Nat) (x : NArr α)
    (rest : List Nat) (h : x.shape = pre ++ rest) (hl : rest.length = ts.length) :
    (poolAll op op0 pre.length ts x).shape = pre ++ ts := by
  induction ts generalizing pre x rest with
  | nil => simp at hl; subst hl; simpa [poolAll] using h
  | cons t ts ih =>
    cases rest with
    | nil => simp at hl
    | cons r rest =>
      have := ih (pre ++ [t]) (poolAlong op op0 pre.length t x) rest (by simp [poolAlong, h])
        (by simpa using hl)
      simpa [poolAll] using this

/-- **C43** (shape). The result has shape `(channels,) + target_shape`. -/
theorem adaptive_shape [Inhabited α] (op : List α → α) (op0 : α → α) (target : List Nat) (x y : NArr α)
    (c : Nat) (ns : List Nat) (hx : x.shape = c :: ns) (hr : ns.length = target.length)
    (ht : ∀ d t n : Nat, target[d]? = some t → ns[d]? = some n → 0 < t ∧ t ≤ n)
    (h : adaptivePool op op0 target x = .ok y) : y.shape = c :: target := by
  obtain ⟨y', h1, h2⟩ := adaptive_value op op0 target x (by simp [hx, hr])
    (fun d t n a b => ht d t n a (by simpa [hx] using b))
  rw [h] at h1; injection h1 with h1; subst h1
  rw [h2.1]
  exact poolAll_shape op op0 [c] target x ns (by simp [hx]) hr

theorem adaptiveLoop_err [Inhabited α] (op : List α → α) (op0 : α → α) (target : List Nat) (m : Nat) :
    ∀ (i : Nat) (x : NArr α), 1 ≤ i → i - 1 + m = target.length → x.shape.length = target.length + 1 →
      (∃ d t n : Nat, i - 1 ≤ d ∧ target[d]? = some t ∧ x.shape[d + 1]? = some n ∧ ¬ (0 < t ∧ t ≤ n)) →
      ∃ e, adaptiveLoop op op0 target ((List.range m).map (· + i)) x = .error e := by
  induction m with
  | zero =>
    rintro i x h1 h2 h3 ⟨d, t, n, h4, h5, _⟩
    rw [List.getElem?_eq_none (by omega)] at h5; simp at h5
  | succ m ih =>
    rintro i x h1 h2 h3 ⟨d, t, n, h4, h5, h6, h7⟩
    have hr : (List.range (m + 1)).map (· + i) = i :: (List.range m).map (· + (i + 1)) := by
      rw [List.range_succ_eq_map, List.map_cons, List.map_map]
      simp only [Nat.zero_add, List.cons.injEq, true_and]
      apply List.map_congr_left; intro a _; simp only [Function.comp_def]; omega
    rw [hr]
    have hlt : i - 1 < target.length := by omega
    have hi : i < x.shape.length := by omega
    have hN : x.shape.length - 1 = target.length := by omega
    have hal := along_axis op op0 target[i - 1] i target.length h1 (by omega)
    simp only [adaptiveLoop, List.getElem?_eq_getElem hlt, hN]
    by_cases hok : 0 < target[i - 1] ∧ target[i - 1] ≤ x.shape[i]
    · rw [hal.shape_ok x.shape (by omega) x.shape[i] (List.getElem?_eq_getElem hi) hok.1 hok.2]
      refine ih (i + 1) _ (by omega) (by omega) (by simpa using h3) ⟨d, t, n, ?_, h5, ?_, h7⟩
      · rcases Nat.eq_or_lt_of_le h4 with heq | hlt'
        · exfalso
          subst heq
          rw [List.getElem?_eq_getElem hlt] at h5
          rw [show i - 1 + 1 = i by omega, List.getElem?_eq_getElem hi] at h6
          simp only [Option.some.injEq] at h5 h6
          rw [h5, h6] at hok
          exact h7 hok
        · omega
      · have hne : i ≠ d + 1 := by
          intro heq
          have hd : d = i - 1 := by omega
          subst hd
          rw [List.getElem?_eq_getElem hlt] at h5
          rw [show i - 1 + 1 = i by omega, List.getElem?_eq_getElem hi] at h6
          simp only [Option.some.injEq] at h5 h6
          rw [h5, h6] at hok
          exact h7 hok
        simp only
        rw [List.getElem?_set_ne hne]; exact h6
    · obtain ⟨e, he⟩ := hal.shape_err x.shape (by omega) x.shape[i] (List.getElem?_eq_getElem hi) hok
      rw [he]; exact ⟨e, rfl⟩

/-- A number of dimensions other than that of the layer is a ValueError. -/
theorem adaptive_rank [Inhabited α] (op : List α → α) (op0 : α → α) (target : List Nat) (x : NArr α)
    (h : x.shape.length ≠ target.length + 1) : adaptivePool op op0 target x = .error .valueError := by
  unfold adaptivePool
  rw [if_pos (by omega)]

/-- **C43** (errors). A call succeeds exactly if the rank is right and every target size is positive
and at most the size of its dimension. -/
theorem adaptive_ok_iff [Inhabited α] (op : List α → α) (op0 : α → α) (target : List Nat) (x : NArr α) :
    Except.Ok (adaptivePool op op0 target x) ↔
      x.shape.length = target.length + 1 ∧
      ∀ d t n : Nat, target[d]? = some t → x.shape[d + 1]? = some n → 0 < t ∧ t ≤ n := by
  constructor
  · rintro ⟨y, hy⟩
    have hr : x.shape.length = target.length + 1 := by
      simp only [adaptivePool] at hy
      split at hy
      · simp at hy
      · omega
    refine ⟨hr, ?_⟩
    intro d t n h1 h2
    apply Decidable.byContradiction
    intro hne
    obtain ⟨e, he⟩ := adaptiveLoop_err op op0 target target.length 1 x (by omega) (by omega) hr
      ⟨d, t, n, by omega, h1, h2, hne⟩
    simp only [adaptivePool] at hy
    rw [if_neg (by omega), hr, Nat.add_sub_cancel, he] at hy
    simp at hy
  · rintro ⟨h1, h2⟩
    obtain ⟨y, hy, _⟩ := adaptive_value op op0 target x h1 h2
    exact ⟨y, hy⟩

/-! ## The hypotheses are met -/

def exVolume : NArr Nat := ⟨[2, 5, 4], fun i => match i with
  | [c, a, b] => 100 * c + 10 * a + b
  | _ => 0⟩

/-- Maximum pooling of a `5 × 4` image to `3 × 2`: blocks of rows `{0,1}, {2,3}, {4}`, blocks of
columns `{0,1}, {2,3}`. -/
example : ((adaptivePool (fun l => l.foldl max 0) id [3, 2] exVolume).map fun y =>
    (y.shape, [[1, 0, 0], [1, 1, 1], [1, 2, 1]].map y.at_)) =
    .ok ([2, 3, 2], [111, 133, 143]) := by decide

example : (List.range 3).map (block 5 3) = [[0, 1], [2, 3], [4]] := by decide

end Verif.NN
