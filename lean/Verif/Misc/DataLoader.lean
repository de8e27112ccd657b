/-! # The data loaders of the examples (C122)

`dataloader` of `examples/train_rnn.ipynb` (cell 3) and `examples/frozen_layer.ipynb` (cell 2), `train_dataloader` of
`examples/parallelism.ipynb` (cell 2) and `dataloader` of `examples/score_based_diffusion.ipynb` (cell 7).

They are generators that never return, so that the model is a machine: a step is one test of the condition of the inner
`while`. Where permutations come from is not modelled; `perms e` is the one of epoch `e`. -/

namespace Verif.Misc.DataLoader

/-- The exceptions. -/
inductive Err where
  | indexError
  | assertionError
deriving DecidableEq, Repr

/-- The condition of the inner loop: `end <= dataset_size` in `train_rnn` and `parallelism`, `end < dataset_size` in
`frozen_layer` and `score_based_diffusion`. -/
inductive Variant where
  | le
  | lt
deriving DecidableEq, Repr

def Variant.test : Variant → Nat → Nat → Bool
  | .le, stop, size => decide (stop ≤ size)
  | .lt, stop, size => decide (stop < size)

/-- The local variables. -/
structure Vars where
  epoch : Nat
  start : Nat
  stop : Nat
deriving DecidableEq, Repr

/-- `perm[start:end]` -/
def slice (perm : List Nat) (start stop : Nat) : List Nat := (perm.take stop).drop start

/-- One test of the inner condition: the body of the inner loop, or the start of the next epoch. The indices of the
batch if one is yielded. -/
def step (v : Variant) (perms : Nat → List Nat) (size batch : Nat) (s : Vars) : Option (List Nat) × Vars :=
  if v.test s.stop size then
    (some (slice (perms s.epoch) s.start s.stop), ⟨s.epoch, s.stop, s.stop + batch⟩)
  else (none, ⟨s.epoch + 1, 0, batch⟩)

/-- `n` steps: what has been yielded, and the variables. -/
def run (v : Variant) (perms : Nat → List Nat) (size batch : Nat) : Nat → List (List Nat) × Vars
  | 0 => ([], ⟨0, 0, batch⟩)
  | n + 1 =>
    let r := run v perms size batch n
    let s := step v perms size batch r.2
    (r.1 ++ s.1.toList, s.2)

variable {α : Type}

/-- `array[batch_perm]` for an array given as the list of its rows; indices are in range. -/
def gather (array : List α) (idx : List Nat) : List α := idx.filterMap (array[·]?)

/-- The generator of batches of several arrays, after `n` steps: the two lines before the loop, and then the batches. -/
def loader (v : Variant) (perms : Nat → List Nat) (arrays : List (List α)) (batch n : Nat) :
    Except Err (List (List (List α))) :=
  match arrays with
  | [] => .error .indexError
  | a :: _ =>
    if arrays.all (fun array => array.length == a.length) then
      .ok ((run v perms a.length batch n).1.map fun idx => arrays.map fun array => gather array idx)
    else .error .assertionError

/-! ## What a loader should do -/

/-- The batches of an epoch: the permutation cut into `count` pieces of `batch`. -/
def pieces (perm : List Nat) (batch count : Nat) : List (List Nat) :=
  (List.range count).map fun j => (perm.drop (j * batch)).take batch

/-- How many batches there are in an epoch. -/
def perEpoch : Variant → Nat → Nat → Nat
  | .le, size, batch => size / batch
  | .lt, size, batch => (size - 1) / batch

/-! ## Lemmas -/

theorem test_iff {v : Variant} {size batch j : Nat} (hb : 0 < batch) :
    v.test (j * batch + batch) size = true ↔ j < perEpoch v size batch := by
  have h (m : Nat) : j < m / batch ↔ j * batch + batch ≤ m := by
    have := Nat.le_div_iff_mul_le hb (x := j + 1) (y := m)
    rw [Nat.add_mul, Nat.one_mul] at this
    exact this
  cases v with
  | le => simp [Variant.test, perEpoch, h]
  | lt =>
    simp only [Variant.test, perEpoch, h, decide_eq_true_iff]
    omega

theorem slice_eq (perm : List Nat) (j batch : Nat) :
    slice perm (j * batch) (j * batch + batch) = (perm.drop (j * batch)).take batch := by
  rw [slice, List.drop_take, Nat.add_sub_cancel_left]

/-- Within an epoch. -/
theorem run_within {v : Variant} {perms : Nat → List Nat} {size batch n e : Nat} {ys : List (List Nat)}
    (hb : 0 < batch) (h : run v perms size batch n = (ys, ⟨e, 0, batch⟩)) {j : Nat} (hj : j ≤ perEpoch v size batch) :
    run v perms size batch (n + j) = (ys ++ pieces (perms e) batch j, ⟨e, j * batch, j * batch + batch⟩) := by
  induction j with
  | zero => simp [h, pieces]
  | succ j ih =>
    have := ih (by omega)
    rw [← Nat.add_assoc, run, this]
    simp only [step]
    rw [if_pos ((test_iff hb).2 (by omega)), slice_eq]
    simp [pieces, List.range_succ, Nat.add_mul]

theorem run_epoch {v : Variant} {perms : Nat → List Nat} {size batch n e : Nat} {ys : List (List Nat)}
    (hb : 0 < batch) (h : run v perms size batch n = (ys, ⟨e, 0, batch⟩)) :
    run v perms size batch (n + (perEpoch v size batch + 1)) =
      (ys ++ pieces (perms e) batch (perEpoch v size batch), ⟨e + 1, 0, batch⟩) := by
  rw [← Nat.add_assoc, run, run_within hb h (Nat.le_refl _)]
  simp only [step]
  rw [if_neg (fun hn => Nat.lt_irrefl _ ((test_iff hb).1 hn))]
  simp

theorem run_closed (v : Variant) (perms : Nat → List Nat) (size : Nat) {batch : Nat} (hb : 0 < batch) (e : Nat) :
    run v perms size batch (e * (perEpoch v size batch + 1)) =
      ((List.range e).flatMap fun e' => pieces (perms e') batch (perEpoch v size batch), ⟨e, 0, batch⟩) := by
  induction e with
  | zero => simp [run]
  | succ e ih =>
    rw [Nat.add_mul, Nat.one_mul, run_epoch hb ih]
    simp [List.range_succ]

theorem pieces_flatten (perm : List Nat) (batch count : Nat) :
    (pieces perm batch count).flatten = perm.take (count * batch) := by
  induction count with
  | zero => simp [pieces]
  | succ n ih =>
    have : pieces perm batch (n + 1) = pieces perm batch n ++ [(perm.drop (n * batch)).take batch] := by
      simp [pieces, List.range_succ]
    rw [this, List.flatten_append, ih, Nat.add_mul, Nat.one_mul, List.take_add]
    simp

/-- More steps only add batches. -/
theorem run_prefix (v : Variant) (perms : Nat → List Nat) (size batch : Nat) (n m : Nat) :
    (run v perms size batch n).1 <+: (run v perms size batch (n + m)).1 := by
  induction m with
  | zero => exact List.prefix_refl _
  | succ m ih =>
    rw [← Nat.add_assoc, run]
    exact ih.trans (List.prefix_append _ _)

theorem perEpoch_mul_le (v : Variant) (size batch : Nat) : perEpoch v size batch * batch ≤ size := by
  cases v with
  | le => exact Nat.div_mul_le_self _ _
  | lt => exact Nat.le_trans (Nat.div_mul_le_self _ _) (Nat.sub_le _ _)

/-! ## The claims -/

/-- **C122**, the order of batches: epoch for epoch, the permutation of the epoch is cut into as many batches as the
variant allows. -/
theorem loader_stream (v : Variant) (perms : Nat → List Nat) {a : List α} {arrays : List (List α)}
    (hs : ∀ array ∈ arrays, array.length = a.length) {batch : Nat} (hb : 0 < batch) (e : Nat) :
    loader v perms (a :: arrays) batch (e * (perEpoch v a.length batch + 1)) =
      .ok (((List.range e).flatMap fun e' => pieces (perms e') batch (perEpoch v a.length batch)).map fun idx =>
        (a :: arrays).map fun array => gather array idx) := by
  have : (a :: arrays).all (fun array => array.length == a.length) = true := by
    simpa using hs
  simp only [loader, this, if_true, run_closed v perms a.length hb e]

/-- **C122**, batches: in an epoch all batches have the size asked for, and no row comes twice. -/
theorem epoch_batches (v : Variant) {perm : List Nat} {size batch : Nat} (hp : perm.Perm (List.range size)) :
    (∀ b ∈ pieces perm batch (perEpoch v size batch), b.length = batch) ∧
    (pieces perm batch (perEpoch v size batch)).flatten.Nodup ∧
    (∀ b ∈ pieces perm batch (perEpoch v size batch), ∀ i ∈ b, i < size) := by
  have hl : perm.length = size := by rw [hp.length_eq, List.length_range]
  have hle := perEpoch_mul_le v size batch
  refine ⟨?_, ?_, ?_⟩
  · intro b h
    simp only [pieces, List.mem_map, List.mem_range] at h
    obtain ⟨j, hj, rfl⟩ := h
    have : (j + 1) * batch ≤ perEpoch v size batch * batch := Nat.mul_le_mul_right _ hj
    rw [Nat.add_mul, Nat.one_mul] at this
    rw [List.length_take, List.length_drop, hl]
    omega
  · rw [pieces_flatten]
    exact (hp.nodup_iff.2 List.nodup_range).sublist (List.take_sublist _ _)
  · intro b h i hi
    simp only [pieces, List.mem_map, List.mem_range] at h
    obtain ⟨j, _, rfl⟩ := h
    exact List.mem_range.1 (hp.mem_iff.1 (List.mem_of_mem_drop (List.mem_of_mem_take hi)))

/-- **C122**, with `<=`: fewer rows than a batch are left out of an epoch. Partial: false with `<`, see
`epoch_incomplete`. -/
theorem epoch_complete_partial {perm : List Nat} {size batch : Nat} (hp : perm.Perm (List.range size)) (hb : 0 < batch) :
    size - (pieces perm batch (perEpoch .le size batch)).flatten.length = size % batch ∧ size % batch < batch := by
  have hl : perm.length = size := by rw [hp.length_eq, List.length_range]
  have := Nat.div_add_mod size batch
  have h2 := Nat.mod_lt size hb
  rw [pieces_flatten, List.length_take, hl, perEpoch]
  have hc : size / batch * batch = batch * (size / batch) := Nat.mul_comm _ _
  refine ⟨?_, h2⟩
  rw [hc]
  omega

/-- **C122**, with `<`: a whole batch is left out whenever the batches would fit exactly. -/
theorem epoch_incomplete {perm : List Nat} {batch k : Nat} (hp : perm.Perm (List.range ((k + 1) * batch)))
    (hb : 0 < batch) :
    perEpoch .lt ((k + 1) * batch) batch = k ∧
    (pieces perm batch k).flatten.length + batch = (k + 1) * batch := by
  have hl : perm.length = (k + 1) * batch := by rw [hp.length_eq, List.length_range]
  constructor
  · rw [perEpoch, Nat.div_eq_of_lt_le]
    · rw [Nat.add_mul]; omega
    · rw [Nat.add_mul, Nat.one_mul]; omega
  · rw [pieces_flatten, List.length_take, hl, Nat.add_mul, Nat.one_mul]
    omega

/-- **C122**, a loader can hang: no batch is ever yielded if and only if a batch is larger than the data set, or as
large with `<`. -/
theorem loader_hangs (v : Variant) (perms : Nat → List Nat) (size : Nat) {batch : Nat} (hb : 0 < batch) :
    (∀ n, (run v perms size batch n).1 = []) ↔
      match v with
      | .le => size < batch
      | .lt => size ≤ batch := by
  have hz : perEpoch v size batch = 0 ↔ match v with
      | .le => size < batch
      | .lt => size ≤ batch := by
    cases v with
    | le => simp [perEpoch, Nat.div_eq_zero_iff]; omega
    | lt => simp [perEpoch, Nat.div_eq_zero_iff]; omega
  rw [← hz]
  constructor
  · intro h
    have := h (1 * (perEpoch v size batch + 1))
    rw [run_closed v perms size hb 1] at this
    simp [pieces] at this
    exact this
  · intro h n
    have h1 := run_closed v perms size hb n
    rw [h] at h1
    simp only [Nat.zero_add, Nat.mul_one] at h1
    rw [h1]
    simp [pieces]

/-- **C122**, a batch size of zero: the first epoch does not end, and all batches are empty. -/
theorem loader_zero (v : Variant) (perms : Nat → List Nat) {size : Nat} (hs : 0 < size) (n : Nat) :
    run v perms size 0 n = (List.replicate n [], ⟨0, 0, 0⟩) := by
  induction n with
  | zero => rfl
  | succ n ih =>
    have : v.test 0 size = true := by cases v <;> simp [Variant.test, hs]
    simp [run, ih, step, this, slice, List.replicate_succ']

/-- **C122**, arrays stay together: row `k` of a batch is, in all arrays, the same row of the data set. -/
theorem rows_together {a b : List α} (hl : a.length = b.length) {idx : List Nat} (hi : ∀ i ∈ idx, i < a.length)
    (k : Nat) (hk : k < idx.length) :
    ∃ i, idx[k]? = some i ∧ (gather a idx)[k]? = a[i]? ∧ (gather b idx)[k]? = b[i]? := by
  have hg (c : List α) (hc : ∀ i ∈ idx, i < c.length) : (gather c idx)[k]? = c[idx[k]]? := by
    induction idx generalizing k with
    | nil => simp at hk
    | cons i is ih =>
      have hic : i < c.length := hc i (by simp)
      have hg' : gather c (i :: is) = c[i] :: gather c is := by
        simp [gather, List.getElem?_eq_getElem hic]
      rw [hg']
      cases k with
      | zero => simp [List.getElem?_eq_getElem hic]
      | succ k =>
        simp only [List.getElem?_cons_succ, List.getElem_cons_succ]
        exact ih (fun i h => hi i (by simp [h])) k (by simpa using hk) (fun i h => hc i (by simp [h]))
  exact ⟨idx[k], List.getElem?_eq_getElem hk, hg a hi, hg b (fun i h => hl ▸ hi i h)⟩

/-- **C122**, what is refused, at the first batch: no arrays, or arrays of different lengths. -/
theorem loader_refuses (v : Variant) (perms : Nat → List Nat) (arrays : List (List α)) (batch n : Nat) :
    (loader v perms arrays batch n = .error .indexError ↔ arrays = []) ∧
    (loader v perms arrays batch n = .error .assertionError ↔
      ∃ a ∈ arrays, ∃ b ∈ arrays, a.length ≠ b.length) := by
  cases arrays with
  | nil => simp [loader]
  | cons a as =>
    simp only [loader]
    by_cases h : (a :: as).all (fun array => array.length == a.length) = true
    · rw [if_pos h]
      simp only [List.all_eq_true, beq_iff_eq] at h
      refine ⟨by simp, ?_⟩
      simp only [reduceCtorEq, false_iff, not_exists, not_and, ne_eq, Decidable.not_not]
      intro b hb c hc
      rw [h b hb, h c hc]
    · rw [if_neg h]
      refine ⟨by simp, ?_⟩
      simp only [true_iff]
      simp only [List.all_eq_true, beq_iff_eq, Classical.not_forall] at h
      obtain ⟨b, hb, h⟩ := h
      exact ⟨b, hb, a, by simp, h⟩

/-- Five rows in batches of two, two epochs: with `<=` and with `<` there are two batches in an epoch. -/
example : loader .le (fun e => if e = 0 then [3, 1, 4, 0, 2] else [0, 1, 2, 3, 4]) [[10, 11, 12, 13, 14]] 2 6 =
    .ok [[[13, 11]], [[14, 10]], [[10, 11]], [[12, 13]]] := rfl

/-- Four rows in batches of two: with `<` there is one. -/
example : loader .lt (fun _ => [3, 1, 0, 2]) [[10, 11, 12, 13], [0, 1, 2, 3]] 2 4 =
    .ok [[[13, 11], [3, 1]], [[13, 11], [3, 1]]] := rfl

/-- Four rows in a batch of four: with `<` there is none. -/
example : ∀ n, (run .lt (fun _ => [3, 1, 0, 2]) 4 4 n).1 = [] := (loader_hangs .lt _ 4 (by decide)).2 (by decide)

end Verif.Misc.DataLoader
