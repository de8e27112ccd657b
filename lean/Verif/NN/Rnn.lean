import Verif.NN.RnnModel
import Mathlib.Tactic.Linarith
import Mathlib.Tactic.Ring
import Mathlib.Tactic.NormNum

/-!
# C67: recurrent cells
-/

namespace Verif
namespace Rnn

/-! ## Specification -/

/-- The entry of a vector. -/
def ent (x : List ℝ) (j : Nat) : ℝ := x.getD j 0

/-- Row `i` of a matrix with `n` columns times a vector. -/
noncomputable def row (W : Nat → Nat → ℝ) (n i : Nat) (x : List ℝ) : ℝ := ∑ j ∈ Finset.range n, W i j * ent x j

/-- The three gates of a gated recurrent unit, for weights `A`, `B` of the input and the hidden state and biases `b`, `b'`: reset. -/
noncomputable def gruReset (I H : Nat) (A B : Nat → Nat → ℝ) (b : Nat → ℝ) (x h : List ℝ) (j : Nat) : ℝ :=
  Real.sigmoid (row A I j x + b j + row B H j h)
/-- Update. -/
noncomputable def gruUpdate (I H : Nat) (A B : Nat → Nat → ℝ) (b : Nat → ℝ) (x h : List ℝ) (j : Nat) : ℝ :=
  Real.sigmoid (row A I (H + j) x + b (H + j) + row B H (H + j) h)
/-- The candidate. -/
noncomputable def gruNew (I H : Nat) (A B : Nat → Nat → ℝ) (b b' : Nat → ℝ) (x h : List ℝ) (j : Nat) : ℝ :=
  Real.tanh (row A I (2 * H + j) x + b (2 * H + j) + gruReset I H A B b x h j * (row B H (2 * H + j) h + b' j))
/-- The new hidden state: a convex combination of the candidate and the old one. -/
noncomputable def gruNext (I H : Nat) (A B : Nat → Nat → ℝ) (b b' : Nat → ℝ) (x h : List ℝ) (j : Nat) : ℝ :=
  (1 - gruUpdate I H A B b x h j) * gruNew I H A B b b' x h j + gruUpdate I H A B b x h j * ent h j

/-- What goes into gate number `q` of a long short-term memory. -/
noncomputable def lstmPre (I H : Nat) (A B : Nat → Nat → ℝ) (b : Nat → ℝ) (x h : List ℝ) (q j : Nat) : ℝ :=
  row A I (q * H + j) x + row B H (q * H + j) h + b (q * H + j)
/-- The new cell state: the input gate is the first, the forget gate the second, the candidate the third. -/
noncomputable def lstmCell (I H : Nat) (A B : Nat → Nat → ℝ) (b : Nat → ℝ) (x h c : List ℝ) (j : Nat) : ℝ :=
  Real.sigmoid (lstmPre I H A B b x h 1 j) * ent c j + Real.sigmoid (lstmPre I H A B b x h 0 j) * Real.tanh (lstmPre I H A B b x h 2 j)
/-- The new hidden state: the output gate is the fourth. -/
noncomputable def lstmHidden (I H : Nat) (A B : Nat → Nat → ℝ) (b : Nat → ℝ) (x h c : List ℝ) (j : Nat) : ℝ :=
  Real.sigmoid (lstmPre I H A B b x h 3 j) * Real.tanh (lstmCell I H A B b x h c j)

/-! ## Vectors given by their entries -/

/-- The vector with these entries. -/
def tab (n : Nat) (f : Nat → ℝ) : List ℝ := (List.range n).map f

theorem length_tab (n : Nat) (f : Nat → ℝ) : (tab n f).length = n := by simp [tab]

theorem ent_tab (n : Nat) (f : Nat → ℝ) (j : Nat) (hj : j < n) : ent (tab n f) j = f j := by
  simp [ent, tab, List.getD_eq_getElem?_getD, hj]

theorem tab_ent (n : Nat) (x : List ℝ) (hx : x.length = n) : tab n (ent x) = x := by
  apply List.ext_getElem
  · simp [length_tab, hx]
  · intro i h1 h2
    simp [tab, ent, List.getD_eq_getElem?_getD, h2]

theorem tab_congr (n : Nat) (f g : Nat → ℝ) (h : ∀ j, j < n → f j = g j) : tab n f = tab n g := by
  apply List.map_congr_left
  intro j hj
  exact h j (List.mem_range.1 hj)

theorem map_tab (n : Nat) (f : Nat → ℝ) (g : ℝ → ℝ) : (tab n f).map g = tab n fun j => g (f j) := by
  simp [tab, Function.comp_def]

theorem bin_tab (op : ℝ → ℝ → ℝ) (n : Nat) (f g : Nat → ℝ) : bin op (tab n f) (tab n g) = .ok (tab n fun j => op (f j) (g j)) := by
  unfold bin
  rw [if_pos (by simp [length_tab])]
  congr 1
  simp [tab, List.zipWith_map, List.zipWith_self]

theorem matvec_tab (W : Mat) (x : List ℝ) (hx : x.length = W.cols) : matvec W x = .ok (tab W.rows fun i => row W.elt W.cols i x) := by
  unfold matvec
  rw [if_pos hx]
  rfl

theorem split_tab (k n : Nat) (f : Nat → ℝ) (hk : 0 < k) :
    split (tab (k * n) f) k = .ok ((List.range k).map fun q => tab n fun j => f (q * n + j)) := by
  unfold split
  have h1 : k * n % k = 0 := Nat.mul_mod_right k n
  have h2 : k * n / k = n := Nat.mul_div_cancel_left n hk
  rw [length_tab, if_pos h1, h2]
  congr 1
  apply List.map_congr_left
  intro q hq
  have hq : q < k := List.mem_range.1 hq
  have hqn : (q + 1) * n ≤ k * n := Nat.mul_le_mul_right n hq
  have hqn' : (q + 1) * n = q * n + n := by ring
  apply List.ext_getElem
  · simp [tab]; omega
  · intro i h1 h2
    simp [tab]

theorem addBias_tab (n : Nat) (f : Nat → ℝ) (useBias : Bool) (g : Nat → ℝ) :
    addBias (tab n f) (if useBias then (if useBias then some (tab n g) else none) else none) =
      .ok (tab n fun j => f j + if useBias then g j else 0) := by
  cases useBias with
  | false => simp [addBias, map_tab]
  | true => simp [addBias, bin_tab]

/-! ## One step -/

/-- The biases which are in effect. -/
noncomputable def inEffect (useBias : Bool) (b : Nat → ℝ) : Nat → ℝ := fun j => if useBias then b j else 0

theorem gru_mk (I H : Nat) (useBias : Bool) (A B : Nat → Nat → ℝ) (b b' : Nat → ℝ) :
    (H = 0 → GRU.mk' I H useBias A B b b' = .error .zeroDivision) ∧ (H ≠ 0 → ∃ cell, GRU.mk' I H useBias A B b b' = .ok cell) := by
  constructor
  · intro h; simp [GRU.mk', h]
  · intro h; exact ⟨_, if_neg h⟩

/-- A step of a gated recurrent unit. -/
theorem gru_call (I H : Nat) (useBias : Bool) (A B : Nat → Nat → ℝ) (b b' : Nat → ℝ) (cell : GRU)
    (hc : GRU.mk' I H useBias A B b b' = .ok cell) (x h : List ℝ) (hx : x.length = I) (hh : h.length = H) :
    ∃ h', cell.call x h = .ok h' ∧ h'.length = H ∧
      ∀ j, j < H → ent h' j = gruNext I H A B (inEffect useBias b) (inEffect useBias b') x h j := by
  have hH : H ≠ 0 := by rintro rfl; simp [GRU.mk'] at hc
  simp only [GRU.mk', if_neg hH] at hc
  injection hc with hc
  subst hc
  refine ⟨tab H (gruNext I H A B (inEffect useBias b) (inEffect useBias b') x h), ?_, length_tab _ _, fun j hj => ent_tab _ _ _ hj⟩
  have e1 := matvec_tab ⟨3 * H, I, A⟩ x hx
  have e2 := matvec_tab ⟨3 * H, H, B⟩ h hh
  have b1 := addBias_tab (3 * H) (fun i => row A I i x) useBias b
  have s1 := split_tab 3 H (fun j => row A I j x + if useBias then b j else 0) (by omega)
  have s2 := split_tab 3 H (fun i => row B H i h) (by omega)
  have b2 := addBias_tab H (fun j => row B H (2 * H + j) h) useBias b'
  simp only [tab] at b1 b2
  have hr : List.range 3 = [0, 1, 2] := rfl
  rw [hr] at s1 s2
  simp only [List.map_cons, List.map_nil] at s1 s2
  simp only [GRU.call, e1, e2, bind, Except.bind]
  simp only [tab] at *
  rw [b1]
  simp only
  rw [s1]
  simp only
  rw [s2]
  simp only [List.getD_cons_zero, List.getD_cons_succ]
  have bt := bin_tab
  simp only [tab] at bt
  have mt := map_tab
  simp only [tab] at mt
  rw [bt]
  simp only
  rw [bt]
  simp only
  rw [b2]
  simp only [mt, bt]
  have eh : h = (List.range H).map (ent h) := (tab_ent H h hh).symm
  conv => lhs; rw [show bin (fun x1 x2 => x1 - x2) h = bin (fun x1 x2 => x1 - x2) ((List.range H).map (ent h)) by rw [← eh]]
  simp only [bt]
  congr 1
  apply List.map_congr_left
  intro j _
  simp only [gruNext, gruUpdate, gruNew, gruReset, inEffect, one_mul, zero_mul, zero_add]
  ring

/-- Vectors of other lengths are refused. -/
theorem gru_error (I H : Nat) (useBias : Bool) (A B : Nat → Nat → ℝ) (b b' : Nat → ℝ) (cell : GRU)
    (hc : GRU.mk' I H useBias A B b b' = .ok cell) (x h : List ℝ) (hw : x.length ≠ I ∨ h.length ≠ H) :
    cell.call x h = .error .typeError := by
  have hH : H ≠ 0 := by rintro rfl; simp [GRU.mk'] at hc
  simp only [GRU.mk', if_neg hH] at hc
  injection hc with hc
  subst hc
  by_cases hx : x.length = I
  · have hh : h.length ≠ H := by rcases hw with hw | hw; exacts [absurd hx hw, hw]
    have e1 := matvec_tab ⟨3 * H, I, A⟩ x hx
    have b1 := addBias_tab (3 * H) (fun i => row A I i x) useBias b
    have s1 := split_tab 3 H (fun j => row A I j x + if useBias then b j else 0) (by omega)
    have e2 : matvec ⟨3 * H, H, B⟩ h = .error .typeError := by unfold matvec; rw [if_neg hh]
    simp only [tab] at b1 s1 e1
    simp only [GRU.call, e1, e2, bind, Except.bind]
    rw [b1]
    simp only
    rw [s1]
  · have e1 : matvec ⟨3 * H, I, A⟩ x = .error .typeError := by unfold matvec; rw [if_neg hx]
    simp only [GRU.call, e1, bind, Except.bind]

theorem lstm_mk (I H : Nat) (useBias : Bool) (A B : Nat → Nat → ℝ) (b : Nat → ℝ) :
    (H = 0 → LSTM.mk' I H useBias A B b = .error .zeroDivision) ∧ (H ≠ 0 → ∃ cell, LSTM.mk' I H useBias A B b = .ok cell) := by
  constructor
  · intro h; simp [LSTM.mk', h]
  · intro h; exact ⟨_, if_neg h⟩

/-- The linear part of a step of a long short-term memory. -/
theorem lstm_lin (l : LSTM) (n : Nat) (f b : Nat → ℝ) (hb : l.bias = if l.useBias then some (tab n b) else none) :
    l.biased (tab n f) = .ok (tab n fun j => f j + inEffect l.useBias b j) := by
  unfold LSTM.biased
  rw [hb]
  cases l.useBias with
  | false => simp [inEffect]
  | true => simp [addBias, bin_tab, inEffect]

/-- A step of a long short-term memory. -/
theorem lstm_call (I H : Nat) (useBias : Bool) (A B : Nat → Nat → ℝ) (b : Nat → ℝ) (cell : LSTM)
    (hc : LSTM.mk' I H useBias A B b = .ok cell) (x h c : List ℝ) (hx : x.length = I) (hh : h.length = H) (hcl : c.length = H) :
    ∃ h' c', cell.call x (h, c) = .ok (h', c') ∧ h'.length = H ∧ c'.length = H ∧
      ∀ j, j < H → ent h' j = lstmHidden I H A B (inEffect useBias b) x h c j ∧ ent c' j = lstmCell I H A B (inEffect useBias b) x h c j := by
  have hH : H ≠ 0 := by rintro rfl; simp [LSTM.mk'] at hc
  simp only [LSTM.mk', if_neg hH] at hc
  injection hc with hc
  subst hc
  refine ⟨tab H (lstmHidden I H A B (inEffect useBias b) x h c), tab H (lstmCell I H A B (inEffect useBias b) x h c), ?_,
    length_tab _ _, length_tab _ _, fun j hj => ⟨ent_tab _ _ _ hj, ent_tab _ _ _ hj⟩⟩
  have e1 := matvec_tab ⟨4 * H, I, A⟩ x hx
  have e2 := matvec_tab ⟨4 * H, H, B⟩ h hh
  have l1 := lstm_lin (⟨⟨4 * H, I, A⟩, ⟨4 * H, H, B⟩, if useBias then some ((List.range (4 * H)).map b) else none, I, H, useBias⟩ : LSTM) (4 * H) (fun i => row A I i x + row B H i h) b rfl
  have s1 := split_tab 4 H (fun i => row A I i x + row B H i h + inEffect useBias b i) (by omega)
  have hr : List.range 4 = [0, 1, 2, 3] := rfl
  rw [hr] at s1
  simp only [List.map_cons, List.map_nil] at s1
  have ec : c = tab H (ent c) := (tab_ent H c hcl).symm
  simp only [LSTM.call, e1, e2, bind, Except.bind, bin_tab]
  rw [l1]
  simp only
  rw [s1]
  simp only [List.getD_cons_zero, List.getD_cons_succ, map_tab]
  rw [show bin (fun x1 x2 => x1 * x2) (tab H fun j => Real.sigmoid
      (row A I (1 * H + j) x + row B H (1 * H + j) h + inEffect useBias b (1 * H + j))) c =
    bin (fun x1 x2 => x1 * x2) (tab H fun j => Real.sigmoid
      (row A I (1 * H + j) x + row B H (1 * H + j) h + inEffect useBias b (1 * H + j))) (tab H (ent c)) by rw [← ec]]
  simp only [bin_tab, map_tab, pure, Except.pure]
  rfl

/-- Vectors of other lengths are refused, but for a cell state of length one, which is broadcast. -/
theorem lstm_error (I H : Nat) (useBias : Bool) (A B : Nat → Nat → ℝ) (b : Nat → ℝ) (cell : LSTM)
    (hc : LSTM.mk' I H useBias A B b = .ok cell) (x h c : List ℝ)
    (hw : x.length ≠ I ∨ h.length ≠ H ∨ (c.length ≠ H ∧ c.length ≠ 1 ∧ H ≠ 1)) :
    cell.call x (h, c) = .error .typeError := by
  have hH : H ≠ 0 := by rintro rfl; simp [LSTM.mk'] at hc
  simp only [LSTM.mk', if_neg hH] at hc
  injection hc with hc
  subst hc
  by_cases hx : x.length = I
  · have e1 := matvec_tab ⟨4 * H, I, A⟩ x hx
    by_cases hh : h.length = H
    · have hcl : c.length ≠ H ∧ c.length ≠ 1 ∧ H ≠ 1 := by
        rcases hw with hw | hw | hw
        exacts [absurd hx hw, absurd hh hw, hw]
      have e2 := matvec_tab ⟨4 * H, H, B⟩ h hh
      have l1 := lstm_lin (⟨⟨4 * H, I, A⟩, ⟨4 * H, H, B⟩, if useBias then some ((List.range (4 * H)).map b) else none, I, H, useBias⟩ : LSTM) (4 * H) (fun i => row A I i x + row B H i h) b rfl
      have s1 := split_tab 4 H (fun i => row A I i x + row B H i h + inEffect useBias b i) (by omega)
      have hr : List.range 4 = [0, 1, 2, 3] := rfl
      rw [hr] at s1
      simp only [List.map_cons, List.map_nil] at s1
      have hb : ∀ (op : ℝ → ℝ → ℝ) (f : Nat → ℝ), bin op (tab H f) c = .error .typeError := by
        intro op f
        unfold bin
        rw [length_tab, if_neg (fun h => hcl.1 h.symm), if_neg hcl.2.2, if_neg hcl.2.1]
      simp only [LSTM.call, e1, e2, bind, Except.bind, bin_tab]
      rw [l1]
      simp only
      rw [s1]
      simp only [List.getD_cons_zero, List.getD_cons_succ, map_tab, hb]
    · have e2 : matvec ⟨4 * H, H, B⟩ h = .error .typeError := by unfold matvec; rw [if_neg hh]
      simp only [LSTM.call, e1, e2, bind, Except.bind]
  · have e1 : matvec ⟨4 * H, I, A⟩ x = .error .typeError := by unfold matvec; rw [if_neg hx]
    simp only [LSTM.call, e1, bind, Except.bind]

/-! ## Sequences -/

theorem abs_tanh_lt (x : ℝ) : |Real.tanh x| < 1 := abs_lt.2 ⟨Real.neg_one_lt_tanh x, Real.tanh_lt_one x⟩

/-- A step of a gated recurrent unit brings each entry strictly closer to the interval from -1 to 1, or into it. -/
theorem gruNext_bound (I H : Nat) (A B : Nat → Nat → ℝ) (b b' : Nat → ℝ) (x h : List ℝ) (j : Nat) :
    |gruNext I H A B b b' x h j| < max 1 |ent h j| := by
  have hn := abs_tanh_lt (row A I (2 * H + j) x + b (2 * H + j) + gruReset I H A B b x h j * (row B H (2 * H + j) h + b' j))
  have h0 := Real.sigmoid_pos (row A I (H + j) x + b (H + j) + row B H (H + j) h)
  have h1 := Real.sigmoid_lt_one (row A I (H + j) x + b (H + j) + row B H (H + j) h)
  simp only [gruNext, gruUpdate, gruNew]
  set z := Real.sigmoid (row A I (H + j) x + b (H + j) + row B H (H + j) h)
  set n := Real.tanh (row A I (2 * H + j) x + b (2 * H + j) + gruReset I H A B b x h j * (row B H (2 * H + j) h + b' j))
  have hM1 : (1 : ℝ) ≤ max 1 |ent h j| := le_max_left _ _
  have hM2 : |ent h j| ≤ max 1 |ent h j| := le_max_right _ _
  calc |(1 - z) * n + z * ent h j| ≤ |(1 - z) * n| + |z * ent h j| := abs_add_le _ _
    _ = (1 - z) * |n| + z * |ent h j| := by rw [abs_mul, abs_mul, abs_of_pos h0, abs_of_pos (by linarith : (0:ℝ) < 1 - z)]
    _ < (1 - z) * 1 + z * |ent h j| := by
      have := mul_lt_mul_of_pos_left hn (by linarith : (0:ℝ) < 1 - z)
      linarith
    _ ≤ (1 - z) * max 1 |ent h j| + z * max 1 |ent h j| := by
      have e1 := mul_le_mul_of_nonneg_left hM1 (by linarith : (0:ℝ) ≤ 1 - z)
      have e2 := mul_le_mul_of_nonneg_left hM2 h0.le
      linarith
    _ = max 1 |ent h j| := by ring

/-- For every sequence of inputs of a gated recurrent unit: no step raises, and no entry of the hidden state ever gets further from zero than one
or than it was at the beginning, whichever is more. -/
theorem gru_run (I H : Nat) (useBias : Bool) (A B : Nat → Nat → ℝ) (b b' : Nat → ℝ) (cell : GRU)
    (hc : GRU.mk' I H useBias A B b b' = .ok cell) (xs : List (List ℝ)) (hx : ∀ x ∈ xs, x.length = I) (h : List ℝ) (hh : h.length = H) :
    ∃ h', run cell.call xs h = .ok h' ∧ h'.length = H ∧
      ∀ j, j < H → |ent h' j| ≤ max 1 |ent h j| ∧ (xs ≠ [] → |ent h' j| < max 1 |ent h j|) := by
  induction xs generalizing h with
  | nil => exact ⟨h, rfl, hh, fun j _ => ⟨le_max_right _ _, fun h => absurd rfl h⟩⟩
  | cons x xs ih =>
    obtain ⟨h1, e1, e2, e3⟩ := gru_call I H useBias A B b b' cell hc x h (hx x (by simp)) hh
    obtain ⟨h2, f1, f2, f3⟩ := ih (fun y hy => hx y (by simp [hy])) h1 e2
    have key : ∀ j, j < H → |ent h2 j| < max 1 |ent h j| := by
      intro j hj
      have hb : |ent h1 j| < max 1 |ent h j| := by
        rw [e3 j hj]
        exact gruNext_bound I H A B (inEffect useBias b) (inEffect useBias b') x h j
      by_cases hxs : xs = []
      · subst hxs
        simp only [run, Except.ok.injEq] at f1
        rw [← f1]; exact hb
      · have := (f3 j hj).2 hxs
        refine lt_of_lt_of_le this ?_
        exact max_le (le_max_left _ _) hb.le
    refine ⟨h2, ?_, f2, fun j hj => ⟨(key j hj).le, fun _ => key j hj⟩⟩
    simp only [run, e1, bind, Except.bind, f1]

/-- For every sequence of inputs of a long short-term memory: no step raises, every entry of the hidden state is strictly between -1 and 1 after the first
step, and the entries of the cell state grow by less than one in each step. -/
theorem lstm_run (I H : Nat) (useBias : Bool) (A B : Nat → Nat → ℝ) (b : Nat → ℝ) (cell : LSTM)
    (hc : LSTM.mk' I H useBias A B b = .ok cell) (xs : List (List ℝ)) (hx : ∀ x ∈ xs, x.length = I) (h c : List ℝ) (hh : h.length = H)
    (hcl : c.length = H) :
    ∃ h' c', run cell.call xs (h, c) = .ok (h', c') ∧ h'.length = H ∧ c'.length = H ∧
      ∀ j, j < H → (xs ≠ [] → |ent h' j| < 1 ∧ |ent c' j| < |ent c j| + xs.length) := by
  induction xs generalizing h c with
  | nil => exact ⟨h, c, rfl, hh, hcl, fun j _ h => absurd rfl h⟩
  | cons x xs ih =>
    obtain ⟨h1, c1, e1, e2, e3, e4⟩ := lstm_call I H useBias A B b cell hc x h c (hx x (by simp)) hh hcl
    obtain ⟨h2, c2, f1, f2, f3, f4⟩ := ih (fun y hy => hx y (by simp [hy])) h1 c1 e2 e3
    refine ⟨h2, c2, by simp only [run, e1, bind, Except.bind, f1], f2, f3, fun j hj _ => ?_⟩
    -- one step
    have hb : |ent h1 j| < 1 ∧ |ent c1 j| < |ent c j| + 1 := by
      rw [(e4 j hj).1, (e4 j hj).2]
      constructor
      · simp only [lstmHidden]
        have h0 := Real.sigmoid_pos (lstmPre I H A B (inEffect useBias b) x h 3 j)
        have h1 := Real.sigmoid_lt_one (lstmPre I H A B (inEffect useBias b) x h 3 j)
        have h2 := abs_tanh_lt (lstmCell I H A B (inEffect useBias b) x h c j)
        rw [abs_mul, abs_of_pos h0]
        have := mul_lt_mul_of_pos_left h2 h0
        linarith
      · simp only [lstmCell]
        have h0 := Real.sigmoid_pos (lstmPre I H A B (inEffect useBias b) x h 1 j)
        have h1 := Real.sigmoid_lt_one (lstmPre I H A B (inEffect useBias b) x h 1 j)
        have g0 := Real.sigmoid_pos (lstmPre I H A B (inEffect useBias b) x h 0 j)
        have g1 := Real.sigmoid_lt_one (lstmPre I H A B (inEffect useBias b) x h 0 j)
        have h2 := abs_tanh_lt (lstmPre I H A B (inEffect useBias b) x h 2 j)
        refine lt_of_le_of_lt (abs_add_le _ _) ?_
        rw [abs_mul, abs_mul, abs_of_pos h0, abs_of_pos g0]
        have k1 := mul_lt_mul_of_pos_left h2 g0
        have k2 := mul_le_mul_of_nonneg_right h1.le (abs_nonneg (ent c j))
        linarith
    by_cases hxs : xs = []
    · subst hxs
      simp only [run, Except.ok.injEq, Prod.mk.injEq] at f1
      rw [← f1.1, ← f1.2]
      simpa using hb
    · obtain ⟨g1, g2⟩ := f4 j hj hxs
      refine ⟨g1, ?_⟩
      have : ((x :: xs).length : ℝ) = xs.length + 1 := by simp
      rw [this]; linarith [hb.2]

/-! ## A concrete case -/

/-- A unit with one input and two hidden entries, and a sequence of inputs it accepts. -/
theorem ex_gru : ∃ cell h', GRU.mk' 1 2 true (fun i j => i + j) (fun i j => i - j) (fun i => i) (fun i => i) = .ok cell ∧
    run cell.call [[100], [-7]] [3, 1 / 2] = .ok h' ∧ |ent h' 0| < 3 ∧ |ent h' 1| < 1 := by
  obtain ⟨cell, hc⟩ := (gru_mk 1 2 true (fun i j => i + j) (fun i j => i - j) (fun i => i) (fun i => i)).2 (by omega)
  obtain ⟨h', h1, -, h3⟩ := gru_run 1 2 true _ _ _ _ cell hc [[100], [-7]] (by simp) [3, 1 / 2] rfl
  have k0 := (h3 0 (by omega)).2 (by simp)
  have k1 := (h3 1 (by omega)).2 (by simp)
  refine ⟨cell, h', hc, h1, ?_, ?_⟩
  · have : max 1 |ent [3, 1 / 2] 0| = 3 := by simp [ent]
    linarith
  · have : max 1 |ent [3, 1 / 2] 1| = 1 := by simp [ent, abs_of_pos]; norm_num
    linarith

end Rnn
end Verif
