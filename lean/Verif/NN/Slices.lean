import Verif.NN.Sequential
import Mathlib.Tactic.ByContra
import Mathlib.Tactic.SplitIfs

/-! # C38: slices of a `Sequential` with a step -/

namespace Verif.Sequential.Slices

open Verif.Sequential

variable {X S Key : Type}

/-! ### Specification -/

/-- Negative positions count from the end. -/
def pos (n : Nat) (i : Int) : Int := if i < 0 then i + n else i

/-- Where a slice `start:stop:step` with a positive step begins, and whether it gets to `j`. -/
def Ahead (n : Nat) (start stop : Option Int) (step : Int) (j : Nat) : Prop :=
  let first := (start.elim 0 (fun i => max 0 (pos n i)) : Int)
  first ≤ j ∧ (∀ b, stop = some b → (j : Int) < pos n b) ∧ step ∣ j - first

/-- The same for a negative step. -/
def Back (n : Nat) (start stop : Option Int) (step : Int) (j : Nat) : Prop :=
  let first := (start.elim ((n : Int) - 1) (fun i => min ((n : Int) - 1) (pos n i)) : Int)
  (j : Int) ≤ first ∧ (∀ b, stop = some b → pos n b < j) ∧ step ∣ first - j

/-! ### Proofs -/

theorem mem_rangeList_pos (fuel : Nat) (lo hi step : Int) (hs : 0 < step) (h0 : 0 ≤ lo) (hf : hi - lo ≤ fuel) (j : Nat) :
    j ∈ rangeList fuel lo hi step ↔ lo ≤ j ∧ (j : Int) < hi ∧ step ∣ j - lo := by
  induction fuel generalizing lo with
  | zero =>
    simp only [rangeList, List.not_mem_nil, false_iff]
    intro h
    omega
  | succ fuel ih =>
    rw [rangeList]
    by_cases hlt : lo < hi
    · rw [if_pos (.inl ⟨hs, hlt⟩), List.mem_cons, ih (lo + step) (by omega) (by omega)]
      constructor
      · rintro (rfl | ⟨h1, h2, h3⟩)
        · refine ⟨by omega, by omega, ?_⟩
          rw [Int.toNat_of_nonneg h0]
          exact ⟨0, by omega⟩
        · refine ⟨by omega, h2, ?_⟩
          obtain ⟨c, hc⟩ := h3
          exact ⟨c + 1, by rw [Int.mul_add, ← hc]; omega⟩
      · rintro ⟨h1, h2, c, hc⟩
        by_cases he : (j : Int) = lo
        · exact .inl (by omega)
        · refine .inr ⟨?_, h2, c - 1, by rw [Int.mul_sub, ← hc]; omega⟩
          have hc1 : 1 ≤ c := by
            by_contra hc0
            have : step * c ≤ 0 := Int.mul_nonpos_of_nonneg_of_nonpos (by omega) (by omega)
            omega
          have : step * 1 ≤ step * c := Int.mul_le_mul_of_nonneg_left hc1 (by omega)
          omega
    · rw [if_neg (by omega)]
      simp only [List.not_mem_nil, false_iff]
      intro h
      omega

theorem mem_rangeList_neg (fuel : Nat) (lo hi step : Int) (hs : step < 0) (h0 : -1 ≤ hi) (hf : lo - hi ≤ fuel) (j : Nat) :
    j ∈ rangeList fuel lo hi step ↔ (j : Int) ≤ lo ∧ hi < (j : Int) ∧ step ∣ lo - j := by
  induction fuel generalizing lo with
  | zero =>
    simp only [rangeList, List.not_mem_nil, false_iff]
    intro h
    omega
  | succ fuel ih =>
    rw [rangeList]
    by_cases hlt : hi < lo
    · rw [if_pos (.inr ⟨hs, hlt⟩), List.mem_cons, ih (lo + step) (by omega)]
      constructor
      · rintro (rfl | ⟨h1, h2, h3⟩)
        · refine ⟨by omega, by omega, ?_⟩
          rw [Int.toNat_of_nonneg (by omega)]
          exact ⟨0, by omega⟩
        · refine ⟨by omega, h2, ?_⟩
          obtain ⟨c, hc⟩ := h3
          exact ⟨c - 1, by rw [Int.mul_sub, ← hc]; omega⟩
      · rintro ⟨h1, h2, c, hc⟩
        by_cases he : (j : Int) = lo
        · exact .inl (by omega)
        · refine .inr ⟨?_, h2, c + 1, by rw [Int.mul_add, ← hc]; omega⟩
          have hc1 : c ≤ -1 := by
            by_contra hc0
            have : step * c ≤ 0 := Int.mul_nonpos_of_nonpos_of_nonneg (by omega) (by omega)
            omega
          have : step * (-1) ≤ step * c := Int.mul_le_mul_of_nonpos_left (by omega) hc1
          omega
    · rw [if_neg (by omega)]
      simp only [List.not_mem_nil, false_iff]
      intro h
      omega

theorem sorted_rangeList_pos (fuel : Nat) (lo hi step : Int) (hs : 0 < step) (h0 : 0 ≤ lo) (hf : hi - lo ≤ fuel) :
    (rangeList fuel lo hi step).Pairwise (· < ·) := by
  induction fuel generalizing lo with
  | zero => exact .nil
  | succ fuel ih =>
    rw [rangeList]
    by_cases hlt : lo < hi
    · rw [if_pos (.inl ⟨hs, hlt⟩)]
      refine .cons ?_ (ih (lo + step) (by omega) (by omega))
      intro j hj
      have := (mem_rangeList_pos fuel (lo + step) hi step hs (by omega) (by omega) j).1 hj
      omega
    · rw [if_neg (by omega)]
      exact .nil

theorem sorted_rangeList_neg (fuel : Nat) (lo hi step : Int) (hs : step < 0) (h0 : -1 ≤ hi) (hf : lo - hi ≤ fuel) :
    (rangeList fuel lo hi step).Pairwise (· > ·) := by
  induction fuel generalizing lo with
  | zero => exact .nil
  | succ fuel ih =>
    rw [rangeList]
    by_cases hlt : hi < lo
    · rw [if_pos (.inr ⟨hs, hlt⟩)]
      refine .cons ?_ (ih (lo + step) (by omega))
      intro j hj
      have := (mem_rangeList_neg fuel (lo + step) hi step hs h0 (by omega) j).1 hj
      omega
    · rw [if_neg (by omega)]
      exact .nil

theorem filterMap_get (ls : List (Layer X S Key)) (is : List Nat) (h : ∀ j ∈ is, j < ls.length) :
    (is.filterMap (ls[·]?)).map some = is.map (ls[·]?) := by
  induction is with
  | nil => rfl
  | cons i is ih =>
    have hi := h i (by simp)
    rw [List.filterMap_cons_some (List.getElem?_eq_getElem hi), List.map_cons, List.map_cons, List.getElem?_eq_getElem hi,
      ih fun j hj => h j (List.mem_cons_of_mem _ hj)]

/-! ### Theorems -/

/-- **C38**, slices with a positive step: `seq[start:stop:step]` holds the layers from `start` on and before `stop` whose
distance from the first is a multiple of the step, in order. -/
theorem slice_ahead (ls : List (Layer X S Key)) (start stop : Option Int) (step : Int) (hs : 0 < step) :
    ∃ (out : List (Layer X S Key)) (is : List Nat), getItem ls (.stepped start stop step) = .ok (.seq out) ∧ out.map some = is.map (ls[·]?) ∧
      is.Pairwise (· < ·) ∧ ∀ j, j ∈ is ↔ j < ls.length ∧ Ahead ls.length start stop step j := by
  have hn : decide (step < 0) = false := by simp; omega
  have key : ∃ lo hi : Int, stepIndices ls.length start stop step = rangeList ls.length lo hi step ∧ 0 ≤ lo ∧
      hi - lo ≤ ls.length ∧ ∀ j : Nat, (lo ≤ j ∧ (j : Int) < hi ∧ step ∣ j - lo) ↔
        j < ls.length ∧ Ahead ls.length start stop step j := by
    refine ⟨_, _, rfl, ?_, ?_, ?_⟩
    · rw [hn]
      cases start with
      | none => simp
      | some a => simp only [adjust]; (repeat' split) <;> simp_all <;> omega
    · rw [hn]
      cases start <;> cases stop <;> simp only [adjust] <;> (repeat' split) <;> simp_all <;> omega
    · intro j
      rw [hn]
      unfold Ahead pos
      have aux : ∀ a : Int, j < ls.length → adjust ls.length false a ≤ j →
          adjust ls.length false a = max 0 (if a < 0 then a + ls.length else a) := by
        intro a hj
        simp only [adjust]
        repeat' split
        all_goals simp_all
        all_goals omega
      have aux' : ∀ a : Int, j < ls.length → max 0 (if a < 0 then a + ls.length else a) ≤ j →
          adjust ls.length false a = max 0 (if a < 0 then a + ls.length else a) := by
        intro a hj
        simp only [adjust]
        repeat' split
        all_goals simp_all
        all_goals omega
      have auxb : ∀ b : Int, (j : Int) < adjust ls.length false b ↔ j < ls.length ∧ (j : Int) < (if b < 0 then b + ls.length else b) := by
        intro b
        simp only [adjust]
        repeat' split
        all_goals simp_all
        all_goals omega
      cases start with
      | none =>
        cases stop with
        | none => simp
        | some b => simp [auxb b, and_assoc]
      | some a =>
        cases stop with
        | none =>
          simp only [Option.elim, Bool.false_eq_true, if_false, reduceCtorEq, false_implies, implies_true, true_and]
          constructor
          · rintro ⟨h1, h2, h3⟩
            have hj : j < ls.length := by omega
            have he := aux a hj h1
            rw [he] at h1 h3
            exact ⟨hj, h1, h3⟩
          · rintro ⟨hj, h1, h3⟩
            rw [aux' a hj h1]
            exact ⟨h1, by omega, h3⟩
        | some b =>
          simp only [Option.elim, Option.some.injEq, forall_eq', auxb b]
          constructor
          · rintro ⟨h1, ⟨hj, h2⟩, h3⟩
            have he := aux a hj h1
            rw [he] at h1 h3
            exact ⟨hj, h1, h2, h3⟩
          · rintro ⟨hj, h1, h2, h3⟩
            rw [aux' a hj h1]
            exact ⟨h1, ⟨hj, h2⟩, h3⟩
  obtain ⟨lo, hi, he, h0, hf, hk⟩ := key
  refine ⟨(rangeList ls.length lo hi step).filterMap (ls[·]?), rangeList ls.length lo hi step, ?_, ?_, sorted_rangeList_pos _ _ _ _ hs h0 hf, fun j => ?_⟩
  · rw [getItem, if_neg (by omega), he]
  · refine filterMap_get _ _ fun j hj => ?_
    exact ((hk j).1 ((mem_rangeList_pos _ _ _ _ hs h0 hf j).1 hj)).1
  · rw [mem_rangeList_pos _ _ _ _ hs h0 hf, hk]

/-- **C38**, slices with a negative step: from `start` down to before `stop`, in reverse order. -/
theorem slice_back (ls : List (Layer X S Key)) (start stop : Option Int) (step : Int) (hs : step < 0) :
    ∃ (out : List (Layer X S Key)) (is : List Nat), getItem ls (.stepped start stop step) = .ok (.seq out) ∧ out.map some = is.map (ls[·]?) ∧
      is.Pairwise (· > ·) ∧ ∀ j, j ∈ is ↔ j < ls.length ∧ Back ls.length start stop step j := by
  have hn : decide (step < 0) = true := by simp; omega
  have key : ∃ lo hi : Int, stepIndices ls.length start stop step = rangeList ls.length lo hi step ∧ -1 ≤ hi ∧
      lo - hi ≤ ls.length ∧ ∀ j : Nat, ((j : Int) ≤ lo ∧ hi < (j : Int) ∧ step ∣ lo - j) ↔
        j < ls.length ∧ Back ls.length start stop step j := by
    refine ⟨_, _, rfl, ?_, ?_, ?_⟩
    · rw [hn]
      cases stop with
      | none => simp
      | some a => simp only [adjust]; (repeat' split) <;> simp_all <;> omega
    · rw [hn]
      cases start <;> cases stop <;> simp only [adjust] <;> (repeat' split) <;> simp_all <;> omega
    · intro j
      rw [hn]
      unfold Back pos
      have aux : ∀ a : Int, (j : Int) ≤ adjust ls.length true a →
          adjust ls.length true a = min ((ls.length : Int) - 1) (if a < 0 then a + ls.length else a) ∧ j < ls.length := by
        intro a
        simp only [adjust]
        repeat' split
        all_goals simp_all
        all_goals omega
      have aux' : ∀ a : Int, (j : Int) ≤ min ((ls.length : Int) - 1) (if a < 0 then a + ls.length else a) →
          adjust ls.length true a = min ((ls.length : Int) - 1) (if a < 0 then a + ls.length else a) := by
        intro a
        simp only [adjust]
        repeat' split
        all_goals simp_all
        all_goals omega
      have auxb : ∀ b : Int, j < ls.length → (adjust ls.length true b < (j : Int) ↔ (if b < 0 then b + ls.length else b) < (j : Int)) := by
        intro b
        simp only [adjust]
        repeat' split
        all_goals simp_all
        all_goals omega
      have hlt : ∀ first : Int, (j : Int) ≤ min ((ls.length : Int) - 1) first → j < ls.length := by
        intro first
        omega
      cases start with
      | none =>
        cases stop with
        | none => simp; omega
        | some b =>
          simp only [Option.elim, Option.some.injEq, forall_eq', if_true]
          constructor
          · rintro ⟨h1, h2, h3⟩
            have hj : j < ls.length := by omega
            exact ⟨hj, h1, (auxb b hj).1 h2, h3⟩
          · rintro ⟨hj, h1, h2, h3⟩
            exact ⟨h1, (auxb b hj).2 h2, h3⟩
      | some a =>
        cases stop with
        | none =>
          simp only [Option.elim, if_true, reduceCtorEq, false_implies, implies_true, true_and]
          constructor
          · rintro ⟨h1, h2, h3⟩
            obtain ⟨he, hj⟩ := aux a h1
            rw [he] at h1 h3
            exact ⟨hj, h1, h3⟩
          · rintro ⟨hj, h1, h3⟩
            rw [aux' a h1]
            exact ⟨h1, by omega, h3⟩
        | some b =>
          simp only [Option.elim, Option.some.injEq, forall_eq']
          constructor
          · rintro ⟨h1, h2, h3⟩
            obtain ⟨he, hj⟩ := aux a h1
            rw [he] at h1 h3
            exact ⟨hj, h1, (auxb b hj).1 h2, h3⟩
          · rintro ⟨hj, h1, h2, h3⟩
            rw [aux' a h1]
            exact ⟨h1, (auxb b hj).2 h2, h3⟩
  obtain ⟨lo, hi, he, h0, hf, hk⟩ := key
  refine ⟨(rangeList ls.length lo hi step).filterMap (ls[·]?), rangeList ls.length lo hi step, ?_, ?_, sorted_rangeList_neg _ _ _ _ hs h0 hf, fun j => ?_⟩
  · rw [getItem, if_neg (by omega), he]
  · refine filterMap_get _ _ fun j hj => ?_
    exact ((hk j).1 ((mem_rangeList_neg _ _ _ _ hs h0 hf j).1 hj)).1
  · rw [mem_rangeList_neg _ _ _ _ hs h0 hf, hk]

/-- **C38**: a step of 0 raises a ValueError, and what is neither an integer nor a slice a TypeError. -/
theorem slice_zero (ls : List (Layer X S Key)) (start stop : Option Int) :
    getItem ls (.stepped start stop 0) = .error .valueError ∧ getItem ls .other = .error .typeError := ⟨rfl, rfl⟩

/-- Five layers; slices forwards, backwards, and with bounds out of range. -/
example : stepIndices 5 (some 1) none 2 = [1, 3] ∧ stepIndices 5 none none (-1) = [4, 3, 2, 1, 0] ∧
    stepIndices 5 (some (-9)) (some 9) 3 = [0, 3] ∧ stepIndices 5 (some 9) (some (-9)) (-3) = [4, 1] ∧
    stepIndices 5 (some 3) (some 0) (-2) = [3, 1] := by decide

end Verif.Sequential.Slices
