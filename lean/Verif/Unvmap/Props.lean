import Verif.Unvmap.Model
import Mathlib.Data.List.InsertIdx

/-! # C85: `unvmap_all`, `unvmap_any` and `unvmap_max` look at all lanes of all `vmap`s -/

namespace Verif
namespace Unvmap

open NN

variable {α : Type}

/-! ### Specification -/

/-- What an array looks like inside of `vmap`s with these axes (innermost first), in the lanes with these numbers. -/
def lane : List (Option Nat) → List Nat → NArr α → NArr α
  | some b :: axes, i :: is, x =>
    ⟨(lane axes is x).shape.eraseIdx b, fun j => (lane axes is x).at_ (j.insertIdx b i)⟩
  | none :: axes, _ :: is, x => lane axes is x
  | _, _, x => x

/-- There are lanes with these numbers: the axes exist, and the numbers are smaller than their sizes. -/
def IsLane : List (Option Nat) → List Nat → NArr α → Prop
  | [], [], _ => True
  | some b :: axes, i :: is, x => IsLane axes is x ∧ ∃ n, (lane axes is x).shape[b]? = some n ∧ i < n
  | none :: axes, _ :: is, x => IsLane axes is x
  | _, _, _ => False

/-- Each axis is an axis of the array as it looks inside of the `vmap`s further out. -/
def AxesOk : List (Option Nat) → Nat → Prop
  | [], _ => True
  | some b :: axes, n => AxesOk axes n ∧ b + (axes.filter Option.isSome).length < n
  | none :: axes, n => AxesOk axes n

/-! ### Lemmas -/

theorem mem_indices {s i : List Nat} : i ∈ indices s ↔ InB i s := by
  induction s generalizing i with
  | nil => cases i <;> simp [indices, InB]
  | cons n ns ih =>
    cases i with
    | nil => simp [indices, InB]
    | cons a as => simp [indices, InB, ih]

theorem bind_eq (impl : NArr α → Except Err α) (axes : List (Option Nat)) (x : NArr α) :
    bind impl axes x = (impl x).map fun r => (r, axes.map fun _ => none) := by
  induction axes with
  | nil => simp only [bind, Bind.bind, Except.bind, pure, Except.pure]; cases impl x <;> rfl
  | cons b axes ih =>
    cases b <;> (simp only [bind, ih, Bind.bind, Except.bind, pure, Except.pure]; cases impl x <;> rfl)

theorem inB_insert {i : Nat} {j s : List Nat} {b n : Nat} (hb : s[b]? = some n) :
    InB (j.insertIdx b i) s ∧ b ≤ j.length ↔ InB j (s.eraseIdx b) ∧ i < n := by
  induction b generalizing j s with
  | zero =>
    cases s with
    | nil => simp at hb
    | cons m ms =>
      simp only [List.getElem?_cons_zero, Option.some.injEq] at hb
      subst hb
      simp [InB, and_comm]
  | succ b ih =>
    cases s with
    | nil => simp at hb
    | cons m ms =>
      simp only [List.getElem?_cons_succ] at hb
      cases j with
      | nil => simp [InB]
      | cons a as =>
        have := ih (j := as) hb
        simp only [List.insertIdx_succ_cons, InB, List.eraseIdx_cons_succ, List.length_cons, Nat.add_le_add_iff_right]
        constructor
        · rintro ⟨⟨h1, h2⟩, h3⟩
          have := this.1 ⟨h2, h3⟩
          exact ⟨⟨h1, this.1⟩, this.2⟩
        · rintro ⟨⟨h1, h2⟩, h3⟩
          have := this.2 ⟨h2, h3⟩
          exact ⟨⟨h1, this.1⟩, this.2⟩

/-- Every index with coordinate `i` along an axis is an index without, with it put in. -/
theorem split_index {k s : List Nat} {b n : Nat} (hb : s[b]? = some n) (hk : InB k s) :
    ∃ i j, i < n ∧ InB j (s.eraseIdx b) ∧ k = j.insertIdx b i := by
  induction b generalizing k s with
  | zero =>
    cases s with
    | nil => simp at hb
    | cons m ms =>
      cases k with
      | nil => exact absurd hk (by simp [InB])
      | cons a as =>
        simp only [List.getElem?_cons_zero, Option.some.injEq] at hb
        subst hb
        exact ⟨a, as, hk.1, by simpa using hk.2, rfl⟩
  | succ b ih =>
    cases s with
    | nil => simp at hb
    | cons m ms =>
      cases k with
      | nil => exact absurd hk (by simp [InB])
      | cons a as =>
        obtain ⟨i, j, h1, h2, h3⟩ := ih (by simpa using hb) hk.2
        exact ⟨i, a :: j, h1, ⟨hk.1, h2⟩, by simp [h3]⟩

theorem lane_rank {axes : List (Option Nat)} {is : List Nat} {x : NArr α} (h : IsLane axes is x) :
    (lane axes is x).shape.length + (axes.filter Option.isSome).length = x.shape.length := by
  induction axes generalizing is with
  | nil => cases is <;> simp [lane]
  | cons a axes ih =>
    cases is with
    | nil => cases a <;> exact absurd h (by simp [IsLane])
    | cons i is =>
      cases a with
      | none => simpa [lane] using ih h
      | some b =>
        obtain ⟨h1, n, h2, h3⟩ := h
        have := ih h1
        have hlt : b < (lane axes is x).shape.length := (List.getElem?_eq_some_iff.1 h2).1
        simp only [lane, List.filter_cons, Option.isSome_some, if_true, List.length_cons, List.length_eraseIdx, hlt]
        omega

/-- The elements of the lanes are the elements of the array. -/
theorem lanes_cover {axes : List (Option Nat)} {x : NArr α} (hok : AxesOk axes x.shape.length) (a : α) :
    (∃ is j, IsLane axes is x ∧ InB j (lane axes is x).shape ∧ (lane axes is x).at_ j = a) ↔ ∃ k, InB k x.shape ∧ x.at_ k = a := by
  induction axes with
  | nil =>
    constructor
    · rintro ⟨is, j, h1, h2, h3⟩
      cases is with
      | nil => exact ⟨j, h2, h3⟩
      | cons i is => exact absurd h1 (by simp [IsLane])
    · rintro ⟨k, h1, h2⟩
      exact ⟨[], k, trivial, h1, h2⟩
  | cons ax axes ih =>
    cases ax with
    | none =>
      rw [← ih hok]
      constructor
      · rintro ⟨is, j, h1, h2, h3⟩
        cases is with
        | nil => exact absurd h1 (by simp [IsLane])
        | cons i is => exact ⟨is, j, h1, h2, h3⟩
      · rintro ⟨is, j, h1, h2, h3⟩
        exact ⟨0 :: is, j, h1, h2, h3⟩
    | some b =>
      rw [← ih hok.1]
      constructor
      · rintro ⟨is, j, h1, h2, h3⟩
        cases is with
        | nil => exact absurd h1 (by simp [IsLane])
        | cons i is =>
          obtain ⟨h4, n, h5, h6⟩ := h1
          exact ⟨is, j.insertIdx b i, h4, ((inB_insert h5).2 ⟨h2, h6⟩).1, h3⟩
      · rintro ⟨is, k, h1, h2, h3⟩
        have hr := lane_rank h1
        have hlt : b < (lane axes is x).shape.length := by have := hok.2; omega
        obtain ⟨i, j, h4, h5, h6⟩ := split_index (List.getElem?_eq_getElem hlt) h2
        exact ⟨i :: is, j, ⟨h1, _, List.getElem?_eq_getElem hlt, h4⟩, h5, by simp only [lane]; rw [← h6, h3]⟩

/-! ### Theorems -/

/-- **C85**: `unvmap_all` is true if every element of every lane is; and is the same in all lanes. -/
theorem unvmap_all_lanes (axes : List (Option Nat)) (x : NArr Bool) (hok : AxesOk axes x.shape.length) :
    ∃ r, unvmapAll axes x = .ok (r, axes.map fun _ => none) ∧
      (r = true ↔ ∀ is j, IsLane axes is x → InB j (lane axes is x).shape → (lane axes is x).at_ j = true) := by
  refine ⟨(indices x.shape).all x.at_, by simp [unvmapAll, bind_eq, jnpAll, Except.map], ?_⟩
  have := lanes_cover hok false
  simp only [List.all_eq_true, mem_indices]
  constructor
  · intro h is j h1 h2
    cases hv : (lane axes is x).at_ j with
    | true => rfl
    | false =>
      obtain ⟨k, h3, h4⟩ := this.1 ⟨is, j, h1, h2, hv⟩
      rw [h k h3] at h4
      contradiction
  · intro h k hk
    cases hv : x.at_ k with
    | true => rfl
    | false =>
      obtain ⟨is, j, h1, h2, h3⟩ := this.2 ⟨k, hk, hv⟩
      rw [h is j h1 h2] at h3
      contradiction

/-- **C85**: `unvmap_any` is true if some element of some lane is; and is the same in all lanes. -/
theorem unvmap_any_lanes (axes : List (Option Nat)) (x : NArr Bool) (hok : AxesOk axes x.shape.length) :
    ∃ r, unvmapAny axes x = .ok (r, axes.map fun _ => none) ∧
      (r = true ↔ ∃ is j, IsLane axes is x ∧ InB j (lane axes is x).shape ∧ (lane axes is x).at_ j = true) := by
  refine ⟨(indices x.shape).any x.at_, by simp [unvmapAny, bind_eq, jnpAny, Except.map], ?_⟩
  rw [lanes_cover hok true]
  simp [List.any_eq_true, mem_indices]

theorem foldl_max_ge (as : List Int) (a : Int) : a ≤ as.foldl max a ∧ (∀ b ∈ as, b ≤ as.foldl max a) ∧ as.foldl max a ∈ a :: as := by
  induction as generalizing a with
  | nil => simp
  | cons c as ih =>
    obtain ⟨h1, h2, h3⟩ := ih (max a c)
    simp only [List.foldl_cons]
    refine ⟨by omega, ?_, ?_⟩
    · intro b hb
      rcases List.mem_cons.1 hb with rfl | hb
      · omega
      · exact h2 b hb
    · rcases List.mem_cons.1 h3 with h | h
      · rw [h]
        rcases Int.le_total a c with hac | hac
        · rw [Int.max_eq_right hac]; simp
        · rw [Int.max_eq_left hac]; simp
      · simp [h]

/-- **C85**: `unvmap_max` is the largest element of all lanes, and is the same in all of them; if there are no elements, a `ValueError`. -/
theorem unvmap_max_lanes (axes : List (Option Nat)) (x : NArr Int) (hok : AxesOk axes x.shape.length) :
    (∃ r, unvmapMax axes x = .ok (r, axes.map fun _ => none) ∧
      (∃ is j, IsLane axes is x ∧ InB j (lane axes is x).shape ∧ (lane axes is x).at_ j = r) ∧
      ∀ is j, IsLane axes is x → InB j (lane axes is x).shape → (lane axes is x).at_ j ≤ r) ∨
    (unvmapMax axes x = .error .valueError ∧ ¬ ∃ is j, IsLane axes is x ∧ InB j (lane axes is x).shape) := by
  cases h : (indices x.shape).map x.at_ with
  | nil =>
    right
    refine ⟨by simp [unvmapMax, bind_eq, jnpMax, h, Except.map], ?_⟩
    rintro ⟨is, j, h1, h2⟩
    obtain ⟨k, h3, -⟩ := (lanes_cover hok _).1 ⟨is, j, h1, h2, rfl⟩
    have := List.mem_map_of_mem (f := x.at_) (mem_indices.2 h3)
    rw [h] at this
    simp at this
  | cons a as =>
    left
    obtain ⟨h1, h2, h3⟩ := foldl_max_ge as a
    refine ⟨as.foldl max a, by simp [unvmapMax, bind_eq, jnpMax, h, Except.map], ?_, ?_⟩
    · rw [← h] at h3
      obtain ⟨k, hk, he⟩ := List.mem_map.1 h3
      exact (lanes_cover hok _).2 ⟨k, mem_indices.1 hk, he⟩
    · intro is j hl hj
      obtain ⟨k, hk, he⟩ := (lanes_cover hok _).1 ⟨is, j, hl, hj, rfl⟩
      have := List.mem_map_of_mem (f := x.at_) (mem_indices.2 hk)
      rw [h, he] at this
      rcases List.mem_cons.1 this with h' | h'
      · rw [h']; exact h1
      · exact h2 _ h'

/-- Two `vmap`s, the inner one along the second remaining axis, and one in between which does not batch. -/
example : AxesOk [some 1, none, some 0] 3 ∧
    unvmapMax [some 1, none, some 0] ⟨[2, 2, 3], fun i => (i.sum : Int)⟩ = .ok (4, [none, none, none]) ∧
    (lane [some 1, none, some 0] [2, 5, 1] ⟨[2, 2, 3], fun i => (i.sum : Int)⟩).shape = [2] ∧
    IsLane [some 1, none, some 0] [2, 5, 1] (⟨[2, 2, 3], fun i => (i.sum : Int)⟩ : NArr Int) :=
  ⟨by simp [AxesOk], rfl, rfl, by simp [IsLane, lane]⟩

end Unvmap
end Verif
