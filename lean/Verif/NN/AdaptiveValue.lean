import Verif.NN.AdaptivePool
import Mathlib.Algebra.Field.Basic
import Mathlib.Algebra.BigOperators.Group.List.Basic
import Mathlib.Algebra.BigOperators.Ring.List
import Mathlib.Data.List.Nodup
import Mathlib.Order.Lattice
import Mathlib.Order.Defs.LinearOrder
/-!
# C43: what adaptive average and maximum pooling compute

`AdaptivePool.__call__` (nn/_pool.py 505-532) pools one axis after the other. With the mean as the
operation (`AdaptiveAvgPool1d`/`2d`/`3d`, 535-565) each element of the result is the mean of its box of the
input, and with the maximum (`AdaptiveMaxPool1d`/`2d`/`3d`, 568-598) it is the maximum of its box; the box
of an element is the product of its blocks along the axes. The mean of the means is the mean of the box
because the blocks of one axis do not depend on the position along the others.
-/

namespace Verif.NN.Adaptive

/-! ## The operations -/

/-- `jnp.mean` of a one-dimensional array. -/
def mean {K : Type} [Field K] (l : List K) : K := l.sum / l.length

/-- `jnp.mean` of a scalar: its sum divided by its size. -/
def mean0 {K : Type} [Field K] (a : K) : K := a / 1

/-- `jnp.max` of a one-dimensional array with at least one element. -/
def maxl {α : Type} [LinearOrder α] [Inhabited α] : List α → α
  | [] => default
  | a :: l => l.foldl max a

/-! ## Specification -/

/-- The indices of the box of element `js` of the result: in dimension `d`, of size `ns[d]`, the
positions of block `js[d]` of `ts[d]`. -/
def InBox : List Nat → List Nat → List Nat → List Nat → Prop
  | [], [], [], [] => True
  | n :: ns, t :: ts, j :: js, q :: qs =>
    (blockStart n t j ≤ q ∧ q < blockStart n t (j + 1)) ∧ InBox ns ts js qs
  | _, _, _, _ => False

/-- The number of elements of the box. -/
def boxSize : List Nat → List Nat → List Nat → Nat
  | n :: ns, t :: ts, j :: js => (blockStart n t (j + 1) - blockStart n t j) * boxSize ns ts js
  | _, _, _ => 1

/-- The indices of the box as a list. -/
def box : List Nat → List Nat → List Nat → List (List Nat)
  | n :: ns, t :: ts, j :: js => (block n t j).flatMap fun q => (box ns ts js).map (q :: ·)
  | _, _, _ => [[]]

theorem mem_block (n t j q : Nat) :
    q ∈ block n t j ↔ blockStart n t j ≤ q ∧ q < blockStart n t (j + 1) := by
  simp only [block, List.mem_map, List.mem_range]
  constructor
  · rintro ⟨a, ha, rfl⟩; omega
  · rintro ⟨h1, h2⟩; exact ⟨q - blockStart n t j, by omega, by omega⟩

theorem nodup_block (n t j : Nat) : (block n t j).Nodup := by
  unfold block
  exact List.Nodup.map (fun a b h => by omega) List.nodup_range

/-- The list `box` has exactly the indices of the box. -/
theorem mem_box (ns ts js qs : List Nat) (h1 : ns.length = ts.length) (h2 : js.length = ts.length) :
    qs ∈ box ns ts js ↔ InBox ns ts js qs := by
  induction ns generalizing ts js qs with
  | nil =>
    cases ts with
    | cons t ts => simp at h1
    | nil =>
      cases js with
      | cons j js => simp at h2
      | nil => cases qs <;> simp [box, InBox]
  | cons n ns ih =>
    cases ts with
    | nil => simp at h1
    | cons t ts =>
      cases js with
      | nil => simp at h2
      | cons j js =>
        simp only [box, List.mem_flatMap, List.mem_map, mem_block]
        constructor
        · rintro ⟨q, hq, qs', h, rfl⟩
          exact ⟨hq, (ih ts js qs' (by simpa using h1) (by simpa using h2)).mp h⟩
        · intro h
          cases qs with
          | nil => exact h.elim
          | cons q qs =>
            exact ⟨q, h.1, qs, (ih ts js qs (by simpa using h1) (by simpa using h2)).mpr h.2, rfl⟩

/-- ... each once. -/
theorem nodup_box (ns ts js : List Nat) : (box ns ts js).Nodup := by
  induction ns generalizing ts js with
  | nil => simp [box]
  | cons n ns ih =>
    cases ts with
    | nil => simp [box]
    | cons t ts =>
      cases js with
      | nil => simp [box]
      | cons j js =>
        simp only [box]
        rw [List.nodup_flatMap]
        refine ⟨fun q _ => (ih ts js).map fun a b h => by simpa using h, ?_⟩
        refine (nodup_block n t j).imp ?_
        intro a b hab l hl hl'
        simp only [List.mem_map] at hl hl'
        obtain ⟨_, _, rfl⟩ := hl
        obtain ⟨_, _, h⟩ := hl'
        simp only [List.cons.injEq] at h
        exact hab h.1.symm

/-- ... as many as `boxSize` says. -/
theorem length_box (ns ts js : List Nat) : (box ns ts js).length = boxSize ns ts js := by
  induction ns generalizing ts js with
  | nil => simp [box, boxSize]
  | cons n ns ih =>
    cases ts with
    | nil => simp [box, boxSize]
    | cons t ts =>
      cases js with
      | nil => simp [box, boxSize]
      | cons j js =>
        simp only [box, boxSize, List.length_flatMap, List.length_map, ih]
        rw [List.map_const', List.sum_replicate]
        simp [block]

/-! ## The mean -/

section Mean
variable {K : Type} [Field K]

theorem poolBlock_mean (n t : Nat) (l : List K) : poolBlock mean mean0 n t l = mean l := by
  unfold poolBlock mean0; split <;> simp

theorem sum_box (n t j : Nat) (ns ts js : List Nat) (f : List Nat → K) :
    ((box (n :: ns) (t :: ts) (j :: js)).map f).sum =
      ((box ns ts js).map fun qs => ((block n t j).map fun q => f (q :: qs)).sum).sum := by
  simp only [box]
  generalize block n t j = B
  generalize box ns ts js = C
  induction B with
  | nil => simp
  | cons q B ih =>
    simp only [List.flatMap_cons, List.map_append, List.sum_append, ih, List.map_map, List.map_cons,
      List.sum_cons]
    rw [← List.sum_map_add]
    rfl

theorem poolAll_mean (ns ts : List Nat) (hl : ns.length = ts.length) (pre : List Nat) (x : NArr K)
    (pres : List Nat) (hp : pres.length = pre.length) (hx : x.shape = pres ++ ns) (js : List Nat)
    (hj : js.length = ts.length) :
    (poolAll mean mean0 pre.length ts x).at_ (pre ++ js) =
      ((box ns ts js).map fun q => x.at_ (pre ++ q)).sum / boxSize ns ts js := by
  induction ts generalizing ns pre pres x js with
  | nil =>
    cases ns with
    | cons n ns => simp at hl
    | nil =>
      cases js with
      | cons j js => simp at hj
      | nil => simp [poolAll, box, boxSize]
  | cons t ts ih =>
    cases ns with
    | nil => simp at hl
    | cons n ns =>
      cases js with
      | nil => simp at hj
      | cons j js =>
        have h := ih ns (by simpa using hl) (pre ++ [j]) (poolAlong mean mean0 pre.length t x)
          (pres ++ [t]) (by simp [hp]) (by simp [poolAlong, hx, ← hp]) js (by simpa using hj)
        simp only [poolAll]
        simp only [List.length_append, List.length_singleton, List.append_assoc, List.singleton_append]
          at h
        rw [h, sum_box, boxSize]
        have hn : x.shape[pre.length]?.getD 0 = n := by simp [hx, ← hp]
        have hv : ∀ q : List Nat, (poolAlong mean mean0 pre.length t x).at_ (pre ++ j :: q) =
            ((block n t j).map fun p => x.at_ (pre ++ p :: q)).sum / ((block n t j).length : K) := by
          intro q
          simp only [poolAlong, hn, poolBlock_mean, mean]
          simp
        simp only [hv]
        rw [List.map_congr_left (g := fun q => ((block n t j).map fun p => x.at_ (pre ++ p :: q)).sum
          * ((block n t j).length : K)⁻¹) (fun q _ => div_eq_mul_inv _ _), List.sum_map_mul_right]
        have hb : (block n t j).length = blockStart n t (j + 1) - blockStart n t j := by simp [block]
        rw [hb, Nat.cast_mul, ← div_eq_mul_inv, div_div]

/-- **C43** (averages). If the rank is right and every target size is positive and at most the size of
its dimension, `AdaptiveAvgPool` returns an array in which every element is the sum of the elements of
its box divided by their number. -/
theorem adaptive_avg [Inhabited K] (target : List Nat) (x : NArr K) (c : Nat) (ns : List Nat)
    (hx : x.shape = c :: ns) (hr : ns.length = target.length)
    (ht : ∀ d t n : Nat, target[d]? = some t → ns[d]? = some n → 0 < t ∧ t ≤ n) :
    ∃ y, adaptivePool mean mean0 target x = .ok y ∧ y.shape = c :: target ∧
      ∀ (ch : Nat) (js : List Nat), InB (ch :: js) (c :: target) →
        ∃ l : List (List Nat), l.Nodup ∧ l.length = boxSize ns target js ∧
          (∀ q, q ∈ l ↔ InBox ns target js q) ∧
          y.at_ (ch :: js) = (l.map fun q => x.at_ (ch :: q)).sum / l.length := by
  obtain ⟨y, h1, h2⟩ := adaptive_value mean mean0 target x (by simp [hx, hr])
    (fun d t n a b => ht d t n a (by simpa [hx] using b))
  have hs := adaptive_shape mean mean0 target x y c ns hx hr ht h1
  refine ⟨y, h1, hs, fun ch js hi => ?_⟩
  have hl : js.length = target.length := by simpa using inB_length hi
  refine ⟨box ns target js, nodup_box _ _ _, length_box _ _ _,
    fun q => mem_box ns target js q hr hl, ?_⟩
  rw [h2.2 _ (hs ▸ hi), length_box]
  exact poolAll_mean ns target hr [ch] x [c] rfl (by simp [hx]) js hl

end Mean

/-! ## The maximum -/

section Max
variable {α : Type} [LinearOrder α] [Inhabited α]

theorem maxl_spec (l : List α) (h : l ≠ []) : maxl l ∈ l ∧ ∀ a ∈ l, a ≤ maxl l := by
  cases l with
  | nil => exact absurd rfl h
  | cons a l =>
    simp only [maxl]
    clear h
    induction l generalizing a with
    | nil => simp
    | cons b l ih =>
      obtain ⟨h1, h2⟩ := ih (max a b)
      simp only [List.foldl_cons]
      refine ⟨?_, fun d hd => ?_⟩
      · rcases List.mem_cons.mp h1 with h | h
        · rw [h]
          rcases le_total a b with hab | hab
          · rw [max_eq_right hab]; simp
          · rw [max_eq_left hab]; simp
        · exact List.mem_cons_of_mem _ (List.mem_cons_of_mem _ h)
      · rcases List.mem_cons.mp hd with rfl | hd
        · exact le_trans (le_max_left _ _) (h2 _ (List.mem_cons_self ..))
        · rcases List.mem_cons.mp hd with rfl | hd
          · exact le_trans (le_max_right _ _) (h2 _ (List.mem_cons_self ..))
          · exact h2 _ (List.mem_cons_of_mem _ hd)

theorem poolBlock_max (n t : Nat) (l : List α) : poolBlock maxl id n t l = maxl l := by
  unfold poolBlock; split <;> rfl

theorem poolAll_max (ns ts : List Nat) (hl : ns.length = ts.length) (pre : List Nat) (x : NArr α)
    (pres : List Nat) (hp : pres.length = pre.length) (hx : x.shape = pres ++ ns) (js : List Nat)
    (hj : js.length = ts.length)
    (ht : ∀ d t n : Nat, ts[d]? = some t → ns[d]? = some n → 0 < t ∧ t ≤ n) :
    (∃ q, InBox ns ts js q ∧ (poolAll maxl id pre.length ts x).at_ (pre ++ js) = x.at_ (pre ++ q)) ∧
    ∀ q, InBox ns ts js q → x.at_ (pre ++ q) ≤ (poolAll maxl id pre.length ts x).at_ (pre ++ js) := by
  induction ts generalizing ns pre pres x js with
  | nil =>
    cases ns with
    | cons n ns => simp at hl
    | nil =>
      cases js with
      | cons j js => simp at hj
      | nil =>
        refine ⟨⟨[], trivial, rfl⟩, fun q hq => ?_⟩
        cases q with
        | nil => exact le_refl _
        | cons _ _ => exact hq.elim
  | cons t ts ih =>
    cases ns with
    | nil => simp at hl
    | cons n ns =>
      cases js with
      | nil => simp at hj
      | cons j js =>
        have h := ih ns (by simpa using hl) (pre ++ [j]) (poolAlong maxl id pre.length t x)
          (pres ++ [t]) (by simp [hp]) (by simp [poolAlong, hx, ← hp]) js (by simpa using hj)
          (fun d t' n' h1 h2 => ht (d + 1) t' n' (by simpa using h1) (by simpa using h2))
        simp only [poolAll]
        simp only [List.length_append, List.length_singleton, List.append_assoc, List.singleton_append]
          at h
        have hn : x.shape[pre.length]?.getD 0 = n := by simp [hx, ← hp]
        have hv : ∀ q : List Nat, (poolAlong maxl id pre.length t x).at_ (pre ++ j :: q) =
            maxl ((block n t j).map fun p => x.at_ (pre ++ p :: q)) := by
          intro q
          simp only [poolAlong, hn, poolBlock_max]
          simp
        have h0 := ht 0 t n rfl rfl
        have hne : block n t j ≠ [] := by
          have := (block_sizes n t h0.1 h0.2 j).2
          intro he; simp [he] at this
        have hm := fun q : List Nat => maxl_spec ((block n t j).map fun p => x.at_ (pre ++ p :: q))
          (by simpa using hne)
        refine ⟨?_, fun q hq => ?_⟩
        · obtain ⟨q, h1, h2⟩ := h.1
          obtain ⟨p, hp1, hp2⟩ := List.mem_map.mp (hm q).1
          exact ⟨p :: q, ⟨(mem_block _ _ _ _).mp hp1, h1⟩, by rw [h2, hv, ← hp2]⟩
        · cases q with
          | nil => exact hq.elim
          | cons p q =>
            refine le_trans ?_ (h.2 q hq.2)
            rw [hv]
            exact (hm q).2 _ (List.mem_map.mpr ⟨p, (mem_block _ _ _ _).mpr hq.1, rfl⟩)

/-- **C43** (maxima). Under the same conditions, every element of what `AdaptiveMaxPool` returns is one
of the elements of its box and at least every one of them. -/
theorem adaptive_max (target : List Nat) (x : NArr α) (c : Nat) (ns : List Nat)
    (hx : x.shape = c :: ns) (hr : ns.length = target.length)
    (ht : ∀ d t n : Nat, target[d]? = some t → ns[d]? = some n → 0 < t ∧ t ≤ n) :
    ∃ y, adaptivePool maxl id target x = .ok y ∧ y.shape = c :: target ∧
      ∀ (ch : Nat) (js : List Nat), InB (ch :: js) (c :: target) →
        (∃ q, InBox ns target js q ∧ y.at_ (ch :: js) = x.at_ (ch :: q)) ∧
        ∀ q, InBox ns target js q → x.at_ (ch :: q) ≤ y.at_ (ch :: js) := by
  obtain ⟨y, h1, h2⟩ := adaptive_value maxl id target x (by simp [hx, hr])
    (fun d t n a b => ht d t n a (by simpa [hx] using b))
  have hs := adaptive_shape maxl id target x y c ns hx hr ht h1
  refine ⟨y, h1, hs, fun ch js hi => ?_⟩
  have hl : js.length = target.length := by simpa using inB_length hi
  have := poolAll_max ns target hr [ch] x [c] rfl (by simp [hx]) js hl ht
  rw [h2.2 _ (hs ▸ hi)]
  simpa using this

end Max

/-! ## The hypotheses are met -/

/-- The box of element `(1, 0)` when a `5 × 4` image is pooled to `3 × 2`. -/
example : box [5, 4] [3, 2] [1, 0] = [[2, 0], [2, 1], [3, 0], [3, 1]] := by decide

/-- The hypothesis on sizes, for a `5 × 4` image and target `3 × 2`. -/
example : ∀ d t n : Nat, [3, 2][d]? = some t → [5, 4][d]? = some n → 0 < t ∧ t ≤ n := by
  intro d t n h1 h2
  rcases d with _ | _ | d
  · simp at h1 h2; omega
  · simp at h1 h2; omega
  · simp at h1

end Verif.NN.Adaptive
