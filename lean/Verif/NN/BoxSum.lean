import Verif.NN.NArr
import Mathlib.Algebra.BigOperators.Group.Finset.Basic
import Mathlib.Algebra.BigOperators.Ring.Finset
import Mathlib.Algebra.BigOperators.Group.Finset.Sigma
import Mathlib.Data.Finset.Basic
/-!
# Sums over boxes of indices
-/

namespace Verif.NN

/-- The sum of `f` over all indices of an array of the given shape. -/
def boxSum {M : Type} [AddCommMonoid M] : List Nat → (List Nat → M) → M
  | [], f => f []
  | n :: ns, f => ∑ i ∈ Finset.range n, boxSum ns fun is => f (i :: is)

variable {M : Type} [AddCommMonoid M]

theorem boxSum_congr {ns : List Nat} {f g : List Nat → M} (h : ∀ i, InB i ns → f i = g i) :
    boxSum ns f = boxSum ns g := by
  induction ns generalizing f g with
  | nil => exact h [] trivial
  | cons n ns ih =>
    exact Finset.sum_congr rfl fun i hi => ih fun is his => h _ ⟨Finset.mem_range.mp hi, his⟩

theorem boxSum_zero (ns : List Nat) : boxSum ns (fun _ => (0 : M)) = 0 := by
  induction ns with
  | nil => rfl
  | cons n ns ih => simp [boxSum, ih]

theorem boxSum_comm (ns ms : List Nat) (f : List Nat → List Nat → M) :
    boxSum ns (fun i => boxSum ms (f i)) = boxSum ms (fun j => boxSum ns (fun i => f i j)) := by
  induction ns generalizing f with
  | nil => rfl
  | cons n ns ih =>
    simp only [boxSum, ih]
    clear ih
    have : ∀ (F : Nat → List Nat → M), ∑ i ∈ Finset.range n, boxSum ms (F i) =
        boxSum ms (fun j => ∑ i ∈ Finset.range n, F i j) := by
      induction ms with
      | nil => intro F; rfl
      | cons m ms ihm =>
        intro F
        simp only [boxSum]
        rw [Finset.sum_comm]
        exact Finset.sum_congr rfl fun j _ => ihm _
    exact this _

theorem boxSum_range (n : Nat) (ms : List Nat) (F : Nat → List Nat → M) :
    ∑ i ∈ Finset.range n, boxSum ms (F i) = boxSum ms (fun j => ∑ i ∈ Finset.range n, F i j) := by
  have := boxSum_comm [n] ms (fun i => F (i.headD 0))
  simpa [boxSum] using this

theorem boxSum_mul {R : Type} [NonUnitalNonAssocSemiring R] (ns : List Nat) (f : List Nat → R) (c : R) :
    boxSum ns f * c = boxSum ns fun i => f i * c := by
  induction ns generalizing f with
  | nil => rfl
  | cons n ns ih => simp only [boxSum, Finset.sum_mul, ih]

theorem mul_boxSum {R : Type} [NonUnitalNonAssocSemiring R] (ns : List Nat) (f : List Nat → R) (c : R) :
    c * boxSum ns f = boxSum ns fun i => c * f i := by
  induction ns generalizing f with
  | nil => rfl
  | cons n ns ih => simp only [boxSum, Finset.mul_sum, ih]

/-- Reading a window of an array padded with zeros is adding up the elements of the array that lie in
the window (one dimension). -/
theorem sum_window (a : Int) (K n : Nat) (G : Nat → M) :
    ∑ j ∈ Finset.range K, (if 0 ≤ a + j ∧ a + j < n then G (a + j).toNat else 0) =
      ∑ q ∈ Finset.range n, (if a ≤ q ∧ (q : Int) < a + K then G q else 0) := by
  rw [← Finset.sum_filter, ← Finset.sum_filter]
  refine Finset.sum_nbij' (fun j => (a + j).toNat) (fun q => ((q : Int) - a).toNat) ?_ ?_ ?_ ?_ ?_
  · intro j hj; simp only [Finset.mem_filter, Finset.mem_range] at *; omega
  · intro q hq; simp only [Finset.mem_filter, Finset.mem_range] at *; omega
  · intro j hj; simp only [Finset.mem_filter, Finset.mem_range] at *; omega
  · intro q hq; simp only [Finset.mem_filter, Finset.mem_range] at *; omega
  · intro j hj; rfl

end Verif.NN
