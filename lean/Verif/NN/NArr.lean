import Verif.Basic
/-!
# Arrays of any number of dimensions

The values of an array are given by a function of the index; only indices inside the shape matter
(`NArr.Eq`). `sumBox` adds a function over all indices of a box of integers.
-/

namespace Verif.NN

/-- A numeric array. -/
structure NArr (α : Type) where
  shape : List Nat
  at_ : List Nat → α

/-- The index addresses an element of an array of this shape. -/
def InB : List Nat → List Nat → Prop
  | [], [] => True
  | i :: is, n :: ns => i < n ∧ InB is ns
  | _, _ => False

/-- Equality of arrays: equal shapes, and equal elements at every index inside the shape. -/
def NArr.Eq {α : Type} (x y : NArr α) : Prop :=
  x.shape = y.shape ∧ ∀ i, InB i x.shape → x.at_ i = y.at_ i

theorem inB_length : ∀ {i s : List Nat}, InB i s → i.length = s.length
  | [], [], _ => rfl
  | _ :: _, _ :: _, h => by simp [inB_length h.2]

theorem inB_iff {i s : List Nat} :
    InB i s ↔ i.length = s.length ∧ ∀ (k : Nat) (h : k < i.length) (h' : k < s.length), i[k] < s[k] := by
  induction i generalizing s with
  | nil =>
    cases s with
    | nil => simp [InB]
    | cons n ns => simp [InB]
  | cons a i ih =>
    cases s with
    | nil => simp [InB]
    | cons n ns =>
      simp only [InB, ih, List.length_cons, Nat.add_right_cancel_iff]
      constructor
      · rintro ⟨h1, h2, h3⟩
        refine ⟨h2, fun k hk hk' => ?_⟩
        cases k with
        | zero => exact h1
        | succ k => exact h3 k (by omega) (by omega)
      · rintro ⟨h1, h2⟩
        exact ⟨h2 0 (by simp) (by simp), h1, fun k hk hk' => h2 (k + 1) (by omega) (by omega)⟩

end Verif.NN
