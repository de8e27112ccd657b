import Verif.NN.NArr
import Mathlib.Algebra.Ring.Defs
import Mathlib.Order.Lattice

/-!
# C87: `Embedding` (`equinox/nn/_embedding.py`, 20-106) and `PReLU` (`equinox/nn/_activations.py`)

Outside of the repository: `jax.random.normal` gives an array of the given shape; indexing the first axis of a JAX array by a scalar integer counts
from the end if it is negative, and is clamped if it is out of bounds; by a boolean it adds an axis; by a floating point number it raises
`TypeError`. An array without rows is not indexed. `default_floating_dtype` and `named_scope` are left out.
-/

namespace Verif
namespace NN

variable {α : Type}

/-! ### Model -/

/-- An instance of `Embedding`. -/
structure Embedding (α : Type) where
  numEmbeddings : Int
  embeddingSize : Int
  weight : NArr α

/-- `jrandom.normal(key, shape)`, of shape `shape`. -/
structure Random (Key α : Type) where
  normal : Key → List Nat → List Nat → α

/-- `Embedding.__init__` (27-82) -/
def Embedding.init {Key : Type} (R : Random Key α) (num size : Option Int) (weight : Option (NArr α)) (key : Option Key) :
    Except Err (Embedding α) :=
  match weight with
  | none =>
    match num, size, key with
    | some n, some s, some k =>
      if n < 0 then .error .valueError
      else if s < 0 then .error .valueError
      else .ok ⟨n, s, ⟨[n.toNat, s.toNat], R.normal k [n.toNat, s.toNat]⟩⟩
    | _, _, _ => .error .valueError
  | some w =>
    match w.shape with
    | [a, b] =>
      let n := num.getD a
      let s := size.getD b
      if (a : Int) = n ∧ (b : Int) = s then .ok ⟨n, s, w⟩ else .error .valueError
    | _ => .error .valueError

/-- An argument of `__call__`. -/
inductive Index
  /-- a Python integer, or an integer array of shape `()` -/
  | int (i : Int)
  | bool (b : Bool)
  | float
  /-- an array which is no scalar -/
  | array (shape : List Nat)
  /-- not like an array -/
  | other

/-- `weight[x]` for a scalar. -/
def takeRow (w : NArr α) : Index → Except Err (NArr α)
  | .int i =>
    match w.shape with
    | n :: ns =>
      let j := if i < 0 then i + n else i
      let r := (min (max j 0) (n - 1 : Int)).toNat
      .ok ⟨ns, fun k => w.at_ (r :: k)⟩
    | [] => .error .indexError
  | .bool b => .ok ⟨(if b then 1 else 0) :: w.shape, fun k => w.at_ (k.drop 1)⟩
  | _ => .error .typeError

/-- `Embedding.__call__` (86-106) -/
def Embedding.call (e : Embedding α) : Index → Except Err (NArr α)
  | .array _ => .error .valueError
  | .other => .error .valueError
  | x => takeRow e.weight x

/-- `PReLU.__call__` (35-45), where the shape of `negative_slope` broadcasts to that of `x`; `slope` is the broadcast array. -/
def prelu [Semiring α] [LinearOrder α] (slope x : List Nat → α) : List Nat → α := fun i => if x i ≥ 0 then x i else slope i * x i

/-! ### Theorems -/

/-- **C87**: the constructor succeeds if a table is given whose shape has two axes and agrees with the sizes given, or if there is none and two
non-negative sizes and a key are given; it raises `ValueError` otherwise. -/
theorem embedding_init_iff {Key : Type} (R : Random Key α) (num size : Option Int) (weight : Option (NArr α)) (key : Option Key) :
    ((∃ e, Embedding.init R num size weight key = .ok e) ↔
      (∃ w a b, weight = some w ∧ w.shape = [a, b] ∧ (∀ n, num = some n → n = a) ∧ ∀ s, size = some s → s = b) ∨
      (weight = none ∧ (∃ n, num = some n ∧ 0 ≤ n) ∧ (∃ s, size = some s ∧ 0 ≤ s) ∧ ∃ k, key = some k)) ∧
    ((¬ ∃ e, Embedding.init R num size weight key = .ok e) → Embedding.init R num size weight key = .error .valueError) := by
  cases weight with
  | none =>
    rcases num with _ | n
    · simp [Embedding.init]
    rcases size with _ | s
    · simp [Embedding.init]
    rcases key with _ | k
    · simp [Embedding.init]
    simp only [Embedding.init]
    split
    · simp; omega
    split
    · simp; omega
    · simp; omega
  | some w =>
    rcases hw : w.shape with _ | ⟨a, _ | ⟨b, _ | ⟨c, cs⟩⟩⟩
    · simp [Embedding.init, hw]
    · simp [Embedding.init, hw]
    · simp only [Embedding.init, hw]
      split
      · rename_i h
        refine ⟨⟨fun _ => .inl ⟨w, a, b, rfl, hw, ?_, ?_⟩, fun _ => ⟨_, rfl⟩⟩, fun h' => absurd ⟨_, rfl⟩ h'⟩
        · rintro n rfl; exact h.1.symm
        · rintro s rfl; exact h.2.symm
      · rename_i h
        refine ⟨⟨fun ⟨_, h'⟩ => (nomatch h'), ?_⟩, fun _ => rfl⟩
        rintro (⟨w', a', b', hw', hs, h1, h2⟩ | ⟨h', _⟩)
        · cases hw'
          rw [hw] at hs
          cases hs
          exfalso
          apply h
          constructor
          · cases num with
            | none => rfl
            | some n => exact (h1 n rfl).symm
          · cases size with
            | none => rfl
            | some s => exact (h2 s rfl).symm
        · contradiction
    · simp [Embedding.init, hw]

/-- **C87**: the sizes of an `Embedding` are the shape of its table; a table that is given is kept. -/
theorem embedding_init_sizes {Key : Type} (R : Random Key α) (num size : Option Int) (weight : Option (NArr α)) (key : Option Key)
    (e : Embedding α) (h : Embedding.init R num size weight key = .ok e) :
    e.weight.shape.map Int.ofNat = [e.numEmbeddings, e.embeddingSize] ∧ (∀ w, weight = some w → e.weight = w) ∧
      (∀ n, num = some n → e.numEmbeddings = n) ∧ ∀ s, size = some s → e.embeddingSize = s := by
  cases weight with
  | none =>
    rcases num with _ | n
    · simp [Embedding.init] at h
    rcases size with _ | s
    · simp [Embedding.init] at h
    rcases key with _ | k
    · simp [Embedding.init] at h
    simp only [Embedding.init] at h
    split at h
    · simp at h
    split at h
    · simp at h
    · cases h
      simp
      omega
  | some w =>
    rcases hw : w.shape with _ | ⟨a, _ | ⟨b, _ | ⟨c, cs⟩⟩⟩
    · simp [Embedding.init, hw] at h
    · simp [Embedding.init, hw] at h
    · simp only [Embedding.init, hw] at h
      split at h
      · rename_i h'
        cases h
        refine ⟨by simp [hw, ← h'.1, ← h'.2], fun _ hw' => Option.some.inj hw', ?_, ?_⟩
        · rintro n rfl; rfl
        · rintro s rfl; rfl
      · simp at h
    · simp [Embedding.init, hw] at h

/-- **C87**: looking up gives the row with that number, from the end if it is negative; anything but a scalar is refused, and a float too.
A boolean is no row number: it adds an axis, of length one or zero. -/
theorem embedding_call {n d : Nat} (e : Embedding α) (h : e.weight.shape = [n, d]) :
    (∀ i : Nat, i < n → ∃ y, e.call (.int i) = .ok y ∧ y.shape = [d] ∧ ∀ k, y.at_ [k] = e.weight.at_ [i, k]) ∧
    (∀ i : Nat, 0 < i → i ≤ n → ∃ y, e.call (.int (-i)) = .ok y ∧ y.shape = [d] ∧ ∀ k, y.at_ [k] = e.weight.at_ [n - i, k]) ∧
    (∀ s, e.call (.array s) = .error .valueError) ∧ e.call .other = .error .valueError ∧ e.call .float = .error .typeError ∧
    (∃ y, e.call (.bool true) = .ok y ∧ y.shape = [1, n, d] ∧ ∀ i k, y.at_ [0, i, k] = e.weight.at_ [i, k]) ∧
    ∃ y, e.call (.bool false) = .ok y ∧ y.shape = [0, n, d] := by
  refine ⟨?_, ?_, fun _ => rfl, rfl, rfl, ⟨_, rfl, by simp [h], fun _ _ => rfl⟩, ⟨_, rfl, by simp [h]⟩⟩
  · intro i hi
    refine ⟨_, by simp only [Embedding.call, takeRow, h]; rfl, rfl, ?_⟩
    intro k
    have : (min (max (if (i : Int) < 0 then (i : Int) + n else i) 0) (n - 1 : Int)).toNat = i := by
      rw [if_neg (by omega)]; omega
    simp only [this]
  · intro i h0 hi
    refine ⟨_, by simp only [Embedding.call, takeRow, h]; rfl, rfl, ?_⟩
    intro k
    have : (min (max (if (-i : Int) < 0 then (-i : Int) + n else -i) 0) (n - 1 : Int)).toNat = n - i := by
      rw [if_pos (by omega)]; omega
    simp only [this]

/-- Indices out of bounds are clamped: beyond the end they give the last row, and before the beginning the first. -/
theorem embedding_clamps {n d : Nat} (e : Embedding α) (h : e.weight.shape = [n, d]) (hn : 0 < n) :
    (∀ i : Int, n ≤ i → ∃ y, e.call (.int i) = .ok y ∧ y.shape = [d] ∧ ∀ k, y.at_ [k] = e.weight.at_ [n - 1, k]) ∧
    ∀ i : Int, i < -n → ∃ y, e.call (.int i) = .ok y ∧ y.shape = [d] ∧ ∀ k, y.at_ [k] = e.weight.at_ [0, k] := by
  constructor
  · intro i hi
    refine ⟨_, by simp only [Embedding.call, takeRow, h]; rfl, rfl, ?_⟩
    intro k
    have : (min (max (if i < 0 then i + n else i) 0) (n - 1 : Int)).toNat = n - 1 := by
      rw [if_neg (by omega)]; omega
    simp only [this]
  · intro i hi
    refine ⟨_, by simp only [Embedding.call, takeRow, h]; rfl, rfl, ?_⟩
    intro k
    have : (min (max (if i < 0 then i + n else i) 0) (n - 1 : Int)).toNat = 0 := by
      rw [if_pos (by omega)]; omega
    simp only [this]

/-- **C87**: `PReLU` is `max(x, 0) + α min(x, 0)`, as documented. -/
theorem prelu_eq [Semiring α] [LinearOrder α] (slope x : List Nat → α) (i : List Nat) :
    prelu slope x i = max (x i) 0 + slope i * min (x i) 0 := by
  simp only [prelu]
  split
  · rename_i h
    rw [max_eq_left h, min_eq_right h]
    simp
  · rename_i h
    rw [max_eq_right (not_le.1 h).le, min_eq_left (not_le.1 h).le]
    simp

example : (Embedding.init (Key := Unit) ⟨fun _ _ i => (i.sum : Int)⟩ (some 3) none (some ⟨[3, 2], fun i => (i.sum : Int)⟩) none).toOption.isSome :=
  rfl

end NN
end Verif
