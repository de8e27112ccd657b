import Verif.TreeAt.Model
import Verif.PyTree.Spec

/-! # Vocabulary for the properties of `tree_at` -/

namespace Verif
namespace TreeAt

variable {K α : Type}

/-- The object with identity `i` is found at position `π`. -/
def At (x : Obj K α) (i : Id) (π : List Nat) : Prop := ∃ y, x.get? π = some y ∧ idOf y = i

/-- ... and none of the objects strictly above it is selected. -/
def Topmost (x : Obj K α) (ids : List Id) (i : Id) (π : List Nat) : Prop :=
  At x i π ∧ ∀ ρ σ j, π = ρ ++ σ → σ ≠ [] → j ∈ ids → ¬ At x j ρ

/-- `out` is `t` with the objects with identities `ids` replaced. `new j π z` says that `z` is a correct replacement
for the `j`-th of them, which is at position `π`. -/
structure Replaced (x : Obj K α) (t out : PT K (Val α)) (ids : List Id)
    (new : Nat → List Nat → PT K (Val α) → Prop) : Prop where
  /-- every selected object is at exactly one place -/
  once : ∀ i ∈ ids, ∃ π, Topmost x ids i π ∧ ∀ π', Topmost x ids i π' → π' = π
  /-- where it is replaced (if it was selected repeatedly, by the last replacement) -/
  put : ∀ (j : Nat) i π, ids[j]? = some i → (∀ j', j < j' → ids[j']? ≠ some i) → Topmost x ids i π →
    ∃ z, new j π z ∧ out.get? π = some z
  /-- and nothing else changes -/
  frame : ∀ π, (∀ i ∈ ids, ∀ σ ρ, π = σ ++ ρ → ¬ Topmost x ids i σ) → out.headAt? π = t.headAt? π

/-- `where = lambda t: t.<p>`, following child indices. -/
def selectOne (p : List Nat) (x : Obj K α) : Except Err (Obj K α) :=
  match x.get? p with
  | some y => .ok y
  | none => .error .attributeError

/-- The children at several positions. -/
def getAll (x : Obj K α) : List (List Nat) → Option (List (Obj K α))
  | [] => some []
  | p :: ps => (x.get? p).bind (fun y => (getAll x ps).map (y :: ·))

/-- `where = lambda t: (t.<p1>, t.<p2>, ...)`: a new tuple, list or other container of type `k`. -/
def selectMany (k : K) (n : Nat) (ps : List (List Nat)) (x : Obj K α) : Except Err (Obj K α) :=
  match getAll x ps with
  | some ys => .ok (.node (.given n, k) ys)
  | none => .error .attributeError

/-- No leaf of the tree is an empty instance of a subclass of `tuple`. -/
def NoOddTuples (env : Env K α) (t : PT K (Val α)) : Prop := ∀ π v, t.leafAt? π = some v → env.emptyTuple v.2 = false

end TreeAt
end Verif
