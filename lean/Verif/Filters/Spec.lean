import Verif.PyTree.Spec
import Verif.Filters.Model

/-! # Specification vocabulary for filters -/

namespace Verif
namespace Filters

open PT

variable {K : Type} {α : Type}

/-- The spec entry `s` governs the object `x` at position `π` of `t`: some prefix `σ` of `π` is a
leaf position of the spec carrying `s`, and `x` is one of the leaves (with respect to `is_leaf = p`)
of the subtree of `t` at `σ`, found at `π`. -/
def Governs (p : PT K α → Bool) (spec : PT K (Spec K α)) (t : PT K α) (π : List Nat)
    (s : Spec K α) (x : PT K α) : Prop :=
  ∃ σ ρ sub, π = σ ++ ρ ∧ spec.leafAt? σ = some s ∧ t.get? σ = some sub ∧ IsCutLeaf p sub ρ x

/-- The spec entry `s` evaluates on `x` to the truth value `b`. -/
def Evaluates (s : Spec K α) (x : PT K α) (b : Bool) : Prop :=
  s = .bool b ∨ ∃ f, s = .callable f ∧ f x = .ok b

/-- `π` lies strictly above every governed position. -/
def Above (p : PT K α → Bool) (spec : PT K (Spec K α)) (t : PT K α) (π : List Nat) : Prop :=
  (t.get? π).isSome ∧ ∀ σ ρ s x, π = σ ++ ρ → ¬ Governs p spec t σ s x

/-- The first object in a list which is not `None`; `None` if there is none. -/
def IsFirstNonNone (xs : List (PT K α)) (y : PT K α) : Prop :=
  (y = .none ∧ ∀ x ∈ xs, x = .none) ∨
    (y ≠ .none ∧ ∃ i : Nat, xs[i]? = some y ∧ ∀ j : Nat, j < i → xs[j]? = some .none)

/-- `is_leaf` looks at the type of a container only, as `lambda x: isinstance(x, C)` does. -/
def TypeBased (p : PT K α → Bool) : Prop := ∀ k cs cs', p (.node k cs) = p (.node k cs')

/-- An optional leaf the equinox way: `None` when absent. -/
def orNone : Option α → PT K α
  | some a => .leaf a
  | Option.none => .none

/-- A tree some of whose leaves may be absent, written the equinox way with `None` for an absent
leaf. -/
def withNones (c : PT K (Option α)) : PT K α :=
  (c.map orNone).join

/-- `o` is the position-wise first present leaf of the trees `cs`, in order. -/
def IsMerge (cs : List (PT K (Option α))) (o : PT K (Option α)) : Prop :=
  (∀ c ∈ cs, SameStructure c o) ∧
    ∀ π v, o.leafAt? π = some v → v = cs.findSome? (fun c => (c.leafAt? π).join)

end Filters
end Verif
