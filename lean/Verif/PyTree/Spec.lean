import Verif.PyTree.Model

/-! # Specification vocabulary for pytrees: positions, prefixes, cut leaves -/

namespace Verif
namespace PT

variable {K : Type} {α : Type} {β : Type} {γ : Type}

/-- `d` is a prefix of `t`: wherever `d` has a container, `t` has the same container with the same
number of children; wherever `d` has `None`, `t` has `None`; wherever `d` has a leaf, `t` has
something. -/
def IsPrefix (d : PT K β) (t : PT K α) : Prop :=
  ∀ π, match d.headAt? π with
    | Option.none => True
    | some (.leaf _) => (t.get? π).isSome
    | some .none => t.headAt? π = some .none
    | some (.node k n) => t.headAt? π = some (.node k n)

/-- `x` is found at position `π` of `t` when `t` is flattened with `is_leaf = p`: it is an actual
leaf or `p` accepts it, and `p` accepts no object on the way down to it. -/
def IsCutLeaf (p : PT K α → Bool) (t : PT K α) (π : List Nat) (x : PT K α) : Prop :=
  t.get? π = some x ∧ ((∃ a, x = .leaf a) ∨ p x = true) ∧
    ∀ ρ σ y, π = ρ ++ σ → σ ≠ [] → t.get? ρ = some y → p y = false

/-- The position `π` lies strictly above the cut leaves: nothing at it or above it is accepted by
`p`, and it is not an actual leaf. -/
def IsSkeleton (p : PT K α → Bool) (t : PT K α) (π : List Nat) : Prop :=
  (∃ x, t.get? π = some x ∧ (∀ a, x ≠ .leaf a)) ∧
    ∀ ρ σ y, π = ρ ++ σ → t.get? ρ = some y → p y = false

/-- Two trees have the same containers (type, auxiliary data, number of children), Nones and leaf
positions. -/
def SameStructure (s : PT K α) (t : PT K β) : Prop :=
  ∀ π, match s.headAt? π, t.headAt? π with
    | Option.none, Option.none => True
    | some (.leaf _), some (.leaf _) => True
    | some .none, some .none => True
    | some (.node k n), some (.node l m) => k = l ∧ n = m
    | _, _ => False

end PT
end Verif
