import Verif.Enum.Model
import Verif.State.Model

/-!
# The model against the tests: `tests/test_enum.py`, `tests/test_stateful.py`

These are tests, not proofs: they say that the model computes what the tests of equinox expect.
-/

namespace Verif
namespace Conform
namespace Enums

open Enum

def magic (n : String) : Bool := "__".toList.isPrefixOf n.toList && "__".toList.isSuffixOf n.toList
def reserved (n : String) : Bool := n == "promote" || n == "where"
def noneShadowed : String → Bool := fun _ => false

/-- Class statements one after the other. -/
def classes (decls : List (Decl String String)) : List (Cls String String) :=
  match build magic reserved decls with
  | .ok env => env
  | .error _ => []

/-- `C.name` -/
def item (env : List (Cls String String)) (c : Nat) (n : String) : Except Err Item := getattr noneShadowed env c n

/-- `x == y` for two items. -/
def eqs (env : List (Cls String String)) (c : Nat) (n : String) (d : Nat) (m : String) : Except Err Bool := do
  itemEq (← item env c n) (← item env d m)

/-- `C.promote(D.m) == C.n` -/
def promotes (env : List (Cls String String)) (c d : Nat) (m n : String) : Except Err Bool := do
  itemEq (← promote env c (← item env d m)) (← item env c n)

/-- `test_equality`, `test_where`: `A`, `B`, `C(A)` -/
def env1 := classes [([], [("x", "foo"), ("y", "bar")]), ([], [("z", "qux")]), ([0], [("w", "quux")])]

example : eqs env1 0 "x" 0 "x" = .ok true ∧ eqs env1 0 "x" 0 "y" = .ok false ∧ eqs env1 0 "x" 1 "z" = .error .valueError ∧
    (do enumWhere 0 (some true) (← item env1 0 "x") (← item env1 0 "y")) = item env1 0 "x" ∧
    (do enumWhere 0 (some false) (← item env1 0 "x") (← item env1 0 "y")) = item env1 0 "y" ∧
    (do enumWhere 0 (some true) (← item env1 0 "x") (← item env1 1 "z")) = .error .valueError ∧
    (do enumWhere 0 (some true) (← item env1 0 "x") (← item env1 2 "w")) = .error .valueError :=
  ⟨rfl, rfl, rfl, rfl, rfl, rfl, rfl⟩

/-- `test_inheritance_and_len`: `A`, `B`, `C1(A, B)`, `C2(B, A)`, `D1(C1, A)`, `D2(C2, A)` -/
def decls2 : List (Decl String String) := [([], [("a", "foo")]), ([], [("b", "bar")]), ([0, 1], [("c", "qux")]), ([1, 0], [("c", "qux")]),
  ([2, 0], [("d", "quux")]), ([3, 0], [("d", "quux")])]

def env2 := classes decls2

/-- `D3(A, C1)` and `D4(A, C2)` cannot be made. -/
example : (create magic reserved env2 [0, 2] [("d", "quux")]).toOption.isNone ∧
    (create magic reserved env2 [0, 3] [("d", "quux")]).toOption.isNone := ⟨rfl, rfl⟩

example : eqs env2 4 "a" 0 "a" = .error .valueError ∧ eqs env2 4 "d" 0 "a" = .error .valueError := ⟨rfl, rfl⟩

example : promotes env2 2 0 "a" "a" = .ok true ∧ promotes env2 3 0 "a" "a" = .ok true ∧ promotes env2 2 1 "b" "b" = .ok true ∧
    promotes env2 3 1 "b" "b" = .ok true ∧ promotes env2 2 2 "c" "c" = .error .valueError ∧
    promotes env2 2 3 "c" "c" = .error .valueError := ⟨rfl, rfl, rfl, rfl, rfl, rfl⟩

example : promotes env2 4 0 "a" "a" = .ok true ∧ promotes env2 4 1 "b" "b" = .ok true ∧ promotes env2 4 2 "a" "a" = .ok true ∧
    promotes env2 4 2 "b" "b" = .ok true ∧ promotes env2 4 2 "c" "c" = .ok true := ⟨rfl, rfl, rfl, rfl, rfl⟩

example : promotes env2 5 0 "a" "a" = .ok true ∧ promotes env2 5 1 "b" "b" = .ok true ∧ promotes env2 5 3 "a" "a" = .ok true ∧
    promotes env2 5 3 "b" "b" = .ok true ∧ promotes env2 5 3 "c" "c" = .ok true := ⟨rfl, rfl, rfl, rfl, rfl⟩

example : promotes env2 2 1 "b" "a" = .ok false ∧ promotes env2 5 0 "a" "b" = .ok false := ⟨rfl, rfl⟩

example : (List.range 6).map (len env2) = [1, 1, 3, 3, 4, 4] := rfl

/-- `test_inheritance2`: `A`, `B`, `C(A, B)` -/
def env3 := classes [([], [("a", "a"), ("b", "b")]), ([], [("a", "a"), ("c", "c")]), ([0, 1], [])]

example : promotes env3 2 0 "a" "a" = .ok true ∧ promotes env3 2 0 "b" "b" = .ok true ∧ promotes env3 2 1 "a" "a" = .ok true ∧
    promotes env3 2 1 "c" "c" = .ok true := ⟨rfl, rfl, rfl, rfl⟩

/-- `test_getitem` -/
def env4 := classes [([], [("a", "hi")]), ([], [("b", "bye")])]

example : (do message env4 0 (← item env4 0 "a")) = .ok "hi" ∧ (do message env4 0 (← item env4 1 "b")) = .error .valueError :=
  ⟨rfl, rfl⟩

/-- `test_duplicate_fields`: `A`, `B`, `C(A, B)`, `D(A)`, `E(A)`, `F(A, B)` -/
def env5 := classes [([], [("a", "hi")]), ([], [("a", "hi")]), ([0, 1], []), ([0], [("a", "hi")]), ([0], [("a", "not hi")]),
  ([0, 1], [("a", "not hi")])]

example : (do message env5 4 (← item env5 4 "a")) = .ok "not hi" ∧ (do message env5 5 (← item env5 5 "a")) = .ok "not hi" :=
  ⟨rfl, rfl⟩

/-! ## `tests/test_stateful.py` -/

open State

/-- `BatchNorm(3, "batch")`: two arrays, and the indices of its state. -/
def model : PT Unit (MLeaf String Nat) := .node () [.leaf (.val "weight"), .leaf (.val "bias"),
  .leaf (.idx (.obj 0) (some 10)), .leaf (.idx (.obj 1) (some 20))]

/-- `test_delete_init_state` -/
example : (stateOf (V := Nat) id model).toOption.isSome ∧ stateOf (V := Nat) id (deleteInit model) = .error .valueError := ⟨rfl, rfl⟩

/-- `test_double_state`: two calls of `make_with_state` give markers that agree. -/
def model' : PT Unit (MLeaf String Nat) := .node () [.leaf (.val "weight"), .leaf (.val "bias"),
  .leaf (.idx (.obj 7) (some 11)), .leaf (.idx (.obj 5) (some 22))]

example : (makeWithState (V := Nat) id model).map (fun p => p.2.keys) = (makeWithState (V := Nat) id model').map fun p => p.2.keys := rfl

end Enums
end Conform
end Verif
