/-!
# Which checkpoints are kept when there are more steps than a single recomputation can cover

Independent of the model. A list of checkpoints has the latest one first; each has its step and a level. The initial value, which is always kept,
is not in the list.
-/

namespace Verif
namespace Checkpoint

/-- Without the latest of the checkpoints in `rest` that are dispensable: some later one has a level at least two higher. -/
def dropLatest (later : List (Nat × Nat)) : List (Nat × Nat) → Option (List (Nat × Nat))
  | [] => none
  | x :: rest => if later.any (fun y => decide (x.2 + 2 ≤ y.2)) then some (later ++ rest) else dropLatest (later ++ [x]) rest

/-- A checkpoint for step `k`, on level zero, takes the place of the latest dispensable one. If there is none it takes the place of the latest one, one
level higher. -/
def keep (k : Nat) (l : List (Nat × Nat)) : List (Nat × Nat) :=
  match dropLatest [] l, l with
  | some r, _ => (k, 0) :: r
  | none, [] => []
  | none, x :: r => (k, x.2 + 1) :: r

/-- The checkpoints with `c (c + 3) / 2 + d` steps. At first the distances between them, from the initial value on, are `c + 1, c, c - 1, ..., 3`, and the
last one is two steps before the end. -/
def kept (c : Nat) : Nat → List (Nat × Nat)
  | 0 => (List.range (c - 1)).map fun i => ((c - 1 - i) * (c + 4 + i) / 2, 0)
  | d + 1 => keep (c * (c + 3) / 2 + d) (kept c d)

/-- Two checkpoints: always the last step. -/
example : kept 2 0 = [(3, 0)] ∧ kept 2 1 = [(5, 1)] ∧ kept 2 2 = [(6, 2)] := by decide
/-- Four checkpoints. -/
example : kept 4 0 = [(12, 0), (9, 0), (5, 0)] ∧ kept 4 1 = [(14, 1), (9, 0), (5, 0)] ∧ kept 4 2 = [(15, 2), (9, 0), (5, 0)] ∧
    kept 4 3 = [(16, 0), (15, 2), (5, 0)] ∧ kept 4 4 = [(17, 0), (16, 0), (15, 2)] ∧ kept 4 5 = [(18, 1), (16, 0), (15, 2)] := by decide

end Checkpoint
end Verif
