import Verif.Loop.Checkpoint.Model

/-!
# The model against the tests: `tests/test_while_loop.py`, `test_backward_checkpointed`

These are tests, not proofs: they say that the model computes what the tests of equinox expect.

The test prints the number of every step when the body is evaluated, and compares with a list of numbers for
the backward pass. One iteration of the backward loop evaluates the body once, at step `step_val`.
-/

namespace Verif
namespace Conform
namespace Loop

open Checkpoint

/-- The forward pass of `n` steps. Values are step numbers. -/
def forward (c : Nat) (maxSteps : Option Nat) (n : Nat) : Fwd Int Int :=
  (List.range n).foldl (fun s _ => fwdBody (· + 1) id c maxSteps s) (fwdInit 1000 c 0 0)

/-- The steps at which the backward pass evaluates the body, in order. -/
def order (c : Nat) (maxSteps : Option Nat) : Nat → Bwd Int Unit Unit → List Int
  | 0, _ => []
  | fuel + 1, s =>
    if bwdCond s then
      s.val :: order c maxSteps fuel (bwdBody (· + 1) (fun _ _ => ((), ())) id id (fun _ _ => ()) 1000 c maxSteps s)
    else []

/-- `backward_order` for a loop of `n` steps with `c` checkpoints. -/
def backward (c n : Nat) (withMaxSteps : Bool) : List Int :=
  let maxSteps := if withMaxSteps then some n else none
  order c maxSteps (n * n + 1) (bwdInit 1000 c maxSteps (fwdFinish c maxSteps (forward c maxSteps n)) () ())

/-! The cases of lines 127-148, each with and without `max_steps`. They are evaluated, not reduced by the kernel
(`argsort` is defined by well-founded recursion). -/

#guard backward 1 3 true = [0, 1, 2, 0, 1, 0]
#guard backward 1 3 false = [0, 1, 2, 0, 1, 0]
#guard backward 1 5 true = [0, 1, 2, 3, 4, 0, 1, 2, 3, 0, 1, 2, 0, 1, 0]
#guard backward 1 5 false = [0, 1, 2, 3, 4, 0, 1, 2, 3, 0, 1, 2, 0, 1, 0]
#guard backward 2 8 true = [7, 0, 1, 2, 3, 4, 5, 6, 3, 4, 5, 3, 4, 3, 0, 1, 2, 1, 0]
#guard backward 2 8 false = [7, 0, 1, 2, 3, 4, 5, 6, 3, 4, 5, 3, 4, 3, 0, 1, 2, 1, 0]
#guard backward 3 11 true = [10, 4, 5, 6, 7, 8, 9, 7, 8, 7, 4, 5, 6, 5, 4, 0, 1, 2, 3, 2, 1, 0]
#guard backward 3 11 false = [10, 4, 5, 6, 7, 8, 9, 7, 8, 7, 4, 5, 6, 5, 4, 0, 1, 2, 3, 2, 1, 0]
#guard backward 9 5 true = [4, 3, 2, 1, 0]
#guard backward 9 5 false = [4, 3, 2, 1, 0]
#guard backward 2 5 true = [3, 4, 3, 0, 1, 2, 1, 0]
#guard backward 2 5 false = [3, 4, 3, 0, 1, 2, 1, 0]
#guard backward 4 4 true = [3, 2, 1, 0]
#guard backward 4 4 false = [3, 2, 1, 0]
#guard backward 4 5 true = [3, 4, 3, 2, 1, 0]
#guard backward 4 5 false = [3, 4, 3, 2, 1, 0]
#guard backward 4 6 true = [5, 2, 3, 4, 3, 2, 1, 0]
#guard backward 4 6 false = [5, 2, 3, 4, 3, 2, 1, 0]
#guard backward 4 7 true = [6, 5, 2, 3, 4, 3, 2, 0, 1, 0]
#guard backward 4 7 false = [6, 5, 2, 3, 4, 3, 2, 0, 1, 0]
#guard backward 4 8 true = [7, 6, 5, 0, 1, 2, 3, 4, 3, 2, 1, 0]
#guard backward 4 8 false = [7, 6, 5, 0, 1, 2, 3, 4, 3, 2, 1, 0]
#guard backward 4 9 true = [7, 8, 7, 6, 5, 0, 1, 2, 3, 4, 3, 2, 1, 0]
#guard backward 4 9 false = [7, 8, 7, 6, 5, 0, 1, 2, 3, 4, 3, 2, 1, 0]
#guard backward 4 10 true = [9, 6, 7, 8, 7, 6, 5, 0, 1, 2, 3, 4, 3, 2, 1, 0]
#guard backward 4 10 false = [9, 6, 7, 8, 7, 6, 5, 0, 1, 2, 3, 4, 3, 2, 1, 0]
#guard backward 4 11 true = [10, 9, 5, 6, 7, 8, 7, 6, 5, 0, 1, 2, 3, 4, 3, 2, 1, 0]
#guard backward 4 11 false = [10, 9, 5, 6, 7, 8, 7, 6, 5, 0, 1, 2, 3, 4, 3, 2, 1, 0]
#guard backward 4 12 true = [10, 11, 10, 9, 5, 6, 7, 8, 7, 6, 5, 0, 1, 2, 3, 4, 3, 2, 1, 0]
#guard backward 4 12 false = [10, 11, 10, 9, 5, 6, 7, 8, 7, 6, 5, 0, 1, 2, 3, 4, 3, 2, 1, 0]
#guard backward 4 13 true = [12, 9, 10, 11, 10, 9, 5, 6, 7, 8, 7, 6, 5, 0, 1, 2, 3, 4, 3, 2, 1, 0]
#guard backward 4 13 false = [12, 9, 10, 11, 10, 9, 5, 6, 7, 8, 7, 6, 5, 0, 1, 2, 3, 4, 3, 2, 1, 0]
#guard backward 4 14 true = [12, 13, 12, 9, 10, 11, 10, 9, 5, 6, 7, 8, 7, 6, 5, 0, 1, 2, 3, 4, 3, 2, 1, 0]
#guard backward 4 14 false = [12, 13, 12, 9, 10, 11, 10, 9, 5, 6, 7, 8, 7, 6, 5, 0, 1, 2, 3, 4, 3, 2, 1, 0]

end Loop
end Conform
end Verif
