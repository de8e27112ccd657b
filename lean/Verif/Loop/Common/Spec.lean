import Verif.Loop.While

/-!
# What a loop with an optional bound on the number of steps should compute, on one lane

Independent of `Verif.Loop.Common.Model`.
-/

namespace Verif
namespace Common

variable {τ : Type}

/-- The loop, started in `s`, stops after `n` steps: the condition was true before each of them, and is now false
or the bound is reached. -/
structure StopsAfter (cond : τ → Bool) (body : τ → τ) (maxSteps : Option Nat) (s : τ) (n : Nat) : Prop where
  before : ∀ k, k < n → cond (iter body k s) = true
  stop : cond (iter body n s) = false ∨ maxSteps = some n
  bound : ∀ m, maxSteps = some m → n ≤ m

/-- The loop, started in `s`, returns `t`. -/
def Returns (cond : τ → Bool) (body : τ → τ) (maxSteps : Option Nat) (s t : τ) : Prop :=
  ∃ n, StopsAfter cond body maxSteps s n ∧ t = iter body n s

end Common
end Verif
