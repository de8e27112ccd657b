import Verif.Loop.While

/-!
# What the checkpointed while loop should compute

Independent of `Verif.Loop.Checkpoint.Model`.
-/

namespace Verif
namespace Checkpoint

/-- Reverse-mode differentiation of `n` unrolled calls of the body, started at `v`: run the body once,
differentiate the remaining `n` calls, and then pull the cotangent back through this first call.
`g` is the cotangent of the final value. Returns the cotangent of `v` and the accumulated cotangent of
what the body closes over, starting from `acc`. -/
def backprop {W C B : Type} (body : W → W) (vjp : W → C → B × C) (add : B → B → B) :
    Nat → W → C → B → C × B
  | 0, _, g, acc => (g, acc)
  | n + 1, v, g, acc =>
    let r := backprop body vjp add n (body v) g acc
    let q := vjp v r.1
    (q.2, add r.2 q.1)

/-- The contract on buffers: on every value the loop goes through, filling in the final contents of the
buffers changes neither the rest of the next value nor the derivative. Without buffers, when
`strip` and `refill` are the identity, it holds trivially. -/
structure BufferContract {W V C B : Type} (body : W → W) (vjp : W → C → B × C) (strip : W → V) (refill : V → W)
    (init : W) (n : Nat) : Prop where
  next : ∀ k, k < n → strip (body (refill (strip (iter body k init)))) = strip (iter body (k + 1) init)
  deriv : ∀ k, k < n → vjp (refill (strip (iter body k init))) = vjp (iter body k init)

theorem bufferContract_id {W C B : Type} (body : W → W) (vjp : W → C → B × C) (init : W) (n : Nat) :
    BufferContract body vjp id id init n :=
  ⟨fun k _ => by simp [iter_succ'], fun _ _ => rfl⟩

end Checkpoint
end Verif
