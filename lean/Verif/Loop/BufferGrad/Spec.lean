import Verif.Loop.BufferGrad.Model
import Mathlib.Analysis.Calculus.FDeriv.Prod
import Mathlib.Analysis.Calculus.FDeriv.Pi

/-!
# What loops with buffers compute on plain arrays, and the rules for using buffers

Uses of `Verif.Loop.BufferGrad.Model` only what an instruction is.
-/

namespace Verif
namespace BufferGrad

open Topology

variable {D Q R P K : Type} [DecidableEq R] [DecidableEq P]

/-- An instruction on plain arrays: a predicate decides whether to write. -/
def plainI (θ : Q → K) : Instr D Q R P K → St D R P K → St D R P K
  | .op f _ _, s => ⟨(f s.d θ s.v).1, (f s.d θ s.v).2, s.b⟩
  | .read r i, s => ⟨s.d, Function.update s.v r (s.b (i s.d)), s.b⟩
  | .write x i pred _ _, s => ⟨s.d, s.v, if pred s.d then Function.update s.b (i s.d) (s.v x) else s.b⟩
  | .select out x y pred _ _, s => ⟨s.d, Function.update s.v out (if pred s.d then s.v x else s.v y), s.b⟩

def plain (θ : Q → K) : List (Instr D Q R P K) → St D R P K → St D R P K
  | [], s => s
  | i :: is, s => plain θ is (plainI θ i s)

/-- What a body does with the buffers. -/
inductive Access (P : Type) where
  | read (p : P)
  | write (p : P)

/-- The reads and writes of an instruction. A write with a false predicate is none. -/
def accessI : Instr D Q R P K → St D R P K → List (Access P)
  | .op _ _ _, _ => []
  | .read _ i, s => [.read (i s.d)]
  | .write _ i pred _ _, s => if pred s.d then [.write (i s.d)] else []
  | .select _ _ _ _ _ _, _ => []

def accesses (θ : Q → K) : List (Instr D Q R P K) → St D R P K → List (Access P)
  | [], _ => []
  | i :: is, s => accessI i s ++ accesses θ is (plainI θ i s)

/-- All instructions of `n` executions of the body. -/
def unroll (body : List (Instr D Q R P K)) (n : Nat) : List (Instr D Q R P K) := (List.replicate n body).flatten

/-- The restrictions in the documentation of `while_loop` (loop.py lines 74-91): no location is written twice, and only those
are read that have been written. -/
structure Documented (as : List (Access P)) : Prop where
  once : ∀ l p m r, as ≠ l ++ [.write p] ++ m ++ [.write p] ++ r
  readWritten : ∀ l p r, as = l ++ [.read p] ++ r → .write p ∈ l

/-- The weaker restriction that suffices: a location is not written after it has been written or read. -/
def Disciplined (as : List (Access P)) : Prop :=
  as.Pairwise fun a b => ∀ p, b = .write p → a ≠ .write p ∧ a ≠ .read p

/-- A property of all instructions that are executed, and of the states in which they are. -/
def Along (good : Instr D Q R P K → St D R P K → Prop) (θ : Q → K) : List (Instr D Q R P K) → St D R P K → Prop
  | [], _ => True
  | i :: is, s => good i s ∧ Along good θ is (plainI θ i s)

/-- A predicate that is not batched is true, unless there may be steps with a false predicate. (It is true as `lax.while_loop`
stops otherwise; see `Verif.Common`.) -/
def Live : Instr D Q R P K → St D R P K → Prop
  | .write _ _ pred bt m, s => bt = false → m = false → pred s.d = true
  | .select _ _ _ pred bt m, s => bt = false → m = false → pred s.d = true
  | _, _ => True

/-- The Jacobians are right, and near this point the discrete values do not change. -/
def Smooth [Fintype Q] [Fintype R] (θ : Q → ℝ) : Instr D Q R P ℝ → St D R P ℝ → Prop
  | .op f jacQ jac, s =>
    (∀ᶠ y in 𝓝 (θ, s.v), (f s.d y.1 y.2).1 = (f s.d θ s.v).1) ∧
    ∃ L : (Q → ℝ) × (R → ℝ) →L[ℝ] (R → ℝ), HasFDerivAt (fun y => (f s.d y.1 y.2).2) L (θ, s.v) ∧
      ∀ t r, L t r = ∑ q, jacQ s.d θ s.v r q * t.1 q + ∑ j, jac s.d θ s.v r j * t.2 j
  | _, _ => True

/-- The closed-over values, and the initial values of registers and buffers. -/
abbrev Pt (Q R P : Type) := (Q → ℝ) × (R → ℝ) × (P → ℝ)

/-- The state with discrete part `d`. -/
def Pt.st (d : D) (x : Pt Q R P) : St D R P ℝ := ⟨d, x.2.1, x.2.2⟩

end BufferGrad
end Verif
