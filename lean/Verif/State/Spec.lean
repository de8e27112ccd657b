import Verif.State.Model

/-!
# What a history of `State` operations means

These definitions look only at the log of operations and results, never at the heap.
-/

namespace Verif
namespace State

variable {K V : Type} [DecidableEq K]

/-- A `State` object with this address was returned at some point. -/
def Created (log : Log K V) (a : Nat) : Prop := ∃ op, (op, Out.state a) ∈ log

/-- The object was used up by a `set` or an `update` which succeeded. -/
def Consumed (log : Log K V) (a : Nat) : Prop :=
  ∃ a', (∃ item v, (Op.set a item v, Out.state a') ∈ log) ∨ (∃ arg, (Op.update a arg, Out.state a') ∈ log)

/-- The value an object has for an index, by the history of how the object came about: the value most recently
set on the chain of objects it derives from. -/
def valueOf (conv : V → V) : Log K V → Nat → K → Option V
  | [], _, _ => none
  | (op, .state a') :: log, a, k =>
    if a = a' then
      match op with
      | .create l => (Dict.ofList l).get? k
      | .set a₀ (.index k₀) v => if k = k₀ then some (conv v) else valueOf conv log a₀ k
      | .substate a₀ ms => if k ∈ ms then valueOf conv log a₀ k else none
      | .update a₀ (.state b) => (valueOf conv log b k).or (valueOf conv log a₀ k)
      | .unflatten ks vs => (Dict.ofList (ks.zip vs)).get? k
      | _ => none
    else valueOf conv log a k
  | (_, _) :: log, a, k => valueOf conv log a k

/-- The operation is performed on this object. -/
def Op.target : Op K V → Option Nat
  | .create _ => none
  | .get a _ => some a
  | .set a _ _ => some a
  | .substate a _ => some a
  | .update a _ => some a
  | .flatten a => some a
  | .unflatten _ _ => none

/-- The object was obtained from `State(model)` by `set` operations only. -/
inductive BySets (log : Log K V) (l : List (K × V)) : Nat → Prop where
  | create {a} : (Op.create l, Out.state a) ∈ log → BySets log l a
  | set {a item v a'} : BySets log l a → (Op.set a item v, Out.state a') ∈ log → BySets log l a'

/-- Whether a leaf of a model is a `StateIndex`. -/
def MLeaf.isIdx {α V : Type} : MLeaf α V → Bool
  | .idx _ _ => true
  | .val _ => false

/-- How many `StateIndex`es there are before the `i`-th leaf. -/
def rank {α V : Type} (ls : List (MLeaf α V)) (i : Nat) : Nat := (ls.take i).countP MLeaf.isIdx

end State
end Verif
