import Verif.Filters.Model
import Mathlib.Order.Defs.LinearOrder

/-!
# `equinox/internal/_nontraceable.py`

A value under transformations is a tracer: for each transformation in force, innermost first, whether this value is affected by it
(mapped by a `vmap`, or carrying a tangent that is not a symbolic zero under a `jvp`), and the array in each lane.  `val` takes the index of
the lane for each level that maps the value, in the same order.  A primitive is handled by the
rule of the innermost transformation affecting its operand, which runs in the transformations outside of it; transformations not affecting
it are passed by.

An element of an array is `none` if it is not a number.  `error_if` is C32; here it raises if any lane does.
-/

namespace Verif
namespace Nontraceable

open PT

/-- One transformation in force, as seen by a value. -/
inductive Level where
  /-- `jax.vmap` over this many lanes -/
  | vmap (size : Nat) (mapped : Bool)
  /-- `jax.jvp` (with which reverse mode begins too) -/
  | jvp (perturbed : Bool)
deriving DecidableEq, Repr

/-- A traced array. -/
structure Tracer (α : Type) where
  levels : List Level
  val : List Nat → List (Option α)

/-- A leaf: an array, or something else. -/
inductive Leaf (α O : Type) where
  | arr (x : Tracer α)
  | other (o : O)

/-- `is_array` -/
def Leaf.isArr {α O : Type} : Leaf α O → Bool
  | .arr _ => true
  | .other _ => false

/-- `nontraceable_p.bind` (22-40). -/
def bindNontraceable : List Level → Except Err Unit
  | [] => .ok ()
  | .vmap _ true :: _ => .error .runtimeError
  | .jvp true :: _ => .error .runtimeError
  | .vmap _ false :: ls => bindNontraceable ls
  | .jvp false :: ls => bindNontraceable ls

variable {α : Type} [LinearOrder α]

/-- The minimum (`jnp.min`) and the maximum (`jnp.max`) of two numbers which may not be numbers. -/
def min2 : Option α → Option α → Option α
  | some a, some b => some (min a b)
  | _, _ => Option.none
def max2 : Option α → Option α → Option α
  | some a, some b => some (max a b)
  | _, _ => Option.none

/-- `a != b` -/
def neq : Option α → Option α → Bool
  | some a, some b => a ≠ b
  | _, _ => true

/-- An element of an array with these elements. -/
def elem (a : List (Option α)) (j : Nat) : Option α := (a[j]?).getD Option.none

/-- `jnp.min(x, axis=b)` at element `j`, over `n + 1` lanes. -/
def minLanes (f : Nat → List (Option α)) (j : Nat) : Nat → Option α
  | 0 => elem (f 0) j
  | n + 1 => min2 (minLanes f j n) (elem (f (n + 1)) j)
def maxLanes (f : Nat → List (Option α)) (j : Nat) : Nat → Option α
  | 0 => elem (f 0) j
  | n + 1 => max2 (maxLanes f j n) (elem (f (n + 1)) j)

/-- All lanes of these levels. -/
def lanes : List Level → List (List Nat)
  | [] => [[]]
  | .vmap n true :: ls => (List.range n).flatMap fun i => (lanes ls).map (i :: ·)
  | .vmap _ false :: ls => lanes ls
  | .jvp _ :: ls => lanes ls

/-- `(jnp.min(x, axis=b) != jnp.max(x, axis=b)).any()` in one lane of the outer levels, over `n + 1` lanes. -/
def differs (f : Nat → List (Option α)) (n : Nat) : Bool :=
  (List.range (f 0).length).any fun j => neq (minLanes f j n) (maxLanes f j n)

/-- `_cannot_batch` (127-137) for an operand which is mapped over `n` lanes, under the levels `ls`. -/
def cannotBatch (allowConstant : Bool) (n : Nat) (ls : List Level) (val : List Nat → List (Option α)) :
    Except Err (List Level × (List Nat → List (Option α))) :=
  if allowConstant then
    match n with
    | 0 => .error .valueError
    | n + 1 =>
      if (lanes ls).any fun l => differs (fun i => val (i :: l)) n then .error .runtimeError
      else .ok (.vmap (n + 1) false :: ls, fun l => val (0 :: l))
  else .error .valueError

/-- `nonbatchable_p.bind` (140-149). There is no rule for `jvp`. -/
def bindNonbatchable (allowConstant : Bool) : List Level → (List Nat → List (Option α)) →
    Except Err (List Level × (List Nat → List (Option α)))
  | [], val => .ok ([], val)
  | .vmap n true :: ls, val => cannotBatch allowConstant n ls val
  | .jvp true :: _, _ => .error .notImplemented
  | .vmap n false :: ls, val => do
    let r ← bindNonbatchable allowConstant ls val
    pure (.vmap n false :: r.1, r.2)
  | .jvp false :: ls, val => do
    let r ← bindNonbatchable allowConstant ls val
    pure (.jvp false :: r.1, r.2)

/-- One leaf. -/
def onTracer {O : Type} (bind : Tracer α → Except Err (Tracer α)) : Leaf α O → Except Err (Leaf α O)
  | .arr x => do
    let y ← bind x
    pure (.arr y)
  | .other o => .ok (.other o)

/-- `partition`, `bind` for each leaf, `combine` (50-53, 116-124, 160-182). -/
def onArrays {K O : Type} [DecidableEq K] (bind : Tracer α → Except Err (Tracer α)) (x : PT K (Leaf α O)) :
    Except Err (PT K (Leaf α O)) := do
  let isArray : PT K (Leaf α O) → Bool := fun y => match y with
    | .leaf a => a.isArr
    | _ => false
  let p ← Filters.partition noLeaf (.leaf (.callable fun y => .ok (isArray y))) .none x
  let flat ← mapE (onTracer bind) p.1.leaves
  let dynamic ← treeUnflatten p.1.shape (flat.map .leaf)
  Filters.combine noLeaf [dynamic, p.2]

/-- `nontraceable` (43-53). -/
def nontraceable {K O : Type} [DecidableEq K] (x : PT K (Leaf α O)) : Except Err (PT K (Leaf α O)) :=
  onArrays (fun t => do
    let _ ← bindNontraceable t.levels
    pure t) x

/-- `nonbatchable` (152-182). -/
def nonbatchable {K O : Type} [DecidableEq K] (allowConstant : Bool) (x : PT K (Leaf α O)) : Except Err (PT K (Leaf α O)) :=
  onArrays (fun t => do
    let r ← bindNonbatchable allowConstant t.levels t.val
    pure ⟨r.1, r.2⟩) x

/-! ## `nondifferentiable_backward` -/

/-- A value under a nest of forward-mode derivatives: a primal and a tangent (which may be a symbolic zero), each of them a value under the rest of
the nest. -/
inductive Dual (A : Type) where
  | base (a : A)
  | pair (primal : Dual A) (tangent : Option (Dual A))

mutual
/-- `nondifferentiable_backward_p.bind` under forward mode (65-70, 91-96). JAX hands the rule an array of zeros for a symbolic zero
unless all are, in which case the rule is not run. -/
def Dual.mark {A : Type} : Dual A → Dual A
  | .base a => .base a
  | .pair p t => .pair p.mark (markTangent t)
def markTangent {A : Type} : Option (Dual A) → Option (Dual A)
  | Option.none => Option.none
  | some t => some t.mark
end

/-- An equation of a linear program, as it is run backwards: it reads some variables and defines the next one. -/
inductive Eqn (C : Type) where
  /-- a linear operation with its transpose: the contribution to the cotangent of each variable read, where `none` is a symbolic zero -/
  | op (ins : List Nat) (transpose : C → List (Option C))
  /-- `nondifferentiable_backward` of a variable -/
  | mark (symbolic : Bool) (v : Nat)

/-- The cotangents known: `none` is a symbolic zero. -/
abbrev Cts (C : Type) := Nat → Option C

/-- Adding a contribution. -/
def addCt {C : Type} (add : C → C → C) (e : Cts C) (v : Nat) (c : Option C) : Cts C := fun w =>
  if w = v then
    match e v, c with
    | some a, some b => some (add a b)
    | some a, Option.none => some a
    | Option.none, c => c
  else e w

/-- Adding contributions to several variables. -/
def addCts {C : Type} (add : C → C → C) : Cts C → List Nat → List (Option C) → Cts C
  | e, v :: vs, c :: cs => addCts add (addCt add e v c) vs cs
  | e, _, _ => e

/-- `_nondifferentiable_backward_transpose` (73-88): the cotangent, and whether the check made when the program is run fails. -/
def markTranspose {C : Type} (nonzero : C → Bool) (symbolic : Bool) : Option C → Except Err (Option C × Bool)
  | Option.none => .ok (Option.none, false)
  | some c => if symbolic then .error .runtimeError else .ok (some c, nonzero c)

/-- The backward pass over the equations, the last one first; the equation at the head of the list defines the variable `n`, where `n` is the number
of variables defined before it. The Boolean is whether a check fails when the program is run. -/
def backward {C : Type} (add : C → C → C) (nonzero : C → Bool) : List (Eqn C) → Nat → Cts C → Except Err (Cts C × Bool)
  | [], _, e => .ok (e, false)
  | .op ins transpose :: es, n, e =>
    match e n with
    | Option.none => backward add nonzero es (n - 1) e
    | some c => backward add nonzero es (n - 1) (addCts add e ins (transpose c))
  | .mark symbolic v :: es, n, e => do
    let r ← markTranspose nonzero symbolic (e n)
    let rest ← backward add nonzero es (n - 1) (addCt add e v r.1)
    pure (rest.1, r.2 || rest.2)

/-- Reverse mode of a program: it is traced, which may raise, and run, where a failed check raises. -/
def grad {C : Type} (add : C → C → C) (nonzero : C → Bool) (es : List (Eqn C)) (n : Nat) (e : Cts C) : Except Err (Cts C) := do
  let r ← backward add nonzero es n e
  if r.2 then throw .runtimeError
  pure r.1

end Nontraceable
end Verif
