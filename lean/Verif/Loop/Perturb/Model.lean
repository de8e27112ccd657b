import Verif.Loop.Checkpoint.Model
import Verif.Basic
import Mathlib.Algebra.BigOperators.Group.Finset.Basic
import Mathlib.Algebra.Group.Hom.Defs
import Mathlib.Data.Fintype.BigOperators

/-!
# Which leaves take part in differentiating a checkpointed loop (`equinox/internal/_loop/checkpointed.py`)

The two fixed points of the backward pass (lines 984-1125), the one of the forward-mode rule (lines 1179-1285), and the
function which is differentiated at each U-turn (lines 818-838).

* A pytree with the structure of the loop's value is a family over `Fin n`, its leaves from the left; one with the structure of
  `body_fun` (what the body closes over) is a family over `Fin m`. The code asserts that the structures agree.
* What JAX's tracing finds out about the user's body is a parameter, `Body`; the rules for `select` and for buffers that
  `common_rewrite` (common.py, 453-506) puts around it are modelled.
* A `while True` is a recursion with a bound on the rounds; `none` means that it has not returned by then.
-/

namespace Verif
namespace Perturb

variable {n m : Nat}

/-- A Boolean for each leaf. -/
abbrev Flags (n : Nat) := Fin n → Bool

/-- How perturbations travel through the body that the user wrote. -/
structure Body (n m : Nat) where
  /-- `is_inexact_array` -/
  inexact : Flags n
  /-- the leaves that are buffers -/
  buffer : Flags n
  /-- Given which leaves of the closure and of the value are perturbed: whether a leaf of what the body returns has a tangent
  which is not a symbolic zero. -/
  out : Flags m → Flags n → Flags n
  /-- The same for the values that are written to a buffer, one after the other. -/
  writes : Flags m → Flags n → Fin n → List Bool
  /-- Given which leaves are differentiated with respect to, and which leaves of the output have a cotangent: whether a
  cotangent that is not a symbolic zero comes back to a leaf through the user's body. -/
  back : Flags n → Flags n → Flags n
  /-- Whether the custom rule of `_record_symbolic_zeros` is run at all. -/
  tracer : Flags m → Flags n → Bool
  /-- Whether the custom rule of `_record_symbolic_zero` is run at all. -/
  hook : Flags n → Flags n → Bool

/-- `_select_if_vmap_jvp` (common.py, 39-55), and the rule of `lax.select`: the tangent is a symbolic zero if both are. -/
def selectTangent (tx ty : Bool) : Bool := if !tx && !ty then false else true

/-- `_maybe_set_jvp` (common.py, 154-171) -/
def setTangent (txs tx : Bool) : Bool := if !tx && !txs then false else true

/-- The tangent of a leaf of the rewritten body's output (common.py, 459-468): a buffer is what comes out of the writes to it,
any other leaf is selected between the new and the old one. -/
def Body.tangent (b : Body n m) (pb : Flags m) (pv : Flags n) (i : Fin n) : Bool :=
  if b.buffer i then (b.writes pb pv i).foldl setTangent (pv i)
  else selectTangent (b.out pb pv i) (pv i)

/-- `ct_y` in `_select_if_vmap_transpose` (common.py, 58-77) -/
def selectCotangent (ct undefined : Bool) : Bool := if !ct then false else undefined

/-- `ct_xs` in `_maybe_set_transpose` (common.py, 174-209) -/
def setCotangent (ct undefined : Bool) : Bool := if undefined then ct else false

/-- Whether a leaf of the rewritten body's input gets a cotangent. -/
def Body.cotangent (b : Body n m) (pv c : Flags n) (j : Fin n) : Bool :=
  b.back pv c j || (if b.buffer j then setCotangent (c j) (pv j) else selectCotangent (c j) (pv j))

/-- `new_perturb_val = jtu.tree_map(_not_symbolic_zero, tangents)` for the inexact leaves (1001-1025, 1190-1214). -/
def newPerturb (b : Body n m) (pb : Flags m) (pv : Flags n) (i : Fin n) : Option Bool :=
  if b.inexact i then some (b.tangent pb pv i) else none

/-- `False if (x is False and y is None) else y` (1031, 1226) -/
def fixNone (x : Bool) (y : Option Bool) : Option Bool :=
  if x = false ∧ y = none then some false else y

/-- What a round of a fixed point does: return, or go on. -/
inductive Round (α : Type) where
  | done (a : α)
  | next (a : α)

/-- One round of `_resolve_perturb_val` (995-1044) and of the function of the same name outside (1184-1239). They differ if the
rule is not run: the one in the backward pass asserts that it is (`strict`). -/
def perturbRound (b : Body n m) (strict : Bool) (pb : Flags m) (pv : Flags n) : Except Err (Round (Flags n)) :=
  if b.tracer pb pv = false then
    if strict then .error .assertionError else .ok (.done pv)
  else if ∀ i, (fixNone (pv i) (newPerturb b pb pv i)).isSome then
    if ∀ i, some (pv i) = fixNone (pv i) (newPerturb b pb pv i) then .ok (.done pv)
    else .ok (.next fun i => pv i || (fixNone (pv i) (newPerturb b pb pv i)).getD false)
  else .error .assertionError

/-- `while True` with at most so many rounds. -/
def loop {α : Type} (round : α → Except Err (Round α)) : Nat → α → Option (Except Err α)
  | 0, _ => none
  | k + 1, a =>
    match round a with
    | .error e => some (.error e)
    | .ok (.done a) => some (.ok a)
    | .ok (.next a) => loop round k a

/-- `_resolve_perturb_val` (986-1044 and 1179-1242) -/
def resolvePerturb (b : Body n m) (strict : Bool) (fuel : Nat) (pb : Flags m) (p0 : Flags n) : Option (Except Err (Flags n)) :=
  loop (perturbRound b strict pb) fuel p0

variable {V : Fin n → Type} [∀ i, AddCommMonoid (V i)]

/-- A cotangent for each leaf, or `None`. -/
abbrev Cts (V : Fin n → Type) := ∀ i, Option (V i)

/-- `_materialise_symbolic_zero` (670-679) -/
def materialiseLeaf {X : Type} [Zero X] (inexact isZero : Bool) (ct : Option X) : Except Err (Option X) :=
  if isZero then
    if ct.isNone then .ok none else .error .assertionError
  else match ct with
    | none => if inexact then .ok (some 0) else .error .assertionError
    | some c => .ok (some c)

/-- Whether a call returned. -/
def isOk {X : Type} : Except Err X → Bool
  | .ok _ => true
  | .error _ => false

/-- What a call returned, if it did. -/
def valueOf {X : Type} : Except Err (Option X) → Option X
  | .ok x => x
  | .error _ => none

/-- `jtu.tree_map(_materialise_symbolic_zero, symbolic_zero_gradient, grad_val, init_val_buffers)` -/
def materialise (inexact zero : Flags n) (g : Cts V) : Except Err (Cts V) :=
  if ∀ i, isOk (materialiseLeaf (inexact i) (zero i) (g i)) = true then
    .ok fun i => valueOf (materialiseLeaf (inexact i) (zero i) (g i))
  else .error .assertionError

/-- One round of `_resolve_symbolic_zeros` (1060-1106), for the symbolic zeros and the cotangents. `vjp_fn(grad_val)` raises a
`ValueError` if the cotangents are not for the outputs that `filter(..., inverse=True)` keeps. -/
def zeroRound (b : Body n m) (pv : Flags n) (s : Flags n × Cts V) : Except Err (Round (Flags n × Cts V)) :=
  if ∀ i, (s.2 i).isSome = !s.1 i then
    if b.hook pv (fun i => (s.2 i).isSome) = false then .error .assertionError
    else
      let new : Flags n := fun j => !(pv j && b.cotangent pv (fun i => (s.2 i).isSome) j)
      if s.1 = new then .ok (.done s)
      else
        let zero : Flags n := fun i => s.1 i && new i
        (materialise b.inexact zero s.2).map fun g => .next (zero, g)
  else .error .valueError

/-- `_resolve_symbolic_zeros` (1053-1106) -/
def resolveZeros (b : Body n m) (fuel : Nat) (pv : Flags n) (g : Cts V) : Option (Except Err (Flags n)) :=
  (loop (zeroRound b pv) fuel (fun i => (g i).isNone, g)).map fun r => r.map Prod.fst

/-- What the backward pass does before its loop (1108-1125): `none` if it returns `None`s without running it, else the
cotangents that the loop starts with. -/
def prepare (b : Body n m) (fuel : Nat) (pb : Flags m) (p0 : Flags n) (gradFinal : Cts V) :
    Option (Except Err (Option (Cts V))) :=
  match resolvePerturb b true fuel pb p0 with
  | none => none
  | some (.error e) => some (.error e)
  | some (.ok pv) =>
    let g : Cts V := fun i => if pv i then gradFinal i else none
    if ∀ i, (g i).isNone then some (.ok none)
    else match resolveZeros b fuel pv g with
      | none => none
      | some (.error e) => some (.error e)
      | some (.ok zero) => some ((materialise b.inexact zero g).map some)

variable {W : Type} {U : Fin m → Type} [∀ q, AddCommMonoid (U q)]

/-- The derivative of the rewritten body, as a map of cotangents. `user` goes through the user's body; `keep` is what comes back
to a leaf from `select` or from a buffer itself. -/
structure Deriv (W : Type) (V : Fin n → Type) (U : Fin m → Type) [∀ i, AddCommMonoid (V i)] [∀ q, AddCommMonoid (U q)] where
  user : W → ∀ i j, V i →+ V j
  keep : W → ∀ i, V i →+ V i
  fn : W → ∀ i q, V i →+ U q

/-- `vjp_fn` at a U-turn (822-836): the outputs are those leaves that have a cotangent, and it is differentiated with respect
to these leaves and to the perturbed leaves of `body_fun`. -/
def cutVjp (D : Deriv W V U) (pb : Flags m) (w : W) (g : Cts V) : Cts U × Cts V :=
  (fun q => if pb q then some (∑ i, D.fn w i q ((g i).getD 0)) else none,
   fun j => (g j).map fun ct => D.keep w j ct + ∑ i, D.user w i j ((g i).getD 0))

/-- `jtu.tree_map(operator.add, grad_body_fun, grad_body_fun_update)` (724) -/
def addCts (x y : Cts U) : Cts U := fun q =>
  match x q, y q with
  | some a, some b => some (a + b)
  | _, _ => none

/-- `grad_final_body_fun` (765-767) -/
def gradFinalBody (pb : Flags m) : Cts U := fun q => if pb q then some 0 else none

/-- `_perturb_to_tang` (1251-1261) -/
def perturbToTang {X : Type} (t : Option X) (p : Bool) : Option X :=
  match t with
  | none => none
  | some x => if p then some x else none

/-- `_stop_gradient_on_unperturbed_jvp` (1265-1278): the tangent of the final value. -/
def stopGradient (b : Body n m) (fuel : Nat) (tInit tFinal : Cts V) (tBody : Cts U) : Option (Except Err (Cts V)) :=
  (resolvePerturb b false fuel (fun q => (tBody q).isSome) (fun i => (tInit i).isSome)).map fun r =>
    r.map fun pv i => perturbToTang (tFinal i) (pv i)

end Perturb
end Verif
