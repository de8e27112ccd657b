import Verif.Filters.Model
import Verif.Jit.Model

/-!
# `filter_custom_vjp`, `filter_custom_jvp`, `nondifferentiable` (`equinox/_ad.py`, 724-1118)

A leaf is anything (`α`); which leaves are arrays, which of them inexact, and which carry a tangent in the derivative that is being
taken, is a parameter `Jax`. JAX decides whether a function with a custom rule is called as it is or through its rule, so
that there is one entry for each case. Keyword arguments are sorted by name, as a dictionary is flattened.

Simplified: `jax.custom_vjp` keeps residuals unchanged for the backward pass. Names and messages of errors, deprecation warnings,
and shapes and dtypes of symbolic zeros are left out. The deprecated `defjvp` and `defvjp` are modelled separately below.
-/

namespace Verif
namespace Custom

open PT
open Jit (JK)

variable {C α : Type}

/-- A Python value. -/
abbrev Tree (C α : Type) := PT (JK C) α

/-- Keyword arguments. -/
abbrev Kw (C α : Type) := List (String × Tree C α)

/-- What is outside of equinox. -/
structure Jax (α : Type) where
  /-- `is_array` -/
  array : α → Bool
  /-- `is_inexact_array` -/
  inexact : α → Bool
  /-- whether an array carries a tangent -/
  perturbed : α → Bool
  /-- `jnp.zeros_like` -/
  zeros : α → α

/-- A predicate on leaves as a predicate on values. -/
def onValue (q : α → Bool) : Tree C α → Bool
  | .leaf a => q a
  | _ => false

/-- `partition(x, is_array)` and `partition(x, is_inexact_array)` -/
def part [DecidableEq C] (q : α → Bool) (x : Tree C α) : Except Err (Tree C α × Tree C α) :=
  Filters.partition noLeaf (.leaf (.callable fun y => .ok (onValue q y))) .none x

/-- `(args, kwargs)` as a pytree. -/
def pack {γ : Type} (args : List (Tree C γ)) (kwargs : List (String × Tree C γ)) : Tree C γ :=
  .node .tuple [.node .tuple args, .node (.dict (kwargs.map Prod.fst)) (kwargs.map Prod.snd)]

/-- `args, kwargs = ...` -/
def unpack : Tree C α → Except Err (List (Tree C α) × Kw C α)
  | .node .tuple [.node .tuple args, .node (.dict ks) vs] => .ok (args, ks.zip vs)
  | _ => .error .typeError

/-- `nondifferentiable` (841-853). The rule of `_nondifferentiable` (831-838) is run if a leaf carries a tangent. -/
def nondifferentiable [DecidableEq C] (J : Jax α) (x : Tree C α) : Except Err (Tree C α) := do
  let p ← part J.array x
  if p.1.leaves.any J.perturbed then throw .runtimeError
  Filters.combine noLeaf [p.1, p.2]

/-! ## `filter_custom_vjp` -/

/-- A function with its arguments: `fn(vjp_arg, *args, **kwargs)`. -/
abbrev Fn (C α : Type) := Tree C α → List (Tree C α) → Kw C α → Except Err (Tree C α)

/-- `fn_fwd(perturbed, vjp_arg, *args, **kwargs)`, giving `out, residuals`. -/
abbrev Fwd (C α : Type) := Tree C Bool → Tree C α → List (Tree C α) → Kw C α → Except Err (Tree C α × Tree C α)

/-- `fn_bwd(residuals, grad_out, perturbed, vjp_arg, *args, **kwargs)` -/
abbrev Bwd (C α : Type) :=
  Tree C α → Tree C α → Tree C Bool → Tree C α → List (Tree C α) → Kw C α → Except Err (Tree C α)

/-- The object (952-956); `wrapped` is `fn_wrapped is not None`. -/
structure Vjp (C α : Type) where
  fn : Fn C α
  fwd : Option (Fwd C α)
  bwd : Option (Bwd C α)
  wrapped : Bool

/-- `__init__` (952-956). -/
def Vjp.new (fn : Fn C α) : Vjp C α := ⟨fn, Option.none, Option.none, false⟩

/-- `def_fwd` (958-961). -/
def Vjp.defFwd (s : Vjp C α) (f : Fwd C α) : Vjp C α :=
  { s with fwd := some f, wrapped := s.bwd.isSome || s.wrapped }

/-- `def_bwd` (963-966). -/
def Vjp.defBwd (s : Vjp C α) (f : Bwd C α) : Vjp C α :=
  { s with bwd := some f, wrapped := s.fwd.isSome || s.wrapped }

/-- The output in three parts: `diff_array_out`, `nondiff_array_out`, `nonarray_out`. -/
structure Parts (C α : Type) where
  diff : Tree C α
  nondiff : Tree C α
  nonarray : Tree C α

/-- Partition first by `is_array`, then by `is_inexact_array` (1016-1017, 1048-1050, 1102-1105). -/
def split [DecidableEq C] (J : Jax α) (x : Tree C α) : Except Err (Parts C α) := do
  let p ← part J.array x
  let q ← part J.inexact p.1
  pure ⟨q.1, q.2, p.2⟩

/-- `fn_wrapped` (1004-1018). -/
def fnWrapped [DecidableEq C] (J : Jax α) (fn : Fn C α) (nonarray nonarrayArgs diff nondiff arrayArgs : Tree C α) :
    Except Err (Parts C α) := do
  let x ← Filters.combine noLeaf [nonarray, diff, nondiff]
  let ak ← Filters.combine noLeaf [nonarrayArgs, arrayArgs]
  let a ← unpack ak
  let out ← fn x a.1 a.2
  split J out

/-- `_get_value_assert_unperturbed` on all leaves (866-869, 1037-1042). -/
def values (t : Tree C (α × Bool)) : Except Err (Tree C α) :=
  if t.leaves.any Prod.snd then .error .assertionError else .ok (t.map Prod.fst)

/-- What is kept for the backward pass (1052-1059). -/
structure Residuals (C α : Type) where
  array : Tree C α
  nonarray : Tree C α
  diff : Tree C α
  nondiff : Tree C α
  arrayArgs : Tree C α
  perturbed : Tree C Bool

/-- `fn_fwd_wrapped` (1020-1059). Leaves are `CustomVJPPrimal`s: a value, and whether it is perturbed. -/
def fwdWrapped [DecidableEq C] (J : Jax α) (fwd : Fwd C α) (nonarray nonarrayArgs : Tree C α)
    (diff nondiff arrayArgs : Tree C (α × Bool)) : Except Err (Parts C α × Residuals C α) := do
  let perturbed ← Filters.combine noLeaf [nonarray.map fun _ => false, nondiff.map fun _ => false, diff.map Prod.snd]
  let diff := diff.map Prod.fst
  let nondiff ← values nondiff
  let arrayArgs ← values arrayArgs
  let x ← Filters.combine noLeaf [nonarray, diff, nondiff]
  let ak ← Filters.combine noLeaf [nonarrayArgs, arrayArgs]
  let a ← unpack ak
  let r ← fwd perturbed x a.1 a.2
  let po ← part J.array r.1
  let pr ← part J.array r.2
  let pd ← part J.inexact po.1
  pure (⟨pd.1, pd.2, po.2⟩, ⟨pr.1, pr.2, diff, nondiff, arrayArgs, perturbed⟩)

/-- `_zero_to_none` (872-876): a cotangent, or `None` for a symbolic zero. -/
def zeroToNone : Option α → Tree C α
  | some g => .leaf g
  | Option.none => .none

/-- `_none_to_zero` (879-895); a leaf is an array or a symbolic zero. -/
def noneToZero : Tree C α → Tree C α → Except Err (Tree C (Option α))
  | .none, .none => .ok .none
  | .none, .leaf _ => .ok (.leaf Option.none)
  | .none, .node _ _ => .error .typeError
  | .leaf g, _ => .ok (.leaf (some g))
  | .node _ _, _ => .error .treeError

/-- `fn_bwd_wrapped` (1061-1091). The cotangent of `diff_array_out` has this structure, and leaves are arrays or symbolic zeros.
The result is for `diff_array_vjp_arg`; `nondiff_array_vjp_arg` and `array_args_kwargs` have none. -/
def bwdWrapped [DecidableEq C] (bwd : Bwd C α) (nonarray nonarrayArgs : Tree C α) (res : Residuals C α)
    (gradOut : Tree C (Option α)) : Except Err (Tree C (Option α)) := do
  let residuals ← Filters.combine noLeaf [res.array, res.nonarray]
  let x ← Filters.combine noLeaf [nonarray, res.diff, res.nondiff]
  let ak ← Filters.combine noLeaf [nonarrayArgs, res.arrayArgs]
  let a ← unpack ak
  let out ← bwd residuals (gradOut.map zeroToNone).join res.perturbed x a.1 a.2
  if out.treeStructure isNone ≠ res.diff.treeStructure isNone then throw .runtimeError
  treeMap2 isNone noneToZero out res.diff

/-- The arguments of `fn_wrapped` (1004-1010, 1102-1116). -/
structure CallArgs (C α : Type) where
  arg : Parts C α
  arrayArgs : Tree C α
  nonarrayArgs : Tree C α

/-- The first part of `__call__` (1097-1109). -/
def Vjp.prepare [DecidableEq C] (J : Jax α) (s : Vjp C α) (x : Tree C α) (args : List (Tree C α)) (kwargs : Kw C α) :
    Except Err (CallArgs C α) := do
  if !s.wrapped then throw .runtimeError
  let p ← split J x
  let q ← part J.array (pack args kwargs)
  let arrayArgs ← nondifferentiable J q.1
  pure ⟨p, arrayArgs, q.2⟩

/-- The end of `__call__` (1117-1118). -/
def assemble [DecidableEq C] (p : Parts C α) : Except Err (Tree C α) := Filters.combine noLeaf [p.diff, p.nondiff, p.nonarray]

/-- `__call__` if JAX does not differentiate. -/
def Vjp.call [DecidableEq C] (J : Jax α) (s : Vjp C α) (x : Tree C α) (args : List (Tree C α)) (kwargs : Kw C α) :
    Except Err (Tree C α) := do
  let c ← s.prepare J x args kwargs
  let out ← fnWrapped J s.fn c.arg.nonarray c.nonarrayArgs c.arg.diff c.arg.nondiff c.arrayArgs
  assemble out

/-- Arrays as `CustomVJPPrimal`s. -/
def primal (J : Jax α) (t : Tree C α) : Tree C (α × Bool) := t.map fun a => (a, J.perturbed a)

/-- `__call__` if JAX does differentiate: the output, the structure of its inexact part, and the function on cotangents (one for each
inexact array of the output). -/
def Vjp.diffCall [DecidableEq C] (J : Jax α) (s : Vjp C α) (x : Tree C α) (args : List (Tree C α)) (kwargs : Kw C α) :
    Except Err (Tree C α × (List (Option α) → Except Err (Tree C (Option α)))) := do
  let c ← s.prepare J x args kwargs
  match s.fwd, s.bwd with
  | some fwd, some bwd => do
    let r ← fwdWrapped J fwd c.arg.nonarray c.nonarrayArgs (primal J c.arg.diff) (primal J c.arg.nondiff) (primal J c.arrayArgs)
    let out ← assemble r.1
    pure (out, fun cts => do
      let g ← treeUnflatten r.1.diff.shape (cts.map fun a => .leaf a)
      bwdWrapped bwd c.arg.nonarray c.nonarrayArgs r.2 g)
  | _, _ => throw .assertionError

/-- `_materialise_symbolic_zero` (724-728). -/
def materialise (J : Jax α) : Tree C α → Tree C α → Except Err (Tree C α)
  | .leaf a, .none => .ok (if J.inexact a then .leaf (J.zeros a) else .none)
  | _, g => .ok g

/-- `_fn_fwd` of the deprecated `defvjp` (985-988); `out, (out, residuals)`. -/
def oldFwd (fwd : Tree C α → List (Tree C α) → Kw C α → Except Err (Tree C α × Tree C α)) : Fwd C α :=
  fun _ x args kwargs => do
    let r ← fwd x args kwargs
    pure (r.1, .node .tuple [r.1, r.2])

/-- `_fn_bwd` of the deprecated `defvjp` (990-998). -/
def oldBwd [DecidableEq C] (J : Jax α) (bwd : Tree C α → Tree C α → Tree C α → List (Tree C α) → Kw C α → Except Err (Tree C α)) :
    Bwd C α :=
  fun residuals grad _ x args kwargs =>
    match residuals with
    | .node .tuple [out, residuals] => do
      let grad ← treeMap2 noLeaf (materialise J) out grad
      bwd residuals grad x args kwargs
    | _ => throw .valueError

/-- `defvjp` (968-1001). -/
def Vjp.defVjp [DecidableEq C] (J : Jax α) (s : Vjp C α) (fwd : Tree C α → List (Tree C α) → Kw C α → Except Err (Tree C α × Tree C α))
    (bwd : Tree C α → Tree C α → Tree C α → List (Tree C α) → Kw C α → Except Err (Tree C α)) : Vjp C α :=
  (s.defFwd (oldFwd fwd)).defBwd (oldBwd J bwd)

/-! ## `filter_custom_jvp` -/

/-- `fn(*args, **kwargs)` -/
abbrev JFn (C α : Type) := List (Tree C α) → Kw C α → Except Err (Tree C α)

/-- `fn_jvp(args, t_args, **kwargs)`, giving `out, t_out`. -/
abbrev Rule (C α : Type) := List (Tree C α) → Tree C α → Kw C α → Except Err (Tree C α × Tree C α)

/-- `fn_wrapper` (783-785). -/
def fnWrapper [DecidableEq C] (fn : JFn C α) (static dynamic : Tree C α) : Except Err (Tree C α) := do
  let ak ← Filters.combine noLeaf [dynamic, static]
  let a ← unpack ak
  fn a.1 a.2

/-- `filter_custom_jvp.__call__` (826-828) if JAX does not differentiate. -/
def jvpCall [DecidableEq C] (J : Jax α) (fn : JFn C α) (args : List (Tree C α)) (kwargs : Kw C α) : Except Err (Tree C α) := do
  let p ← part J.array (pack args kwargs)
  fnWrapper fn p.2 p.1

/-- `_drop_nondiff` (731-738). A tangent is an array or a symbolic zero. -/
def dropNondiff (J : Jax α) (x : α × Option α) : Tree C α :=
  match x.2 with
  | Option.none => .none
  | some t => if J.inexact x.1 then .leaf t else .none

/-- `fn_jvp_wrapper` (808-817). Leaves of `dynamic` are primals and tangents. -/
def jvpWrapper [DecidableEq C] (J : Jax α) (rule : Rule C α) (static : Tree C α) (dynamic : Tree C (α × Option α)) :
    Except Err (Tree C α × Tree C (Option α)) := do
  match (dynamic.map (dropNondiff J)).join with
  | .node .tuple [tArgs, tKwargs] => do
    if tKwargs.leaves.length > 0 then throw .valueError
    let ak ← Filters.combine noLeaf [dynamic.map Prod.fst, static]
    let a ← unpack ak
    let r ← rule a.1 tArgs a.2
    let t ← treeMap2 isNone noneToZero r.2 r.1
    pure (r.1, t)
  | _ => throw .valueError

/-- `_fn_jvp` of the deprecated `defjvp` (801-803). -/
def oldRule [DecidableEq C] (J : Jax α) (rule : Rule C α) : Rule C α :=
  fun args tArgs kwargs => do
    let tArgs ← treeMap2 noLeaf (materialise J) (.node .tuple args) tArgs
    rule args tArgs kwargs

/-- `filter_custom_jvp.__call__` (826-828) if JAX does differentiate; `tangent` gives tangents of arrays. -/
def jvpDiffCall [DecidableEq C] (J : Jax α) (rule : Rule C α) (tangent : α → Option α) (args : List (Tree C α)) (kwargs : Kw C α) :
    Except Err (Tree C α × Tree C (Option α)) := do
  let p ← part J.array (pack args kwargs)
  jvpWrapper J rule p.2 (p.1.map fun a => (a, tangent a))

end Custom
end Verif
