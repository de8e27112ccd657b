import Verif.Filters.Model

/-!
# `announce_transform` (`equinox/debug/_announce_transform.py`)

Outside of the repository, after JAX's documentation and source. Under `jvp` an array is a pair of a primal and a tangent (`none` is the
symbolic zero); under `vmap` it is an array with a batch axis, or without. Binding a primitive calls the rule of the innermost transform
for which some argument is differentiated or batched; transforms without are passed over. `jit` is either the outermost transform or absent:
then the abstract evaluation rule is called when tracing, and the lowering rule for every equation that has been traced. Reverse mode
stages the tangent call into an equation, and calls the transpose rule with the cotangents and one argument for each input of the equation.

A cotangent that is a symbolic zero is not considered.
-/

namespace Verif
namespace Announce

open PT

/-- Transforms around a call, innermost first. -/
inductive Trans
  | jvp
  | vmap
deriving DecidableEq

/-- Arrays under some transforms. -/
@[reducible] def Tr (V : Type) : List Trans → Type
  | [] => V
  | .jvp :: ts => Tr V ts × Option (Tr V ts)
  | .vmap :: ts => Tr V ts × Option Nat

/-- `intermediates`, and whether there is a `jit` around everything. -/
structure Cfg where
  intermediates : Bool
  jit : Bool

/-- Results; what is announced so far, as stacks; and the stacks of the equations traced under `jit`. -/
structure Out (β : Type) where
  vals : List β
  log : List (List String)
  eqns : List (List String)

/-- `[ti if type(ti) is ad.Zero else next(t_nonzero_out) for ti in t]` and the assertion after it (95-97). -/
def refill {β : Type} : List (Option β) → List β → Except Err (List (Option β))
  | [], [] => .ok []
  | [], _ :: _ => .error .assertionError
  | Option.none :: ts, os => do
    let r ← refill ts os
    pure (Option.none :: r)
  | some _ :: _, [] => .error .runtimeError
  | some _ :: ts, o :: os => do
    let r ← refill ts os
    pure (some o :: r)

/-- `announce` of an intermediate stack. -/
def note (c : Cfg) (st : List String) : List (List String) := if c.intermediates then [st] else []

/-- `announce_jaxpr_p.bind`: `_impl` (61-65), `_abstract` (68-72), `_jvp` (75-98), `_batching` (110-117).
Line 94 is not reached, as `_jvp` is called only if there is a tangent. What is traced under `jit` stands for the results of `_mlir`, which
returns its arguments. -/
def bind {V : Type} (c : Cfg) : (ts : List Trans) → List String → List (Tr V ts) → Except Err (Out (Tr V ts))
  | [], st, xs =>
    if c.jit then .ok ⟨xs, [st ++ ["abstract"]], [st]⟩ else .ok ⟨xs, [st ++ ["impl"]], []⟩
  | .vmap :: ts, st, xs =>
    let bs : List (Option Nat) := xs.map Prod.snd
    if bs.all Option.isNone then do
      let r ← bind c ts st (xs.map Prod.fst)
      pure ⟨r.vals.map fun v => (v, Option.none), r.log, r.eqns⟩
    else do
      let r ← bind c ts (st ++ ["vmap"]) (xs.map Prod.fst)
      pure ⟨r.vals.zip bs, note c (st ++ ["vmap"]) ++ r.log, r.eqns⟩
  | .jvp :: ts, st, xs =>
    let tangents : List (Option (Tr V ts)) := xs.map Prod.snd
    if tangents.all Option.isNone then do
      let r ← bind c ts st (xs.map Prod.fst)
      pure ⟨r.vals.map fun v => (v, Option.none), r.log, r.eqns⟩
    else do
      let p ← bind c ts (st ++ ["jvp_p"]) (xs.map Prod.fst)
      let t ← bind c ts (st ++ ["jvp_t"]) (tangents.filterMap id)
      let o ← refill tangents t.vals
      pure ⟨p.vals.zip o, note c (st ++ ["jvp"]) ++ (p.log ++ t.log), p.eqns ++ t.eqns⟩

/-- `_mlir` (120-124), for every equation; all are used, so none is dropped before lowering. -/
def lower (eqns : List (List String)) : List (List String) := eqns.map fun st => st ++ ["mlir"]

/-- `name + ":".join(stack)`; `name` as in 48-51. -/
def render (name : Option String) (st : List String) : String :=
  (match name with | Option.none => "" | some n => "(" ++ n ++ ") ") ++ ":".intercalate st

/-- A leaf: an array or something else. -/
inductive Leaf (β O : Type)
  | arr (v : β)
  | obj (o : O)

def isArr {K β O : Type} : PT K (Leaf β O) → Bool
  | .leaf (.arr _) => true
  | _ => false

def Leaf.arr? {β O : Type} : Leaf β O → Option β
  | .arr v => some v
  | .obj _ => Option.none

/-- `announce_transform` (14-58). -/
def announceTransform {K V O : Type} [DecidableEq K] (c : Cfg) (ts : List Trans) (name : Option String) (x : PT K (Leaf (Tr V ts) O)) :
    Except Err (PT K (Leaf (Tr V ts) O) × List String) := do
  let p ← Filters.partition noLeaf (.leaf (.callable fun y => .ok (isArr y))) .none x
  let r ← bind c ts [] (p.1.leaves.filterMap Leaf.arr?)
  let array ← treeUnflatten p.1.shape (r.vals.map fun v => .leaf (.arr v))
  let out ← Filters.combine noLeaf [array, p.2]
  pure (out, (r.log ++ lower r.eqns).map (render name))

/-- `_transpose` (101-107), given the inputs of the equation. The rule takes one argument after the cotangents. -/
def transpose {V : Type} {X : Type} (c : Cfg) (ts : List Trans) (st : List String) (cts : List (Tr V ts)) (inputs : List X) :
    Except Err (Out (Tr V ts)) :=
  match inputs with
  | [_] => do
    let r ← bind c ts (st ++ ["transpose"]) cts
    pure ⟨r.vals, note c (st ++ ["transpose"]) ++ r.log, r.eqns⟩
  | _ => .error .typeError

/-- Reverse mode: the primals, and the cotangents of those inputs that are differentiated, given those of the outputs. `ts` are the transforms
around it. -/
def reverse {V : Type} (c : Cfg) (ts : List Trans) (xs : List (Tr V ts × Bool)) (cts : List (Tr V ts)) :
    Except Err (List (Tr V ts) × List (Tr V ts)) :=
  if xs.any Prod.snd then do
    let p ← bind c ts ["jvp_p"] (xs.map Prod.fst)
    let g ← transpose c ts ["jvp_t"] cts ((xs.filter Prod.snd).map Prod.fst)
    pure (p.vals, g.vals)
  else do
    let p ← bind c ts [] (xs.map Prod.fst)
    pure (p.vals, [])

end Announce
end Verif
