import Verif.Basic

/-!
# Model of `create_vprim`

`equinox/internal/_primitive.py`, lines 290-470.  A *vprim* is a primitive with no batching
rule of its own: batching it binds a second primitive, `_vprim_p`, whose other rules are
obtained by `jax.vmap`-ing the rules of the first; and `_vprim_p` is itself a vprim, so that a
nest of `vmap`s becomes a nest of equations.

What is trusted of JAX: `jax.vmap f` traces `f` once to find the shapes (and the symbolic
pattern) of its outputs, evaluates `f` lane by lane, and stacks the lanes on the out-axis; a
`Zero` or `None` output has no lanes and is returned as it is.  The lengths checked by
`assert len(inputs) == len(__batch_axes)` are not modelled: the batching rule makes both from
the same list.  Data types are not modelled; nor is the `NotImplementedError` for avals which
are not `ShapedArray`s.  A rule of a primitive is taken to return, not to raise.
-/

namespace Verif.VPrim

open Verif

abbrev Shape := List Nat

/-- A JAX array: a shape, and an element at each multi-index of the rank of the array. -/
structure Arr (X : Type) where
  shape : Shape
  val : List Nat → Option X
  rank : ∀ idx, idx.length ≠ shape.length → val idx = none

/-- The array `a[:, …, i, …, :]`, with `i` at axis `b`: lane `i` of an array mapped along
axis `b`. -/
def Arr.slice {X : Type} (b i : Nat) (a : Arr X) : Arr X where
  shape := a.shape.eraseIdx b
  val idx := if idx.length = (a.shape.eraseIdx b).length then a.val (idx.insertIdx b i) else none
  rank := by intro idx h; simp [h]

/-- Lane `i` of an array which is mapped along `ax`, or not mapped. -/
def Arr.sliceO {X : Type} : Option Nat → Nat → Arr X → Arr X
  | none, _, a => a
  | some b, i, a => a.slice b i

/-- `n` lanes of shape `s` stacked along axis `b`. -/
def Arr.stack {X : Type} (b n : Nat) (s : Shape) (f : Nat → Option (Arr X)) : Arr X where
  shape := s.insertIdx b n
  val idx :=
    if idx.length = (s.insertIdx b n).length then
      match idx[b]? with
      | some i => if i < n then (f i).bind fun a => a.val (idx.eraseIdx b) else none
      | none => none
    else none
  rank := by intro idx h; simp [h]

/-- `jax.core.mapped_aval`: the shape of a lane. -/
def Shape.mapped : Option Nat → Shape → Shape
  | none, s => s
  | some b, s => s.eraseIdx b

/-- A tangent or a cotangent: `None`, a symbolic `ad.Zero(aval)`, or an array.  With `P` the
arrays these are the values; with `P` the shapes they are what a trace of the rule sees. -/
inductive Sym (P : Type) where
  | none
  | zero (s : Shape)
  | arr (p : P)
deriving DecidableEq, Repr

def Sym.map {P Q : Type} (f : P → Q) : Sym P → Sym Q
  | .none => .none
  | .zero s => .zero s
  | .arr p => .arr (f p)

def Sym.arr? {P : Type} : Sym P → Option P
  | .arr p => some p
  | _ => Option.none

/-- An input of a transpose rule: an `ad.UndefinedPrimal(aval)`, or a known array. -/
inductive Inp (P : Type) where
  | undef (s : Shape)
  | known (p : P)
deriving DecidableEq, Repr

def Inp.map {P Q : Type} (f : P → Q) : Inp P → Inp Q
  | .undef s => .undef s
  | .known p => .known (f p)

/-- The rules handed to `create_vprim(name, impl, abstract_eval, jvp, transpose)`
(line 304) for each primitive `b : B` (a primitive together with its `params`).  `jvpAbs` and
`trAbs` are the traces of the two differentiation rules. -/
structure Rules (B X : Type) where
  impl : B → List (Arr X) → List (Arr X)
  abs : B → List Shape → List Shape
  jvp : B → List (Arr X) → List (Sym (Arr X)) → List (Arr X) × List (Sym (Arr X))
  jvpAbs : B → List Shape → List (Sym Shape) → List (Sym Shape)
  tr : B → List (Sym (Arr X)) → List (Inp (Arr X)) → List (Sym (Arr X))
  trAbs : B → List (Sym Shape) → List (Inp Shape) → List (Sym Shape)

/-- A primitive with its parameters: one made by `create_vprim`, or `_vprim_p` with
`prim=…, params=…` (the inner primitive), `__axis_size=n` and `__batch_axes=axes`
(lines 314-323). -/
inductive Prim (B : Type) where
  | base (b : B)
  | vprim (inner : Prim B) (n : Nat) (axes : List (Option Nat))

/-- `batch_rule` (lines 308-324): the primitive that is bound, and the batch axis of each of
its outputs. -/
def batchRule {B : Type} (P : Prim B) (n : Nat) (dims : List (Option Nat)) :
    Prim B × Option Nat :=
  if dims.all (·.isNone) then (P, none) else (.vprim P n dims, some 0)

/-- Binding a vprim under a nest of `vmap`s of sizes `ns`, innermost first.  `axs` says for each
input along which axis, if any, it is mapped at each of the levels.  The batch trace of each
level calls `batch_rule` and binds the outcome at the next level out.  The result is the
primitive that is bound at the bottom, and the axis of its outputs at each level. -/
def nest {B : Type} : List Nat → Prim B → List (List (Option Nat)) →
    Prim B × List (Option Nat)
  | [], P, _ => (P, [])
  | n :: ns, P, axs =>
    let r := batchRule P n (axs.map (·.headD none))
    let out := nest ns r.1 (axs.map (·.tail))
    (out.1, r.2 :: out.2)

section
variable {B X : Type} (R : Rules B X)

/-- `abstract_eval` and `_vprim_abstract_eval` (lines 357-365). -/
def absOf : Prim B → List Shape → List Shape
  | .base b, ss => R.abs b ss
  | .vprim P n axes, ss =>
    (absOf P (List.zipWith Shape.mapped axes ss)).map fun s => s.insertIdx 0 n

/-- `impl` and `_vprim_impl` (lines 339-344). -/
def implOf : Prim B → List (Arr X) → List (Arr X)
  | .base b, xs => R.impl b xs
  | .vprim P n axes, xs =>
    (absOf R P (List.zipWith Shape.mapped axes (xs.map (·.shape)))).mapIdx fun j s =>
      Arr.stack 0 n s fun i => (implOf P (List.zipWith (fun ax x => x.sliceO ax i) axes xs))[j]?

/-- `_resolve_zeros_t` (lines 368-379). -/
def resolveZerosT {P : Type} : Sym P → Option Nat → Sym P
  | .zero s, some b => .zero (s.take b ++ s.drop (b + 1))
  | t, _ => t

/-- `_resolve_zeros_b` (lines 382-386). -/
def resolveZerosB {P : Type} : Sym P → Option Nat → Option Nat
  | .zero _, _ => none
  | _, ax => ax

/-- The trace of the tangents of `_vprim_jvp`. -/
def jvpAbsOf : Prim B → List Shape → List (Sym Shape) → List (Sym Shape)
  | .base b, ss, ts => R.jvpAbs b ss ts
  | .vprim P n axes, ss, ts =>
    let ts' := List.zipWith resolveZerosT ts axes
    let bt := List.zipWith resolveZerosB ts' axes
    (jvpAbsOf P (List.zipWith Shape.mapped axes ss)
      (List.zipWith (fun ax t => t.map (Shape.mapped ax)) bt ts')).map
      (Sym.map fun s => s.insertIdx 0 n)

/-- `jvp` and `_vprim_jvp` (lines 389-403). -/
def jvpOf : Prim B → List (Arr X) → List (Sym (Arr X)) → List (Arr X) × List (Sym (Arr X))
  | .base b, xs, ts => R.jvp b xs ts
  | .vprim P n axes, xs, ts =>
    let ts' := List.zipWith resolveZerosT ts axes
    let bt := List.zipWith resolveZerosB ts' axes
    let lane := fun i => jvpOf P (List.zipWith (fun ax x => x.sliceO ax i) axes xs)
      (List.zipWith (fun ax t => t.map (Arr.sliceO ax i)) bt ts')
    let ss := List.zipWith Shape.mapped axes (xs.map (·.shape))
    let tk := jvpAbsOf R P ss (List.zipWith (fun ax t => t.map (Shape.mapped ax)) bt
      (ts'.map (Sym.map (·.shape))))
    ((absOf R P ss).mapIdx fun j s => Arr.stack 0 n s fun i => (lane i).1[j]?,
      tk.mapIdx fun j k => match k with
        | .none => .none
        | .zero s => .zero s
        | .arr s => .arr (Arr.stack 0 n s fun i => (lane i).2[j]?.bind Sym.arr?))

/-- `_resolve_undefined_i` (lines 406-417). -/
def resolveUndefinedI {P : Type} : Inp P → Option Nat → Inp P
  | .undef s, some b => .undef (s.take b ++ s.drop (b + 1))
  | x, _ => x

/-- `_resolve_undefined_b` (lines 420-424). -/
def resolveUndefinedB {P : Type} : Inp P → Option Nat → Option Nat
  | .undef _, _ => none
  | .known _, ax => ax

/-- `None if type(o) is ad.Zero else o` (lines 440 and 450). -/
def dropZero {P : Type} : Sym P → Sym P
  | .zero _ => .none
  | o => o

/-- The out-axes of the outputs of `jax.vmap(_transpose, …, out_axes=__batch_axes)`.  A cotangent
is taken to depend on the cotangents the rule was given, which are mapped along axis 0: so
`out_axes=None` for it is a `ValueError`, as is an axis which its rank does not allow, and a
tuple of outputs which is not of the length of `out_axes`. -/
def outAxes (n : Nat) : List (Sym Shape) → List (Option Nat) → Except Err (List (Sym Shape))
  | [], [] => .ok []
  | k :: ks, ax :: axes => do
    let o ← match k, ax with
      | .arr s, some b =>
        if b ≤ s.length then .ok (.arr (s.insertIdx b n)) else .error .valueError
      | .arr _, none => .error .valueError
      | k, _ => .ok k
    let os ← outAxes n ks axes
    pure (o :: os)
  | _, _ => .error .valueError

/-- The assertions of `_vprim_transpose` (lines 454-463). -/
def checkOuts : List (Inp Shape) → List (Sym Shape) → Except Err Unit
  | [], [] => .ok ()
  | i :: ins, o :: outs =>
    match i, o with
    | _, .none => checkOuts ins outs
    | .undef s, .arr s' => if s = s' then checkOuts ins outs else .error .assertionError
    | _, _ => .error .assertionError
  | _, _ => .error .assertionError

/-- The trace of `_vprim_transpose`. -/
def trAbsOf : Prim B → List (Sym Shape) → List (Inp Shape) → Except Err (List (Sym Shape))
  | .base b, cts, ins => .ok (R.trAbs b cts ins)
  | .vprim P n axes, cts, ins => do
    let mapped := List.zipWith resolveUndefinedI ins axes
    let ba := List.zipWith resolveUndefinedB ins axes
    let cts := cts.map dropZero
    let ks ← trAbsOf P (cts.map (Sym.map (Shape.mapped (some 0))))
      (List.zipWith (fun ax x => x.map (Shape.mapped ax)) ba mapped)
    let outs ← outAxes n (ks.map dropZero) axes
    checkOuts ins outs
    pure outs

/-- `transpose` and `_vprim_transpose` (lines 427-464). -/
def trOf : Prim B → List (Sym (Arr X)) → List (Inp (Arr X)) → Except Err (List (Sym (Arr X)))
  | .base b, cts, ins => .ok (R.tr b cts ins)
  | .vprim P n axes, cts, ins => do
    let outs ← trAbsOf R (.vprim P n axes) (cts.map (Sym.map (·.shape)))
      (ins.map (Inp.map (·.shape)))
    let mapped := List.zipWith resolveUndefinedI ins axes
    let ba := List.zipWith resolveUndefinedB ins axes
    let cts := cts.map dropZero
    let lane := fun i => (trOf P (cts.map (Sym.map (Arr.sliceO (some 0) i)))
      (List.zipWith (fun ax x => x.map (Arr.sliceO ax i)) ba mapped)).toOption.getD []
    pure (outs.mapIdx fun j k => match k, axes[j]? with
      | .arr s, some (some b) =>
        .arr (Arr.stack b n (s.eraseIdx b) fun i => (lane i)[j]?.bind Sym.arr?)
      | _, _ => .none)

end

end Verif.VPrim
