import Verif.Filters.Model

/-!
# `equinox/internal/_primitive.py`, lines 27-287: primitives on arbitrary pytrees

A leaf is anything (`α`). JAX gives a primitive a flat list of arrays and hands it on to the rule of the
interpreter that is active (`impl`, `abstract_eval`, jvp, transpose, batching); there is one `bind` for each of them below. The rules
themselves are arbitrary functions on pytrees.

Under a derivative, or under `vmap`, an array is a pair of a primal and a tangent (or batch axis), where `none` is the symbolic zero
(or `not_mapped`).

Simplified: a symbolic zero carries no shape, except for the cotangents given to a transpose rule, where it matters for
`materialise_zeros`. A `StopIteration` cannot be told from other errors.
-/

namespace Verif
namespace Primitive

open PT

variable {K : Type} {α β γ V : Type}

/-- What is outside of this file. -/
structure Env (K α : Type) where
  /-- `is_array` -/
  array : α → Bool
  /-- `_is_array_like_internal` (55-58): arrays, avals, wrapped undefined primals -/
  dyn : α → Bool
  /-- `tree_equal` -/
  equal : PT K α → PT K α → Bool

/-- `_combine` (73-77). A missing entry of `static` is `_missing_dynamic`. -/
def combineFlat : List β → List (Option β) → Except Err (List β)
  | [], [] => .ok []
  | _ :: _, [] => .error .assertionError
  | ds, some x :: static => do
    let out ← combineFlat ds static
    pure (x :: out)
  | d :: ds, Option.none :: static => do
    let out ← combineFlat ds static
    pure (d :: out)
  | [], Option.none :: _ => .error .runtimeError

/-- The attributes of a `Flatten` object (100-107), which may not be set yet. -/
structure Stored (K α : Type) where
  treedef : Def K
  static : PT K α

/-- The `try`/`except`/`else` of `Flatten.__call__` (113-121, 130-138). -/
def store [DecidableEq K] (E : Env K α) (old : Option (Stored K α)) (new : Stored K α) : Except Err (Stored K α) :=
  match old with
  | Option.none => .ok new
  | some o =>
    if o.treedef ≠ new.treedef then .error .assertionError
    else if E.equal o.static new.static then .ok o
    else .error .assertionError

/-- A predicate on leaves as a predicate on objects. -/
def onObj (q : α → Bool) : PT K α → Bool
  | .leaf a => q a
  | _ => false

/-- `Flatten.__call__` without `like` (109-122). -/
def flatten [DecidableEq K] (E : Env K α) (st : Option (Stored K α)) (out : PT K α) : Except Err (List α × Stored K α) := do
  let p ← Filters.partition noLeaf (.leaf (.callable fun x => .ok (onObj E.dyn x))) .none out
  let st' ← store E st ⟨p.1.shape, p.2⟩
  pure (p.1.leaves, st')

/-- `_make_spec` (92-97). -/
def makeSpec (q : α → Bool) (x : PT K α) (y : PT K β) : Except Err (PT K (Filters.Spec K α)) :=
  if y.isNone then .ok (.leaf (.bool (onObj q x)))
  else if x.isNone then .error .assertionError
  else .ok (.leaf (.bool true))

/-- `_replace_none` (84-85); the leaf `none` is `_dummy_none`. -/
def replaceNone : PT K β → Except Err (PT K (Option β))
  | .leaf b => .ok (.leaf (some b))
  | .none => .ok (.leaf Option.none)
  | .node _ _ => .error .treeError

/-- `_get_second` (88-89). -/
def getSecond (x : PT K α) (y : PT K β) : Except Err (PT K β) :=
  if x.isNone then .ok .none else .ok y

/-- `Flatten.__call__` with `like` (123-145). -/
def flattenLike [DecidableEq K] (E : Env K α) (st : Option (Stored K α)) (out : PT K α) (like : PT K β) :
    Except Err (List α × List (Option β) × Stored K α) := do
  if out.treeStructure isNone ≠ like.treeStructure isNone then throw .assertionError
  let spec ← treeMap2 isNone (makeSpec E.dyn) out like
  let p ← Filters.partition isNone spec .none out
  let st' ← store E st ⟨p.1.shape, p.2⟩
  let like1 ← treeMap1 isNone replaceNone like
  let like2 ← treeMap2 isNone getSecond p.1 like1
  if like2.shape ≠ p.1.shape then throw .assertionError
  if p.1.leaves.length ≠ like2.leaves.length then throw .assertionError
  pure (p.1.leaves, like2.leaves, st')

/-- The parameters of an equation: `treedef` and `static`; `flatten` is passed separately. -/
structure Params (K α : Type) where
  treedef : Def K
  static : List (Option α)

/-- `filter_primitive_def` (148-159). -/
def defWrapper [DecidableEq K] (E : Env K α) (rule : PT K α → Except Err (PT K α)) (dynamic : List α) (P : Params K α)
    (st : Option (Stored K α)) : Except Err (List α × Stored K α) := do
  let flat ← combineFlat dynamic P.static
  let args ← treeUnflatten P.treedef (flat.map .leaf)
  let out ← rule args
  flatten E st out

/-- `[x if x is _missing_dynamic else None for x in static]` (174, 246) -/
def noneStatic (static : List (Option α)) : List (Option (Option β)) :=
  static.map fun x => match x with
    | some _ => some Option.none
    | Option.none => Option.none

/-- A leaf, or `None`, as the object passed to `tree_unflatten`. -/
def obj : Option β → PT K β
  | some b => .leaf b
  | Option.none => .none

/-- `filter_primitive_jvp` (162-185) and `filter_primitive_batching` (233-256), which only differ in names. The rule is given the
primals and the tangents, and returns both. -/
def pairWrapper [DecidableEq K] (E : Env K α) (rule : PT K α → PT K β → Except Err (PT K α × PT K β))
    (dynamic : List (α × Option β)) (P : Params K α) (st : Option (Stored K α)) :
    Except Err (List (α × Option β) × Stored K α) := do
  let flatP ← combineFlat (dynamic.map Prod.fst) P.static
  let primals ← treeUnflatten P.treedef (flatP.map .leaf)
  let flatT ← combineFlat (dynamic.map Prod.snd) (noneStatic P.static)
  let tangents ← treeUnflatten P.treedef (flatT.map obj)
  let out ← rule primals tangents
  let r ← flattenLike E st out.1 out.2
  pure (r.1.zip r.2.1, r.2.2)

/-- An argument of a transpose rule: a value, or an `UndefinedPrimal` of some shape. -/
inductive Arg (V α : Type) where
  | value (a : α)
  | undefined (v : V)
deriving DecidableEq, Repr

/-- A cotangent: a value, or a symbolic zero of some shape. -/
inductive Ct (V β : Type) where
  | value (b : β)
  | zero (v : V)
deriving DecidableEq, Repr

/-- The preparation of a cotangent (211-214). `inst` is the array of zeros. -/
def prepareCt (inst : V → β) (materialise : Bool) : Ct V β → Option β
  | .value b => some b
  | .zero v => if materialise then some (inst v) else Option.none

/-- `_is_array_like_internal` on the inputs of a transpose rule: an undefined primal is wrapped (216). -/
def Arg.dyn (E : Env K α) : Arg V α → Bool
  | .value a => E.dyn a
  | .undefined _ => true

/-- `filter_primitive_transpose` (191-230). The result has a cotangent for each dynamic argument, where `none` is a symbolic zero. -/
def transposeWrapper [DecidableEq K] (E : Env K α) (inst : V → β) (materialise : Bool)
    (rule : PT K (Arg V α) → PT K β → Except Err (PT K β)) (ctsOut : List (Ct V β)) (dynamic : List (Arg V α)) (P : Params K α)
    (st : Option (Stored K α)) : Except Err (List (Option β)) :=
  match st with
  | Option.none => .error .attributeError
  | some s => do
    let cts := ctsOut.map (prepareCt inst materialise)
    let cts ← treeUnflatten s.treedef (cts.map obj)
    let flat ← combineFlat dynamic (P.static.map fun x => x.map .value)
    let inputs ← treeUnflatten P.treedef (flat.map .leaf)
    let out ← rule inputs cts
    let E' : Env K (Arg V α) := ⟨fun _ => true, Arg.dyn E, fun _ _ => true⟩
    let r ← flattenLike E' Option.none inputs out
    if dynamic.length ≠ r.2.1.length then throw .assertionError
    pure r.2.1

/-! ## `filter_primitive_bind` (259-275) -/

/-- The first half: what is given to `prim.bind` (269-272). -/
def prepare (E : Env K α) (args : PT K α) : List α × Params K α :=
  (args.leaves.filter E.array, ⟨args.shape, args.leaves.map fun x => if E.array x then Option.none else some x⟩)

/-- The second half (273-275). `lift` embeds what is static. -/
def finish [DecidableEq K] (lift : α → γ) (flat : List γ) (s : Stored K α) : Except Err (PT K γ) := do
  let d ← treeUnflatten s.treedef (flat.map .leaf)
  Filters.combine noLeaf [d, s.static.map lift]

/-- Called without any transformation: JAX calls the `impl` rule. -/
def bindImpl [DecidableEq K] (E : Env K α) (impl : PT K α → Except Err (PT K α)) (args : PT K α) : Except Err (PT K α) := do
  let p := prepare E args
  let r ← defWrapper E impl p.1 p.2 Option.none
  finish id r.1 r.2

/-- Called under `jit`: JAX calls the `abstract_eval` rule with the shapes of the arrays (`abs`) when tracing, and the `impl` rule when
lowering, with the same parameters, that is with the same `Flatten` object. The outputs of the equation are the tracers which
`filter_primitive_bind` puts into its result. -/
def bindJit [DecidableEq K] (E : Env K α) (abs : α → α) (impl abstractEval : PT K α → Except Err (PT K α)) (args : PT K α) :
    Except Err (PT K α) := do
  let p := prepare E args
  let a ← defWrapper E abstractEval (p.1.map abs) p.2 Option.none
  let r ← defWrapper E impl p.1 p.2 (some a.2)
  finish id r.1 a.2

/-- Called with arrays that carry tangents (or are batched). -/
def bindPair [DecidableEq K] (E : Env K α) (rule : PT K α → PT K β → Except Err (PT K α × PT K β)) (args : PT K (α × Option β)) :
    Except Err (PT K (α × Option β)) := do
  let p := prepare E (args.map Prod.fst)
  let dynamic := args.leaves.filter fun x => E.array x.1
  let r ← pairWrapper E rule dynamic p.2 Option.none
  finish (fun a => (a, Option.none)) r.1 r.2

/-- The transpose of an equation that was traced before: its parameters were made from `args`, whose arrays are by now known or not, and
its `Flatten` object has stored `out`. -/
def transposeEqn [DecidableEq K] (E : Env K α) (inst : V → β) (materialise : Bool)
    (rule : PT K (Arg V α) → PT K β → Except Err (PT K β)) (args : PT K α) (known : List (Arg V α)) (out : PT K α)
    (ctsOut : List (Ct V β)) : Except Err (List (Option β)) := do
  let r ← flatten E Option.none out
  transposeWrapper E inst materialise rule ctsOut known (prepare E args).2 (some r.2)

end Primitive
end Verif
