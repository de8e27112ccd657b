import Verif.AD.Model

/-!
# What the transforms of `noinline` do: `_jvp_transform` and `_MetaTransposeTransform`
(`equinox/internal/_noinline.py:149-181`, used in `_noinline_jvp` 214-231 and `_noinline_transpose` 235-254)

`f` is the function with all transforms so far applied, a function of one argument. Tangents that are symbolic zeros reach the rule as `None`. The
materialised zeros of line 222 are assigned to a variable that is not used, and are left out here.

`jax.linear_transpose` is a parameter: from a function of several arrays, their abstract values `A` and a cotangent of the output it makes cotangents of
the arrays.
-/

namespace Verif.Noinline

open PT AD

variable {K α A : Type}

/-- `_to_jvp` (155-157) -/
def toJvp [DecidableEq K] (f : PT K α → Except Err (PT K α)) (noTang : PT K α) : PyFn K α
  | [hasTang], _ => do
    let args ← Filters.combine noLeaf [hasTang, noTang]
    f args
  | _, _ => .error .typeError

/-- `_jvp_transform` (149-162) -/
def jvpTransform [DecidableEq K] (J : Jax K α) (f : PT K α → Except Err (PT K α)) : PT K α → Except Err (PT K α)
  | .node _ [args, tArgs] => do
    let p ← Filters.partition isNone (noneSpec tArgs) .none args
    let r ← filterJvp J (toJvp f p.1) [p.2] [tArgs] []
    pure r.2
  | _ => .error .typeError

/-- A leaf of the arguments in a transpose rule: known, or an `UndefinedPrimal` of which only the abstract value is. -/
inductive Inp (α A : Type)
  | val (a : α)
  | undef (s : A)

/-- `_is_undefined` (77-78) -/
def isUndefined : PT K (Inp α A) → Bool
  | .leaf (.undef _) => true
  | _ => false

/-- `x.aval` (245) -/
def avalOf : PT K (Inp α A) → Except Err (PT K A)
  | .leaf (.undef s) => .ok (.leaf s)
  | _ => .error .attributeError

/-- A leaf that is known. -/
def valueOf : PT K (Inp α A) → Except Err (PT K α)
  | .leaf (.val a) => .ok (.leaf a)
  | _ => .error .typeError

/-- `_to_transpose` (172-174), as a function of the leaves of `_undefined`. -/
def toTranspose [DecidableEq K] (f : PT K α → Except Err (PT K α)) (defined : PT K α) (undefined : PT K A) (ls : List α) :
    Except Err (PT K α) := do
  let u ← treeUnflatten undefined.shape (ls.map fun a => .leaf a)
  let args ← Filters.combine noLeaf [defined, u]
  f args

/-- `_MetaTransposeTransform(undefined)` (165-181) -/
def transposeTransform [DecidableEq K] (linT : (List α → Except Err (PT K α)) → List A → PT K α → Except Err (List α))
    (undefined : PT K A) (f : PT K α → Except Err (PT K α)) : PT K α → Except Err (PT K α)
  | .node _ [defined, cts] => do
    let gs ← linT (toTranspose f defined undefined) undefined.leaves cts
    treeUnflatten undefined.shape (gs.map fun a => .leaf a)
  | _ => .error .typeError

/-- `_noinline_transpose` (235-254), and the call it binds: the cotangents of `args`. -/
def transposedCall [DecidableEq K] (linT : (List α → Except Err (PT K α)) → List A → PT K α → Except Err (List α)) (tup : K)
    (f : PT K α → Except Err (PT K α)) (args : PT K (Inp α A)) (cts : PT K α) : Except Err (PT K α) := do
  let p ← Filters.partition isUndefined (.leaf (.callable fun x => .ok (isUndefined x))) .none args
  let undefined ← treeMap1 isUndefined avalOf p.1
  let defined ← treeMap1 noLeaf valueOf p.2
  transposeTransform linT undefined f (.node tup [defined, cts])

end Verif.Noinline
