import Verif.Custom.Model
import Verif.TreeEqual.Model

/-!
# `filter_closure_convert` (`equinox/_ad.py`, 531-721) and `filter_make_jaxpr` (`equinox/_make_jaxpr.py`)

A leaf is an array, a `ShapeDtypeStruct` or another object. What JAX does is a parameter: `make` traces a function into a jaxpr.
Left out: `module_update_wrapper`, `out_struct`, layouts of arrays.
-/

namespace Verif
namespace Custom

open PT
open Jit (JK)

variable {C ν β : Type}

/-- `jax.ShapeDtypeStruct` -/
structure Sds where
  shape : List Nat
  dtype : Nat
  sharding : Nat
  weak : Bool
deriving DecidableEq

/-- Objects which are not arrays. -/
inductive Obj (β : Type) where
  | struct (s : Sds)
  | val (v : β)

/-- A leaf. -/
abbrev Lf (ν β : Type) := TreeEqual.Leaf ν (Obj β)

/-- What `make_jaxpr` gives: a jaxpr (with its constants) that can be evaluated, the structure of the output with shapes and dtypes, and
the static output. -/
structure Traced (C ν β : Type) where
  eval : List (Lf ν β) → Except Err (List (Lf ν β))
  outStruct : Tree C Sds
  outStatic : Tree C (Lf ν β)

/-- What is outside of equinox: `canon` is how JAX reads a dtype (64 bits may become 32), `sharding` and `weak` belong to arrays,
`ne` is `!=` on objects, `eq` is `==` on elements of arrays, `make` is `jax.make_jaxpr`. -/
structure Outside (C ν β : Type) where
  canon : Nat → Nat
  sharding : TreeEqual.Arr ν → Nat
  weak : TreeEqual.Arr ν → Bool
  ne : β → β → Bool
  eq : ν → ν → Bool
  make : (List (Lf ν β) → Except Err (Tree C (Lf ν β) × Tree C (Lf ν β))) → List Sds → Except Err (Traced C ν β)

/-- `is_array` (`_filters.py`, 19-21) -/
def isArray : Lf ν β → Bool
  | .arr _ => true
  | _ => false

/-- `_is_struct` (531-532; `_make_jaxpr.py`, 21-22) -/
def isStruct : Lf ν β → Bool
  | .arr _ => true
  | .other _ (.struct _) => true
  | _ => false

/-- The aval of an array or a struct; other leaves do not occur. -/
def Outside.aval (W : Outside C ν β) : Lf ν β → Sds
  | .arr a => ⟨a.shape, W.canon a.dtype, W.sharding a, W.weak a⟩
  | .other _ (.struct s) => { s with dtype := W.canon s.dtype }
  | .other _ (.val _) => ⟨[], 0, 0, false⟩

/-- The leaves of `_strip_weak_dtype(jax.eval_shape(lambda: ...))` (544-549); the type of a struct does not matter. -/
def Outside.struct (W : Outside C ν β) (x : Lf ν β) : Lf ν β := .other 0 (.struct { W.aval x with weak := false })

/-- `!=` on objects: structs have their own `__eq__`. -/
def objNe (ne : β → β → Bool) : Obj β → Obj β → Bool
  | .struct s, .struct t => s ≠ t
  | .val u, .val v => ne u v
  | _, _ => true

/-- The parameters of `tree_equal` with zero tolerances. -/
def Outside.env (W : Outside C ν β) : TreeEqual.Env ν (Obj β) where
  exact := true
  close _ _ := false
  eq := W.eq
  ne := objNe W.ne
  inexactNp _ := false
  inexactJnp _ := false

/-- `jtu.tree_flatten` -/
structure Flat (C γ : Type) where
  leaves : List γ
  treedef : Def (JK C)

def flatten {γ : Type} (t : Tree C γ) : Flat C γ := ⟨t.leaves, t.shape⟩

/-- `_unflatten` (535-537) -/
def unflatten {γ : Type} (f : Flat C γ) : Except Err (Tree C γ) := treeUnflatten f.treedef (f.leaves.map fun a => .leaf a)

/-- `_check_closure_convert_input` (552-573). -/
def checkInput [DecidableEq C] (W : Outside C ν β) (inStruct inStatic : Flat C (Lf ν β)) (args : List (Tree C (Lf ν β)))
    (kwargs : Kw C (Lf ν β)) : Except Err (Tree C (Lf ν β)) := do
  let selfStruct ← unflatten inStruct
  let selfStatic ← unflatten inStatic
  let p ← part isArray (pack args kwargs)
  let struct := p.1.map W.struct
  let r1 ← TreeEqual.treeEqual W.env false [struct, selfStruct]
  if r1 ≠ .py true then throw .valueError
  let r2 ← TreeEqual.treeEqual W.env false [p.2, selfStatic]
  if r2 ≠ .py true then throw .valueError
  pure p.1

/-- `_fn` in `_MakeJaxpr.__call__` (`_make_jaxpr.py`, 36-41); `Static` (a wrapper) is left out. -/
def tracedFn [DecidableEq C] (fn : JFn C (Lf ν β)) (treedef : Def (JK C)) (static : Tree C (Lf ν β)) (flat : List (Lf ν β)) :
    Except Err (Tree C (Lf ν β) × Tree C (Lf ν β)) := do
  let d ← treeUnflatten treedef (flat.map fun a => .leaf a)
  let ak ← Filters.combine noLeaf [d, static]
  let a ← unpack ak
  let out ← fn a.1 a.2
  part isArray out

/-- `_MakeJaxpr.__call__` (`_make_jaxpr.py`, 32-46). -/
def makeJaxpr [DecidableEq C] (W : Outside C ν β) (fn : JFn C (Lf ν β)) (args : List (Tree C (Lf ν β))) (kwargs : Kw C (Lf ν β)) :
    Except Err (Traced C ν β) := do
  let p ← part isStruct (pack args kwargs)
  W.make (tracedFn fn p.1.shape p.2) (p.1.leaves.map W.aval)

/-- `_TrivialClosureConvert` (576-595) and `_ClosureConvert` (598-638). -/
inductive Converted (C ν β : Type) where
  | trivial (fn : JFn C (Lf ν β)) (inStruct inStatic : Flat C (Lf ν β))
  | closure (eval : List (Lf ν β) → Except Err (List (Lf ν β))) (inStruct : Flat C (Lf ν β)) (outStruct : Flat C Sds)
      (inStatic outStatic : Flat C (Lf ν β))

/-- `filter_closure_convert` (641-721); `plain` says that `fn` is a Python function without closure. -/
def closureConvert [DecidableEq C] (W : Outside C ν β) (plain : Bool) (fn : JFn C (Lf ν β)) (args : List (Tree C (Lf ν β)))
    (kwargs : Kw C (Lf ν β)) : Except Err (Converted C ν β) := do
  let p ← part isStruct (pack args kwargs)
  let inStruct := flatten (p.1.map W.struct)
  let inStatic := flatten p.2
  if plain then pure (.trivial fn inStruct inStatic)
  else do
    let t ← makeJaxpr W fn args kwargs
    pure (.closure t.eval inStruct (flatten t.outStruct) inStatic (flatten t.outStatic))

/-- `jnp.shape(o1) == o2.shape` and `jnp.result_type(o1) == jnp.result_type(o2)` (634-635). -/
def Outside.sameAval (W : Outside C ν β) : Lf ν β × Sds → Bool
  | (.arr a, s) => a.shape == s.shape && W.canon a.dtype == W.canon s.dtype
  | _ => false

/-- `_TrivialClosureConvert.__call__` (592-595), `_ClosureConvert.__call__` (621-638). -/
def Converted.call [DecidableEq C] (W : Outside C ν β) (s : Converted C ν β) (args : List (Tree C (Lf ν β))) (kwargs : Kw C (Lf ν β)) :
    Except Err (Tree C (Lf ν β)) :=
  match s with
  | .trivial fn inStruct inStatic => do
    let _ ← checkInput W inStruct inStatic args kwargs
    fn args kwargs
  | .closure eval inStruct outStruct inStatic outStatic => do
    let d ← checkInput W inStruct inStatic args kwargs
    let flat ← eval d.leaves
    let struct ← unflatten outStruct
    let static ← unflatten outStatic
    if flat.length ≠ struct.leaves.length then throw .assertionError
    if !(flat.zip struct.leaves).all W.sameAval then throw .assertionError
    let out ← treeUnflatten struct.shape (flat.map fun a => .leaf a)
    Filters.combine noLeaf [out, static]

/-- `in_struct` (581-585, 609-613). -/
def Converted.inStruct [DecidableEq C] (s : Converted C ν β) : Except Err (Tree C (Lf ν β)) :=
  match s with
  | .trivial _ d t => do
    let d ← unflatten d
    let t ← unflatten t
    Filters.combine noLeaf [d, t]
  | .closure _ d _ t _ => do
    let d ← unflatten d
    let t ← unflatten t
    Filters.combine noLeaf [d, t]

end Custom
end Verif
