import Verif.Filters.Model

/-!
# `filter_pure_callback` (`equinox/_callback.py`)

`jax.pure_callback` is modelled from its implementation in JAX: the leaves of what the callback returns are taken in order,
their number, shapes and dtypes are compared with what was declared, and whatever goes wrong in the callback is a
`RuntimeError`. The callback gets JAX arrays or NumPy arrays, depending on the version of JAX. How it behaves under `vmap` is left out, as are `sharding`, `vmap_method` and `vectorized`, which are passed on.
-/

namespace Verif
namespace Callback

open PT

variable {K A S O : Type}

/-- A leaf: a JAX array, a NumPy array, a `jax.ShapeDtypeStruct`, or anything else. -/
inductive Leaf (A S O : Type) where
  | jax (a : A)
  | numpy (a : A)
  | struct (s : S)
  | other (o : O)

/-- Shapes and dtypes of arrays, when `tree_equal` takes two objects for equal, what JAX makes of a NumPy array that it is
given (64-bit dtypes may become 32-bit ones), and whether a callback gets NumPy arrays. -/
structure World (A S O : Type) where
  aval : A → S
  eq : O → O → Bool
  canon : A → A
  givesNumpy : Bool

/-- `is_array` (`_filters.py`, 19-21) -/
def Leaf.isArray : Leaf A S O → Bool
  | .jax _ => true
  | .numpy _ => true
  | _ => false

/-- `_is_struct` (7-8) -/
def Leaf.isStruct : Leaf A S O → Bool
  | .other _ => false
  | _ => true

/-- A property of leaves as a filter specification. -/
def onLeaf (q : Leaf A S O → Bool) : PT K (Leaf A S O) → Bool
  | .leaf a => q a
  | _ => false

/-- `partition(x, q)` -/
def partitionBy [DecidableEq K] (q : Leaf A S O → Bool) (x : PT K (Leaf A S O)) :
    Except Err (PT K (Leaf A S O) × PT K (Leaf A S O)) :=
  Filters.partition noLeaf (.leaf (.callable fun y => .ok (onLeaf q y))) .none x

/-- `tree_equal` of two leaves, the second of which is not an array. -/
def leafEq (w : World A S O) : Leaf A S O → Leaf A S O → Bool
  | .other o, .other o' => w.eq o o'
  | _, _ => false

/-- `tree_equal` -/
def treeEq [DecidableEq K] (w : World A S O) (t u : PT K (Leaf A S O)) : Bool :=
  decide (t.shape = u.shape) && (t.leaves.zip u.leaves).all fun p => leafEq w p.1 p.2

/-- The Python function that is called: with arguments and keyword arguments. -/
abbrev Fn (K A S O : Type) := PT K (Leaf A S O) → PT K (Leaf A S O) → Except Err (PT K (Leaf A S O))

/-- `_args, _kwargs = ...` and `callback(*_args, **_kwargs)` -/
def apply (callback : Fn K A S O) : PT K (Leaf A S O) → Except Err (PT K (Leaf A S O))
  | .node _ [args, kwargs] => callback args kwargs
  | _ => .error .valueError

/-- `_callback` (46-52) -/
def inner [DecidableEq K] (w : World A S O) (callback : Fn K A S O) (static staticStruct dynamic : PT K (Leaf A S O)) :
    Except Err (PT K (Leaf A S O)) := do
  let both ← Filters.combine noLeaf [dynamic, static]
  let out ← apply callback both
  let p ← partitionBy Leaf.isArray out
  if treeEq w p.2 staticStruct then pure p.1 else .error .valueError

/-- The shape and dtype that a leaf declares or has. -/
def avalOf (w : World A S O) : Leaf A S O → Option S
  | .jax a => some (w.aval a)
  | .numpy a => some (w.aval a)
  | .struct s => some s
  | .other _ => Option.none

/-- An array as the callback gets it. -/
def handArray (w : World A S O) (a : A) : Leaf A S O :=
  if w.givesNumpy then .numpy a else .jax a

/-- A leaf of `dynamic` as the callback gets it. -/
def hand (w : World A S O) : Leaf A S O → Leaf A S O
  | .jax a => handArray w a
  | .numpy a => handArray w (w.canon a)
  | x => x

/-- What a leaf that the callback returns becomes. -/
def asJax : Leaf A S O → Leaf A S O
  | .numpy a => .jax a
  | x => x

/-- An exception in the callback is a `RuntimeError` outside. -/
def atRuntime {X : Type} : Except Err X → Except Err X
  | .ok x => .ok x
  | .error _ => .error .runtimeError

/-- `jax.pure_callback(g, struct, dynamic)` -/
def jaxPureCallback [DecidableEq S] (w : World A S O) (g : PT K (Leaf A S O) → Except Err (PT K (Leaf A S O)))
    (struct dynamic : PT K (Leaf A S O)) : Except Err (PT K (Leaf A S O)) := do
  let out ← atRuntime (g (dynamic.map (hand w)))
  if out.leaves.map (avalOf w) = struct.leaves.map (avalOf w) then
    treeUnflatten struct.shape (out.leaves.map fun a => .leaf (asJax a))
  else .error .runtimeError

/-- `filter_pure_callback` (11-62) -/
def filterPureCallback [DecidableEq K] [DecidableEq S] (w : World A S O) (tuple : K) (callback : Fn K A S O)
    (args kwargs result : PT K (Leaf A S O)) : Except Err (PT K (Leaf A S O)) := do
  let p ← partitionBy Leaf.isArray (.node tuple [args, kwargs])
  let q ← partitionBy Leaf.isStruct result
  let d ← jaxPureCallback w (inner w callback p.2 q.2) q.1 p.1
  Filters.combine noLeaf [d, q.2]

end Callback
end Verif
