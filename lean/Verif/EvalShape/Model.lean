import Verif.Filters.Model

/-!
# `equinox/_eval_shape.py`, `equinox/_caches.py`, and `eval_empty`, `eval_zero`, `eval_full` of `equinox/internal/_misc.py`

`(fn, args, kwargs)` is one pytree, and calling it is a parameter.  Shardings are left out.  `jax.eval_shape` runs the function once on tracers;
it reads a dtype by `canon` (64 bits may become 32), refuses outputs which are not arrays, and gives shapes, dtypes and weak types of the others.
Two leaves share an entry of `functools.lru_cache` if they are equal under `==`, that is, have the same class under `cls` (so `1`, `1.0` and `True` share a
class); likewise `ccls` for containers with their auxiliary data.
-/

namespace Verif
namespace EvalShape

open PT

/-- Shape, dtype and weak type. -/
structure Aval where
  shape : List Nat
  dtype : Nat
  weak : Bool
deriving DecidableEq, Repr

/-- A leaf: an array, a `jax.ShapeDtypeStruct`, or another object. -/
inductive Leaf (V O : Type) where
  | arr (a : Aval) (v : V)
  | struct (a : Aval)
  | obj (o : O)
deriving DecidableEq

/-- A leaf while tracing. -/
inductive Tr (O : Type) where
  | tracer (a : Aval)
  | struct (a : Aval)
  | obj (o : O)
deriving DecidableEq

/-- Everything outside of equinox. -/
structure World (K O Q R : Type) where
  canon : Nat → Nat
  /-- calling `fn(*args, **kwargs)` -/
  apply : PT K (Tr O) → Except Err (PT K (Tr O))
  cls : O → Q
  ccls : K → R
  hashable : O → Bool
  chashable : K → Bool

variable {K V O Q R : Type}

/-- `_filter` (18-19) -/
def Leaf.dynamic : Leaf V O → Bool
  | .obj _ => false
  | _ => true

def Tr.dynamic : Tr O → Bool
  | .obj _ => false
  | _ => true

/-- What `jax.eval_shape` makes of its arguments; it takes arrays and structs only. -/
def World.tracer (W : World K O Q R) : Leaf V O → Except Err (Tr O)
  | .arr a _ => .ok (.tracer { a with dtype := W.canon a.dtype })
  | .struct a => .ok (.tracer { a with dtype := W.canon a.dtype })
  | .obj _ => .error .typeError

/-- The static part stays as it is. -/
def Leaf.asStatic : Leaf V O → Tr O
  | .arr a _ => .tracer a
  | .struct a => .struct a
  | .obj o => .obj o

/-- What comes out of `jax.eval_shape` for an array; a struct is not a valid JAX type. -/
def outDynamic : Tr O → Except Err (Leaf V O)
  | .tracer a => .ok (.struct a)
  | .struct _ => .error .typeError
  | .obj _ => .error .typeError

def outStatic : Tr O → Leaf V O
  | .tracer a => .struct a
  | .struct a => .struct a
  | .obj o => .obj o

/-- A predicate on leaves as a `filter_spec`. -/
def onLeaves {α : Type} (q : α → Bool) : PT K α → Bool
  | .leaf a => q a
  | _ => false

/-- `partition(x, q)` -/
def part {α : Type} [DecidableEq K] (q : α → Bool) (x : PT K α) : Except Err (PT K α × PT K α) :=
  Filters.partition noLeaf (.leaf (.callable fun y => .ok (onLeaves q y))) .none x

/-- `_fn` (31-35) -/
def traced [DecidableEq K] (W : World K O Q R) (static dynamic : PT K (Tr O)) : Except Err (PT K (Tr O) × PT K (Tr O)) := do
  let fak ← Filters.combine noLeaf [static, dynamic]
  let out ← W.apply fak
  part Tr.dynamic out

/-- `filter_eval_shape` (22-39) -/
def filterEvalShape [DecidableEq K] (W : World K O Q R) (x : PT K (Leaf V O)) : Except Err (PT K (Leaf V O)) := do
  let p ← part Leaf.dynamic x
  let ins ← mapE W.tracer p.1.leaves
  let dynamic ← treeUnflatten p.1.shape (ins.map .leaf)
  let out ← traced W (p.2.map Leaf.asStatic) dynamic
  let flat ← mapE outDynamic out.1.leaves
  let dynamicOut ← treeUnflatten out.1.shape (flat.map .leaf)
  Filters.combine noLeaf [dynamicOut, out.2.map outStatic]

/-- `_to_struct` (42-46) -/
def toStruct : Leaf V O → Leaf V O
  | .arr a _ => .struct ⟨a.shape, a.dtype, false⟩
  | .struct a => .struct a
  | .obj o => .obj o

/-- What a leaf is compared by. -/
inductive LKey (Q : Type) where
  | struct (a : Aval)
  | obj (q : Q)
deriving DecidableEq

def World.leafKey (W : World K O Q R) : Leaf V O → LKey Q
  | .arr a _ => .struct a
  | .struct a => .struct a
  | .obj o => .obj (W.cls o)

mutual
/-- The treedef, up to `==`. -/
def World.defKey {α : Type} (W : World K O Q R) : PT K α → PT R Unit
  | .leaf _ => .leaf ()
  | .none => .none
  | .node k cs => .node (W.ccls k) (W.defKeys cs)
def World.defKeys {α : Type} (W : World K O Q R) : List (PT K α) → List (PT R Unit)
  | [] => []
  | c :: cs => W.defKey c :: W.defKeys cs
end

mutual
/-- `hash(treedef)` is defined. -/
def World.defHashable {α : Type} (W : World K O Q R) : PT K α → Bool
  | .leaf _ => true
  | .none => true
  | .node k cs => W.chashable k && W.defsHashable cs
def World.defsHashable {α : Type} (W : World K O Q R) : List (PT K α) → Bool
  | [] => true
  | c :: cs => W.defHashable c && W.defsHashable cs
end

/-- `hash(leaf)` is defined. -/
def World.leafHashable (W : World K O Q R) : Leaf V O → Bool
  | .arr _ _ => false
  | .struct _ => true
  | .obj o => W.hashable o

/-- A key of the cache: the arguments `(leaves, treedef)` of `_cached_filter_eval_shape`. -/
abbrev Key (Q R : Type) := List (LKey Q) × PT R Unit

def World.key (W : World K O Q R) (x : PT K (Leaf V O)) : Key Q R := (x.leaves.map W.leafKey, W.defKey x)

/-- The cache, newest entry first, and how often a function was traced. -/
structure St (K V O Q R : Type) where
  cache : List (Key Q R × PT K (Leaf V O))
  traces : Nat

/-- Looking up an entry. -/
def lookup [DecidableEq Q] [DecidableEq R] (k : Key Q R) : List (Key Q R × PT K (Leaf V O)) → Option (PT K (Leaf V O))
  | [] => Option.none
  | e :: es => if e.1 = k then some e.2 else lookup k es

/-- `_cached_filter_eval_shape` (50-52), behind `functools.lru_cache`: exceptions are not kept. -/
def cachedLookup [DecidableEq K] [DecidableEq Q] [DecidableEq R] (W : World K O Q R) (s : St K V O Q R) (tree : PT K (Leaf V O)) :
    Except Err (PT K (Leaf V O)) × St K V O Q R :=
  if tree.leaves.all W.leafHashable && W.defHashable tree then
    match lookup (W.key tree) s.cache with
    | some y => (.ok y, s)
    | Option.none =>
      match filterEvalShape W tree with
      | .ok y => (.ok y, ⟨(W.key tree, y) :: s.cache, s.traces + 1⟩)
      | .error e => (.error e, { s with traces := s.traces + 1 })
  else (.error .typeError, s)

/-- `cached_filter_eval_shape` (58-62) -/
def cached [DecidableEq K] [DecidableEq Q] [DecidableEq R] (W : World K O Q R) (s : St K V O Q R) (x : PT K (Leaf V O)) :
    Except Err (PT K (Leaf V O)) × St K V O Q R :=
  cachedLookup W s (x.map toStruct)

/-- `clear_caches` (`_caches.py`, 4-18), as far as this cache is concerned (55). -/
def clearCaches (s : St K V O Q R) : St K V O Q R := { s with cache := [] }

/-- What a program does. -/
inductive Event (K V O : Type) where
  | call (x : PT K (Leaf V O))
  | clear

def step [DecidableEq K] [DecidableEq Q] [DecidableEq R] (W : World K O Q R) (s : St K V O Q R) : Event K V O → St K V O Q R
  | .call x => (cached W s x).2
  | .clear => clearCaches s

/-- The state after a history. -/
def run [DecidableEq K] [DecidableEq Q] [DecidableEq R] (W : World K O Q R) (h : List (Event K V O)) : St K V O Q R :=
  h.foldl (step W) ⟨[], 0⟩

/-- `jnp.full(x.shape, fill_value, x.dtype)`; other objects have no shape. -/
def full (fill : Aval → V) : Leaf V O → Except Err (Leaf V O)
  | .struct a => .ok (.arr ⟨a.shape, a.dtype, false⟩ (fill ⟨a.shape, a.dtype, false⟩))
  | .arr a _ => .ok (.arr ⟨a.shape, a.dtype, false⟩ (fill ⟨a.shape, a.dtype, false⟩))
  | .obj _ => .error .attributeError

/-- `eval_empty`, `eval_zero`, `eval_full` (`internal/_misc.py`, 61-73): `fill` is what fills an array. -/
def evalFull [DecidableEq K] (W : World K O Q R) (fill : Aval → V) (x : PT K (Leaf V O)) : Except Err (PT K (Leaf V O)) := do
  let out ← filterEvalShape W x
  let flat ← mapE (full fill) out.leaves
  treeUnflatten out.shape (flat.map .leaf)

end EvalShape
end Verif
