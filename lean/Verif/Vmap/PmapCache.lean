import Verif.Vmap.PmapProps
/-!
# C89: the cache of `filter_pmap`

`equinox/_compile_utils.py`: `compile_cache` (55-95); `equinox/_vmap_pmap.py`: `_filter_pmap_cache` (363-418), `_PmapWrapper._call` (461-500);
`equinox/_caches.py`: `clear_caches`.

The function is a pytree here, whose arrays are passed to `jax.pmap` without an axis, and whose other leaves are static. Static leaves are compared by
`==`, that is, by their classes under `cls`; `struct` is the shape and the dtype of an array, without its weak type. Names, `axis_name` and
`pmapkwargs` are only compared.

Simplified: containers are compared exactly, and can be hashed. The arguments `maybe_dummy` of the cached function are left out, as in
`Verif/Vmap/Pmap.lean`. The programs which `jax.pmap` keeps for each function it returned, by the abstract values of its inputs, are left out: the function is
run anew for every call. `max_out_size` is computed from the arrays of the call that makes the entry, where the code has their structs.
-/

namespace Verif.Vmap

open PT Filters

/-- Everything outside of equinox. -/
structure CacheWorld (K V A O S Q F N : Type) extends World K V A O where
  ndim : V → Nat
  /-- calling a Python object -/
  call : Val K V O → Fn K V O
  struct : V → S
  cls : O → Q
  hashable : O → Bool
  /-- an entry of `out_axes` -/
  axis : O → AxSpec V O
  /-- the identity of the function, if `type(user_fn) is types.FunctionType` -/
  function : Val K V O → Option F
  /-- `get_fn_names` (47-52) -/
  names : Val K V O → N

variable {K V A O S Q F N J : Type}

/-- A call of a function decorated with `filter_pmap`. -/
structure PCall (K V O J : Type) where
  fn : Val K V O
  params : List String
  inAxes : InAxes K V O
  outAxes : PT K O
  axisSize : Option Nat
  config : J
  args : List (Val K V O)
  kwargs : List String

/-- `axes` and `partition((self._fun, args, ...), is_array)` -/
structure Prep (K V O : Type) where
  axes : PT K Int
  fn : Val K V O × Val K V O
  args : Val K V O × Val K V O

/-- `partition(x, is_array)` -/
def splitArrays [DecidableEq K] (x : Val K V O) : Except Err (Val K V O × Val K V O) :=
  Filters.partition noLeaf (.leaf (.callable fun x => .ok (isArray x))) .none x

/-- Lines 462-472. -/
def prepare [DecidableEq K] (tup : K) (c : PCall K V O J) : Except Err (Prep K V O) :=
  if c.kwargs.length ≠ 0 then .error .runtimeError
  else do
    let spec ← namedTree tup c.params c.args.length c.inAxes
    let axes ← resolveAxes (.node tup c.args) spec
    let fn ← splitArrays c.fn
    let args ← splitArrays (.node tup c.args)
    pure ⟨axes, fn, args⟩

/-- What the cache is told of a static leaf. -/
def CacheWorld.objKey (w : CacheWorld K V A O S Q F N) : Leaf V O → Option Q
  | .obj o => some (w.cls o)
  | .arr _ => Option.none

/-- `jax.ShapeDtypeStruct(x.shape, x.dtype)` (472) -/
def CacheWorld.structKey (w : CacheWorld K V A O S Q F N) : Leaf V O → Option S
  | .obj _ => Option.none
  | .arr v => some (w.struct v)

/-- The arguments of `_filter_pmap_cache`. -/
structure PKey (K S Q N J : Type) where
  names : N
  staticFn : PT K (Option Q)
  staticArgs : PT K (Option Q)
  outAxes : PT K Q
  structFn : PT K (Option S)
  structArgs : PT K (Option S)
  axes : PT K Int
  axisSize : Option Nat
  config : J
deriving DecidableEq

def pmapKey (w : CacheWorld K V A O S Q F N) (c : PCall K V O J) (p : Prep K V O) : PKey K S Q N J where
  names := w.names c.fn
  staticFn := p.fn.2.map w.objKey
  staticArgs := p.args.2.map w.objKey
  outAxes := c.outAxes.map w.cls
  structFn := p.fn.1.map w.structKey
  structArgs := p.args.1.map w.structKey
  axes := p.axes
  axisSize := c.axisSize
  config := c.config

/-- `hash` of a static leaf is defined. -/
def CacheWorld.leafHash (w : CacheWorld K V A O S Q F N) : Leaf V O → Bool
  | .obj o => w.hashable o
  | .arr _ => false

/-- The key can be hashed. -/
def keyHash (w : CacheWorld K V A O S Q F N) (c : PCall K V O J) (p : Prep K V O) : Bool :=
  p.fn.2.leaves.all w.leafHash && p.args.2.leaves.all w.leafHash && c.outAxes.leaves.all w.hashable

/-- What `_filter_pmap_cache` returns: `jax.pmap(fun_wrapped, ...)` with the variables it refers to. -/
structure Entry (K V O : Type) where
  staticFn : Val K V O
  staticArgs : Val K V O
  outAxes : PT K O
  axes : PT K Int
  axisSize : Option Nat
  maxOut : Nat

/-- Raises if there are no lanes. -/
def nonzero (n : Nat) : Except Err Unit := if n = 0 then .error .notImplemented else .ok ()

/-- `_filter_pmap_cache` (363-418) -/
def makeEntry [DecidableEq K] (w : CacheWorld K V A O S Q F N) (c : PCall K V O J) (p : Prep K V O) : Except Err (Entry K V O) := do
  let fn ← Filters.combine noLeaf [p.fn.1, p.fn.2]
  let sizes ← pmapSizes w.toWorld p.axes p.args.1
  let n ← batchSize c.axisSize sizes
  nonzero n
  let lane ← pmapLane w.toWorld p.axes p.args.1 0
  let out ← pmapCall (w.call fn) p.args.2 lane
  pure ⟨p.fn.2, p.args.2, c.outAxes, p.axes, c.axisSize, maxOutSize w.toWorld w.ndim out⟩

/-- What `jax.pmap` makes of the outcomes of the lanes, and `_postprocess` (442-445). -/
def finishPmap [DecidableEq K] (w : World K V A O) (maxOut : Nat) (bat : List Nat → Bool) (outAxes : PT K (AxSpec V O)) :
    List (Val K V O) → Except Err (Val K V O)
  | [] => .error .notImplemented
  | o :: os => do
    let rs ← mapE (pmapSplit maxOut outAxes) (o :: os)
    let r ← collect w maxOut bat rs
    pmapPostprocess r

/-- `_postprocess(cached(dynamic))` -/
def runEntry [DecidableEq K] (w : CacheWorld K V A O S Q F N) (e : Entry K V O) (dynFn dynArgs : Val K V O) : Except Err (Val K V O) := do
  let fn ← Filters.combine noLeaf [dynFn, e.staticFn]
  let sizes ← pmapSizes w.toWorld e.axes dynArgs
  let n ← batchSize e.axisSize sizes
  let lanes ← mapE (pmapLane w.toWorld e.axes dynArgs) (List.range n)
  let outs ← mapE (pmapCall (w.call fn) e.staticArgs) lanes
  finishPmap w.toWorld e.maxOut (w.batched (w.call fn) (fullLanes e.staticArgs lanes)) (e.outAxes.map w.axis) outs

/-- The dictionary of `compile_cache`: functions, or `_default_cache_key` (`none`), and for each of them an `lru_cache`, as one list with the newest entry
first; and how often `_filter_pmap_cache` was run. -/
structure PSt (K V O S Q F N J : Type) where
  entries : List ((Option F × PKey K S Q N J) × Entry K V O)
  traces : Nat

def findEntry [DecidableEq F] [DecidableEq K] [DecidableEq S] [DecidableEq Q] [DecidableEq N] [DecidableEq J] (k : Option F × PKey K S Q N J) :
    List ((Option F × PKey K S Q N J) × Entry K V O) → Option (Entry K V O)
  | [] => Option.none
  | x :: xs => if x.1 = k then some x.2 else findEntry k xs

section
variable [DecidableEq K] [DecidableEq S] [DecidableEq Q] [DecidableEq F] [DecidableEq N] [DecidableEq J]

/-- `_PmapWrapper._call` (461-500), with `wrapped_cacheable_fn` (63-79) -/
def callPmap (w : CacheWorld K V A O S Q F N) (tup : K) (s : PSt K V O S Q F N J) (c : PCall K V O J) :
    Except Err (Val K V O) × PSt K V O S Q F N J :=
  match prepare tup c with
  | .error e => (.error e, s)
  | .ok p =>
    if keyHash w c p then
      match findEntry (w.function c.fn, pmapKey w c p) s.entries with
      | some e => (runEntry w e p.fn.1 p.args.1, s)
      | Option.none =>
        match makeEntry w c p with
        | .error e => (.error e, { s with traces := s.traces + 1 })
        | .ok e => (runEntry w e p.fn.1 p.args.1, ⟨((w.function c.fn, pmapKey w c p), e) :: s.entries, s.traces + 1⟩)
    else (.error .typeError, s)

/-- What a program does: calls, `clear_caches`, and that a function is no longer referenced or `delete`d (81-92). -/
inductive PEvent (K V O F J : Type) where
  | call (c : PCall K V O J)
  | clear
  | drop (f : F)

def stepPmap (w : CacheWorld K V A O S Q F N) (tup : K) (s : PSt K V O S Q F N J) : PEvent K V O F J → PSt K V O S Q F N J
  | .call c => (callPmap w tup s c).2
  | .clear => { s with entries := [] }
  | .drop f => { s with entries := s.entries.filter fun x => x.1.1 ≠ some f }

/-- The state after a history. -/
def runPmap (w : CacheWorld K V A O S Q F N) (tup : K) (h : List (PEvent K V O F J)) : PSt K V O S Q F N J :=
  h.foldl (stepPmap w tup) ⟨[], 0⟩

end

/-! ### Specification -/

/-- `filter_pmap` without a cache, once `in_axes` has been resolved. -/
def pmapAt [DecidableEq K] (w : World K V A O) (ndim : V → Nat) (tup : K) (f : Fn K V O) (axes : PT K Int) (outAxes : PT K (AxSpec V O))
    (axisSize : Option Nat) (args : List (Val K V O)) : Except Err (Val K V O) := do
  let p ← Filters.partition noLeaf (.leaf (.callable fun x => .ok (isArray x))) .none (.node tup args)
  let sizes ← pmapSizes w axes p.1
  let n ← batchSize axisSize sizes
  let lanes ← mapE (pmapLane w axes p.1) (List.range n)
  let outs ← mapE (pmapCall f p.2) lanes
  pmapOutputs w ndim (w.batched f (fullLanes p.2 lanes)) outAxes outs

theorem filterPmap_at [DecidableEq K] (w : World K V A O) (ndim : V → Nat) (tup : K) (f : Fn K V O) (params : List String)
    (inAxes : InAxes K V O) (outAxes : PT K (AxSpec V O)) (axisSize : Option Nat) (args : List (Val K V O)) :
    filterPmap w ndim tup f params inAxes outAxes axisSize args [] =
      ((namedTree tup params args.length inAxes).bind fun spec => (resolveAxes (.node tup args) spec).bind fun axes =>
        pmapAt w ndim tup f axes outAxes axisSize args) := rfl

/-- What two equal leaves have in common. -/
def CacheWorld.leafClass (w : CacheWorld K V A O S Q F N) : Leaf V O → S ⊕ Q
  | .arr v => .inl (w.struct v)
  | .obj o => .inr (w.cls o)

/-- The same structure, arrays of the same shapes and dtypes in the same places, and all else equal. -/
def SameVal (w : CacheWorld K V A O S Q F N) (x y : Val K V O) : Prop := x.map w.leafClass = y.map w.leafClass

/-- The axes for the arguments. -/
def axesOf [DecidableEq K] (tup : K) (c : PCall K V O J) : Except Err (PT K Int) :=
  (namedTree tup c.params c.args.length c.inAxes).bind (resolveAxes (.node tup c.args))

/-- Two calls which do not differ but in the values of arrays, as far as `==` tells. -/
structure SameCall [DecidableEq K] (w : CacheWorld K V A O S Q F N) (tup : K) (c d : PCall K V O J) : Prop where
  function : w.function c.fn = w.function d.fn
  names : w.names c.fn = w.names d.fn
  fn : SameVal w c.fn d.fn
  args : SameVal w (.node tup c.args) (.node tup d.args)
  axes : axesOf tup c = axesOf tup d
  outAxes : c.outAxes.map w.cls = d.outAxes.map w.cls
  axisSize : c.axisSize = d.axisSize
  config : c.config = d.config

/-- `m` has the arrays of `x`, and everything else from `y`. -/
def Mixed (x y m : Val K V O) : Prop :=
  SameStructure m x ∧ SameStructure m y ∧ ∀ π l, m.leafAt? π = some l →
    (∀ v, l = .arr v → x.leafAt? π = some (.arr v)) ∧ ∀ o, l = .obj o → y.leafAt? π = some (.obj o)

/-- Nothing but arrays that cannot be hashed. -/
def CallHash (w : CacheWorld K V A O S Q F N) (tup : K) (c : PCall K V O J) : Prop :=
  (∀ o, .obj o ∈ c.fn.leaves → w.hashable o = true) ∧ (∀ o, .obj o ∈ (PT.node tup c.args).leaves → w.hashable o = true) ∧
    ∀ o ∈ c.outAxes.leaves, w.hashable o = true

/-- What an output looks like: the rank of an array. -/
def CacheWorld.leafRank (w : CacheWorld K V A O S Q F N) : Leaf V O → Nat ⊕ O
  | .arr v => .inl (w.ndim v)
  | .obj o => .inr o

/-- What an input looks like. -/
def CacheWorld.leafStruct (w : CacheWorld K V A O S Q F N) : Leaf V O → S ⊕ O
  | .arr v => .inl (w.struct v)
  | .obj o => .inr o

/-- Shapes and dtypes of arrays determine shapes and dtypes of their slices, and the ranks of what functions return. -/
structure Shapely (w : CacheWorld K V A O S Q F N) : Prop where
  slice : ∀ v v' ax i, w.struct v = w.struct v' → w.struct (w.slice v ax i) = w.struct (w.slice v' ax i)
  call : ∀ f f' args args' o o', f.map w.leafStruct = f'.map w.leafStruct →
    args.map (PT.map w.leafStruct) = args'.map (PT.map w.leafStruct) → w.call f args = .ok o → w.call f' args' = .ok o' →
      o.map w.leafRank = o'.map w.leafRank

end Verif.Vmap
