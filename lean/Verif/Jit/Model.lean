import Verif.Filters.Model
import Verif.Dict
/-!
# `filter_jit`

`equinox/_jit.py`: `_filter_jit_cache` (41-63), `_bind` (66-70), `_preprocess` (73-103), `_postprocess`
(106-108), `_JitWrapper` (193-224), `_call` (230-293), `filter_jit` (316-431).
`equinox/_compile_utils.py`: `hashable_filter` (15-18), `hashable_partition` (21-25), `hashable_combine`
(28-31), `compile_cache` (55-95), `Lowered`/`Compiled` (98-125).

Outside of the repository, modelled after the documentation: `jax.jit` keeps, for each jitted function,
a cache from static arguments (compared by `==`, after hashing), tree structures and abstract values
(shape, dtype, ...) to compiled programs. Two objects are interchangeable for `==` if they have the same
class under `World.cls` (so `1`, `1.0` and `True` share a class); likewise `World.ccls` for container
types with their auxiliary data. A compiled program is what the traced Python function does, with the
static arguments of the call that was traced.

Simplified: dictionaries are unordered, so keyword arguments are kept sorted by name, which is the
order in which JAX flattens them. NumPy and JAX arrays are not told apart (both are traced).
Errors while tracing and errors at run time are not told apart. Logging, warnings and names for
debugging are left out.
-/

namespace Verif.Jit

open PT

/-- Container types: tuples, dictionaries with string keys, and all others with their auxiliary
data. -/
inductive JK (C : Type)
  | tuple
  | dict (keys : List String)
  | other (c : C)
deriving DecidableEq

/-- A leaf: an array (`is_array`), or any other object. -/
inductive Leaf (V O : Type)
  | arr (v : V)
  | obj (o : O)
deriving DecidableEq

variable {V A O C Q R : Type}

/-- A Python value seen as a pytree. -/
abbrev Val (V O C : Type) := PT (JK C) (Leaf V O)

/-- Keyword arguments. -/
abbrev Kwargs (V O C : Type) := List (String × Val V O C)

/-- Everything outside of equinox. -/
structure World (V A O C Q R : Type) where
  /-- the abstract value of an array: shape, dtype, weak type -/
  aval : V → A
  /-- the class of an object under `==` -/
  cls : O → Q
  /-- the class of a container type with its auxiliary data under `==` -/
  ccls : C → R
  hashable : O → Bool
  chashable : C → Bool
  /-- calling a Python object -/
  apply : Val V O C → List (Val V O C) → Kwargs V O C → Except Err (Val V O C)
  /-- `inspect.signature(f).bind(*args, **kwargs)`, then `.args` and `.kwargs` -/
  bind : Val V O C → List (Val V O C) → Kwargs V O C →
    Except Err (List (Val V O C) × Kwargs V O C)

/-! ## `_compile_utils.py` -/

/-- A tuple of leaves some of which are `None`. -/
abbrev Dyn (V : Type) := List (Option V)

/-- The second result of `hashable_partition`. -/
structure Static (O C : Type) where
  leaves : List (Option O)
  treedef : Def (JK C)

/-- `x if is_array(x) else None` -/
def Leaf.dyn : Leaf V O → Option V
  | .arr v => some v
  | .obj _ => Option.none

/-- `None if is_array(x) else x` -/
def Leaf.static : Leaf V O → Option O
  | .arr _ => Option.none
  | .obj o => some o

/-- `hashable_filter(pytree, is_array)` (15-18) -/
def hashableFilter (t : Val V O C) : Dyn V := t.leaves.map Leaf.dyn

/-- `hashable_partition(pytree, is_array)` (21-25) -/
def hashablePartition (t : Val V O C) : Dyn V × Static O C :=
  (t.leaves.map Leaf.dyn, ⟨t.leaves.map Leaf.static, t.shape⟩)

/-- `d if s is None else s` -/
def pick : Option V → Option O → Val V O C
  | some v, Option.none => .leaf (.arr v)
  | Option.none, Option.none => .none
  | _, some o => .leaf (.obj o)

/-- `hashable_combine` (28-31) -/
def hashableCombine (d : Dyn V) (s : Static O C) : Except Err (Val V O C) :=
  treeUnflatten s.treedef (List.zipWith pick d s.leaves)

/-! ## `_jit.py` -/

/-- `(rest_args, kwargs)` as a pytree -/
def packRest (rest : List (Val V O C)) (kwargs : Kwargs V O C) : Val V O C :=
  .node .tuple [.node .tuple rest, .node (.dict (kwargs.map Prod.fst)) (kwargs.map Prod.snd)]

/-- Reading a pair back; the assertion of line 52 and unpacking fail otherwise. -/
def unpackRest : Val V O C → Except Err (List (Val V O C) × Kwargs V O C)
  | .node .tuple [.node .tuple rest, .node (.dict ks) vs] => .ok (rest, ks.zip vs)
  | _ => .error .assertionError

/-- `*args, dummy_arg = (first_arg,) + rest_args; assert dummy_arg is None` (53-54) -/
def splitDummy (first : Val V O C) (rest : List (Val V O C)) : Except Err (List (Val V O C)) :=
  match (first :: rest).getLast? with
  | some .none => .ok (first :: rest).dropLast
  | _ => .error .assertionError

/-- The dictionaries `dynamic_donate` and `dynamic_nodonate`. -/
abbrev DynDict (V : Type) := List (String × Dyn V)

/-- `(static_fun, static_first, static_rest)` -/
structure Statics (O C : Type) where
  fn : Static O C
  first : Static O C
  rest : Static O C

/-- `dict.pop(name)` on `dict(**dynamic_donate, **dynamic_nodonate)` -/
def popDyn (dd dn : DynDict V) (name : String) : Except Err (Dyn V) :=
  match (dd ++ dn).find? (fun p => p.1 == name) with
  | some p => .ok p.2
  | Option.none => .error .keyError

/-- `is_array` -/
def isArray : Val V O C → Bool
  | .leaf (.arr _) => true
  | _ => false

/-- `partition(out, is_array)` -/
def partitionOut [DecidableEq C] (out : Val V O C) : Except Err (Val V O C × Val V O C) :=
  Filters.partition noLeaf (.leaf (.callable fun x => .ok (isArray x))) .none out

/-- `fun_wrapped` (43-58) -/
def funWrapped [DecidableEq C] (w : World V A O C Q R) (dd dn : DynDict V) (s : Statics O C) :
    Except Err (Val V O C × Val V O C) := do
  let dynFun ← popDyn dd dn "fun"
  let dynFirst ← popDyn dd dn "first"
  let dynRest ← popDyn dd dn "rest"
  let fn ← hashableCombine dynFun s.fn
  let first ← hashableCombine dynFirst s.first
  let restKw ← hashableCombine dynRest s.rest
  let rk ← unpackRest restKw
  let args ← splitDummy first rk.1
  let out ← w.apply fn args rk.2
  partitionOut out

mutual
/-- Containers and leaves replaced by their classes. -/
def classes {α β : Type} (f : C → R) (g : α → β) : PT (JK C) α → PT (JK R) β
  | .leaf a => .leaf (g a)
  | .none => .none
  | .node .tuple cs => .node .tuple (classesL f g cs)
  | .node (.dict ks) cs => .node (.dict ks) (classesL f g cs)
  | .node (.other c) cs => .node (.other (f c)) (classesL f g cs)
/-- `classes` on a list of children. -/
def classesL {α β : Type} (f : C → R) (g : α → β) : List (PT (JK C) α) → List (PT (JK R) β)
  | [] => []
  | c :: cs => classes f g c :: classesL f g cs
end

/-- What the cache of `jax.jit` sees of a static argument. -/
def staticKey (w : World V A O C Q R) (s : Static O C) : List (Option Q) × Def (JK R) :=
  (s.leaves.map fun o => o.map w.cls, classes w.ccls id s.treedef)

/-- What the cache of `jax.jit` sees of a dynamic argument: dictionary keys, which leaves are `None`,
abstract values. -/
def dynKey (w : World V A O C Q R) (d : DynDict V) : List (String × List (Option A)) :=
  d.map fun p => (p.1, p.2.map fun v => v.map w.aval)

/-- The key of the cache of a jitted function. -/
structure Key (A Q R : Type) where
  donate : List (String × List (Option A))
  nodonate : List (String × List (Option A))
  fn : List (Option Q) × Def (JK R)
  first : List (Option Q) × Def (JK R)
  rest : List (Option Q) × Def (JK R)
deriving DecidableEq

/-- The key of a call. -/
def key (w : World V A O C Q R) (dd dn : DynDict V) (s : Statics O C) : Key A Q R :=
  ⟨dynKey w dd, dynKey w dn, staticKey w s.fn, staticKey w s.first, staticKey w s.rest⟩

/-- A compiled program: made by tracing with these static arguments, and with this static output. -/
structure Program (V O C : Type) where
  statics : Statics O C
  staticOut : Val V O C

/-- A function returned by `jax.jit(fun_wrapped, static_argnums=2)`: its cache. -/
abbrev JitFn (V A O C Q R : Type) := Dict (Key A Q R) (Program V O C)

mutual
/-- Can a treedef be hashed? -/
def defHashable {α : Type} (w : World V A O C Q R) : PT (JK C) α → Bool
  | .leaf _ => true
  | .none => true
  | .node (.other c) cs => w.chashable c && defHashableL w cs
  | .node _ cs => defHashableL w cs
/-- `defHashable` on a list of children. -/
def defHashableL {α : Type} (w : World V A O C Q R) : List (PT (JK C) α) → Bool
  | [] => true
  | c :: cs => defHashable w c && defHashableL w cs
end

/-- Can a static argument be hashed? -/
def Static.hashable (w : World V A O C Q R) (s : Static O C) : Bool :=
  s.leaves.all (fun o => match o with
    | some o => w.hashable o
    | Option.none => true) && defHashable w s.treedef

/-- Calling a jitted function: dynamic outputs come from running the program, static outputs from the
trace. An unhashable static argument is a `ValueError`. -/
def jitCall [DecidableEq C] [DecidableEq A] [DecidableEq Q] [DecidableEq R] (w : World V A O C Q R)
    (j : JitFn V A O C Q R) (dd dn : DynDict V) (s : Statics O C) :
    Except Err (Val V O C × Val V O C) × JitFn V A O C Q R :=
  if !(s.fn.hashable w && s.first.hashable w && s.rest.hashable w) then (.error .valueError, j)
  else match j.get? (key w dd dn s) with
    | some p => ((funWrapped w dd dn p.statics).map fun o => (o.1, p.staticOut), j)
    | Option.none =>
      match funWrapped w dd dn s with
      | .ok o => (.ok o, j.insert (key w dd dn s) ⟨s, o.2⟩)
      | .error e => (.error e, j)

/-- `_postprocess` (106-108) -/
def postprocess [DecidableEq C] (o : Val V O C × Val V O C) : Except Err (Val V O C) :=
  Filters.combine noLeaf [o.1, o.2]

/-- The fields of `_JitWrapper` (193-201), with the identity of `_cached`, and the object whose signature
is `_signature`. -/
structure Wrapper (V O C : Type) where
  signatureOf : Val V O C
  dynFun : Dyn V
  staticFun : Static O C
  jit : Nat
  donateFirst : Bool
  donateRest : Bool

/-- `_preprocess(info, args, kwargs, return_static=True)` (73-103) -/
def preprocess (w : World V A O C Q R) (wr : Wrapper V O C) (args : List (Val V O C))
    (kwargs : Kwargs V O C) : Except Err (DynDict V × DynDict V × Statics O C) := do
  let b ← w.bind wr.signatureOf args kwargs
  let args' := b.1 ++ [.none]
  let first := args'.headD .none
  let rest := args'.tail
  let pf := hashablePartition first
  let pr := hashablePartition (packRest rest b.2)
  let f := [("first", pf.1)]
  let r := [("fun", wr.dynFun), ("rest", pr.1)]
  pure ((if wr.donateFirst then f else []) ++ (if wr.donateRest then r else []),
    (if wr.donateFirst then [] else f) ++ (if wr.donateRest then [] else r),
    ⟨wr.staticFun, pf.2, pr.2⟩)

/-- The arrays whose buffers a call donates: those in `dynamic_donate`, by `donate_argnums=0` (63). -/
def donated (w : World V A O C Q R) (wr : Wrapper V O C) (args : List (Val V O C)) (kwargs : Kwargs V O C) :
    Except Err (List V) :=
  (preprocess w wr args kwargs).map fun q => (q.1.flatMap Prod.snd).filterMap id

/-- `_preprocess(info, args, kwargs)` (73-103), without the static parts -/
def preprocessDyn (w : World V A O C Q R) (wr : Wrapper V O C) (args : List (Val V O C))
    (kwargs : Kwargs V O C) : Except Err (DynDict V × DynDict V) := do
  let b ← w.bind wr.signatureOf args kwargs
  let args' := b.1 ++ [.none]
  let first := args'.headD .none
  let rest := args'.tail
  let f := [("first", hashableFilter first)]
  let r := [("fun", wr.dynFun), ("rest", hashableFilter (packRest rest b.2))]
  pure ((if wr.donateFirst then f else []) ++ (if wr.donateRest then r else []),
    (if wr.donateFirst then [] else f) ++ (if wr.donateRest then [] else r))

/-- The accepted values of `donate` (391-410). -/
inductive Donate
  | all
  | allExceptFirst
  | warn
  | warnExceptFirst
  | none
deriving DecidableEq

/-- `(filter_warning, donate_first, donate_rest)` (391-415); `Option.none` stands for any other value. -/
def donateFlags : Option Donate → Except Err (Bool × Bool × Bool)
  | some .all => .ok (true, true, true)
  | some .allExceptFirst => .ok (true, false, true)
  | some .warn => .ok (false, true, true)
  | some .warnExceptFirst => .ok (false, false, true)
  | some .none => .ok (false, false, false)
  | Option.none => .error .valueError

/-- The key of `compile_cache` (65-79): the function itself if it is a plain function, else a common
default; then the function's names and the other arguments, here `jitkwargs`. -/
structure CacheKey (J : Type) where
  fn : Option Nat
  names : String × String
  jitkwargs : List (String × J)
deriving DecidableEq

/-- The state of the process: the jitted functions ever made, and `compile_cache`, which maps keys to
them. -/
structure Proc (V A O C Q R J : Type) where
  jits : List (JitFn V A O C Q R)
  cache : Dict (CacheKey J) Nat
  wrappers : List (Wrapper V O C)

variable {J : Type}

/-- `compile_cache` (64-79) -/
def compileCache [DecidableEq J] (p : Proc V A O C Q R J) (k : CacheKey J) : Nat × Proc V A O C Q R J :=
  match p.cache.get? k with
  | some i => (i, p)
  | Option.none => (p.jits.length, { p with jits := p.jits ++ [[]], cache := p.cache.insert k p.jits.length })

/-- The names `filter_jit` does not pass on to `jax.jit` (383). -/
def reserved : List String := ["static_argnums", "static_argnames", "donate_argnums"]

/-- `filter_jit(fun, donate=...)` (374-431) -/
def decorate [DecidableEq J] (p : Proc V A O C Q R J) (fn : Val V O C) (k : CacheKey J)
    (donate : Option Donate) : Except Err Unit × Proc V A O C Q R J :=
  if reserved.any (fun x => (k.jitkwargs.map Prod.fst).contains x) then (.error .valueError, p)
  else match donateFlags donate with
  | .error e => (.error e, p)
  | .ok (_, df, dr) =>
    let pf := hashablePartition fn
    let c := compileCache p k
    (.ok (), { c.2 with wrappers := c.2.wrappers ++ [⟨fn, pf.1, pf.2, c.1, df, dr⟩] })

/-- `_call` (230-293) without lowering, on the `i`-th wrapper. -/
def call [DecidableEq C] [DecidableEq A] [DecidableEq Q] [DecidableEq R] (w : World V A O C Q R)
    (p : Proc V A O C Q R J) (i : Nat) (args : List (Val V O C)) (kwargs : Kwargs V O C) :
    Except Err (Val V O C) × Proc V A O C Q R J :=
  match p.wrappers[i]? with
  | Option.none => (.error .indexError, p)
  | some wr => match preprocess w wr args kwargs with
    | .error e => (.error e, p)
    | .ok (dd, dn, s) =>
      let r := jitCall w ((p.jits[wr.jit]?).getD []) dd dn s
      (r.1.bind postprocess, { p with jits := p.jits.set wr.jit r.2 })

/-- What can happen in a process. -/
inductive Event (V O C J : Type)
  | decorate (fn : Val V O C) (k : CacheKey J) (donate : Option Donate)
  | call (i : Nat) (args : List (Val V O C)) (kwargs : Kwargs V O C)
  /-- `delete(user_fn)` (81-92) -/
  | delete (fn : Nat)
  /-- `cache_clears` (57) -/
  | clear

/-- One event. -/
def step [DecidableEq C] [DecidableEq A] [DecidableEq Q] [DecidableEq R] [DecidableEq J] (w : World V A O C Q R)
    (p : Proc V A O C Q R J) : Event V O C J → Proc V A O C Q R J
  | .decorate fn k d => (decorate p fn k d).2
  | .call i args kwargs => (call w p i args kwargs).2
  | .delete fn => { p with cache := p.cache.filter fun e => e.1.fn ≠ some fn }
  | .clear => { p with cache := [] }

/-- The state after a history. -/
def run [DecidableEq C] [DecidableEq A] [DecidableEq Q] [DecidableEq R] [DecidableEq J] (w : World V A O C Q R)
    (h : List (Event V O C J)) : Proc V A O C Q R J :=
  h.foldl (step w) ⟨[], [], []⟩

/-! ## Ahead-of-time compilation -/

/-- `Compiled` (116-125): the program, and what JAX checks of its arguments. -/
structure AOT (V A O C : Type) where
  wrapper : Wrapper V O C
  statics : Statics O C
  staticOut : Val V O C
  donate : List (String × List (Option A))
  nodonate : List (String × List (Option A))

/-- `.lower(*args, **kwargs).compile()` (217-218, 246-252, 98-113) -/
def lowerCompile [DecidableEq C] (w : World V A O C Q R) (wr : Wrapper V O C) (args : List (Val V O C))
    (kwargs : Kwargs V O C) : Except Err (AOT V A O C) := do
  let q ← preprocess w wr args kwargs
  let o ← funWrapped w q.1 q.2.1 q.2.2
  pure ⟨wr, q.2.2, o.2, dynKey w q.1, dynKey w q.2.1⟩

/-- `Compiled.__call__` (122-125): `_preprocess` without the static parts; JAX checks structure and
abstract values of the dynamic arguments. -/
def AOT.call [DecidableEq C] [DecidableEq A] (w : World V A O C Q R) (c : AOT V A O C) (args : List (Val V O C))
    (kwargs : Kwargs V O C) : Except Err (Val V O C) := do
  let q ← preprocessDyn w c.wrapper args kwargs
  if dynKey w q.1 ≠ c.donate ∨ dynKey w q.2 ≠ c.nodonate then .error .typeError
  else
    let o ← funWrapped w q.1 q.2 c.statics
    postprocess (o.1, c.staticOut)

end Verif.Jit
