import Verif.Jit.Model
import Verif.Jit.Spec

/-!
# `noinline` (`equinox/internal/_noinline.py`)

Values, static parts and their equality are those of the model of `filter_jit`. What a transform (`_jvp_transform` 149-162,
`_MetaTransposeTransform` 165-181, `_MetaBatchTransform` 184-188) does to a function is a parameter `tr` here: given the
transform and a function of one argument it is another such function. The three are modelled in `Noinline/Deriv` and `Noinline/Batch`.

`transforms` always begins with `_impl_transform` (362); here this first element is left out of the list and applied directly.
`abstract_fn` and abstract evaluation (57-71, 200-210), which give the structure and the static part of the output of a compiled
call, are modelled in `Noinline/Output`. Left out: `float0`; the checks that the transforms themselves are neither differentiated nor batched (218-220, 261).
The primitives `filter_primitive_bind` etc. pass their arguments unchanged.
-/

namespace Verif
namespace Noinline

open PT Jit

variable {V A O C Q R : Type}

/-- A function of one argument. -/
abbrev Fn (V O C : Type) := Val V O C → Except Err (Val V O C)

/-- What JAX makes of the transforms. -/
abbrev Transforms (V O C : Type) := Val V O C → Fn V O C → Fn V O C

/-- An array or `None`, as an element of a tuple. -/
def dynVal : Option V → Val V O C
  | some v => .leaf (.arr v)
  | Option.none => .none

/-- An element of the tuple `dynamic_fn`. -/
def valDyn : Val V O C → Except Err (Option V)
  | .leaf (.arr v) => .ok (some v)
  | .none => .ok Option.none
  | _ => .error .typeError

/-- `(dynamic_fn, args, kwargs)` (363). -/
def packArgs (d : Dyn V) (args : List (Val V O C)) (kwargs : Kwargs V O C) : Val V O C :=
  .node .tuple [.node .tuple (d.map dynVal), .node .tuple args, .node (.dict (kwargs.map Prod.fst)) (kwargs.map Prod.snd)]

/-- `_impl_transform` (132-138). -/
def implTransform (w : World V A O C Q R) (s : Static O C) : Fn V O C
  | .node .tuple [.node .tuple ds, .node .tuple args, .node (.dict ks) vs] => do
    let d ← mapE valDyn ds
    let fn ← hashableCombine d s
    w.apply fn args (ks.zip vs)
  | _ => .error .typeError

/-- `for transform in transforms: static_fn = transform(static_fn)` (117-118, 195-196), the first one already applied. -/
def applyAll (tr : Transforms V O C) : List (Val V O C) → Fn V O C → Fn V O C
  | [], f => f
  | t :: ts, f => applyAll tr ts (tr t f)

/-- A call of the primitive: `dynamic_index`, `transforms`, `args`. -/
structure Bind (V O C : Type) where
  index : Nat
  transforms : List (Val V O C)
  args : Val V O C

/-- A `_NoInlineWrapper` (348-351). -/
structure Wrapper (V : Type) where
  index : Nat
  dynFn : Dyn V

/-- `_NoInlineWrapper.__call__` (357-364). -/
def Wrapper.bind (wr : Wrapper V) (args : List (Val V O C)) (kwargs : Kwargs V O C) : Bind V O C :=
  ⟨wr.index, [], packArgs wr.dynFn args kwargs⟩

/-- The key of a static part in a dictionary. -/
abbrev SKey (Q R : Type) := List (Option Q) × Def (JK R)

/-- What `_get_callback` (103-126) returns: `static` and `treedef` in its closure, and the cache of the jitted `callback`,
from `static_fn` and abstract values to the `static_fn` that was traced. -/
structure Callback (A O C Q R : Type) where
  closure : Static O C
  cache : Dict (SKey Q R × List A) (Static O C)

/-- The state of the process. `programs` are the compiled programs, here just the number of the callback in each. -/
structure St (V A O C Q R : Type) where
  fnToIndex : Dict (SKey Q R) Nat
  indexToFn : List (Static O C)
  wrappers : List (Wrapper V)
  callbacks : List (Callback A O C Q R)
  callbackCache : Dict (SKey Q R) Nat
  programs : List Nat

def St.empty : St V A O C Q R := ⟨[], [], [], [], [], []⟩

/-- `noinline` (453-468). -/
def noinline [DecidableEq Q] [DecidableEq R] (w : World V A O C Q R) (st : St V A O C Q R) (fn : Val V O C) :
    Except Err Nat × St V A O C Q R :=
  let p := hashablePartition fn
  if !p.2.hashable w then (.error .typeError, st)
  else match st.fnToIndex.get? (staticKey w p.2) with
  | some i => (.ok st.wrappers.length, { st with wrappers := st.wrappers ++ [⟨i, p.1⟩] })
  | Option.none =>
    (.ok st.wrappers.length, { st with
      fnToIndex := st.fnToIndex.insert (staticKey w p.2) st.indexToFn.length
      indexToFn := st.indexToFn ++ [p.2]
      wrappers := st.wrappers ++ [⟨st.indexToFn.length, p.1⟩] })

/-- `_noinline_impl` (192-197). -/
def impl (w : World V A O C Q R) (tr : Transforms V O C) (st : St V A O C Q R) (b : Bind V O C) : Except Err (Val V O C) :=
  match st.indexToFn[b.index]? with
  | some s => applyAll tr b.transforms (implTransform w s) b.args
  | Option.none => .error .indexError

/-! ## The rules for differentiation, transposition and batching -/

/-- `_noinline_jvp` (214-231): the calls which compute primals and tangents. `jvpT` is `_jvp_transform`. -/
def jvpRule (jvpT : Val V O C) (b : Bind V O C) (tArgs : Val V O C) : Bind V O C × Bind V O C :=
  (b, ⟨b.index, b.transforms ++ [jvpT], .node .tuple [b.args, tArgs]⟩)

/-- `_noinline_transpose` (235-254), given `_MetaTransposeTransform(undefined)` and `defined`. -/
def transposeRule (transposeT : Val V O C) (b : Bind V O C) (defined cts : Val V O C) : Bind V O C :=
  ⟨b.index, b.transforms ++ [transposeT], .node .tuple [defined, cts]⟩

/-- `_noinline_batch` (258-283), given `_MetaBatchTransform(args_bdim)` and `args` as `_move_to_front` leaves them
(`Noinline/Batch`). `indices` are the batched indices, if they are batched. -/
def batchRule (batchT : Val V O C) (b : Bind V O C) (indices : Option (List Nat)) (args : Val V O C) :
    Except Err (Bind V O C) :=
  match indices with
  | Option.none => .ok ⟨b.index, b.transforms ++ [batchT], args⟩
  | some [] => .error .indexError
  | some (i :: _) => .ok ⟨i, b.transforms ++ [batchT], args⟩

/-! ## The compiled path -/

/-- `(transforms, args)` (307). -/
def packCall (ts : List (Val V O C)) (args : Val V O C) : Val V O C := .node .tuple [.node .tuple ts, args]

/-- `_get_callback` with its cache (103-126). -/
def getCallback [DecidableEq Q] [DecidableEq R] (w : World V A O C Q R) (st : St V A O C Q R) (s : Static O C) :
    Except Err Nat × St V A O C Q R :=
  if !s.hashable w then (.error .typeError, st)
  else match st.callbackCache.get? (staticKey w s) with
  | some i => (.ok i, st)
  | Option.none => (.ok st.callbacks.length, { st with
      callbacks := st.callbacks ++ [⟨s, []⟩]
      callbackCache := st.callbackCache.insert (staticKey w s) st.callbacks.length })

/-- `_noinline_mlir` (292-331): a compiled program holding a callback. -/
def lower [DecidableEq Q] [DecidableEq R] (w : World V A O C Q R) (st : St V A O C Q R) (ts : List (Val V O C))
    (args : Val V O C) : Except Err Nat × St V A O C Q R :=
  match getCallback w st (hashablePartition (packCall ts args)).2 with
  | (.error e, st') => (.error e, st')
  | (.ok c, st') => (.ok st'.programs.length, { st' with programs := st'.programs ++ [c] })

/-- `[next(iter_dynamic) if x is None else x for x in static]` and the assertion after it (113-115). -/
def refill : List (Option O) → List V → Except Err (List (Val V O C))
  | [], [] => .ok []
  | [], _ :: _ => .error .assertionError
  | Option.none :: _, [] => .error .runtimeError
  | Option.none :: ss, v :: vs => do
    let r ← refill ss vs
    pure (.leaf (.arr v) :: r)
  | some o :: ss, vs => do
    let r ← refill ss vs
    pure (.leaf (.obj o) :: r)

/-- Unpacking of `transforms, args`. -/
def unpackCall : Val V O C → Except Err (List (Val V O C) × Val V O C)
  | .node .tuple [.node .tuple ts, args] => .ok (ts, args)
  | _ => .error .typeError

/-- The body of `callback` (108-120). -/
def callbackBody (w : World V A O C Q R) (tr : Transforms V O C) (c s : Static O C) (vs : List V) :
    Except Err (Val V O C) := do
  let flat ← refill c.leaves vs
  let t ← treeUnflatten c.treedef flat
  let r ← unpackCall t
  applyAll tr r.1 (implTransform w s) r.2

/-- `callback_lookup` (122-124) of callback `c`: `callback` is jitted, static in `static_fn`. -/
def lookup [DecidableEq A] [DecidableEq Q] [DecidableEq R] (w : World V A O C Q R) (tr : Transforms V O C)
    (st : St V A O C Q R) (c i : Nat) (vs : List V) : Except Err (Val V O C) × St V A O C Q R :=
  match st.callbacks[c]?, st.indexToFn[i]? with
  | some cb, some s =>
    match cb.cache.get? (staticKey w s, vs.map w.aval) with
    | some s' => (callbackBody w tr cb.closure s' vs, st)
    | Option.none =>
      match callbackBody w tr cb.closure s vs with
      | .ok out => (.ok out, { st with
          callbacks := st.callbacks.set c { cb with cache := cb.cache.insert (staticKey w s, vs.map w.aval) s } })
      | .error e => (.error e, st)
  | _, _ => (.error .indexError, st)

/-- Running program `p` with the index and the arrays that reach the callback at run time. -/
def runProgram [DecidableEq A] [DecidableEq Q] [DecidableEq R] (w : World V A O C Q R) (tr : Transforms V O C)
    (st : St V A O C Q R) (p i : Nat) (vs : List V) : Except Err (Val V O C) × St V A O C Q R :=
  match st.programs[p]? with
  | some c => lookup w tr st c i vs
  | Option.none => (.error .nameError, st)

/-- What can happen. -/
inductive Event (V O C : Type)
  | register (fn : Val V O C)
  /-- compile a call with these transforms and arguments; the arrays in them are only traced -/
  | lower (ts : List (Val V O C)) (args : Val V O C)
  /-- run a compiled call with an index and arrays -/
  | run (p i : Nat) (vs : List V)
  /-- `cache_clears` (129) -/
  | clear

/-- One event. -/
def step [DecidableEq A] [DecidableEq Q] [DecidableEq R] (w : World V A O C Q R) (tr : Transforms V O C)
    (st : St V A O C Q R) : Event V O C → St V A O C Q R
  | .register fn => (noinline w st fn).2
  | .lower ts args => (lower w st ts args).2
  | .run p i vs => (runProgram w tr st p i vs).2
  | .clear => { st with callbackCache := [] }

/-- The state after a history. -/
def run [DecidableEq A] [DecidableEq Q] [DecidableEq R] (w : World V A O C Q R) (tr : Transforms V O C)
    (h : List (Event V O C)) : St V A O C Q R := h.foldl (step w tr) St.empty

end Noinline
end Verif
