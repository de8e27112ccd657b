import Verif.Filters.Model
import Verif.NN.NArr

/-!
# `equinox/_errors.py` and `equinox/_unvmap.py`

A JAX array seen by Python code may be concrete, or a tracer of `jax.vmap` (which holds the array of
all batch elements and the axis it is batched along), or a tracer of `jax.jit` (whose value is known
only when the compiled program runs). The transformations may be nested in any order.

Not modelled: arrays of random keys in `x`, the TPU branch of `_error` (`_errors.py:101-109`, `113-116`), tracebacks and the
wording added around the message, dead code elimination (the JVP rule is in `Verif.Errors.Diff`), and breakpoints other than what they print.
-/

namespace Verif.Errors

open PT NN

/-- An array as Python code sees it. -/
inductive Traced (α : Type) where
  | array (a : NArr α)
  /-- A `vmap` tracer: one element of the batch of `x` along `axis`. -/
  | batched (x : Traced α) (axis : Nat)
  /-- A `jit` tracer: `x` is the value it has when the compiled program runs. -/
  | jitted (x : Traced α)

namespace Traced
variable {α : Type}

/-- `isinstance(x, jax.core.Tracer)`. -/
def isTracer : Traced α → Bool
  | .array _ => false
  | .batched _ _ => true
  | .jitted _ => true

/-- The value of an array of no dimensions when the program runs. -/
def value : Traced α → α
  | .array a => a.at_ []
  | .batched x _ => x.value
  | .jitted x => x.value

end Traced

/-- All indices of an array, last axis fastest. -/
def indices : List Nat → List (List Nat)
  | [] => [[]]
  | n :: ns => (List.range n).flatMap fun i => (indices ns).map (i :: ·)

/-- The array without dimensions. -/
def scalar {α : Type} (v : α) : NArr α := ⟨[], fun _ => v⟩

/-- `unvmap_any` (`_unvmap.py:48-72`): the primitive reduces a concrete array with `jnp.any`; its
batching rule applies it to the array of the whole batch and says the result is not batched. -/
def unvmapAny : Traced Bool → Traced Bool
  | .array a => .array (scalar ((indices a.shape).any a.at_))
  | .batched x _ => unvmapAny x
  | .jitted x => .jitted (unvmapAny x)

/-- `jnp.max` of a list of entries; `ValueError` if there are none. -/
def jnpMax : List Int → Except Err Int
  | [] => .error .valueError
  | x :: xs => .ok (xs.foldl max x)

/-- `unvmap_max` (`_unvmap.py:79-101`). -/
def unvmapMax : Traced Int → Except Err (Traced Int)
  | .array a => do
    let m ← jnpMax ((indices a.shape).map a.at_)
    pure (.array (scalar m))
  | .batched x _ => unvmapMax x
  | .jitted x => do
    let u ← unvmapMax x
    pure (.jitted u)

/-- The dtypes `_nan_like` tells apart (`_errors.py:31-39`). NumPy does not count the floats and integers of `ml_dtypes`
(`bfloat16`, 8-bit floats, `int4`) under `np.inexact` or `np.integer`. -/
inductive DType where
  | inexact
  | integer (max : Int)
  | bool
  | extFloat
  | extInteger (max : Int)
deriving DecidableEq

/-- Entries of arrays: floating point numbers other than NaN are opaque. -/
inductive Scalar where
  | nan
  | flt (n : Nat)
  | int (n : Int)
  | bool (b : Bool)
deriving DecidableEq

/-- A leaf of `x`: a JAX or NumPy array, or any other object. -/
inductive Leaf where
  | arr (dtype : DType) (a : NArr Scalar)
  | obj (n : Nat)

def Leaf.isArray : Leaf → Bool
  | .arr _ _ => true
  | .obj _ => false

/-- `is_array` on an object of a tree. -/
def isArrayTree {K : Type} : PT K Leaf → Bool
  | .leaf l => l.isArray
  | _ => false

/-- `_nan_like` (`_errors.py:30-39`); objects that are not arrays have no `shape` (or no dtype). -/
def nanLike : Leaf → Except Err Leaf
  | .arr .inexact a => .ok (.arr .inexact ⟨a.shape, fun _ => .nan⟩)
  | .arr (.integer m) a => .ok (.arr (.integer m) ⟨a.shape, fun _ => .int m⟩)
  | .arr .bool a => .ok (.arr .bool ⟨a.shape, fun _ => .bool true⟩)
  | .arr .extFloat a => .ok (.arr .extFloat a)
  | .arr (.extInteger m) a => .ok (.arr (.extInteger m) a)
  | .obj _ => .error .attributeError

/-- `_nan_like` as a function mapped over a tree. -/
def nanLikeTree {K : Type} : PT K Leaf → Except Err (PT K Leaf)
  | .leaf l => do let l' ← nanLike l; pure (.leaf l')
  | t => .ok t

/-- `_nan_like` in `to_nan` (`_errors.py:128-130`), where it is given `jax.ShapeDtypeStruct`s: what it returns unchanged is not an
array, and then the callback fails. -/
def nanLikeStruct : Leaf → Except Err Leaf
  | .arr .extFloat _ => .error .runtimeError
  | .arr (.extInteger _) _ => .error .runtimeError
  | l => nanLike l

/-- `_nan_like` as a function mapped over a tree of structs. -/
def nanStructTree {K : Type} : PT K Leaf → Except Err (PT K Leaf)
  | .leaf l => do let l' ← nanLikeStruct l; pure (.leaf l')
  | t => .ok t

inductive Mode where
  | raise
  | breakpoint
  | nan
deriving DecidableEq

/-- The argument `on_error`. -/
inductive OnError where
  | default
  | mode (m : Mode)
  | other (s : String)

/-- The argument `pred`: a `bool` or an array. -/
inductive Pred where
  | py (b : Bool)
  | arr (t : Traced Bool)

/-- The argument `index`: an `int` or an array. -/
inductive Index where
  | py (i : Int)
  | arr (t : Traced Int)

/-- Ways to fail: `EquinoxTracetimeError`, the runtime error, or another exception. -/
inductive Fail where
  | traceTime (msg : String)
  | runtime (msg : String)
  | err (e : Err)
deriving DecidableEq

/-- What an execution shows: the messages printed before a breakpoint, and the result. -/
structure Run (β : Type) where
  printed : List String
  result : Except Fail β

def Run.fail {β : Type} (e : Fail) : Run β := ⟨[], .error e⟩

def Run.ofExcept {β : Type} : Except Err β → Run β
  | .ok b => ⟨[], .ok b⟩
  | .error e => ⟨[], .error (.err e)⟩

/-- `msgs[i]`: Python indexing, negative indices from the end. -/
def pyIndex (msgs : List String) (i : Int) : Except Err String :=
  let j := if i < 0 then i + msgs.length else i
  if j < 0 then .error .indexError
  else match msgs[j.toNat]? with
    | some m => .ok m
    | Option.none => .error .indexError

/-- A value known now, or one that will be known when the program runs. -/
inductive Known (α : Type) where
  | static (v : α)
  | traced (v : α)

def Known.val {α : Type} : Known α → α
  | .static v => v
  | .traced v => v

/-- `if not isinstance(u, Tracer): u = u.item()` (`_errors.py:303-305`, `308-310`). -/
def known {α : Type} (u : Traced α) : Known α := if u.isTracer then .traced u.value else .static u.value

/-- `pred` after `_errors.py:299-300` and `303-305`. -/
def resolvePred : Pred → Known Bool
  | .py b => .static b
  | .arr t => known (unvmapAny t)

/-- `index` after `_errors.py:301-302` and `308-310`. -/
def resolveIndex : Index → Except Err (Known Int)
  | .py i => .ok (.static i)
  | .arr t => do let u ← unvmapMax t; pure (known u)

section
variable {K : Type} [DecidableEq K]

/-- `_error` (`_errors.py:80-157`) on the dynamic part of `x`, when the program runs. -/
def errorCond (x : PT K Leaf) (pred : Bool) (index : Int) (msgs : List String) : Mode → Run (PT K Leaf)
  | .raise =>
    if pred then
      match pyIndex msgs index with
      | .ok m => .fail (.runtime m)
      | .error e => .fail (.err e)
    else ⟨[], .ok x⟩
  | .breakpoint =>
    if pred then
      match pyIndex msgs index with
      | .ok m => ⟨[m], (Run.ofExcept (treeMap1 noLeaf nanStructTree x)).result⟩
      | .error e => .fail (.err e)
    else ⟨[], .ok x⟩
  | .nan => if pred then .ofExcept (treeMap1 noLeaf nanLikeTree x) else ⟨[], .ok x⟩

/-- The end of `branched_error_if_impl` (`_errors.py:337-344`): thread the check on to the arrays of
`x`. -/
def thread (x : PT K Leaf) (pred : Bool) (index : Int) (msgs : List String) (mode : Mode) : Run (PT K Leaf) :=
  match Filters.partition noLeaf (.leaf (.callable fun l => .ok (isArrayTree l))) .none x with
  | .error e => .fail (.err e)
  | .ok (dynamic, static) =>
    if dynamic.leaves.length = 0 then .fail (.err .valueError)
    else
      let r := errorCond dynamic pred index msgs mode
      match r.result with
      | .error e => ⟨r.printed, .error e⟩
      | .ok dynamic' => ⟨r.printed, (Run.ofExcept (Filters.combine noLeaf [dynamic', static])).result⟩

/-- Lines `_errors.py:291-294`. `env` is `EQX_ON_ERROR`, which `_config.py:9-13` has checked. -/
def resolveMode (env : Mode) : OnError → Except Err Mode
  | .default => .ok env
  | .mode m => .ok m
  | .other _ => .error .runtimeError

/-- `branched_error_if_impl` (`_errors.py:283-344`). -/
def impl (env : Mode) (x : PT K Leaf) (pred : Pred) (index : Index) (msgs : List String)
    (onError : OnError) : Run (PT K Leaf) :=
  match resolveMode env onError with
  | .error e => .fail (.err e)
  | .ok mode =>
    match resolveIndex index with
    | .error e => .fail (.err e)
    | .ok idx =>
      match resolvePred pred with
      | .static false => ⟨[], .ok x⟩
      | .static true =>
        match idx with
        | .static i =>
          match mode with
          | .raise =>
            match pyIndex msgs i with
            | .ok m => .fail (.traceTime m)
            | .error e => .fail (.err e)
          | .breakpoint =>
            match pyIndex msgs i with
            | .ok m =>
              let r := thread x true i msgs mode
              ⟨m :: r.printed, r.result⟩
            | .error e => .fail (.err e)
          | .nan => .ofExcept (treeMap1 noLeaf nanLikeTree x)
        | .traced i => thread x true i msgs mode
      | .traced b => thread x b idx.val msgs mode

/-- `filter_jit` turns arrays into `jit` tracers and leaves `bool`s alone. -/
def tracePred : Pred → Pred
  | .py b => .py b
  | .arr t => .arr (.jitted t)

def traceIndex : Index → Index
  | .py i => .py i
  | .arr t => .arr (.jitted t)

def Pred.isArray : Pred → Bool
  | .py _ => false
  | .arr _ => true

def Index.isArray : Index → Bool
  | .py _ => false
  | .arr _ => true

/-- `branched_error_if` (`_errors.py:261-280`), with `branched_error_if_impl_jit` (`:349`). -/
def branchedErrorIf (env : Mode) (x : PT K Leaf) (pred : Pred) (index : Index) (msgs : List String)
    (onError : OnError) : Run (PT K Leaf) :=
  if x.leaves.any Leaf.isArray || pred.isArray || index.isArray then
    impl env x (tracePred pred) (traceIndex index) msgs onError
  else impl env x pred index msgs onError

/-- `error_if` (`_errors.py:199-257`). -/
def errorIf (env : Mode) (x : PT K Leaf) (pred : Pred) (msg : String) (onError : OnError) : Run (PT K Leaf) :=
  branchedErrorIf env x pred (.py 0) [msg] onError

end

end Verif.Errors
