import Verif.Basic
import Verif.Dict
import Verif.PyTree.Model

/-!
# `equinox/nn/_stateful.py`

`State` objects live on a heap, because `set` and `update` invalidate the object they are called on.
An address is the position of the object on the heap; objects are never deleted. The contents of an
object is `none` once its `_state` attribute has been replaced by the sentinel.

`K` is the type of markers and `V` of state values. `conv` is `jtu.tree_map(jnp.asarray, ·)` and
`struct` is `jax.eval_shape(lambda: ·)`; the comparison of structures by `tree_equal` is equality on `S`.
-/

namespace Verif
namespace State

variable {K V S : Type} [DecidableEq K] [DecidableEq S]

/-- The heap of `State` objects. -/
abbrev Heap (K V : Type) := List (Option (Dict K V))

/-- The `item` argument of `get` and `set`: a `StateIndex` with its marker, or some other object. -/
inductive Item (K : Type) where
  | index (marker : K)
  | other

/-- The argument of `update`: a `State` object, or some other object. -/
inductive Arg where
  | state (addr : Nat)
  | other

/-- The `_state` attribute of the object at an address; `error` if it is the sentinel
(lines 146-147, 168-169, 204-205, 228-229, 268-269). -/
def deref (h : Heap K V) (a : Nat) : Except Err (Dict K V) :=
  match h[a]? with
  | some (some d) => .ok d
  | _ => .error .valueError

/-- `State.get` (lines 135-150). -/
def get (h : Heap K V) (a : Nat) (item : Item K) : Except Err V := do
  let d ← deref h a
  match item with
  | .other => .error .valueError
  | .index m => match d.get? m with
    | some v => .ok v
    | none => .error .keyError

/-- Replacing the contents of an object. -/
def setCell (h : Heap K V) (a : Nat) (x : Option (Dict K V)) : Heap K V := h.set a x

/-- A new object. -/
def alloc (h : Heap K V) (d : Dict K V) : Heap K V := h ++ [some d]

/-- The dictionary computed by `State.set` (lines 168-184). -/
def setDict (conv : V → V) (struct : V → S) (h : Heap K V) (a : Nat) (item : Item K) (v : V) :
    Except Err (Dict K V) := do
  let d ← deref h a
  match item with
  | .other => .error .valueError
  | .index m => match d.get? m with
    | none => .error .keyError
    | some old =>
      if struct old = struct (conv v) then .ok (d.insert m (conv v)) else .error .valueError

/-- `State.set` (lines 152-188). Returns the heap and the address of the new object. -/
def set (conv : V → V) (struct : V → S) (h : Heap K V) (a : Nat) (item : Item K) (v : V) :
    Heap K V × Except Err Nat :=
  match setDict conv struct h a item v with
  | .error e => (h, .error e)
  | .ok d => (setCell (alloc h d) a none, .ok h.length)

/-- `{k: self._state[k] for k in markers}` (line 208). -/
def substateDict (d : Dict K V) (markers : List K) : Except Err (Dict K V) := do
  let pairs ← markers.mapM (fun k => match d.get? k with
    | some v => Except.ok (k, v)
    | none => .error .keyError)
  pure (Dict.ofList pairs)

/-- `State.substate` (lines 190-211). The markers are those of the `StateIndex`es in the argument, in
the order of its leaves. -/
def substate (h : Heap K V) (a : Nat) (markers : List K) : Heap K V × Except Err Nat :=
  match (do let d ← deref h a; substateDict d markers : Except Err (Dict K V)) with
  | .error e => (h, .error e)
  | .ok d => (alloc h d, .ok h.length)

/-- The loop of `State.update` (lines 233-239). -/
def updateLoop : Dict K V → List (K × V) → Except Err (Dict K V)
  | d, [] => .ok d
  | d, (k, v) :: l => if k ∈ d.keys then updateLoop (d.insert k v) l else .error .valueError

/-- The dictionary computed by `State.update` (lines 228-239). If the argument is an invalidated
`State`, its sentinel has no `items` method. -/
def updateDict (h : Heap K V) (a : Nat) (arg : Arg) : Except Err (Dict K V) := do
  let d ← deref h a
  match arg with
  | .other => .error .valueError
  | .state b => match deref h b with
    | .error _ => .error .attributeError
    | .ok e => updateLoop d e

/-- `State.update` (lines 213-243). -/
def update (h : Heap K V) (a : Nat) (arg : Arg) : Heap K V × Except Err Nat :=
  match updateDict h a arg with
  | .error e => (h, .error e)
  | .ok d => (setCell (alloc h d) a none, .ok h.length)

/-- `State.tree_flatten` (lines 267-272): the children and the auxiliary data. -/
def flatten (h : Heap K V) (a : Nat) : Except Err (List V × List K) := do
  let d ← deref h a
  pure (d.map (·.2), d.map (·.1))

/-- `State.tree_unflatten` (lines 274-282). -/
def unflatten (h : Heap K V) (keys : List K) (values : List V) : Heap K V × Except Err Nat :=
  if keys.length = values.length then (alloc h (Dict.ofList (keys.zip values)), .ok h.length)
  else (h, .error .assertionError)

/-! ### Histories -/

/-- Anything a program can do with `State` objects. -/
inductive Op (K V : Type) where
  /-- `State(model)`, where the model has these markers and initial values -/
  | create (entries : List (K × V))
  | get (a : Nat) (item : Item K)
  | set (a : Nat) (item : Item K) (v : V)
  | substate (a : Nat) (markers : List K)
  | update (a : Nat) (arg : Arg)
  | flatten (a : Nat)
  | unflatten (keys : List K) (values : List V)

/-- What an operation returns. -/
inductive Out (K V : Type) where
  | value (v : V)
  | state (a : Nat)
  | flat (values : List V) (keys : List K)
  | error (e : Err)

def Out.ofExcept {α : Type} (f : α → Out K V) : Except Err α → Out K V
  | .ok a => f a
  | .error e => .error e

/-- One operation. -/
def step (conv : V → V) (struct : V → S) (h : Heap K V) : Op K V → Heap K V × Out K V
  | .create l => (alloc h (Dict.ofList l), .state h.length)
  | .get a item => (h, .ofExcept .value (get h a item))
  | .set a item v => let r := set conv struct h a item v; (r.1, .ofExcept .state r.2)
  | .substate a ms => let r := substate h a ms; (r.1, .ofExcept .state r.2)
  | .update a b => let r := update h a b; (r.1, .ofExcept .state r.2)
  | .flatten a => (h, .ofExcept (fun p => .flat p.1 p.2) (flatten h a))
  | .unflatten ks vs => let r := unflatten h ks vs; (r.1, .ofExcept .state r.2)

/-- A history: the operations performed so far with what they returned, most recent first. -/
abbrev Log (K V : Type) := List (Op K V × Out K V)

/-- Running a program (oldest operation first). -/
def run (conv : V → V) (struct : V → S) : List (Op K V) → Heap K V × Log K V
  | ops => ops.foldl (fun hl op => let r := step conv struct hl.1 op; (r.1, (op, r.2) :: hl.2)) ([], [])

/-! ### `State(model)`, `delete_init_state`, `make_with_state` -/

/-- Markers are fresh objects, or the integers which `make_with_state` assigns. -/
inductive Marker where
  | obj (n : Nat)
  | int (n : Nat)
deriving DecidableEq

/-- A leaf of a model when flattened with `is_leaf=_is_index`: a `StateIndex` (`init` is `none` if it is
the sentinel), or an ordinary leaf. -/
inductive MLeaf (α V : Type) where
  | idx (marker : Marker) (init : Option V)
  | val (x : α)

variable {α C : Type}

/-- The loop of `State.__init__` (lines 123-132). -/
def initLoop (conv : V → V) : Dict Marker V → List (MLeaf α V) → Except Err (Dict Marker V)
  | d, [] => .ok d
  | d, .val _ :: l => initLoop conv d l
  | _, .idx _ none :: _ => .error .valueError
  | d, .idx m (some v) :: l => initLoop conv (d.insert m (conv v)) l

/-- `State(model)` (lines 115-133). -/
def stateOf (conv : V → V) (model : PT C (MLeaf α V)) : Except Err (Dict Marker V) :=
  initLoop conv [] model.leaves

/-- `delete_init_state` (lines 292-324). -/
def deleteInit (model : PT C (MLeaf α V)) : PT C (MLeaf α V) :=
  model.map (fun l => match l with
    | .idx m _ => .idx m none
    | .val x => .val x)

/-- The relabelling loop of `make_with_state` (lines 376-385). -/
def relabel : Nat → List (MLeaf α V) → List (MLeaf α V)
  | _, [] => []
  | n, .idx _ init :: l => .idx (.int n) init :: relabel (n + 1) l
  | n, .val x :: l => .val x :: relabel n l

/-- `make_with_state(make_model)()` applied to the model that `make_model` returns (lines 371-389). -/
def makeWithState (conv : V → V) (model : PT C (MLeaf α V)) :
    Except Err (PT C (MLeaf α V) × Dict Marker V) := do
  let model ← PT.treeUnflatten model.shape ((relabel 0 model.leaves).map .leaf)
  let d ← stateOf conv model
  pure (deleteInit model, d)

end State
end Verif
