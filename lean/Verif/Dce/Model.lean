import Verif.Filters.Model

/-!
# `equinox/debug/_dce.py`

`store_dce` and `inspect_dce`.  The dictionary `_dce_store` maps names to dictionaries from tags (`object()`, here numbered in order
of creation) to the arrays seen alive, the treedef and the static part.  The compiler decides which of the callbacks made by
`store_dce` run, how often, and on which shapes (`vmap` adds axes): running one is an event of its own.  What is printed is the list
of trees; how they are laid out on the screen is not modelled.
-/

namespace Verif
namespace Dce

open PT Filters

/-- What `inspect_dce` shows in place of an array (lines 104-110): its shape and dtype, or `<DCE'd>`. -/
inductive Shown (σ : Type) where
  | alive (s : σ)
  | dced
  deriving DecidableEq

/-- The text for an array (lines 104-109). -/
def shownOf {σ : Type} : Option σ → Shown σ
  | some s => .alive s
  | Option.none => .dced

/-- Leaves: arrays, anything else, and `WithRepr(None, value)`. -/
inductive Lf (A V σ : Type) where
  | arr (a : A)
  | val (v : V)
  | repr (s : Shown σ)
  deriving DecidableEq

/-- `is_array`. -/
def isArray {A V σ : Type} : Lf A V σ → Bool
  | .arr _ => true
  | _ => false

/-- `is_array` as a filter. -/
def isArrayT {K A V σ : Type} : PT K (Lf A V σ) → Bool
  | .leaf a => isArray a
  | _ => false

/-- An entry `(leaves, treedef, static)` (line 72). -/
structure Entry (K A V σ : Type) where
  seen : List (Nat × σ)
  treedef : Def K
  static : PT K (Lf A V σ)

/-- The state: the number of tags made, and `_dce_store` (line 15) with both dictionaries in order of insertion. -/
structure World (N K A V σ : Type) where
  tags : Nat
  store : List (N × List (Nat × Entry K A V σ))

/-- `_dce_store.get(name, {})` (line 98). -/
def lookup {N E : Type} [DecidableEq N] (name : N) : List (N × List (Nat × E)) → List (Nat × E)
  | [] => []
  | (n, es) :: rest => if n = name then es else lookup name rest

/-- `_dce_store[name][tag] = entry`, making `_dce_store[name]` if need be (lines 68-72). -/
def insert {N E : Type} [DecidableEq N] (name : N) (tag : Nat) (e : E) : List (N × List (Nat × E)) → List (N × List (Nat × E))
  | [] => [(name, [(tag, e)])]
  | (n, es) :: rest => if n = name then (n, es ++ [(tag, e)]) :: rest else (n, es) :: insert name tag e rest

/-- `d[i] = v`. -/
def setItem {σ : Type} (i : Nat) (v : σ) : List (Nat × σ) → List (Nat × σ)
  | [] => [(i, v)]
  | (j, w) :: rest => if j = i then (j, v) :: rest else (j, w) :: setItem i v rest

/-- `d[i]` with `except KeyError`. -/
def getItem {σ : Type} (i : Nat) : List (Nat × σ) → Option σ
  | [] => Option.none
  | (j, w) :: rest => if j = i then some w else getItem i rest

/-- `_dce_store[name][tag]` with its first component updated; a `KeyError` if there is none. -/
def touch {N E : Type} [DecidableEq N] (name : N) (tag : Nat) (f : E → E) :
    List (N × List (Nat × E)) → Except Err (List (N × List (Nat × E)))
  | [] => .error .keyError
  | (n, es) :: rest =>
    if n = name then
      if es.any fun e => e.1 == tag then .ok ((n, es.map fun e => if e.1 = tag then (e.1, f e.2) else e) :: rest)
      else .error .keyError
    else do
      let rest ← touch name tag f rest
      pure ((n, es) :: rest)

variable {N K A V σ : Type} [DecidableEq N] [DecidableEq K]

/-- The callback `_register_alive_impl` (lines 19-22), run on an array described by `s`. -/
def registerAlive (name : N) (tag i : Nat) (s : σ) (w : World N K A V σ) : Except Err (World N K A V σ) := do
  let store ← touch name tag (fun e => { e with seen := setItem i s e.seen }) w.store
  pure { w with store := store }

/-- `store_dce(x, name)` (lines 63-80).  `jitting` says whether `jnp.array(1) + 1` is a tracer.  The value of a callback is that of its
argument. -/
def storeDce (jitting : Bool) (x : PT K (Lf A V σ)) (name : N) (w : World N K A V σ) :
    Except Err (PT K (Lf A V σ) × World N K A V σ) := do
  if jitting then
    let (dynamic, static) ← partition noLeaf (.leaf (.callable fun x => .ok (isArrayT x))) .none x
    let tag := w.tags
    let leaves := treeLeaves noLeaf dynamic
    let treedef := treeStructure noLeaf dynamic
    let store := insert name tag ⟨[], treedef, static⟩ w.store
    let dynamicOut ← treeUnflatten treedef leaves
    let out ← combine noLeaf [dynamicOut, static]
    pure (out, ⟨w.tags + 1, store⟩)
  else throw .runtimeError

/-- The loop of `inspect_dce` (lines 102-113): what is printed, and the exception if one is raised.  `newLeaves` is the variable of
that name, which is initialised before the loop. -/
def inspectLoop : List (Entry K A V σ) → List (PT K (Lf A V σ)) → List (PT K (Lf A V σ)) × Option Err
  | [], _ => ([], Option.none)
  | e :: es, newLeaves =>
    let newLeaves := newLeaves ++ (List.range e.treedef.leaves.length).map fun j =>
      .leaf (.repr (shownOf (getItem j e.seen)))
    match treeUnflatten e.treedef newLeaves with
    | .error err => ([], some err)
    | .ok t =>
      match combine noLeaf [t, e.static] with
      | .error err => ([], some err)
      | .ok tree =>
        let r := inspectLoop es newLeaves
        (tree :: r.1, r.2)

/-- `inspect_dce(name)` (lines 96-113): the number of calls printed first, then the trees, then the exception if there is one. -/
def inspectDce (jitting : Bool) (name : N) (w : World N K A V σ) : Except Err (Nat × List (PT K (Lf A V σ)) × Option Err) :=
  if jitting then .error .runtimeError
  else
    let tagStore := lookup name w.store
    let r := inspectLoop (tagStore.map (·.2)) []
    .ok (tagStore.length, r.1, r.2)

/-- Something that happens: `store_dce` is traced, or one of its callbacks runs. -/
inductive Ev (N K A V σ : Type) where
  | store (x : PT K (Lf A V σ)) (name : N)
  | ran (name : N) (tag i : Nat) (s : σ)

/-- The state after a history (the latest event first). -/
def exec : List (Ev N K A V σ) → Except Err (World N K A V σ)
  | [] => .ok ⟨0, []⟩
  | .store x name :: h => do
    let w ← exec h
    let (_, w) ← storeDce true x name w
    pure w
  | .ran name tag i s :: h => do
    let w ← exec h
    registerAlive name tag i s w

end Dce
end Verif
