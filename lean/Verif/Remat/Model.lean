import Verif.AD.Model

/-!
# `filter_checkpoint` (`equinox/_ad.py:1150-1226`) and `filter_shard` (`equinox/_sharding.py`)

Outside of the repository, after its documentation and source: `jax.checkpoint` calls the function with its static argument as it is and
with the arrays of its other argument made into JAX arrays (`World.asJax`), and gives back the arrays of the output as JAX arrays; `TypeError` for what cannot be
one, such as NumPy arrays of strings (`World.valid`). Nothing is kept from one call to the next, as every call makes a new function.
`jax.lax.with_sharding_constraint` acts on single arrays by `World.constrain`.

`policy` and `prevent_cse` say what is stored and recomputed and not what is computed; they are left out. Keyword arguments are in the order of
their names, which is the order in which they come out of a pytree.
-/

namespace Verif
namespace Remat

open PT AD

/-- What is outside of equinox: leaves `α`, shardings `S`, devices `D`. -/
structure World (K α S D : Type) where
  /-- `is_array` -/
  array : α → Bool
  asJax : α → α
  valid : α → Bool
  tuple : K
  /-- a dictionary with these names -/
  dict : List String → K
  names : K → List String
  names_dict : ∀ ks, names (dict ks) = ks
  /-- a single array under a sharding, or under `None` -/
  constrain : Option S → α → Except Err α
  /-- `jax.sharding.SingleDeviceSharding` -/
  single : D → S

variable {K α S D : Type}

/-- `is_array` as a filter specification -/
def World.isArray (W : World K α S D) : PT K α → Bool
  | .leaf a => W.array a
  | _ => false

/-- `partition(x, is_array)` -/
def World.partition [DecidableEq K] (W : World K α S D) (x : PT K α) : Except Err (PT K α × PT K α) :=
  Filters.partition noLeaf (.leaf (.callable fun y => .ok (W.isArray y))) .none x

/-- `(args, kwargs)` -/
def World.pack (W : World K α S D) (args : List (PT K α)) (kwargs : List (String × PT K α)) : PT K α :=
  .node W.tuple [.node W.tuple args, .node (W.dict (kwargs.map Prod.fst)) (kwargs.map Prod.snd)]

/-- `_args, _kwargs = ...; fun(*_args, **_kwargs)` -/
def World.call (W : World K α S D) (fn : PyFn K α) : PT K α → Except Err (PT K α)
  | .node _ [.node _ args, .node k vals] => fn args ((W.names k).zip vals)
  | _ => .error .typeError

/-- Arrays as they come into and out of JAX. -/
def World.intoJax (W : World K α S D) (x : PT K α) : Except Err (PT K α) :=
  if x.leaves.all W.valid then .ok (x.map W.asJax) else .error .typeError

/-- `fun_checkpoint` (1206-1216) -/
def funCheckpoint [DecidableEq K] (W : World K α S D) (fn : PyFn K α) (static dynamic : PT K α) :
    Except Err (PT K α × PT K α) := do
  let x ← Filters.combine noLeaf [static, dynamic]
  let out ← W.call fn x
  W.partition out

/-- `jax.checkpoint(g, static_argnums=(0,))(static, dynamic)`, where `g` returns arrays and something static. -/
def jaxCheckpoint (W : World K α S D) (g : PT K α → PT K α → Except Err (PT K α × PT K α)) (static dynamic : PT K α) :
    Except Err (PT K α × PT K α) := do
  let d ← W.intoJax dynamic
  let r ← g static d
  let o ← W.intoJax r.1
  pure (o, r.2)

/-- `_CheckpointWrapper.__call__` (1205-1221) -/
def filterCheckpoint [DecidableEq K] (W : World K α S D) (fn : PyFn K α) : PyFn K α := fun args kwargs => do
  let p ← W.partition (W.pack args kwargs)
  let r ← jaxCheckpoint W (funCheckpoint W fn) p.2 p.1
  Filters.combine noLeaf [r.1, r.2]

/-! ## `filter_shard` -/

/-- An entry of the shardings. -/
def entry : PT K S → Option S
  | .leaf s => some s
  | _ => Option.none

/-- `flatten_axes` of JAX: the tree of shardings is broadcast against the tree of arrays, `None` counting as an entry. `ValueError` if it is not
a prefix. -/
def flattenAxes [DecidableEq K] (shardings : PT K S) (x : PT K α) : Except Err (List (Option S)) :=
  match treeMap2 isNone (fun s y => .ok (y.map fun _ => entry s)) shardings x with
  | .ok axes => .ok axes.leaves
  | .error _ => .error .valueError

/-- `jax.lax.with_sharding_constraint` -/
def withShardingConstraint [DecidableEq K] (W : World K α S D) (x : PT K α) (shardings : PT K S) : Except Err (PT K α) := do
  let axes ← flattenAxes shardings x
  let outs ← mapE (fun p => W.constrain p.1 p.2) (axes.zip x.leaves)
  treeUnflatten x.shape (outs.map fun a => .leaf a)

/-- The argument of `filter_shard`. -/
inductive DevOrShardings (K S D : Type) where
  | device (d : D)
  | shardings (t : PT K S)

/-- Lines 35-38 -/
def World.shardings (W : World K α S D) : DevOrShardings K S D → PT K S
  | .device d => .leaf (W.single d)
  | .shardings t => t

/-- `filter_shard` (11-41) -/
def filterShard [DecidableEq K] (W : World K α S D) (x : PT K α) (s : DevOrShardings K S D) : Except Err (PT K α) := do
  let p ← W.partition x
  let dynamic ← withShardingConstraint W p.1 (W.shardings s)
  Filters.combine noLeaf [dynamic, p.2]

end Remat
end Verif
