import Verif.PyTree.Model

/-!
# `equinox/_serialisation.py`

NumPy's `.npy` format, the conversion between scalars and arrays and the dtype conversions of JAX are
outside `/repo`. They enter as the components of an `Env`; what is assumed of them is `Env.Lawful` in
`Spec.lean`, and `Example.lean` has an environment for which the assumptions hold.

A file opened for writing is the list of bytes written so far, a file opened for reading is the list of bytes
not read yet. User-supplied filter specifications are modelled as functions which append to, or read from the
front of, the file (they cannot seek). Objects with a `__jax_array__` method are not modelled.
-/

namespace Verif
namespace Ser

/-- The contents of a file. -/
abbrev Bytes := List UInt8

/-- Array dtypes: those NumPy knows itself, `bfloat16`, the other extension dtypes of `ml_dtypes` (float8, int4,
...), raw bytes, Python objects, and JAX's PRNG keys. -/
inductive DType where
  | std (n : Nat)
  | bf16
  | ext (n : Nat)
  | void (size : Nat)
  | object
  | key
deriving DecidableEq, Repr

/-- An array: dtype, shape and raw data. -/
structure Arr where
  dtype : DType
  shape : List Nat
  raw : Bytes
deriving DecidableEq, Repr

/-- NumPy does not know extension dtypes and writes such arrays as raw bytes. -/
def DType.onDisk : DType → DType
  | .bf16 => .void 2
  | .ext _ => .void 1
  | d => d

/-- `a.view(dtype)` for a dtype of the same size. -/
def Arr.view (a : Arr) (d : DType) : Arr := { a with dtype := d }

/-- What the code uses of NumPy and JAX. -/
structure Env where
  /-- Python `bool`, `int`, `float`, `complex` and NumPy scalars -/
  Scal : Type
  /-- their types -/
  STy : Type
  /-- types can be compared -/
  decSTy : DecidableEq STy
  /-- `type(x)` -/
  tyOf : Scal → STy
  /-- the type `jax.dtypes.bfloat16` -/
  isBf16 : STy → Bool
  /-- the bytes of the `.npy` format -/
  enc : Arr → Bytes
  /-- reading a `.npy` array from the front of a file -/
  dec : Bytes → Except Err (Arr × Bytes)
  /-- `np.asanyarray(x)` of a scalar -/
  asArray : Scal → Arr
  /-- `type(x)(out.item())` -/
  fromItem : STy → Arr → Except Err Scal
  /-- `jnp.asarray` accepts the dtype -/
  jaxable : DType → Bool
  /-- conversion to a JAX array, which may change the dtype if 64-bit types are disabled -/
  canon : Arr → Arr

instance (env : Env) : DecidableEq env.STy := env.decSTy

/-- A leaf of a pytree. `O` are the objects which are not arrays or scalars. -/
inductive Leaf (env : Env) (O : Type) where
  /-- `jax.Array` -/
  | jax (a : Arr)
  /-- `np.ndarray` -/
  | np (a : Arr)
  /-- `jax.ShapeDtypeStruct` -/
  | struct (dtype : DType) (shape : List Nat)
  | scal (s : env.Scal)
  | other (x : O)

variable {K O C T F : Type} [DecidableEq K]

/-- An exception: a `TreePathError` with its path, or any other. -/
inductive TErr where
  | raw (e : Err)
  | path (π : List Nat)
deriving DecidableEq, Repr

/-- A computation on a file: a result or an exception, and the file afterwards. -/
abbrev Act (X : Type) := Bytes → Except TErr X × Bytes

mutual
/-- The paths of the leaves, from left to right (`jtu.tree_flatten_with_path`); a path is modelled as the list of
child positions. -/
def paths {α : Type} : PT K α → List (List Nat)
  | .leaf _ => [[]]
  | .none => []
  | .node _ cs => pathsL 0 cs
/-- `paths` on a list of children, numbered from `i`. -/
def pathsL {α : Type} (i : Nat) : List (PT K α) → List (List Nat)
  | [] => []
  | c :: cs => (paths c).map (i :: ·) ++ pathsL (i + 1) cs
end

/-- The wrapper `_f` of `_ordered_tree_map` (lines 33-45). -/
def withPath {X : Type} (π : List Nat) : Except TErr X → Except TErr X
  | .ok x => .ok x
  | .error (.path ρ) => .error (.path (π ++ ρ))
  | .error (.raw _) => .error (.path π)

/-- `_f(*xs) for xs in zip(*all_leaves)`: apply to the leaves in order (line 47). -/
def runAll {X Y : Type} (f : X → Act Y) : List (List Nat × X) → Act (List Y)
  | [], s => (.ok [], s)
  | (π, x) :: l, s =>
    match f x s with
    | (.error e, s) => (withPath π (.error e), s)
    | (.ok y, s) => match runAll f l s with
      | (.error e, s) => (.error e, s)
      | (.ok ys, s) => (.ok (y :: ys), s)

/-- The last step of `_ordered_tree_map`: `treedef.unflatten` (line 47). -/
def finish {α : Type} (d : PT.Def K) : Except TErr (List (PT K α)) × Bytes → Except TErr (PT K α) × Bytes
  | (.error e, s) => (.error e, s)
  | (.ok ys, s) => match PT.treeUnflatten d ys with
    | .ok t => (.ok t, s)
    | .error e => (.error (.raw e), s)

/-- `_ordered_tree_map(f, tree, is_leaf=p)` (lines 20-47). -/
def orderedMap {α β : Type} (p : PT K α → Bool) (f : PT K α → Act (PT K β)) (t : PT K α) : Act (PT K β) := fun s =>
  finish (t.treeStructure p) (runAll f ((paths (t.cut p)).zip (t.treeLeaves p)) s)

/-- `_ordered_tree_map(f, tree, rest)` (lines 20-47). -/
def orderedMap2 {α β γ : Type} (f : PT K α → PT K β → Act (PT K γ)) (t : PT K α) (r : PT K β) : Act (PT K γ) := fun s =>
  match PT.flattenUpTo (t.treeStructure PT.noLeaf) r with
  | .error e => (.error (.raw e), s)
  | .ok rs =>
    finish (t.treeStructure PT.noLeaf)
      (runAll (fun xy => f xy.1 xy.2) ((paths (t.cut PT.noLeaf)).zip ((t.treeLeaves PT.noLeaf).zip rs)) s)

/-! ### Filter specifications -/

/-- A function `(file, leaf) -> None`: the bytes it writes, and whether it raises. -/
abbrev SSpec (K : Type) (env : Env) (O : Type) := PT K (Leaf env O) → Except Err Unit × Bytes

/-- A function `(file, leaf) -> leaf`. -/
abbrev DSpec (K : Type) (env : Env) (O : Type) := PT K (Leaf env O) → Bytes → Except Err (PT K (Leaf env O)) × Bytes

variable {env : Env}

/-- `np.save(f, a)` (also `jnp.save`). PRNG keys cannot be converted to NumPy arrays. -/
def npSave (env : Env) (a : Arr) : Except Err Unit × Bytes :=
  if a.dtype = .key then (.error .typeError, []) else (.ok (), env.enc { a with dtype := a.dtype.onDisk })

/-- `np.load(f)`. -/
def npLoad (env : Env) (s : Bytes) : Except Err Arr × Bytes :=
  match env.dec s with
  | .ok (a, s) => (.ok a, s)
  | .error e => (.error e, s)

/-- What `jnp.load` makes of the array that `np.load` returns: restore `bfloat16`, then convert to a JAX array if
possible. -/
def jnpOfNp (env : Env) (a : Arr) : Leaf env O :=
  let a := if a.dtype = .void 2 then a.view .bf16 else a
  if env.jaxable a.dtype then .jax (env.canon a) else .np a

/-- `default_serialise_filter_spec` (lines 50-91). -/
def defaultSer : SSpec K env O
  | .leaf (.jax a) => npSave env a
  | .leaf (.np a) => npSave env a
  | .leaf (.scal s) => npSave env (env.asArray s)
  | _ => (.ok (), [])

/-- `default_deserialise_filter_spec` (lines 94-140). -/
def defaultDe : DSpec K env O
  | .leaf (.jax _), s => loadJax s
  | .leaf (.struct _ _), s => loadJax s
  | .leaf (.np _), s => match npLoad env s with
    | (.ok a, s) => (.ok (.leaf (.np a)), s)
    | (.error e, s) => (.error e, s)
  | .leaf (.scal x), s => match npLoad env s with
    | (.ok a, s) =>
      let a := if env.isBf16 (env.tyOf x) then a.view .bf16 else a
      match env.fromItem (env.tyOf x) a with
      | .ok y => (.ok (.leaf (.scal y)), s)
      | .error e => (.error e, s)
    | (.error e, s) => (.error e, s)
  | x, s => (.ok x, s)
where
  /-- `jnp.load(f)` (line 127). -/
  loadJax (s : Bytes) : Except Err (PT K (Leaf env O)) × Bytes := match npLoad env s with
    | (.ok a, s) => (.ok (.leaf (jnpOfNp env a)), s)
    | (.error e, s) => (.error e, s)

/-! ### Saving and loading -/

/-- Lift the exception of a filter specification. -/
def liftErr {X : Type} : Except Err X → Except TErr X
  | .ok x => .ok x
  | .error e => .error (.raw e)

/-- `__serialise` (lines 240-241). -/
def serLeaf (spec : SSpec K env O) (y : PT K (Leaf env O)) : Act (PT K (Leaf env O)) := fun s =>
  ((liftErr (spec y).1).map (fun _ => .none), s ++ (spec y).2)

/-- `__deserialise` (lines 322-323). -/
def deLeaf (spec : DSpec K env O) (y : PT K (Leaf env O)) : Act (PT K (Leaf env O)) := fun s =>
  (liftErr (spec y s).1, (spec y s).2)

/-- Calling an object of the filter specification: leaves are functions; `None` or a container as a leaf never
occurs since the specification is flattened without `is_leaf`. -/
def callSpec {X : Type} (f : F → Act X) : PT K F → Act X
  | .leaf g, s => f g s
  | _, s => (.error (.raw .typeError), s)

/-- `tree_serialise_leaves` on an open file (lines 237-245). -/
def serialise (spec : PT K (SSpec K env O)) (isLeaf : PT K (Leaf env O) → Bool) (tree : PT K (Leaf env O)) :
    Act (PT K (Leaf env O)) :=
  orderedMap2 (fun sp x => callSpec (fun sp => orderedMap isLeaf (serLeaf sp) x) sp) spec tree

/-- `type(x)`. The class of a container is determined by its tag. -/
inductive Ty (env : Env) (C T : Type) where
  | array | ndarray | struct | none
  | scal (t : env.STy)
  | container (c : C)
  | other (t : T)
deriving DecidableEq

variable [DecidableEq C] [DecidableEq T] (cls : K → C) (oty : O → T)

/-- `type(x)` of an object seen as a pytree. -/
def typeOf : PT K (Leaf env O) → Ty env C T
  | .leaf (.jax _) => .array
  | .leaf (.np _) => .ndarray
  | .leaf (.struct _ _) => .struct
  | .leaf (.scal s) => .scal (env.tyOf s)
  | .leaf (.other x) => .other (oty x)
  | .none => .none
  | .node k _ => .container (cls k)

/-- The replacement of `jax.ShapeDtypeStruct` by the array type (lines 169-170). -/
def Ty.expected : Ty env C T → Ty env C T
  | .struct => .array
  | t => t

/-- The `(shape, dtype)` of an array or `ShapeDtypeStruct`. -/
def shapeDtype : PT K (Leaf env O) → Option (List Nat × DType)
  | .leaf (.jax a) => some (a.shape, a.dtype)
  | .leaf (.np a) => some (a.shape, a.dtype)
  | .leaf (.struct d s) => some (s, d)
  | _ => Option.none

/-- `isinstance(x, (np.ndarray, jax.Array))` (line 176). -/
def isArray : PT K (Leaf env O) → Bool
  | .leaf (.jax _) => true
  | .leaf (.np _) => true
  | _ => false

/-- `_assert_same_impl` (lines 166-186). Reached only with equal types, so that both sides have a shape and a dtype when
they are compared. -/
def assertSame (new old : PT K (Leaf env O)) : Except Err (PT K (Leaf env O)) :=
  if typeOf cls oty new = (typeOf cls oty old).expected then
    if isArray new = true ∧ (shapeDtype new).map (·.1) ≠ (shapeDtype old).map (·.1) then .error .runtimeError
    else if isArray new = true ∧ (shapeDtype new).map (·.2) ≠ (shapeDtype old).map (·.2) then .error .runtimeError
    else .ok .none
  else .error .runtimeError

/-- `tree_deserialise_leaves` on an open file (lines 319-334). -/
def deserialise (spec : PT K (DSpec K env O)) (isLeaf : PT K (Leaf env O) → Bool) (like : PT K (Leaf env O)) :
    Act (PT K (Leaf env O)) := fun s =>
  match orderedMap2 (fun sp x => callSpec (fun sp => orderedMap isLeaf (deLeaf sp) x) sp) spec like s with
  | (.error e, s) => (.error e, s)
  | (.ok out, s) => match PT.treeMap2 isLeaf (assertSame cls oty) out like with
    | .ok _ => (.ok out, s)
    | .error e => (.error (.raw e), s)

end Ser
end Verif
