import Verif.Dict
import Verif.TreeEqual.Model

/-!
# Instances of modules as pytrees (`equinox/_module.py`)

`_flatten_module` (855-897), `_unflatten_module` (900-913), `_FlattenedData` (839-852), `Module.__hash__` and
`Module.__eq__` (1019-1025).

Simplified: `getattr` finds the entry of the instance's `__dict__` before that of the class, which is right for everything
except data descriptors; those do not occur under the names it is used for here. `_wrapper_field_names` is a set that is
iterated in an arbitrary but fixed order.
-/

namespace Verif.Module

/-- A field of a dataclass: its name and `metadata.get("static", False)`. -/
structure Field (N : Type) where
  name : N
  static : Bool

/-- What flattening looks at: `dataclasses.fields(cls)`, `_wrapper_field_names`, and attributes of the class. -/
structure Info (N C V : Type) where
  fields : C → List (Field N)
  wrapper : List N
  classAttr : C → N → Option V

/-- `_FlattenedData` (839-852). -/
structure Aux (N V : Type) where
  dynamicNames : List N
  staticNames : List N
  staticValues : List V
  wrapperNames : List N
  wrapperValues : List V
deriving DecidableEq

variable {N C K A E V W : Type} [DecidableEq N]

/-- The loop over the fields (866-883): the dynamic and the static fields found in `module.__dict__`. -/
def flattenFields (d : Dict N V) : List (Field N) → List (N × V) × List (N × V)
  | [] => ([], [])
  | f :: fs =>
    match d.get? f.name with
    | none => flattenFields d fs
    | some v =>
      if f.static then ((flattenFields d fs).1, (f.name, v) :: (flattenFields d fs).2)
      else ((f.name, v) :: (flattenFields d fs).1, (flattenFields d fs).2)

/-- `getattr(module, name, sentinel)`. -/
def getattr (info : Info N C V) (c : C) (d : Dict N V) (n : N) : Option V :=
  match d.get? n with
  | some v => some v
  | none => info.classAttr c n

/-- The loop over `_wrapper_field_names` (884-889). -/
def wrapperFields (look : N → Option V) : List N → List (N × V)
  | [] => []
  | n :: ns =>
    match look n with
    | none => wrapperFields look ns
    | some v => (n, v) :: wrapperFields look ns

/-- `_flatten_module` (855-897). -/
def flattenModule (info : Info N C V) (c : C) (d : Dict N V) : List V × Aux N V :=
  let r := flattenFields d (info.fields c)
  let w := wrapperFields (getattr info c d) info.wrapper
  (r.1.map (·.2), ⟨r.1.map (·.1), r.2.map (·.1), r.2.map (·.2), w.map (·.1), w.map (·.2)⟩)

/-- `for name, value in zip(names, values): object.__setattr__(module, name, value)`. -/
def setAll (d : Dict N V) (ns : List N) (vs : List V) : Dict N V := Dict.update d (ns.zip vs)

/-- `_unflatten_module` (900-913): the `__dict__` of the new instance. -/
def unflattenModule (aux : Aux N V) (vs : List V) : Dict N V :=
  setAll (setAll (setAll [] aux.dynamicNames vs) aux.staticNames aux.staticValues) aux.wrapperNames aux.wrapperValues

/-! ### Whole objects -/

/-- Python objects as far as flattening looks into them: leaves, `None`, other containers, and instances of modules
with the names and the values of their `__dict__`. -/
inductive Obj (N C K A : Type) where
  | leaf (a : A)
  | none
  | node (k : K) (cs : List (Obj N C K A))
  | inst (c : C) (names : List N) (vals : List (Obj N C K A))

/-- Node types of pytrees with their auxiliary data. -/
inductive Key (N C K E : Type) where
  | base (k : K)
  | module (c : C) (aux : Aux N E)
deriving DecidableEq

/-- Apply a function to the values held by the auxiliary data. -/
def Aux.map (κ : V → E) (a : Aux N V) : Aux N E :=
  ⟨a.dynamicNames, a.staticNames, a.staticValues.map κ, a.wrapperNames, a.wrapperValues.map κ⟩

mutual
/-- The pytree that JAX sees: modules are taken apart by `_flatten_module`. `κ` is applied to the values that are kept in
the structure; it is the identity for flattening itself. -/
def toPT (info : Info N C (Obj N C K A)) (κ : Obj N C K A → E) : Obj N C K A → PT (Key N C K E) A
  | .leaf a => .leaf a
  | .none => .none
  | .node k cs => .node (.base k) (toPTL info κ cs)
  | .inst c ns vs =>
    .node (.module c (((flattenModule info c (ns.zip vs)).2).map κ))
      ((flattenFields (ns.zip (toPTL info κ vs)) (info.fields c)).1.map (·.2))
/-- `toPT` on lists. -/
def toPTL (info : Info N C (Obj N C K A)) (κ : Obj N C K A → E) : List (Obj N C K A) → List (PT (Key N C K E) A)
  | [] => []
  | o :: os => toPT info κ o :: toPTL info κ os
end

mutual
/-- What JAX builds from a pytree, with `_unflatten_module` for modules. -/
def fromPT : PT (Key N C K (Obj N C K A)) A → Obj N C K A
  | .leaf a => .leaf a
  | .none => .none
  | .node (.base k) cs => .node k (fromPTL cs)
  | .node (.module c aux) cs =>
    let d := unflattenModule aux (fromPTL cs)
    .inst c (d.map (·.1)) (d.map (·.2))
/-- `fromPT` on lists. -/
def fromPTL : List (PT (Key N C K (Obj N C K A)) A) → List (Obj N C K A)
  | [] => []
  | t :: ts => fromPT t :: fromPTL ts
end

/-- `jtu.tree_flatten`. -/
def treeFlatten (info : Info N C (Obj N C K A)) (o : Obj N C K A) : List A × PT.Def (Key N C K (Obj N C K A)) :=
  ((toPT info id o).leaves, (toPT info id o).shape)

/-- `jtu.tree_unflatten` with leaves for leaves. -/
def treeUnflattenObj (d : PT.Def (Key N C K (Obj N C K A))) (xs : List A) : Except Err (Obj N C K A) := do
  let r ← PT.fill d xs
  if r.2.isEmpty then pure (fromPT r.1) else .error .treeError

open TreeEqual in
/-- `Module.__eq__` (1022-1025). `κ` maps objects to what `==` compares: it has the same value on two objects exactly if
they are equal to Python. -/
def moduleEq {ν β : Type} [DecidableEq C] [DecidableEq K] [DecidableEq E] (info : Info N C (Obj N C K (Leaf ν β)))
    (κ : Obj N C K (Leaf ν β) → E) (env : Env ν β) (x y : Obj N C K (Leaf ν β)) : Except Err Res :=
  treeEqual env false [toPT info κ x, toPT info κ y]

/-- `Module.__hash__` (1019-1020). `hashLeaf` is `hash` on leaves, `combine` what `hash` makes of a tuple. -/
def moduleHash {H : Type} (info : Info N C (Obj N C K A)) (hashLeaf : A → Except Err H) (combine : List H → H)
    (x : Obj N C K A) : Except Err H := do
  let hs ← PT.mapE hashLeaf (toPT info id x).leaves
  pure (combine hs)

end Verif.Module
