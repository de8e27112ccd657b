import Verif.PyTree.Model

/-!
# `tree_at` (`equinox/_tree.py`, lines 20-261)

`tree_at` finds the nodes to replace by object identity, so Python objects carry identities here. `where` is an
arbitrary function on objects.
-/

namespace Verif
namespace TreeAt

variable {K α : Type}

/-- The identity `id(x)` of an object: one that the caller already had, one of the singletons `None` and `()`, or an
object made by one of the copying passes of `tree_at` at a position of the tree. Each pass makes new objects. -/
inductive Id where
  | given (n : Nat)
  | none
  | emptyTuple
  | made (pass : Nat) (π : List Nat)
deriving DecidableEq, Repr

/-- A leaf of the caller's trees: an object with its identity and value. Containers need no identity there, as
they are copied before anything looks at them. -/
abbrev Val (α : Type) := Nat × α

/-- A leaf after the first pass. -/
inductive Raw (α : Type) where
  | obj (n : Nat) (v : α)
  /-- An instance of `_DistinctTuple` (lines 54-55), which JAX regards as a leaf. -/
  | dist (i : Id)

/-- A leaf of the objects that `where` sees and returns. -/
inductive Leaf (K α : Type) where
  | plain (r : Raw α)
  /-- A `_LeafWrapper` (lines 20-22). -/
  | wrap (i : Id) (content : PT (Id × K) (Raw α))

/-- An object that `where` may see or return: containers have identities. -/
abbrev Obj (K α : Type) := PT (Id × K) (Leaf K α)

/-- `id(x)` for leaves after the first pass. -/
def Raw.id : Raw α → Id
  | .obj n _ => .given n
  | .dist i => i

/-- `id(x)`. -/
def idOf : Obj K α → Id
  | .leaf (.plain r) => r.id
  | .leaf (.wrap i _) => i
  | .none => .none
  | .node (i, _) _ => i

/-- An object without wrappers. -/
def plain (x : PT (Id × K) (Raw α)) : Obj K α := x.map .plain

mutual
/-- Change the tags of containers. -/
def retag {K K' β : Type} (f : K → K') : PT K β → PT K' β
  | .leaf a => .leaf a
  | .none => .none
  | .node k cs => .node (f k) (retagL f cs)
/-- `retag` on a list of children. -/
def retagL {K K' β : Type} (f : K → K') : List (PT K β) → List (PT K' β)
  | [] => []
  | c :: cs => retag f c :: retagL f cs
end

/-- The identity of a container made by a copying `tree_map` at a position, given its type and number of children:
all empty tuples are the same object. -/
def newId {K : Type} [DecidableEq K] (tuple : K) (pass : Nat) (π : List Nat) (k : K) (n : Nat) : Id :=
  if k = tuple ∧ n = 0 then .emptyTuple else .made pass π

mutual
/-- A copying `tree_map`: containers made at every position, and leaves made by `f`. -/
def label {K β γ : Type} (new : List Nat → K → Nat → Id) (f : List Nat → β → γ) : List Nat → PT K β → PT (Id × K) γ
  | π, .leaf a => .leaf (f π a)
  | _, .none => .none
  | π, .node k cs => .node (new π k cs.length, k) (labelL new f π 0 cs)
/-- `label` on the children from the `i`-th on. -/
def labelL {K β γ : Type} (new : List Nat → K → Nat → Id) (f : List Nat → β → γ) : List Nat → Nat → List (PT K β) → List (PT (Id × K) γ)
  | _, _, [] => []
  | π, i, c :: cs => label new f (π ++ [i]) c :: labelL new f π (i + 1) cs
end

/-- Python's part. -/
structure Env (K α : Type) where
  /-- The type `tuple` of empty tuples. -/
  tuple : K
  /-- Leaves which are empty instances of a subclass of `tuple`: `is_empty_tuple` (lines 155-157) accepts them. -/
  emptyTuple : α → Bool
  /-- Iterating over what `where` returned. -/
  nodes : Obj K α → Except Err (List (Obj K α))
  /-- Iterating over `replace`. -/
  items : PT K (Val α) → Except Err (List (PT K (Val α)))

mutual
/-- The first `tree_map` (lines 155-162): every empty tuple becomes an object of its own. -/
def distinct [DecidableEq K] (env : Env K α) : List Nat → PT K (Val α) → PT K (Raw α)
  | π, .leaf (n, v) => if env.emptyTuple v then .leaf (.dist (.made 0 π)) else .leaf (.obj n v)
  | _, .none => .none
  | π, .node k cs =>
    if k = env.tuple ∧ cs.isEmpty then .leaf (.dist (.made 0 π)) else .node k (distinctL env π 0 cs)
/-- `distinct` on the children from the `i`-th on. -/
def distinctL [DecidableEq K] (env : Env K α) : List Nat → Nat → List (PT K (Val α)) → List (PT K (Raw α))
  | _, _, [] => []
  | π, i, c :: cs => distinct env (π ++ [i]) c :: distinctL env π (i + 1) cs
end

mutual
/-- The last `tree_map` (lines 256-260), which puts the empty tuples back. -/
def restore (tuple : K) : PT K (Raw α) → PT K (Val α)
  | .leaf (.obj n v) => .leaf (n, v)
  | .leaf (.dist _) => .node tuple []
  | .none => .none
  | .node k cs => .node k (restoreL tuple cs)
/-- `restore` on a list of children. -/
def restoreL (tuple : K) : List (PT K (Raw α)) → List (PT K (Val α))
  | [] => []
  | c :: cs => restore tuple c :: restoreL tuple cs
end

/-- The second `tree_map` (line 164) applied to the result of the first one: leaves are wrapped. -/
def wrapped [DecidableEq K] (env : Env K α) (isLeaf : Obj K α → Bool) (t1 : PT (Id × K) (Raw α)) : Obj K α :=
  label (newId env.tuple 2) (fun π c => Leaf.wrap (.made 2 π) c) [] (retag Prod.snd (t1.cut (fun x => isLeaf (plain x))))

/-- `_remove_leaf_wrapper` (lines 25-28). -/
def removeWrapper : Obj K α → Except Err (PT (Id × K) (Raw α))
  | .leaf (.wrap _ c) => .ok c
  | _ => .error .typeError

/-- `jtu.tree_structure(x, is_leaf=p)`: identities are not part of it. -/
def structureOf (p : Obj K α → Bool) (x : Obj K α) : PT.Def K := retag Prod.snd (x.treeStructure p)

/-- `jtu.tree_map(f, x, is_leaf=p)` where the result no longer needs identities. -/
def omap (p : Obj K α → Bool) (f : Obj K α → Except Err (PT K (Raw α))) (x : Obj K α) : Except Err (PT K (Raw α)) := do
  let outs ← PT.mapE f (x.treeLeaves p)
  PT.treeUnflatten (structureOf p x) outs

/-- `_remove_leaf_wrapper`, forgetting identities of containers. -/
def removeWrapper' (x : Obj K α) : Except Err (PT K (Raw α)) :=
  match removeWrapper x with
  | .ok c => .ok (retag Prod.snd c)
  | .error e => .error e

/-- The arguments `replace` and `replace_fn`. -/
inductive Repl (K α : Type) where
  | neither
  | both
  | replace (r : PT K (Val α))
  | replaceFn (f : PT K (Raw α) → Except Err (PT K (Raw α)))

/-- The comparison of the two results of `where` (lines 166-177): the second result must consist of wrapped leaves,
and be the first one up to wrapping. -/
def checkWhere [DecidableEq K] (isLeaf : Obj K α → Bool) (r1 r2 : Obj K α) : Except Err Unit := do
  let leaves2 ← PT.mapE removeWrapper (r2.treeLeaves PT.noLeaf)
  if structureOf isLeaf r1 ≠ structureOf PT.noLeaf r2 ∨
      (r1.treeLeaves isLeaf).map idOf ≠ leaves2.map (fun c => idOf (plain c)) then .error .valueError
  else .ok ()

mutual
/-- The search for the returned object in the tree (lines 181-190). -/
def occurs (i : Id) : Obj K α → Bool
  | .leaf (.plain r) => r.id == i
  | .leaf (.wrap j _) => j == i
  | .none => Id.none == i
  | .node (j, _) cs => j == i || occursL i cs
/-- `occurs` on a list of children. -/
def occursL (i : Id) : List (Obj K α) → Bool
  | [] => false
  | c :: cs => occurs i c || occursL i cs
end

/-- A replacement function (lines 199-222). -/
abbrev Fn (K α : Type) := Obj K α → Except Err (PT K (Raw α))

/-- Normalising `replace` and `replace_fn` (lines 192-193 and 199-222): one function for each node. -/
def replaceFns (env : Env K α) (single : Bool) (n : Nat) : Repl K α → Except Err (List (Fn K α))
  | .neither => .error .valueError
  | .both => .error .valueError
  | .replaceFn f => .ok (List.replicate n (fun x => do f (← omap PT.noLeaf removeWrapper' x)))
  | .replace r => do
    let rs ← if single then .ok [r] else env.items r
    if n ≠ rs.length then .error .valueError
    else .ok (rs.map (fun r _ => .ok (r.map (fun v => Raw.obj v.1 v.2))))

/-- `_CountedIdDict(nodes, replace_fns)` (lines 31-36): for equal keys the last value counts. -/
def lookup (ids : List Id) (fns : List (Fn K α)) (i : Id) : Option (Fn K α) :=
  ((ids.zip fns).reverse.find? (fun p => decide (p.1 = i))).map (·.2)

/-- `_make_replacement` (lines 226-227). -/
def makeReplacement (ids : List Id) (fns : List (Fn K α)) (x : Obj K α) : Except Err (PT K (Raw α)) :=
  match lookup ids fns (idOf x) with
  | some f => f x
  | none => removeWrapper' x

/-- `node_replace_fns.count(node)` after the replacement (lines 38-50): how many objects with this identity
`tree_map` came across. -/
def count (ids : List Id) (t : Obj K α) (i : Id) : Nat :=
  (t.treeLeaves (fun x => decide (idOf x ∈ ids))).countP (fun x => decide (idOf x = i))

/-- The replacement and the checks after it (lines 223-260), given the wrapped tree, the selected nodes and their
replacement functions. -/
def replaceNodes (env : Env K α) (t2 : Obj K α) (ids : List Id) (fns : List (Fn K α)) :
    Except Err (PT K (Val α)) := do
  let out ← omap (fun x => decide (idOf x ∈ ids)) (makeReplacement ids fns) t2
  if ids.any (fun i => count ids t2 i ≠ 1) then .error .valueError
  else .ok (restore env.tuple out)

/-- The nodes selected (lines 181-196), and whether it is a single one. -/
def selected (env : Env K α) (t2 r2 : Obj K α) : Except Err (Bool × List (Obj K α)) :=
  if occurs (idOf r2) t2 then .ok (true, [r2])
  else match env.nodes r2 with
    | .ok ns => .ok (false, ns)
    | .error e => .error e

/-- The tree which `where` sees first. -/
def seen1 [DecidableEq K] (env : Env K α) (t : PT K (Val α)) : PT (Id × K) (Raw α) :=
  label (newId env.tuple 1) (fun _ r => r) [] (distinct env [] t)

/-- The tree which `where` sees next. -/
def seen2 [DecidableEq K] (env : Env K α) (isLeaf : Obj K α → Bool) (t : PT K (Val α)) : Obj K α :=
  wrapped env isLeaf (seen1 env t)

/-- `tree_at` (lines 58-261). -/
def treeAt [DecidableEq K] (env : Env K α) (wh : Obj K α → Except Err (Obj K α))
    (isLeaf : Obj K α → Bool) (t : PT K (Val α)) (repl : Repl K α) : Except Err (PT K (Val α)) := do
  let r1 ← wh (plain (seen1 env t))
  let r2 ← wh (seen2 env isLeaf t)
  checkWhere isLeaf r1 r2
  let (single, nodes) ← selected env (seen2 env isLeaf t) r2
  let fns ← replaceFns env single nodes.length repl
  replaceNodes env (seen2 env isLeaf t) (nodes.map idOf) fns

end TreeAt
end Verif
