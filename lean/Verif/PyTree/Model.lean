import Verif.Basic

/-!
# PyTrees

JAX pytrees as used throughout equinox. JAX itself is not part of `/repo`; this file fixes the
semantics of `jax.tree_util` that the rest of the model relies on (see DESIGN.md, trusted base).

A Python object, seen as a pytree, is

* a `leaf`,
* `None`, which JAX treats as a container without children, or
* a container `node k cs` with children `cs`. The tag `k : K` stands for the container type
  together with its auxiliary data (dictionary keys, the class and static fields of a `Module`, ...).
-/

namespace Verif

/-- A Python object seen as a pytree. -/
inductive PT (K : Type) (α : Type) where
  | leaf (a : α)
  | none
  | node (k : K) (cs : List (PT K α))
deriving Repr

namespace PT

variable {K : Type} {α : Type} {β : Type} {γ : Type}

/-- Induction over pytrees. -/
theorem ind {P : PT K α → Prop} (leaf : ∀ a, P (.leaf a)) (none : P .none)
    (node : ∀ k cs, (∀ c ∈ cs, P c) → P (.node k cs)) : ∀ t, P t
  | .leaf a => leaf a
  | .none => none
  | .node k cs => node k cs (go cs)
where
  go : ∀ cs : List (PT K α), ∀ c ∈ cs, P c
  | [], _, h => nomatch h
  | c :: cs, d, h => by
    rcases List.mem_cons.1 h with h | h
    · exact h ▸ ind leaf none node c
    · exact go cs d h

mutual
/-- Equality of pytrees is decidable. -/
def decEq [DecidableEq K] [DecidableEq α] : (s t : PT K α) → Decidable (s = t)
  | .leaf a, .leaf b => if h : a = b then .isTrue (h ▸ rfl) else .isFalse (fun e => h (by injection e))
  | .leaf _, .none => .isFalse nofun
  | .leaf _, .node _ _ => .isFalse nofun
  | .none, .leaf _ => .isFalse nofun
  | .none, .none => .isTrue rfl
  | .none, .node _ _ => .isFalse nofun
  | .node _ _, .leaf _ => .isFalse nofun
  | .node _ _, .none => .isFalse nofun
  | .node k cs, .node l ds =>
    if h : k = l then
      match decEqL cs ds with
      | .isTrue h' => .isTrue (h ▸ h' ▸ rfl)
      | .isFalse h' => .isFalse (fun e => h' (by injection e))
    else .isFalse (fun e => h (by injection e))
/-- Equality of lists of pytrees is decidable. -/
def decEqL [DecidableEq K] [DecidableEq α] : (s t : List (PT K α)) → Decidable (s = t)
  | [], [] => .isTrue rfl
  | [], _ :: _ => .isFalse nofun
  | _ :: _, [] => .isFalse nofun
  | c :: cs, d :: ds =>
    match decEq c d, decEqL cs ds with
    | .isTrue h, .isTrue h' => .isTrue (h ▸ h' ▸ rfl)
    | .isFalse h, _ => .isFalse (fun e => h (by injection e))
    | _, .isFalse h => .isFalse (fun e => h (by injection e))
end

instance [DecidableEq K] [DecidableEq α] : DecidableEq (PT K α) := decEq

/-- `x is None`. -/
def isNone : PT K α → Bool
  | .none => true
  | _ => false

/-! ## Positions -/

/-- The object found by following child indices. This is the specification-level way of naming a
place in a tree. -/
def get? : PT K α → List Nat → Option (PT K α)
  | t, [] => some t
  | .node _ cs, i :: π => (cs[i]?).bind (fun c => c.get? π)
  | _, _ :: _ => Option.none

/-- The leaf value at a position, if there is a leaf there. -/
def leafAt? (t : PT K α) (π : List Nat) : Option α :=
  match t.get? π with
  | some (.leaf a) => some a
  | _ => Option.none

/-- What one sees at a position without looking into children. -/
inductive Head (K : Type) (α : Type) where
  | leaf (a : α)
  | none
  | node (k : K) (arity : Nat)
deriving DecidableEq, Repr

/-- Head constructor of a tree. -/
def head : PT K α → Head K α
  | .leaf a => .leaf a
  | .none => .none
  | .node k cs => .node k cs.length

/-- Head constructor found at a position. -/
def headAt? (t : PT K α) (π : List Nat) : Option (Head K α) := (t.get? π).map head

/-! ## `jax.tree_util` -/

mutual
/-- `tree_map(f, t)` for a total unary leaf function that returns leaves. -/
def map (f : α → β) : PT K α → PT K β
  | .leaf a => .leaf (f a)
  | .none => .none
  | .node k cs => .node k (mapL f cs)
/-- `map` on a list of children. -/
def mapL (f : α → β) : List (PT K α) → List (PT K β)
  | [] => []
  | c :: cs => map f c :: mapL f cs
end

mutual
/-- Treat as leaves the actual leaves and the maximal subtrees on which `is_leaf` returns `True`.
The result is a tree whose leaves carry those objects. `tree_flatten(t, is_leaf=p)` is the list of
its leaves together with its shape. -/
def cut (p : PT K α → Bool) : PT K α → PT K (PT K α)
  | .leaf a => .leaf (.leaf a)
  | .none => if p .none then .leaf .none else .none
  | .node k cs => if p (.node k cs) then .leaf (.node k cs) else .node k (cutL p cs)
/-- `cut` on a list of children. -/
def cutL (p : PT K α → Bool) : List (PT K α) → List (PT K (PT K α))
  | [] => []
  | c :: cs => cut p c :: cutL p cs
end

mutual
/-- Leaves from left to right. -/
def leaves : PT K α → List α
  | .leaf a => [a]
  | .none => []
  | .node _ cs => leavesL cs
/-- `leaves` on a list of children. -/
def leavesL : List (PT K α) → List α
  | [] => []
  | c :: cs => leaves c ++ leavesL cs
end

/-- `PyTreeDef`: a tree whose leaves carry no information. -/
abbrev Def (K : Type) := PT K Unit

/-- The shape of a tree. -/
def shape (t : PT K α) : Def K := t.map (fun _ => ())

/-- `jtu.tree_leaves(t, is_leaf=p)`. -/
def treeLeaves (p : PT K α → Bool) (t : PT K α) : List (PT K α) := (t.cut p).leaves

/-- `jtu.tree_structure(t, is_leaf=p)`. -/
def treeStructure (p : PT K α → Bool) (t : PT K α) : Def K := (t.cut p).shape

mutual
/-- Consume leaves from a list, filling a treedef. -/
def fill : Def K → List β → Except Err (PT K β × List β)
  | .leaf (), x :: xs => .ok (.leaf x, xs)
  | .leaf (), [] => .error .treeError
  | .none, xs => .ok (.none, xs)
  | .node k ds, xs => do
    let (cs, rest) ← fillL ds xs
    pure (.node k cs, rest)
/-- `fill` on a list of children. -/
def fillL : List (Def K) → List β → Except Err (List (PT K β) × List β)
  | [], xs => .ok ([], xs)
  | d :: ds, xs => do
    let (c, rest) ← fill d xs
    let (cs, rest') ← fillL ds rest
    pure (c :: cs, rest')
end

mutual
/-- Substitute the objects at the leaves for the leaves. -/
def join : PT K (PT K α) → PT K α
  | .leaf t => t
  | .none => .none
  | .node k cs => .node k (joinL cs)
/-- `join` on a list of children. -/
def joinL : List (PT K (PT K α)) → List (PT K α)
  | [] => []
  | c :: cs => join c :: joinL cs
end

/-- `jtu.tree_unflatten(treedef, leaves)`: fails when there are too few or too many leaves. The
"leaves" may themselves be arbitrary objects. -/
def treeUnflatten (d : Def K) (xs : List (PT K α)) : Except Err (PT K α) := do
  let (t, rest) ← fill d xs
  if rest.isEmpty then pure t.join else .error .treeError

mutual
/-- `treedef.flatten_up_to(t)`: `t` must agree with the treedef on every container (type, auxiliary
data, arity) and on every `None`; the subtrees found at the leaves are returned in order. -/
def flattenUpTo [DecidableEq K] : Def K → PT K α → Except Err (List (PT K α))
  | .leaf (), t => .ok [t]
  | .none, .none => .ok []
  | .node k ds, .node l cs => if k = l then flattenUpToL ds cs else .error .treeError
  | .none, .leaf _ => .error .treeError
  | .none, .node _ _ => .error .treeError
  | .node _ _, .leaf _ => .error .treeError
  | .node _ _, .none => .error .treeError
/-- `flattenUpTo` on lists of children, which must have the same length. -/
def flattenUpToL [DecidableEq K] : List (Def K) → List (PT K α) → Except Err (List (PT K α))
  | [], [] => .ok []
  | d :: ds, c :: cs => do
    let xs ← flattenUpTo d c
    let ys ← flattenUpToL ds cs
    pure (xs ++ ys)
  | [], _ :: _ => .error .treeError
  | _ :: _, [] => .error .treeError
end

/-- Left-to-right evaluation of a leaf function which may raise. -/
def mapE (f : β → Except Err γ) : List β → Except Err (List γ)
  | [] => .ok []
  | x :: xs => do
    let y ← f x
    let ys ← mapE f xs
    pure (y :: ys)

/-- `zip(*lists)` for lists of equal length, given the first list: prepends the heads. -/
def zipCons : List β → List (List β) → List (List β)
  | x :: xs, ys :: yss => (x :: ys) :: zipCons xs yss
  | _, _ => []

/-- `zip(xs, *rest)`. -/
def zipAll (xs : List β) : List (List β) → List (List β)
  | [] => xs.map (fun x => [x])
  | ys :: rest => zipCons xs (zipAll ys rest)

/-- `jtu.tree_map(f, tree, *rest, is_leaf=p)`, exactly as JAX defines it: flatten the first tree,
`flatten_up_to` the others, apply `f` to corresponding entries, unflatten. `f` receives the list of
its arguments. -/
def treeMap [DecidableEq K] (p : PT K α → Bool) (f : List (PT K α) → Except Err (PT K α))
    (t : PT K α) (rest : List (PT K α)) : Except Err (PT K α) := do
  let d := t.treeStructure p
  let ls := t.treeLeaves p
  let rs ← mapE (flattenUpTo d) rest
  let outs ← mapE f (zipAll ls rs)
  treeUnflatten d outs

/-- `jtu.tree_map(f, s, is_leaf=p)`. -/
def treeMap1 (p : PT K α → Bool) (f : PT K α → Except Err (PT K γ)) (t : PT K α) :
    Except Err (PT K γ) := do
  let outs ← mapE f (t.treeLeaves p)
  treeUnflatten (t.treeStructure p) outs

/-- `jtu.tree_map(f, s, t, is_leaf=p)` for two trees whose leaves have different (Lean) types. -/
def treeMap2 [DecidableEq K] (p : PT K β → Bool) (f : PT K β → PT K α → Except Err (PT K γ))
    (s : PT K β) (t : PT K α) : Except Err (PT K γ) := do
  let ts ← flattenUpTo (s.treeStructure p) t
  let outs ← mapE (fun xy => f xy.1 xy.2) ((s.treeLeaves p).zip ts)
  treeUnflatten (s.treeStructure p) outs

/-- `is_leaf=None`. -/
def noLeaf : PT K α → Bool := fun _ => false

end PT
end Verif
