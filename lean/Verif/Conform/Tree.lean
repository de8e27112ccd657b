import Verif.Filters.Model
import Verif.TreeEqual.Model
import Verif.TreeCheck.Model
import Verif.TreeAt.Model

/-!
# The model against the tests: `tests/test_filters.py`, `tests/test_update.py`, `tests/test_tree.py`

These are tests, not proofs: they say that the model computes what the tests of equinox expect.
-/

namespace Verif
namespace Conform
namespace Tree

open PT

/-! ## Filters -/

/-- Containers. `linear` has the fields `weight` and `bias`. -/
inductive K where
  | list
  | tuple
  | dict (keys : List String)
  | linear
  | m
deriving DecidableEq

/-- Leaves. -/
inductive V where
  | int (n : Int)
  | str (s : String)
  | arr (n : Int)
  | obj
deriving DecidableEq

abbrev T := PT K V

def i (n : Int) : T := .leaf (.int n)
def list (ts : List T) : T := .node .list ts
def linear (w b : Int) : T := .node .linear [.leaf (.arr w), .leaf (.arr b)]

def isInt : T → Except Err Bool
  | .leaf (.int _) => .ok true
  | _ => .ok false

def tree1 : T := list [i 1, i 2, list [i 3, .leaf (.str "hi"), .node (.dict ["a", "b", "c"]) [.leaf (.arr 1), i 4, linear 5 6]]]

/-- `test_filter`, lines 84-105 -/
example : (Filters.filter noLeaf (.leaf (.callable isInt)) false .none tree1).map leaves =
    .ok [.int 1, .int 2, .int 3, .int 4] := rfl

def spec1 : List (PT K (Filters.Spec K V)) :=
  [.leaf (.bool false), .leaf (.bool true), .node .list [.leaf (.callable isInt), .leaf (.bool true)]]

def tree2 : T := list [linear 1 2, linear 3 4, list [linear 5 6, .leaf .obj]]

def noneLinear : T := .node .linear [.none, .none]

/-- `test_filter`, lines 107-120 -/
example : Filters.filter noLeaf (.node .list spec1) false .none tree2 =
    .ok (list [noneLinear, linear 3 4, list [noneLinear, .leaf .obj]]) := rfl

/-- `test_filter`, lines 122-123 -/
example : Filters.filter noLeaf (.node .list spec1.tail) false .none tree2 = .error .treeError := rfl

/-- `test_partition_and_combine` -/
example : (do
    let (a, b) ← Filters.partition noLeaf (.leaf (.callable isInt)) .none tree1
    let x ← Filters.combine noLeaf [a, b]
    let y ← Filters.combine noLeaf [b, a]
    pure (a.leaves, b.leaves, x, y)) =
    .ok ([.int 1, .int 2, .int 3, .int 4], [.str "hi", .arr 1, .arr 5, .arr 6], tree1, tree1) := rfl

/-- `test_partition_subtree` -/
example : (do
    let (a, b) ← Filters.partition noLeaf (.node K.list [.leaf (.bool true), .leaf (.bool false)]) .none
      (list [.node .tuple [i 1], i 2])
    Filters.combine noLeaf [a, b]) = .ok (list [.node .tuple [i 1], i 2]) := rfl

def m (n : Int) : T := .node .m [i n]

def isM : T → Bool
  | .node .m _ => true
  | _ => false

def specM : T → Except Err Bool
  | .node .m [.leaf (.int n)] => .ok (n == 1)
  | _ => .ok true

/-- `test_is_leaf` -/
example : Filters.filter isM (.leaf (.callable specM)) false .none (list [m 1, m 2, i 3]) = .ok (list [m 1, .none, i 3]) ∧
    Filters.partition isM (.leaf (.callable specM)) .none (list [m 1, m 2, i 3]) =
      .ok (list [m 1, .none, i 3], list [.none, m 2, .none]) := ⟨rfl, rfl⟩

/-- `x + y` -/
def add : T → T → Except Err T
  | .leaf (.arr a), .leaf (.int b) => .ok (.leaf (.arr (a + b)))
  | _, _ => .error .typeError

/-- `test_apply_updates1`, `test_apply_updates2` -/
example : Filters.applyUpdates add (list [.leaf .obj, .leaf (.arr 5), .leaf (.arr 2)]) (list [.none, i (-1), i 1]) =
      .ok (list [.leaf .obj, .leaf (.arr 4), .leaf (.arr 3)]) ∧
    Filters.applyUpdates add (list [.leaf .obj, .leaf (.arr 2)]) (list [i 0, i 1]) = .error .typeError := ⟨rfl, rfl⟩

/-! ## `tree_equal` -/

open TreeEqual

/-- Types: 0 is `int`, 1 `np.ndarray`, 2 `np.generic` (`float32`, `bfloat16`), 3 JAX's arrays. Dtypes: 0 is `int32`, 1 `float32`, 2
`float16`, 3 `bfloat16` (which NumPy does not regard as inexact). Elements are in units of 0.00001. -/
def np (d : Nat) (s : List Nat) (xs : List Int) : TreeEqual.Leaf Int Int := .arr ⟨1, .ndarray, s, d, xs⟩
def gen (d : Nat) (x : Int) : TreeEqual.Leaf Int Int := .arr ⟨2, .generic, [], d, [x]⟩
def jnp (d : Nat) (s : List Nat) (xs : List Int) : TreeEqual.Leaf Int Int := .arr ⟨3, .jax, s, d, xs⟩
def int (n : Int) : TreeEqual.Leaf Int Int := .other 0 n

def env (exact : Bool) : TreeEqual.Env Int Int where
  exact := exact
  close a b := (a - b).natAbs ≤ 100
  eq a b := a == b
  ne a b := a != b
  inexactNp d := d == 1 || d == 2
  inexactJnp d := d == 1 || d == 2 || d == 3

def eqTree (third : Int) (second weight : Int) : PT K (TreeEqual.Leaf Int Int) :=
  .node .list [.leaf (int 1), .leaf (int 2), .leaf (int third), .node (.dict ["a"]) [.leaf (jnp 1 [2] [100000, second])],
    .node .linear [.leaf (jnp 1 [2, 1] [weight, weight + 1]), .leaf (jnp 1 [2] [weight, weight])]]

/-- `test_tree_equal` -/
example : treeEqual (env true) false [eqTree 3 200000 5, eqTree 3 200000 5, eqTree 3 200000 5] = .ok (.jax true) ∧
    treeEqual (env true) false [eqTree 3 200000 5, eqTree 3 200000 6] = .ok (.jax false) ∧
    treeEqual (env true) false [eqTree 3 200000 5, eqTree 3 400000 5] = .ok (.jax false) ∧
    treeEqual (env true) false [eqTree 3 200000 5, eqTree 4 200000 5] = .ok (.py false) := ⟨rfl, rfl, rfl, rfl⟩

def eq2 (exact typematch : Bool) (x y : TreeEqual.Leaf Int Int) : Except Err Res :=
  treeEqual (K := K) (env exact) typematch [.leaf x, .leaf y]

/-- `test_tree_equal_jit`. Under JIT the results are tracers; a Python integer as an argument of a jitted function is an array. -/
example : eq2 true false (jnp 0 [] [0]) (int 0) = .ok (.py false) ∧
    eq2 true false (jnp 0 [] [0]) (jnp 0 [] [0]) = .ok (.jax true) ∧
    eq2 true false (jnp 0 [] [0]) (jnp 0 [] [1]) = .ok (.jax false) := ⟨rfl, rfl, rfl⟩

/-- `test_tree_equal_numpy` -/
example : let x := np 1 [2] [1, 2]; let y := jnp 1 [2] [1, 2]; let z := jnp 2 [2] [1, 2]
    eq2 true false x x = .ok (.py true) ∧ eq2 true true x x = .ok (.py true) ∧
    eq2 true false x y = .ok (.jax true) ∧ eq2 true true x y = .ok (.py false) ∧
    eq2 true false y y = .ok (.jax true) ∧ eq2 true true y y = .ok (.jax true) ∧
    eq2 true false x z = .ok (.py false) ∧ eq2 true false y z = .ok (.py false) :=
  ⟨rfl, rfl, rfl, rfl, rfl, rfl, rfl, rfl⟩

/-- `test_tree_equal_scalars` -/
example : eq2 true false (gen 1 1) (np 1 [] [1]) = .ok (.py true) ∧ eq2 true false (gen 1 1) (np 2 [] [1]) = .ok (.py false) ∧
    eq2 true false (gen 3 1) (gen 3 1) = .ok (.py true) ∧ eq2 true false (gen 3 1) (gen 3 2) = .ok (.py false) :=
  ⟨rfl, rfl, rfl, rfl⟩

/-- `test_tree_allclose` -/
example : let x := np 1 [] [100000]; let y := np 1 [] [100001]; let z := jnp 1 [] [100001]
    eq2 true false x y = .ok (.py false) ∧ eq2 false false x y = .ok (.py true) ∧
    eq2 false false x z = .ok (.jax true) ∧ eq2 false true x z = .ok (.py false) := ⟨rfl, rfl, rfl, rfl⟩

/-! ## `tree_check` -/

open TreeCheck

/-- Two lists that contain each other; a list that contains itself; `[None, None]`; `[0, 0]`; `[a, a]` for an empty module. -/
def heap : Heap
  | 0 => .node [1]
  | 1 => .node [0]
  | 2 => .node [2]
  | 3 => .node [4, 4]
  | 4 => .node []
  | 5 => .node [6, 6]
  | 6 => .leaf
  | _ => .leaf

/-- `test_tree_flatten_one_level`, lines 291-302 -/
example : flattenOneLevel heap 0 = .ok (some [1]) ∧ flattenOneLevel heap 2 = .error (.immediate 2) := ⟨rfl, rfl⟩

/-- `test_tree_check`, `test_tree_check_none`, `test_tree_check_integer`, `test_tree_check_module` -/
example : treeCheck heap 5 0 = some (.error (.selfReferential 0)) ∧ treeCheck heap 5 2 = some (.error (.immediate 2)) ∧
    treeCheck heap 5 3 = some (.ok ()) ∧ treeCheck heap 5 5 = some (.ok ()) := ⟨rfl, rfl, rfl, rfl⟩

/-! ## `tree_at` -/

namespace At

open TreeAt

/-- Containers of the tests; `empty` is the empty named tuple. -/
inductive K where
  | list
  | tuple
  | dict (keys : List String)
  | empty
  | linear
deriving DecidableEq

inductive V where
  | int (n : Int)
  | str (s : String)
  | arr (n : Int)
deriving DecidableEq

/-- Trees of objects; a leaf is an object with its identity. -/
abbrev T := PT K (Val V)

def env : TreeAt.Env K V where
  tuple := .tuple
  emptyTuple _ := false
  nodes
    | .node (_, .tuple) cs => .ok cs
    | .node (_, .list) cs => .ok cs
    | _ => .error .typeError
  items
    | .node .tuple cs => .ok cs
    | .node .list cs => .ok cs
    | _ => .error .typeError

/-- `tree[i][j]...` -/
def path : List Nat → Obj K V → Except Err (Obj K V)
  | [], x => .ok x
  | i :: π, .node _ cs =>
    match cs[i]? with
    | some c => path π c
    | Option.none => .error .indexError
  | _ :: _, _ => .error .typeError

/-- `lambda tree: (tree[...], tree[...])`: the tuple is a new object. -/
def pair (π ρ : List Nat) (x : Obj K V) : Except Err (Obj K V) := do
  let a ← path π x
  let b ← path ρ x
  pure (.node (.given 1000, .tuple) [a, b])

def isNoneLeaf : Obj K V → Bool
  | .none => true
  | _ => false

/-- `test_tree_at_replace`: `[1, 2, {"a": array}, Linear]`. -/
def tree1 : T := .node .list [.leaf (1, .int 1), .leaf (2, .int 2), .node (.dict ["a"]) [.leaf (3, .arr 7)],
  .node .linear [.leaf (4, .arr 8), .leaf (5, .arr 9)]]

/-- lines 22, 26 -/
example : treeAt env (path [2, 0]) PT.noLeaf tree1 (.replace (.leaf (10, .str "hi"))) =
    .ok (.node .list [.leaf (1, .int 1), .leaf (2, .int 2), .node (.dict ["a"]) [.leaf (10, .str "hi")],
      .node .linear [.leaf (4, .arr 8), .leaf (5, .arr 9)]]) := rfl

/-- lines 23-27 -/
example : treeAt env (pair [3, 0] [3, 1]) PT.noLeaf tree1 (.replace (.node .tuple [.leaf (10, .arr 80), .leaf (11, .arr 90)])) =
    .ok (.node .list [.leaf (1, .int 1), .leaf (2, .int 2), .node (.dict ["a"]) [.leaf (3, .arr 7)],
      .node .linear [.leaf (10, .arr 80), .leaf (11, .arr 90)]]) := rfl

/-- lines 38-48 -/
example : treeAt env (pair [0] [2, 0]) PT.noLeaf tree1 (.replace (.node .tuple [.leaf (10, .str "hi"), .leaf (11, .int 4)])) =
      .ok (.node .list [.leaf (10, .str "hi"), .leaf (2, .int 2), .node (.dict ["a"]) [.leaf (11, .int 4)],
        .node .linear [.leaf (4, .arr 8), .leaf (5, .arr 9)]]) ∧
    treeAt env (pair [0] [2, 0]) PT.noLeaf tree1 (.replace (.leaf (10, .int 4))) = .error .typeError ∧
    treeAt env (pair [0] [2, 0]) PT.noLeaf tree1
      (.replace (.node .tuple [.leaf (10, .int 3), .leaf (11, .int 4), .leaf (12, .int 5)])) = .error .valueError :=
  ⟨rfl, rfl, rfl⟩

/-- `replace_fn=len` -/
def len : PT K (Raw V) → Except Err (PT K (Raw V))
  | .node _ cs => .ok (.leaf (.obj 99 (.int cs.length)))
  | .leaf (.dist _) => .ok (.leaf (.obj 99 (.int 0)))
  | _ => .error .typeError

def hello : T := .leaf (10, .str "hello")
def one : T := .node .tuple [.leaf (1, .int 1)]

/-- `test_tree_at_empty_tuple`: `[()]`, `[(), ()]`, `[(1,)]`, `[(1,), (1,)]`, `[Empty()]`, `[Empty(), Empty()]` -/
example :
    treeAt env (path [0]) PT.noLeaf (.node .list [.node .tuple []]) (.replace hello) = .ok (.node .list [hello]) ∧
    treeAt env (path [0]) PT.noLeaf (.node .list [.node .tuple [], .node .tuple []]) (.replace hello) =
      .ok (.node .list [hello, .node .tuple []]) ∧
    treeAt env (path [0]) PT.noLeaf (.node .list [one]) (.replace hello) = .ok (.node .list [hello]) ∧
    treeAt env (path [0]) PT.noLeaf (.node .list [one, one]) (.replace hello) = .ok (.node .list [hello, one]) ∧
    treeAt env (path [0]) PT.noLeaf (.node .list [.node .empty []]) (.replace hello) = .ok (.node .list [hello]) ∧
    treeAt env (path [0]) PT.noLeaf (.node .list [.node .empty [], .node .empty []]) (.replace hello) =
      .ok (.node .list [hello, .node .empty []]) := ⟨rfl, rfl, rfl, rfl, rfl, rfl⟩

/-- ... with `replace_fn=len` -/
example :
    treeAt env (path [0]) PT.noLeaf (.node .list [.node .tuple [], .node .tuple []]) (.replaceFn len) =
      .ok (.node .list [.leaf (99, .int 0), .node .tuple []]) ∧
    treeAt env (path [0]) PT.noLeaf (.node .list [one, one]) (.replaceFn len) =
      .ok (.node .list [.leaf (99, .int 1), one]) ∧
    treeAt env (path [0]) PT.noLeaf (.node .list [.node .empty [], .node .empty []]) (.replaceFn len) =
      .ok (.node .list [.leaf (99, .int 0), .node .empty []]) := ⟨rfl, rfl, rfl⟩

/-- `test_tree_at_empty_namedtuple` -/
example : treeAt env (path [1]) PT.noLeaf (.node .list [.node .empty [], .leaf (1, .int 5)]) (.replace (.leaf (2, .int 4))) =
    .ok (.node .list [.node .empty [], .leaf (2, .int 4)]) := rfl

def found : PT K (Raw V) → Except Err (PT K (Raw V))
  | .leaf (.obj _ (.int _)) => .ok (.leaf (.obj 98 (.str "found an int")))
  | x => .ok x

/-- `test_tree_at_replace_fn` -/
example : treeAt env (pair [0] [1]) PT.noLeaf tree1 (.replaceFn found) =
      .ok (.node .list [.leaf (98, .str "found an int"), .leaf (98, .str "found an int"),
        .node (.dict ["a"]) [.leaf (3, .arr 7)], .node .linear [.leaf (4, .arr 8), .leaf (5, .arr 9)]]) ∧
    treeAt env (pair [0] [1]) PT.noLeaf tree1 .both = .error .valueError := ⟨rfl, rfl⟩

/-- `test_tree_at_subtree`: replace a list of layers as one node, and as a sequence of nodes. -/
example : let l : T := .node .empty []
    treeAt env (path [2]) PT.noLeaf tree1 (.replace (.node .list [l, l])) =
      .ok (.node .list [.leaf (1, .int 1), .leaf (2, .int 2), .node .list [l, l],
        .node .linear [.leaf (4, .arr 8), .leaf (5, .arr 9)]]) ∧
    treeAt env (pair [2] [3]) PT.noLeaf tree1 (.replace (.node .list [l, l])) =
      .ok (.node .list [.leaf (1, .int 1), .leaf (2, .int 2), l, l]) := ⟨rfl, rfl⟩

/-- The arrays of a tree (`jtu.tree_leaves(eqx.filter(m, eqx.is_array))`): a wrapped leaf is not an array. -/
def arrays (x : Obj K V) : List (Obj K V) :=
  (x.leaves.filter fun
    | .plain (.obj _ (.arr _)) => true
    | _ => false).map .leaf

/-- `test_tree_at_dependent_where` -/
example : treeAt env (fun x => .ok (.node (.given 1000, .list) (arrays x))) PT.noLeaf tree1
    (.replace (.node .list [.leaf (3, .arr 7), .leaf (4, .arr 8), .leaf (5, .arr 9)])) = .error .valueError := rfl

def nones : T := .node .tuple [.none, .none, .leaf (1, .int 0)]

/-- `test_tree_at_none_leaf` -/
example : treeAt env (path [0]) PT.noLeaf nones (.replace (.leaf (2, .int 1))) = .error .valueError ∧
    treeAt env (path [0]) isNoneLeaf nones (.replace (.leaf (2, .int 1))) =
      .ok (.node .tuple [.leaf (2, .int 1), .none, .leaf (1, .int 0)]) := ⟨rfl, rfl⟩

end At
end Tree
end Conform
end Verif
