import Verif.Jit.Model

/-!
# The model of `filter_jit` against `tests/test_jit.py`

Arrays are (shape, entry) with the entry of an array whose entries are all equal; a program is traced once for each entry of the
cache of `jax.jit`.
-/

namespace Verif.Conform.Jit

open PT Verif.Jit

/-- Static objects. -/
inductive Obj
  | int (n : Int)
  | bool (b : Bool)
  | fn (n : Nat)
  | object
deriving DecidableEq

/-- `==`: `True == 1`. -/
def Obj.cls : Obj → Obj
  | .bool b => .int (if b then 1 else 0)
  | o => o

abbrev Arr := List Nat × Int
abbrev X := Val Arr Obj String

instance : DecidableEq X := inferInstance
instance : DecidableEq (Except Err X) := inferInstance
instance : DecidableEq (List (Except Err X)) := inferInstance

def arr (s : List Nat) (n : Int) : X := .leaf (.arr (s, n))
def int (n : Int) : X := .leaf (.obj (.int n))
def bool (b : Bool) : X := .leaf (.obj (.bool b))
def fn (n : Nat) : X := .leaf (.obj (.fn n))
def list (l : List X) : X := .node (.other "list") l
def mod (x : X) : X := .node (.other "M") [x]

/-- `x + y` -/
def add : X → X → Except Err X
  | .leaf (.arr (s, n)), .leaf (.arr (_, m)) => .ok (arr s (n + m))
  | .leaf (.arr (s, n)), .leaf (.obj (.int m)) => .ok (arr s (n + m))
  | _, _ => .error .typeError

mutual
/-- `tree_map(lambda x: x + 1 if is_array(x) else x, x)` -/
def inc : X → X
  | .leaf (.arr (s, n)) => arr s (n + 1)
  | .leaf o => .leaf o
  | .none => .none
  | .node k cs => .node k (incL cs)
def incL : List X → List X
  | [] => []
  | c :: cs => inc c :: incL cs
end

/-- The functions of the tests. -/
def apply : X → List X → Kwargs Arr Obj String → Except Err X
  | .leaf (.obj (.fn 0)), _, _ => .ok .none
  | .leaf (.obj (.fn 1)), [x], [] => .ok (inc x)
  | .leaf (.obj (.fn 2)), [.node (.other "M") [i], x], [] => add x i
  | .node (.other "M") [i], [x], [] => add x i
  | .leaf (.obj (.fn 3)), _, kw => match kw.find? (fun p => p.1 == "x") with
    | some p => .ok p.2
    | Option.none => .error .keyError
  | .leaf (.obj (.fn 4)), args, _ => match args.head? with
    | some a => .ok a
    | Option.none => .error .indexError
  | .leaf (.obj (.fn 5)), [x, y], [] => add x y
  | _, _, _ => .error .typeError

def w : World Arr (List Nat) Obj String Obj String where
  aval := Prod.fst
  cls := Obj.cls
  ccls := id
  hashable := fun _ => true
  chashable := fun _ => true
  apply := apply
  bind := fun _ a k => .ok (a, k)

/-- The cache key of a plain function, and of anything else. -/
def plain (n : Nat) : CacheKey Nat := ⟨some n, ("f", "f"), []⟩
def other : CacheKey Nat := ⟨Option.none, ("f", "f"), []⟩

/-- Decorate, and then make calls; the results, and the number of traces in the whole process. -/
def session : List (Event Arr Obj String Nat) → List (Except Err X) × Nat := fun h =>
  let r := h.foldl (fun (acc : List (Except Err X) × Proc Arr (List Nat) Obj String Obj String Nat) e =>
    (match e with
      | .call i a k => acc.1 ++ [(call w acc.2 i a k).1]
      | _ => acc.1, step w acc.2 e)) ([], ⟨[], [], []⟩)
  (r.1, (r.2.jits.map List.length).sum)

/-- `test_filter_jit`: with either value of `donate`, arrays go up by one and all else comes back. -/
def general (n : Int) : X :=
  list [int 1, bool true, .leaf (.obj .object), .node (.dict ["a", "tuple"]) [arr [2, 3] n, .node .tuple [int 2, arr [3] n]],
    arr [1, 4] n, mod (arr [2] n)]

example : ∀ d ∈ [Donate.all, Donate.none],
    (session [.decorate (fn 1) (plain 1) (some d), .call 0 [arr [2, 3] 7] [], .call 0 [general 7] []]).1
      = [.ok (arr [2, 3] 8), .ok (general 8)] := by decide +kernel

/-- `test_num_traces`: `f` -/
def zeros (s : List Nat) : X := arr s 0
def f1 : List (Event Arr Obj String Nat) :=
  [.decorate (fn 0) (plain 0) (some .none), .call 0 [zeros [2]] [], .call 0 [zeros [2]] []]
def f2 := f1 ++ [.call 0 [zeros [3]] [], .call 0 [zeros [3]] []]
def f3 := f2 ++ [.call 0 [list [zeros [2]]] [], .call 0 [list [zeros [2], zeros [3]]] [], .call 0 [list [zeros [2], bool true]] []]
example : (session f1).2 = 1 := by decide +kernel
example : (session f2).2 = 2 := by decide +kernel
example : (session f3).2 = 5 := by decide +kernel

/-- `test_num_traces`: `g` -/
example : (session [.decorate (fn 0) (plain 0) (some .none), .call 0 [zeros [2], bool true] [],
    .call 0 [zeros [2], bool false] []]).2 = 2 := by decide +kernel

/-- `test_num_traces`: `h` -/
def ab (a b : Int) : X := .node (.dict ["a", "b"]) [int a, int b]
def h5 : List (Event Arr Obj String Nat) := [.decorate (fn 0) (plain 0) (some .none),
  .call 0 [bool true, ab 1 1, bool true, bool true] [],
  .call 0 [bool false, ab 1 1, bool true, bool true] [],
  .call 0 [bool true, ab 1 0, bool true, bool true] [],
  .call 0 [bool true, ab 1 1, bool true, int 2] [],
  .call 0 [bool true, ab 1 1, int 5, bool true] []]
def h6 := h5 ++ [.call 0 [bool true, ab 1 1, bool true, bool true] []]
def h7 := h6 ++ [.call 0 [bool true, ab 2 1, bool true, bool true] []]
example : (session h5).2 = 5 ∧ (session h6).2 = 5 ∧ (session h7).2 = 6 := by decide +kernel

/-- `test_methods`, `outer=False`: the decorated function gets the instance as its first argument. -/
def y : X := arr [] 1
def inner (ms : List X) : List (Event Arr Obj String Nat) :=
  .decorate (fn 2) (plain 2) (some .none) :: ms.map fun m => .call 0 [m, y] []
example : session (inner [mod (int 1), mod (int 1)]) = ([.ok (arr [] 2), .ok (arr [] 2)], 1) := by decide +kernel
example : (session (inner [mod (int 1), mod (int 1), mod (int 2), mod (int 2)])).2 = 2 := by decide +kernel
example : session (inner [mod (int 1), mod (int 1), mod (int 2), mod (int 2), mod (arr [] 1), mod (arr [] 2)])
    = ([.ok (arr [] 2), .ok (arr [] 2), .ok (arr [] 3), .ok (arr [] 3), .ok (arr [] 2), .ok (arr [] 3)], 3) := by decide +kernel

/-- `test_methods`, `outer=True`: every call makes a new `filter_jit` of a module. -/
def outerAux : Nat → List X → List (Event Arr Obj String Nat)
  | _, [] => []
  | i, m :: ms => .decorate m other (some .none) :: .call i [y] [] :: outerAux (i + 1) ms
example : session (outerAux 0 [mod (int 1), mod (int 1)]) = ([.ok (arr [] 2), .ok (arr [] 2)], 1) := by decide +kernel
example : (session (outerAux 0 [mod (int 1), mod (int 1), mod (int 2), mod (int 2)])).2 = 2 := by decide +kernel
example : session (outerAux 0 [mod (int 1), mod (int 1), mod (int 2), mod (int 2), mod (arr [] 1), mod (arr [] 2)])
    = ([.ok (arr [] 2), .ok (arr [] 2), .ok (arr [] 3), .ok (arr [] 3), .ok (arr [] 2), .ok (arr [] 3)], 3) := by decide +kernel

/-- `test_args_kwargs` -/
def ak : List (Event Arr Obj String Nat) := [.decorate (fn 3) (plain 3) (some .none), .call 0 [] [("x", arr [] 2)],
  .call 0 [] [("x", arr [] 3)]]
example : session ak = ([.ok (arr [] 2), .ok (arr [] 3)], 1) := by decide +kernel
example : session (ak ++ [.call 0 [] [("x", arr [] 3), ("y", arr [] 4)]])
    = ([.ok (arr [] 2), .ok (arr [] 3), .ok (arr [] 3)], 2) := by decide +kernel
example : (session [.decorate (fn 4) (plain 4) (some .none), .call 0 [int 1, int 2] []]).1 = [.ok (int 1)] := by decide +kernel

/-- What the `i`-th wrapper donates. -/
def donates (h : List (Event Arr Obj String Nat)) (i : Nat) (args : List X) : Except Err (List Arr) :=
  match (run w h).wrappers[i]? with
  | some wr => donated w wr args []
  | Option.none => .error .indexError

/-- `test_buffer_donation_function` -/
example : donates [.decorate (fn 1) (plain 1) (some .all)] 0 [arr [] 0] = .ok [([], 0)] := by decide +kernel
/-- `test_buffer_donation_function_except_first`: `x` is kept, `y` is deleted -/
example : donates [.decorate (fn 5) (plain 5) (some .warnExceptFirst)] 0 [arr [] 0, arr [] 1] = .ok [([], 1)] := by decide +kernel
/-- `test_buffer_donation_instance`: the arrays of the callable itself -/
example : donates [.decorate (mod (arr [9] 0)) other (some .all)] 0 [y] = .ok [([], 1), ([9], 0)] := by decide +kernel
/-- and a second `filter_jit` of the updated instance does not trace again -/
example : (session [.decorate (mod (arr [] 0)) other (some .all), .call 0 [y] [], .decorate (mod (arr [] 1)) other (some .all),
    .call 1 [y] []]).2 = 1 := by decide +kernel

end Verif.Conform.Jit
