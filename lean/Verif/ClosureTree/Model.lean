import Verif.PyTree.Lemmas

/-!
# `equinox/internal/_closure_to_pytree.py`

Python values are pytrees whose leaves may be functions. A function refers to its cells, which are addresses in a heap; a cell is empty before it has been assigned
to. Names, documentation and annotations do not matter when a function is called; code, globals and defaults do.
-/

namespace Verif
namespace ClosureTree

/-- A `types.FunctionType` without its closure. `source` is what `inspect.getsource` finds for it, if anything. -/
structure Fun where
  ident : Nat
  code : Nat
  globals : Nat
  defaults : Nat
  kwdefaults : Option Nat
  qualname : Nat
  modul : Nat
  source : Option Nat
deriving DecidableEq, Repr

/-- Python values: containers (`K`), objects (`B`) and functions; `plain` is a function without closure (`__closure__ is None`), `clo0` and `clo` are
instances of `_Closure` (68-88) with `contents` `None` or a tuple. -/
inductive Val (K B : Type) where
  | obj (b : B)
  | none
  | node (k : K) (cs : List (Val K B))
  | plain (f : Fun)
  | fn (f : Fun) (cells : List Nat)
  | clo0 (f : Fun)
  | clo (f : Fun) (contents : List (Val K B))

variable {K B : Type}

/-- The heap: what is in each cell. -/
abbrev Heap (K B : Type) := Nat → Option (Val K B)

mutual
/-- `jtu.tree_map(g, tree)` (134) for a `g` that changes functions only; the flattening of `_Closure` goes through `contents`, and its `fn` is a leaf that is not
a function. -/
def mapFn (g : Val K B → Except Err (Val K B)) : Val K B → Except Err (Val K B)
  | .obj b => .ok (.obj b)
  | .none => .ok .none
  | .node k cs => do
    let ws ← mapFnL g cs
    pure (.node k ws)
  | .plain f => g (.plain f)
  | .fn f cells => g (.fn f cells)
  | .clo0 f => .ok (.clo0 f)
  | .clo f cs => do
    let ws ← mapFnL g cs
    pure (.clo f ws)
def mapFnL (g : Val K B → Except Err (Val K B)) : List (Val K B) → Except Err (List (Val K B))
  | [] => .ok []
  | c :: cs => do
    let w ← mapFn g c
    let ws ← mapFnL g cs
    pure (w :: ws)
end

/-- `cell.cell_contents` (78), converted. -/
def cellContents (conv : Val K B → Except Err (Val K B)) (h : Heap K B) (a : Nat) : Except Err (Val K B) :=
  match h a with
  | some v => conv v
  | Option.none => .error .valueError

/-- `_fixup_closure` (91-95) and `_Closure.__init__` (72-80). -/
def fixup (conv : Val K B → Except Err (Val K B)) (h : Heap K B) : Val K B → Except Err (Val K B)
  | .plain f => .ok (.clo0 f)
  | .fn f cells => do
    let ws ← PT.mapE (cellContents conv h) cells
    pure (.clo f ws)
  | v => .ok v

/-- `closure_to_pytree` (98-134), with the number of nested calls that Python allows; a RecursionError is a RuntimeError. -/
def convert (h : Heap K B) : Nat → Val K B → Except Err (Val K B)
  | 0, _ => .error .runtimeError
  | n + 1, v => mapFn (fixup (convert h n) h) v

/-- `_adjust_function_closure` (25-39), without the closure: `types.FunctionType` makes a new object with the code, globals and defaults of the old one, and
keyword defaults are copied. -/
def adjust (fresh : Nat) (f : Fun) : Fun :=
  { ident := fresh, code := f.code, globals := f.globals, defaults := f.defaults, kwdefaults := f.kwdefaults, qualname := f.qualname, modul := f.modul,
    source := f.source }

/-- `_FunctionWithEquality.information` (50-59) -/
inductive Info where
  | self (ident : Nat)
  | source (qualname modul source : Nat)
deriving DecidableEq

def information (f : Fun) : Info :=
  match f.source with
  | Option.none => .self f.ident
  | some s => .source f.qualname f.modul s

/-- Writing to cells one after another, at addresses from `a` on: `_make_cell` (20-22) for each (86). -/
def alloc (h : Heap K B) (a : Nat) : List (Val K B) → Heap K B
  | [] => h
  | v :: vs => alloc (fun b => if b = a then some v else h b) (a + 1) vs

/-- `_Closure.__call__` (82-88) up to the call: the function that is called, and the heap with its new cells, at addresses from `a` on. -/
def rebuild (h : Heap K B) (a fresh : Nat) : Val K B → Option (Heap K B × Val K B)
  | .clo0 f => some (h, .plain (adjust fresh f))
  | .clo f cs => some (alloc h a cs, .fn (adjust fresh f) ((List.range cs.length).map (a + ·)))
  | _ => Option.none

/-- Leaves of a pytree. -/
inductive Leaf (B : Type) where
  | obj (b : B)
  /-- a function -/
  | fn (f : Fun)
  /-- a `_FunctionWithEquality` -/
  | wrapped (f : Fun)

/-- Containers: `_Closure` is a `Module`, and `contents` is a tuple. -/
inductive Con (K : Type) where
  | con (k : K)
  | closure
  | tuple

mutual
/-- A value as a pytree. -/
def toPT : Val K B → PT (Con K) (Leaf B)
  | .obj b => .leaf (.obj b)
  | .none => .none
  | .node k cs => .node (.con k) (toPTL cs)
  | .plain f => .leaf (.fn f)
  | .fn f _ => .leaf (.fn f)
  | .clo0 f => .node .closure [.leaf (.wrapped f), .none]
  | .clo f cs => .node .closure [.leaf (.wrapped f), .node .tuple (toPTL cs)]
def toPTL : List (Val K B) → List (PT (Con K) (Leaf B))
  | [] => []
  | c :: cs => toPT c :: toPTL cs
end

end ClosureTree
end Verif
