import Verif.Noinline.Model

/-!
# Abstract evaluation of noinlined functions, and what compiled calls return (`equinox/internal/_noinline.py`)

A compiled call of a noinlined function returns what abstract evaluation announced (57-71, 200-210), with the arrays that come
out of the callback (103-126) in the place of the abstract ones.

Trees of abstract values are values in the sense of the model of `filter_jit` whose arrays are abstract values. What
`abstract_fn` does under `filter_eval_shape` and what the transforms do there are parameters, as the transforms are in
`Noinline/Model`. The `jax.core.ShapedArray`s inside `_MetaTransposeTransform` (166) count as objects here. Left out:
`_only_shapedarrays` (45-54), as there are no other abstract values.

What JAX does with the outputs of a callback: they are compared in number, shape and dtype with the announced arrays, and every
failure in a callback is a `RuntimeError` for the caller (as in the model of `filter_pure_callback`). What comes out of `jax.jit`:
an array stays an array, a Python number becomes one, any other object is a `TypeError`.
-/

namespace Verif
namespace Noinline
namespace Output

open PT Jit

variable {V A O C Q R : Type}

/-- What Python and JAX do. -/
structure Env (V A O C : Type) where
  /-- an abstract value without its weak type: `(x.shape, x.dtype)` -/
  strong : A → A
  /-- `_abstract_transform(abstract_fn)` (141-146) under `filter_eval_shape` -/
  afn : Val A O C → Fn A O C
  /-- the transforms of functions of abstract values -/
  atr : Transforms A O C
  /-- the array that `jax.jit` makes of a number -/
  number : O → Option V

/-- The abstract value of an array without its weak type (207); objects are kept. -/
def shapedLeaf (w : World V A O C Q R) (E : Env V A O C) : Leaf V O → Leaf A O
  | .arr v => .arr (E.strong (w.aval v))
  | .obj o => .obj o

/-- Arguments of the primitive as the abstract rule takes them. -/
def shaped (w : World V A O C Q R) (E : Env V A O C) (t : Val V O C) : Val A O C := t.map (shapedLeaf w E)

/-- `_to_shapedarray` (38-42) -/
def toShaped (E : Env V A O C) : Leaf A O → Leaf A O
  | .arr a => .arr (E.strong a)
  | .obj o => .obj o

/-- `(abstract_fn, transforms, args)` (204) -/
def packAbs (f : Val V O C) (ts : List (Val V O C)) (args : Val V O C) : Val V O C := .node .tuple [f, .node .tuple ts, args]

/-- Unpacking of it (62-66). -/
def unpackAbs : Val V O C → Except Err (Val V O C × List (Val V O C) × Val V O C)
  | .node .tuple [f, .node .tuple ts, args] => .ok (f, ts, args)
  | _ => .error .typeError

/-- The key of the cache (207). -/
abbrev AKey (A Q R : Type) := Dyn A × SKey Q R

/-- The cache of `_cache_filter_eval_shape` (57), the most recently used entry first; and how often its body has run. -/
structure ASt (A O C Q R : Type) where
  cache : List (AKey A Q R × Val A O C)
  evals : Nat

def ASt.empty : ASt A O C Q R := ⟨[], 0⟩

/-- The body of `_cache_filter_eval_shape` (59-71). -/
def evalShape (E : Env V A O C) (d : Dyn A) (s : Static O C) : Except Err (Val A O C) := do
  let t ← hashableCombine d s
  let r ← unpackAbs t
  applyAll E.atr r.2.1 (E.afn r.1) r.2.2

/-- `functools.lru_cache(maxsize=128)` around it (57). -/
def cached [DecidableEq A] [DecidableEq Q] [DecidableEq R] (E : Env V A O C) (st : ASt A O C Q R) (k : AKey A Q R) (d : Dyn A)
    (s : Static O C) : Except Err (Val A O C) × ASt A O C Q R :=
  match st.cache.find? (fun e => decide (e.1 = k)) with
  | some e => (.ok e.2, { st with cache := (k, e.2) :: st.cache.filter (fun e => decide (e.1 ≠ k)) })
  | Option.none =>
    match evalShape E d s with
    | .ok out => (.ok out, ⟨((k, out) :: st.cache).take 128, st.evals + 1⟩)
    | .error e => (.error e, { st with evals := st.evals + 1 })

/-- `_noinline_abstract` (200-210). -/
def abstractEval [DecidableEq A] [DecidableEq Q] [DecidableEq R] (w : World V A O C Q R) (E : Env V A O C)
    (st : ASt A O C Q R) (f : Val V O C) (ts : List (Val V O C)) (args : Val V O C) :
    Except Err (Val A O C) × ASt A O C Q R :=
  let p := hashablePartition (shaped w E (packAbs f ts args))
  if !p.2.hashable w then (.error .typeError, st)
  else
    let r := cached E st (p.1, staticKey w p.2) p.1 p.2
    (r.1.map fun out => out.map (toShaped E), r.2)

/-- What can happen to the cache. -/
inductive AEvent (V O C : Type)
  | eval (f : Val V O C) (ts : List (Val V O C)) (args : Val V O C)
  /-- `clear_caches` (74) -/
  | clear

/-- One event. -/
def astep [DecidableEq A] [DecidableEq Q] [DecidableEq R] (w : World V A O C Q R) (E : Env V A O C) (st : ASt A O C Q R) :
    AEvent V O C → ASt A O C Q R
  | .eval f ts args => (abstractEval w E st f ts args).2
  | .clear => { st with cache := [] }

/-- The state after a history. -/
def arun [DecidableEq A] [DecidableEq Q] [DecidableEq R] (w : World V A O C Q R) (E : Env V A O C) (h : List (AEvent V O C)) :
    ASt A O C Q R := h.foldl (astep w E) ASt.empty

/-! ## What comes out of a compiled call -/

/-- A leaf of the output of the jitted `callback` (120). -/
def jitOut (E : Env V A O C) : Leaf V O → Except Err V
  | .arr v => .ok v
  | .obj o => match E.number o with
    | some v => .ok v
    | Option.none => .error .typeError

/-- The announced output with the arrays out of the callback, as `filter_primitive_bind` returns it. -/
def fillOut (D : Val A O C) (vs : List V) : Except Err (Val V O C) := do
  let flat ← refill (hashablePartition D).2.leaves vs
  treeUnflatten (hashablePartition D).2.treedef flat

/-- What a compiled call returns, given the announced output and what `callback` computes before it is flattened. -/
def finish [DecidableEq A] (w : World V A O C Q R) (E : Env V A O C) (D : Val A O C) : Except Err (Val V O C) → Except Err (Val V O C)
  | .error _ => .error .runtimeError
  | .ok out =>
    match mapE (jitOut E) out.leaves with
    | .error _ => .error .runtimeError
    | .ok vs =>
      if vs.map (fun v => E.strong (w.aval v)) = (hashablePartition D).1.filterMap id then fillOut D vs
      else .error .runtimeError

/-- Running program `p`, for which the output `D` was announced. -/
def compiledCall [DecidableEq A] [DecidableEq Q] [DecidableEq R] (w : World V A O C Q R) (E : Env V A O C) (tr : Transforms V O C)
    (st : St V A O C Q R) (D : Val A O C) (p i : Nat) (vs : List V) : Except Err (Val V O C) × St V A O C Q R :=
  let r := runProgram w tr st p i vs
  (finish w E D r.1, r.2)

end Output
end Noinline
end Verif
