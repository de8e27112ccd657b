import Verif.Basic
import Verif.Loop.While
import Verif.Loop.Checkpoint.Entry

/-!
# Loops: buffers, vmap and `max_steps`
(`equinox/internal/_loop/common.py`, `bounded.py` and `while_loop` of `loop.py`)

A loop may run under any number of nested `jax.vmap`s. There are `B` lanes altogether (`B = 1` without `vmap`), and
every value is given for each lane; a value that is not batched has the same value on all lanes.

The loop state consists of leaves that are not buffers (`σ`), and of buffers. All buffers together are one array of
elements `V` at positions `P`: a position says which buffer and which index. An index such as a slice stands for several
positions, so that a write is a partial function from positions to new values.

Not modelled: dtypes and shapes and the errors about them, `tree_at` finding the buffers (see `Verif.TreeAt`),
derivatives (for the checkpointed loop see `Verif.Loop.Checkpoint`).
-/

namespace Verif
namespace Common

variable {B : Nat} {σ P V α : Type}

/-- `_select_if_vmap` (common.py lines 123-137, with the rules in lines 23-32 and 80-105): `pred` is only looked at if it
is batched, or if there can be steps with a false predicate. -/
def selectIfVmap (makesFalseSteps batched : Bool) (pred : Bool) (x y : α) : α :=
  if makesFalseSteps then (if pred then x else y)
  else if batched then (if pred then x else y)
  else x

/-- `xs.at[i].set(x)`. -/
def setAt (xs : P → V) (w : P → Option V) : P → V := fun p => (w p).getD (xs p)

/-- `_maybe_set` (lines 140-145, 231-258). -/
def maybeSet (makesFalseSteps batched : Bool) (pred : Bool) (xs : P → V) (w : P → Option V) : P → V :=
  setAt xs (fun p => (w p).map (fun x => selectIfVmap makesFalseSteps batched pred x (xs p)))

/-- An array or a `_Buffer` (lines 284-323) around one, as it is on one lane. `batched` says whether `_pred` is. The tag is left out. -/
inductive Buffer (P V : Type) where
  | arr (xs : P → V)
  | wrap (array : Buffer P V) (pred : Bool) (batched : Bool) (makesFalseSteps : Bool)

namespace Buffer

/-- `__getitem__` (lines 291-292). -/
def get : Buffer P V → P → V
  | .arr xs, p => xs p
  | .wrap b _ _ _, p => b.get p

/-- `_op` (lines 294-307). -/
def op (pred : Bool) (batched : Bool) (w : P → Option V) (makesFalseSteps : Bool) : Buffer P V → Buffer P V
  | .arr xs => .arr (maybeSet makesFalseSteps batched pred xs w)
  | .wrap b p bt m => .wrap (b.op (pred && p) (batched || bt) w makesFalseSteps) p bt m

/-- `buffer_at_set(buffer, i, x, pred=pred)` (lines 349-361), which for a `_Buffer` is `buffer.at[i].set(x, pred=pred)`
(lines 326-346). `pred = none` is Python's `True`; otherwise it comes with whether it is batched. -/
def set (b : Buffer P V) (w : P → Option V) (pred : Option (Bool × Bool)) : Buffer P V :=
  match b with
  | .wrap _ _ _ m =>
    match pred with
    | none => b.op true false w m
    | some (p, bt) => b.op p bt w true
  | .arr xs =>
    match pred with
    | none => .arr (setAt xs w)
    | some (p, _) => .arr (setAt xs (fun q => (w q).map (fun x => if p then x else xs q)))

/-- `_wrap_buffers` (lines 418-427): it is the innermost array that is wrapped. -/
def wrapInner (pred batched makesFalseSteps : Bool) : Buffer P V → Buffer P V
  | .arr xs => .wrap (.arr xs) pred batched makesFalseSteps
  | .wrap b p bt m => .wrap (b.wrapInner pred batched makesFalseSteps) p bt m

/-- `unwrap_and_select` on buffers (lines 460-466): the innermost wrapper is removed again. -/
def unwrapInner : Buffer P V → Buffer P V
  | .arr xs => .arr xs
  | .wrap (.arr xs) _ _ _ => .arr xs
  | .wrap (.wrap b p bt m) p' bt' m' => .wrap (unwrapInner (.wrap b p bt m)) p' bt' m'

end Buffer

/-- What a user's body does on one lane: it computes with reads of and writes to the buffers. -/
inductive Prog (P V α : Type) where
  | ret (a : α)
  | read (p : P) (k : V → Prog P V α)
  | write (w : P → Option V) (pred : Option (Bool × Bool)) (k : Prog P V α)

/-- Running a body on buffers. -/
def Prog.run : Prog P V α → Buffer P V → α × Buffer P V
  | .ret a, b => (a, b)
  | .read p k, b => (k (b.get p)).run b
  | .write w pred k, b => k.run (b.set w pred)

/-- The loop state on one lane. -/
structure Lane (σ P V : Type) where
  val : σ
  buf : Buffer P V

/-- The arguments of `common_rewrite` (line 381). `cond` only reads; both functions may depend on the lane, as they may
close over batched values. The body maps all lanes at once, so that it may contain another loop.
`batched` says whether the result of `cond_fun` is batched, and hence `pred`. -/
structure Loop (B : Nat) (σ P V : Type) where
  cond : Fin B → σ → (P → V) → Bool
  body : (Fin B → Lane σ P V) → Fin B → Lane σ P V
  maxSteps : Option Nat
  batched : Bool
  makesFalseSteps : Bool

/-- A body that does not contain a loop: the same on each lane. -/
def progBody (f : Fin B → σ → Prog P V σ) (ls : Fin B → Lane σ P V) (i : Fin B) : Lane σ P V :=
  let r := (f i (ls i).val).run (ls i).buf
  { val := r.1, buf := r.2 }

/-- The state of the rewritten loop: `(step, pred, prev_pred, val)`. -/
structure Carry (B : Nat) (σ P V : Type) where
  step : Nat
  pred : Fin B → Bool
  prev : Fin B → Bool
  lane : Fin B → Lane σ P V

namespace Loop

/-- `unvmap_any` (`_unvmap.py`): the disjunction over all lanes. -/
def unvmapAny (p : Fin B → Bool) : Bool := (List.finRange B).any p

/-- `new_cond_fun` (lines 429-451). -/
def newCond (L : Loop B σ P V) (c : Carry B σ P V) : Bool :=
  let out := unvmapAny (fun i =>
    L.cond i (c.lane i).val ((c.lane i).buf.wrapInner (c.prev i) L.batched L.makesFalseSteps).get)
  match L.maxSteps with
  | some m => out && decide (c.step < m)
  | none => out

/-- `new_body_fun` (lines 453-506). -/
def newBody (L : Loop B σ P V) (c : Carry B σ P V) : Carry B σ P V :=
  let buffer_val : Fin B → Lane σ P V := fun i =>
    { val := (c.lane i).val, buf := (c.lane i).buf.wrapInner (c.pred i) L.batched L.makesFalseSteps }
  let buffer_val2 := L.body buffer_val
  { step := c.step + 1
    pred := fun i => c.pred i && L.cond i (buffer_val2 i).val (buffer_val2 i).buf.get
    prev := c.pred
    lane := fun i =>
      { val := selectIfVmap L.makesFalseSteps L.batched (c.pred i) (buffer_val2 i).val (c.lane i).val
        buf := (buffer_val2 i).buf.unwrapInner } }

/-- The initial state (lines 508-511). -/
def newInit (L : Loop B σ P V) (init : Fin B → Lane σ P V) : Carry B σ P V :=
  { step := 0
    pred := fun i => L.cond i (init i).val ((init i).buf.wrapInner true false L.makesFalseSteps).get
    prev := fun _ => true
    lane := init }

end Loop

/-! ### `bounded_while_loop` -/

/-- `lax.scan(scan_fn, val, xs=None, length=n)`, where the function may lack fuel. -/
def scanN {τ : Type} (f : τ → Option τ) : Nat → τ → Option τ
  | 0, v => some v
  | n + 1, v =>
    match f v with
    | some v' => scanN f n v'
    | none => none

/-- `_while_loop` (bounded.py lines 63-78). `fuel` bounds the depth of the recursion, and `none` says that it did not
suffice. -/
def boundedRec {τ : Type} (cond : τ → Bool) (body : τ → τ) (base : Nat) : Nat → Nat → τ → Option τ
  | 0, _, _ => none
  | fuel + 1, maxSteps, v =>
    if maxSteps = 1 then some (body v)
    else scanN (fun v => if cond v then boundedRec cond body base fuel (maxSteps / base) v else some v) base v

/-- `bounded_while_loop` (lines 18-60). `ceilLog` is `int(math.ceil(math.log(max_steps, base)))` in floating point. -/
def boundedWhile (L : Loop B σ P V) (maxSteps base ceilLog : Nat) (init : Fin B → Lane σ P V) :
    Option (Fin B → Lane σ P V) :=
  if maxSteps = 0 then some init
  else
    let L' := { L with maxSteps := some maxSteps, makesFalseSteps := true }
    let rounded := base ^ ceilLog
    (boundedRec L'.newCond L'.newBody base rounded rounded (L'.newInit init)).map (·.lane)

/-! ### `while_loop` -/

/-- The loop as run by `lax.while_loop`, ends after `n` iterations with the lanes `out`. -/
def LaxRuns (L : Loop B σ P V) (init : Fin B → Lane σ P V) (n : Nat) (out : Fin B → Lane σ P V) : Prop :=
  ∃ c, WhileRuns L.newCond L.newBody n (L.newInit init) c ∧ out = c.lane

/-- The kinds of loops, with their arguments. `other` is any other string. -/
inductive Kind where
  | lax
  | checkpointed (checkpoints : Option Int)
  | bounded (base : Nat) (ceilLog : Nat)
  | other

/-- `while_loop` (loop.py lines 22-128) with `max_steps` being `L.maxSteps`, not differentiated: which results it may have.
A loop that runs for ever has none. -/
inductive WhileLoop (L : Loop B σ P V) (init : Fin B → Lane σ P V) :
    Kind → Except Err (Fin B → Lane σ P V) → Prop where
  /-- lines 97-104 -/
  | lax {n out} : LaxRuns { L with makesFalseSteps := false } init n out → WhileLoop L init .lax (.ok out)
  /-- checkpointed.py lines 211-238 -/
  | checkpointedError {k e} : Checkpoint.resolve k L.maxSteps = .error e →
      WhileLoop L init (.checkpointed k) (.error e)
  | checkpointedInit {k} : Checkpoint.resolve k L.maxSteps = .ok .returnInit →
      WhileLoop L init (.checkpointed k) (.ok init)
  /-- checkpointed.py lines 241-271 -/
  | checkpointed {k c n out} : Checkpoint.resolve k L.maxSteps = .ok (.run c) →
      LaxRuns { L with makesFalseSteps := false } init n out → WhileLoop L init (.checkpointed k) (.ok out)
  /-- lines 117-118 -/
  | boundedNone {base l} : L.maxSteps = none → WhileLoop L init (.bounded base l) (.error .valueError)
  /-- lines 119-126 -/
  | bounded {base l m out} : L.maxSteps = some m → boundedWhile L m base l init = some out →
      WhileLoop L init (.bounded base l) (.ok out)
  /-- lines 127-128 -/
  | other : WhileLoop L init .other (.error .valueError)

end Common
end Verif
