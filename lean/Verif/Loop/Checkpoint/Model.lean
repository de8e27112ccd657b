import Verif.Loop.While

/-!
# `equinox/internal/_loop/checkpointed.py`

The forward pass with its online checkpointing schedule and the backward pass ("treeverse").

Conventions and simplifications:

* An array with `c` entries is a function `Nat → α` of which only the entries below `c` mean
  anything; every access goes through `clamp c`, because `lax.dynamic_index_in_dim` and
  `lax.dynamic_update_index_in_dim` clamp their index.
* Integers are unbounded. `M` is the largest value of the integer dtype, `jnp.iinfo(dtype).max`; the
  theorems assume fewer than `M` steps.
* `nonbatchable` is the identity (it only raises when its argument is batched).
* `W` is the type of loop values and `V` of loop values without their buffers, which are what gets
  checkpointed. `strip : W → V` is `tree_at(buffers(None), val, replace_fn=lambda _: None)` and
  `refill : V → W` is `tree_at(buffers(_is_none), val, filled_buffers, is_leaf=_is_none)`, which puts in
  the contents the buffers have at the end of the forward pass. Without buffers both are the identity.
* `C` is the type of cotangents of loop values and `B` of cotangents of whatever the body closes
  over. `vjp w : C → B × C` is the function `jax.vjp` returns for the body at `w` (lines 828-838).
* Which leaves take part in differentiation (the perturbation and symbolic-zero fixed points, lines
  986-1125) is not part of this file.
-/

namespace Verif
namespace Checkpoint

variable {W V C B : Type}

/-- Clamping of an index into an array with `c` entries. -/
def clamp (c : Nat) (i : Int) : Nat := (min (max i 0) ((c : Int) - 1)).toNat

/-- `_scalar_index(i, xs)` (lines 274-281). -/
def read (c : Nat) (xs : Nat → α) (i : Int) : α := xs (clamp c i)

/-- `lax.dynamic_update_index_in_dim(xs, x, i, axis=0)`. -/
def write (c : Nat) (xs : Nat → α) (x : α) (i : Int) : Nat → α :=
  fun j => if j = clamp c i then x else xs j

/-- `_maybe_update` (lines 459-462 and 586-589): writes `x` if `save` holds, otherwise writes back
what is there already. -/
def maybeUpdate (c : Nat) (save : Bool) (i : Int) (xs : Nat → α) (x : α) : Nat → α :=
  write c xs (if save then x else read c xs i) i

/-- `xs.argmax()`: the first index of a largest entry among the first `c`. -/
def argmax (f : Nat → Int) : Nat → Nat
  | 0 => 0
  | n + 1 => if f (argmax f n) < f n then n else argmax f n

/-- `jnp.argsort(steps)`. -/
def argsort (c : Nat) (steps : Nat → Int) : List Nat :=
  (List.range c).mergeSort (fun a b => decide (steps a ≤ steps b))

/-- State `(i, o, p, s)` of the Stumm-Walther schedule. -/
structure SW where
  i : Int
  o : Int
  p : Int
  s : Bool

/-- State `(levels, dispensable)` of the Wang-Moin schedule. -/
structure WM where
  levels : Nat → Int
  disp : Nat → Bool

/-- `_stumm_walther_i` (lines 289-319). Returns `(save_residual, index, state)`. -/
def stummWalther (step : Int) (st : SW) : Bool × Int × SW :=
  let index := st.i
  let saveResidual := st.s
  let i := if st.s then st.i + 1 else st.i
  let i := if st.s && decide (i > st.o) then 1 else i
  let s := if step + 1 = st.p then false else st.s
  let pred := decide (step = st.p)
  let p := if pred then st.p + st.o else st.p
  let o := if pred then st.o - 1 else st.o
  let i := if pred then o else i
  let s := if pred then decide (o > 0) else s
  (saveResidual, index, ⟨i, o, p, s⟩)

/-- The internal error of `_stumm_walther_i` (lines 311-317), only checked under test. -/
def stummWaltherError (step : Int) (st : SW) : Bool :=
  decide (step = st.p) && decide ((stummWalther step st).2.2.o = -1)

/-- `_any_dispensable` (lines 322-328). Returns `(index, level, dispensable)`. -/
def anyDispensable (c : Nat) (disp : Nat → Bool) (rsteps : Nat → Int) : Nat × Int × (Nat → Bool) :=
  let index := argmax (fun j => if disp j then rsteps j else 0) c
  (index, 0, fun j => if j = index then false else disp j)

/-- `_none_dispensable` (lines 331-335). -/
def noneDispensable (c : Nat) (disp : Nat → Bool) (rsteps : Nat → Int) (levels : Nat → Int) :
    Nat × Int × (Nat → Bool) :=
  let index := argmax rsteps c
  (index, levels index + 1, fun j => if levels j < levels index then true else disp j)

/-- `_wang_moin` (lines 338-367). -/
def wangMoin (c : Nat) (st : WM) (rsteps : Nat → Int) : Bool × Int × WM :=
  if c = 1 then (false, 0, st)
  else
    let r := if (List.range c).any st.disp then anyDispensable c st.disp rsteps
      else noneDispensable c st.disp rsteps st.levels
    (decide (c > 1), (r.1 : Int), ⟨fun j => if j = r.1 then r.2.1 else st.levels j, r.2.2⟩)

/-- `_should_save_residual` (lines 385-419). -/
def shouldSave (c : Nat) (maxSteps : Option Nat) (u2m1 : Int) (step : Int) (sw : SW) (wm : WM)
    (rsteps : Nat → Int) : Bool × Int × SW × WM :=
  if maxSteps = some c then (true, step, sw, wm)
  else
    let pred := match maxSteps with
      | some m => if (m : Int) ≤ u2m1 then false else decide (step ≥ u2m1)
      | none => decide (step ≥ u2m1)
    if pred then
      let r := wangMoin c wm rsteps
      (r.1, r.2.1, sw, r.2.2)
    else
      let r := stummWalther step sw
      (r.1, r.2.1, r.2.2, wm)

/-- The carry of the forward loop (lines 494-505). -/
structure Fwd (W V : Type) where
  step : Int
  sw : SW
  wm : WM
  val : W
  rsteps : Nat → Int
  resid : Nat → V

/-- `u2_minus_1` (line 443). -/
def u2m1 (c : Nat) : Int := (((c : Int) + 1) * (c + 2)) / 2 - 1

/-- `_body_fun` of the forward loop (lines 449-471). -/
def fwdBody (body : W → W) (strip : W → V) (c : Nat) (maxSteps : Option Nat) (s : Fwd W V) : Fwd W V :=
  let r := shouldSave c maxSteps (u2m1 c) s.step s.sw s.wm s.rsteps
  { step := s.step + 1
    sw := r.2.2.1
    wm := r.2.2.2
    val := body s.val
    rsteps := maybeUpdate c r.1 r.2.1 s.rsteps s.step
    resid := maybeUpdate c r.1 r.2.1 s.resid (strip s.val) }

/-- The initial carry of the forward loop (lines 473-500). `fill` is the irrelevant fill value. -/
def fwdInit (M : Int) (c : Nat) (fill : V) (init : W) : Fwd W V :=
  { step := 0
    sw := ⟨0, c, c, true⟩
    wm := ⟨fun j => if j = 0 then M else 0, fun _ => false⟩
    val := init
    rsteps := fun _ => M
    resid := fun _ => fill }

/-- `_cond_fun` of the forward loop (lines 445-447). -/
def fwdCond (cond : W → Bool) (s : Fwd W V) : Bool := cond s.val

/-- What the forward pass hands to the backward pass (line 525), after sorting (lines 512-524). -/
structure Saved (V : Type) where
  numSteps : Int
  rsteps : Nat → Int
  resid : Nat → V

/-- Lines 509-525. -/
def fwdFinish (c : Nat) (maxSteps : Option Nat) (s : Fwd W V) : Saved V :=
  if maxSteps = some c then ⟨s.step, s.rsteps, s.resid⟩
  else
    let idx := argsort c s.rsteps
    ⟨s.step, fun j => s.rsteps (idx.getD j 0), fun j => s.resid (idx.getD j 0)⟩

/-- `_calc_next_checkpoint` (lines 606-650). -/
def calcNext (M : Int) (c : Nat) (stepVal stepGrad index : Int) : Int :=
  let binomial := stepVal + (stepGrad - stepVal) / 2
  let linear := stepVal + 1
  let out := if stepGrad - stepVal - 2 ≤ (c : Int) - index then linear else binomial
  if index = c ∨ stepVal + 1 = stepGrad ∨ stepVal + 2 = stepGrad then M else out

/-- `_load_from_checkpoint` (lines 528-561). Returns `(step_val, val, index)`. -/
def loadCkpt (c : Nat) (maxSteps : Option Nat) (stepGrad index : Int) (rsteps : Nat → Int) (resid : Nat → V) :
    Int × V × Int :=
  let readIndex := max (index - 1) 0
  let stepVal2 := read c rsteps readIndex
  let val2 := read c resid readIndex
  let pred := if maxSteps = some c then true else decide (stepVal2 + 1 = stepGrad)
  (stepVal2, val2, if pred then readIndex else index)

/-- The carry of the backward loop (lines 1127-1137). -/
structure Bwd (V C B : Type) where
  stepVal : Int
  stepGrad : Int
  stepNext : Int
  index : Int
  val : V
  gradVal : C
  gradBody : B
  rsteps : Nat → Int
  resid : Nat → V

/-- `_maybe_save_to_checkpoint` (lines 564-603). -/
def maybeSave (M : Int) (c : Nat) (s : Bwd V C B) : Bwd V C B :=
  let save := decide (s.stepVal = s.stepNext)
  let index2 := if save then s.index + 1 else s.index
  { s with
    rsteps := maybeUpdate c save s.index s.rsteps s.stepVal
    resid := maybeUpdate c save s.index s.resid s.val
    index := index2
    stepNext := if save then calcNext M c s.stepVal s.stepGrad index2 else s.stepNext }

/-- `_fwd` (lines 686-705), where `val_candidate` is the body applied to the value with
its buffers filled in, and stripped again (lines 823-838). -/
def bwdFwd (body : W → W) (strip : W → V) (refill : V → W) (s : Bwd V C B) : Bwd V C B :=
  { s with stepVal := s.stepVal + 1, val := strip (body (refill s.val)) }

/-- `_u_turn` (lines 712-743). -/
def uTurn (vjp : W → C → B × C) (refill : V → W) (add : B → B → B) (M : Int) (c : Nat) (maxSteps : Option Nat)
    (s : Bwd V C B) : Bwd V C B :=
  let r := vjp (refill s.val) s.gradVal
  let stepGrad2 := s.stepGrad - 1
  let l := loadCkpt c maxSteps stepGrad2 s.index s.rsteps s.resid
  { s with
    stepVal := l.1
    stepGrad := stepGrad2
    stepNext := calcNext M c l.1 stepGrad2 l.2.2
    index := l.2.2
    val := l.2.1
    gradVal := r.2
    gradBody := add s.gradBody r.1 }

/-- `perform_u_turn` (lines 840-846). -/
def performUTurn (c : Nat) (maxSteps : Option Nat) (s : Bwd V C B) : Bool :=
  if maxSteps = some c then true else decide (s.stepVal + 1 = s.stepGrad)

/-- `_body_fun` of the backward loop (lines 783-909). -/
def bwdBody (body : W → W) (vjp : W → C → B × C) (strip : W → V) (refill : V → W) (add : B → B → B)
    (M : Int) (c : Nat) (maxSteps : Option Nat) (s : Bwd V C B) : Bwd V C B :=
  let s2 := if performUTurn c maxSteps s then uTurn vjp refill add M c maxSteps s
    else bwdFwd body strip refill s
  if maxSteps = some c then s2 else maybeSave M c s2

/-- `_cond_fun` of the backward loop (lines 776-781). -/
def bwdCond (s : Bwd V C B) : Bool := decide (s.stepGrad > 0)

/-- The initial carry of the backward loop (lines 911-928 and 1127-1137). -/
def bwdInit (M : Int) (c : Nat) (maxSteps : Option Nat) (sv : Saved V) (gradFinal : C) (gradBody : B) :
    Bwd V C B :=
  let l := loadCkpt c maxSteps sv.numSteps (min sv.numSteps c) sv.rsteps sv.resid
  { stepVal := l.1
    stepGrad := sv.numSteps
    stepNext := calcNext M c l.1 sv.numSteps l.2.2
    index := l.2.2
    val := l.2.1
    gradVal := gradFinal
    gradBody := gradBody
    rsteps := sv.rsteps
    resid := sv.resid }

end Checkpoint
end Verif
