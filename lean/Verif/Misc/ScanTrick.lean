import Verif.Nontraceable.Model

/-!
# C86: `scan_trick` (`equinox/internal/_misc.py`, 49-58)

Outside of the repository: `lax.scan` runs the body once for every element of `xs`, in order, handing on the carry; `lax.switch` clamps its index
and applies that branch, and refuses an empty list of branches. The functions are pure and their exceptions are values; those JAX raises
when the type of the carry changes are not modelled. Tracing calls every branch, so that only the exceptions of those that run are considered.
-/

namespace Verif
namespace ScanTrick

open Nontraceable (Level bindNontraceable)

variable {X : Type}

/-! ### Model -/

/-- `lax.switch(index, branches, operand)` -/
def switch (branches : List (X → Except Err X)) (index : Int) (x : X) : Except Err X :=
  match branches[(min (max index 0) (branches.length - 1 : Int)).toNat]? with
  | some g => g x
  | none => .error .valueError

/-- `lax.scan(body, init, xs)`, without the stacked outputs. -/
def scan (body : X → Int → Except Err X) : X → List Int → Except Err X
  | c, [] => .ok c
  | c, s :: ss => do
    let c' ← body c s
    scan body c' ss

/-- `jnp.arange(n)` -/
def arange (n : Nat) : List Int := (List.range n).map Int.ofNat

/-- `nonbatchable(step)` (54): the levels of `step` as a tracer. `jnp.arange` is batched by no `vmap`. -/
def nonbatchable (levels : List Level) (step : Int) : Except Err Int := do
  let _ ← bindNontraceable (levels.filter fun | .vmap _ _ => true | .jvp _ => false)
  pure step

/-- `scan_trick`; `levels` are the transformations in force, as seen by `jnp.arange`. -/
def scanTrick (levels : List Level) (fn : X → Except Err X) (intermediates : List (X → Except Err X)) (init : X) : Except Err X :=
  let branches := intermediates ++ [fun x => .ok x]
  let body : X → Int → Except Err X := fun carry step => do
    let out ← fn carry
    let step ← nonbatchable levels step
    switch branches step out
  scan body init (arange branches.length)

/-! ### Specification -/

/-- `fn`, the first intermediate, `fn`, the second intermediate, and so on, and `fn` at the end. -/
def interleave (fn : X → Except Err X) : List (X → Except Err X) → X → Except Err X
  | [], x => fn x
  | g :: gs, x => fn x >>= g >>= interleave fn gs

/-- `jax.vmap` does not batch the value; it may be differentiated. -/
def Unbatched (levels : List Level) : Prop := ∀ n, Level.vmap n true ∉ levels

/-! ### Theorems -/

theorem nonbatchable_ok {levels : List Level} (h : Unbatched levels) (s : Int) : nonbatchable levels s = .ok s := by
  have : ∀ ls : List Level, Unbatched ls → bindNontraceable (ls.filter fun | .vmap _ _ => true | .jvp _ => false) = .ok () := by
    intro ls
    induction ls with
    | nil => intro _; rfl
    | cons l ls ih =>
      intro hl
      have hls := ih fun n hn => hl n (by simp [hn])
      cases l with
      | jvp b => simpa [bindNontraceable] using hls
      | vmap n b =>
        cases b with
        | true => exact absurd (by simp) (hl n)
        | false => simpa [bindNontraceable] using hls
  simp [nonbatchable, this levels h, bind, Except.bind, pure, Except.pure]

theorem switch_at (pre post : List (X → Except Err X)) (g : X → Except Err X) (x : X) :
    switch (pre ++ g :: post) (Int.ofNat pre.length) x = g x := by
  have : (min (max (Int.ofNat pre.length) 0) ((pre ++ g :: post).length - 1 : Int)).toNat = pre.length := by
    simp only [List.length_append, List.length_cons, Int.ofNat_eq_natCast]
    omega
  simp only [switch]
  rw [this]
  simp

/-- **C86**: `scan_trick` runs `fn` and the intermediates in turn. -/
theorem scan_trick_interleaves (levels : List Level) (h : Unbatched levels) (fn : X → Except Err X)
    (intermediates : List (X → Except Err X)) (init : X) :
    scanTrick levels fn intermediates init = interleave fn intermediates init := by
  have key : ∀ (gs pre : List (X → Except Err X)) (x : X),
      scan (fun carry step => do
        let out ← fn carry
        let step ← nonbatchable levels step
        switch (pre ++ gs ++ [fun x => .ok x]) step out) x ((List.range' pre.length (gs.length + 1)).map Int.ofNat) =
      interleave fn gs x := by
    intro gs
    induction gs with
    | nil =>
      intro pre x
      simp only [List.length_nil, Nat.zero_add, List.range'_one, List.map_cons, List.map_nil, List.append_nil, scan, bind, Except.bind,
        nonbatchable_ok h, interleave]
      cases fn x with
      | error e => rfl
      | ok y => simp only; rw [switch_at pre [] _ y]
    | cons g gs ih =>
      intro pre x
      have := ih (pre ++ [g])
      simp only [List.length_append, List.length_cons, List.length_nil, Nat.zero_add, List.append_assoc, List.cons_append,
        List.nil_append] at this
      rw [List.length_cons, List.range'_succ, List.map_cons]
      simp only [scan, bind, Except.bind, nonbatchable_ok h, interleave]
      cases fn x with
      | error e => rfl
      | ok y =>
        simp only
        rw [show pre ++ (g :: gs) ++ [fun x => .ok x] = pre ++ g :: (gs ++ [fun x => .ok x]) by simp, switch_at]
        cases g y with
        | error e => rfl
        | ok z =>
          simp only
          rw [← this z]
          simp only [bind, Except.bind, nonbatchable_ok h]
  have := key intermediates [] init
  simp only [List.nil_append, List.length_nil] at this
  simp only [scanTrick, arange, List.length_append, List.length_cons, List.length_nil, Nat.zero_add, List.range_eq_range']
  exact this

/-- Without exceptions: `fn` is applied once more than there are intermediates. -/
theorem scan_trick_pure (levels : List Level) (h : Unbatched levels) (f : X → X) (gs : List (X → X)) (init : X) :
    scanTrick levels (fun x => .ok (f x)) (gs.map fun g x => .ok (g x)) init = .ok (f (gs.foldl (fun x g => g (f x)) init)) := by
  rw [scan_trick_interleaves levels h]
  induction gs generalizing init with
  | nil => rfl
  | cons g gs ih =>
    simp only [List.map_cons, interleave, bind, Except.bind, List.foldl_cons]
    exact ih (g (f init))

example : scanTrick [.vmap 3 false, .jvp true] (fun x : Nat => .ok (x * 2)) [fun x => .ok (x + 1), fun x => .ok (x + 5)] 1 = .ok 22 :=
  scan_trick_pure _ (by simp [Unbatched]) (fun x => x * 2) [fun x => x + 1, fun x => x + 5] 1

end ScanTrick
end Verif
