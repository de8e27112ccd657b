import Verif.Finalise.Model

/-!
# The primitives finalisation knows about (`equinox/internal/_finalise_jaxpr.py:183-220`)

`Verif.Finalise.Model` has an arbitrary table of rules. Here is the one of the library, with what the `impl` rules do when they are traced.

Simplified: `jnp.all`, `jnp.any`, `jnp.max`, `xs.at[i].get`, `xs.at[i].set` and `lax.select` are one equation each, and its parameters
are left out. What tracing a noinlined function gives is a parameter.
-/

namespace Verif.Finalise.Registry

variable {V S O : Type}

/-- Primitives: those of JAX (but for the two that have a rule), and all the ones that Equinox defines (`_unvmap.py:14,45,76`,
`debug/_announce_transform.py:127`, `internal/_nontraceable.py:32,56,140`, `internal/_noinline.py:334`, `internal/_loop/common.py:108,212`,
`internal/_primitive.py:468`). -/
inductive Prim (S : Type) where
  | std (s : S)
  | customJvp
  | stopGradient
  | unvmapAll
  | unvmapAny
  | unvmapMax
  | nondifferentiableBackward
  | announceJaxpr
  | selectIfVmap
  | maybeSet
  | noinline
  | nontraceable
  | nonbatchable
  | vprim

/-- What is used of JAX, and the trace of the function of a `noinline` for the given parameters and number of arguments. -/
structure Jax (V S O : Type) where
  reduceAnd : S
  reduceOr : S
  reduceMax : S
  gather : S
  scatter : S
  select : S
  /-- the truth of a parameter -/
  truth : O → Bool
  small : V → Bool
  noinline : Params V (Prim S) O → Nat → Except Err (Closed V (Prim S) O)

/-- `primitive_finalisations` (72, 191-203, 217-220). -/
def rule : Prim S → Option Rule
  | .std _ => none
  | .customJvp => some .jvp
  | .stopGradient => some .stop
  | .unvmapAll => some .impl
  | .unvmapAny => some .impl
  | .unvmapMax => some .impl
  | .nondifferentiableBackward => some .impl
  | .announceJaxpr => some .impl
  | .selectIfVmap => some .impl
  | .maybeSet => some .impl
  | .noinline => some .impl
  | .nontraceable => some .impl
  | .nonbatchable => some .impl
  | .vprim => none

/-- The keyword argument `makes_false_steps`. -/
def makesFalseSteps (J : Jax V S O) : Params V (Prim S) O → Except Err Bool
  | .nil => .error .typeError
  | .one k v rest =>
    if k = "makes_false_steps" then match v with
      | .other o => .ok (J.truth o)
      | _ => .ok true
    else makesFalseSteps J rest
  | .tuple k _ rest => if k = "makes_false_steps" then .ok true else makesFalseSteps J rest

/-- A function of one argument which returns it (`_nontraceable.py:22,91,141`). -/
def identity (n : Nat) : Except Err (Closed V (Prim S) O) :=
  if n = 1 then .ok ⟨[], [0], .done [.var 0], []⟩ else .error .typeError

/-- `jnp.all`, `jnp.any`, `jnp.max` (`_unvmap.py:22-23,53-54,84-85`). -/
def reduce (s : S) (n : Nat) : Except Err (Closed V (Prim S) O) :=
  if n = 1 then .ok ⟨[], [0], .eqn (.std s) .nil [.var 0] [1] (.done [.var 1]), []⟩ else .error .typeError

/-- `_maybe_set_impl` (`_loop/common.py:140-145`) with the arguments `pred`, `xs`, `x` and the dynamic leaves of the index; `_select_if_vmap`
(123-137) is `lax.select`, or binds `select_if_vmap_p`. -/
def setImpl (J : Jax V S O) (ps : Params V (Prim S) O) (n : Nat) : Except Err (Closed V (Prim S) O) :=
  if n < 3 then .error .typeError
  else do
    let b ← makesFalseSteps J ps
    let index := (List.range (n - 3)).map (fun i => Atom.var (i + 3))
    pure ⟨[], List.range n,
      .eqn (.std J.gather) .nil (.var 1 :: index) [n]
        (.eqn (if b then .std J.select else .selectIfVmap) .nil [.var 0, .var 2, .var n] [n + 1]
          (.eqn (.std J.scatter) .nil (.var 1 :: .var (n + 1) :: index) [n + 2] (.done [.var (n + 2)]))), []⟩

/-- `prim.impl` for the registered primitives (68-69, 191-203). -/
def impl (J : Jax V S O) : Prim S → Params V (Prim S) O → Nat → Except Err (Closed V (Prim S) O)
  | .unvmapAll, _, n => reduce J.reduceAnd n
  | .unvmapAny, _, n => reduce J.reduceOr n
  | .unvmapMax, _, n => reduce J.reduceMax n
  | .nondifferentiableBackward, _, n => identity n
  | .announceJaxpr, _, n => .ok ⟨[], List.range n, .done ((List.range n).map .var), []⟩
  | .selectIfVmap, _, n => if n = 3 then .ok ⟨[], [0, 1, 2], .done [.var 1], []⟩ else .error .typeError
  | .maybeSet, ps, n => setImpl J ps n
  | .noinline, ps, n => J.noinline ps n
  | .nontraceable, _, n => identity n
  | .nonbatchable, _, n => identity n
  | _, _, _ => .error .attributeError

/-- The table of the library. -/
def table (J : Jax V S O) : Table V (Prim S) O := { rule := rule, small := J.small, impl := impl J }

end Verif.Finalise.Registry
