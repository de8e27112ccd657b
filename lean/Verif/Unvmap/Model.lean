import Verif.NN.NArr

/-!
# `unvmap_all`, `unvmap_any`, `unvmap_max` (`equinox/_unvmap.py`)

Outside of the repository: under a nest of `vmap`s an array is a physical array together with the batch axis of each `vmap`, innermost first
(`none` if it is not batched by that one). The axis of a `vmap` is counted in the array as it looks inside of all `vmap`s further out, that is
without their axes. Binding a primitive calls the batching rule of the innermost `vmap` that batches the argument, with the array as it looks
outside of that `vmap`; without any, `_impl` is called with the physical array.
-/

namespace Verif
namespace Unvmap

open NN

/-- All indices of an array of some shape, in order. -/
def indices : List Nat → List (List Nat)
  | [] => [[]]
  | n :: ns => (List.range n).flatMap fun i => (indices ns).map fun is => i :: is

/-- `jnp.all` -/
def jnpAll (x : NArr Bool) : Except Err Bool := .ok ((indices x.shape).all x.at_)

/-- `jnp.any` -/
def jnpAny (x : NArr Bool) : Except Err Bool := .ok ((indices x.shape).any x.at_)

/-- `jnp.max`, which refuses an array without elements. -/
def jnpMax (x : NArr Int) : Except Err Int :=
  match (indices x.shape).map x.at_ with
  | [] => .error .valueError
  | a :: as => .ok (as.foldl max a)

/-- `bind` of any of the three. The batching rules (`_unvmap.py` 30-32, 61-63, 92-94) bind again, and say that the result is not mapped. -/
def bind {α : Type} (impl : NArr α → Except Err α) : List (Option Nat) → NArr α → Except Err (α × List (Option Nat))
  | [], x => do
    let r ← impl x
    pure (r, [])
  | some _ :: axes, x => do
    let r ← bind impl axes x
    pure (r.1, none :: r.2)
  | none :: axes, x => do
    let r ← bind impl axes x
    pure (r.1, none :: r.2)

/-- `unvmap_all` (17-19) -/
def unvmapAll : List (Option Nat) → NArr Bool → Except Err (Bool × List (Option Nat)) := bind jnpAll

/-- `unvmap_any` (48-50) -/
def unvmapAny : List (Option Nat) → NArr Bool → Except Err (Bool × List (Option Nat)) := bind jnpAny

/-- `unvmap_max` (79-81) -/
def unvmapMax : List (Option Nat) → NArr Int → Except Err (Int × List (Option Nat)) := bind jnpMax

end Unvmap
end Verif
