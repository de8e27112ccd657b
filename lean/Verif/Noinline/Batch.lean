import Verif.Vmap.Model

/-!
# The batching rule of `noinline`: `_noinline_batch` (`equinox/internal/_noinline.py:258-283`)

The rest of `noinline` is in `Verif/Noinline/Model.lean`. The arguments come with a batch axis for each array that is batched (`not_mapped` is `None`). `f` is
the function with all transforms so far applied. `jnp.swapaxes(x, 0, k)` is a parameter. The output is declared to have its batch axis in front.
-/

namespace Verif.Noinline

open PT Vmap

variable {K V A O : Type}

/-- `_move_to_front` (89-93) -/
def moveToFront (swapaxes : V → Nat → V) : Val K V O → PT K Nat → Except Err (Val K V O)
  | x, .none => .ok x
  | .leaf (.arr v), .leaf k => .ok (.leaf (.arr (swapaxes v k)))
  | _, _ => .error .typeError

/-- `_int_to_zero` (96-100), as an entry of `in_axes` -/
def intToZero : PT K Nat → Except Err (PT K (AxSpec V O))
  | .leaf _ => .ok (.leaf (.int 0))
  | _ => .ok .none

/-- `_noinline_batch`, and the call it binds: `filter_vmap(f, in_axes=(args_bdim,))(args)` (184-188) -/
def batchedCall [DecidableEq K] (w : World K V A O) (swapaxes : V → Nat → V) (tup : K) (f : Fn K V O) (args : Val K V O)
    (bdims : PT K Nat) : Except Err (Val K V O) := do
  let args' ← treeMap2 isNone (moveToFront swapaxes) args bdims
  let axes ← treeMap1 isNone intToZero bdims
  filterVmap w tup f [] (.tree (.node tup [axes])) (.leaf (ifArray 0)) Option.none [args'] []

end Verif.Noinline
