import Verif.Basic

/-!
# `is_array`, `is_array_like`, `is_inexact_array`, `is_inexact_array_like` (`equinox/_filters.py`, 19-58)

Python objects are told apart as far as these functions can see. An object with a method `__jax_array__` is taken to be neither an array nor a
Python number. `np.issubdtype` and `jnp.issubdtype` are outside of the repository, and given by tables: NumPy does not count the dtypes that
`ml_dtypes` adds to it (`bfloat16`, the 8-bit floats, `int4`) under `np.inexact`, `np.floating` or `np.integer`; JAX sorts them as one expects.
-/

namespace Verif
namespace Filters

/-- Floats that NumPy does not have itself. -/
inductive ExtFloat where
  | bfloat16
  | float8 (variant : Nat)
deriving DecidableEq, Repr

/-- Dtypes. -/
inductive DType where
  | bool
  | int (bits : Nat)
  | uint (bits : Nat)
  | float (bits : Nat)
  | complex (bits : Nat)
  | extFloat (e : ExtFloat)
  | extInt (bits : Nat)
  /-- JAX's tangents of integers -/
  | float0
  /-- JAX's keys of random numbers -/
  | key
  /-- strings, Python objects, records -/
  | other
deriving DecidableEq, Repr

/-- A Python object. -/
inductive Obj where
  /-- a `jax.Array`, tracers included -/
  | jax (d : DType)
  /-- an `np.ndarray` -/
  | ndarray (d : DType)
  /-- an `np.generic` -/
  | generic (d : DType)
  | float
  | complex
  | bool
  | int
  /-- an object with a method `__jax_array__`, and what it returns or raises -/
  | jaxArray (r : Except Err Obj)
  | other

/-- `np.issubdtype(d, np.inexact)` -/
def npInexact : DType → Bool
  | .float _ => true
  | .complex _ => true
  | _ => false

/-- `jnp.issubdtype(d, jnp.inexact)` -/
def jnpInexact : DType → Bool
  | .float _ => true
  | .complex _ => true
  | .extFloat _ => true
  | _ => false

/-- `is_array` (19-21) -/
def isArray : Obj → Bool
  | .jax _ => true
  | .ndarray _ => true
  | .generic _ => true
  | _ => false

/-- `is_array_like` (26-32) -/
def isArrayLike : Obj → Bool
  | .other => false
  | _ => true

/-- `is_inexact_array` (35-44) -/
def isInexactArray : Obj → Bool
  | .ndarray d => npInexact d
  | .generic d => npInexact d
  | .jax d => jnpInexact d
  | _ => false

/-- `element = element.__jax_array__()`, if there is such a method (51-52) -/
def asArray : Obj → Except Err Obj
  | .jaxArray r => r
  | x => .ok x

/-- What is done with it then (53-58) -/
def inexactLike : Obj → Bool
  | .ndarray d => npInexact d
  | .generic d => npInexact d
  | .jax d => jnpInexact d
  | .float => true
  | .complex => true
  | _ => false

/-- `is_inexact_array_like` (47-58) -/
def isInexactArrayLike (x : Obj) : Except Err Bool := do
  let y ← asArray x
  pure (inexactLike y)

end Filters
end Verif
