import Verif.Serialise.Model

/-!
# What is assumed of NumPy and JAX, and what saving and loading should do
-/

namespace Verif
namespace Ser

variable {env : Env} {O : Type}

/-- dtypes which NumPy writes and reads unchanged. -/
def DType.Plain : DType → Prop
  | .std _ => True
  | .void _ => True
  | _ => False

/-- What is assumed of the `.npy` format and of scalar types. -/
structure Env.Lawful (env : Env) : Prop where
  /-- reading back what was written, with anything after it -/
  dec_enc : ∀ a rest, a.dtype.Plain → env.dec (env.enc a ++ rest) = .ok (a, rest)
  /-- reading an incomplete array raises -/
  dec_prefix : ∀ a p, p <+: env.enc a → p ≠ env.enc a → ∃ e, env.dec p = .error e
  /-- arrays of Python objects are written by pickling, and `np.load` refuses to unpickle by default -/
  dec_object : ∀ a rest, a.dtype = .object → ∃ e, env.dec (env.enc a ++ rest) = .error e
  /-- calling a scalar type gives a scalar of that type -/
  fromItem_type : ∀ t a s, env.fromItem t a = .ok s → env.tyOf s = t

/-- The array that is read back for a saved scalar. -/
def scalarOnDisk (env : Env) (s : env.Scal) : Arr :=
  let a := env.asArray s
  if env.isBf16 (env.tyOf s) then a.view .bf16 else a.view a.dtype.onDisk

/-- Leaves which can be stored: JAX arrays of a native dtype or `bfloat16` which `jnp.asarray` does not convert; NumPy
arrays of a native dtype; scalars which can be converted to an array and back. -/
def Storable : Leaf env O → Prop
  | .jax a => ((∃ n, a.dtype = .std n) ∨ a.dtype = .bf16) ∧ env.jaxable a.dtype = true ∧ env.canon a = a
  | .np a => a.dtype.Plain
  | .scal s => (env.asArray s).dtype.onDisk.Plain ∧ env.fromItem (env.tyOf s) (scalarOnDisk env s) = .ok s
  | .struct _ _ => False
  | .other _ => True

/-- The leaf of `like` has the type, shape and dtype of the saved leaf. -/
def Matches : (saved like : Leaf env O) → Prop
  | .jax a, .jax b => a.shape = b.shape ∧ a.dtype = b.dtype
  | .jax a, .struct d s => a.shape = s ∧ a.dtype = d
  | .np a, .np b => a.shape = b.shape ∧ a.dtype = b.dtype
  | .scal s, .scal t => env.tyOf s = env.tyOf t
  | .other _, .other _ => True
  | _, _ => False

/-- What loading should give: the saved leaf, or the leaf of `like` if it is not an array or scalar. -/
def loaded : (saved like : Leaf env O) → Leaf env O
  | .other _, y => y
  | x, _ => x

/-- The leaf is written to the file. -/
def Saved : Leaf env O → Prop
  | .jax a => a.dtype ≠ .key
  | .np a => a.dtype ≠ .key
  | .scal s => (env.asArray s).dtype ≠ .key
  | _ => False

/-- Loading will read something for this leaf. -/
def Loads : Leaf env O → Prop
  | .other _ => False
  | _ => True

/-- The leaf is neither an array nor a scalar. -/
def IsOther : Leaf env O → Prop
  | .other _ => True
  | _ => False

/-- A leaf with the type (and for arrays shape and dtype) that the leaf of `like` asks for. -/
def Conforms {T : Type} (oty : O → T) : (new like : Leaf env O) → Prop
  | .jax a, .jax b => a.shape = b.shape ∧ a.dtype = b.dtype
  | .jax a, .struct d s => a.shape = s ∧ a.dtype = d
  | .np a, .np b => a.shape = b.shape ∧ a.dtype = b.dtype
  | .scal s, .scal t => env.tyOf s = env.tyOf t
  | .other x, .other y => oty x = oty y
  | _, _ => False

end Ser
end Verif
