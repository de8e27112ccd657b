import Verif.Basic
import Verif.Dict
/-!
# Rotary positional embeddings

`equinox/nn/_embedding.py`: `internal_rope_embedding_cache` (16-17) and `RotaryPositionalEmbedding`
(109-255).

Modelled: the process-wide cache, `__check_init__`, `precompute_freqs_cis`, `rotate_half` and
`__call__`, including the dtype promotion failure. Arithmetic is a parameter (`Ops`): the scalars `F`
may be floating point numbers of any rounding, since nothing but elementwise operations is used.
The cache theorem therefore holds whatever the arithmetic is; the geometric theorems use `ℝ`.

Simplified: an array is the list of its rows; `jnp.outer(t, freqs)` followed by elementwise functions
is computed row by row.
-/

namespace Verif.Rope

/-- Elementwise arithmetic on scalars `F`; `D` are the dtypes and `cast d` is `.astype(d)`. -/
structure Ops (F D : Type) where
  ofNat : Nat → F
  add : F → F → F
  mul : F → F → F
  div : F → F → F
  pow : F → F → F
  neg : F → F
  cos : F → F
  sin : F → F
  cast : D → F → F

/-- A two-dimensional array: `dtype`, its rows, and the size of the last dimension. -/
structure Arr (F D : Type) where
  dtype : D
  width : Nat
  rows : List (List F)

/-- All rows have the announced width. -/
def Arr.WF {F D : Type} (x : Arr F D) : Prop := ∀ r ∈ x.rows, r.length = x.width

/-- The static fields (165-167). -/
structure Cfg (F D : Type) where
  embeddingSize : Nat
  theta : F
  dtype : D

/-- `__check_init__` (169-173) -/
def mk {F D : Type} (embeddingSize : Int) (theta : F) (dtype : D) : Except Err (Cfg F D) :=
  if embeddingSize < 0 then .error .valueError
  else if embeddingSize % 2 ≠ 0 then .error .valueError
  else .ok ⟨embeddingSize.toNat, theta, dtype⟩

/-- The rows of `freqs_cos` and of `freqs_sin`. -/
abbrev Table (F : Type) := List (List F) × List (List F)

variable {F D : Type}

/-- `freqs = 1.0 / (theta ** (jnp.arange(0.0, embedding_size, 2)[None, :] / embedding_size))`
(184-187): `arange(0, e, 2)` has `⌈e/2⌉` entries. -/
def freqs (o : Ops F D) (e : Nat) (theta : F) : List F :=
  (List.range ((e + 1) / 2)).map fun i =>
    o.div (o.ofNat 1) (o.pow theta (o.div (o.ofNat (2 * i)) (o.ofNat e)))

/-- `precompute_freqs_cis` (180-193) -/
def precompute (o : Ops F D) (e end_ : Nat) (theta : F) (dtype : D) : Table F :=
  let outer := (List.range end_).map fun t => (freqs o e theta).map fun f => o.mul (o.ofNat t) f
  (outer.map fun r => r.map fun a => o.cast dtype (o.cos a),
   outer.map fun r => r.map fun a => o.cast dtype (o.sin a))

/-- `internal_rope_embedding_cache` (16) -/
abbrev Cache (F D : Type) := Dict (Nat × D) (Table F)

/-- `rotate_half` (175-178), for one row. -/
def rotateHalf (o : Ops F D) (width : Nat) (r : List F) : List F :=
  let d2 := width / 2
  (r.drop d2).map o.neg ++ r.take d2

/-- An elementwise binary operation on two-dimensional arrays of the same number of columns, with
NumPy broadcasting of a single row. Other row counts do not broadcast (`TypeError`). -/
def rowwise (f : F → F → F) (a b : List (List F)) : Except Err (List (List F)) :=
  if a.length = b.length then .ok (List.zipWith (List.zipWith f) a b)
  else if b.length = 1 then
    match b with
    | [r] => .ok (a.map fun s => List.zipWith f s r)
    | _ => .error .typeError
  else if a.length = 1 then
    match a with
    | [r] => .ok (b.map fun s => List.zipWith f r s)
    | _ => .error .typeError
  else .error .typeError

/-- Lines 221-237: look the table up in the cache, computing it if it is missing or too short;
then cut it to `seq_len` rows. -/
def lookup [DecidableEq D] (o : Ops F D) (cfg : Cfg F D) (e seqLen : Nat) (c : Cache F D) :
    Table F × Cache F D :=
  let key := (e, cfg.dtype)
  let c1 := match c.get? key with
    | none => c.insert key (precompute o e seqLen cfg.theta cfg.dtype)
    | some _ => c
  let tab := (c1.get? key).getD ([], [])
  let r := if seqLen > tab.1.length then
      (precompute o e seqLen cfg.theta cfg.dtype,
       c1.insert key (precompute o e seqLen cfg.theta cfg.dtype))
    else (tab, c1)
  ((r.1.1.take seqLen, r.1.2.take seqLen), r.2)

/-- `__call__` (195-255). `promote` is JAX's dtype promotion; `none` is the `TypePromotionError` of
`numpy_dtype_promotion="strict"` (a subclass of `ValueError`, re-raised with a better message). The
cache is updated before the arithmetic takes place. -/
def call [DecidableEq D] (o : Ops F D) (promote : D → D → Option D) (cfg : Cfg F D) (x : Arr F D)
    (c : Cache F D) : Except Err (Arr F D) × Cache F D :=
  if x.width ≠ cfg.embeddingSize then (.error .valueError, c)
  else
    let r := lookup o cfg x.width x.rows.length c
    let cosT := r.1.1.map fun row => row ++ row
    let sinT := r.1.2.map fun row => row ++ row
    let rot := x.rows.map (rotateHalf o x.width)
    match promote x.dtype cfg.dtype with
    | none => (.error .valueError, r.2)
    | some p =>
      let mul := fun a b => o.cast p (o.mul (o.cast p a) (o.cast p b))
      let add := fun a b => o.cast p (o.add a b)
      (do
        let a ← rowwise mul x.rows cosT
        let b ← rowwise mul rot sinT
        let s ← rowwise add a b
        pure ⟨x.dtype, x.width, s.map fun row => row.map (o.cast x.dtype)⟩, r.2)

/-- What can happen to the cache: a call (under some promotion rule), or `eqx.clear_caches()`
(line 17). -/
inductive Event (F D : Type)
  | call (promote : D → D → Option D) (cfg : Cfg F D) (x : Arr F D)
  | clear

/-- The cache after a history of events, starting from an empty process. -/
def cacheAfter [DecidableEq D] (o : Ops F D) : List (Event F D) → Cache F D
  | h => h.foldl (fun c ev => match ev with
      | .call pr cfg x => (call o pr cfg x c).2
      | .clear => []) []

end Verif.Rope
