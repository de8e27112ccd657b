import Verif.Filters.Predicates

/-! # C77: the predicates on leaves -/

namespace Verif
namespace Filters

/-! ## What the documentation says -/

/-- A floating or complex dtype. -/
inductive Inexact : DType → Prop
  | float (b : Nat) : Inexact (.float b)
  | complex (b : Nat) : Inexact (.complex b)
  | bfloat16 : Inexact (.extFloat .bfloat16)
  | float8 (v : Nat) : Inexact (.extFloat (.float8 v))

/-- A JAX or NumPy array of this dtype. -/
inductive ArrayOf : DType → Obj → Prop
  | jax (d : DType) : ArrayOf d (.jax d)
  | ndarray (d : DType) : ArrayOf d (.ndarray d)
  | generic (d : DType) : ArrayOf d (.generic d)

/-- A Python number; `true` for `float` and `complex`. -/
inductive Number : Bool → Obj → Prop
  | float : Number true .float
  | complex : Number true .complex
  | bool : Number false .bool
  | int : Number false .int

/-- An array held by NumPy in a dtype that NumPy does not have itself. -/
inductive Foreign : Obj → Prop
  | ndarray (e : ExtFloat) : Foreign (.ndarray (.extFloat e))
  | generic (e : ExtFloat) : Foreign (.generic (.extFloat e))

/-- The object itself, or what its `__jax_array__` gives. -/
inductive Becomes : Obj → Obj → Prop
  | call (y : Obj) : Becomes (.jaxArray (.ok y)) y
  | same (x : Obj) (h : ∀ r, x ≠ .jaxArray r) : Becomes x x

theorem inexact_jnp (d : DType) : jnpInexact d = true ↔ Inexact d := by
  constructor
  · intro h
    cases d with
    | float b => exact .float b
    | complex b => exact .complex b
    | extFloat e => cases e with
      | bfloat16 => exact .bfloat16
      | float8 v => exact .float8 v
    | _ => cases h
  · rintro (_ | _ | _ | _) <;> rfl

theorem inexact_np (d : DType) (hd : ∀ e, d ≠ .extFloat e) : npInexact d = true ↔ Inexact d := by
  constructor
  · intro h
    cases d with
    | float b => exact .float b
    | complex b => exact .complex b
    | _ => cases h
  · rintro (_ | _ | _ | _)
    · rfl
    · rfl
    · exact absurd rfl (hd _)
    · exact absurd rfl (hd _)

/-- **C77**: `is_array` holds for JAX and NumPy arrays. -/
theorem is_array_spec (x : Obj) : isArray x = true ↔ ∃ d, ArrayOf d x := by
  constructor
  · intro h
    cases x with
    | jax d => exact ⟨d, .jax d⟩
    | ndarray d => exact ⟨d, .ndarray d⟩
    | generic d => exact ⟨d, .generic d⟩
    | _ => cases h
  · rintro ⟨d, h | h | h⟩ <;> rfl

/-- **C77**: `is_array_like` holds for arrays, Python numbers and objects with `__jax_array__`. -/
theorem is_array_like_spec (x : Obj) :
    isArrayLike x = true ↔ (∃ d, ArrayOf d x) ∨ (∃ b, Number b x) ∨ ∃ r, x = .jaxArray r := by
  constructor
  · intro h
    cases x with
    | jax d => exact .inl ⟨d, .jax d⟩
    | ndarray d => exact .inl ⟨d, .ndarray d⟩
    | generic d => exact .inl ⟨d, .generic d⟩
    | float => exact .inr (.inl ⟨_, .float⟩)
    | complex => exact .inr (.inl ⟨_, .complex⟩)
    | bool => exact .inr (.inl ⟨_, .bool⟩)
    | int => exact .inr (.inl ⟨_, .int⟩)
    | jaxArray r => exact .inr (.inr ⟨r, rfl⟩)
    | other => cases h
  · rintro (⟨d, h | h | h⟩ | ⟨b, h | h | h | h⟩ | ⟨r, rfl⟩) <;> rfl

/-- **C77**: `is_inexact_array` holds for floating and complex JAX and NumPy arrays. Missing: NumPy arrays in a dtype that NumPy does not
have itself (`numpy_bfloat16`). -/
theorem is_inexact_array_partial (x : Obj) (hx : ¬ Foreign x) : isInexactArray x = true ↔ ∃ d, ArrayOf d x ∧ Inexact d := by
  have hn : ∀ d, x = .ndarray d ∨ x = .generic d → ∀ e, d ≠ .extFloat e := by
    rintro d (rfl | rfl) e rfl
    · exact hx (.ndarray e)
    · exact hx (.generic e)
  constructor
  · intro h
    cases x with
    | jax d => exact ⟨d, .jax d, (inexact_jnp d).1 h⟩
    | ndarray d => exact ⟨d, .ndarray d, (inexact_np d (hn d (.inl rfl))).1 h⟩
    | generic d => exact ⟨d, .generic d, (inexact_np d (hn d (.inr rfl))).1 h⟩
    | _ => cases h
  · rintro ⟨d, h | h | h, hd⟩
    · exact (inexact_jnp d).2 hd
    · exact (inexact_np d (hn d (.inl rfl))).2 hd
    · exact (inexact_np d (hn d (.inr rfl))).2 hd

/-- **C77**: `is_inexact_array_like` holds for these, for Python `float` and `complex`, and for what `__jax_array__` turns into one of them. It
raises only what `__jax_array__` raises. -/
theorem is_inexact_array_like_partial (x : Obj) (hx : ∀ y, Becomes x y → ¬ Foreign y) :
    (isInexactArrayLike x = .ok true ↔ ∃ y, Becomes x y ∧ ((∃ d, ArrayOf d y ∧ Inexact d) ∨ Number true y)) ∧
    ∀ e, isInexactArrayLike x = .error e ↔ x = .jaxArray (.error e) := by
  have key : ∀ y, ¬ Foreign y → (inexactLike y = true ↔ (∃ d, ArrayOf d y ∧ Inexact d) ∨ Number true y) := by
    intro y hy
    constructor
    · intro h
      cases y with
      | jax d => exact .inl ((is_inexact_array_partial _ hy).1 h)
      | ndarray d => exact .inl ((is_inexact_array_partial _ hy).1 h)
      | generic d => exact .inl ((is_inexact_array_partial _ hy).1 h)
      | float => exact .inr .float
      | complex => exact .inr .complex
      | _ => cases h
    · rintro (h | h)
      · have := (is_inexact_array_partial _ hy).2 h
        cases y <;> first | exact this | cases this
      · cases h <;> rfl
  constructor
  · constructor
    · intro h
      by_cases hj : ∃ r, x = .jaxArray r
      · obtain ⟨r, rfl⟩ := hj
        cases r with
        | error e => cases h
        | ok y =>
          simp only [isInexactArrayLike, asArray, bind, Except.bind, pure, Except.pure, Except.ok.injEq] at h
          exact ⟨y, .call y, (key y (hx y (.call y))).1 h⟩
      · have hb : Becomes x x := .same x fun r hr => hj ⟨r, hr⟩
        refine ⟨x, hb, (key x (hx x hb)).1 ?_⟩
        cases x <;> first | exact absurd ⟨_, rfl⟩ hj | simpa [isInexactArrayLike, asArray, bind, Except.bind, pure, Except.pure] using h
    · rintro ⟨y, hb, h⟩
      have h' := (key y (hx y hb)).2 h
      cases hb with
      | call => simp [isInexactArrayLike, asArray, bind, Except.bind, pure, Except.pure, h']
      | same x hr =>
        cases x <;> first | exact absurd rfl (hr _) | simpa [isInexactArrayLike, asArray, bind, Except.bind, pure, Except.pure] using h'
  · intro e
    cases x with
    | jaxArray r => cases r <;> simp [isInexactArrayLike, asArray, bind, Except.bind, pure, Except.pure]
    | _ => simp [isInexactArrayLike, asArray, bind, Except.bind, pure, Except.pure]

/-- The hypotheses are met by a JAX array of `bfloat16`, a NumPy array of floats, and an object that gives the latter. -/
example : ¬ Foreign (.jax (.extFloat .bfloat16)) ∧ ¬ Foreign (.ndarray (.float 32)) ∧
    (∀ y, Becomes (.jaxArray (.ok (.ndarray (.float 32)))) y → ¬ Foreign y) ∧
    isInexactArrayLike (.jaxArray (.ok (.ndarray (.float 32)))) = .ok true := by
  refine ⟨nofun, nofun, ?_, rfl⟩
  intro y h
  cases h with
  | call => nofun
  | same _ h => exact absurd rfl (h _)

/-- The claim without its restriction fails: the same values as a NumPy array of `bfloat16`, in any shape or as a scalar, are not inexact,
though they are as a JAX array. -/
theorem numpy_bfloat16 : ¬ ∀ x : Obj, (isInexactArray x = true ↔ ∃ d, ArrayOf d x ∧ Inexact d) := by
  intro h
  have := (h (.ndarray (.extFloat .bfloat16))).2 ⟨_, .ndarray _, .bfloat16⟩
  cases this

/-- **C77**: every inexact array is an array, every array is array-like, every inexact array is inexact array-like, and what is inexact array-like is
array-like. -/
theorem inclusions (x : Obj) :
    (isInexactArray x = true → isArray x = true ∧ isInexactArrayLike x = .ok true) ∧
    (isArray x = true → isArrayLike x = true) ∧ (isInexactArrayLike x = .ok true → isArrayLike x = true) := by
  refine ⟨fun h => ?_, fun h => ?_, fun h => ?_⟩
  · cases x <;> first | cases h; done | exact ⟨rfl, by simpa [isInexactArray, isInexactArrayLike, asArray, inexactLike, bind, Except.bind, pure, Except.pure] using h⟩
  · cases x <;> first | rfl | cases h
  · cases x <;> first | rfl | cases h

end Filters
end Verif
