import Verif.Custom.Props
import Verif.Errors.Props

/-!
# `backward_nan`, `breakpoint_if` (`equinox/debug/_backward_nan.py`, `_breakpoint_if.py`), `assert_dce` (`equinox/_errors.py` 352-365)

`_backward_nan` is a `filter_custom_vjp` (C49), and its backward rule calls `error_if` (C32); both are the models of these.

Simplified: what `jax.debug.print` shows is a record of the name, the primals and the cotangents, so that the text (and braces in the name,
which `str.format` would read) is left out. The backward rule runs on arrays and not under `vmap`.
-/

namespace Verif
namespace Debug

open PT NN Filters
open Jit (JK)
open Custom (Tree Jax Vjp Fn Fwd Bwd Kw)
open Errors (Leaf Scalar DType Run Mode Pred Traced errorIf)

variable {C : Type} [DecidableEq C]

/-- `jnp.inexact` has the floats of `ml_dtypes` as well. -/
def inexact : Leaf → Bool
  | .arr .inexact _ => true
  | .arr .extFloat _ => true
  | _ => false

/-- JAX, for the arrays of `Errors`, if the arrays in `perturbed` carry a tangent. -/
def jax (perturbed : Leaf → Bool) : Jax Leaf where
  array := Leaf.isArray
  inexact := inexact
  perturbed := perturbed
  zeros := fun l => l

/-- One line of `jax.debug.print`. -/
structure Shown (C : Type) where
  name : Tree C Leaf
  primals : Tree C Leaf
  cotangents : Tree C Leaf

/-- `True` and `False` as leaves; they are the integers one and zero. -/
def pyBool : Bool → Tree C Leaf
  | true => .leaf (.obj 1)
  | false => .leaf (.obj 0)

/-- `if terminate`: an object which is neither `None` nor `False`. -/
def truthy : Tree C Leaf → Bool
  | .none => false
  | .leaf (.obj 0) => false
  | _ => true

/-- `jnp.isnan(a).any()` -/
def anyNan : Leaf → Bool
  | .arr _ a => (Errors.indices a.shape).any fun i => a.at_ i == .nan
  | .obj _ => false

/-- `jnp.any(jnp.stack(nans))`; there must be something to stack. -/
def anyStack : List Bool → Except Err Bool
  | [] => .error .valueError
  | bs => .ok (bs.any id)

/-- The end of `_backward_nan_bwd` (66-70). -/
def checkNan (env : Mode) (grad : Tree C Leaf) : Run (Tree C Leaf) :=
  match Filters.filter noLeaf (.leaf (.callable fun l => .ok (Errors.isArrayTree l))) false .none grad with
  | .error e => .fail (.err e)
  | .ok arrays =>
    match anyStack (arrays.leaves.map anyNan) with
    | .error e => .fail (.err e)
    | .ok b => errorIf env grad (.arr (.array (Errors.scalar b))) "Encountered NaN" .default

/-- `_backward_nan_bwd` (60-71): what is printed, and the rest. -/
def bwdRule (env : Mode) (grad x name terminate : Tree C Leaf) : List (Shown C) × Run (Tree C Leaf) :=
  ([⟨name, x, grad⟩], if truthy terminate then checkNan env grad else ⟨[], .ok grad⟩)

/-- Any failure as an exception of the model of `filter_custom_vjp`. -/
def toExcept {β : Type} (r : Run β) : Except Err β :=
  match r.result with
  | .ok b => .ok b
  | .error (.err e) => .error e
  | .error _ => .error .runtimeError

/-- `_backward_nan` (41-43) -/
def fn : Fn C Leaf := fun x args kwargs =>
  match args, kwargs with
  | [_, _], [] => .ok x
  | _, _ => .error .typeError

/-- The call of `backward_nan` in `_backward_nan_fwd` (49). There the arguments do not carry the tangents any more, so that none of the rules
is called. -/
def inner (x name terminate : Tree C Leaf) : Except Err (Tree C Leaf) :=
  Vjp.call (jax fun _ => false) ⟨fn, Option.none, Option.none, true⟩ x [name, terminate] []

/-- `_backward_nan_fwd` (46-49) -/
def fwd : Fwd C Leaf := fun _ x args kwargs =>
  match args, kwargs with
  | [name, terminate], [] => do
    let out ← inner x name terminate
    pure (out, .none)
  | _, _ => .error .typeError

/-- `_backward_nan_bwd` as the rule of a `filter_custom_vjp`. -/
def bwd (env : Mode) : Bwd C Leaf := fun _ grad _ x args kwargs =>
  match args, kwargs with
  | [name, terminate], [] => toExcept (bwdRule env grad x name terminate).2
  | _, _ => .error .typeError

/-- The decorated `_backward_nan` (41-71). -/
def backwardNan (env : Mode) : Vjp C Leaf := ((Vjp.new fn).defFwd fwd).defBwd (bwd env)

/-- `breakpoint_if` (13-30): whether the debugger opens, and what is returned. The predicate may be batched or traced; `cond` runs a branch when its
value is known. -/
def breakpointIf {τ : Type} (pred : Traced Bool) (token : τ) : Bool × τ := ((Errors.unvmapAny pred).value, token)

/-- `assert_dce` (`_errors.py` 352-365). Under `jit` also `jnp.invert(False)` is a tracer. This is what happens if the compiler keeps the value. -/
def assertDce {K : Type} [DecidableEq K] (env : Mode) (jitting : Bool) (x : PT K Leaf) (msg : String) (onError : Errors.OnError) : Run (PT K Leaf) :=
  if jitting then errorIf env x (.arr (.jitted (.array (Errors.scalar (!false))))) msg onError else ⟨[], .ok x⟩

/-! ## Properties -/

/-- Some entry of some array is NaN. -/
def HasNan (t : Tree C Leaf) : Prop := ∃ d a idx, Leaf.arr d a ∈ t.leaves ∧ InB idx a.shape ∧ a.at_ idx = .nan

theorem anyNan_iff (l : Leaf) : anyNan l = true ↔ ∃ d a idx, l = Leaf.arr d a ∧ InB idx a.shape ∧ a.at_ idx = .nan := by
  cases l with
  | obj n => simp [anyNan]
  | arr d a =>
    simp only [anyNan, List.any_eq_true, Errors.mem_indices, beq_iff_eq]
    constructor
    · rintro ⟨i, h1, h2⟩; exact ⟨d, a, i, rfl, h1, h2⟩
    · rintro ⟨_, _, i, h0, h1, h2⟩; cases h0; exact ⟨i, h1, h2⟩

omit [DecidableEq C] in
theorem leaves_arrays (t : Tree C Leaf) :
    (withNones (t.map fun a => if Errors.isArrayTree (K := JK C) (.leaf a) != false then some a else Option.none)).leaves =
      t.leaves.filter Leaf.isArray := by
  rw [leaves_withNones]
  induction t.leaves with
  | nil => rfl
  | cons a l ih =>
    by_cases h : a.isArray = true <;> simp_all [Errors.isArrayTree]

/-- The check on the cotangents. -/
theorem checkNan_eq (env : Mode) (grad : Tree C Leaf) :
    (¬ Errors.HasArray grad → checkNan env grad = ⟨[], .error (.err .valueError)⟩) ∧
    (Errors.HasArray grad → checkNan env grad =
      errorIf env grad (.arr (.array (Errors.scalar (grad.leaves.any anyNan)))) "Encountered NaN" .default) := by
  simp only [checkNan, Filters.filter_callable_closed, leaves_arrays]
  refine ⟨fun h => ?_, fun h => ?_⟩
  · have : grad.leaves.filter Leaf.isArray = [] := by
      rw [List.filter_eq_nil_iff]
      intro a ha hb
      exact h ⟨a, ha, hb⟩
    rw [this]
    rfl
  · have e : (List.map anyNan (grad.leaves.filter Leaf.isArray)).any id = grad.leaves.any anyNan := by
      rw [Bool.eq_iff_iff]
      simp only [List.any_eq_true, List.mem_map, List.mem_filter, id_eq]
      constructor
      · rintro ⟨_, ⟨a, ⟨h1, -⟩, rfl⟩, h3⟩; exact ⟨a, h1, h3⟩
      · rintro ⟨a, h1, h3⟩
        refine ⟨_, ⟨a, ⟨h1, ?_⟩, rfl⟩, h3⟩
        obtain ⟨d, b, _, rfl, -⟩ := (anyNan_iff a).1 h3
        rfl
    obtain ⟨l, h1, h2⟩ := h
    have hm : l ∈ grad.leaves.filter Leaf.isArray := List.mem_filter.2 ⟨h1, h2⟩
    cases hl : List.map anyNan (grad.leaves.filter Leaf.isArray) with
    | nil => rw [List.map_eq_nil_iff] at hl; rw [hl] at hm; cases hm
    | cons b bs => rw [hl] at e; simp only [anyStack, e]

omit [DecidableEq C] in
theorem some_true (grad : Tree C Leaf) :
    (Pred.arr (.array (Errors.scalar (grad.leaves.any anyNan)))).SomeTrue ↔ HasNan grad := by
  have : (grad.leaves.any anyNan = true) ↔ HasNan grad := by
    rw [List.any_eq_true]
    constructor
    · rintro ⟨l, h1, h2⟩
      obtain ⟨d, a, idx, rfl, h3, h4⟩ := (anyNan_iff l).1 h2
      exact ⟨d, a, idx, h1, h3, h4⟩
    · rintro ⟨d, a, idx, h1, h3, h4⟩
      exact ⟨_, h1, (anyNan_iff _).2 ⟨d, a, idx, rfl, h3, h4⟩⟩
  rw [← this]
  constructor
  · rintro ⟨lane, idx, -, -, h⟩; exact h
  · intro h; exact ⟨[], [], rfl, by simp [Errors.scalar, InB], h⟩

/-- **C90**, the backward rule: the name, the primals and the cotangents are printed once, whatever they are. -/
theorem backward_nan_shows (env : Mode) (grad x name terminate : Tree C Leaf) :
    (bwdRule env grad x name terminate).1 = [⟨name, x, grad⟩] := rfl

/-- **C90**, the backward rule with `EQX_ON_ERROR=raise`: without `terminate`, or without a NaN, the cotangents are passed on; with
`terminate` and a NaN the program stops; with `terminate` and no array among the cotangents there is nothing to stack. -/
theorem backward_nan_rule (grad x name : Tree C Leaf) :
    ((bwdRule .raise grad x name (pyBool false)).2 = ⟨[], .ok grad⟩) ∧
    ((bwdRule .raise grad x name .none).2 = ⟨[], .ok grad⟩) ∧
    (¬ Errors.HasArray grad → (bwdRule .raise grad x name (pyBool true)).2 = ⟨[], .error (.err .valueError)⟩) ∧
    (HasNan grad → (bwdRule .raise grad x name (pyBool true)).2 = ⟨[], .error (.runtime "Encountered NaN")⟩) ∧
    (Errors.HasArray grad → ¬ HasNan grad → (bwdRule .raise grad x name (pyBool true)).2 = ⟨[], .ok grad⟩) := by
  have h : truthy (pyBool true : Tree C Leaf) = true := rfl
  refine ⟨rfl, rfl, fun ha => ?_, fun hn => ?_, fun ha hn => ?_⟩
  · simp only [bwdRule, h, if_true]
    exact (checkNan_eq .raise grad).1 ha
  · have ha : Errors.HasArray grad := by
      obtain ⟨d, a, _, hm, -⟩ := hn
      exact ⟨_, hm, rfl⟩
    simp only [bwdRule, h, if_true]
    rw [(checkNan_eq .raise grad).2 ha, Errors.error_if_raises (by trivial) (show Errors.ModeIs .raise .default .raise from rfl) ((some_true grad).2 hn) (.inr ha)]
    rfl
  · simp only [bwdRule, h, if_true]
    rw [(checkNan_eq .raise grad).2 ha, Errors.error_if_quiet (by trivial) (show Errors.ModeIs .raise .default .raise from rfl) (fun h => hn ((some_true grad).1 h)) (.inr ha)]

/-- The rules are the ones of the decorated function. -/
theorem backwardNan_build (env : Mode) : (backwardNan env : Vjp C Leaf) = Custom.build fn [.fwd fwd, .bwd (bwd env)] := rfl

/-- Arguments that are not arrays do not carry tangents. -/
def Plain (t : Tree C Leaf) : Prop := ∀ l ∈ t.leaves, l.isArray = false

omit [DecidableEq C] in
theorem args_plain {J : Leaf → Bool} {name terminate : Tree C Leaf} (h1 : Plain name) (h2 : Plain terminate) :
    ¬ Custom.ArgsPerturbed (jax J) [name, terminate] [] := by
  rintro ⟨a, h, h3, -⟩
  have h3 : a.isArray = true := h3
  rcases h with ⟨t, ht, hm⟩ | ⟨p, hp, -⟩
  · simp only [List.mem_cons, List.not_mem_nil, or_false] at ht
    rcases ht with rfl | rfl
    · rw [h1 a hm] at h3; cases h3
    · rw [h2 a hm] at h3; cases h3
  · cases hp

theorem inner_eq {x name terminate : Tree C Leaf} (h1 : Plain name) (h2 : Plain terminate) : inner x name terminate = .ok x := by
  have e := ((Custom.prepare_eq (jax fun _ => false) ⟨fn, Option.none, Option.none, true⟩ rfl x [name, terminate] []).2 (args_plain h1 h2))
  simp only [inner, Vjp.call, e, bind, Except.bind, Custom.fnWrapped_eq, fn, Custom.split_eq, Custom.assemble_eq]

/-- **C90**: without differentiation `backward_nan` returns its argument unchanged. -/
theorem backward_nan_call (env : Mode) (P : Leaf → Bool) {x name terminate : Tree C Leaf} (h1 : Plain name) (h2 : Plain terminate) :
    (backwardNan env).call (jax P) x [name, terminate] [] = .ok x := by
  rw [backwardNan_build, (Custom.custom_vjp_call (jax P) fn _ x [name, terminate] [] rfl rfl).1 (args_plain h1 h2)]
  rfl

theorem jax_lawful {P : Leaf → Bool} (hP : ∀ l, P l = true → inexact l = true) : (jax P).Lawful where
  inexact_array := fun a h => by
    change inexact a = true at h
    change a.isArray = true
    cases a with
    | arr d a => rfl
    | obj n => cases h
  perturbed_inexact := hP

/-- Arrays of floating point numbers. -/
def Float (l : Leaf) : Prop := ∃ a, l = .arr .inexact a ∨ l = .arr .extFloat a

theorem inexact_iff (l : Leaf) : inexact l = true ↔ Float l := by
  cases l with
  | obj n => simp [inexact, Float]
  | arr d a => cases d <;> simp [inexact, Float]

/-- A tree that agrees with the cotangents on the inexact arrays of `x`. -/
def PassedOn (x ct : Tree C Leaf) (r : Except Err (Tree C (Option Leaf))) : Prop :=
  ∃ t, r = .ok t ∧ ∀ π a, x.leafAt? π = some a → Float a → t.leafAt? π = some (ct.leafAt? π)

/-- **C90**, with differentiation: `x` is returned unchanged, and the gradient of each inexact array of `x` is its own cotangent
unless `terminate` is given and some cotangent has a NaN, in which case there is an exception. -/
theorem backward_nan_diff {P : Leaf → Bool} (hP : ∀ l, P l = true → Float l) {x name : Tree C Leaf} (h1 : Plain name)
    (terminate : Bool) :
    ∃ pull, (backwardNan .raise).diffCall (jax P) x [name, pyBool terminate] [] = .ok (x, pull) ∧
      ∀ cts ct, Custom.Cotangent (jax P) x cts ct →
        (terminate = false → PassedOn x ct (pull cts)) ∧
        (terminate = true →
          (HasNan ct → pull cts = .error .runtimeError) ∧
          (Errors.HasArray ct → ¬ HasNan ct → PassedOn x ct (pull cts)) ∧
          (¬ Errors.HasArray ct → pull cts = .error .valueError)) := by
  have h2 : Plain (pyBool terminate : Tree C Leaf) := by
    intro l hl
    cases terminate <;> (simp only [pyBool, leaves, List.mem_singleton] at hl; subst hl; rfl)
  have hf : fwd (x.map (jax P).perturbed) x [name, pyBool terminate] [] = .ok (x, .none) := by
    simp only [fwd, inner_eq h1 h2, bind, Except.bind, pure, Except.pure]
  obtain ⟨pull, e1, e2⟩ := ((Custom.custom_vjp_diff (jax_lawful fun l h => (inexact_iff l).2 (hP l h)) fn [.fwd fwd, .bwd (bwd .raise)] rfl rfl x [name, pyBool terminate] []).2
    (args_plain h1 h2)).2 x .none hf
  refine ⟨pull, by rw [backwardNan_build]; exact e1, ?_⟩
  intro cts ct hc
  obtain ⟨e3, e4⟩ := e2 cts ct hc
  obtain ⟨r1, -, r3, r4, r5⟩ := backward_nan_rule ct x name
  have hstruct : ct.treeStructure isNone = x.treeStructure isNone := by
    obtain ⟨m, rfl, rfl, -⟩ := hc
    rw [Custom.treeStructure_withNones, treeStructure, treeStructure, cutNone_map, shape_map]
  have hpass : (bwdRule .raise ct x name (pyBool terminate)).2 = ⟨[], .ok ct⟩ → PassedOn x ct (pull cts) := by
    intro hr
    have : bwd .raise .none ct (x.map (jax P).perturbed) x [name, pyBool terminate] [] = .ok ct := by simp only [bwd, hr, toExcept]
    obtain ⟨t, ht, ht'⟩ := (e4 ct this).2 hstruct
    exact ⟨t, ht, fun π a h h' => ht' π a h ((inexact_iff a).2 h')⟩
  refine ⟨fun h => hpass (by rw [h]; exact r1), fun h => ?_⟩
  subst h
  refine ⟨fun hn => e3 _ ?_, fun ha hn => hpass (r5 ha hn), fun ha => e3 _ ?_⟩
  · simp only [bwd, r4 hn, toExcept]
  · simp only [bwd, r3 ha, toExcept]

/-- **C90**, `breakpoint_if`: the debugger opens exactly if some entry of the predicate is true in some batch element; the token comes back. -/
theorem breakpoint_if_spec {τ : Type} {pred : Traced Bool} (hw : pred.WF) (token : τ) :
    ((breakpointIf pred token).1 = true ↔ ∃ lane idx, pred.HasEntry lane idx true) ∧ (breakpointIf pred token).2 = token := by
  refine ⟨?_, rfl⟩
  simp only [breakpointIf, Errors.unvmapAny_value, List.any_eq_true, id_eq]
  rw [← Errors.mem_entries hw]
  constructor
  · rintro ⟨b, h, rfl⟩; exact h
  · intro h; exact ⟨true, h, rfl⟩

/-- **C90**, `assert_dce`: outside of `jit` it does nothing; under `jit` a value that is kept stops the program, unless it has no array. -/
theorem assert_dce_spec {K : Type} [DecidableEq K] (env : Mode) (x : PT K Leaf) (msg : String) :
    (∀ o, assertDce env false x msg o = ⟨[], .ok x⟩) ∧
    (∀ o, Errors.ModeIs env o .raise → Errors.HasArray x → assertDce env true x msg o = ⟨[], .error (.runtime msg)⟩) ∧
    (∀ o m, Errors.ModeIs env o m → ¬ Errors.HasArray x → assertDce env true x msg o = ⟨[], .error (.err .valueError)⟩) := by
  refine ⟨fun o => rfl, fun o ho ha => ?_, fun o m ho ha => ?_⟩
  · simp only [assertDce, if_true]
    have hs : (Pred.arr (.jitted (.array (Errors.scalar (!false))))).SomeTrue := ⟨[], [], rfl, by simp [Errors.scalar, InB], rfl⟩
    rw [Errors.error_if_raises (by simp [Pred.WF, Traced.WF]) ho hs (.inr ha)]
    rfl
  · simp only [assertDce, if_true]
    exact Errors.error_if_no_array (by simp [Pred.WF, Traced.WF]) ho ha rfl

namespace BackwardToy

/-- A pair of a vector and a number that is not an array. -/
def x : Tree Nat Leaf := .node .tuple [.leaf (.arr .inexact ⟨[2], fun _ => .flt 3⟩), .leaf (.obj 4)]

def good : Leaf := .arr .inexact ⟨[2], fun _ => .flt 5⟩
def bad : Leaf := .arr .inexact ⟨[2], fun i => if i = [1] then .nan else .flt 5⟩

/-- A cotangent with and one without a NaN, and a symbolic zero: all the cases of `backward_nan_diff` occur. -/
example (c : Option Leaf) : Custom.Cotangent (jax inexact) x [c] (.node .tuple [Custom.zeroToNone c, .none]) := by
  refine ⟨.node .tuple [.leaf (.arr .inexact ⟨[2], fun _ => .flt 3⟩, c), .leaf (.obj 4, Option.none)], rfl, ?_, ?_, ?_⟩
  · cases c <;> rfl
  · intro p hp
    simp only [leaves, leavesL, List.append_nil, List.singleton_append, List.mem_cons, List.not_mem_nil, or_false] at hp
    rcases hp with rfl | rfl
    · intro h; cases h
    · intro _; rfl
  · rfl

example : HasNan (.node .tuple [.leaf bad, .none] : Tree Nat Leaf) ∧ ¬ HasNan (.node .tuple [.leaf good, .none] : Tree Nat Leaf) ∧
    Errors.HasArray (.node .tuple [.leaf good, .none] : Tree Nat Leaf) ∧ ¬ Errors.HasArray (.node .tuple [.none, .none] : Tree Nat Leaf) ∧
    Plain (.none : Tree Nat Leaf) ∧ Plain (.leaf (.obj 1) : Tree Nat Leaf) := by
  refine ⟨⟨.inexact, _, [1], by simp [leaves, leavesL, bad]; rfl, by simp [InB], by simp⟩, ?_, ⟨good, by simp [leaves, leavesL], rfl⟩, ?_, ?_, ?_⟩
  · rintro ⟨d, a, idx, h, -, h3⟩
    simp only [leaves, leavesL, List.append_nil, List.mem_singleton, good, Leaf.arr.injEq] at h
    rw [h.2] at h3
    cases h3
  · rintro ⟨l, h, -⟩
    simp [leaves, leavesL] at h
  · intro l h; simp [leaves] at h
  · intro l h; simp [leaves] at h; subst h; rfl

end BackwardToy

end Debug
end Verif
