import Verif.Custom.Props
import Verif.Errors.Props

/-!
# Derivatives of `error_if` (`equinox/_errors.py`, 80-168, 283-344)

`_error` is a `filter_custom_jvp` (the model of C49) with the rule `_error_jvp`, on the model of `error_if` (C32). A leaf comes with its
tangent; no tangent means a symbolic zero.

Simplified: `pred` and `index` are passed on as arrays of no dimension, even if they are a `bool` and an `int`; which message an error has,
and what is printed, is left to C32.
-/

namespace Verif
namespace Errors
namespace Diff

open PT NN Filters
open Jit (JK)
open Custom (Tree Jax JFn Rule Kw jvpCall jvpDiffCall)

variable {C : Type} [DecidableEq C]

/-- A leaf with its tangent. -/
abbrev Dual := Leaf × Option Leaf

/-- `jnp.inexact` has the floats of `ml_dtypes` as well. -/
def inexact : Leaf → Bool
  | .arr .inexact _ => true
  | .arr .extFloat _ => true
  | _ => false

/-- JAX, on leaves with tangents. -/
def jax : Jax Dual where
  array p := p.1.isArray
  inexact p := inexact p.1
  perturbed p := inexact p.1 && p.2.isSome
  zeros p := p

/-- An execution without its messages. -/
def outcome {β : Type} (r : Run β) : Except Err β :=
  match r.result with
  | .ok b => .ok b
  | .error (.err e) => .error e
  | .error (.runtime _) => .error .runtimeError
  | .error (.traceTime _) => .error .runtimeError

/-- A constant: it has no tangent. -/
def const (l : Leaf) : Dual := (l, Option.none)

/-- `pred` and `index` as arguments. -/
def predArg (b : Bool) : Tree C Dual := .leaf (const (.arr .bool (scalar (.bool b))))
def indexArg (i : Int) : Tree C Dual := .leaf (const (.arr (.integer i) (scalar (.int i))))

/-- The entry of an array of no dimension. -/
def boolOf : Tree C Dual → Except Err Bool
  | .leaf (.arr _ a, _) => match a.at_ [] with
    | .bool b => .ok b
    | _ => .error .typeError
  | _ => .error .typeError

def intOf : Tree C Dual → Except Err Int
  | .leaf (.arr _ a, _) => match a.at_ [] with
    | .int b => .ok b
    | _ => .error .typeError
  | _ => .error .typeError

/-- `_error` (81-157), as the function which is given a rule. -/
def errorFn (msgs : List String) (mode : Mode) : JFn C Dual := fun args _ =>
  match args with
  | [x, p, i] => do
    let b ← boolOf p
    let j ← intOf i
    let out ← outcome (errorCond (x.map Prod.fst) b j msgs mode)
    pure (out.map const)
  | _ => .error .typeError

/-- `_error_jvp` (165-168). -/
def errorJvp (msgs : List String) (mode : Mode) : Rule C Dual := fun args tangents kwargs =>
  match tangents with
  | .node .tuple [tx, _, _] => do
    let out ← jvpCall jax (errorFn msgs mode) args kwargs
    pure (out, tx)
  | _ => .error .valueError

/-- `msgs=msgs, on_error=on_error, stack=stack` -/
def errorKw (msgs : List String) : Kw C Dual :=
  [("msgs", .node .tuple (msgs.map fun _ => .leaf (const (.obj 0)))), ("on_error", .leaf (const (.obj 0))),
    ("stack", .leaf (const (.obj 0)))]

/-- The end of `branched_error_if_impl` (337-344) under differentiation. The second result gives the tangent of the leaf at a position. -/
def threadDiff (x : Tree C Dual) (pred : Bool) (index : Int) (msgs : List String) (mode : Mode) :
    Except Err (Tree C Leaf × (List Nat → Option Leaf)) := do
  let p ← Custom.part (fun d => d.1.isArray) x
  if p.1.leaves.length = 0 then .error .valueError
  else do
    let r ← jvpDiffCall jax (errorJvp msgs mode) (fun d => d.2.map const) [p.1, predArg pred, indexArg index] (errorKw msgs)
    let out ← Filters.combine noLeaf [r.1, p.2]
    pure (out.map Prod.fst, fun π => (r.2.leafAt? π).bind fun t => t.map Prod.fst)

/-- What a tree that is returned as it is has as tangents. -/
def ownTangent (x : Tree C Dual) (π : List Nat) : Option Leaf := (x.leafAt? π).bind fun d => if inexact d.1 then d.2 else Option.none

/-- `branched_error_if_impl` (283-344) under differentiation. -/
def implDiff (env : Mode) (x : Tree C Dual) (pred : Pred) (index : Index) (msgs : List String) (onError : OnError) :
    Except Err (Tree C Leaf × (List Nat → Option Leaf)) := do
  let mode ← resolveMode env onError
  let idx ← resolveIndex index
  match resolvePred pred with
  | .static false => pure (x.map Prod.fst, ownTangent x)
  | .static true =>
    match idx with
    | .static i =>
      match mode with
      | .raise => do
        let _ ← pyIndex msgs i
        .error .runtimeError
      | .breakpoint => do
        let _ ← pyIndex msgs i
        threadDiff x true i msgs mode
      | .nan => do
        let out ← treeMap1 noLeaf nanLikeTree (x.map Prod.fst)
        pure (out, fun _ => Option.none)
    | .traced i => threadDiff x true i msgs mode
  | .traced b => threadDiff x b idx.val msgs mode

/-- `branched_error_if` (261-280) under differentiation: `filter_jit` (C27) differentiates what it wraps. -/
def errorIfDiff (env : Mode) (x : Tree C Dual) (pred : Pred) (index : Index) (msgs : List String) (onError : OnError) :
    Except Err (Tree C Leaf × (List Nat → Option Leaf)) :=
  if x.leaves.any (fun d => d.1.isArray) || pred.isArray || index.isArray then
    implDiff env x (tracePred pred) (traceIndex index) msgs onError
  else implDiff env x pred index msgs onError

/-! ## Specification -/

/-- Arrays of floating point or complex numbers. -/
def Differentiable : Leaf → Prop
  | .arr .inexact _ => True
  | .arr .extFloat _ => True
  | _ => False

/-- Everything about the error is known while tracing. -/
def Static (pred : Pred) (index : Index) : Prop := pred.isArray = false ∧ index.isArray = false

/-! ## Theorems -/

theorem jax_lawful : jax.Lawful := by
  constructor
  · rintro ⟨l, t⟩ h
    cases l with
    | arr d a => rfl
    | obj n => cases h
  · intro p h
    simp only [jax, Bool.and_eq_true] at h ⊢
    exact h.1

omit [DecidableEq C] in
theorem boolOf_predArg (b : Bool) : boolOf (predArg b : Tree C Dual) = .ok b := rfl
omit [DecidableEq C] in
theorem intOf_indexArg (i : Int) : intOf (indexArg i : Tree C Dual) = .ok i := rfl

/-- What replaces an array, if anything. -/
def nanOf (l : Leaf) : Leaf :=
  match nanLike l with
  | .ok l' => l'
  | .error _ => l

theorem treeMap_leaves {K : Type} {f : Leaf → Except Err Leaf} {x out : PT K Leaf}
    (F : PT K Leaf → Except Err (PT K Leaf)) (hF : ∀ l, F (.leaf l) = (f l).map PT.leaf)
    (h : treeMap1 noLeaf F x = .ok out) : ∃ g : Leaf → Leaf, out = x.map g ∧ ∀ l ∈ x.leaves, f l = .ok (g l) := by
  have key : ∀ l ∈ x.leaves, ∃ l', f l = .ok l' := by
    intro l hl
    obtain ⟨π, hπ⟩ := AD.exists_path hl
    obtain ⟨o, _, _, H⟩ := treeMap1_ok.1 h
    obtain ⟨y, _, hy⟩ := H π (.leaf l) (by rw [cut_noLeaf_map, leafAt?_map, hπ]; rfl)
    rw [hF] at hy
    cases hf : f l with
    | error e => rw [hf] at hy; cases hy
    | ok l' => exact ⟨l', rfl⟩
  have hg : ∀ l ∈ x.leaves, f l = .ok (match f l with | .ok l' => l' | .error _ => l) := by
    intro l hl
    obtain ⟨l', hl'⟩ := key l hl
    simp only [hl']
  refine ⟨fun l => match f l with | .ok l' => l' | .error _ => l, ?_, hg⟩
  rw [treeMap1_closed (u := x) (c := PT.leaf) (g := fun l => PT.leaf (match f l with | .ok l' => l' | .error _ => l))
    (cut_noLeaf_map x) (fun l hl => by rw [hF, hg l hl]; rfl)] at h
  cases h
  have := join_map_leaf (x.map fun l => match f l with | .ok l' => l' | .error _ => l)
  rwa [map_map] at this

/-- `_error` replaces leaves one by one. -/
theorem errorCond_maps {K : Type} [DecidableEq K] {x out : PT K Leaf} {b : Bool} {i : Int} {msgs : List String} {mode : Mode}
    (h : outcome (errorCond x b i msgs mode) = .ok out) : ∃ g : Leaf → Leaf, out = x.map g := by
  have hid : x = x.map id := (map_id_fun x).symm
  cases mode with
  | raise =>
    simp only [errorCond] at h
    split at h
    · split at h <;> cases h
    · simp only [outcome] at h
      cases h
      exact ⟨_, hid⟩
  | breakpoint =>
    simp only [errorCond] at h
    split at h
    · split at h
      · cases ht : treeMap1 noLeaf nanStructTree x with
        | error e => rw [ht] at h; cases h
        | ok o =>
          rw [ht] at h
          simp only [Run.ofExcept, outcome] at h
          cases h
          obtain ⟨g, hg, _⟩ := treeMap_leaves (f := nanLikeStruct) nanStructTree (fun l => by
            simp only [nanStructTree, bind, Except.bind, pure, Except.pure]
            cases nanLikeStruct l <;> rfl) ht
          exact ⟨g, hg⟩
      · cases h
    · simp only [outcome] at h
      cases h
      exact ⟨_, hid⟩
  | nan =>
    simp only [errorCond] at h
    split at h
    · cases ht : treeMap1 noLeaf nanLikeTree x with
      | error e => rw [ht] at h; cases h
      | ok o =>
        rw [ht] at h
        simp only [Run.ofExcept, outcome] at h
        cases h
        obtain ⟨g, hg, _⟩ := treeMap_leaves (f := nanLike) nanLikeTree (fun l => by
          simp only [nanLikeTree, bind, Except.bind, pure, Except.pure]
          cases nanLike l <;> rfl) ht
        exact ⟨g, hg⟩
    · simp only [outcome] at h
      cases h
      exact ⟨_, hid⟩

omit [DecidableEq C] in
theorem kw_quiet (msgs : List String) : ∀ p ∈ (errorKw msgs : Kw C Dual), ∀ a ∈ p.2.leaves, jax.inexact a = true →
    a.2.map const = Option.none := by
  intro p hp a ha hi
  have : a = const (.obj 0) := by
    simp only [errorKw, List.mem_cons, List.not_mem_nil, or_false] at hp
    rcases hp with rfl | rfl | rfl
    · simp only [leaves, leavesL_eq, List.mem_flatMap, List.mem_map] at ha
      obtain ⟨_, ⟨_, _, rfl⟩, h⟩ := ha
      simpa [leaves] using h
    · simpa [leaves] using ha
    · simpa [leaves] using ha
  subst this
  rfl

/-- The part of `x` that carries the check. -/
def arrays (x : Tree C Dual) : Tree C Dual := withNones (x.map fun d => if d.1.isArray then some d else Option.none)

def others (x : Tree C Dual) : Tree C Dual := withNones (x.map fun d => if d.1.isArray then Option.none else some d)

theorem part_arrays (x : Tree C Dual) : Custom.part (fun d => d.1.isArray) x = .ok (arrays x, others x) := by
  rw [Custom.part_eq]
  rfl

theorem outcome_thread {K : Type} [DecidableEq K] {y dynamic static : PT K Leaf} {b : Bool} {i : Int} {msgs : List String} {mode : Mode}
    (hp : Filters.partition noLeaf (.leaf (.callable fun l => .ok (isArrayTree l))) .none y = .ok (dynamic, static))
    (h0 : ¬ dynamic.leaves.length = 0) :
    outcome (thread y b i msgs mode) =
      (outcome (errorCond dynamic b i msgs mode)).bind fun d => combine noLeaf [d, static] := by
  simp only [thread, hp, h0, if_false]
  generalize errorCond dynamic b i msgs mode = r
  obtain ⟨pr, res⟩ := r
  cases res with
  | error f => cases f <;> rfl
  | ok d =>
    simp only [outcome, Except.bind]
    cases combine noLeaf [d, static] <;> rfl

theorem threadDiff_spec (x : Tree C Dual) (b : Bool) (i : Int) (msgs : List String) (mode : Mode) :
    (∀ e, outcome (thread (x.map Prod.fst) b i msgs mode) = .error e → threadDiff x b i msgs mode = .error e) ∧
    (∀ out, outcome (thread (x.map Prod.fst) b i msgs mode) = .ok out →
      ∃ t, threadDiff x b i msgs mode = .ok (out, t) ∧
        ∀ π d, x.leafAt? π = some d → d.1.isArray = true → t π = if inexact d.1 then d.2 else Option.none) := by
  have hd : (arrays x).map Prod.fst = withNones ((x.map Prod.fst).map fun a =>
      if isArrayTree (PT.leaf a : Tree C Leaf) then some a else Option.none) := by
    rw [arrays, withNones_map, map_map]
    congr 1
    apply map_congr_leaves
    intro d _
    cases h : d.1.isArray <;> simp [isArrayTree, h]
  have hs : (others x).map Prod.fst = withNones ((x.map Prod.fst).map fun a =>
      if isArrayTree (PT.leaf a : Tree C Leaf) then Option.none else some a) := by
    rw [others, withNones_map, map_map]
    congr 1
    apply map_congr_leaves
    intro d _
    cases h : d.1.isArray <;> simp [isArrayTree, h]
  have hp := partition_callable_closed (K := JK C) (isArrayTree (K := JK C)) (x.map Prod.fst)
  rw [← hd, ← hs] at hp
  have hlen : ((arrays x).map Prod.fst).leaves.length = (arrays x).leaves.length := by rw [leaves_map, List.length_map]
  simp only [threadDiff, part_arrays, bind, Except.bind]
  by_cases h0 : (arrays x).leaves.length = 0
  · simp only [thread, hp, hlen, h0, if_true, outcome, Run.fail]
    exact ⟨fun e h => (by cases h; rfl), fun out h => (by cases h)⟩
  · rw [outcome_thread hp (by rw [hlen]; exact h0)]
    simp only [h0, if_false]
    -- the rule
    have hT : Custom.tangents jax (fun d : Dual => d.2.map const)
        (.node .tuple [arrays x, predArg b, indexArg i] : Tree C Dual) =
        .node .tuple [Custom.tangents jax (fun d => d.2.map const) (arrays x), .none, .none] := rfl
    have hrule : errorJvp msgs mode [arrays x, predArg b, indexArg i]
        (Custom.tangents jax (fun d : Dual => d.2.map const) (.node .tuple [arrays x, predArg b, indexArg i])) (errorKw msgs) =
        (outcome (errorCond ((arrays x).map Prod.fst) b i msgs mode)).map fun out =>
          (out.map const, Custom.tangents jax (fun d => d.2.map const) (arrays x)) := by
      rw [hT]
      simp only [errorJvp, Custom.custom_jvp_call, errorFn, boolOf_predArg, intOf_indexArg, bind, Except.bind, pure, Except.pure]
      cases outcome (errorCond ((arrays x).map Prod.fst) b i msgs mode) <;> rfl
    obtain ⟨hE, hO⟩ := (Custom.custom_jvp_diff jax_lawful (errorJvp msgs mode) (fun d => d.2.map const)
      [arrays x, predArg b, indexArg i] (errorKw msgs)).2 (kw_quiet msgs)
    rw [hrule] at hE hO
    cases hc : outcome (errorCond ((arrays x).map Prod.fst) b i msgs mode) with
    | error e0 =>
      have := hE e0 (by rw [hc]; rfl)
      simp only [this, Except.bind]
      exact ⟨fun e h => (by cases h; rfl), fun out h => (by cases h)⟩
    | ok o =>
      obtain ⟨g, rfl⟩ := errorCond_maps hc
      have ho : ((arrays x).map Prod.fst).map g = withNones (x.map fun d => if d.1.isArray then some (g d.1) else Option.none) := by
        rw [arrays, map_map, withNones_map]
        congr 1
        apply map_congr_leaves
        intro d _
        cases h : d.1.isArray <;> simp [h]
      have ho' : (((arrays x).map Prod.fst).map g).map const =
          withNones (x.map fun d => if d.1.isArray then some (const (g d.1)) else Option.none) := by
        rw [ho, withNones_map]
        congr 1
        apply map_congr_leaves
        intro d _
        cases h : d.1.isArray <;> simp [h]
      obtain ⟨r, hr1, hr2⟩ := hO ((((arrays x).map Prod.fst).map g).map const) (Custom.tangents jax (fun d => d.2.map const) (arrays x))
        (by rw [hc]; rfl) (by
          rw [Custom.tangents, Custom.treeStructure_withNones, ho', Custom.treeStructure_withNones, arrays,
            Custom.treeStructure_withNones])
      have e1 : combine noLeaf [((arrays x).map Prod.fst).map g, (others x).map Prod.fst] =
          .ok (x.map fun d => if d.1.isArray then g d.1 else d.1) := by
        have : (others x).map Prod.fst = withNones (x.map fun d => if d.1.isArray then Option.none else some d.1) := by
          rw [others, withNones_map]
          congr 1
          apply map_congr_leaves
          intro d _
          cases h : d.1.isArray <;> simp [h]
        rw [ho, this]
        exact Custom.combine_parts x [fun d => if d.1.isArray then some (g d.1) else Option.none,
          fun d => if d.1.isArray then Option.none else some d.1] _ (by simp) (fun d _ => by
            cases h : d.1.isArray <;> simp [h])
      have e2 : combine noLeaf [(((arrays x).map Prod.fst).map g).map const, others x] =
          .ok (x.map fun d => if d.1.isArray then const (g d.1) else d) := by
        rw [ho', others]
        exact Custom.combine_parts x [fun d => if d.1.isArray then some (const (g d.1)) else Option.none,
          fun d => if d.1.isArray then Option.none else some d] _ (by simp) (fun d _ => by
            cases h : d.1.isArray <;> simp [h])
      simp only [hr1, Except.bind, e1, e2, pure, Except.pure]
      refine ⟨fun e h => (by cases h), fun out h => ?_⟩
      cases h
      refine ⟨_, by
        rw [map_map]
        congr 2
        apply map_congr_leaves
        intro d _
        cases h : d.1.isArray <;> simp [h, const], ?_⟩
      intro π d hπ ha
      have h1 : ((((arrays x).map Prod.fst).map g).map const).leafAt? π = some (const (g d.1)) := by
        rw [ho', leafAt?_withNones, hπ]
        simp [ha]
      have h2 : (Custom.tangents jax (fun d : Dual => d.2.map const) (arrays x)).leafAt? π =
          if inexact d.1 then d.2.map const else Option.none := by
        rw [Custom.tangents, arrays, withNones_withNones, leafAt?_withNones, hπ]
        simp only [Option.bind, ha, if_true]
        rfl
      rw [hr2 π _ h1, h2]
      cases inexact d.1
      · rfl
      · cases hd2 : d.2 <;> simp [const]

theorem implDiff_spec (env : Mode) (x : Tree C Dual) (pred : Pred) (index : Index) (msgs : List String) (onError : OnError) :
    (∀ e, outcome (impl env (x.map Prod.fst) pred index msgs onError) = .error e → implDiff env x pred index msgs onError = .error e) ∧
    (∀ out, outcome (impl env (x.map Prod.fst) pred index msgs onError) = .ok out →
      ∃ t, implDiff env x pred index msgs onError = .ok (out, t) ∧
        (¬ (resolveMode env onError = .ok .nan ∧ resolvePred pred = .static true ∧ ∃ i, resolveIndex index = .ok (.static i)) →
          ∀ π d, x.leafAt? π = some d → d.1.isArray = true → t π = if inexact d.1 then d.2 else Option.none) ∧
        ((resolveMode env onError = .ok .nan ∧ resolvePred pred = .static true ∧ ∃ i, resolveIndex index = .ok (.static i)) →
          ∀ π, t π = Option.none)) := by
  have own : ∀ π d, x.leafAt? π = some d → ownTangent x π = if inexact d.1 then d.2 else Option.none := by
    intro π d h
    simp [ownTangent, h]
  have th : ∀ b i mode,
      ¬ (resolveMode env onError = .ok .nan ∧ resolvePred pred = .static true ∧ ∃ i, resolveIndex index = .ok (.static i)) →
      (∀ e, outcome (thread (x.map Prod.fst) b i msgs mode) = .error e → threadDiff x b i msgs mode = .error e) ∧
      (∀ out, outcome (thread (x.map Prod.fst) b i msgs mode) = .ok out →
        ∃ t, threadDiff x b i msgs mode = .ok (out, t) ∧
          (¬ (resolveMode env onError = .ok .nan ∧ resolvePred pred = .static true ∧ ∃ i, resolveIndex index = .ok (.static i)) →
            ∀ π d, x.leafAt? π = some d → d.1.isArray = true → t π = if inexact d.1 then d.2 else Option.none) ∧
          ((resolveMode env onError = .ok .nan ∧ resolvePred pred = .static true ∧ ∃ i, resolveIndex index = .ok (.static i)) →
            ∀ π, t π = Option.none)) := by
    intro b i mode hn
    obtain ⟨h1, h2⟩ := threadDiff_spec x b i msgs mode
    refine ⟨h1, fun out ho => ?_⟩
    obtain ⟨t, h3, h4⟩ := h2 out ho
    exact ⟨t, h3, fun _ => h4, fun h => absurd h hn⟩
  simp only [impl, implDiff, bind, Except.bind]
  cases hm : resolveMode env onError with
  | error e => simp only [outcome, Run.fail]; exact ⟨fun e h => (by cases h; rfl), fun out h => (by cases h)⟩
  | ok mode =>
    rw [hm] at th
    cases hi : resolveIndex index with
    | error e => simp only [outcome, Run.fail]; exact ⟨fun e h => (by cases h; rfl), fun out h => (by cases h)⟩
    | ok idx =>
      rw [hi] at th
      cases hp : resolvePred pred with
      | traced b =>
        rw [hp] at th
        exact th b idx.val mode (by rintro ⟨_, h, _⟩; cases h)
      | static b =>
        rw [hp] at th
        cases b with
        | false =>
          simp only [outcome]
          refine ⟨fun e h => (by cases h), fun out h => ?_⟩
          cases h
          exact ⟨_, rfl, fun _ π d h _ => own π d h, fun h => by cases h.2.1⟩
        | true =>
          cases idx with
          | traced i => exact th true i mode (by rintro ⟨_, _, _, h⟩; cases h)
          | static i =>
            cases mode with
            | raise =>
              simp only [outcome, Run.fail]
              cases pyIndex msgs i with
              | error e => exact ⟨fun e h => (by cases h; rfl), fun out h => (by cases h)⟩
              | ok m => exact ⟨fun e h => (by cases h; rfl), fun out h => (by cases h)⟩
            | nan =>
              simp only [pure, Except.pure]
              cases treeMap1 noLeaf nanLikeTree (x.map Prod.fst) with
              | error e => exact ⟨fun e h => (by cases h; rfl), fun out h => (by cases h)⟩
              | ok o =>
                refine ⟨fun e h => (by cases h), fun out h => ?_⟩
                cases h
                exact ⟨_, rfl, fun h => absurd ⟨trivial, trivial, i, rfl⟩ h, fun _ _ => rfl⟩
            | breakpoint =>
              cases hpy : pyIndex msgs i with
              | error e =>
                dsimp only
                simp only [hpy, outcome, Run.fail]
                exact ⟨fun e h => (by cases h; rfl), fun out h => (by cases h)⟩
              | ok m =>
                dsimp only
                rw [hpy]
                have := th true i .breakpoint (by rintro ⟨h, _⟩; cases h)
                exact this

/-- **C93**: differentiating `error_if` raises just if calling it does, and gives the same value otherwise; the tangent of every array of
the result is the tangent of that array of `x`, a symbolic zero if it was one. (But if the error was already known while tracing and
is replaced by NaNs, these are constants.) -/
theorem error_if_diff (env : Mode) (x : Tree C Dual) (pred : Pred) (index : Index) (msgs : List String) (onError : OnError) :
    (∀ e, outcome (branchedErrorIf env (x.map Prod.fst) pred index msgs onError) = .error e →
      errorIfDiff env x pred index msgs onError = .error e) ∧
    (∀ out, outcome (branchedErrorIf env (x.map Prod.fst) pred index msgs onError) = .ok out →
      ∃ t, errorIfDiff env x pred index msgs onError = .ok (out, t) ∧
        (¬ (ModeIs env onError .nan ∧ pred.SomeTrue ∧ Static pred index) →
          ∀ π l tl, x.leafAt? π = some (l, tl) → l.isArray = true →
            (Differentiable l → t π = tl) ∧ (¬ Differentiable l → t π = Option.none)) ∧
        (ModeIs env onError .nan ∧ pred.SomeTrue ∧ Static pred index → ∀ π, t π = Option.none)) := by
  have hsame : errorIfDiff env x pred index msgs onError = implDiff env x (tracePred pred) (traceIndex index) msgs onError := by
    unfold errorIfDiff
    split
    · rfl
    · rename_i h
      simp only [Bool.or_eq_true, not_or, Bool.not_eq_true] at h
      cases pred with
      | arr t => simp [Pred.isArray] at h
      | py b =>
        cases index with
        | arr t => simp [Index.isArray] at h
        | py i => rfl
  obtain ⟨h1, h2⟩ := implDiff_spec env x (tracePred pred) (traceIndex index) msgs onError
  have hcond : (resolveMode env onError = .ok .nan ∧ resolvePred (tracePred pred) = .static true ∧
      ∃ i, resolveIndex (traceIndex index) = .ok (.static i)) ↔ (ModeIs env onError .nan ∧ pred.SomeTrue ∧ Static pred index) := by
    have m : resolveMode env onError = .ok .nan ↔ ModeIs env onError .nan := by
      cases onError with
      | default => simp [resolveMode, ModeIs, eq_comm]
      | mode m => simp [resolveMode, ModeIs, eq_comm]
      | other s => simp [resolveMode, ModeIs]
    rw [m]
    cases pred with
    | arr t => simp [Static, Pred.isArray, tracePred, resolvePred, known, unvmapAny, Traced.isTracer]
    | py b =>
      cases index with
      | py i => simp [Static, Pred.isArray, Index.isArray, tracePred, traceIndex, resolvePred, resolveIndex, Pred.SomeTrue]
      | arr t =>
        simp only [Static, Index.isArray, traceIndex, resolveIndex, unvmapMax, bind, Except.bind, pure, Except.pure]
        cases unvmapMax t <;> simp [known, Traced.isTracer]
  rw [hsame, branchedErrorIf_eq]
  refine ⟨h1, fun out ho => ?_⟩
  obtain ⟨t, h3, h4, h5⟩ := h2 out ho
  rw [hcond] at h4 h5
  refine ⟨t, h3, fun hn π l tl hπ ha => ?_, h5⟩
  have := h4 hn π _ hπ ha
  rw [this]
  cases l with
  | obj n => cases ha
  | arr d a => cases d <;> simp [Differentiable, inexact]

/-! ### A concrete case: a float with a tangent, a float without, an integer and a string -/

def exX : Tree Unit Dual := .node .tuple
  [.leaf (.arr .inexact (scalar (.flt 1)), some (.arr .inexact (scalar (.flt 5)))), .leaf (.arr .inexact (scalar (.flt 2)), Option.none),
    .leaf (.arr (.integer 9) (scalar (.int 3)), Option.none), .leaf (.obj 4, Option.none)]

/-- The predicate, known when the program runs. -/
def exPred (b : Bool) : Pred := .arr (.array (scalar b))

def exShow (r : Except Err (Tree Unit Leaf × (List Nat → Option Leaf))) : Except Err (List (Option Scalar) × List (Option Scalar)) :=
  let entry : Leaf → Option Scalar := fun l => match l with
    | .arr _ a => some (a.at_ [])
    | .obj _ => Option.none
  r.map fun p => (p.1.leaves.map entry, [[0], [1], [2], [3]].map fun π => (p.2 π).bind entry)

/-- Without an error: the values and the tangents of `x`. -/
example : exShow (errorIfDiff .raise exX (exPred false) (.py 0) ["m"] .default) =
    .ok ([some (.flt 1), some (.flt 2), some (.int 3), Option.none], [some (.flt 5), Option.none, Option.none, Option.none]) := rfl

/-- With an error replaced by NaNs: the tangents of `x` still. -/
example : exShow (errorIfDiff .nan exX (exPred true) (.py 0) ["m"] .default) =
    .ok ([some .nan, some .nan, some (.int 9), Option.none], [some (.flt 5), Option.none, Option.none, Option.none]) := rfl

/-- With an error: it is raised. -/
example : exShow (errorIfDiff .raise exX (exPred true) (.py 0) ["m"] .default) = .error .runtimeError := rfl

end Diff
end Errors
end Verif
