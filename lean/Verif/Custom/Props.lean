import Verif.Custom.Model
import Verif.AD.Jvp

/-! # C49: custom derivatives get and give back what the user passed -/

namespace Verif
namespace Custom

open PT Filters
open Jit (JK)
open AD (keep drop leaves_keep Simple zip_cut)

variable {C α : Type}

/-- Only inexact arrays carry tangents. -/
structure Jax.Lawful (J : Jax α) : Prop where
  inexact_array : ∀ a, J.inexact a = true → J.array a = true
  perturbed_inexact : ∀ a, J.perturbed a = true → J.inexact a = true

variable [DecidableEq C]

theorem part_eq (q : α → Bool) (x : Tree C α) : part q x = .ok (withNones (x.map (keep q)), withNones (x.map (drop q))) := by
  rw [part, partition_callable_closed]
  rfl

omit [DecidableEq C] in
theorem unpack_pack (args : List (Tree C α)) (kwargs : Kw C α) : unpack (pack args kwargs) = .ok (args, kwargs) := by
  simp only [unpack, pack, Except.ok.injEq, Prod.mk.injEq, true_and]
  induction kwargs with
  | nil => rfl
  | cons p l ih => simp [ih]

/-- Parts which cover everything give back the tree. -/
theorem combine_parts {δ : Type} (x : Tree C δ) (fs : List (δ → Option α)) (g : δ → α) (hne : fs ≠ [])
    (h : ∀ a ∈ x.leaves, fs.findSome? (· a) = some (g a)) :
    combine noLeaf (fs.map fun f => withNones (x.map f)) = .ok (x.map g) := by
  rw [combine_closed x fs hne, ← withNones_some x g]
  congr 2
  exact map_congr_leaves h

theorem combine_keep_drop (q : α → Bool) (x : Tree C α) :
    combine noLeaf [withNones (x.map (keep q)), withNones (x.map (drop q))] = .ok x := by
  have := combine_parts x [keep q, drop q] (fun a => a) (by simp) (by
    intro a _
    simp only [List.findSome?_cons, List.findSome?_nil, keep, drop]
    cases q a <;> rfl)
  rw [map_id_fun] at this
  exact this

theorem combine_drop_keep (q : α → Bool) (x : Tree C α) :
    combine noLeaf [withNones (x.map (drop q)), withNones (x.map (keep q))] = .ok x := by
  have := combine_parts x [drop q, keep q] (fun a => a) (by simp) (by
    intro a _
    simp only [List.findSome?_cons, List.findSome?_nil, keep, drop]
    cases q a <;> rfl)
  rw [map_id_fun] at this
  exact this

/-! ### `nondifferentiable` -/

/-- **C49**, `nondifferentiable`: an error if an array carries a tangent, and otherwise the identity on all trees. -/
theorem nondifferentiable_spec (J : Jax α) (x : Tree C α) :
    ((∃ a ∈ x.leaves, J.array a = true ∧ J.perturbed a = true) → nondifferentiable J x = .error .runtimeError) ∧
    ((∀ a ∈ x.leaves, J.array a = true → J.perturbed a = false) → nondifferentiable J x = .ok x) := by
  have e : (withNones (x.map (keep J.array))).leaves = x.leaves.filter J.array := leaves_keep _ _
  simp only [nondifferentiable, part_eq, bind, Except.bind, e, combine_keep_drop]
  constructor
  · rintro ⟨a, h1, h2, h3⟩
    rw [if_pos]
    · rfl
    · rw [List.any_eq_true]
      exact ⟨a, List.mem_filter.2 ⟨h1, h2⟩, h3⟩
  · intro h
    rw [if_neg]
    rw [List.any_eq_true]
    rintro ⟨a, h1, h2⟩
    rw [List.mem_filter] at h1
    rw [h a h1.1 h1.2] at h2
    cases h2

/-! ### `filter_custom_vjp` -/

/-- `diff_array_...` -/
def fDiff (J : Jax α) (a : α) : Option α := (keep J.array a).bind (keep J.inexact)
/-- `nondiff_array_...` -/
def fNondiff (J : Jax α) (a : α) : Option α := (keep J.array a).bind (drop J.inexact)

theorem split_eq (J : Jax α) (x : Tree C α) :
    split J x = .ok ⟨withNones (x.map (fDiff J)), withNones (x.map (fNondiff J)), withNones (x.map (drop J.array))⟩ := by
  simp only [split, part_eq, bind, Except.bind, pure, Except.pure, withNones_withNones]
  rfl

theorem assemble_eq (J : Jax α) (x : Tree C α) :
    assemble ⟨withNones (x.map (fDiff J)), withNones (x.map (fNondiff J)), withNones (x.map (drop J.array))⟩ = .ok x := by
  have := combine_parts x [fDiff J, fNondiff J, drop J.array] (fun a => a) (by simp) (by
    intro a _
    simp only [List.findSome?_cons, List.findSome?_nil, fDiff, fNondiff, keep, drop]
    cases hA : J.array a <;> cases hI : J.inexact a <;> simp [hI, keep, drop])
  rw [map_id_fun] at this
  exact this

theorem combine3_eq (J : Jax α) (x : Tree C α) :
    combine noLeaf [withNones (x.map (drop J.array)), withNones (x.map (fDiff J)), withNones (x.map (fNondiff J))] = .ok x := by
  have := combine_parts x [drop J.array, fDiff J, fNondiff J] (fun a => a) (by simp) (by
    intro a _
    simp only [List.findSome?_cons, List.findSome?_nil, fDiff, fNondiff, keep, drop]
    cases hA : J.array a <;> cases hI : J.inexact a <;> simp [hI, keep, drop])
  rw [map_id_fun] at this
  exact this

/-- Some array among the other arguments carries a tangent. -/
def ArgsPerturbed (J : Jax α) (args : List (Tree C α)) (kwargs : Kw C α) : Prop :=
  ∃ a, ((∃ t ∈ args, a ∈ t.leaves) ∨ ∃ p ∈ kwargs, a ∈ p.2.leaves) ∧ J.array a = true ∧ J.perturbed a = true

omit [DecidableEq C] in
theorem mem_leaves_pack {args : List (Tree C α)} {kwargs : Kw C α} {a : α} :
    a ∈ (pack args kwargs).leaves ↔ (∃ t ∈ args, a ∈ t.leaves) ∨ ∃ p ∈ kwargs, a ∈ p.2.leaves := by
  simp only [pack, leaves, leavesL, leavesL_eq, List.mem_append, List.mem_flatMap, List.mem_map, List.append_nil]
  constructor
  · rintro (h | ⟨t, ⟨p, hp, rfl⟩, ht⟩)
    · exact .inl h
    · exact .inr ⟨p, hp, ht⟩
  · rintro (h | ⟨p, hp, ht⟩)
    · exact .inl h
    · exact .inr ⟨_, ⟨p, hp, rfl⟩, ht⟩

theorem prepare_eq (J : Jax α) (s : Vjp C α) (hs : s.wrapped = true) (x : Tree C α) (args : List (Tree C α)) (kwargs : Kw C α) :
    (ArgsPerturbed J args kwargs → s.prepare J x args kwargs = .error .runtimeError) ∧
    (¬ ArgsPerturbed J args kwargs → s.prepare J x args kwargs =
      .ok ⟨⟨withNones (x.map (fDiff J)), withNones (x.map (fNondiff J)), withNones (x.map (drop J.array))⟩,
        withNones ((pack args kwargs).map (keep J.array)), withNones ((pack args kwargs).map (drop J.array))⟩) := by
  have hn := nondifferentiable_spec J (withNones ((pack args kwargs).map (keep J.array)))
  rw [leaves_keep] at hn
  simp only [Vjp.prepare, hs, Bool.not_true, Bool.false_eq_true, if_false, split_eq, part_eq, bind, Except.bind]
  constructor
  · rintro ⟨a, h1, h2, h3⟩
    rw [hn.1 ⟨a, List.mem_filter.2 ⟨mem_leaves_pack.2 h1, h2⟩, h2, h3⟩]
  · intro h
    rw [hn.2 ?_]
    · rfl
    · intro a h1 h2
      cases h3 : J.perturbed a with
      | false => rfl
      | true => exact absurd ⟨a, mem_leaves_pack.1 (List.mem_filter.1 h1).1, h2, h3⟩ h

theorem fnWrapped_eq (J : Jax α) (fn : Fn C α) (x : Tree C α) (args : List (Tree C α)) (kwargs : Kw C α) :
    fnWrapped J fn (withNones (x.map (drop J.array))) (withNones ((pack args kwargs).map (drop J.array)))
      (withNones (x.map (fDiff J))) (withNones (x.map (fNondiff J))) (withNones ((pack args kwargs).map (keep J.array))) = (do
      let out ← fn x args kwargs
      split J out) := by
  simp only [fnWrapped, combine3_eq, combine_drop_keep, unpack_pack, bind, Except.bind]

/-- What the user does to a `filter_custom_vjp`. -/
inductive Step (C α : Type) where
  | fwd (f : Fwd C α)
  | bwd (f : Bwd C α)

def Step.run (s : Vjp C α) : Step C α → Vjp C α
  | .fwd f => s.defFwd f
  | .bwd f => s.defBwd f

/-- A `filter_custom_vjp` after some calls of `def_fwd` and `def_bwd`. -/
def build (fn : Fn C α) (steps : List (Step C α)) : Vjp C α := steps.foldl Step.run (.new fn)

/-- The last forward rule. -/
def lastFwd : List (Step C α) → Option (Fwd C α)
  | [] => Option.none
  | s :: steps => (lastFwd steps).or (match s with
    | .fwd f => some f
    | .bwd _ => Option.none)

/-- The last backward rule. -/
def lastBwd : List (Step C α) → Option (Bwd C α)
  | [] => Option.none
  | s :: steps => (lastBwd steps).or (match s with
    | .bwd f => some f
    | .fwd _ => Option.none)

omit [DecidableEq C] in
theorem foldl_run (steps : List (Step C α)) (s : Vjp C α) (hs : s.wrapped = (s.fwd.isSome && s.bwd.isSome)) :
    let s' := steps.foldl Step.run s
    s'.fn = s.fn ∧ s'.fwd = (lastFwd steps).or s.fwd ∧ s'.bwd = (lastBwd steps).or s.bwd ∧
      s'.wrapped = (s'.fwd.isSome && s'.bwd.isSome) := by
  induction steps generalizing s with
  | nil => simpa [lastFwd, lastBwd] using hs
  | cons a l ih =>
    have := ih (a.run s) (by
      cases a with
      | fwd f => simp only [Step.run, Vjp.defFwd, hs]; cases s.fwd <;> cases s.bwd <;> rfl
      | bwd f => simp only [Step.run, Vjp.defBwd, hs]; cases s.fwd <;> cases s.bwd <;> rfl)
    obtain ⟨h1, h2, h3, h4⟩ := this
    refine ⟨?_, ?_, ?_, h4⟩
    · simp only [List.foldl_cons]
      rw [h1]
      cases a <;> rfl
    · simp only [List.foldl_cons]
      rw [h2]
      simp only [lastFwd]
      cases a <;> cases lastFwd l <;> rfl
    · simp only [List.foldl_cons]
      rw [h3]
      simp only [lastBwd]
      cases a <;> cases lastBwd l <;> rfl

omit [DecidableEq C] in
theorem build_spec (fn : Fn C α) (steps : List (Step C α)) :
    (build fn steps).fn = fn ∧ (build fn steps).fwd = lastFwd steps ∧ (build fn steps).bwd = lastBwd steps ∧
      (build fn steps).wrapped = ((lastFwd steps).isSome && (lastBwd steps).isSome) := by
  obtain ⟨h1, h2, h3, h4⟩ := foldl_run steps (.new fn) rfl
  have e2 : (build fn steps).fwd = lastFwd steps := by rw [build, h2]; cases lastFwd steps <;> rfl
  have e3 : (build fn steps).bwd = lastBwd steps := by rw [build, h3]; cases lastBwd steps <;> rfl
  exact ⟨h1, e2, e3, by rw [← e2, ← e3]; exact h4⟩

/-- **C49**, `filter_custom_vjp` before both rules are given: calling it is a `RuntimeError`. -/
theorem custom_vjp_unready (J : Jax α) (fn : Fn C α) (steps : List (Step C α)) (x : Tree C α) (args : List (Tree C α)) (kwargs : Kw C α)
    (h : lastFwd steps = Option.none ∨ lastBwd steps = Option.none) :
    (build fn steps).call J x args kwargs = .error .runtimeError ∧
    (∃ e, (build fn steps).diffCall J x args kwargs = .error e) := by
  have hw : (build fn steps).wrapped = false := by
    rw [(build_spec fn steps).2.2.2]
    rcases h with h | h <;> simp [h]
  have : (build fn steps).prepare J x args kwargs = .error .runtimeError := by
    simp [Vjp.prepare, hw, bind, Except.bind, throw, throwThe, MonadExceptOf.throw]
  exact ⟨by simp [Vjp.call, this, bind, Except.bind], ⟨_, by simp [Vjp.diffCall, this, bind, Except.bind]; rfl⟩⟩

/-- **C49**, `filter_custom_vjp` without differentiation: it is `fn` on the arguments as passed, result and exceptions
unchanged. -/
theorem custom_vjp_call (J : Jax α) (fn : Fn C α) (steps : List (Step C α)) (x : Tree C α) (args : List (Tree C α)) (kwargs : Kw C α)
    (h1 : (lastFwd steps).isSome = true) (h2 : (lastBwd steps).isSome = true) :
    (¬ ArgsPerturbed J args kwargs → (build fn steps).call J x args kwargs = fn x args kwargs) ∧
    (ArgsPerturbed J args kwargs → (build fn steps).call J x args kwargs = .error .runtimeError) := by
  obtain ⟨e1, -, -, e4⟩ := build_spec fn steps
  obtain ⟨p1, p2⟩ := prepare_eq J (build fn steps) (by rw [e4, h1, h2]; rfl) x args kwargs
  constructor
  · intro h
    simp only [Vjp.call, p2 h, bind, Except.bind, fnWrapped_eq, e1]
    cases fn x args kwargs with
    | error e => rfl
    | ok out => simp only [split_eq, assemble_eq]
  · intro h
    simp only [Vjp.call, p1 h, bind, Except.bind]

/-- The cotangent that is passed on: `None` for leaves of the output without a cotangent. -/
def Cotangent (J : Jax α) (out : Tree C α) (cts : List (Option α)) (g : Tree C α) : Prop :=
  ∃ m : Tree C (α × Option α), m.map Prod.fst = out ∧ withNones (m.map Prod.snd) = g ∧
    (∀ p ∈ m.leaves, J.inexact p.1 = false → p.2 = Option.none) ∧
    (m.leaves.filter fun p => J.inexact p.1).map Prod.snd = cts

/-- Checks and conversion of the gradient which the backward rule returned: it must have the structure of the first argument up to
`None`; for each inexact array the gradient, or a symbolic zero for `None`. -/
def Checked (J : Jax α) (x g : Tree C α) (r : Except Err (Tree C (Option α))) : Prop :=
  (g.treeStructure isNone ≠ x.treeStructure isNone → r = .error .runtimeError) ∧
  (g.treeStructure isNone = x.treeStructure isNone → ∃ t, r = .ok t ∧
    ∀ π a, x.leafAt? π = some a → J.inexact a = true → t.leafAt? π = some (g.leafAt? π))

omit [DecidableEq C] in
theorem treeStructure_withNones {K δ β : Type} (x : PT K δ) (f : δ → Option β) :
    (withNones (x.map f)).treeStructure isNone = x.treeStructure isNone := by
  rw [treeStructure, treeStructure, cutNone_withNones, shape_map]

/-- `None` becomes a symbolic zero where the other tree has a leaf. -/
theorem none_to_zero (g y : Tree C α) (h : g.treeStructure isNone = y.treeStructure isNone) :
    ∃ t, treeMap2 isNone noneToZero g y = .ok t ∧ ∀ π a, y.leafAt? π = some a → t.leafAt? π = some (g.leafAt? π) := by
  obtain ⟨z, h1, h2, hz⟩ := zip_cut h
  have hg : g = (z.map Prod.fst).join := by rw [h1, join_cut]
  have hy : y = (z.map Prod.snd).join := by rw [h2, join_cut]
  let G : Tree C α × Tree C α → Tree C (Option α) := fun p => match p.1, p.2 with
    | .none, .none => .none
    | .none, _ => .leaf Option.none
    | .leaf c, _ => .leaf (some c)
    | .node _ _, _ => .none
  have hr := treeMap2_closed (p := isNone) (F := noneToZero) (s := g) (t := y) (u := z)
    (b := Prod.fst) (c := Prod.snd) (g := G) h1.symm hy (by
      intro p hp
      obtain ⟨p1, p2⟩ := p
      obtain ⟨s1, s2⟩ := hz _ hp
      rcases s1 with ⟨c, rfl⟩ | rfl
      · cases p2 <;> rfl
      · rcases s2 with ⟨a, rfl⟩ | rfl <;> rfl)
  rw [hr]
  refine ⟨_, rfl, ?_⟩
  intro π a ha
  rw [hy, leafAt?_join] at ha
  obtain ⟨σ, ρ, w, rfl, hw, hwa⟩ := ha
  rw [leafAt?_map] at hw
  cases hσ : z.leafAt? σ with
  | none => rw [hσ] at hw; cases hw
  | some p =>
    rw [hσ] at hw
    simp only [Option.map_some, Option.some.injEq] at hw
    subst hw
    have hp : p ∈ z.leaves := by
      obtain ⟨i, -, hi⟩ := index_of_leafAt? hσ
      exact List.mem_of_getElem? ((hi z rfl).symm.trans hσ)
    obtain ⟨s1, s2⟩ := hz p hp
    rcases s2 with ⟨b, hb⟩ | hb
    · rw [hb] at hwa
      cases ρ with
      | cons i ρ => simp [leafAt?, get?] at hwa
      | nil =>
        rw [List.append_nil]
        have e1 : (z.map G).join.get? σ = some (G p) := get?_join_nil (by rw [leafAt?_map, hσ]; rfl)
        have e2 : g.get? σ = some p.1 := by rw [hg]; exact get?_join_nil (by rw [leafAt?_map, hσ]; rfl)
        rcases s1 with ⟨c, hc⟩ | hc
        · have : g.leafAt? σ = some c := leafAt?_eq_some.2 (by rw [e2, hc])
          rw [this, leafAt?_eq_some, e1]
          simp [G, hc]
        · have : g.leafAt? σ = Option.none := by simp [leafAt?, e2, hc]
          rw [this, leafAt?_eq_some, e1]
          simp [G, hc, hb]
    · rw [hb] at hwa
      cases ρ <;> simp [leafAt?, get?] at hwa

theorem checked_none_to_zero {J : Jax α} (hJ : J.Lawful) (x g : Tree C α) : Checked J x g (do
    if g.treeStructure isNone ≠ (withNones (x.map (fDiff J))).treeStructure isNone then throw Err.runtimeError
    treeMap2 isNone noneToZero g (withNones (x.map (fDiff J)))) := by
  constructor
  · intro h
    rw [treeStructure_withNones]
    simp [h, bind, Except.bind, throw, throwThe, MonadExceptOf.throw]
  · intro h
    obtain ⟨t, h1, h2⟩ := none_to_zero g (withNones (x.map (fDiff J))) (by rw [treeStructure_withNones]; exact h)
    rw [treeStructure_withNones]
    simp only [h, ne_eq, not_true_eq_false, if_false, bind, Except.bind, pure, Except.pure]
    refine ⟨t, h1, ?_⟩
    intro π a ha hi
    refine h2 π a ?_
    rw [leafAt?_withNones, ha]
    simp [fDiff, keep, hJ.inexact_array a hi, hi]

theorem unflatten_cotangent {J : Jax α} (hJ : J.Lawful) {out g : Tree C α} {cts : List (Option α)} (h : Cotangent J out cts g) :
    ∃ t : Tree C (Option α), treeUnflatten (withNones (out.map (fDiff J))).shape (cts.map fun a => .leaf a) = .ok t ∧
      (t.map zeroToNone).join = g := by
  obtain ⟨m, rfl, rfl, h3, rfl⟩ := h
  let f : α × Option α → Option (Option α) := fun p => if J.inexact p.1 then some p.2 else Option.none
  have e1 : (withNones (m.map f)).shape = (withNones ((m.map Prod.fst).map (fDiff J))).shape := by
    rw [map_map]
    apply shape_withNones
    intro p _
    simp only [f, fDiff, keep]
    cases hi : J.inexact p.1
    · cases J.array p.1 <;> simp [hi, keep]
    · simp [hJ.inexact_array _ hi, hi, keep]
  have e2 : (withNones (m.map f)).leaves = (m.leaves.filter fun p => J.inexact p.1).map Prod.snd := by
    rw [leaves_withNones]
    induction m.leaves with
    | nil => rfl
    | cons p l ih => by_cases hq : J.inexact p.1 = true <;> simp_all [f]
  have e3 := treeUnflatten_shape ((withNones (m.map f)).map fun l => (.leaf l : Tree C (Option α)))
  rw [shape_map, leaves_map, e1, e2, join_map_leaf] at e3
  refine ⟨_, e3, ?_⟩
  have e4 : ∀ t : Tree C (Option α), (t.map zeroToNone).join = withNones t := by
    intro t
    rw [withNones]
    congr 1
  rw [e4]
  have := withNones_withNones m f (fun x => x)
  rw [map_id_fun] at this
  rw [this]
  congr 1
  apply map_congr_leaves
  intro p hp
  simp only [f]
  cases hi : J.inexact p.1
  · simp [h3 p hp hi]
  · simp

theorem perturbed_eq {J : Jax α} (hJ : J.Lawful) (x : Tree C α) :
    combine noLeaf [(withNones (x.map (drop J.array))).map fun _ => false,
      (primal J (withNones (x.map (fNondiff J)))).map fun _ => false, (primal J (withNones (x.map (fDiff J)))).map Prod.snd] =
      .ok (x.map J.perturbed) := by
  simp only [primal, withNones_map, Option.map_map]
  refine combine_parts x [fun a => (drop J.array a).map fun _ => false,
    fun a => (fNondiff J a).map ((fun _ => false) ∘ fun a => (a, J.perturbed a)),
    fun a => (fDiff J a).map (Prod.snd ∘ fun a => (a, J.perturbed a))] J.perturbed (by simp) ?_
  intro a _
  have h1 : J.inexact a = false → J.perturbed a = false := by
    intro h
    cases hp : J.perturbed a with
    | false => rfl
    | true => rw [hJ.perturbed_inexact a hp] at h; cases h
  simp only [List.findSome?_cons, List.findSome?_nil, fDiff, fNondiff, keep, drop]
  cases ha : J.array a
  · cases hi : J.inexact a
    · simp [h1 hi]
    · rw [hJ.inexact_array a hi] at ha; cases ha
  · cases hi : J.inexact a <;> simp [h1, hi, keep, drop]

omit [DecidableEq C] in
theorem values_primal (J : Jax α) (t : Tree C α) (h : ∀ a ∈ t.leaves, J.perturbed a = false) : values (primal J t) = .ok t := by
  have : (primal J t).leaves.any Prod.snd = false := by
    rw [List.any_eq_false]
    intro p hp
    rw [primal, leaves_map, List.mem_map] at hp
    obtain ⟨a, ha, rfl⟩ := hp
    simp [h a ha]
  rw [values, this, primal, map_map, map_id_fun]
  rfl

/-- **C49**, `filter_custom_vjp` with differentiation. The forward rule is called with the arguments as passed and with a tree of the
structure of the first argument which says which leaves are perturbed; its output is returned unchanged. The backward rule is
called with the residuals, the cotangent (`None` for leaves without one), the same tree of perturbations, and the
arguments as passed; what it returns is checked against the first argument. -/
theorem custom_vjp_diff {J : Jax α} (hJ : J.Lawful) (fn : Fn C α) (steps : List (Step C α)) {fwd : Fwd C α} {bwd : Bwd C α}
    (h1 : lastFwd steps = some fwd) (h2 : lastBwd steps = some bwd) (x : Tree C α) (args : List (Tree C α)) (kwargs : Kw C α) :
    (ArgsPerturbed J args kwargs → (build fn steps).diffCall J x args kwargs = .error .runtimeError) ∧
    (¬ ArgsPerturbed J args kwargs →
      (∀ e, fwd (x.map J.perturbed) x args kwargs = .error e → (build fn steps).diffCall J x args kwargs = .error e) ∧
      (∀ out res, fwd (x.map J.perturbed) x args kwargs = .ok (out, res) →
        ∃ pull, (build fn steps).diffCall J x args kwargs = .ok (out, pull) ∧
          ∀ cts ct, Cotangent J out cts ct →
            (∀ e, bwd res ct (x.map J.perturbed) x args kwargs = .error e → pull cts = .error e) ∧
            (∀ g, bwd res ct (x.map J.perturbed) x args kwargs = .ok g → Checked J x g (pull cts)))) := by
  obtain ⟨e1, e2, e3, e4⟩ := build_spec fn steps
  obtain ⟨p1, p2⟩ := prepare_eq J (build fn steps) (by rw [e4, h1, h2]; rfl) x args kwargs
  constructor
  · intro h
    simp only [Vjp.diffCall, p1 h, bind, Except.bind]
  · intro h
    have v1 : values (primal J (withNones (x.map (fNondiff J)))) = .ok (withNones (x.map (fNondiff J))) := by
      apply values_primal
      intro a ha
      rw [leaves_withNones, List.mem_filterMap] at ha
      obtain ⟨b, -, hb⟩ := ha
      simp only [fNondiff, keep, drop] at hb
      cases hp : J.perturbed a with
      | false => rfl
      | true =>
        have := hJ.perturbed_inexact a hp
        cases hab : J.array b <;> cases hib : J.inexact b <;> simp_all [drop]
    have v2 : values (primal J (withNones ((pack args kwargs).map (keep J.array)))) =
        .ok (withNones ((pack args kwargs).map (keep J.array))) := by
      apply values_primal
      intro a ha
      rw [leaves_keep, List.mem_filter] at ha
      cases hp : J.perturbed a with
      | false => rfl
      | true => exact absurd ⟨a, mem_leaves_pack.1 ha.1, ha.2, hp⟩ h
    have v3 : (primal J (withNones (x.map (fDiff J)))).map Prod.fst = withNones (x.map (fDiff J)) := by
      rw [primal, map_map, map_id_fun]
    have hf : fwdWrapped J fwd (withNones (x.map (drop J.array))) (withNones ((pack args kwargs).map (drop J.array)))
        (primal J (withNones (x.map (fDiff J)))) (primal J (withNones (x.map (fNondiff J))))
        (primal J (withNones ((pack args kwargs).map (keep J.array)))) = (do
        let r ← fwd (x.map J.perturbed) x args kwargs
        pure (⟨withNones (r.1.map (fDiff J)), withNones (r.1.map (fNondiff J)), withNones (r.1.map (drop J.array))⟩,
          ⟨withNones (r.2.map (keep J.array)), withNones (r.2.map (drop J.array)), withNones (x.map (fDiff J)),
            withNones (x.map (fNondiff J)), withNones ((pack args kwargs).map (keep J.array)), x.map J.perturbed⟩)) := by
      simp only [fwdWrapped, perturbed_eq hJ, v1, v2, v3, combine3_eq, combine_drop_keep, unpack_pack, part_eq, bind, Except.bind,
        withNones_withNones]
      rfl
    constructor
    · intro e he
      simp only [Vjp.diffCall, p2 h, e2, e3, h1, h2, hf, he, bind, Except.bind]
    · intro out res he
      refine ⟨_, by simp only [Vjp.diffCall, p2 h, e2, e3, h1, h2, hf, he, bind, Except.bind, pure, Except.pure, assemble_eq]; rfl, ?_⟩
      intro cts ct hct
      obtain ⟨t, t1, t2⟩ := unflatten_cotangent hJ hct
      simp only [t1, bwdWrapped, t2, combine_keep_drop, combine3_eq, combine_drop_keep, unpack_pack, bind, Except.bind]
      constructor
      · intro e he
        simp only [he]
      · intro g hg
        simp only [hg]
        exact checked_none_to_zero hJ x g

/-- **C49**, the deprecated `defvjp`: forward and backward rule get the arguments as passed, and the backward rule the residuals and a
cotangent with an array for every inexact array of the output (zeros if it has no cotangent) and `None` elsewhere. -/
theorem custom_vjp_old {J : Jax α} (s : Vjp C α) (fwd : Tree C α → List (Tree C α) → Kw C α → Except Err (Tree C α × Tree C α))
    (bwd : Tree C α → Tree C α → Tree C α → List (Tree C α) → Kw C α → Except Err (Tree C α)) :
    ∃ fwd' bwd', s.defVjp J fwd bwd = (s.defFwd fwd').defBwd bwd' ∧
      (∀ P x args kwargs, fwd' P x args kwargs = (fwd x args kwargs).map fun r => (r.1, .node .tuple [r.1, r.2])) ∧
      ∀ out res (m : Tree C (α × Option α)) P x args kwargs, m.map Prod.fst = out →
        (∀ p ∈ m.leaves, J.inexact p.1 = false → p.2 = Option.none) →
        bwd' (.node .tuple [out, res]) (withNones (m.map Prod.snd)) P x args kwargs =
          bwd res (withNones (m.map fun p => if J.inexact p.1 then some (p.2.getD (J.zeros p.1)) else Option.none)) x args kwargs := by
  refine ⟨_, _, rfl, ?_, ?_⟩
  · intro P x args kwargs
    simp only [oldFwd, bind, Except.bind, pure, Except.pure]
    cases fwd x args kwargs <;> rfl
  · rintro out res m P x args kwargs rfl hm
    have := treeMap2_closed (p := noLeaf) (F := materialise J) (s := m.map Prod.fst) (t := withNones (m.map Prod.snd)) (u := m)
      (b := fun p => .leaf p.1) (c := fun p => orNone p.2)
      (g := fun p => orNone (if J.inexact p.1 then some (p.2.getD (J.zeros p.1)) else Option.none))
      (by rw [cut_noLeaf, map_map]) (by rw [withNones, map_map]) (by
        intro p hp
        cases h2 : p.2 with
        | none => cases hi : J.inexact p.1 <;> simp [orNone, materialise, hi]
        | some g =>
          cases hi : J.inexact p.1
          · rw [hm p hp hi] at h2; cases h2
          · simp [orNone, materialise])
    simp only [oldBwd, this, bind, Except.bind]
    rw [withNones, map_map]

/-! ### `filter_custom_jvp` -/

/-- **C49**, `filter_custom_jvp` without differentiation. -/
theorem custom_jvp_call (J : Jax α) (fn : JFn C α) (args : List (Tree C α)) (kwargs : Kw C α) :
    jvpCall J fn args kwargs = fn args kwargs := by
  simp only [jvpCall, part_eq, fnWrapper, combine_keep_drop, unpack_pack, bind, Except.bind]

/-- Tangents that the rule gets: `None` for everything but inexact arrays that have one. -/
def tangents (J : Jax α) (tangent : α → Option α) (t : Tree C α) : Tree C α :=
  withNones (t.map fun a => if J.inexact a then tangent a else Option.none)

/-- **C49**, `filter_custom_jvp` with differentiation: a keyword argument with a tangent is a `ValueError`; otherwise the rule is
called with the arguments as passed and with their tangents, its output is returned unchanged, and a tangent `None` of an output
becomes a symbolic zero. -/
theorem custom_jvp_diff {J : Jax α} (hJ : J.Lawful) (rule : Rule C α) (tangent : α → Option α) (args : List (Tree C α)) (kwargs : Kw C α) :
    ((∃ p ∈ kwargs, ∃ a ∈ p.2.leaves, J.inexact a = true ∧ (tangent a).isSome = true) →
      jvpDiffCall J rule tangent args kwargs = .error .valueError) ∧
    ((∀ p ∈ kwargs, ∀ a ∈ p.2.leaves, J.inexact a = true → tangent a = Option.none) →
      (∀ e, rule args (tangents J tangent (.node .tuple args)) kwargs = .error e →
        jvpDiffCall J rule tangent args kwargs = .error e) ∧
      (∀ out t, rule args (tangents J tangent (.node .tuple args)) kwargs = .ok (out, t) →
        t.treeStructure isNone = out.treeStructure isNone →
        ∃ r, jvpDiffCall J rule tangent args kwargs = .ok (out, r) ∧
          ∀ π a, out.leafAt? π = some a → r.leafAt? π = some (t.leafAt? π))) := by
  have e1 : ∀ x : Tree C α, (((withNones (x.map (keep J.array))).map fun a => (a, tangent a)).map (dropNondiff J)).join =
      tangents J tangent x := by
    intro x
    have : ∀ t : Tree C (α × Option α), (t.map (dropNondiff J)).join =
        withNones (t.map fun p => if J.inexact p.1 then p.2 else Option.none) := by
      intro t
      rw [withNones, map_map]
      congr 1
      apply map_congr_leaves
      intro p _
      simp only [dropNondiff]
      cases p.2 <;> cases J.inexact p.1 <;> rfl
    rw [this, map_map, withNones_withNones, tangents]
    congr 1
    apply map_congr_leaves
    intro a _
    cases hi : J.inexact a
    · cases ha : J.array a <;> simp [keep, ha, hi]
    · simp [keep, hJ.inexact_array a hi, hi]
  have e2 : tangents J tangent (pack args kwargs) = .node .tuple [tangents J tangent (.node .tuple args),
      tangents J tangent (.node (.dict (kwargs.map Prod.fst)) (kwargs.map Prod.snd))] := rfl
  have e3 : ((withNones ((pack args kwargs).map (keep J.array))).map fun a => (a, tangent a)).map Prod.fst =
      withNones ((pack args kwargs).map (keep J.array)) := by rw [map_map, map_id_fun]
  have e4 : (tangents J tangent (.node (.dict (kwargs.map Prod.fst)) (kwargs.map Prod.snd))).leaves =
      (PT.node (.dict (kwargs.map Prod.fst) : JK C) (kwargs.map Prod.snd)).leaves.filterMap
        fun a => if J.inexact a then tangent a else Option.none := leaves_withNones _ _
  have e5 : ∀ a, a ∈ (PT.node (.dict (kwargs.map Prod.fst) : JK C) (kwargs.map Prod.snd)).leaves ↔ ∃ p ∈ kwargs, a ∈ p.2.leaves := by
    intro a
    simp only [leaves, leavesL_eq, List.mem_flatMap, List.mem_map]
    constructor
    · rintro ⟨t, ⟨p, hp, rfl⟩, ht⟩
      exact ⟨p, hp, ht⟩
    · rintro ⟨p, hp, ht⟩
      exact ⟨_, ⟨p, hp, rfl⟩, ht⟩
  simp only [jvpDiffCall, part_eq, bind, Except.bind, jvpWrapper, e1, e2, e3, e4]
  constructor
  · rintro ⟨p, hp, a, ha, hi, ht⟩
    rw [if_pos]
    · rfl
    · rw [Option.isSome_iff_exists] at ht
      obtain ⟨b, hb⟩ := ht
      apply List.length_pos_of_mem (a := b)
      rw [List.mem_filterMap]
      exact ⟨a, (e5 a).2 ⟨p, hp, ha⟩, by simp [hi, hb]⟩
  · intro h
    rw [if_neg]
    · simp only [combine_keep_drop, unpack_pack]
      constructor
      · intro e he
        simp only [he]
      · intro out t he hs
        obtain ⟨r, h1, h2⟩ := none_to_zero t out hs
        refine ⟨r, ?_, h2⟩
        simp only [he, h1]
        rfl
    · intro hlt
      obtain ⟨b, hb⟩ := List.exists_mem_of_length_pos hlt
      rw [List.mem_filterMap] at hb
      obtain ⟨a, ha, hb⟩ := hb
      obtain ⟨p, hp, ha⟩ := (e5 a).1 ha
      split at hb
      · rename_i hi
        rw [h p hp a ha hi] at hb
        cases hb
      · cases hb

/-- **C49**, the deprecated `defjvp`: the rule gets an array as tangent of every inexact array (zeros if it has no tangent). -/
theorem custom_jvp_old {J : Jax α} (rule : Rule C α) (tangent : α → Option α) (args : List (Tree C α)) (kwargs : Kw C α) :
    oldRule J rule args (tangents J tangent (.node .tuple args)) kwargs =
      rule args (withNones ((PT.node .tuple args).map fun a =>
        if J.inexact a then some ((tangent a).getD (J.zeros a)) else Option.none)) kwargs := by
  have := treeMap2_closed (p := noLeaf) (F := materialise J) (s := (PT.node .tuple args : Tree C α))
    (t := tangents J tangent (.node .tuple args)) (u := (PT.node .tuple args : Tree C α))
    (b := fun a => .leaf a) (c := fun a => orNone (if J.inexact a then tangent a else Option.none))
    (g := fun a => orNone (if J.inexact a then some ((tangent a).getD (J.zeros a)) else Option.none))
    (by rw [cut_noLeaf]) (by rw [tangents, withNones, map_map]) (by
      intro a _
      cases hi : J.inexact a
      · simp [orNone, materialise, hi]
      · cases tangent a <;> simp [orNone, materialise, hi])
  simp only [oldRule, this, bind, Except.bind]
  rw [withNones, map_map]

/-! ### Examples -/

/-- Leaves are numbers: even ones are arrays, multiples of 4 inexact arrays, multiples of 8 perturbed. -/
def exJax : Jax Nat where
  array a := a % 2 == 0
  inexact a := a % 4 == 0
  perturbed a := a % 8 == 0
  zeros _ := 0

example : exJax.Lawful := by
  constructor <;> intro a h <;> simp [exJax] at * <;> omega

/-- The output is the first argument and the second. -/
def exFn : Fn Unit Nat := fun x args _ => .ok (.node .tuple (x :: args))
/-- The residual is the second argument. -/
def exFwd : Fwd Unit Nat := fun _ x args _ => .ok (.node .tuple (x :: args), .node .tuple args)
/-- The gradient is the cotangent of the first part of the output. -/
def exBwd : Bwd Unit Nat := fun _ g _ _ _ _ => match g with
  | .node _ (c :: _) => .ok c
  | _ => .error .typeError

def exVjp : Vjp Unit Nat := build exFn [.bwd exBwd, .fwd exFwd]

/-- The output, and the gradient for the given cotangents. -/
def exRun (cts : List (Option Nat)) : Except Err (Tree Unit Nat × Tree Unit (Option Nat)) := do
  let r ← exVjp.diffCall exJax (.node .tuple [.leaf 8, .leaf 3, .leaf 4, .none]) [.leaf 2, .leaf 12] []
  let g ← r.2 cts
  pure (r.1, g)

example : exVjp.call exJax (.node .tuple [.leaf 8, .leaf 3, .none]) [.leaf 2] [] =
    .ok (.node .tuple [.node .tuple [.leaf 8, .leaf 3, .none], .leaf 2]) := rfl
example : exRun [some 5, Option.none, some 7] =
    .ok (.node .tuple [.node .tuple [.leaf 8, .leaf 3, .leaf 4, .none], .leaf 2, .leaf 12],
      .node .tuple [.leaf (some 5), .none, .leaf Option.none, .none]) := rfl
example : exVjp.call exJax (.leaf 8) [.leaf 16] [] = .error .runtimeError := rfl
example : (build exFn [.bwd exBwd]).call exJax (.leaf 8) [] [] = .error .runtimeError := rfl
example : jvpDiffCall (C := Unit) exJax (fun args t _ => .ok (.node .tuple args, t)) (fun a => if a = 4 then Option.none else some 1)
    [.leaf 8, .leaf 3, .leaf 4] [("k", .leaf 4)] =
    .ok (.node .tuple [.leaf 8, .leaf 3, .leaf 4], .node .tuple [.leaf (some 1), .leaf Option.none, .leaf Option.none]) := rfl

end Custom
end Verif
