import Verif.Nontraceable.Model
import Verif.Custom.Props
import Mathlib.Order.Lattice
import Mathlib.Tactic.NormNum

/-!
# C68: operations that refuse to be transformed
-/

namespace Verif
namespace Nontraceable

open PT
open Filters

/-! ## Specification -/

/-- A level which does not affect the value. -/
def Level.Clear : Level → Prop
  | .vmap _ m => m = false
  | .jvp p => p = false

/-- The value is affected by no transformation. -/
def Untraced (ls : List Level) : Prop := ∀ l ∈ ls, l.Clear

/-- `l` is a lane of these levels: an index in range for each of those that map the value. -/
inductive IsLane : List Level → List Nat → Prop
  | nil : IsLane [] []
  | mapped {n i : Nat} {ls : List Level} {l : List Nat} : i < n → IsLane ls l → IsLane (.vmap n true :: ls) (i :: l)
  | unmapped {n : Nat} {ls : List Level} {l : List Nat} : IsLane ls l → IsLane (.vmap n false :: ls) l
  | jvp {p : Bool} {ls : List Level} {l : List Nat} : IsLane ls l → IsLane (.jvp p :: ls) l

variable {α O K : Type}

/-! ## Pytrees -/

section tree
variable [DecidableEq K]

theorem onArrays_eq (bind' : Tracer α → Except Err (Tracer α)) (x : PT K (Leaf α O)) :
    onArrays bind' x = (mapE (onTracer bind') (x.leaves.filter Leaf.isArr)).bind fun flat =>
      (treeUnflatten (withNones (x.map (AD.keep Leaf.isArr))).shape (flat.map .leaf)).bind fun dynamic =>
        combine noLeaf [dynamic, withNones (x.map (AD.drop Leaf.isArr))] := by
  simp only [onArrays, bind, Except.bind]
  rw [partition_callable_closed]
  simp only
  have e1 : (fun a : Leaf α O => if a.isArr = true then some a else Option.none) = AD.keep Leaf.isArr := rfl
  have e2 : (fun a : Leaf α O => if a.isArr = true then Option.none else some a) = AD.drop Leaf.isArr := rfl
  rw [e1, e2, AD.leaves_keep]

/-- Every array is replaced by what `bind` makes of it; everything else stays. -/
theorem onArrays_ok (bind' : Tracer α → Except Err (Tracer α)) (g : Tracer α → Tracer α) (x : PT K (Leaf α O))
    (h : ∀ t, .arr t ∈ x.leaves → bind' t = .ok (g t)) :
    onArrays bind' x = .ok (x.map fun a => match a with | .arr t => .arr (g t) | .other o => .other o) := by
  rw [onArrays_eq]
  let G : Leaf α O → Leaf α O := fun a => match a with | .arr t => .arr (g t) | .other o => .other o
  let F : Leaf α O → Option (Leaf α O) := fun a => if a.isArr then some (G a) else Option.none
  have e1 : mapE (onTracer bind') (x.leaves.filter Leaf.isArr) = .ok ((x.leaves.filter Leaf.isArr).map G) := by
    rw [mapE_ok]
    refine ⟨by simp, ?_⟩
    intro i a ha
    refine ⟨G a, by rw [List.getElem?_map, ha]; rfl, ?_⟩
    have hm := List.mem_of_getElem? ha
    obtain ⟨hm, ht⟩ := List.mem_filter.1 hm
    cases a with
    | arr t => simp only [onTracer, h t hm, bind, Except.bind, pure, Except.pure, G]
    | other o => simp [Leaf.isArr] at ht
  rw [e1]
  simp only [Except.bind]
  have e2 : (withNones (x.map (AD.keep Leaf.isArr))).shape = (withNones (x.map F)).shape := by
    apply shape_withNones
    intro a _
    simp only [AD.keep, F]
    split <;> rfl
  have e3 : (x.leaves.filter Leaf.isArr).map G = (withNones (x.map F)).leaves := by
    rw [leaves_withNones]
    induction x.leaves with
    | nil => rfl
    | cons a l ih =>
      by_cases ha : a.isArr = true
      · simp [List.filter_cons, ha, F, ih]
      · simp [List.filter_cons, ha, F, ih]
  have e4 : treeUnflatten (withNones (x.map F)).shape ((withNones (x.map F)).leaves.map .leaf) = .ok (withNones (x.map F)) := by
    obtain ⟨t, h1, h2, h3⟩ := AD.unflatten_leaves' (d := withNones (x.map F)) (ls := (withNones (x.map F)).leaves) rfl
    rw [← eq_of_shape_leaves h1 h2] at h3 ⊢
    exact h3
  rw [e2, e3, e4]
  simp only
  have := combine_closed x [F, AD.drop Leaf.isArr] (by simp)
  simp only [List.map_cons, List.map_nil] at this
  rw [this, ← withNones_some x G]
  congr 2
  apply map_congr_leaves
  intro a _
  simp only [List.findSome?_cons, List.findSome?_nil, AD.drop, F]
  cases a <;> simp [Leaf.isArr, G]

/-- The first array which `bind` refuses decides the error. -/
theorem onArrays_error (bind' : Tracer α → Except Err (Tracer α)) (x : PT K (Leaf α O)) (before after : List (Leaf α O)) (t : Tracer α) (e : Err)
    (hx : x.leaves = before ++ .arr t :: after) (hb : ∀ s, .arr s ∈ before → ∃ r, bind' s = .ok r) (ht : bind' t = .error e) :
    onArrays bind' x = .error e := by
  rw [onArrays_eq, hx, List.filter_append]
  clear hx
  have : mapE (onTracer bind') (before.filter Leaf.isArr ++ (.arr t :: after : List (Leaf α O)).filter Leaf.isArr) = .error e := by
    induction before with
    | nil =>
      simp only [List.filter_nil, List.nil_append, List.filter_cons, Leaf.isArr, if_true, mapE, onTracer, ht, bind, Except.bind]
    | cons a l ih =>
      have hl := ih (fun s hs => hb s (by simp [hs]))
      cases a with
      | other o => simpa [List.filter_cons, Leaf.isArr] using hl
      | arr s =>
        obtain ⟨r, hr⟩ := hb s (by simp)
        simp only [List.filter_cons, Leaf.isArr, if_true, List.cons_append, mapE, onTracer, hr, bind, Except.bind, pure, Except.pure]
        simp only [List.filter_cons, Leaf.isArr, if_true] at hl
        rw [hl]
  rw [this]
  rfl

/-- If only one error is possible, any array which `bind` refuses will do. -/
theorem onArrays_error_any (bind' : Tracer α → Except Err (Tracer α)) (x : PT K (Leaf α O)) (e : Err)
    (hx : ∃ t, .arr t ∈ x.leaves ∧ ∀ r, bind' t ≠ .ok r) (he : ∀ t e', bind' t = .error e' → e' = e) :
    onArrays bind' x = .error e := by
  obtain ⟨t, ht, hr⟩ := hx
  have key : ∀ l : List (Leaf α O), .arr t ∈ l → ∃ before s after, l = before ++ .arr s :: after ∧
      (∀ s, .arr s ∈ before → ∃ r, bind' s = .ok r) ∧ bind' s = .error e := by
    intro l
    induction l with
    | nil => simp
    | cons a l ih =>
      intro h
      cases a with
      | other o =>
        obtain ⟨b, s, c, h1, h2, h3⟩ := ih (by simpa using h)
        exact ⟨.other o :: b, s, c, by simp [h1], fun s hs => h2 s (by simpa using hs), h3⟩
      | arr u =>
        cases hu : bind' u with
        | error e' => exact ⟨[], u, l, rfl, by simp, by rw [hu, he u e' hu]⟩
        | ok r =>
          have hne : u ≠ t := by rintro rfl; exact hr r hu
          obtain ⟨b, s, c, h1, h2, h3⟩ := ih (by
            rcases List.mem_cons.1 h with h | h
            · exact absurd (by injection h with h; exact h.symm) hne
            · exact h)
          refine ⟨.arr u :: b, s, c, by simp [h1], fun s hs => ?_, h3⟩
          rcases List.mem_cons.1 hs with hs | hs
          · injection hs with hs; exact ⟨r, hs ▸ hu⟩
          · exact h2 s hs
  obtain ⟨b, s, c, h1, h2, h3⟩ := key _ ht
  exact onArrays_error bind' x b c s e h1 h2 h3

end tree

/-! ## `nontraceable` -/

theorem bindNontraceable_ok (ls : List Level) : bindNontraceable ls = .ok () ↔ Untraced ls := by
  induction ls with
  | nil => simp [bindNontraceable, Untraced]
  | cons l ls ih =>
    have hc : Untraced (l :: ls) ↔ l.Clear ∧ Untraced ls := by simp [Untraced]
    rw [hc]
    cases l with
    | vmap n m => cases m <;> simp [bindNontraceable, Level.Clear, ih]
    | jvp p => cases p <;> simp [bindNontraceable, Level.Clear, ih]

theorem bindNontraceable_error (ls : List Level) (e : Err) (h : bindNontraceable ls = .error e) : e = .runtimeError := by
  induction ls with
  | nil => simp [bindNontraceable] at h
  | cons l ls ih =>
    cases l with
    | vmap n m =>
      cases m with
      | false => exact ih h
      | true => simpa [bindNontraceable] using h.symm
    | jvp p =>
      cases p with
      | false => exact ih h
      | true => simpa [bindNontraceable] using h.symm

/-- **C68**, `nontraceable`: the identity on trees none of whose arrays is affected by a transformation, and a RuntimeError for all others, however many
transformations there are and whichever of them it is. -/
theorem nontraceable_spec [DecidableEq K] (x : PT K (Leaf α O)) :
    ((∀ t, .arr t ∈ x.leaves → Untraced t.levels) → nontraceable x = .ok x) ∧
    ((∃ t, .arr t ∈ x.leaves ∧ ¬ Untraced t.levels) → nontraceable x = .error .runtimeError) := by
  constructor
  · intro h
    have := onArrays_ok (fun t : Tracer α => do let _ ← bindNontraceable t.levels; pure t) id x (by
      intro t ht
      simp only [(bindNontraceable_ok _).2 (h t ht), bind, Except.bind, pure, Except.pure, id])
    rw [nontraceable, this]
    congr 1
    rw [← map_id_fun x, map_map]
    apply map_congr_leaves
    intro a _
    cases a <;> rfl
  · rintro ⟨t, h1, h2⟩
    apply onArrays_error_any
    · refine ⟨t, h1, fun r hr => h2 ((bindNontraceable_ok _).1 ?_)⟩
      simp only [bind, Except.bind] at hr
      split at hr
      · contradiction
      · assumption
    · intro t e he
      simp only [bind, Except.bind] at he
      split at he
      · rename_i e' he'
        injection he with he
        rw [← he]
        exact bindNontraceable_error _ _ he'
      · simp [pure, Except.pure] at he

/-! ## `nonbatchable` -/

section nonbatchable
variable [LinearOrder α]

/-- Levels that do not affect the value are passed by. -/
theorem bind_clear (allow : Bool) (clear ls : List Level) (val : List Nat → List (Option α)) (hc : Untraced clear) :
    bindNonbatchable allow (clear ++ ls) val = (bindNonbatchable allow ls val).map fun r => (clear ++ r.1, r.2) := by
  induction clear with
  | nil => cases h : bindNonbatchable allow ls val <;> simp [h, Except.map]
  | cons l clear ih =>
    have h1 : l.Clear := hc l (by simp)
    have h2 := ih fun l' hl' => hc l' (by simp [hl'])
    cases l with
    | vmap n m =>
      simp only [Level.Clear] at h1
      subst h1
      simp only [List.cons_append, bindNonbatchable, h2, bind, Except.bind]
      cases bindNonbatchable allow ls val <;> rfl
    | jvp p =>
      simp only [Level.Clear] at h1
      subst h1
      simp only [List.cons_append, bindNonbatchable, h2, bind, Except.bind]
      cases bindNonbatchable allow ls val <;> rfl

/-- The identity on what is affected by no transformation. -/
theorem bind_untraced (allow : Bool) (ls : List Level) (val : List Nat → List (Option α)) (hc : Untraced ls) :
    bindNonbatchable allow ls val = .ok (ls, val) := by
  have := bind_clear allow ls [] val hc
  simp only [List.append_nil] at this
  rw [this]
  simp [bindNonbatchable, Except.map]

theorem mem_lanes (ls : List Level) (l : List Nat) : l ∈ lanes ls ↔ IsLane ls l := by
  constructor
  · intro h
    induction ls generalizing l with
    | nil => simp [lanes] at h; subst h; exact .nil
    | cons a ls ih =>
      cases a with
      | jvp p => exact .jvp (ih l h)
      | vmap n m =>
        cases m with
        | false => exact .unmapped (ih l h)
        | true =>
          simp only [lanes, List.mem_flatMap, List.mem_map, List.mem_range] at h
          obtain ⟨i, hi, l', hl', rfl⟩ := h
          exact .mapped hi (ih l' hl')
  · intro h
    induction h with
    | nil => simp [lanes]
    | mapped hi _ ih =>
      simp only [lanes, List.mem_flatMap, List.mem_map, List.mem_range]
      exact ⟨_, hi, _, ih, rfl⟩
    | unmapped _ ih => exact ih
    | jvp _ ih => exact ih

/-- All elements are numbers. -/
def NoNan (a : List (Option α)) : Prop := Option.none ∉ a

omit [LinearOrder α] in
theorem elem_some (a : List (Option α)) (h : NoNan a) (j : Nat) (hj : j < a.length) : ∃ v, elem a j = some v := by
  simp only [elem, List.getElem?_eq_getElem hj, Option.getD_some]
  cases hv : a[j] with
  | some v => exact ⟨v, rfl⟩
  | none => exact absurd (hv ▸ List.getElem_mem hj) h

/-- The minimum and the maximum over the lanes are equal if and only if all are. -/
theorem min_max_lanes (f : Nat → List (Option α)) (j n : Nat) (h : ∀ i, i ≤ n → ∃ v, elem (f i) j = some v) :
    ∃ lo hi, minLanes f j n = some lo ∧ maxLanes f j n = some hi ∧ (∀ i v, i ≤ n → elem (f i) j = some v → lo ≤ v ∧ v ≤ hi) ∧
      (∃ i, i ≤ n ∧ elem (f i) j = some lo) ∧ (∃ i, i ≤ n ∧ elem (f i) j = some hi) := by
  induction n with
  | zero =>
    obtain ⟨v, hv⟩ := h 0 (le_refl 0)
    refine ⟨v, v, hv, hv, ?_, ⟨0, le_refl 0, hv⟩, ⟨0, le_refl 0, hv⟩⟩
    intro i w hi hw
    have : i = 0 := by omega
    subst this
    rw [hv] at hw
    injection hw with hw
    subst hw
    exact ⟨le_refl v, le_refl v⟩
  | succ n ih =>
    obtain ⟨lo, hi, h1, h2, h3, ⟨a, ha, ha'⟩, ⟨b, hb, hb'⟩⟩ := ih fun i hi => h i (by omega)
    obtain ⟨v, hv⟩ := h (n + 1) (le_refl _)
    refine ⟨min lo v, max hi v, by simp [minLanes, h1, hv, min2], by simp [maxLanes, h2, hv, max2], ?_, ?_, ?_⟩
    · intro i w hi' hw
      rcases Nat.lt_or_ge i (n + 1) with hlt | hge
      · obtain ⟨p, q⟩ := h3 i w (by omega) hw
        exact ⟨le_trans (min_le_left _ _) p, le_trans q (le_max_left _ _)⟩
      · have : i = n + 1 := by omega
        subst this
        rw [hv] at hw
        injection hw with hw
        subst hw
        exact ⟨min_le_right _ _, le_max_right _ _⟩
    · rcases le_total lo v with hle | hle
      · exact ⟨a, by omega, by rw [min_eq_left hle]; exact ha'⟩
      · exact ⟨n + 1, le_refl _, by rw [min_eq_right hle]; exact hv⟩
    · rcases le_total v hi with hle | hle
      · exact ⟨b, by omega, by rw [max_eq_left hle]; exact hb'⟩
      · exact ⟨n + 1, le_refl _, by rw [max_eq_right hle]; exact hv⟩

/-- The check finds out whether the lanes differ, if they are numbers. -/
theorem differs_iff (f : Nat → List (Option α)) (n : Nat) (hl : ∀ i, i ≤ n → (f i).length = (f 0).length) (hn : ∀ i, i ≤ n → NoNan (f i)) :
    differs f n = true ↔ ∃ i, i ≤ n ∧ f i ≠ f 0 := by
  have hs : ∀ j, j < (f 0).length → ∀ i, i ≤ n → ∃ v, elem (f i) j = some v := fun j hj i hi =>
    elem_some _ (hn i hi) j (by rw [hl i hi]; exact hj)
  simp only [differs, List.any_eq_true, List.mem_range]
  constructor
  · rintro ⟨j, hj, h⟩
    obtain ⟨lo, hi, h1, h2, h3, ⟨a, ha, ha'⟩, ⟨b, hb, hb'⟩⟩ := min_max_lanes f j n (hs j hj)
    rw [h1, h2] at h
    have hne : lo ≠ hi := by simpa [neq] using h
    by_cases h0 : f a = f 0
    · refine ⟨b, hb, fun hb0 => hne ?_⟩
      rw [h0] at ha'; rw [hb0, ha'] at hb'
      injection hb'
    · exact ⟨a, ha, h0⟩
  · rintro ⟨i, hi, hne⟩
    by_contra hall
    apply hne
    apply List.ext_getElem (hl i hi)
    intro j hj hj0
    obtain ⟨lo, hi', h1, h2, h3, -, -⟩ := min_max_lanes f j n (hs j hj0)
    obtain ⟨v, hv⟩ := hs j hj0 i hi
    obtain ⟨w, hw⟩ := hs j hj0 0 (Nat.zero_le n)
    have heq : lo = hi' := by
      by_contra hne'
      exact hall ⟨j, hj0, by rw [h1, h2]; simpa [neq] using hne'⟩
    have e1 := h3 i v hi hv
    have e2 := h3 0 w (Nat.zero_le n) hw
    have hvw : v = w := by
      rw [← heq] at e1 e2
      rw [← le_antisymm e1.1 e1.2, ← le_antisymm e2.1 e2.2]
    simp only [elem, List.getElem?_eq_getElem hj, List.getElem?_eq_getElem hj0, Option.getD_some] at hv hw
    rw [hv, hw, hvw]

/-- **C68**, `nonbatchable` without `allow_constant_across_batch`: the identity on trees none of whose arrays is affected by a transformation. If an
array is mapped by the innermost transformation affecting it, and there is no other such array before it, there is a ValueError, and if
it carries a tangent there, a NotImplementedError. -/
theorem nonbatchable_spec [DecidableEq K] (x : PT K (Leaf α O)) :
    ((∀ t, .arr t ∈ x.leaves → Untraced t.levels) → ∀ allow, nonbatchable allow x = .ok x) ∧
    (∀ (before after : List (Leaf α O)) (t : Tracer α) (clear rest : List Level), x.leaves = before ++ .arr t :: after →
      (∀ s, .arr s ∈ before → Untraced s.levels) → Untraced clear →
        (∀ n, t.levels = clear ++ .vmap n true :: rest → nonbatchable false x = .error .valueError) ∧
        (t.levels = clear ++ .jvp true :: rest → ∀ allow, nonbatchable allow x = .error .notImplemented)) := by
  constructor
  · intro h allow
    have := onArrays_ok (fun t : Tracer α => do let r ← bindNonbatchable allow t.levels t.val; pure ⟨r.1, r.2⟩) id x (by
      intro t ht
      simp only [bind_untraced allow _ _ (h t ht), bind, Except.bind, pure, Except.pure, id])
    rw [nonbatchable, this]
    congr 1
    rw [← map_id_fun x, map_map]
    apply map_congr_leaves
    intro a _
    cases a <;> rfl
  · intro before after t clear rest hx hb hc
    constructor
    · intro n hn
      apply onArrays_error _ x before after t _ hx
      · intro s hs
        exact ⟨s, by simp only [bind_untraced false _ _ (hb s hs), bind, Except.bind, pure, Except.pure]⟩
      · simp only [hn, bind_clear false clear _ _ hc, bindNonbatchable, cannotBatch, Except.map, bind, Except.bind]
        rfl
    · intro hn allow
      apply onArrays_error _ x before after t _ hx
      · intro s hs
        exact ⟨s, by simp only [bind_untraced allow _ _ (hb s hs), bind, Except.bind, pure, Except.pure]⟩
      · simp only [hn, bind_clear allow clear _ _ hc, bindNonbatchable, Except.map, bind, Except.bind]

/-- **C68**, `nonbatchable` with `allow_constant_across_batch`, for an array all of whose elements are numbers: with the innermost transformation affecting
it a `vmap`, there is a RuntimeError if in some lane of the transformations outside of it not all of its lanes are equal; otherwise it is no longer mapped by
that transformation, and it has the value that all its lanes had.

That it is mapped by no transformation any more is missing: see `nonbatchable_outer`. That the elements may be anything is missing as well: see
`nonbatchable_nan`. -/
theorem nonbatchable_constant_partial [DecidableEq K] (x : PT K (Leaf α O)) (t : Tracer α) (hx : x = .leaf (.arr t)) (clear rest : List Level) (n : Nat)
    (hc : Untraced clear) (ht : t.levels = clear ++ .vmap (n + 1) true :: rest)
    (hl : ∀ l, IsLane rest l → ∀ i, i ≤ n → (t.val (i :: l)).length = (t.val (0 :: l)).length)
    (hn : ∀ l, IsLane rest l → ∀ i, i ≤ n → NoNan (t.val (i :: l))) :
    ((∃ l i, IsLane rest l ∧ i ≤ n ∧ t.val (i :: l) ≠ t.val (0 :: l)) → nonbatchable true x = .error .runtimeError) ∧
    ((∀ l i, IsLane rest l → i ≤ n → t.val (i :: l) = t.val (0 :: l)) →
      ∃ s : Tracer α, nonbatchable true x = .ok (.leaf (.arr s)) ∧ s.levels = clear ++ .vmap (n + 1) false :: rest ∧
        ∀ l i, IsLane rest l → i ≤ n → s.val l = t.val (i :: l)) := by
  subst hx
  have key : ((lanes rest).any fun l => differs (fun i => t.val (i :: l)) n) = true ↔
      ∃ l i, IsLane rest l ∧ i ≤ n ∧ t.val (i :: l) ≠ t.val (0 :: l) := by
    rw [List.any_eq_true]
    constructor
    · rintro ⟨l, h1, h2⟩
      have h1 := (mem_lanes rest l).1 h1
      obtain ⟨i, h3, h4⟩ := (differs_iff _ n (hl l h1) (hn l h1)).1 h2
      exact ⟨l, i, h1, h3, h4⟩
    · rintro ⟨l, i, h1, h2, h3⟩
      exact ⟨l, (mem_lanes rest l).2 h1, (differs_iff _ n (hl l h1) (hn l h1)).2 ⟨i, h2, h3⟩⟩
  constructor
  · intro h
    apply onArrays_error _ _ [] [] t _ rfl (by simp)
    simp only [ht, bind_clear true clear _ _ hc, bindNonbatchable, cannotBatch, if_true, if_pos (key.2 h), Except.map, bind, Except.bind]
  · intro h
    have hk : ¬ ((lanes rest).any fun l => differs (fun i => t.val (i :: l)) n) = true := by
      intro hk
      obtain ⟨l, i, h1, h2, h3⟩ := key.1 hk
      exact h3 (h l i h1 h2)
    let s : Tracer α := ⟨clear ++ .vmap (n + 1) false :: rest, fun l => t.val (0 :: l)⟩
    refine ⟨s, ?_, rfl, fun l i h1 h2 => (h l i h1 h2).symm⟩
    have := onArrays_ok (K := K) (O := O) (fun t : Tracer α => do let r ← bindNonbatchable true t.levels t.val; pure ⟨r.1, r.2⟩) (fun _ => s)
      (.leaf (.arr t)) (by
        intro t' ht'
        have : t' = t := by simpa [leaves] using ht'
        subst this
        simp only [ht, bind_clear true clear _ _ hc, bindNonbatchable, cannotBatch, if_true, if_neg hk, Except.map, bind, Except.bind,
          pure, Except.pure, s])
    exact this

/-- A batch of no lanes has no minimum. -/
theorem nonbatchable_empty [DecidableEq K] (x : PT K (Leaf α O)) (t : Tracer α) (hx : x = .leaf (.arr t)) (clear rest : List Level)
    (hc : Untraced clear) (ht : t.levels = clear ++ .vmap 0 true :: rest) : nonbatchable true x = .error .valueError := by
  subst hx
  apply onArrays_error _ _ [] [] t _ rfl (by simp)
  simp only [ht, bind_clear true clear _ _ hc, bindNonbatchable, cannotBatch, if_true, Except.map, bind, Except.bind]

end nonbatchable

/-- Under two `vmap`s only the inner one is checked: an array that differs between the lanes of the outer one is let through, and is still mapped by it.
(The primitive is not bound again by the rule.) -/
theorem nonbatchable_outer : ∃ (t s : Tracer Nat), nonbatchable (K := Nat) (O := Unit) true (.leaf (.arr t)) = .ok (.leaf (.arr s)) ∧
    t.levels = [.vmap 2 true, .vmap 2 true] ∧ s.levels = [.vmap 2 false, .vmap 2 true] ∧ s.val [0] ≠ s.val [1] := by
  let t : Tracer Nat := ⟨[.vmap 2 true, .vmap 2 true], fun l => [some (l.getD 1 0)]⟩
  obtain ⟨s, h1, h2, h3⟩ := (nonbatchable_constant_partial (K := Nat) (O := Unit) (.leaf (.arr t)) t rfl [] [.vmap 2 true] 1 (by simp [Untraced]) rfl
    (fun _ _ _ _ => rfl) (fun _ _ _ _ => by simp [NoNan, t])).2 (fun _ _ _ _ => rfl)
  refine ⟨t, s, h1, rfl, h2, ?_⟩
  rw [h3 [0] 0 (.mapped (by omega) .nil) (by omega), h3 [1] 0 (.mapped (by omega) .nil) (by omega)]
  simp [t]

/-- An array which is constant is refused if an element of it is not a number. -/
theorem nonbatchable_nan : ∃ t : Tracer Nat, (∀ i j, t.val [i] = t.val [j]) ∧
    nonbatchable (K := Nat) (O := Unit) true (.leaf (.arr t)) = .error .runtimeError := by
  refine ⟨⟨[.vmap 2 true], fun _ => [Option.none]⟩, fun _ _ => rfl, ?_⟩
  apply onArrays_error _ _ [] [] _ _ rfl (by simp)
  rfl

/-! ## `nondifferentiable_backward` -/

/-- Forward mode passes through unchanged, to any order. -/
theorem mark_forward {A : Type} (x : Dual A) : x.mark = x := by
  have key : ∀ x : Dual A, x.mark = x := by
    intro x
    induction x using Dual.rec (motive_2 := fun t => markTangent t = t) with
    | base a => rfl
    | pair p t h1 h2 => simp only [Dual.mark, h1, h2]
    | none => rfl
    | some t h => simp only [markTangent, h]
  exact key x

/-- The variables an equation reads. -/
def Eqn.reads {C : Type} : Eqn C → List Nat
  | .op ins _ => ins
  | .mark _ v => [v]

/-- A program whose last equation defines the variable `n`: each equation reads only variables defined before. -/
def Valid {C : Type} : List (Eqn C) → Nat → Prop
  | [], _ => True
  | q :: es, n => (∀ v ∈ q.reads, v < n) ∧ (es ≠ [] → 0 < n) ∧ Valid es (n - 1)

/-- The program with the identity in place of `nondifferentiable_backward`. -/
def erase {C : Type} : List (Eqn C) → List (Eqn C)
  | [] => []
  | .op ins f :: es => .op ins f :: erase es
  | .mark _ v :: es => .op [v] (fun c => [some c]) :: erase es

/-- The variable `m` is defined by `nondifferentiable_backward`. -/
def Marked {C : Type} (es : List (Eqn C)) (n : Nat) (symbolic : Bool) (m : Nat) : Prop := m ≤ n ∧ ∃ v, es[n - m]? = some (.mark symbolic v)

section backward
variable {C : Type} (add : C → C → C) (nonzero : C → Bool)

theorem addCt_other (e : Cts C) (v : Nat) (c : Option C) (w : Nat) (h : w ≠ v) : addCt add e v c w = e w := by simp [addCt, h]

theorem addCts_other (e : Cts C) (vs : List Nat) (cs : List (Option C)) (w : Nat) (h : w ∉ vs) : addCts add e vs cs w = e w := by
  induction vs generalizing e cs with
  | nil => rfl
  | cons v vs ih =>
    cases cs with
    | nil => rfl
    | cons c cs =>
      simp only [List.mem_cons, not_or] at h
      simp only [addCts]
      rw [ih _ _ h.2, addCt_other add _ _ _ _ h.1]

theorem addCt_none (e : Cts C) (v : Nat) : addCt add e v Option.none = e := by
  funext w
  simp only [addCt]
  split
  · rename_i h
    subst h
    cases e w <;> rfl
  · rfl

/-- A backward pass without checks always succeeds, and leaves the cotangents of variables defined after it as they are. -/
theorem backward_erase (es : List (Eqn C)) (n : Nat) (e : Cts C) (hv : Valid es n) :
    ∃ e', backward add nonzero (erase es) n e = .ok (e', false) ∧ ∀ w, n ≤ w → e' w = e w := by
  induction es generalizing n e with
  | nil => exact ⟨e, rfl, fun _ _ => rfl⟩
  | cons q es ih =>
    obtain ⟨h1, h2, h3⟩ := hv
    have hne : ∀ v ∈ q.reads, ∀ w, n ≤ w → w ≠ v := fun v hv w hw => by have := h1 v hv; omega
    cases q with
    | op ins f =>
      simp only [erase, backward]
      cases hn : e n with
      | none =>
        obtain ⟨e', g1, g2⟩ := ih (n - 1) e h3
        exact ⟨e', g1, fun w hw => g2 w (by omega)⟩
      | some c =>
        obtain ⟨e', g1, g2⟩ := ih (n - 1) (addCts add e ins (f c)) h3
        refine ⟨e', g1, fun w hw => ?_⟩
        rw [g2 w (by omega)]
        exact addCts_other add _ _ _ _ fun hm => hne w hm w hw rfl
    | mark s v =>
      simp only [erase, backward]
      cases hn : e n with
      | none =>
        obtain ⟨e', g1, g2⟩ := ih (n - 1) e h3
        exact ⟨e', g1, fun w hw => g2 w (by omega)⟩
      | some c =>
        obtain ⟨e', g1, g2⟩ := ih (n - 1) (addCts add e [v] [some c]) h3
        refine ⟨e', g1, fun w hw => ?_⟩
        rw [g2 w (by omega)]
        exact addCts_other add _ _ _ _ fun hm => hne w (by simpa [Eqn.reads] using hm) w hw rfl

theorem marked_cons (q : Eqn C) (es : List (Eqn C)) (n : Nat) (s : Bool) (m : Nat) (hpos : es ≠ [] → 0 < n) :
    Marked (q :: es) n s m ↔ (m = n ∧ ∃ v, q = .mark s v) ∨ (m < n ∧ Marked es (n - 1) s m) := by
  simp only [Marked]
  constructor
  · rintro ⟨h1, v, h2⟩
    rcases Nat.lt_or_ge m n with hlt | hge
    · right
      refine ⟨hlt, by omega, v, ?_⟩
      have : n - m = (n - 1 - m) + 1 := by omega
      rwa [this, List.getElem?_cons_succ] at h2
    · left
      have : m = n := by omega
      subst this
      rw [Nat.sub_self, List.getElem?_cons_zero] at h2
      exact ⟨rfl, v, by injection h2⟩
  · rintro (⟨rfl, v, rfl⟩ | ⟨h0, h1, v, h2⟩)
    · exact ⟨le_refl _, v, by simp⟩
    · refine ⟨by omega, v, ?_⟩
      have : n - m = (n - 1 - m) + 1 := by omega
      rw [this, List.getElem?_cons_succ, h2]

/-- The backward pass, compared with the one without checks. -/
theorem backward_spec (es : List (Eqn C)) (n : Nat) (e e' : Cts C) (hv : Valid es n) (h : backward add nonzero (erase es) n e = .ok (e', false)) :
    ((∃ m, Marked es n true m ∧ e' m ≠ Option.none) → backward add nonzero es n e = .error .runtimeError) ∧
    ((∀ m, Marked es n true m → e' m = Option.none) → ∃ b, backward add nonzero es n e = .ok (e', b) ∧
      (b = true ↔ ∃ m c, Marked es n false m ∧ e' m = some c ∧ nonzero c = true)) := by
  induction es generalizing n e with
  | nil =>
    simp only [erase, backward, Except.ok.injEq, Prod.mk.injEq, and_true] at h
    subst h
    refine ⟨?_, fun _ => ⟨false, rfl, ?_⟩⟩
    · rintro ⟨m, ⟨_, v, hv⟩, _⟩; simp at hv
    · constructor
      · intro h; contradiction
      · rintro ⟨m, c, ⟨_, v, hv⟩, _⟩; simp at hv
  | cons q es ih =>
    obtain ⟨h1, h2, h3⟩ := hv
    -- the cotangent of the variable this equation defines is complete
    have hfin : e' n = e n := by
      obtain ⟨e'', g1, g2⟩ := backward_erase add nonzero (q :: es) n e ⟨h1, h2, h3⟩
      rw [g1] at h
      injection h with h
      injection h with h
      rw [← h]; exact g2 n (le_refl n)
    have mc := fun s m => marked_cons q es n s m h2
    cases q with
    | op ins f =>
      have mc' : ∀ s m, Marked (.op ins f :: es) n s m ↔ m < n ∧ Marked es (n - 1) s m := by
        intro s m; rw [mc]; simp
      have hlt : ∀ s m, Marked es (n - 1) s m → m < n := by
        rintro s m ⟨g1, v, g2⟩
        have : es ≠ [] := by rintro rfl; simp at g2
        have := h2 this
        omega
      have mc'' : ∀ s m, Marked (.op ins f :: es) n s m ↔ Marked es (n - 1) s m := by
        intro s m; rw [mc']; exact ⟨fun h => h.2, fun h => ⟨hlt s m h, h⟩⟩
      simp only [mc'']
      simp only [erase, backward] at h ⊢
      cases hn : e n with
      | none => rw [hn] at h; exact ih (n - 1) e h3 h
      | some c => rw [hn] at h; exact ih (n - 1) _ h3 h
    | mark s v =>
      have hlt : ∀ s m, Marked es (n - 1) s m → m < n := by
        rintro s m ⟨g1, v, g2⟩
        have : es ≠ [] := by rintro rfl; simp at g2
        have := h2 this
        omega
      have mc' : ∀ s' m, Marked (.mark s v :: es) n s' m ↔ (m = n ∧ s = s') ∨ Marked es (n - 1) s' m := by
        intro s' m; rw [mc]
        constructor
        · rintro (⟨a, w, b⟩ | ⟨_, b⟩)
          · injection b with b _; exact .inl ⟨a, b⟩
          · exact .inr b
        · rintro (⟨a, rfl⟩ | b)
          · exact .inl ⟨a, v, rfl⟩
          · exact .inr ⟨hlt _ _ b, b⟩
      -- the rest of the pass is the same as without the check
      have hrest : backward add nonzero (erase es) (n - 1) (addCt add e v (e n)) = .ok (e', false) := by
        simp only [erase, backward] at h
        cases hn : e n with
        | none => rw [hn] at h; rw [addCt_none]; exact h
        | some c => rw [hn] at h; exact h
      obtain ⟨i1, i2⟩ := ih (n - 1) (addCt add e v (e n)) h3 hrest
      simp only [mc']
      constructor
      · rintro ⟨m, hm, hc⟩
        simp only [backward, bind, Except.bind]
        cases hn : e n with
        | none =>
          simp only [markTranspose]
          rw [hn, addCt_none] at i1
          rw [addCt_none]
          rcases hm with ⟨rfl, _⟩ | hm
          · rw [hfin, hn] at hc; exact absurd rfl hc
          · rw [i1 ⟨m, hm, hc⟩]
        | some c =>
          simp only [markTranspose]
          cases s with
          | true => rfl
          | false =>
            rw [hn] at i1
            rcases hm with ⟨_, hm⟩ | hm
            · contradiction
            · simp only [Bool.false_eq_true, if_false]
              rw [i1 ⟨m, hm, hc⟩]
      · intro hall
        obtain ⟨b, j1, j2⟩ := i2 fun m hm => hall m (.inr hm)
        simp only [backward, bind, Except.bind, pure, Except.pure]
        cases hn : e n with
        | none =>
          rw [hn, addCt_none] at j1
          simp only [markTranspose, addCt_none, j1, Bool.false_or]
          refine ⟨b, rfl, ?_⟩
          rw [j2]
          constructor
          · rintro ⟨m, c, g1, g2⟩; exact ⟨m, c, .inr g1, g2⟩
          · rintro ⟨m, c, (⟨rfl, _⟩ | g1), g2⟩
            · rw [hfin, hn] at g2; simp at g2
            · exact ⟨m, c, g1, g2⟩
        | some c =>
          have hs : s = false := by
            cases s with
            | false => rfl
            | true => have := hall n (.inl ⟨rfl, rfl⟩); rw [hfin, hn] at this; contradiction
          subst hs
          rw [hn] at j1
          simp only [markTranspose, Bool.false_eq_true, if_false, j1]
          refine ⟨nonzero c || b, rfl, ?_⟩
          rw [Bool.or_eq_true, j2]
          constructor
          · rintro (g | ⟨m, c', g1, g2⟩)
            · exact ⟨n, c, .inl (by simp), by rw [hfin, hn], g⟩
            · exact ⟨m, c', .inr g1, g2⟩
          · rintro ⟨m, c', (⟨rfl, _⟩ | g1), g2, g3⟩
            · rw [hfin, hn] at g2
              injection g2 with g2
              subst g2
              exact .inl g3
            · exact .inr ⟨m, c', g1, g2, g3⟩

/-- **C68**, `nondifferentiable_backward` in reverse mode, for every program: with `e'` the cotangents of all variables when it is replaced by the identity, there
is a RuntimeError if the cotangent of a variable marked `symbolic` is not a symbolic zero, or if that of another marked variable is not zero;
otherwise the cotangents are `e'`. -/
theorem grad_spec (es : List (Eqn C)) (n : Nat) (e : Cts C) (hv : Valid es n) :
    ∃ e', grad add nonzero (erase es) n e = .ok e' ∧
      (((∃ m, Marked es n true m ∧ e' m ≠ Option.none) ∨ (∃ m c, Marked es n false m ∧ e' m = some c ∧ nonzero c = true)) →
        grad add nonzero es n e = .error .runtimeError) ∧
      (((∀ m, Marked es n true m → e' m = Option.none) ∧ (∀ m c, Marked es n false m → e' m = some c → nonzero c = false)) →
        grad add nonzero es n e = .ok e') := by
  obtain ⟨e', h1, -⟩ := backward_erase add nonzero es n e hv
  obtain ⟨s1, s2⟩ := backward_spec add nonzero es n e e' hv h1
  refine ⟨e', by simp [grad, h1, bind, Except.bind, pure, Except.pure], ?_, ?_⟩
  · intro h
    by_cases hs : ∃ m, Marked es n true m ∧ e' m ≠ Option.none
    · simp only [grad, s1 hs, bind, Except.bind]
    · obtain ⟨b, h2, h3⟩ := s2 fun m hm => by
        by_contra hne
        exact hs ⟨m, hm, hne⟩
      have hb : b = true := h3.2 (by rcases h with h | h; exacts [absurd h hs, h])
      subst hb
      simp only [grad, h2, bind, Except.bind, if_true]
      rfl
  · rintro ⟨g1, g2⟩
    obtain ⟨b, h2, h3⟩ := s2 g1
    have hb : b = false := by
      cases b with
      | false => rfl
      | true =>
        obtain ⟨m, c, k1, k2, k3⟩ := h3.1 rfl
        rw [g2 m c k1 k2] at k3
        contradiction
    subst hb
    simp [grad, h2, bind, Except.bind, pure, Except.pure]

end backward

/-- A program: `y = x * 2`, marked, of which the output `z = 3 * x` does not depend on the marked variable; and one whose output does. -/
def exProg (useMarked : Bool) : List (Eqn Int) :=
  [.op [if useMarked then 2 else 0] (fun c => [some (3 * c)]), .mark true 1, .op [0] (fun c => [some (2 * c)])]

theorem ex_grad : (grad (· + ·) (· != 0) (exProg false) 3 (fun m => if m = 3 then some 1 else Option.none)).map (· 0) = .ok (some 3) ∧
    (grad (· + ·) (· != 0) (exProg true) 3 (fun m => if m = 3 then some 1 else Option.none)).map (· 0) = .error .runtimeError ∧
    (∀ b, Valid (exProg b) 3) := by
  refine ⟨by rfl, by rfl, fun b => ?_⟩
  cases b <;> simp [Valid, exProg, Eqn.reads]

end Nontraceable
end Verif
