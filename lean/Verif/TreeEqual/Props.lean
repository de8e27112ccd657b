import Verif.TreeEqual.Model
import Verif.PyTree.SpecLemmas

/-! # Properties of `tree_equal` -/

namespace Verif
namespace TreeEqual

open PT

variable {K ν β : Type}

/-! ### Vocabulary -/

/-- Elements in the same places are related. -/
def Elems (R : ν → ν → Prop) (xs ys : List ν) : Prop :=
  xs.length = ys.length ∧ ∀ (i : Nat) x y, xs[i]? = some x → ys[i]? = some y → R x y

/-- Whether tolerances apply to two arrays with this dtype: NumPy decides what is inexact if both are NumPy's. -/
def Tolerant (env : Env ν β) (a b : Arr ν) : Prop :=
  env.exact = false ∧ (if a.holder ≠ .jax ∧ b.holder ≠ .jax then env.inexactNp a.dtype else env.inexactJnp a.dtype) = true

/-- Leaves are equal: arrays if they have the same shape, dtype and elements (up to the tolerances), other leaves if
`!=` says so, and an array is not equal to something else. -/
inductive LeafEq (env : Env ν β) : Leaf ν β → Leaf ν β → Prop
  | exact {a b : Arr ν} : a.shape = b.shape → a.dtype = b.dtype → ¬ Tolerant env a b →
      Elems (fun x y => env.eq x y = true) a.data b.data → LeafEq env (.arr a) (.arr b)
  | close {a b : Arr ν} : a.shape = b.shape → a.dtype = b.dtype → Tolerant env a b →
      Elems (fun x y => env.close x y = true) a.data b.data → LeafEq env (.arr a) (.arr b)
  | other {s t u v} : env.ne u v = false → LeafEq env (.other s u) (.other t v)

/-- Trees are equal: the same structure, and equal leaves in the same places. -/
def TreeEq (env : Env ν β) (typematch : Bool) (t u : PT K (Leaf ν β)) : Prop :=
  t.shape = u.shape ∧ ∀ π x y, t.leafAt? π = some x → u.leafAt? π = some y →
    LeafEq env x y ∧ (typematch = true → x.type = y.type)

/-- Two leaves which are compared by JAX. -/
def ByJax : Leaf ν β → Leaf ν β → Prop
  | .arr a, .arr b => a.holder = .jax ∨ b.holder = .jax
  | _, _ => False

/-! ### Lemmas -/

theorem allPairs_iff {f : ν → ν → Bool} {xs ys : List ν} :
    allPairs f xs ys = true ↔ Elems (fun x y => f x y = true) xs ys := by
  induction xs generalizing ys with
  | nil =>
    cases ys with
    | nil => simp [allPairs, Elems]
    | cons y ys => simp [allPairs, Elems]
  | cons x xs ih =>
    cases ys with
    | nil => simp [allPairs, Elems]
    | cons y ys =>
      simp only [allPairs, Bool.and_eq_true, ih, Elems, List.length_cons, Nat.add_right_cancel_iff]
      constructor
      · rintro ⟨h1, h2, h3⟩
        refine ⟨h2, ?_⟩
        intro i a b ha hb
        cases i with
        | zero => simp at ha hb; subst ha; subst hb; exact h1
        | succ i => exact h3 i a b (by simpa using ha) (by simpa using hb)
      · rintro ⟨h1, h2⟩
        exact ⟨h2 0 x y rfl rfl, h1, fun i a b ha hb => h2 (i + 1) a b (by simpa using ha) (by simpa using hb)⟩

theorem leafEq_arr {env : Env ν β} {a b : Arr ν} : LeafEq env (.arr a) (.arr b) ↔
    a.shape = b.shape ∧ a.dtype = b.dtype ∧
      arrayEqual env (if a.holder ≠ .jax ∧ b.holder ≠ .jax then env.inexactNp else env.inexactJnp) a b = true := by
  have hT : (env.exact || !(if a.holder ≠ .jax ∧ b.holder ≠ .jax then env.inexactNp else env.inexactJnp) a.dtype) = true
      ↔ ¬ Tolerant env a b := by
    unfold Tolerant
    split <;> cases env.exact <;> simp
  unfold arrayEqual
  by_cases h : Tolerant env a b
  · rw [if_neg (fun hc => hT.1 hc h), allPairs_iff]
    constructor
    · intro hl
      cases hl with
      | exact _ _ hn _ => exact absurd h hn
      | close h1 h2 _ h4 => exact ⟨h1, h2, h4⟩
    · rintro ⟨h1, h2, h3⟩
      exact .close h1 h2 h h3
  · rw [if_pos (hT.2 h), allPairs_iff]
    constructor
    · intro hl
      cases hl with
      | exact h1 h2 _ h4 => exact ⟨h1, h2, h4⟩
      | close _ _ hn _ => exact absurd hn h
    · rintro ⟨h1, h2, h3⟩
      exact .exact h1 h2 h h3

/-- One step of the loop. -/
theorem compareLeaf_val {env : Env ν β} {tm : Bool} {out : Res} {x y : Leaf ν β} :
    ((compareLeaf env tm out x y).map Res.val).getD false = true ↔
      out.val = true ∧ LeafEq env x y ∧ (tm = true → x.type = y.type) := by
  unfold compareLeaf
  by_cases ht : (tm && decide (x.type ≠ y.type)) = true
  · rw [if_pos ht]
    simp only [Bool.and_eq_true, decide_eq_true_eq] at ht
    simp only [Option.map_none, Option.getD_none, Bool.false_eq_true, false_iff]
    rintro ⟨_, _, h⟩
    exact ht.2 (h ht.1)
  · rw [if_neg ht]
    have htm : tm = true → x.type = y.type := by
      intro h
      simp only [h, Bool.true_and, decide_eq_true_eq, ne_eq, Decidable.not_not] at ht
      exact ht
    cases x with
    | other s u =>
      cases y with
      | other t v =>
        simp only
        cases hne : env.ne u v
        · simp only [Bool.false_eq_true, if_false, Option.map_some, Option.getD_some]
          exact ⟨fun h => ⟨h, .other hne, htm⟩, fun h => h.1⟩
        · simp only [if_true, Option.map_none, Option.getD_none, Bool.false_eq_true, false_iff]
          rintro ⟨_, hl, _⟩
          cases hl with
          | other h => rw [hne] at h; exact absurd h (by simp)
      | arr b =>
        simp only [Option.map_none, Option.getD_none, Bool.false_eq_true, false_iff]
        rintro ⟨_, hl, _⟩
        nomatch hl
    | arr a =>
      cases y with
      | other t v =>
        simp only [Option.map_none, Option.getD_none, Bool.false_eq_true, false_iff]
        rintro ⟨_, hl, _⟩
        nomatch hl
      | arr b =>
        simp only [leafEq_arr]
        by_cases hh : a.holder ≠ .jax ∧ b.holder ≠ .jax
        · simp only [if_pos hh]
          split
          · rename_i hbad
            simp only [Option.map_none, Option.getD_none, Bool.false_eq_true, false_iff]
            rintro ⟨_, ⟨h1, h2, h3⟩, _⟩
            rcases hbad with hb | hb | hb
            · exact hb h1
            · exact hb h2
            · rw [h3] at hb; exact absurd hb (by simp)
          · rename_i hgood
            simp only [not_or, ne_eq, Decidable.not_not, Bool.not_eq_false] at hgood
            simp only [Option.map_some, Option.getD_some]
            exact ⟨fun h => ⟨h, hgood, htm⟩, fun h => h.1⟩
        · simp only [if_neg hh]
          split
          · rename_i hbad
            simp only [Option.map_none, Option.getD_none, Bool.false_eq_true, false_iff]
            rintro ⟨_, ⟨h1, h2, h3⟩, _⟩
            rcases hbad with hb | hb
            · exact hb h1
            · exact hb h2
          · rename_i hgood
            simp only [not_or, ne_eq, Decidable.not_not] at hgood
            simp only [Option.map_some, Option.getD_some, Res.val, Bool.and_eq_true]
            exact ⟨fun h => ⟨h.1, ⟨hgood.1, hgood.2, h.2⟩, htm⟩, fun h => ⟨h.1, h.2.1.2.2⟩⟩

/-- One step of the loop: whether the result is a Python bool. -/
theorem compareLeaf_py {env : Env ν β} {tm : Bool} {out out' : Res} {x y : Leaf ν β}
    (h : compareLeaf env tm out x y = some out') :
    (∃ b, out' = .py b) ↔ (∃ b, out = .py b) ∧ ¬ ByJax x y := by
  unfold compareLeaf at h
  split at h
  · exact absurd h (by simp)
  · cases x with
    | other s u =>
      cases y with
      | other t v =>
        simp only at h
        split at h
        · exact absurd h (by simp)
        · simp only [Option.some.injEq] at h; subst h; simp [ByJax]
      | arr b => exact absurd h (by simp)
    | arr a =>
      cases y with
      | other t v => exact absurd h (by simp)
      | arr b =>
        simp only at h
        split at h
        · rename_i hh
          split at h
          · exact absurd h (by simp)
          · simp only [Option.some.injEq] at h; subst h
            simp only [ByJax, not_or]
            exact ⟨fun h => ⟨h, hh⟩, fun h => h.1⟩
        · rename_i hh
          split at h
          · exact absurd h (by simp)
          · simp only [Option.some.injEq] at h; subst h
            simp only [ByJax, reduceCtorEq, exists_false, false_iff, not_and, Decidable.not_not]
            intro _
            apply Decidable.byContradiction
            intro hn
            rw [not_or] at hn
            exact hh hn

theorem compareLeaves_val {env : Env ν β} {tm : Bool} {out : Res} {xs ys : List (Leaf ν β)} (hl : xs.length = ys.length) :
    ((compareLeaves env tm out xs ys).map Res.val).getD false = true ↔
      out.val = true ∧ ∀ (i : Nat) x y, xs[i]? = some x → ys[i]? = some y →
        LeafEq env x y ∧ (tm = true → x.type = y.type) := by
  induction xs generalizing ys out with
  | nil =>
    cases ys with
    | nil => simp [compareLeaves]
    | cons y ys => simp at hl
  | cons x xs ih =>
    cases ys with
    | nil => simp at hl
    | cons y ys =>
      simp only [compareLeaves]
      have h1 := compareLeaf_val (env := env) (tm := tm) (out := out) (x := x) (y := y)
      have hsplit : (∀ (i : Nat) a b, (x :: xs)[i]? = some a → (y :: ys)[i]? = some b →
          LeafEq env a b ∧ (tm = true → a.type = b.type)) ↔
          (LeafEq env x y ∧ (tm = true → x.type = y.type)) ∧ ∀ (i : Nat) a b, xs[i]? = some a → ys[i]? = some b →
          LeafEq env a b ∧ (tm = true → a.type = b.type) := by
        constructor
        · intro h
          exact ⟨h 0 x y rfl rfl, fun i a b ha hb => h (i + 1) a b (by simpa using ha) (by simpa using hb)⟩
        · rintro ⟨h, h'⟩ i a b ha hb
          cases i with
          | zero => simp at ha hb; subst ha; subst hb; exact h
          | succ i => exact h' i a b (by simpa using ha) (by simpa using hb)
      rw [hsplit]
      cases hc : compareLeaf env tm out x y with
      | none =>
        rw [hc] at h1
        simp only [Option.map_none, Option.getD_none, Bool.false_eq_true, false_iff] at h1 ⊢
        rintro ⟨ho, h2, _⟩
        exact h1 ⟨ho, h2⟩
      | some out' =>
        rw [hc] at h1
        simp only [Option.map_some, Option.getD_some] at h1
        simp only
        rw [ih (by simpa using hl), h1]
        exact ⟨fun h => ⟨h.1.1, h.1.2, h.2⟩, fun h => ⟨⟨h.1, h.2.1⟩, h.2.2⟩⟩

theorem compareLeaves_py {env : Env ν β} {tm : Bool} {out out' : Res} {xs ys : List (Leaf ν β)}
    (hl : xs.length = ys.length) (h : compareLeaves env tm out xs ys = some out') :
    (∃ b, out' = .py b) ↔ (∃ b, out = .py b) ∧
      ∀ (i : Nat) x y, xs[i]? = some x → ys[i]? = some y → ¬ ByJax x y := by
  induction xs generalizing ys out with
  | nil =>
    simp only [compareLeaves, Option.some.injEq] at h; subst h; simp
  | cons x xs ih =>
    cases ys with
    | nil => simp at hl
    | cons y ys =>
      simp only [compareLeaves] at h
      split at h
      · rename_i out1 hc
        rw [ih (by simpa using hl) h, compareLeaf_py hc]
        constructor
        · rintro ⟨⟨h1, h2⟩, h3⟩
          refine ⟨h1, ?_⟩
          intro i a b ha hb
          cases i with
          | zero => simp at ha hb; subst ha; subst hb; exact h2
          | succ i => exact h3 i a b (by simpa using ha) (by simpa using hb)
        · rintro ⟨h1, h2⟩
          exact ⟨⟨h1, h2 0 x y rfl rfl⟩, fun i a b ha hb => h2 (i + 1) a b (by simpa using ha) (by simpa using hb)⟩
      · exact absurd h (by simp)

/-- The leaves in the same places are the leaves with the same index. -/
theorem leaves_iff {t u : PT K (Leaf ν β)} (hs : t.shape = u.shape) (P : Leaf ν β → Leaf ν β → Prop) :
    (∀ (i : Nat) x y, t.leaves[i]? = some x → u.leaves[i]? = some y → P x y) ↔
    ∀ π x y, t.leafAt? π = some x → u.leafAt? π = some y → P x y := by
  constructor
  · intro h π x y hx hy
    obtain ⟨i, _, hi⟩ := index_of_leafAt? hx
    exact h i x y (by rw [← hi t rfl, hx]) (by rw [← hi u hs.symm, hy])
  · intro h i x y hx hy
    obtain ⟨π, hπ⟩ := exists_leafAt?_of_getElem? hx
    exact h π x y (hπ t rfl x hx) (hπ u hs.symm y hy)

variable [DecidableEq K]

theorem compareTrees_val {env : Env ν β} {tm : Bool} {t : PT K (Leaf ν β)} {out : Res} {us : List (PT K (Leaf ν β))} :
    ((compareTrees env tm t out us).map Res.val).getD false = true ↔
      out.val = true ∧ ∀ u ∈ us, TreeEq env tm t u := by
  induction us generalizing out with
  | nil => simp [compareTrees]
  | cons u us ih =>
    simp only [compareTrees, List.mem_cons, forall_eq_or_imp]
    by_cases hs : u.shape = t.shape
    · simp only [hs, ne_eq, not_true_eq_false, if_false]
      have h1 := compareLeaves_val (env := env) (tm := tm) (out := out) (length_leaves_of_shape hs.symm)
      rw [leaves_iff hs.symm (fun x y => LeafEq env x y ∧ (tm = true → x.type = y.type))] at h1
      cases hc : compareLeaves env tm out t.leaves u.leaves with
      | none =>
        rw [hc] at h1
        simp only [Option.map_none, Option.getD_none, Bool.false_eq_true, false_iff] at h1 ⊢
        rintro ⟨ho, h2, _⟩
        exact h1 ⟨ho, h2.2⟩
      | some out' =>
        rw [hc] at h1
        simp only [Option.map_some, Option.getD_some] at h1
        simp only
        rw [ih, h1]
        exact ⟨fun h => ⟨h.1.1, ⟨hs.symm, h.1.2⟩, h.2⟩, fun h => ⟨⟨h.1, h.2.1.2⟩, h.2.2⟩⟩
    · simp only [hs, ne_eq, not_false_eq_true, if_true, Option.map_none, Option.getD_none, Bool.false_eq_true, false_iff]
      rintro ⟨_, h, _⟩
      exact hs h.1.symm

theorem compareTrees_py {env : Env ν β} {tm : Bool} {t : PT K (Leaf ν β)} {out out' : Res} {us : List (PT K (Leaf ν β))}
    (h : compareTrees env tm t out us = some out') :
    (∃ b, out' = .py b) ↔ (∃ b, out = .py b) ∧
      ∀ u ∈ us, ∀ π x y, t.leafAt? π = some x → u.leafAt? π = some y → ¬ ByJax x y := by
  induction us generalizing out with
  | nil => simp only [compareTrees, Option.some.injEq] at h; subst h; simp
  | cons u us ih =>
    simp only [compareTrees] at h
    split at h
    · exact absurd h (by simp)
    · rename_i hs
      simp only [ne_eq, Decidable.not_not] at hs
      split at h
      · rename_i out1 hc
        rw [ih h, compareLeaves_py (length_leaves_of_shape hs.symm) hc, leaves_iff hs.symm (fun x y => ¬ ByJax x y)]
        simp only [List.mem_cons, forall_eq_or_imp]
        exact ⟨fun h => ⟨h.1.1, h.1.2, h.2⟩, fun h => ⟨⟨h.1, h.2.1⟩, h.2.2⟩⟩
      · exact absurd h (by simp)

/-! ### The properties -/

/-- The result is true exactly if all trees have the structure of the first one and equal leaves in the same places. -/
theorem tree_equal_iff {env : Env ν β} {tm : Bool} {t : PT K (Leaf ν β)} {us : List (PT K (Leaf ν β))} {r : Res}
    (h : treeEqual env tm (t :: us) = .ok r) : r.val = true ↔ ∀ u ∈ us, TreeEq env tm t u := by
  simp only [treeEqual, Except.ok.injEq] at h
  have := compareTrees_val (env := env) (tm := tm) (t := t) (out := .py true) (us := us)
  simp only [Res.val, true_and] at this
  rw [← this]
  subst h
  cases compareTrees env tm t (.py true) us <;> simp [Res.val]

/-- It is the Python object `True` exactly if moreover JAX was not needed to compare two leaves. -/
theorem tree_equal_is_true {env : Env ν β} {tm : Bool} {t : PT K (Leaf ν β)} {us : List (PT K (Leaf ν β))} :
    treeEqual env tm (t :: us) = .ok (.py true) ↔
      ∀ u ∈ us, TreeEq env tm t u ∧ ∀ π x y, t.leafAt? π = some x → u.leafAt? π = some y → ¬ ByJax x y := by
  have hv := compareTrees_val (env := env) (tm := tm) (t := t) (out := .py true) (us := us)
  simp only [Res.val, true_and] at hv
  simp only [treeEqual, Except.ok.injEq]
  cases hc : compareTrees env tm t (.py true) us with
  | none =>
    rw [hc] at hv
    simp only [Option.map_none, Option.getD_none, Bool.false_eq_true, false_iff, Res.py.injEq] at hv ⊢
    intro h
    exact hv (fun u hu => (h u hu).1)
  | some r =>
    rw [hc] at hv
    have hp := compareTrees_py hc
    simp only [Option.map_some, Option.getD_some, Res.py.injEq, exists_eq', true_and] at hv hp ⊢
    constructor
    · rintro rfl u hu
      exact ⟨hv.1 rfl u hu, hp.1 ⟨true, rfl⟩ u hu⟩
    · intro h
      obtain ⟨b, rfl⟩ := hp.2 (fun u hu => (h u hu).2)
      have := hv.2 (fun u hu => (h u hu).1)
      simp only [Res.val] at this
      rw [this]

/-- One tree is equal to nothing else; without trees there is an error. -/
theorem tree_equal_one {env : Env ν β} {tm : Bool} {t : PT K (Leaf ν β)} :
    treeEqual env tm [t] = .ok (.py true) := rfl
theorem tree_equal_none {env : Env ν β} {tm : Bool} :
    treeEqual env tm ([] : List (PT K (Leaf ν β))) = .error .indexError := rfl

omit [DecidableEq K] in
/-- With zero tolerances equality of leaves does not mention tolerances. -/
theorem leafEq_exact {env : Env ν β} (he : env.exact = true) {x y : Leaf ν β} : LeafEq env x y ↔
    (∃ a b, x = .arr a ∧ y = .arr b ∧ a.shape = b.shape ∧ a.dtype = b.dtype ∧
      Elems (fun x y => env.eq x y = true) a.data b.data) ∨
    (∃ s t u v, x = .other s u ∧ y = .other t v ∧ env.ne u v = false) := by
  have hT : ∀ a b : Arr ν, ¬ Tolerant env a b := by
    intro a b h
    have := h.1
    rw [he] at this
    exact absurd this (by simp)
  constructor
  · intro h
    cases h with
    | exact h1 h2 _ h4 => exact .inl ⟨_, _, rfl, rfl, h1, h2, h4⟩
    | close _ _ h3 _ => exact absurd h3 (hT _ _)
    | other h => exact .inr ⟨_, _, _, _, rfl, rfl, h⟩
  · rintro (⟨a, b, rfl, rfl, h1, h2, h3⟩ | ⟨s, t, u, v, rfl, rfl, h⟩)
    · exact .exact h1 h2 (hT _ _) h3
    · exact .other h

/-- A lawful equality of elements and of other leaves. -/
structure Lawful (env : Env ν β) : Prop where
  refl : ∀ x, env.eq x x = true
  symm : ∀ x y, env.eq x y = true → env.eq y x = true
  trans : ∀ x y z, env.eq x y = true → env.eq y z = true → env.eq x z = true
  ne_refl : ∀ v, env.ne v v = false
  ne_symm : ∀ u v, env.ne u v = false → env.ne v u = false
  ne_trans : ∀ u v w, env.ne u v = false → env.ne v w = false → env.ne u w = false

/-- With zero tolerances and lawful equality of leaves, `tree_equal` is reflexive, -/
theorem tree_equal_refl {env : Env ν β} (hl : Lawful env) (he : env.exact = true) {tm : Bool} {t : PT K (Leaf ν β)} {r}
    (h : treeEqual env tm [t, t] = .ok r) : r.val = true := by
  rw [tree_equal_iff h]
  intro u hu
  simp only [List.mem_singleton] at hu; subst hu
  refine ⟨rfl, ?_⟩
  intro π x y hx hy
  rw [hx] at hy; cases hy
  refine ⟨?_, fun _ => rfl⟩
  rw [leafEq_exact he]
  cases x with
  | arr a =>
    refine .inl ⟨a, a, rfl, rfl, rfl, rfl, rfl, ?_⟩
    intro i p q hp hq
    rw [hp] at hq; cases hq
    exact hl.refl _
  | other s v => exact .inr ⟨s, s, v, v, rfl, rfl, hl.ne_refl v⟩

/-- symmetric, -/
theorem tree_equal_symm {env : Env ν β} (hl : Lawful env) (he : env.exact = true) {tm : Bool} {t u : PT K (Leaf ν β)} {r r'}
    (h : treeEqual env tm [t, u] = .ok r) (h' : treeEqual env tm [u, t] = .ok r') : r.val = r'.val := by
  have key : ∀ {t u : PT K (Leaf ν β)}, TreeEq env tm t u → TreeEq env tm u t := by
    rintro t u ⟨hs, hp⟩
    refine ⟨hs.symm, ?_⟩
    intro π x y hx hy
    obtain ⟨h1, h2⟩ := hp π y x hy hx
    refine ⟨?_, fun h => (h2 h).symm⟩
    rw [leafEq_exact he] at h1 ⊢
    rcases h1 with ⟨a, b, rfl, rfl, e1, e2, e3, e4⟩ | ⟨s, s', v, w, rfl, rfl, hv⟩
    · exact .inl ⟨b, a, rfl, rfl, e1.symm, e2.symm, e3.symm, fun i p q hp hq => hl.symm _ _ (e4 i q p hq hp)⟩
    · exact .inr ⟨s', s, w, v, rfl, rfl, hl.ne_symm _ _ hv⟩
  have a := tree_equal_iff h
  have b := tree_equal_iff h'
  simp only [List.mem_singleton, forall_eq] at a b
  rw [Bool.eq_iff_iff, a, b]
  exact ⟨key, key⟩

/-- and transitive. -/
theorem tree_equal_trans {env : Env ν β} (hl : Lawful env) (he : env.exact = true) {tm : Bool}
    {t u w : PT K (Leaf ν β)} {r r' r''} (h : treeEqual env tm [t, u] = .ok r) (h' : treeEqual env tm [u, w] = .ok r')
    (h'' : treeEqual env tm [t, w] = .ok r'') (e : r.val = true) (e' : r'.val = true) : r''.val = true := by
  rw [tree_equal_iff h] at e
  rw [tree_equal_iff h'] at e'
  rw [tree_equal_iff h'']
  simp only [List.mem_singleton, forall_eq] at e e' ⊢
  refine ⟨e.1.trans e'.1, ?_⟩
  intro π x z hx hz
  have : (u.leafAt? π).isSome := by rw [leafAt?_isSome_of_shape e.1.symm, hx]; rfl
  rw [Option.isSome_iff_exists] at this
  obtain ⟨y, hy⟩ := this
  obtain ⟨h1, h2⟩ := e.2 π x y hx hy
  obtain ⟨h3, h4⟩ := e'.2 π y z hy hz
  refine ⟨?_, fun h => (h2 h).trans (h4 h)⟩
  rw [leafEq_exact he] at h1 h3 ⊢
  rcases h1 with ⟨a, b, rfl, rfl, a1, a2, a3, a4⟩ | ⟨s, s', v, w, rfl, rfl, hv⟩
  · rcases h3 with ⟨b', c, hb, rfl, c1, c2, c3, c4⟩ | ⟨_, _, _, _, hb, _⟩
    · cases hb
      refine .inl ⟨a, c, rfl, rfl, a1.trans c1, a2.trans c2, a3.trans c3, ?_⟩
      intro i p q hp hq
      have hi : i < b.data.length := by rw [← a3]; exact (List.getElem?_eq_some_iff.1 hp).1
      exact hl.trans _ _ _ (a4 i p _ hp (List.getElem?_eq_getElem hi)) (c4 i _ q (List.getElem?_eq_getElem hi) hq)
    · exact absurd hb (by simp)
  · rcases h3 with ⟨_, _, hb, _⟩ | ⟨_, s'', w', z', hb, rfl, hw⟩
    · exact absurd hb (by simp)
    · cases hb
      exact .inr ⟨s, s'', v, z', rfl, rfl, hl.ne_trans _ _ _ hv hw⟩

/-! ### Examples and counterexamples -/

/-- Elements are integers or NaN, other leaves are strings; dtype `0` is floating point. The tolerances are `rtol = 1`
and `atol = 0`, or both zero. -/
def exEnv (exact : Bool) : Env (Option Int) String where
  exact := exact
  close := fun x y => match x, y with
    | some x, some y => decide ((x - y).natAbs ≤ y.natAbs)
    | _, _ => false
  eq := fun x y => match x, y with
    | some x, some y => x == y
    | _, _ => false
  ne := fun u v => u != v
  inexactNp := fun d => d == 0
  inexactJnp := fun d => d == 0

def exArr (h : Holder) (x : Int) : Leaf (Option Int) String :=
  .arr { ty := (match h with | .ndarray => 10 | .generic => 11 | .jax => 12), holder := h, shape := [1], dtype := 0,
         data := [some x] }

/-- Equal trees, a NumPy and a JAX array: equal unless types must match. -/
example : treeEqual (exEnv true) false
    [.node "list" [.none, .leaf (exArr .ndarray 3), .leaf (.other 5 "a")],
     .node "list" [.none, .leaf (exArr .jax 3), .leaf (.other 5 "a")]] = .ok (.jax true) := by rfl
example : treeEqual (exEnv true) true
    [.node "list" [.none, .leaf (exArr .ndarray 3), .leaf (.other 5 "a")],
     .node "list" [.none, .leaf (exArr .jax 3), .leaf (.other 5 "a")]] = .ok (.py false) := by rfl
example : treeEqual (exEnv true) false
    [.node "list" [.leaf (exArr .ndarray 3)], .node "list" [.leaf (exArr .generic 3)],
     .node "list" [.leaf (exArr .ndarray 3)]] = .ok (.py true) := by rfl
example : treeEqual (exEnv true) false
    [.node "list" [.leaf (exArr .jax 3)], .node "tuple" [.leaf (exArr .jax 3)]] = .ok (.py false) := by rfl

/-- Lawful equality exists. -/
example : Lawful ({ exEnv true with eq := fun x y => x == y } : Env (Option Int) String) where
  refl := by simp
  symm := by intro x y h; simp at h ⊢; exact h.symm
  trans := by intro x y z h h'; simp at h h' ⊢; rw [h, h']
  ne_refl := by simp [exEnv]
  ne_symm := by intro u v h; simp [exEnv] at h ⊢; exact h.symm
  ne_trans := by intro u v w h h'; simp [exEnv] at h h' ⊢; rw [h, h']

/-- With a tolerance the result depends on the order of the trees. -/
theorem tree_equal_rtol_not_symmetric :
    treeEqual (K := String) (exEnv false) false [.leaf (exArr .ndarray 1), .leaf (exArr .ndarray 3)] = .ok (.py true) ∧
    treeEqual (K := String) (exEnv false) false [.leaf (exArr .ndarray 3), .leaf (exArr .ndarray 1)] = .ok (.py false) := by
  constructor <;> rfl

/-- A tree with a NaN is not equal to itself: `Lawful` cannot be dropped. -/
theorem tree_equal_nan :
    treeEqual (K := String) (exEnv true) false
      [.leaf (.arr { ty := 10, holder := .ndarray, shape := [], dtype := 0, data := [none] }),
       .leaf (.arr { ty := 10, holder := .ndarray, shape := [], dtype := 0, data := [none] })] = .ok (.py false) := by
  rfl

end TreeEqual
end Verif
