import Verif.AD.Grad

/-!
# C110: training changes the trainable leaves and nothing else

The way `partition`, `combine`, `filter_grad` and `apply_updates` are meant to be used together: the training step of
`examples/frozen_layer.ipynb` (cell 4), repeated. The functions used are the models of `_filters.py`, `_ad.py`, `_update.py`.
-/

namespace Verif
namespace AD
namespace Training

open PT Filters

variable {K α S : Type} [DecidableEq K]

/-! ## Model -/

/-- `loss(diff_model, static_model, *rest)` (`examples/frozen_layer.ipynb`, cell 4): `f` of
`eqx.combine(diff_model, static_model)`. Calling it with fewer arguments is a `TypeError`. -/
def loss (f : PyFn K α) : PyFn K α := fun args kwargs =>
  match args with
  | diff :: static :: rest => do
    let model ← Filters.combine noLeaf [diff, static]
    f (model :: rest) kwargs
  | _ => .error .typeError

/-- An optimiser: gradients, its state and the model give updates and the next state (`optim.update`). -/
abbrev Optim (K α S : Type) := PT K α → S → PT K α → Except Err (PT K α × S)

/-- `make_step` (`examples/frozen_layer.ipynb`, cell 4). `add p u` is the Python expression `p + u`; the filter specification
is a tree of bools; `rest` is the batch. -/
def makeStep (J : Jax K α) (add : PT K α → PT K α → Except Err (PT K α)) (optim : Optim K α S) (spec : PT K Bool)
    (f : PyFn K α) (model : PT K α) (rest : List (PT K α)) (state : S) : Except Err (PT K α × S) := do
  let p ← Filters.partition noLeaf (spec.map .bool) .none model
  let grads ← filterGrad J false (loss f) (p.1 :: p.2 :: rest) []
  let u ← optim grads state model
  let model' ← Filters.applyUpdates add model u.1
  pure (model', u.2)

/-- The loop around `make_step` (`examples/frozen_layer.ipynb`, cell 4). -/
def train (J : Jax K α) (add : PT K α → PT K α → Except Err (PT K α)) (optim : Optim K α S) (spec : PT K Bool)
    (f : PyFn K α) : List (List (PT K α)) → PT K α → S → Except Err (PT K α × S)
  | [], model, state => .ok (model, state)
  | rest :: batches, model, state => do
    let r ← makeStep J add optim spec f model rest state
    train J add optim spec f batches r.1 r.2

/-! ## Specification -/

/-- What is assumed of an optimiser: updates have the structure of the gradients (`None` where there is no gradient). -/
def Optim.Structural (optim : Optim K α S) : Prop :=
  ∀ grads state model updates state', optim grads state model = .ok (updates, state') → SameStructure updates grads

/-- What is assumed of `+`: an inexact array plus an array is an inexact array. -/
def AddsInexact (J : Jax K α) (add : PT K α → PT K α → Except Err (PT K α)) : Prop :=
  ∀ a u y, J.inexact a = true → add (.leaf a) (.leaf u) = .ok y → ∃ b, y = .leaf b ∧ J.inexact b = true

/-- At `π` the model has the leaf `a`, which is to be trained: `spec` has `True` there and `a` is an inexact array. -/
def Trainable (J : Jax K α) (spec : PT K Bool) (model : PT K α) (π : List Nat) (a : α) : Prop :=
  model.leafAt? π = some a ∧ spec.leafAt? π = some true ∧ J.inexact a = true

/-- At `π` the model has the leaf `a`, which is not to be trained. -/
def Frozen (J : Jax K α) (spec : PT K Bool) (model : PT K α) (π : List Nat) (a : α) : Prop :=
  model.leafAt? π = some a ∧ (spec.leafAt? π = some false ∨ J.inexact a = false)

/-- `model'` is `model` with the trainable leaves replaced by `ls`, in order. -/
structure Replaced (J : Jax K α) (spec : PT K Bool) (model : PT K α) (ls : List α) (model' : PT K α) : Prop where
  same : SameStructure model' model
  fixed : ∀ π a, Frozen J spec model π a → model'.leafAt? π = some a
  moved : (((spec.leaves.zip model.leaves).zip model'.leaves).filter fun p => p.1.1 && J.inexact p.1.2).map Prod.snd = ls

/-! ## Proofs -/

theorem partition_mask (m : PT K (Bool × α)) :
    partition noLeaf ((m.map Prod.fst).map (.bool : Bool → Spec K α)) .none (m.map Prod.snd) =
      .ok (withNones (m.map fun p => if p.1 then some p.2 else Option.none),
        withNones (m.map fun p => if p.1 then Option.none else some p.2)) := by
  have e : ∀ {β γ : Type} (f : β → γ) (t : PT K β), (t.map f).cut noLeaf = t.map fun b => PT.leaf (f b) := by
    intro β γ f t; rw [cut_noLeaf, map_map]
  have e' : ∀ {β γ : Type} (f : β → γ) (t : PT K β), t.map f = (t.map fun b => PT.leaf (f b)).join := by
    intro β γ f t; have := join_map_leaf (t.map f); rw [map_map] at this; exact this.symm
  have h1 : filterTree noLeaf ((m.map Prod.fst).map (.bool : Bool → Spec K α)) (m.map Prod.snd) = .ok (m.map Prod.fst) := by
    rw [map_map, filterTree]
    refine (treeMap2_closed (u := m) (b := fun p => .leaf (Spec.bool p.1)) (c := fun p => .leaf p.2) (g := fun p => .leaf p.1)
      (e _ m) (e' _ m) ?_).trans ?_
    · intro p _; rfl
    · rw [← e' Prod.fst m]
  simp only [partition, h1, bind, Except.bind]
  rw [treeMap2_closed (u := m) (b := fun p => .leaf p.1) (c := fun p => .leaf p.2)
    (g := fun p => orNone (if p.1 then some p.2 else Option.none)) (e _ m) (e' _ m) (by intro p _; cases p.1 <;> rfl)]
  simp only
  rw [treeMap2_closed (u := m) (b := fun p => .leaf p.1) (c := fun p => .leaf p.2)
    (g := fun p => orNone (if p.1 then Option.none else some p.2)) (e _ m) (e' _ m) (by intro p _; cases p.1 <;> rfl)]
  simp only [withNones, map_map, pure, Except.pure]

omit [DecidableEq K] in
/-- A tree that has the containers, `None`s and leaves of another has its structure. -/
theorem sameStructure_of {t out : PT K α}
    (hnode : ∀ π k n, t.headAt? π = some (.node k n) → out.headAt? π = some (.node k n))
    (hnone : ∀ π, t.headAt? π = some .none → out.headAt? π = some .none)
    (hleaf : ∀ π a, t.leafAt? π = some a → ∃ b, out.leafAt? π = some b) : SameStructure out t := by
  have leaf_of : ∀ π a, t.headAt? π = some (.leaf a) → t.leafAt? π = some a := by
    intro π a h
    rw [headAt?] at h
    cases hg : t.get? π with
    | none => simp [hg] at h
    | some x => cases x <;> simp_all [head, leafAt?_eq_some]
  have hp : IsPrefix t out := by
    intro π
    cases h : t.headAt? π with
    | none => trivial
    | some o => cases o with
      | leaf a =>
        obtain ⟨b, hb⟩ := hleaf π a (leaf_of π a h)
        simp only
        rw [leafAt?_eq_some.1 hb]; rfl
      | none => exact hnone π h
      | node k n => exact hnode π k n h
  obtain ⟨c, h1, h2⟩ := isPrefix_iff.1 hp
  rw [sameStructure_iff, ← h2, ← join_map_leaf t]
  refine shape_join (by rw [h1, shape_map]) ?_
  intro π x y hx hy
  rw [leafAt?_map] at hy
  cases ht : t.leafAt? π with
  | none => simp [ht] at hy
  | some a =>
    simp only [ht, Option.map_some, Option.some.injEq] at hy
    obtain ⟨b, hb⟩ := hleaf π a ht
    have h3 := get?_join_nil hx
    rw [h2, leafAt?_eq_some.1 hb] at h3
    cases h3; subst hy; rfl

omit [DecidableEq K] in
theorem headAt?_leaf {t : PT K α} {π a} (h : t.leafAt? π = some a) : t.headAt? π = some (.leaf a) := by
  rw [headAt?, leafAt?_eq_some.1 h]; rfl

omit [DecidableEq K] in
theorem leaves_mem {α : Type} {t : PT K α} {π : List Nat} {a : α} (h : t.leafAt? π = some a) : a ∈ t.leaves := by
  induction t using PT.ind generalizing π with
  | leaf b =>
    rw [leafAt?_eq_some] at h
    cases π with
    | nil => simp [get?] at h; simp [leaves, h]
    | cons i π => simp [get?] at h
  | none =>
    rw [leafAt?_eq_some] at h
    cases π <;> simp [get?] at h
  | node k cs ih =>
    rw [leafAt?_eq_some] at h
    cases π with
    | nil => simp [get?] at h
    | cons i π =>
      simp only [get?] at h
      cases hc : cs[i]? with
      | none => simp [hc] at h
      | some c =>
        simp only [hc] at h
        simp only [leaves, leavesL_eq, List.mem_flatMap]
        exact ⟨c, List.mem_of_getElem? hc, ih c (List.mem_of_getElem? hc) (leafAt?_eq_some.2 h)⟩

/-- The gradient of the step: that of `f` as a function of the trainable leaves, all other leaves fixed. -/
def GradientOf (J : Jax K α) (spec : PT K Bool) (f : PyFn K α) (model : PT K α) (rest : List (PT K α)) (grads : PT K α) :
    Prop :=
  ∃ F : List α → Except Err α,
    (∀ ls model', Replaced J spec model ls model' → F ls = objective J false f rest [] model') ∧
    ∃ xs, Replaced J spec model xs model ∧ J.grad F xs = .ok grads.leaves

theorem makeStep_parts {J : Jax K α} {add : PT K α → PT K α → Except Err (PT K α)} {optim : Optim K α S} {spec : PT K Bool}
    {f : PyFn K α} {model model' : PT K α} {rest : List (PT K α)} {state state' : S} {m : PT K (Bool × α)}
    (e1 : m.map Prod.fst = spec) (e2 : m.map Prod.snd = model)
    (h : makeStep J add optim spec f model rest state = .ok (model', state')) :
    ∃ value grads updates,
      valueAndGrad J false (loss f) (withNones (m.map fun p => if p.1 then some p.2 else Option.none) ::
        withNones (m.map fun p => if p.1 then Option.none else some p.2) :: rest) [] = .ok (value, grads) ∧
      optim grads state model = .ok (updates, state') ∧ applyUpdates add model updates = .ok model' := by
  subst e1 e2
  simp only [makeStep, partition_mask, bind, Except.bind, pure, Except.pure, filterGrad, Bool.false_eq_true, if_false] at h
  cases h1 : valueAndGrad J false (loss f) (withNones (m.map fun p => if p.1 then some p.2 else Option.none) ::
        withNones (m.map fun p => if p.1 then Option.none else some p.2) :: rest) [] with
  | error e => simp [h1] at h
  | ok r =>
    simp only [h1] at h
    cases h2 : optim r.2 state (m.map Prod.snd) with
    | error e => simp [h2] at h
    | ok u =>
      simp only [h2] at h
      cases h3 : applyUpdates add (m.map Prod.snd) u.1 with
      | error e => simp [h3] at h
      | ok y =>
        simp only [h3, Except.ok.injEq, Prod.mk.injEq] at h
        obtain ⟨rfl, rfl⟩ := h
        exact ⟨r.1, r.2, u.1, rfl, h2, h3⟩

omit [DecidableEq K] in
theorem Replaced.triple {J : Jax K α} {m : PT K (Bool × α)} {ls : List α} {model' : PT K α}
    (h : Replaced J (m.map Prod.fst) (m.map Prod.snd) ls model') :
    ∃ w : PT K ((Bool × α) × α), w.map Prod.fst = m ∧ w.map Prod.snd = model' ∧
      (∀ p ∈ w.leaves, (p.1.1 && J.inexact p.1.2) = false → p.2 = p.1.2) ∧
      (w.leaves.filter fun p => p.1.1 && J.inexact p.1.2).map Prod.snd = ls := by
  obtain ⟨w, h1, h2⟩ := exists_pair (s := m) (t := model') (by have := sameStructure_iff.1 h.same; rw [this, shape_map])
  refine ⟨w, h1, h2, ?_, ?_⟩
  · intro p hp hq
    obtain ⟨π, hπ⟩ := exists_path hp
    have := h.fixed π p.1.2 ⟨by rw [← h1, leafAt?_map, leafAt?_map, hπ]; rfl, by
      rw [← h1, leafAt?_map, leafAt?_map, hπ]
      cases hb : p.1.1 <;> simp_all⟩
    rw [← h2, leafAt?_map, hπ] at this
    simpa using this
  · rw [← h.moved, ← h1, ← h2]
    simp only [leaves_map]
    induction w.leaves with
    | nil => rfl
    | cons p l ih =>
      simp only [List.map_cons, List.zip_cons_cons, List.filter_cons]
      split <;> simp_all

omit [DecidableEq K] in
theorem moved_mask (J : Jax K α) (l : List ((Bool × α) × α)) :
    (((l.filterMap ((fun p : Bool × α => if p.1 then some p.2 else Option.none) ∘ Prod.fst)).zip
      (l.filterMap fun p => if p.1.1 then some p.2 else Option.none)).filter fun p => J.inexact p.1).map Prod.snd =
    (l.filter fun p => p.1.1 && J.inexact p.1.2).map Prod.snd := by
  induction l with
  | nil => rfl
  | cons p l ih =>
    obtain ⟨⟨b, a⟩, c⟩ := p
    cases b <;> cases hq : J.inexact a <;> simp_all

omit [DecidableEq K] in
theorem moved_self (J : Jax K α) (l : List (Bool × α)) :
    ((((l.map Prod.fst).zip (l.map Prod.snd)).zip (l.map Prod.snd)).filter fun p => p.1.1 && J.inexact p.1.2).map Prod.snd =
    (l.filterMap fun p => if p.1 then some p.2 else Option.none).filter J.inexact := by
  induction l with
  | nil => rfl
  | cons p l ih =>
    obtain ⟨b, a⟩ := p
    cases b <;> cases hq : J.inexact a <;> simp_all

/-- **C110**, one step. With a filter specification of the structure of the model, an optimiser whose updates have the
structure of the gradients, and `+` keeping arrays inexact: the new model has the structure of the old one; each frozen leaf
is as it was; each trainable leaf is the old leaf plus its update. The updates are what the optimiser makes of the gradients,
and these are the gradients of `f` as a function of exactly the trainable leaves of the whole model. -/
theorem step {J : Jax K α} {add : PT K α → PT K α → Except Err (PT K α)} {optim : Optim K α S} {spec : PT K Bool}
    {f : PyFn K α} {model model' : PT K α} {rest : List (PT K α)} {state state' : S}
    (hs : SameStructure spec model) (ho : optim.Structural) (ha : AddsInexact J add)
    (h : makeStep J add optim spec f model rest state = .ok (model', state')) :
    SameStructure model' model ∧
    (∀ π a, Frozen J spec model π a → model'.leafAt? π = some a) ∧
    ∃ grads updates, optim grads state model = .ok (updates, state') ∧ GradientOf J spec f model rest grads ∧
      (∀ π a, Frozen J spec model π a → grads.get? π = some .none) ∧
      ∀ π a, Trainable J spec model π a → ∃ g u b, grads.leafAt? π = some g ∧ updates.leafAt? π = some u ∧
        add (.leaf a) (.leaf u) = .ok (.leaf b) ∧ model'.leafAt? π = some b ∧ Trainable J spec model' π b := by
  obtain ⟨m, e1, e2⟩ := exists_pair (sameStructure_iff.1 hs)
  obtain ⟨value, grads, updates, hv, hu, hap⟩ := makeStep_parts e1 e2 h
  obtain ⟨-, hg, F, hF, hgr⟩ := value_and_grad hv
  have hsu := ho _ _ _ _ _ hu
  have hsu' := sameStructure_iff.1 hsu
  have hsp := applyUpdates_spec hap
  -- positions
  have hm : ∀ π a b, model.leafAt? π = some a → spec.leafAt? π = some b → m.leafAt? π = some (b, a) := by
    intro π a b h1 h2
    rw [← e2, leafAt?_map] at h1
    rw [← e1, leafAt?_map] at h2
    cases hp : m.leafAt? π with
    | none => simp [hp] at h1
    | some p => simp_all [Prod.ext_iff]
  have hspec : ∀ π a, model.leafAt? π = some a → ∃ b, spec.leafAt? π = some b ∧ m.leafAt? π = some (b, a) := by
    intro π a h1
    have h1' := h1
    rw [← e2, leafAt?_map] at h1
    cases hp : m.leafAt? π with
    | none => simp [hp] at h1
    | some p =>
      refine ⟨p.1, by rw [← e1, leafAt?_map, hp]; rfl, ?_⟩
      simp only [hp, Option.map_some, Option.some.injEq] at h1
      rw [← h1]
  have unone : ∀ π, grads.headAt? π = some .none → model'.get? π = model.get? π := by
    intro π hπ
    have := ((headAt?_of_shape hsu' π).2).2 hπ
    obtain ⟨x, h1, h2⟩ := (hsp π).1 (headAt?_none_get? this)
    rw [h1, h2]
  have gfroz : ∀ π a, Frozen J spec model π a → grads.get? π = some .none := by
    rintro π a ⟨h1, h2⟩
    obtain ⟨b, h3, h4⟩ := hspec π a h1
    have hT := (headAt?_withNones m (fun p => if p.1 then some p.2 else Option.none) π).2.2 _ (headAt?_leaf h4)
    cases b with
    | false => exact headAt?_none_get? (hg.nones π (by simpa [orNone, head] using hT))
    | true =>
      refine hg.nondiff π a ?_ (by simpa [h3] using h2)
      rw [leafAt?_withNones, h4]; rfl
  have froz : ∀ π a, Frozen J spec model π a → model'.leafAt? π = some a := by
    intro π a hf
    have := unone π (by rw [headAt?, gfroz π a hf]; rfl)
    rw [leafAt?_eq_some, this]
    exact leafAt?_eq_some.1 hf.1
  have tr : ∀ π a, Trainable J spec model π a → ∃ g u b, grads.leafAt? π = some g ∧ updates.leafAt? π = some u ∧
        add (.leaf a) (.leaf u) = .ok (.leaf b) ∧ model'.leafAt? π = some b ∧ Trainable J spec model' π b := by
    rintro π a ⟨h1, h2, h3⟩
    have h4 := hm π a true h1 h2
    obtain ⟨g, hgl⟩ := hg.diff π a (by rw [leafAt?_withNones, h4]; rfl) h3
    have hul : ∃ u, updates.leafAt? π = some u := by
      have := hsu π
      rw [headAt?_leaf hgl] at this
      cases hx : updates.get? π with
      | none => simp [headAt?, hx] at this
      | some x => cases x with
        | leaf u => exact ⟨u, leafAt?_eq_some.2 hx⟩
        | none => simp [headAt?, hx, head] at this
        | node k cs => simp [headAt?, hx, head] at this
    obtain ⟨u, hul⟩ := hul
    obtain ⟨x, y, h5, h6, h7⟩ := (hsp π).2.1 u (leafAt?_eq_some.1 hul)
    rw [leafAt?_eq_some.1 h1] at h5
    cases h5
    obtain ⟨b, rfl, hb⟩ := ha _ _ _ h3 h6
    exact ⟨g, u, b, hgl, hul, h6, leafAt?_eq_some.2 h7, leafAt?_eq_some.2 h7, h2, hb⟩
  have hhead : ∀ π, (∀ k n, model.headAt? π = some (.node k n) → m.headAt? π = some (.node k n)) ∧
      (model.headAt? π = some .none → m.headAt? π = some .none) := by
    intro π
    have := headAt?_of_shape (c := model) (d := m) (by rw [← e2, shape_map]) π
    exact ⟨fun k n => (this.1 k n).1, this.2.1⟩
  refine ⟨sameStructure_of ?_ ?_ ?_, froz, grads, updates, hu, ?_, gfroz, tr⟩
  · intro π k n hπ
    have h1 := (headAt?_withNones m (fun p => if p.1 then some p.2 else Option.none) π).1 k n ((hhead π).1 k n hπ)
    have h2 := hg.nodes π k n h1
    exact ((hsp π).2.2 k n (((headAt?_of_shape hsu' π).1 k n).2 h2)).2
  · intro π hπ
    have h1 := (headAt?_withNones m (fun p => if p.1 then some p.2 else Option.none) π).2.1 ((hhead π).2 hπ)
    have := unone π (hg.nones π h1)
    rw [headAt?, this, ← headAt?]
    exact hπ
  · intro π a h1
    obtain ⟨b, h3, -⟩ := hspec π a h1
    by_cases hc : b = true ∧ J.inexact a = true
    · obtain ⟨rfl, hc⟩ := hc
      obtain ⟨_, _, b, _, _, _, hb, _⟩ := tr π a ⟨h1, h3, hc⟩
      exact ⟨b, hb⟩
    · refine ⟨a, froz π a ⟨h1, ?_⟩⟩
      rw [h3]
      cases b <;> simp_all
  · refine ⟨F, ?_, _, ?_, hgr⟩
    · intro ls x' hr
      subst e1 e2
      obtain ⟨w, rfl, rfl, h3, h4⟩ := hr.triple
      have hsub : Subst J.inexact (withNones ((w.map Prod.fst).map fun p => if p.1 then some p.2 else Option.none)) ls
          (withNones (w.map fun p => if p.1.1 then some p.2 else Option.none)) := by
        rw [map_map]
        refine ⟨sameStructure_iff.2 (shape_withNones _ _ _ ?_), ?_, ?_⟩
        · intro p _; cases p.1.1 <;> simp
        · intro π a hπ hq
          rw [leafAt?_withNones] at hπ ⊢
          cases hw : w.leafAt? π with
          | none => simp [hw] at hπ
          | some p =>
            simp only [hw, Option.bind_some] at hπ ⊢
            split at hπ
            · rename_i hp
              cases hπ
              rw [if_pos hp, h3 p ?_ (by simp [hq])]
              exact leaves_mem hw
            · cases hπ
        · rw [leaves_withNones, leaves_withNones, ← h4]
          exact moved_mask J w.leaves
      rw [hF _ _ hsub]
      simp only [objective, loss]
      have hc : combine noLeaf [withNones (w.map fun p => if p.1.1 then some p.2 else Option.none),
          withNones ((w.map Prod.fst).map fun p => if p.1 then Option.none else some p.2)] = .ok (w.map Prod.snd) := by
        rw [map_map]
        refine (combine_closed w [fun p => if p.1.1 then some p.2 else Option.none,
          (fun p => if p.1 then Option.none else some p.2) ∘ Prod.fst] (by simp)).trans ?_
        rw [show w.map Prod.snd = withNones (w.map fun p => some p.2) from (withNones_some w _).symm]
        congr 2
        apply map_congr_leaves
        intro p hp
        cases hb : p.1.1 with
        | true => simp [hb]
        | false => simp [hb, h3 p hp (by simp [hb])]
      simp only [hc, bind, Except.bind]
    · refine ⟨sameStructure_iff.2 rfl, fun π a hf => hf.1, ?_⟩
      rw [leaves_withNones, ← e1, ← e2, leaves_map, leaves_map]
      exact moved_self J m.leaves

/-- **C110**, any number of steps: the structure of the model stays the same, each frozen leaf is as it was at the start, and
the leaves to be trained stay leaves to be trained. -/
theorem trained {J : Jax K α} {add : PT K α → PT K α → Except Err (PT K α)} {optim : Optim K α S} {spec : PT K Bool}
    {f : PyFn K α} {batches : List (List (PT K α))} {model model' : PT K α} {state state' : S}
    (hs : SameStructure spec model) (ho : optim.Structural) (ha : AddsInexact J add)
    (h : train J add optim spec f batches model state = .ok (model', state')) :
    SameStructure model' model ∧
    (∀ π a, Frozen J spec model π a → model'.leafAt? π = some a) ∧
    (∀ π a, Trainable J spec model π a → ∃ b, Trainable J spec model' π b) := by
  induction batches generalizing model state with
  | nil =>
    cases h
    exact ⟨sameStructure_iff.2 rfl, fun _ _ hf => hf.1, fun _ a ht => ⟨a, ht⟩⟩
  | cons rest batches ih =>
    simp only [train, bind, Except.bind] at h
    cases h1 : makeStep J add optim spec f model rest state with
    | error e => simp [h1] at h
    | ok r =>
      simp only [h1] at h
      obtain ⟨s1, s2, _, _, _, _, _, s3⟩ := step (model' := r.1) (state' := r.2) hs ho ha h1
      obtain ⟨i1, i2, i3⟩ := ih (sameStructure_iff.2 ((sameStructure_iff.1 hs).trans (sameStructure_iff.1 s1).symm)) h
      refine ⟨sameStructure_iff.2 ((sameStructure_iff.1 i1).trans (sameStructure_iff.1 s1)), ?_, ?_⟩
      · exact fun π a hf => i2 π a ⟨s2 π a hf, hf.2⟩
      · intro π a ht
        obtain ⟨_, _, b, _, _, _, _, hb⟩ := s3 π a ht
        exact i3 π b hb

/-- **C110**: each step starts from what the steps before it have made. -/
theorem last_step {J : Jax K α} {add : PT K α → PT K α → Except Err (PT K α)} {optim : Optim K α S} {spec : PT K Bool}
    {f : PyFn K α} {batches : List (List (PT K α))} {rest : List (PT K α)} {model : PT K α} {state : S} {r : PT K α × S} :
    train J add optim spec f (batches ++ [rest]) model state = .ok r ↔
      ∃ model₁ state₁, train J add optim spec f batches model state = .ok (model₁, state₁) ∧
        makeStep J add optim spec f model₁ rest state₁ = .ok r := by
  induction batches generalizing model state with
  | nil =>
    simp only [List.nil_append, train, bind, Except.bind]
    cases h : makeStep J add optim spec f model rest state with
    | error e =>
      constructor
      · intro h'; cases h'
      · rintro ⟨_, _, h1, h2⟩; cases h1; rw [h] at h2; cases h2
    | ok r' =>
      constructor
      · intro h'; cases h'; exact ⟨_, _, rfl, h⟩
      · rintro ⟨_, _, h1, h2⟩; cases h1; rw [h] at h2; cases h2; rfl
  | cons b batches ih =>
    simp only [List.cons_append, train, bind, Except.bind]
    cases h : makeStep J add optim spec f model b state with
    | error e => simp
    | ok r' => exact ih

/-! ## A step succeeds -/

omit [DecidableEq K] in
theorem absent_withNones {β : Type} (m : PT K β) (f : β → Option α) (π : List Nat) (h : m.headAt? π = Option.none) :
    (withNones (m.map f)).headAt? π = Option.none := by
  induction m using ind generalizing π with
  | leaf b =>
    cases π with
    | nil => simp [headAt?, get?] at h
    | cons i π =>
      simp only [withNones, PT.map, join]
      cases f b <;> rfl
  | none =>
    cases π with
    | nil => simp [headAt?, get?] at h
    | cons i π => rfl
  | node k cs ih =>
    cases π with
    | nil => simp [headAt?, get?] at h
    | cons i π =>
      have e : (withNones ((PT.node k cs).map f)).headAt? (i :: π) = (cs[i]?).bind fun c => (withNones (c.map f)).headAt? π := by
        simp only [headAt?, withNones, PT.map, mapL_eq, join, joinL_eq, get?, List.getElem?_map, Option.map_map]
        cases cs[i]? <;> rfl
      rw [headAt?_node_cons] at h
      rw [e]
      cases hc : cs[i]? with
      | none => rfl
      | some c =>
        rw [hc] at h
        exact ih c (List.mem_of_getElem? hc) π h

theorem grads_shape {J : Jax K α} {hasAux : Bool} {fn : PyFn K α} {x : PT K α} {rest : List (PT K α)}
    {kwargs : List (String × PT K α)} {value grads : PT K α}
    (h : valueAndGrad J hasAux fn (x :: rest) kwargs = .ok (value, grads)) :
    grads.shape = (withNones (x.map (keep J.inexact))).shape := by
  rw [valueAndGrad_eq] at h
  simp only [bind, Except.bind, pure, Except.pure] at h
  split at h
  · cases h
  · split at h
    · cases h
    · split at h
      · cases h
      · split at h
        · cases h
        · rename_i ht
          cases h
          exact (unflatten_ok ht).1

/-- What is assumed for a step to succeed: the optimiser makes updates of every tree of gradients, and everything can be added
to an inexact array. -/
structure Total (J : Jax K α) (add : PT K α → PT K α → Except Err (PT K α)) (optim : Optim K α S) : Prop where
  optim : ∀ grads state model, ∃ r, optim grads state model = .ok r
  add : ∀ a u, J.inexact a = true → ∃ y, add (.leaf a) (.leaf u) = .ok y

/-- **C110**: a step fails just if `f` fails on the whole model or its output cannot be differentiated, with that exception. -/
theorem step_ok {J : Jax K α} (hJ : J.Differentiable) {add : PT K α → PT K α → Except Err (PT K α)} {optim : Optim K α S}
    {spec : PT K Bool} {f : PyFn K α} {model : PT K α} {rest : List (PT K α)} {state : S}
    (hs : SameStructure spec model) (ho : optim.Structural) (ht : Total J add optim) :
    (∀ e, objective J false f rest [] model = .error e → makeStep J add optim spec f model rest state = .error e) ∧
    (∀ v, objective J false f rest [] model = .ok v →
      ∃ model' state', makeStep J add optim spec f model rest state = .ok (model', state')) := by
  obtain ⟨m, e1, e2⟩ := exists_pair (sameStructure_iff.1 hs)
  have hp := partition_mask m
  have hc := (combine_partition hp).1
  rw [e2] at hc
  rw [e1, e2] at hp
  have hobj : objective J false (loss f) (withNones (m.map fun p => if p.1 then Option.none else some p.2) :: rest) []
      (withNones (m.map fun p => if p.1 then some p.2 else Option.none)) = objective J false f rest [] model := by
    simp only [objective, loss, hc, bind, Except.bind]
  obtain ⟨h1, h2⟩ := value_and_grad_ok (J := J) hJ (hasAux := false) (fn := loss f)
    (x := withNones (m.map fun p => if p.1 then some p.2 else Option.none))
    (rest := withNones (m.map fun p => if p.1 then Option.none else some p.2) :: rest) (kwargs := [])
  rw [hobj] at h1 h2
  constructor
  · intro e he
    simp [makeStep, hp, filterGrad, h1 e he, bind, Except.bind]
  · intro v hv
    obtain ⟨value, grads, hvg⟩ := h2 v hv
    obtain ⟨⟨updates, state'⟩, hu⟩ := ht.optim grads state model
    have hsh : updates.shape = (withNones (m.map fun p => (if p.1 then some p.2 else Option.none).bind (keep J.inexact))).shape := by
      rw [sameStructure_iff.1 (ho _ _ _ _ _ hu), grads_shape hvg, withNones_withNones]
    have hhead : ∀ π (p : Bool × α), m.headAt? π = some (.leaf p) →
        (∀ k n, updates.headAt? π ≠ some (.node k n)) ∧ ∀ u, updates.get? π = some (.leaf u) → J.inexact p.2 = true := by
      intro π p hm
      have hl := (headAt?_withNones m (fun p => (if p.1 then some p.2 else Option.none).bind (keep J.inexact)) π).2.2 p hm
      constructor
      · intro k n hk
        rw [(headAt?_of_shape hsh π).1 k n, hl] at hk
        cases hx : (if p.1 then some p.2 else Option.none).bind (keep J.inexact) <;> simp [hx, orNone, head] at hk
      · intro u hgu
        have hne : updates.headAt? π ≠ some .none := by rw [headAt?, hgu]; simp [head]
        rw [Ne, (headAt?_of_shape hsh π).2, hl] at hne
        cases hb : p.1 <;> cases hq : J.inexact p.2 <;> simp [hb, hq, keep, orNone, head] at hne ⊢
    have hmm : ∀ π, model.headAt? π = (m.headAt? π).map (fun h => match h with
      | .leaf a => .leaf a.2 | .none => .none | .node k n => .node k n) := by
      intro π; rw [← e2, headAt?_map]; cases m.headAt? π with | none => rfl | some o => cases o <;> rfl
    have habs : ∀ π, m.headAt? π = Option.none → updates.headAt? π = Option.none := by
      intro π hm
      have h3 := absent_withNones m (fun p => (if p.1 then some p.2 else Option.none).bind (keep J.inexact)) π hm
      have h4 := headAt?_map (fun _ => ()) updates π
      have h5 := headAt?_map (fun _ => ())
        (withNones (m.map fun p => (if p.1 then some p.2 else Option.none).bind (keep J.inexact))) π
      simp only [shape] at hsh
      rw [hsh, h5, h3] at h4
      cases hu' : updates.headAt? π with
      | none => rfl
      | some o => simp [hu'] at h4
    obtain ⟨out, hout⟩ := (applyUpdates_succeeds_iff (add := add) (model := model) (updates := updates)).2 ⟨by
      intro π
      constructor
      · intro k n hk
        rw [hmm]
        cases hm : m.headAt? π with
        | none => rw [habs π hm] at hk; cases hk
        | some o => cases o with
          | leaf p => exact absurd hk ((hhead π p hm).1 k n)
          | none =>
            rw [(headAt?_of_shape hsh π).1 k n, (headAt?_withNones m _ π).2.1 hm] at hk
            cases hk
          | node k' n' =>
            rw [(headAt?_of_shape hsh π).1 k n, (headAt?_withNones m _ π).1 k' n' hm] at hk
            exact hk
      · intro hk
        rw [get?_isSome_headAt?] at hk ⊢
        rw [hmm]
        cases hm : m.headAt? π with
        | none => rw [habs π hm] at hk; cases hk
        | some o => rfl, by
      intro π u x hgu hx
      cases hm : m.headAt? π with
      | none => have := habs π hm; rw [headAt?, hgu] at this; cases this
      | some o =>
        have hmx := hmm π
        rw [hm, headAt?, hx] at hmx
        cases o with
        | leaf p =>
          cases x with
          | leaf a =>
            simp only [Option.map_some, head, Option.some.injEq, Head.leaf.injEq] at hmx
            subst hmx
            exact ht.add _ u ((hhead π p hm).2 u hgu)
          | none => simp [head] at hmx
          | node k cs => simp [head] at hmx
        | none =>
          have := ((headAt?_of_shape hsh π).2).2 ((headAt?_withNones m _ π).2.1 hm)
          rw [headAt?, hgu] at this
          simp [head] at this
        | node k n =>
          have := ((headAt?_of_shape hsh π).1 k n).2 ((headAt?_withNones m _ π).1 k n hm)
          rw [headAt?, hgu] at this
          simp [head] at this⟩
    exact ⟨out, state', by simp [makeStep, hp, filterGrad, hvg, hu, hout, bind, Except.bind, pure, Except.pure]⟩

/-! ### Example: two layers of which the second is trained -/

/-- The updates are the gradients; the state counts the steps. -/
def exOptim : Optim Nat Nat Nat := fun grads n _ => .ok (grads, n + 1)

/-- Arrays are the even numbers; adding keeps them even. -/
def exAdd : PT Nat Nat → PT Nat Nat → Except Err (PT Nat Nat)
  | .leaf a, .leaf u => .ok (.leaf (a + 2 * u))
  | _, _ => .error .typeError

/-- Two layers with a weight, an activation function (odd numbers) and no bias. -/
def exModel : PT Nat Nat := .node 1 [.node 2 [.leaf 4, .leaf 3, .none], .node 2 [.leaf 6, .leaf 5, .none]]
def exSpec : PT Nat Bool := .node 1 [.node 2 [.leaf false, .leaf false, .none], .node 2 [.leaf true, .leaf true, .none]]

example : SameStructure exSpec exModel := sameStructure_iff.2 rfl
example : exOptim.Structural := by
  intro g s m u s' h
  cases h
  exact sameStructure_iff.2 rfl
example : AddsInexact exJax exAdd := by
  intro a u y h1 h2
  cases h2
  refine ⟨_, rfl, ?_⟩
  simp only [exJax, beq_iff_eq] at h1 ⊢
  omega
example : Total exJax exAdd exOptim := ⟨fun _ _ _ => ⟨_, rfl⟩, fun _ _ _ => ⟨_, rfl⟩⟩
example : Frozen exJax exSpec exModel [0, 0] 4 ∧ Frozen exJax exSpec exModel [1, 1] 5 ∧ Trainable exJax exSpec exModel [1, 0] 6 :=
  ⟨⟨rfl, .inl rfl⟩, ⟨rfl, .inr rfl⟩, rfl, rfl, rfl⟩
example : train exJax exAdd exOptim exSpec exFn [[.leaf 1], [.leaf 2]] exModel 0 =
    .ok (.node 1 [.node 2 [.leaf 4, .leaf 3, .none], .node 2 [.leaf 150, .leaf 5, .none]], 2) := rfl

end Training
end AD
end Verif
