import Verif.PyTree.SpecLemmas
import Verif.Filters.Props
/-!
# Closed forms

Tree functions applied to trees of the form `(m.map f).join` and `withNones (m.map f)`.
-/

namespace Verif

open PT Filters

namespace PT

variable {K : Type} {α β γ δ : Type}

theorem map_join (f : α → β) (c : PT K (PT K α)) : c.join.map f = (c.map (PT.map f)).join := by
  induction c using ind with
  | leaf t => rfl
  | none => rfl
  | node k cs ih =>
    simp only [join, PT.map, joinL_eq, mapL_eq, List.map_map]
    congr 1
    exact List.map_congr_left ih

theorem map_congr_leaves {f g : α → β} {t : PT K α} (h : ∀ x ∈ t.leaves, f x = g x) : t.map f = t.map g := by
  apply eq_of_shape_leaves (by rw [shape_map, shape_map])
  rw [leaves_map, leaves_map]
  exact List.map_congr_left h

theorem map_id_fun (t : PT K α) : t.map (fun x => x) = t := by
  apply eq_of_shape_leaves (by rw [shape_map])
  rw [leaves_map]; simp

/-- `tree_map` with one tree, where the objects at its leaves are functions of one tree. -/
theorem treeMap1_closed {p : PT K α → Bool} {F : PT K α → Except Err (PT K γ)} {t : PT K α} {u : PT K δ}
    {c : δ → PT K α} {g : δ → PT K γ} (ht : t.cut p = u.map c) (hF : ∀ x ∈ u.leaves, F (c x) = .ok (g x)) :
    treeMap1 p F t = .ok (u.map g).join := by
  simp only [treeMap1, treeLeaves, treeStructure, ht, leaves_map]
  have h1 : mapE F (u.leaves.map c) = .ok (u.leaves.map g) := by
    rw [mapE_ok]
    refine ⟨by simp, ?_⟩
    intro i x hx
    rw [List.getElem?_map, Option.map_eq_some_iff] at hx
    obtain ⟨y, hy, rfl⟩ := hx
    exact ⟨g y, by simp [hy], hF y (List.mem_of_getElem? hy)⟩
  rw [h1]
  have := treeUnflatten_shape (u.map g)
  rw [leaves_map, shape_map] at this
  rw [shape_map]
  exact this

/-- `tree_map` with two trees. -/
theorem treeMap2_closed [DecidableEq K] {p : PT K β → Bool} {F : PT K β → PT K α → Except Err (PT K γ)} {s : PT K β}
    {t : PT K α} {u : PT K δ} {b : δ → PT K β} {c : δ → PT K α} {g : δ → PT K γ} (hs : s.cut p = u.map b)
    (ht : t = (u.map c).join) (hF : ∀ x ∈ u.leaves, F (b x) (c x) = .ok (g x)) :
    treeMap2 p F s t = .ok (u.map g).join := by
  simp only [treeMap2, treeLeaves, treeStructure, hs, leaves_map]
  have h0 : flattenUpTo (u.map b).shape t = .ok (u.leaves.map c) := by
    rw [flattenUpTo_ok]
    exact ⟨u.map c, by rw [shape_map, shape_map], by rw [leaves_map], ht.symm⟩
  have h1 : mapE (fun xy : PT K β × PT K α => F xy.1 xy.2) ((u.leaves.map b).zip (u.leaves.map c)) =
      .ok (u.leaves.map g) := by
    rw [List.zip_map', mapE_ok]
    refine ⟨by simp, ?_⟩
    intro i x hx
    rw [List.getElem?_map, Option.map_eq_some_iff] at hx
    obtain ⟨y, hy, rfl⟩ := hx
    exact ⟨g y, by simp [hy], hF y (List.mem_of_getElem? hy)⟩
  rw [h0]
  simp only [bind, Except.bind]
  rw [h1]
  have := treeUnflatten_shape (u.map g)
  rw [leaves_map, shape_map] at this
  rw [shape_map]
  exact this

/-- A function of the leaf, with a value for everything else. -/
def onLeaf (d : β) (f : α → β) : PT K α → β
  | .leaf a => f a
  | _ => d

@[simp] theorem onLeaf_leaf (d : β) (f : α → β) (a : α) : onLeaf (K := K) d f (.leaf a) = f a := rfl
@[simp] theorem onLeaf_none (d : β) (f : α → β) : onLeaf (K := K) d f .none = d := rfl

theorem cutNone_node (k : K) (cs : List (PT K α)) : (PT.node k cs).cut isNone = .node k (cs.map (cut isNone)) := by
  simp [cut, isNone, cutL_eq]

theorem cutNone_map (f : α → β) (m : PT K α) : (m.map f).cut isNone = (m.cut isNone).map (PT.map f) := by
  induction m using ind with
  | leaf a => rfl
  | none => rfl
  | node k cs ih =>
    simp only [PT.map, mapL_eq, cutNone_node, List.map_map]
    congr 1
    exact List.map_congr_left ih

theorem cutNone_join {g : PT K α → PT K β} (hg : g .none = .none) (m : PT K α) :
    ((m.cut isNone).map g).join = (m.map (fun a => g (.leaf a))).join := by
  induction m using ind with
  | leaf a => rfl
  | none => simpa [cut, isNone, PT.map, join] using hg
  | node k cs ih =>
    simp only [cutNone_node, PT.map, mapL_eq, join, joinL_eq, List.map_map]
    congr 1
    exact List.map_congr_left ih

theorem cutNone_leaves {m : PT K α} {x : PT K α} (h : x ∈ (m.cut isNone).leaves) :
    (∃ a ∈ m.leaves, x = .leaf a) ∨ x = .none := by
  induction m using ind with
  | leaf a => simp [cut, leaves] at h; exact .inl ⟨a, by simp [leaves], h⟩
  | none => simp [cut, isNone, leaves] at h; exact .inr h
  | node k cs ih =>
    simp only [cutNone_node, leaves, leavesL_eq, List.flatMap_map, List.mem_flatMap] at h
    obtain ⟨c, hc, hx⟩ := h
    rcases ih c hc hx with ⟨a, ha, rfl⟩ | rfl
    · exact .inl ⟨a, by simp only [leaves, leavesL_eq, List.mem_flatMap]; exact ⟨c, hc, ha⟩, rfl⟩
    · exact .inr rfl

end PT

namespace Filters

variable {K : Type} {α β γ δ : Type}

theorem cutNone_withNones (m : PT K δ) (f : δ → Option α) :
    (withNones (m.map f)).cut isNone = (m.cut isNone).map (onLeaf .none fun x => orNone (f x)) := by
  induction m using ind with
  | leaf a => simp only [withNones, PT.map, join, cut, onLeaf]; cases f a <;> rfl
  | none => rfl
  | node k cs ih =>
    simp only [withNones, PT.map, mapL_eq, join, joinL_eq, cutNone_node, List.map_map]
    congr 1
    exact List.map_congr_left ih

theorem withNones_some (m : PT K δ) (f : δ → α) : withNones (m.map fun x => some (f x)) = m.map f := by
  rw [withNones, map_map]
  have := join_map_leaf (m.map f)
  rw [map_map] at this
  exact this

theorem withNones_map (m : PT K δ) (f : δ → Option α) (h : α → β) :
    (withNones (m.map f)).map h = withNones (m.map fun x => (f x).map h) := by
  rw [withNones, withNones, map_join, map_map, map_map, map_map]
  congr 1
  apply map_congr_leaves
  intro x _
  cases f x <;> rfl

theorem withNones_withNones (m : PT K δ) (f : δ → Option α) (h : α → Option β) :
    withNones ((withNones (m.map f)).map h) = withNones (m.map fun x => (f x).bind h) := by
  rw [withNones_map]
  simp only [withNones, map_join, map_map, join_join]
  congr 1
  apply map_congr_leaves
  intro x _
  cases f x <;> rfl

theorem shape_withNones (m : PT K δ) (f : δ → Option α) (g : δ → Option β)
    (h : ∀ x ∈ m.leaves, (f x).isSome = (g x).isSome) :
    (withNones (m.map f)).shape = (withNones (m.map g)).shape := by
  simp only [shape, withNones_map]
  congr 1
  apply map_congr_leaves
  intro x hx
  have := h x hx
  cases hf : f x <;> cases hg : g x <;> simp_all

theorem leaves_withNones (m : PT K δ) (f : δ → Option α) : (withNones (m.map f)).leaves = m.leaves.filterMap f := by
  induction m using ind with
  | leaf a => simp only [withNones, PT.map, join, leaves]; cases h : f a <;> simp [orNone, leaves, h]
  | none => simp [withNones, PT.map, join, leaves]
  | node k cs ih =>
    simp only [withNones, PT.map, mapL_eq, join, joinL_eq, leaves, leavesL_eq, List.map_map, List.flatMap_map] at ih ⊢
    induction cs with
    | nil => rfl
    | cons c cs ih2 =>
      simp only [List.flatMap_cons, List.filterMap_append]
      rw [ih2 (fun c hc => ih c (by simp [hc]))]
      congr 1
      exact ih c (by simp)

theorem leafAt?_withNones (m : PT K δ) (f : δ → Option α) (π : List Nat) :
    (withNones (m.map f)).leafAt? π = (m.leafAt? π).bind f := by
  cases hm : m.leafAt? π with
  | none =>
    cases hw : (withNones (m.map f)).leafAt? π with
    | none => rfl
    | some a =>
      rw [withNones, leafAt?_join] at hw
      obtain ⟨σ, ρ, x, rfl, hx, hy⟩ := hw
      rw [leafAt?_map, leafAt?_map] at hx
      cases hσ : m.leafAt? σ with
      | none => simp [hσ] at hx
      | some z =>
        simp only [hσ, Option.map_some, Option.some.injEq] at hx
        subst hx
        cases hz : f z with
        | none => simp [hz, orNone] at hy
        | some b =>
          simp only [hz, orNone] at hy
          cases ρ with
          | nil => simp [hσ] at hm
          | cons => simp at hy
  | some x =>
    simp only [Option.bind_some]
    cases hf : f x with
    | some a =>
      rw [withNones, leafAt?_join]
      exact ⟨π, [], .leaf a, by simp, by simp [leafAt?_map, hm, hf, orNone], rfl⟩
    | none =>
      cases hw : (withNones (m.map f)).leafAt? π with
      | none => rfl
      | some a =>
        have h1 : (m.map f |>.map (orNone (K := K))).leafAt? π = some .none := by
          simp [leafAt?_map, hm, hf, orNone]
        have h2 := get?_join_nil h1
        rw [leafAt?_eq_some, withNones, h2] at hw
        simp at hw

/-- Filter specifications made of bools: one for each leaf, and one for each `None`. -/
def boolSpec (d : Bool) (b : δ → Bool) (m : PT K δ) : PT K (Spec K α) :=
  (m.cut isNone).map (onLeaf (.bool d) fun x => .bool (b x))

theorem filter_closed [DecidableEq K] (p : PT K α → Bool) (d inv : Bool) (b : δ → Bool) (l : δ → α) (m : PT K δ) :
    filter p (boolSpec d b m) inv .none (m.map l) =
      .ok (withNones (m.map fun x => if b x != inv then some (l x) else Option.none)) := by
  have hmt : m.map l = ((m.cut isNone).map (PT.map l)).join := by
    rw [← cutNone_map, join_cut]
  have hres : ∀ G : PT K δ → PT K α, (G .none = .none) →
      (∀ x, G (.leaf x) = if b x != inv then .leaf (l x) else .none) →
      ((m.cut isNone).map G).join = withNones (m.map fun x => if b x != inv then some (l x) else Option.none) := by
    intro G h1 h2
    rw [cutNone_join h1, withNones, map_map]
    congr 1
    apply map_congr_leaves
    intro x _
    simp only [h2]
    split <;> rfl
  cases hp : p .none with
  | true =>
    have h1 : filterTree p (boolSpec d b m) (m.map l) = .ok ((m.cut isNone).map (onLeaf d b)) := by
      rw [filterTree, treeMap2_closed (u := m.cut isNone)
        (b := fun x => .leaf (onLeaf (.bool d) (fun x => .bool (b x)) x)) (c := PT.map l)
        (g := fun x => .leaf (onLeaf d b x)) (by rw [boolSpec, cut_noLeaf, map_map]) hmt]
      · have := join_map_leaf ((m.cut isNone).map (onLeaf d b))
        rw [map_map] at this
        exact congrArg _ this
      · intro x hx
        rcases cutNone_leaves hx with ⟨a, _, rfl⟩ | rfl
        · simp [makeFilterTree, treeMap1, treeLeaves, treeStructure, PT.map, cut, leaves, mapE, treeUnflatten, shape,
            fill, join, bind, Except.bind, pure, Except.pure]
        · simp [makeFilterTree, treeMap1, treeLeaves, treeStructure, PT.map, cut, leaves, mapE, treeUnflatten, shape,
            fill, join, bind, Except.bind, pure, Except.pure, hp]
    simp only [filter, h1, bind, Except.bind]
    rw [treeMap2_closed (u := m.cut isNone) (b := fun x => .leaf (onLeaf d b x)) (c := PT.map l)
      (g := fun x => if onLeaf d b x != inv then PT.map l x else .none) (by rw [cut_noLeaf, map_map]) hmt]
    · rw [hres]
      · simp [PT.map]
      · intro x; simp [PT.map]
    · intro x _
      simp only
      split <;> rfl
  | false =>
    have h1 : filterTree p (boolSpec d b m) (m.map l) = .ok (m.map b) := by
      rw [filterTree, treeMap2_closed (u := m.cut isNone)
        (b := fun x => .leaf (onLeaf (.bool d) (fun x => .bool (b x)) x)) (c := PT.map l)
        (g := onLeaf .none fun x => .leaf (b x)) (by rw [boolSpec, cut_noLeaf, map_map]) hmt]
      · rw [cutNone_join (by rfl)]
        have := join_map_leaf (m.map b)
        rw [map_map] at this
        exact congrArg _ this
      · intro x hx
        rcases cutNone_leaves hx with ⟨a, _, rfl⟩ | rfl
        · simp [makeFilterTree, treeMap1, treeLeaves, treeStructure, PT.map, cut, leaves, mapE, treeUnflatten, shape,
            fill, join, bind, Except.bind, pure, Except.pure]
        · simp [makeFilterTree, treeMap1, treeLeaves, treeStructure, PT.map, cut, leaves, mapE, treeUnflatten, shape,
            fill, join, bind, Except.bind, pure, Except.pure, hp]
    simp only [filter, h1, bind, Except.bind]
    rw [treeMap2_closed (u := m) (b := fun x => .leaf (b x)) (c := fun x => .leaf (l x))
      (g := fun x => if b x != inv then .leaf (l x) else .none) (by rw [cut_noLeaf, map_map])]
    · rw [withNones, map_map]
      congr 2
      apply map_congr_leaves
      intro x _
      split <;> rfl
    · have := join_map_leaf (m.map l)
      rw [map_map] at this
      exact this.symm
    · intro x _
      simp only
      split <;> rfl

theorem partition_closed [DecidableEq K] (p : PT K α → Bool) (d : Bool) (b : δ → Bool) (l : δ → α) (m : PT K δ) :
    partition p (boolSpec d b m) .none (m.map l) =
      .ok (withNones (m.map fun x => if b x then some (l x) else Option.none),
        withNones (m.map fun x => if b x then Option.none else some (l x))) := by
  rw [partition_eq, filter_closed, filter_closed]
  simp only [bind, Except.bind, pure, Except.pure]
  congr 3
  · apply map_congr_leaves
    intro x _
    cases b x <;> rfl
  · congr 1; funext x
    cases b x <;> rfl

theorem filter_callable_closed [DecidableEq K] (q : PT K α → Bool) (inv : Bool) (t : PT K α) :
    filter noLeaf (.leaf (.callable fun x => .ok (q x))) inv .none t =
      .ok (withNones (t.map fun a => if q (.leaf a) != inv then some a else Option.none)) := by
  have h1 : filterTree noLeaf (.leaf (.callable fun x => .ok (q x))) t = .ok (t.map fun a => q (.leaf a)) := by
    refine (treeMap2_closed (p := noLeaf) (F := makeFilterTree noLeaf)
        (s := .leaf (.callable fun x => .ok (q x))) (t := t) (u := (.leaf () : PT K Unit))
        (b := fun _ => .leaf (.callable fun x => .ok (q x))) (c := fun _ => t)
        (g := fun _ => t.map fun a => q (.leaf a)) rfl rfl ?_)
    · intro x _
      simp only [makeFilterTree]
      rw [treeMap1_closed (u := t) (c := fun a => .leaf a) (g := fun a => .leaf (q (.leaf a))) (cut_noLeaf t)]
      · have := join_map_leaf (t.map fun a => q (.leaf a))
        rw [map_map] at this
        exact congrArg _ this
      · intro x _; rfl
  simp only [filter, h1, bind, Except.bind]
  rw [treeMap2_closed (u := t) (b := fun x => .leaf (q (.leaf x))) (c := fun x => .leaf x)
    (g := fun x => if q (.leaf x) != inv then .leaf x else .none) (by rw [cut_noLeaf, map_map])]
  · rw [withNones, map_map]
    congr 2
    apply map_congr_leaves
    intro x _
    split <;> rfl
  · exact (join_map_leaf t).symm
  · intro x _
    simp only
    split <;> rfl

theorem partition_callable_closed [DecidableEq K] (q : PT K α → Bool) (t : PT K α) :
    partition noLeaf (.leaf (.callable fun x => .ok (q x))) .none t =
      .ok (withNones (t.map fun a => if q (.leaf a) then some a else Option.none),
        withNones (t.map fun a => if q (.leaf a) then Option.none else some a)) := by
  rw [partition_eq, filter_callable_closed, filter_callable_closed]
  simp only [bind, Except.bind, pure, Except.pure]
  congr 3
  · apply map_congr_leaves
    intro x _
    cases q (.leaf x) <;> rfl
  · congr 1; funext x
    cases q (.leaf x) <;> rfl

theorem combine_closed [DecidableEq K] (m : PT K δ) (fs : List (δ → Option α)) (h : fs ≠ []) :
    combine noLeaf (fs.map fun f => withNones (m.map f)) = .ok (withNones (m.map fun x => fs.findSome? (· x))) := by
  have := combine_merge (cs := fs.map fun f => m.map f) (o := m.map fun x => fs.findSome? (· x)) (by simpa using h) ?_
  · rw [List.map_map] at this
    exact this
  · constructor
    · intro c hc
      simp only [List.mem_map] at hc
      obtain ⟨f, _, rfl⟩ := hc
      rw [sameStructure_iff, shape_map, shape_map]
    · intro π v hv
      rw [leafAt?_map, Option.map_eq_some_iff] at hv
      obtain ⟨x, hx, rfl⟩ := hv
      rw [List.findSome?_map]
      congr 1
      funext f
      simp [leafAt?_map, hx]

end Filters
end Verif
