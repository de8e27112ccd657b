import Verif.Primitive.Model
import Verif.AD.Lemmas

/-! # Lemmas on primitives over pytrees -/

namespace Verif
namespace Primitive

open PT Filters

variable {K : Type} {α β γ δ V : Type}

theorem combineFlat_split (l : List δ) (q : δ → Bool) (f g : δ → β) :
    combineFlat ((l.filter q).map f) (l.map fun x => if q x then Option.none else some (g x)) =
      .ok (l.map fun x => if q x then f x else g x) := by
  induction l with
  | nil => rfl
  | cons x l ih =>
    cases hq : q x with
    | true => simp [hq, combineFlat, ih, bind, Except.bind, pure, Except.pure]
    | false =>
      simp only [List.filter_cons, hq, List.map_cons, if_false, Bool.false_eq_true]
      rw [combineFlat.eq_3, ih]
      rfl

theorem unflatten_obj (m : PT K δ) (f : δ → Option β) :
    treeUnflatten m.shape ((m.leaves.map f).map obj) = .ok (withNones (m.map f)) := by
  have := treeUnflatten_shape ((m.map f).map (orNone (K := K)))
  rw [shape_map, shape_map, leaves_map, leaves_map] at this
  have e : (obj : Option β → PT K β) = orNone := by
    funext x; cases x <;> rfl
  rw [e]
  exact this

theorem unflatten_leaf (m : PT K δ) (f : δ → β) :
    treeUnflatten m.shape ((m.leaves.map f).map .leaf) = .ok (m.map f) := by
  have := treeUnflatten_shape ((m.map f).map (PT.leaf (K := K)))
  rw [shape_map, shape_map, leaves_map, leaves_map, join_map_leaf] at this
  exact this

theorem unflatten_withNones (m : PT K δ) (q : δ → Bool) (f : δ → β) (g : δ → γ) :
    treeUnflatten (withNones (m.map fun x => if q x then some (f x) else Option.none)).shape
      (((m.leaves.filter q).map g).map .leaf) = .ok (withNones (m.map fun x => if q x then some (g x) else Option.none)) := by
  have h : (withNones (m.map fun x => if q x then some (f x) else Option.none)).shape =
      (withNones (m.map fun x => if q x then some (g x) else Option.none)).shape := by
    apply shape_withNones
    intro x
    cases q x <;> simp
  rw [h]
  have := treeUnflatten_shape ((withNones (m.map fun x => if q x then some (g x) else Option.none)).map (PT.leaf (K := K)))
  rw [shape_map, leaves_map, join_map_leaf, leaves_withNones] at this
  rw [← this]
  congr 2
  rw [← List.filterMap_eq_filter, List.map_filterMap]
  apply congrFun; apply congrArg
  funext x
  cases hq : q x <;> simp [Option.guard, hq]

variable [DecidableEq K]

theorem flatten_eq (E : Env K α) (st : Option (Stored K α)) (m : PT K δ) (f : δ → α) :
    flatten E st (m.map f) = (do
      let st' ← store E st ⟨(withNones (m.map fun x => if E.dyn (f x) then some (f x) else Option.none)).shape,
        withNones (m.map fun x => if E.dyn (f x) then Option.none else some (f x))⟩
      pure ((m.leaves.filter fun x => E.dyn (f x)).map f, st')) := by
  have hp : partition noLeaf (.leaf (.callable fun x => .ok (onObj E.dyn x))) .none (m.map f) =
      .ok (withNones (m.map fun x => if E.dyn (f x) then some (f x) else Option.none),
        withNones (m.map fun x => if E.dyn (f x) then Option.none else some (f x))) := by
    rw [partition_callable_closed, map_map, map_map]
    rfl
  simp only [flatten, hp, bind, Except.bind, pure, Except.pure]
  cases store E st _ with
  | error e => rfl
  | ok s =>
    simp only [leaves_withNones]
    congr 2
    rw [← List.filterMap_eq_filter, List.map_filterMap]
    apply congrFun; apply congrArg
    funext x
    cases hq : E.dyn (f x) <;> simp [Option.guard, hq]

/-- Which leaves of the output are dynamic when there is something to go with them. -/
def dynLike (E : Env K α) (x : α × Option β) : Bool := x.2.isSome || E.dyn x.1

theorem flattenLike_eq (E : Env K α) (st : Option (Stored K α)) (m : PT K (α × Option β)) :
    flattenLike E st (m.map Prod.fst) (withNones (m.map Prod.snd)) = (do
      let st' ← store E st ⟨(withNones (m.map fun x => if dynLike E x then some x.1 else Option.none)).shape,
        withNones (m.map fun x => if dynLike E x then Option.none else some x.1)⟩
      pure ((m.leaves.filter (dynLike E)).map Prod.fst, (m.leaves.filter (dynLike E)).map Prod.snd, st')) := by
  have h0 : (m.map Prod.fst).treeStructure isNone = (withNones (m.map Prod.snd)).treeStructure isNone := by
    rw [treeStructure, treeStructure, cutNone_map, cutNone_withNones, shape_map, shape_map]
  have h1 : treeMap2 isNone (makeSpec E.dyn) (m.map Prod.fst) (withNones (m.map Prod.snd)) =
      .ok (boolSpec false (dynLike E) m) := by
    rw [treeMap2_closed (u := m.cut isNone) (b := PT.map Prod.fst) (c := onLeaf .none fun x => orNone x.2)
      (g := fun x => .leaf (onLeaf (.bool false) (fun x => .bool (dynLike E x)) x)) (cutNone_map _ _)]
    · have := join_map_leaf (boolSpec (K := K) (α := α) false (dynLike E) m)
      rw [boolSpec, map_map] at this
      rw [boolSpec]
      exact congrArg _ this
    · have h := join_cut isNone (withNones (m.map Prod.snd))
      rw [cutNone_withNones] at h
      exact h.symm
    · intro x hx
      rcases cutNone_leaves hx with ⟨⟨a, t⟩, _, rfl⟩ | rfl
      · cases t <;> simp [makeSpec, onLeaf, orNone, isNone, PT.map, onObj, dynLike]
      · simp [makeSpec, onLeaf, isNone, PT.map, onObj]
  have h2 := partition_closed (K := K) isNone false (dynLike E) Prod.fst m
  have h3 : treeMap1 isNone replaceNone (withNones (m.map Prod.snd)) =
      .ok ((m.cut isNone).map (onLeaf Option.none fun x => x.2)) := by
    rw [treeMap1_closed (u := m.cut isNone) (c := onLeaf .none fun x => orNone x.2)
      (g := fun x => .leaf (onLeaf Option.none (fun x => x.2) x)) (cutNone_withNones _ _)]
    · have := join_map_leaf ((m.cut isNone).map (onLeaf (K := K) Option.none fun x : α × Option β => x.2))
      rw [map_map] at this
      exact congrArg _ this
    · intro x hx
      rcases cutNone_leaves hx with ⟨⟨a, t⟩, _, rfl⟩ | rfl
      · cases t <;> rfl
      · rfl
  have h4 : treeMap2 isNone getSecond (withNones (m.map fun x => if dynLike E x then some x.1 else Option.none))
      ((m.cut isNone).map (onLeaf Option.none fun x => x.2)) =
      .ok (withNones (m.map fun x => if dynLike E x then some x.2 else Option.none)) := by
    rw [treeMap2_closed (u := m.cut isNone)
      (b := onLeaf .none fun x => orNone (if dynLike E x then some x.1 else Option.none))
      (c := fun x => .leaf (onLeaf Option.none (fun x => x.2) x))
      (g := onLeaf .none fun x => orNone (if dynLike E x then some x.2 else Option.none)) (cutNone_withNones _ _)]
    · rw [cutNone_join (by rfl), withNones, map_map]
      rfl
    · have := join_map_leaf ((m.cut isNone).map (onLeaf (K := K) Option.none fun x : α × Option β => x.2))
      rw [map_map] at this
      exact this.symm
    · intro x hx
      rcases cutNone_leaves hx with ⟨x, _, rfl⟩ | rfl
      · simp only [onLeaf, getSecond]
        by_cases hd : dynLike E x = true <;> simp [hd, orNone, isNone]
      · rfl
  have h5 : (withNones (m.map fun x => if dynLike E x then some x.2 else Option.none)).shape =
      (withNones (m.map fun x => if dynLike E x then some x.1 else Option.none)).shape := by
    apply shape_withNones
    intro x
    cases dynLike E x <;> simp
  have h6 : ¬ ((m.map Prod.fst).treeStructure isNone ≠ (withNones (m.map Prod.snd)).treeStructure isNone) := not_not_intro h0
  have hl : ∀ {ε : Type} (f : α × Option β → ε), (withNones (m.map fun x => if dynLike E x then some (f x) else Option.none)).leaves =
      (m.leaves.filter (dynLike E)).map f := by
    intro ε f
    rw [leaves_withNones, ← List.filterMap_eq_filter, List.map_filterMap]
    apply congrFun; apply congrArg
    funext x
    cases hq : dynLike E x <;> simp [Option.guard, hq]
  simp only [flattenLike, if_neg h6, h1, h2, h3, bind, Except.bind, pure, Except.pure]
  cases store E st _ with
  | error e => rfl
  | ok s =>
    simp only [h4]
    have h7 : ¬ ((withNones (m.map fun x => if dynLike E x then some x.2 else Option.none)).shape ≠
      (withNones (m.map fun x => if dynLike E x then some x.1 else Option.none)).shape) := not_not_intro h5
    rw [if_neg h7]
    rw [hl Prod.fst, hl Prod.snd, if_neg (by simp)]

/-- Anything else is refused. -/
theorem flattenLike_bad (E : Env K α) (st : Option (Stored K α)) (out : PT K α) (like : PT K β)
    (h : ¬ ∃ m : PT K (α × Option β), out = m.map Prod.fst ∧ like = withNones (m.map Prod.snd)) :
    flattenLike E st out like = .error .assertionError := by
  by_cases h0 : out.treeStructure isNone = like.treeStructure isNone
  · obtain ⟨z, h1, h2⟩ := AD.exists_pair (s := out.cut isNone) (t := like.cut isNone) h0
    have hx : ∀ p ∈ z.leaves, (∃ a, p.1 = .leaf a) ∨ p.1 = .none := by
      intro p hp
      have : p.1 ∈ (out.cut isNone).leaves := by rw [← h1, leaves_map]; exact List.mem_map_of_mem hp
      rcases cutNone_leaves this with ⟨a, -, h⟩ | h
      · exact .inl ⟨a, h⟩
      · exact .inr h
    have hy : ∀ p ∈ z.leaves, (∃ a, p.2 = .leaf a) ∨ p.2 = .none := by
      intro p hp
      have : p.2 ∈ (like.cut isNone).leaves := by rw [← h2, leaves_map]; exact List.mem_map_of_mem hp
      rcases cutNone_leaves this with ⟨a, -, h⟩ | h
      · exact .inl ⟨a, h⟩
      · exact .inr h
    by_cases hbad : ∃ p ∈ z.leaves, p.1 = .none ∧ p.2 ≠ .none
    · have he : treeMap2 isNone (makeSpec E.dyn) out like = .error .assertionError := by
        have hl : like = (z.map Prod.snd).join := by rw [h2, join_cut]
        have hf : flattenUpTo (out.treeStructure isNone) like = .ok (z.leaves.map Prod.snd) := by
          rw [flattenUpTo_ok]
          refine ⟨z.map Prod.snd, ?_, ?_, ?_⟩
          · rw [treeStructure, ← h1, shape_map, shape_map]
          · rw [leaves_map]
          · exact hl.symm
        simp only [treeMap2, hf, bind, Except.bind]
        rw [treeLeaves, ← h1, leaves_map, List.zip_map']
        have key : ∀ l : List (PT K α × PT K β), (∀ p ∈ l, p ∈ z.leaves) → (∃ p ∈ l, p.1 = .none ∧ p.2 ≠ .none) →
            mapE (fun xy => makeSpec E.dyn xy.1 xy.2) (l.map fun p => (p.1, p.2)) = .error .assertionError := by
          intro l
          induction l with
          | nil => intro _ h; obtain ⟨_, h, _⟩ := h; cases h
          | cons p l ih =>
            intro hm hb
            simp only [List.map_cons, mapE]
            by_cases hp : p.1 = .none ∧ p.2 ≠ .none
            · have : makeSpec E.dyn p.1 p.2 = .error .assertionError := by
                have h2 : p.2.isNone = false := by
                  cases hq : p.2 with
                  | none => exact absurd hq hp.2
                  | leaf => rfl
                  | node => rfl
                simp [makeSpec, hp.1, h2]
                rfl
              rw [this]; rfl
            · obtain ⟨q, hq, hq2⟩ := hb
              rcases List.mem_cons.1 hq with rfl | hq
              · exact absurd hq2 hp
              · rw [ih (fun p hp => hm p (by simp [hp])) ⟨q, hq, hq2⟩]
                have : ∃ s, makeSpec E.dyn p.1 p.2 = .ok s := by
                  rcases hx p (hm p (by simp)) with ⟨a, ha⟩ | ha
                  · rw [makeSpec, ha]
                    split
                    · exact ⟨_, rfl⟩
                    · exact ⟨_, rfl⟩
                  · have hn : p.2 = .none := by
                      cases hq : p.2 with
                      | none => rfl
                      | leaf => exact absurd ⟨ha, by simp [hq]⟩ hp
                      | node => exact absurd ⟨ha, by simp [hq]⟩ hp
                    rw [makeSpec, hn]
                    exact ⟨_, rfl⟩
                obtain ⟨s, hs⟩ := this
                rw [hs]; rfl
        rw [key z.leaves (fun _ h => h) hbad]
      have h6 : ¬ (out.treeStructure isNone ≠ like.treeStructure isNone) := not_not_intro h0
      simp only [flattenLike, if_neg h6, he, bind, Except.bind, pure, Except.pure]
    · exfalso
      apply h
      let G : PT K α × PT K β → PT K (α × Option β) := fun p => match p.1, p.2 with
        | .leaf a, .leaf b => .leaf (a, some b)
        | .leaf a, _ => .leaf (a, Option.none)
        | _, _ => .none
      refine ⟨(z.map G).join, ?_, ?_⟩
      · rw [map_join, map_map, ← join_cut isNone out, ← h1]
        congr 1
        apply map_congr_leaves
        intro p hp
        obtain ⟨x, y⟩ := p
        rcases hx _ hp with ⟨a, ha⟩ | ha
        · simp only at ha; subst ha
          cases y <;> rfl
        · simp only at ha; subst ha
          rfl
      · have e : withNones (((z.map G).join).map Prod.snd) = (z.map fun p => withNones ((G p).map Prod.snd)).join := by
          have e1 : (((z.map G).join).map Prod.snd).map (orNone (K := K)) =
              (z.map fun p => ((G p).map Prod.snd).map orNone).join := by
            rw [map_join, map_map, map_join, map_map]
          rw [withNones, e1, join_join, map_map]
          rfl
        rw [e, ← join_cut isNone like, ← h2]
        congr 1
        apply map_congr_leaves
        intro p hp
        obtain ⟨x, y⟩ := p
        rcases hx _ hp with ⟨a, ha⟩ | ha
        · simp only at ha; subst ha
          rcases hy _ hp with ⟨b, hb⟩ | hb
          · simp only at hb; subst hb
            rfl
          · simp only at hb; subst hb
            rfl
        · simp only at ha; subst ha
          have hn : y = .none := by
            apply Classical.byContradiction
            intro hn
            exact hbad ⟨_, hp, rfl, hn⟩
          subst hn
          rfl
  · simp only [flattenLike, if_pos (show out.treeStructure isNone ≠ like.treeStructure isNone from h0), bind, Except.bind]
    rfl

end Primitive
end Verif
