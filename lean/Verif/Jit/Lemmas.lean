import Verif.Jit.Spec
import Verif.PyTree.SpecLemmas
import Verif.Filters.Props
/-! # Lemmas about `filter_jit` -/

namespace Verif.Jit

open PT

variable {V A O C Q R J : Type} {α β γ : Type}

theorem classesL_eq (f : C → R) (g : α → β) (cs : List (PT (JK C) α)) :
    classesL f g cs = cs.map (classes f g) := by
  induction cs with
  | nil => rfl
  | cons c cs ih => simp [classesL, ih]

theorem leaves_classes (f : C → R) (g : α → β) (t : PT (JK C) α) :
    (classes f g t).leaves = t.leaves.map g := by
  induction t using ind with
  | leaf a => simp [classes, leaves]
  | none => simp [classes, leaves]
  | node k cs ih =>
    have : leavesL (classesL f g cs) = (leavesL cs).map g := by
      simp only [classesL_eq, leavesL_eq, List.flatMap_map, List.map_flatMap]
      induction cs with
      | nil => rfl
      | cons c cs ih2 => simp [ih c (by simp), ih2 (fun c hc => ih c (by simp [hc]))]
    cases k <;> simpa [classes, leaves] using this

theorem shape_classes (f : C → R) (g : α → β) (t : PT (JK C) α) :
    (classes f g t).shape = classes f id t.shape := by
  induction t using ind with
  | leaf a => simp [classes]
  | none => simp [classes]
  | node k cs ih =>
    have : (cs.map (classes f g)).map shape = (cs.map shape).map (classes f id) := by
      simp only [List.map_map, List.map_inj_left, Function.comp_apply]
      exact ih
    cases k <;> simp only [classes, shape_node, classesL_eq, this]

theorem classes_eq_iff (f : C → R) (g : α → β) (t t' : PT (JK C) α) :
    classes f g t = classes f g t' ↔
      classes f id t.shape = classes f id t'.shape ∧ t.leaves.map g = t'.leaves.map g := by
  constructor
  · intro h
    exact ⟨by rw [← shape_classes f g, ← shape_classes f g, h], by rw [← leaves_classes f g, ← leaves_classes f g, h]⟩
  · rintro ⟨h1, h2⟩
    exact eq_of_shape_leaves (by rw [shape_classes, shape_classes, h1])
      (by rw [leaves_classes, leaves_classes, h2])

theorem classes_inj {f : C → R} {g : α → β} (hf : ∀ c c', f c = f c' → c = c')
    (hg : ∀ a a', g a = g a' → a = a') : ∀ (t t' : PT (JK C) α), classes f g t = classes f g t' → t = t' := by
  intro t
  induction t using ind with
  | leaf a =>
    intro t' h
    rcases t' with b | _ | ⟨k, cs⟩
    · simp only [classes, PT.leaf.injEq] at h; rw [hg _ _ h]
    · simp [classes] at h
    · cases k <;> simp [classes] at h
  | none =>
    intro t' h
    rcases t' with b | _ | ⟨k, cs⟩
    · simp [classes] at h
    · rfl
    · cases k <;> simp [classes] at h
  | node k cs ih =>
    intro t' h
    have hl : ∀ cs' : List (PT (JK C) α), cs.map (classes f g) = cs'.map (classes f g) → cs = cs' := by
      clear h
      induction cs with
      | nil => intro cs' h; cases cs' <;> simp_all
      | cons c cs ih2 =>
        intro cs' h
        cases cs' with
        | nil => simp at h
        | cons c' cs' =>
          simp only [List.map_cons, List.cons.injEq] at h
          rw [ih c (by simp) c' h.1, ih2 (fun c hc => ih c (by simp [hc])) cs' h.2]
    rcases t' with b | _ | ⟨k', cs'⟩
    · cases k <;> simp [classes] at h
    · cases k <;> simp [classes] at h
    · cases k <;> cases k' <;> simp only [classes, classesL_eq, PT.node.injEq, reduceCtorEq, false_and,
        true_and, JK.other.injEq, JK.dict.injEq] at h
      · rw [hl _ h]
      · rw [hl _ h.2, h.1]
      · rw [hl _ h.2, hf _ _ h.1]

/-! ## Reassembling -/

theorem unflatten_leaves {d : Def (JK C)} {ls : List α} (h : ls.length = d.leaves.length) :
    ∃ t : PT (JK C) α, t.shape = d ∧ t.leaves = ls ∧ treeUnflatten d (ls.map fun l => .leaf l) = .ok t := by
  obtain ⟨t, h1, h2⟩ := exists_fill d ls h
  have hd : d.shape = d := by
    have : ∀ d : Def (JK C), d.map (fun _ => ()) = d := by
      intro d
      induction d using ind with
      | leaf a => rfl
      | none => rfl
      | node k cs ih =>
        simp only [PT.map, mapL_eq]
        congr 1
        exact (List.map_congr_left ih).trans (by simp)
    exact this d
  rw [hd] at h1
  refine ⟨t, h1, h2, ?_⟩
  have := treeUnflatten_shape (t.map fun l => (.leaf l : PT (JK C) α))
  rwa [shape_map, leaves_map, h1, h2, join_map_leaf] at this

theorem zipWith_pick (w : World V A O C Q R) (ls : List (Leaf V O)) (so : List (Option O))
    (h : so.map (fun o => o.map w.cls) = (ls.map Leaf.static).map (fun o => o.map w.cls)) :
    ∃ ls' : List (Leaf V O),
      List.zipWith (pick (C := C)) (ls.map Leaf.dyn) so = ls'.map (fun l => .leaf l) ∧
      ls'.map (eqLeaf w) = ls.map (eqLeaf w) := by
  induction ls generalizing so with
  | nil => exact ⟨[], by simp⟩
  | cons l ls ih =>
    cases so with
    | nil => simp at h
    | cons o so =>
      simp only [List.map_cons, List.cons.injEq] at h
      obtain ⟨ls', h1, h2⟩ := ih so h.2
      have h3 := h.1
      cases l with
      | arr v =>
        cases o with
        | none => exact ⟨.arr v :: ls', by simp [pick, Leaf.dyn, h1], by simp [h2]⟩
        | some o => simp [Leaf.static] at h3
      | obj o' =>
        cases o with
        | none => simp [Leaf.static] at h3
        | some o =>
          simp only [Leaf.static, Option.map_some, Option.some.injEq] at h3
          exact ⟨.obj o :: ls', by simp [pick, Leaf.dyn, h1], by simp [h2, eqLeaf, h3]⟩

/-- Dynamic leaves put back with static ones that look the same to the cache. -/
theorem combine_related (w : World V A O C Q R) (t : Val V O C) (s : Static O C)
    (h : staticKey w s = staticKey w (hashablePartition t).2) :
    ∃ t', hashableCombine (hashablePartition t).1 s = .ok t' ∧ EqUpTo w t' t := by
  simp only [staticKey, hashablePartition, Prod.mk.injEq] at h
  obtain ⟨h1, h2⟩ := h
  obtain ⟨ls', e1, e2⟩ := zipWith_pick (C := C) w t.leaves s.leaves h1
  have hlen : ls'.length = s.treedef.leaves.length := by
    have a1 := congrArg List.length e2
    have a2 := congrArg (fun d => (leaves d).length) h2
    simp only [leaves_classes, List.length_map] at a1 a2
    rw [a1, a2]; simp [shape, leaves_map]
  obtain ⟨t', h3, h4, h5⟩ := unflatten_leaves hlen
  refine ⟨t', ?_, ?_⟩
  · simp only [hashableCombine, hashablePartition]
    rw [e1, h5]
  · rw [EqUpTo, classes_eq_iff]
    exact ⟨by rw [h3, h2], by rw [h4, e2]⟩

theorem hashableCombine_partition (t : Val V O C) :
    hashableCombine (hashablePartition t).1 (hashablePartition t).2 = .ok t := by
  have w : World V V O C O C := ⟨id, id, id, fun _ => true, fun _ => true, fun _ _ _ => .error .typeError,
    fun _ _ _ => .error .typeError⟩
  simp only [hashableCombine, hashablePartition]
  have e : ∀ ls : List (Leaf V O), List.zipWith (pick (C := C)) (ls.map Leaf.dyn) (ls.map Leaf.static)
      = ls.map (fun l => .leaf l) := by
    intro ls
    induction ls with
    | nil => rfl
    | cons l ls ih => cases l <;> simp [pick, Leaf.dyn, Leaf.static, ih]
  rw [e]
  have := treeUnflatten_shape (t.map fun l => (.leaf l : Val V O C))
  rwa [shape_map, leaves_map, join_map_leaf] at this

theorem map_join (f : α → β) (c : PT (JK C) (PT (JK C) α)) : c.join.map f = (c.map (PT.map f)).join := by
  induction c using ind with
  | leaf a => rfl
  | none => rfl
  | node k cs ih =>
    simp only [join, PT.map, joinL_eq, mapL_eq, List.map_map]
    congr 1
    exact List.map_congr_left ih

theorem zipWith_pick_abs (w : World V A O C Q R) (d d' : Dyn V) (so : List (Option O))
    (h : d.map (fun v => v.map w.aval) = d'.map (fun v => v.map w.aval)) :
    (List.zipWith (pick (C := C)) d so).map (abs w) = (List.zipWith (pick (C := C)) d' so).map (abs w) := by
  induction d generalizing d' so with
  | nil => cases d' <;> simp_all
  | cons v d ih =>
    cases d' with
    | nil => simp at h
    | cons v' d' =>
      cases so with
      | nil => rfl
      | cons o so =>
        simp only [List.map_cons, List.cons.injEq] at h
        simp only [List.zipWith_cons_cons, List.map_cons, ih d' so h.2, List.cons.injEq, and_true]
        have := h.1
        cases v <;> cases v' <;> cases o <;> simp_all [pick, abs, PT.map, absLeaf]

theorem abs_combine {w : World V A O C Q R} {d d' : Dyn V} {s : Static O C} {t t' : Val V O C}
    (ht : hashableCombine d s = .ok t) (ht' : hashableCombine d' s = .ok t')
    (h : d.map (fun v => v.map w.aval) = d'.map (fun v => v.map w.aval)) : abs w t = abs w t' := by
  obtain ⟨c, h1, h2, rfl⟩ := treeUnflatten_ok ht
  obtain ⟨c', h1', h2', rfl⟩ := treeUnflatten_ok ht'
  simp only [abs, map_join]
  congr 1
  apply eq_of_shape_leaves
  · rw [shape_map, shape_map, h1, h1']
  · rw [leaves_map, leaves_map, h2, h2']
    exact zipWith_pick_abs w d d' s.leaves h

theorem unpackRest_ok {t : Val V O C} {r} (h : unpackRest t = .ok r) :
    ∃ ks vs, t = .node .tuple [.node .tuple r.1, .node (.dict ks) vs] ∧ r.2 = ks.zip vs := by
  unfold unpackRest at h
  split at h
  · rename_i rest ks vs
    simp only [Except.ok.injEq] at h; subst h
    exact ⟨ks, vs, rfl, rfl⟩
  · contradiction

theorem zip_map_right (ks : List String) (vs : List α) (f : α → β) :
    (ks.zip vs).map (fun p => (p.1, f p.2)) = ks.zip (vs.map f) := by
  induction ks generalizing vs with
  | nil => rfl
  | cons k ks ih => cases vs <;> simp [ih]

theorem unpackRest_abs {w : World V A O C Q R} {t t' : Val V O C} {r r'} (h : unpackRest t = .ok r)
    (h' : unpackRest t' = .ok r') (e : abs w t = abs w t') :
    r.1.map (abs w) = r'.1.map (abs w) ∧ absKw w r.2 = absKw w r'.2 := by
  obtain ⟨ks, vs, rfl, h2⟩ := unpackRest_ok h
  obtain ⟨ks', vs', rfl, h2'⟩ := unpackRest_ok h'
  simp only [abs, PT.map, mapL_eq, List.map_cons, List.map_nil, PT.node.injEq, List.cons.injEq,
    JK.dict.injEq, and_true, true_and] at e
  refine ⟨e.1, ?_⟩
  rw [h2, h2', absKw, absKw, zip_map_right, zip_map_right, e.2.1]
  exact congrArg _ e.2.2

theorem splitDummy_ok {first : Val V O C} {rest args} (h : splitDummy first rest = .ok args) :
    args = (first :: rest).dropLast := by
  unfold splitDummy at h
  split at h
  · simpa using h.symm
  · contradiction

theorem find?_dynKey (w : World V A O C Q R) (d : DynDict V) (n : String) :
    (dynKey w d).find? (fun p => p.1 == n) =
      (d.find? (fun p => p.1 == n)).map (fun p => (p.1, p.2.map fun v => v.map w.aval)) := by
  simp [dynKey, List.find?_map, Function.comp_def]

theorem popDyn_abs {w : World V A O C Q R} {dd dn dd' dn' : DynDict V} {n d d'}
    (h : dynKey w dd = dynKey w dd') (h' : dynKey w dn = dynKey w dn')
    (e : popDyn dd dn n = .ok d) (e' : popDyn dd' dn' n = .ok d') :
    d.map (fun v => v.map w.aval) = d'.map (fun v => v.map w.aval) := by
  have hh : dynKey w (dd ++ dn) = dynKey w (dd' ++ dn') := by
    simp only [dynKey, List.map_append] at *; rw [h, h']
  have hf := congrArg (fun l => l.find? (fun p => p.1 == n)) hh
  simp only [find?_dynKey] at hf
  unfold popDyn at e e'
  split at e
  · split at e'
    · rename_i p hp _ p' hp'
      simp only [Except.ok.injEq] at e e'
      subst e; subst e'
      rw [hp, hp'] at hf
      simp only [Option.map_some, Option.some.injEq, Prod.mk.injEq] at hf
      exact hf.2
    · contradiction
  · contradiction

/-! ## Partition of outputs -/

/-- The left half of a partition. -/
def keepArr : Leaf V O → Val V O C
  | .arr v => .leaf (.arr v)
  | .obj _ => .none

/-- The right half of a partition. -/
def keepObj : Leaf V O → Val V O C
  | .arr _ => .none
  | .obj o => .leaf (.obj o)

theorem treeMap1_pure {K : Type} (f : PT K α → Except Err (PT K β)) (g : α → PT K β)
    (h : ∀ a, f (.leaf a) = .ok (g a)) (t : PT K α) : treeMap1 noLeaf f t = .ok (t.map g).join := by
  have e : mapE f (t.treeLeaves noLeaf) = .ok ((t.map g).leaves) := by
    rw [treeLeaves, cut_noLeaf, leaves_map, leaves_map]
    induction t.leaves with
    | nil => rfl
    | cons a l ih => simp only [List.map_cons, mapE, h, ih, bind, Except.bind, pure, Except.pure]
  rw [treeMap1, e]
  have := treeUnflatten_shape (t.map g)
  rw [shape_map] at this
  simp only [bind, Except.bind, treeStructure, cut_noLeaf, shape_map, this]

theorem treeMap2_pure {K : Type} [DecidableEq K] (f : PT K γ → PT K α → Except Err (PT K β)) (b : α → γ)
    (g : α → PT K β) (h : ∀ a, f (.leaf (b a)) (.leaf a) = .ok (g a)) (t : PT K α) :
    treeMap2 noLeaf f (t.map b) t = .ok (t.map g).join := by
  have h1 : flattenUpTo ((t.map b).treeStructure noLeaf) t = .ok (t.leaves.map fun a => .leaf a) := by
    rw [flattenUpTo_ok]
    exact ⟨t.map fun a => .leaf a, by simp [treeStructure, cut_noLeaf, shape_map], by rw [leaves_map],
      join_map_leaf t⟩
  have e : mapE (fun xy => f xy.1 xy.2)
      (((t.map b).treeLeaves noLeaf).zip (t.leaves.map fun a => .leaf a)) = .ok ((t.map g).leaves) := by
    rw [treeLeaves, cut_noLeaf, leaves_map, leaves_map, leaves_map]
    induction t.leaves with
    | nil => rfl
    | cons a l ih =>
      simp only [List.map_cons, List.zip_cons_cons, mapE, h, ih, bind, Except.bind, pure, Except.pure]
  have := treeUnflatten_shape (t.map g)
  rw [shape_map] at this
  have hs : (t.map b).treeStructure noLeaf = t.shape := by simp [treeStructure, cut_noLeaf, shape_map]
  simp only [treeMap2, bind, Except.bind, h1, e]
  rw [hs, this]

theorem treeMap2_leaf {K : Type} [DecidableEq K] (f : PT K γ → PT K α → Except Err (PT K β)) (s : γ)
    (t : PT K α) : treeMap2 noLeaf f (.leaf s) t = f (.leaf s) t := by
  have h : ∀ x : PT K β, treeUnflatten (.leaf ()) [x] = .ok x := fun x => treeUnflatten_shape (.leaf x)
  simp only [treeMap2, treeStructure, treeLeaves, cut, shape_leaf, flattenUpTo, bind, Except.bind, leaves,
    List.zip_cons_cons, List.zip_nil_right, mapE, pure, Except.pure]
  have e : noLeaf (.leaf s : PT K γ) = false := rfl
  cases hf : f (.leaf s) t with
  | error e => simp [mapE, hf, bind, Except.bind]
  | ok x => simp [mapE, hf, bind, Except.bind, pure, Except.pure, h]

theorem partitionOut_eq [DecidableEq C] (t : Val V O C) :
    partitionOut t = .ok ((t.map keepArr).join, (t.map keepObj).join) := by
  have h0 : Filters.filterTree noLeaf (.leaf (.callable fun x => .ok (isArray x))) t
      = .ok (t.map fun l => isArray (V := V) (O := O) (C := C) (.leaf l)) := by
    have := treeMap1_pure (K := JK C) (fun x => (do let b ← Except.ok (isArray x); pure (.leaf b)))
      (fun l : Leaf V O => .leaf (isArray (C := C) (.leaf l))) (fun a => rfl) t
    have e2 := join_map_leaf (t.map fun l => isArray (V := V) (O := O) (C := C) (.leaf l))
    rw [map_map] at e2
    rw [e2] at this
    rw [Filters.filterTree, treeMap2_leaf]
    exact this
  simp only [partitionOut, Filters.partition, h0, bind, Except.bind]
  rw [treeMap2_pure _ _ keepArr, treeMap2_pure _ _ keepObj]
  · rfl
  · intro a; cases a <;> rfl
  · intro a; cases a <;> rfl

end Verif.Jit
