import Verif.Vmap.Lemmas3
/-! # Lanes that succeed -/

namespace Verif.Vmap

open PT Filters

variable {K V A O : Type}

theorem mem_leaves_iff {α : Type} {t : PT K α} {x : α} : x ∈ t.leaves ↔ ∃ π, t.leafAt? π = some x := by
  constructor
  · intro hx
    obtain ⟨j, hj⟩ := List.getElem?_of_mem hx
    obtain ⟨π, hπ⟩ := exists_leafAt?_of_getElem? hj
    exact ⟨π, hπ t rfl x hj⟩
  · rintro ⟨π, hπ⟩
    obtain ⟨i, _, hall⟩ := index_of_leafAt? hπ
    rw [hall t rfl] at hπ
    exact List.mem_of_getElem? hπ

theorem zip_mapped (L : List (Leaf V O × Option Int)) :
    ∀ y ∈ (L.filterMap fun x => mappedOf x.1 x.2).zip (L.filterMap Prod.snd), ∃ x ∈ L, x.1 = y.1 ∧ x.2 = some y.2 := by
  induction L with
  | nil => simp
  | cons z zs ih =>
    intro y hy
    cases hz : z.2 with
    | none =>
      have h1 : mappedOf z.1 z.2 = Option.none := by simp [mappedOf, hz]
      simp only [List.filterMap_cons, h1] at hy
      simp only [hz] at hy
      obtain ⟨x, hx, h⟩ := ih y hy
      exact ⟨x, by simp [hx], h⟩
    | some b =>
      have h1 : mappedOf z.1 z.2 = some z.1 := by simp [mappedOf, hz]
      simp only [List.filterMap_cons, h1] at hy
      simp only [hz, List.zip_cons_cons, List.mem_cons] at hy
      rcases hy with rfl | hy
      · exact ⟨z, by simp, rfl, hz⟩
      · obtain ⟨x, hx, h⟩ := ih y hy
        exact ⟨x, by simp [hx], h⟩

theorem batchSize_isOk {axisSize : Option Nat} {sizes : List Nat} {n : Nat} (h1 : ∀ m, axisSize = some m → m = n)
    (h2 : ∀ s ∈ sizes, s = n) (h3 : axisSize ≠ Option.none ∨ sizes ≠ []) : batchSize axisSize sizes = .ok n := by
  rw [batchSize]
  cases axisSize with
  | none =>
    cases sizes with
    | nil => simp at h3
    | cons s ss =>
      have := h2 s (by simp)
      subst this
      simp only [Option.toList_none, List.nil_append]
      rw [if_pos]
      simp only [List.all_eq_true, beq_iff_eq]
      intro x hx
      exact h2 x (by simp [hx])
  | some m =>
    have := h1 m rfl
    subst this
    simp only [Option.toList_some, List.cons_append, List.nil_append]
    rw [if_pos]
    simpa using h2

theorem jaxVmap_isOk [DecidableEq K] {w : World K V A O} {f : Fn K V O}
    {outAxes : PT K (AxSpec V O)} {axisSize : Option Nat} {tup : K}
    {ms : List (PT K (Leaf V O × Option Int))} {m : PT K (Leaf V O × Option Int)} (hm : m = .node tup ms)
    {n : Nat} (hn : 0 < n) {q : PT K (Nat → Leaf V O × Option Int)} (hb : ∀ k, axisSize = some k → k = n)
    (hsz : ∀ x ∈ m.leaves, ∀ ax, x.2 = some ax → ∃ v, x.1 = .arr v ∧ w.size v ax = some n)
    (hsome : axisSize ≠ Option.none ∨ ∃ x ∈ m.leaves, x.2.isSome)
    (hf : ∀ i, i < n → f (laneList w ms i) = .ok (q.map fun x => (x i).1))
    (hr : ∀ i, i < n → resolveAxes (q.map fun x => (x i).1) outAxes = .ok (withNones (q.map fun x => (x i).2)))
    (hax : ∀ x ∈ q.leaves, ∀ i, i < n → (x i).2 = (x 0).2)
    (harr : ∀ x ∈ q.leaves, (x 0).2.isSome → ∀ i, i < n → ∃ v, asArr w (x i).1 = .ok v)
    (hbat : ∀ π x v, q.leafAt? π = some x → (x 0).2 = Option.none → (x 0).1 = .arr v →
      w.batched f ((List.range n).map (laneList w ms)) π = false) :
    jaxVmap w (funWrapper f outAxes (withNones (m.map fun x => unmappedOf x.1 x.2)))
        (fun lanes => w.batched f (fullLanes (withNones (m.map fun x => unmappedOf x.1 x.2)) lanes))
        (withNones (m.map Prod.snd)) axisSize (withNones (m.map fun x => mappedOf x.1 x.2)) =
      .ok (stacked w n q) := by
  rw [jaxVmap]
  have hshape : (withNones (m.map Prod.snd)).shape = (withNones (m.map fun x => mappedOf x.1 x.2)).shape := by
    apply shape_withNones
    intro x _; cases h : x.2 <;> simp [mappedOf]
  simp only [hshape, ne_eq, not_true_eq_false, if_false, bind, Except.bind]
  obtain ⟨sizes, hs, hs1, hs2⟩ : ∃ sizes, mapE (leafSize w)
      ((withNones (m.map fun x => mappedOf x.1 x.2)).leaves.zip (withNones (m.map Prod.snd)).leaves) = .ok sizes ∧
      (∀ s ∈ sizes, s = n) ∧ ((∃ x ∈ m.leaves, x.2.isSome) → sizes ≠ []) := by
    rw [leaves_withNones, leaves_withNones]
    refine ⟨List.map (fun _ => n) ((m.leaves.filterMap fun x => mappedOf x.1 x.2).zip (m.leaves.filterMap Prod.snd)),
      ?_, fun s hs => by obtain ⟨_, _, rfl⟩ := List.mem_map.1 hs; rfl, ?_⟩
    · rw [mapE_ok]
      refine ⟨by simp, ?_⟩
      intro j y hy
      obtain ⟨x, hx, e1, e2⟩ := zip_mapped m.leaves y (List.mem_of_getElem? hy)
      obtain ⟨v, hv, hv'⟩ := hsz x hx y.2 e2
      refine ⟨n, by rw [List.getElem?_map, hy]; rfl, ?_⟩
      have hy' : y = (.arr v, y.2) := by rw [← hv, e1]
      rw [hy', leafSize]
      simp [hv']
    · rintro ⟨x, hx, h⟩ he
      obtain ⟨ax, hax'⟩ := Option.isSome_iff_exists.1 h
      have := mem_zip_mapped m.leaves x hx ax hax'
      rw [List.map_eq_nil_iff] at he
      rw [he] at this
      simp at this
  have hn' : batchSize axisSize sizes = .ok n := batchSize_isOk hb hs1 (hsome.imp id hs2)
  have hlanes : mapE (laneArgs w (withNones (m.map fun x => mappedOf x.1 x.2)) (withNones (m.map Prod.snd)))
      (List.range n) = .ok ((List.range n).map fun i => withNones (m.map fun x => x.2.map (sliceLeaf w i x.1))) := by
    rw [mapE_ok]
    refine ⟨by simp, ?_⟩
    intro j i hj
    exact ⟨_, by rw [List.getElem?_map, hj]; rfl, laneArgs_closed w m Prod.fst Prod.snd i⟩
  have hc : ∀ i, Filters.combine noLeaf [withNones (m.map fun x => x.2.map (sliceLeaf w i x.1)),
      withNones (m.map fun x => unmappedOf x.1 x.2)] = .ok (.node tup (laneList w ms i)) := by
    intro i
    have := lane_combine w m Prod.fst Prod.snd i
    rw [this, hm, lane_node]
  have houts : mapE (funWrapper f outAxes (withNones (m.map fun x => unmappedOf x.1 x.2)))
      ((List.range n).map fun i => withNones (m.map fun x => x.2.map (sliceLeaf w i x.1))) =
      .ok ((List.range n).map fun i => laneOut (q.map fun x => x i) Prod.fst Prod.snd) := by
    rw [mapE_ok]
    refine ⟨by simp, ?_⟩
    intro j y hy
    rw [List.getElem?_map, Option.map_eq_some_iff] at hy
    obtain ⟨i, hi, rfl⟩ := hy
    have hi' : i < n := by have := List.mem_of_getElem? hi; simpa using this
    refine ⟨_, by rw [List.getElem?_map, hi]; rfl, ?_⟩
    apply funWrapper_ok (hc i) (hf i hi')
    · rw [map_map]
    · rw [hr i hi', map_map]
  have hfull : fullLanes (withNones (m.map fun x => unmappedOf x.1 x.2))
      ((List.range n).map fun i => withNones (m.map fun x => x.2.map (sliceLeaf w i x.1))) =
      (List.range n).map (laneList w ms) := by
    rw [fullLanes, List.filterMap_map, ← List.filterMap_eq_map]
    congr 1
    funext i
    simp only [Function.comp, hc]
  have hv : ((List.range n).map fun i => laneOut (q.map fun x => x i) Prod.fst Prod.snd).map LaneOut.vmapd =
      (List.range n).map fun i => withNones (q.map fun x => mappedOf (x i).1 (x i).2) := by
    rw [List.map_map]
    apply List.map_congr_left
    intro i _
    simp only [Function.comp, laneOut, map_map]
  simp only [hs, hn', hlanes, houts, hv]
  have hst := (stackLanes_closed w q n hn hax (r := _)).2 ⟨harr, rfl⟩
  simp only [hst, hfull]
  obtain ⟨k, rfl⟩ : ∃ k, n = k + 1 := ⟨n - 1, by omega⟩
  obtain ⟨os, hos⟩ : ∃ os, ((List.range (k + 1)).map fun i => laneOut (q.map fun x => x i) Prod.fst Prod.snd) =
      laneOut (q.map fun x => x 0) Prod.fst Prod.snd :: os := by
    rw [List.range_succ_eq_map]; exact ⟨_, rfl⟩
  rw [hos]
  simp only
  rw [if_neg]
  · rw [stacked]
    simp only [laneOut, map_map]
    rfl
  · simp only [List.any_eq_true, not_exists, not_and]
    intro π hπ
    rw [mem_positions, laneOut, leafAt?_withNones, leafAt?_map] at hπ
    cases hx : q.leafAt? π with
    | none => simp [hx] at hπ
    | some x =>
      cases h0 : (x 0).2 with
      | some ax => simp [hx, h0, unmappedOf] at hπ
      | none =>
        cases h1 : (x 0).1 with
        | obj o => simp [hx, h0, h1, unmappedOf, isArray] at hπ
        | arr v => rw [hbat π x v hx h0 h1]; simp

end Verif.Vmap
