import Verif.Vmap.Lemmas2
/-! # Running the lanes -/

namespace Verif.Vmap

open PT Filters

variable {K V A O : Type}

theorem axisAt_alike {w : World K V A O} {axes : PT K (AxSpec V O)} (ht : TraceableAxes w axes) {t t' : Val K V O}
    (ha : Alike w t t') {π : List Nat} {a b : Option Int} (h : AxisAt axes t π a) (h' : AxisAt axes t' π b) : a = b := by
  obtain ⟨σ, ρ, s, l, h1, h2, h3, h4⟩ := h
  have h' := h'
  obtain ⟨σ', ρ', s', l', h1', h2', h3', h4'⟩ := h'
  have hl : abstract w l = abstract w l' := by
    have := congrArg (fun u => u.leafAt? π) ha
    simp only [leafAt?_map, h2, h2', Option.map_some, Option.some.injEq] at this
    exact this
  have : EntryAxis s l a → EntryAxis s l' a := by
    rintro (h | h | ⟨f, h, h5⟩)
    · exact .inl h
    · exact .inr (.inl h)
    · refine .inr (.inr ⟨f, h, ?_⟩)
      rw [← ht σ f (leafAt?_eq_some.2 (by rw [h3, h])) l l' hl, h5]
  exact axisAt_unique (t := t') ⟨σ, ρ, s, l', h1, h2', h3, this h4⟩ h'

theorem node_of_map {δ : Type} {m : PT K δ} {α : Type} {f : δ → α} {k : K} {cs : List (PT K α)}
    (h : m.map f = .node k cs) : ∃ ms, m = .node k ms := by
  cases m <;> simp [PT.map] at h
  obtain ⟨rfl, -⟩ := h
  exact ⟨_, rfl⟩

/-- The arguments of one lane. -/
def laneList (w : World K V A O) (ms : List (PT K (Leaf V O × Option Int))) (i : Nat) : List (Val K V O) :=
  ms.map (PT.map fun x => inLane w i x.1 x.2)

theorem lane_node (w : World K V A O) (tup : K) (ms : List (PT K (Leaf V O × Option Int))) (i : Nat) :
    (PT.node tup ms).map (fun x => inLane w i x.1 x.2) = .node tup (laneList w ms i) := by
  simp [PT.map, mapL_eq, laneList]

theorem batchSize_ok {axisSize : Option Nat} {sizes : List Nat} {n : Nat} (h : batchSize axisSize sizes = .ok n) :
    (∀ m, axisSize = some m → m = n) ∧ ∀ s ∈ sizes, s = n := by
  rw [batchSize] at h
  cases axisSize with
  | none =>
    cases sizes with
    | nil => simp at h
    | cons s ss =>
      simp only [Option.toList_none, List.nil_append] at h
      split at h
      · rename_i hs
        cases h
        refine ⟨by simp, ?_⟩
        simpa using hs
      · cases h
  | some m =>
    simp only [Option.toList_some, List.cons_append, List.nil_append] at h
    split at h
    · rename_i hs
      cases h
      refine ⟨by simp, ?_⟩
      simpa using hs
    · cases h

theorem mem_zip_mapped (L : List (Leaf V O × Option Int)) (x : Leaf V O × Option Int) (hx : x ∈ L) (ax : Int)
    (hax : x.2 = some ax) :
    (x.1, ax) ∈ (L.filterMap fun x => mappedOf x.1 x.2).zip (L.filterMap Prod.snd) := by
  induction L with
  | nil => simp at hx
  | cons y ys ih =>
    cases hy : y.2 with
    | none =>
      have h1 : mappedOf y.1 y.2 = Option.none := by simp [mappedOf, hy]
      simp only [List.filterMap_cons, h1]
      simp only [hy]
      apply ih
      rcases List.mem_cons.1 hx with rfl | hx
      · rw [hax] at hy; cases hy
      · exact hx
    | some b =>
      have h1 : mappedOf y.1 y.2 = some y.1 := by simp [mappedOf, hy]
      simp only [List.filterMap_cons, h1]
      simp only [hy, List.zip_cons_cons, List.mem_cons]
      rcases List.mem_cons.1 hx with rfl | hx
      · rw [hax] at hy; cases hy; exact .inl rfl
      · exact .inr (ih hx)

/-- The trees of all lanes as one tree. -/
theorem gather {w : World K V A O} {outAxes : PT K (AxSpec V O)} (ho : TraceableAxes w outAxes) {n : Nat} (hn0 : 0 < n)
    {pick : Nat → PT K (Leaf V O × Option Int)}
    (hpick : ∀ i, i < n → ∀ π x, (pick i).leafAt? π = some x → AxisAt outAxes ((pick i).map Prod.fst) π x.2)
    (hsame : ∀ i, i < n → Alike w ((pick i).map Prod.fst) ((pick 0).map Prod.fst)) :
    ∃ q : PT K (Nat → Leaf V O × Option Int),
      (∀ π x, q.leafAt? π = some x → ∀ i, i < n → (pick i).leafAt? π = some (x i)) ∧
      (∀ i, i < n → q.map (fun x => x i) = pick i) ∧
      (∀ x ∈ q.leaves, ∃ π, q.leafAt? π = some x) ∧
      (∀ i, i < n → (pick i).map Prod.fst = q.map fun x => (x i).1) ∧
      (∀ x ∈ q.leaves, ∀ i, i < n → (x i).2 = (x 0).2 ∧ abstract w (x i).1 = abstract w (x 0).1) := by
  have hshapes : ∀ i, i < n → (pick i).shape = (pick 0).shape := by
    intro i hi
    have := congrArg shape (hsame i hi)
    simpa [shape_map] using this
  obtain ⟨q, q1, q2⟩ := exists_of_shape (pick 0) (fun π (x : Nat → Leaf V O × Option Int) =>
      ∀ i, i < n → (pick i).leafAt? π = some (x i)) (by
    intro π x0 hx0
    have : ∀ i, i < n → ∃ x, (pick i).leafAt? π = some x := by
      intro i hi
      have := leafAt?_isSome_of_shape (hshapes i hi) π
      rw [hx0] at this
      exact Option.isSome_iff_exists.1 (by simpa using this)
    refine ⟨fun i => if hi : i < n then (this i hi).choose else x0, ?_⟩
    intro i hi
    simp only [hi, dif_pos]
    exact (this i hi).choose_spec)
  have hq : ∀ i, i < n → q.map (fun x => x i) = pick i := by
    intro i hi
    apply eq_of_shape_leafAt? (by rw [shape_map, q1, hshapes i hi])
    intro π x y hx hy
    rw [leafAt?_map, Option.map_eq_some_iff] at hx
    obtain ⟨z, hz, rfl⟩ := hx
    have := q2 π z hz i hi
    rw [hy] at this
    simpa using this.symm
  have hpos : ∀ x ∈ q.leaves, ∃ π, q.leafAt? π = some x := by
    intro x hx
    obtain ⟨j, hj⟩ := List.getElem?_of_mem hx
    obtain ⟨π, hπ⟩ := exists_leafAt?_of_getElem? hj
    exact ⟨π, hπ q rfl x hj⟩
  refine ⟨q, q2, hq, hpos, fun i hi => by rw [← hq i hi, map_map], ?_⟩
  intro x hx i hi
  obtain ⟨π, hπ⟩ := hpos x hx
  have e1 := hpick i hi π (x i) (q2 π x hπ i hi)
  have e2 := hpick 0 hn0 π (x 0) (q2 π x hπ 0 hn0)
  refine ⟨axisAt_alike ho (hsame i hi) e1 e2, ?_⟩
  have := congrArg (fun u => u.leafAt? π) (hsame i hi)
  simpa [leafAt?_map, q2 π x hπ i hi, q2 π x hπ 0 hn0] using this

/-- What JAX knows of the arguments is the same in all lanes. -/
theorem lanes_alike {w : World K V A O} (hw : Lawful w) {n : Nat} {tup : K} {ms : List (PT K (Leaf V O × Option Int))}
    (hsz : ∀ x ∈ (PT.node tup ms).leaves, ∀ ax, x.2 = some ax → ∃ v, x.1 = .arr v ∧ w.size v ax = some n) (i j : Nat)
    (hi : i < n) (hj : j < n) :
    (laneList w ms i).map (PT.map (abstract w)) = (laneList w ms j).map (PT.map (abstract w)) := by
  have key : ((PT.node tup ms).map fun x => inLane w i x.1 x.2).map (abstract w) =
      ((PT.node tup ms).map fun x => inLane w j x.1 x.2).map (abstract w) := by
    rw [map_map, map_map]
    apply map_congr_leaves
    intro x hx
    cases hax : x.2 with
    | none => rfl
    | some ax =>
      obtain ⟨v, hv, hv'⟩ := hsz x hx ax hax
      simp only [inLane, hv, sliceLeaf, abstract]
      rw [hw.slice_aval v ax n i j hv' hi hj]
  rw [lane_node, lane_node] at key
  simpa [PT.map, mapL_eq] using key

/-- All that happens in the lanes. -/
theorem jaxVmap_inv [DecidableEq K] {w : World K V A O} (hw : Lawful w) {f : Fn K V O} (hf : Traceable w f)
    {outAxes : PT K (AxSpec V O)} (ho : TraceableAxes w outAxes) {axisSize : Option Nat} {tup : K}
    {ms : List (PT K (Leaf V O × Option Int))} {m : PT K (Leaf V O × Option Int)} (hm : m = .node tup ms)
    {r : LaneOut K V O}
    (h : jaxVmap w (funWrapper f outAxes (withNones (m.map fun x => unmappedOf x.1 x.2)))
        (fun lanes => w.batched f (fullLanes (withNones (m.map fun x => unmappedOf x.1 x.2)) lanes))
        (withNones (m.map Prod.snd)) axisSize (withNones (m.map fun x => mappedOf x.1 x.2)) = .ok r) :
    ∃ n, ∃ q : PT K (Nat → Leaf V O × Option Int), 0 < n ∧ r = stacked w n q ∧
      (∀ k, axisSize = some k → k = n) ∧
      (∀ x ∈ m.leaves, ∀ ax, x.2 = some ax → ∃ v, x.1 = .arr v ∧ w.size v ax = some n) ∧
      (∀ i, i < n → f (laneList w ms i) = .ok (q.map fun x => (x i).1)) ∧
      (∀ i, i < n → ∀ π x, q.leafAt? π = some x → AxisAt outAxes (q.map fun x => (x i).1) π (x i).2) ∧
      (∀ x ∈ q.leaves, ∀ i, i < n → (x i).2 = (x 0).2 ∧ abstract w (x i).1 = abstract w (x 0).1) ∧
      (∀ x ∈ q.leaves, (x 0).2.isSome → ∀ i, i < n → ∃ v, asArr w (x i).1 = .ok v) ∧
      (∀ x ∈ q.leaves, (x 0).2 = Option.none → ∀ i, i < n → (x i).1 = (x 0).1) := by
  rw [jaxVmap] at h
  have hshape : (withNones (m.map Prod.snd)).shape = (withNones (m.map fun x => mappedOf x.1 x.2)).shape := by
    apply shape_withNones
    intro x _; cases h : x.2 <;> simp [mappedOf]
  simp only [hshape, ne_eq, not_true_eq_false, if_false, bind, Except.bind] at h
  cases hs : mapE (leafSize w) ((withNones (m.map fun x => mappedOf x.1 x.2)).leaves.zip (withNones (m.map Prod.snd)).leaves) with
  | error e => simp [hs] at h
  | ok sizes =>
    simp only [hs] at h
    cases hn : batchSize axisSize sizes with
    | error e => simp [hn] at h
    | ok n =>
      simp only [hn] at h
      obtain ⟨hb1, hb2⟩ := batchSize_ok hn
      have hlanes : mapE (laneArgs w (withNones (m.map fun x => mappedOf x.1 x.2)) (withNones (m.map Prod.snd)))
          (List.range n) = .ok ((List.range n).map fun i => withNones (m.map fun x => x.2.map (sliceLeaf w i x.1))) := by
        rw [mapE_ok]
        refine ⟨by simp, ?_⟩
        intro j i hj
        exact ⟨_, by rw [List.getElem?_map, hj]; rfl, laneArgs_closed w m Prod.fst Prod.snd i⟩
      simp only [hlanes] at h
      -- sizes
      have hsz : ∀ x ∈ m.leaves, ∀ ax, x.2 = some ax → ∃ v, x.1 = .arr v ∧ w.size v ax = some n := by
        intro x hx ax hax
        have hmem : (x.1, ax) ∈ (withNones (m.map fun x => mappedOf x.1 x.2)).leaves.zip (withNones (m.map Prod.snd)).leaves := by
          rw [leaves_withNones, leaves_withNones]
          exact mem_zip_mapped m.leaves x hx ax hax
        obtain ⟨j, hj⟩ := List.getElem?_of_mem hmem
        obtain ⟨s, h1, h2⟩ := (mapE_ok.1 hs).2 j _ hj
        have h3 := hb2 s (List.mem_of_getElem? h1)
        subst h3
        cases hx1 : x.1 with
        | obj o => simp [leafSize, hx1] at h2
        | arr v =>
          refine ⟨v, rfl, ?_⟩
          simp only [leafSize, hx1] at h2
          cases hv : w.size v ax with
          | none => simp [hv] at h2
          | some k => simp [hv] at h2; rw [h2]
      cases houts : mapE (funWrapper f outAxes (withNones (m.map fun x => unmappedOf x.1 x.2)))
          ((List.range n).map fun i => withNones (m.map fun x => x.2.map (sliceLeaf w i x.1))) with
      | error e => simp [houts] at h
      | ok outs =>
        simp only [houts] at h
        -- one lane
        have hlane : ∀ i, i < n → ∃ mo : PT K (Leaf V O × Option Int),
            f (laneList w ms i) = .ok (mo.map Prod.fst) ∧
            (∀ π x, mo.leafAt? π = some x → AxisAt outAxes (mo.map Prod.fst) π x.2) ∧
            outs[i]? = some (laneOut mo Prod.fst Prod.snd) := by
          intro i hi
          obtain ⟨o, h1, h2⟩ := (mapE_ok.1 houts).2 i _ (by rw [List.getElem?_map, List.getElem?_range hi]; rfl)
          have hc := lane_combine w m Prod.fst Prod.snd i
          rw [hm, lane_node] at hc
          rw [← hm] at hc
          obtain ⟨out, mo, g1, g2, g3, g4⟩ := funWrapper_inv hc h2
          exact ⟨mo, by rw [g1, g2], by rw [g2]; exact g3, by rw [h1, g4]⟩
        have hlen : outs.length = n := by
          have := (mapE_ok.1 houts).1
          simpa using this
        have hn0 : 0 < n := by
          rcases Nat.eq_zero_or_pos n with rfl | h0
          · have : outs = [] := List.eq_nil_of_length_eq_zero hlen
            subst this
            simp [stackLanes] at h
          · exact h0
        -- lanes are alike
        have halike := fun i j hi hj => lanes_alike (i := i) (j := j) hw (hm ▸ hsz) hi hj
        -- the tree of all lanes
        obtain ⟨mo0, a1, a2, a3⟩ := hlane 0 hn0
        let pick : Nat → PT K (Leaf V O × Option Int) := fun i =>
          if hi : i < n then (hlane i hi).choose else mo0
        have hpick : ∀ i, i < n → f (laneList w ms i) = .ok ((pick i).map Prod.fst) ∧
            (∀ π x, (pick i).leafAt? π = some x → AxisAt outAxes ((pick i).map Prod.fst) π x.2) ∧
            outs[i]? = some (laneOut (pick i) Prod.fst Prod.snd) := by
          intro i hi
          simp only [pick, hi, dif_pos]
          exact (hlane i hi).choose_spec
        have hsame : ∀ i, i < n → Alike w ((pick i).map Prod.fst) ((pick 0).map Prod.fst) := fun i hi =>
          hf _ _ _ _ (halike i 0 hi hn0) (hpick i hi).1 (hpick 0 hn0).1
        obtain ⟨q, q2, hq, hpos, hqf, hdet⟩ := gather ho hn0 (fun i hi => (hpick i hi).2.1) hsame
        have houtseq : outs = (List.range n).map fun i => laneOut (pick i) Prod.fst Prod.snd := by
          apply List.ext_getElem?
          intro i
          by_cases hi : i < n
          · rw [(hpick i hi).2.2, List.getElem?_map, List.getElem?_range hi]; rfl
          · rw [List.getElem?_eq_none (by omega), List.getElem?_eq_none (by simp; omega)]
        have hv : outs.map LaneOut.vmapd = (List.range n).map fun i => withNones (q.map fun x => mappedOf (x i).1 (x i).2) := by
          rw [houtseq, List.map_map]
          apply List.map_congr_left
          intro i hi
          simp only [Function.comp, laneOut]
          rw [← hq i (by simpa using hi), map_map]
        rw [hv] at h
        cases hst : stackLanes w ((List.range n).map fun i => withNones (q.map fun x => mappedOf (x i).1 (x i).2)) with
        | error e => simp [hst] at h
        | ok v =>
          obtain ⟨s1, s2⟩ := (stackLanes_closed w q n hn0 (fun x hx i hi => (hdet x hx i hi).1)).1 hst
          simp only [hst] at h
          have ho0 : outs[0]? = some (laneOut (pick 0) Prod.fst Prod.snd) := (hpick 0 hn0).2.2
          obtain ⟨o, os, hos⟩ : ∃ o os, outs = o :: os := by
            cases outs with
            | nil => simp at ho0
            | cons o os => exact ⟨o, os, rfl⟩
          · rw [hos] at ho0
            simp only [List.getElem?_cons_zero, Option.some.injEq] at ho0
            subst ho0
            simp only [hos] at h
            split at h
            · cases h
            · rename_i hbat
              cases h
              refine ⟨n, q, hn0, ?_, hb1, hsz, ?_, ?_, hdet, s1, ?_⟩
              · rw [stacked, s2, ← hq 0 hn0]
                simp only [laneOut, map_map]
              · intro i hi; rw [(hpick i hi).1, hqf i hi]
              · intro i hi π x hx
                rw [← hqf i hi]
                exact (hpick i hi).2.1 π (x i) (q2 π x hx i hi)
              · intro x hx hax i hi
                obtain ⟨π, hπ⟩ := hpos x hx
                have habs := (hdet x hx i hi).2
                cases hx0 : (x 0).1 with
                | obj o =>
                  rw [hx0] at habs
                  cases hxi : (x i).1 with
                  | obj o' => rw [hxi] at habs; simp [abstract] at habs; rw [habs]
                  | arr v' => rw [hxi] at habs; simp [abstract] at habs
                | arr v0 =>
                  -- an array without axis: JAX found it not to depend on the lane
                  have hmem : π ∈ positions (laneOut (pick 0) Prod.fst Prod.snd).nonvmapdArr := by
                    rw [mem_positions, laneOut, leafAt?_withNones, q2 π x hπ 0 hn0]
                    simp [hax, hx0, unmappedOf, isArray]
                  have hnb : w.batched f (fullLanes (withNones (m.map fun x => unmappedOf x.1 x.2))
                      ((List.range n).map fun i => withNones (m.map fun x => x.2.map (sliceLeaf w i x.1)))) π = false := by
                    simp only [List.any_eq_true, not_exists, not_and] at hbat
                    simpa using hbat π hmem
                  have hfull : fullLanes (withNones (m.map fun x => unmappedOf x.1 x.2))
                      ((List.range n).map fun i => withNones (m.map fun x => x.2.map (sliceLeaf w i x.1))) =
                      (List.range n).map (laneList w ms) := by
                    rw [fullLanes, List.filterMap_map]
                    rw [← List.filterMap_eq_map]
                    congr 1
                    funext i
                    have hc := lane_combine w m Prod.fst Prod.snd i
                    rw [hm, lane_node] at hc
                    rw [← hm] at hc
                    simp only [Function.comp, hc]
                  rw [hfull] at hnb
                  have hrun : mapE f ((List.range n).map (laneList w ms)) =
                      .ok ((List.range n).map fun i => q.map fun x => (x i).1) := by
                    rw [mapE_ok]
                    refine ⟨by simp, ?_⟩
                    intro j a ha
                    rw [List.getElem?_map, Option.map_eq_some_iff] at ha
                    obtain ⟨i', hi', rfl⟩ := ha
                    have hi'' : i' < n := by
                      have := List.mem_of_getElem? hi'
                      simpa using this
                    exact ⟨_, by rw [List.getElem?_map, hi']; rfl, by rw [(hpick i' hi'').1, hqf i' hi'']⟩
                  have := hw.batched_sound f _ _ π hrun hnb (q.map fun x => (x i).1) (by simp; exact ⟨i, hi, rfl⟩)
                    (q.map fun x => (x 0).1) (by simp; exact ⟨0, hn0, rfl⟩)
                  simp only [leafAt?_map, hπ, Option.map_some, Option.some.injEq] at this
                  rw [this, hx0]

end Verif.Vmap
