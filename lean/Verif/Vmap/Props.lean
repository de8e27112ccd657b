import Verif.Vmap.Lemmas4
/-! # Properties of `filter_vmap` (C29, C30) -/

namespace Verif.Vmap

open PT Filters

variable {K V A O : Type}

theorem axes_of_tree {axes : PT K (AxSpec V O)} {t : Val K V O} {m : PT K (Leaf V O × Option Int)}
    (h1 : m.map Prod.fst = t) (h3 : ∀ π x, m.leafAt? π = some x → AxisAt axes t π x.2) {π : List Nat} {a : Option Int}
    (h : AxisAt axes t π a) : ∃ l, t.leafAt? π = some l ∧ m.leafAt? π = some (l, a) := by
  obtain ⟨σ, ρ, s, l, e1, e2, e3, e4⟩ := id h
  have : (m.map Prod.fst).leafAt? π = some l := by rw [h1]; exact e2
  rw [leafAt?_map, Option.map_eq_some_iff] at this
  obtain ⟨x, hx, rfl⟩ := this
  refine ⟨x.1, e2, ?_⟩
  rw [hx, axisAt_unique h (h3 π x hx)]

/-- C29. When `filter_vmap` returns, either nothing was mapped and the function was called once, no output having
an axis; or there is a batch size `n`, given by `axis_size` or a mapped leaf, the function was called on every lane `i < n` of the arguments, and the
result has the outcome of that call as its lane `i`. -/
theorem filter_vmap_lanes [DecidableEq K] {w : World K V A O} (hw : Lawful w) {tup : K} {f : Fn K V O}
    (hf : Traceable w f) {params : List String} {spec outAxes : PT K (AxSpec V O)} (ho : TraceableAxes w outAxes)
    {axisSize : Option Nat} {args : List (Val K V O)} {kwargs : List String} {out : Val K V O}
    (h : filterVmap w tup f params (.tree spec) outAxes axisSize args kwargs = .ok out) :
    kwargs = [] ∧
    ((NoMapped spec (.node tup args) ∧ axisSize = Option.none ∧ f args = .ok out ∧ NoMapped outAxes out) ∨
     ∃ n, 0 < n ∧ IsBatch w spec axisSize (.node tup args) n ∧
       (axisSize = some n ∨ ∃ π ax, AxisAt spec (.node tup args) π (some ax)) ∧ ∀ i, i < n → ∃ args' o,
       IsLane w spec (.node tup args) i (.node tup args') ∧ f args' = .ok o ∧ HasLane w outAxes n i o out) := by
  rw [filterVmap] at h
  split at h
  · cases h
  rename_i hk
  refine ⟨by simpa using hk, ?_⟩
  simp only [namedTree, bind, Except.bind] at h
  cases hr : resolveAxes (.node tup args) spec with
  | error e => simp [hr] at h
  | ok axes =>
    obtain ⟨m, h1, h2, h3⟩ := resolveAxes_ok hr
    obtain ⟨ms, hm⟩ := node_of_map h1
    have hsplit := split_closed (V := V) (O := O) noLeaf m Prod.fst Prod.snd
    simp only [bind, Except.bind] at hsplit
    simp only [hr, h2] at h
    cases hnf : (noneFlags (withNones (m.map Prod.snd)) : Except Err (PT K (Filters.Spec K (Leaf V O)))) with
    | error e => simp [hnf] at h
    | ok flags =>
      simp only [hnf] at h hsplit
      rw [h1] at hsplit
      simp only [hsplit] at h
      split at h
      · cases h
      rename_i r hrl
      rw [runLanes] at hrl
      have hlane : ∀ i, IsLane w spec (.node tup args) i (.node tup (laneList w ms i)) := by
        intro i
        rw [← lane_node, ← hm, ← h1]
        refine ⟨by rw [sameStructure_iff, shape_map, shape_map], ?_⟩
        intro π l hl
        rw [leafAt?_map, Option.map_eq_some_iff] at hl
        obtain ⟨x, hx, rfl⟩ := hl
        exact ⟨x.2, by rw [h1]; exact h3 π x hx, by simp [leafAt?_map, hx]⟩
      split at hrl
      · rename_i hno
        left
        obtain ⟨hno, hnone⟩ := hno
        rw [leaves_withNones] at hno
        have hall : ∀ x ∈ m.leaves, x.2 = Option.none := by
          intro x hx
          have : m.leaves.filterMap Prod.snd = [] := List.eq_nil_of_length_eq_zero hno
          rw [List.filterMap_eq_nil_iff] at this
          exact this x hx
        have hwc := whole_combine (V := V) (O := O) m Prod.fst Prod.snd
        rw [h1] at hwc
        cases hfw : funWrapper f outAxes (withNones (m.map fun x => unmappedOf x.1 x.2))
            (withNones (m.map fun x => mappedOf x.1 x.2)) with
        | error e => simp [hfw, bind, Except.bind] at hrl
        | ok r0 =>
          obtain ⟨out', mo, g1, g2, g3, g4⟩ := funWrapper_inv hwc hfw
          simp only [hfw, bind, Except.bind] at hrl
          split at hrl
          · cases hrl
          rename_i hv
          have hrr : r0 = r := by simpa [pure, Except.pure] using hrl
          subst hrr
          rw [g4, laneOut, leaves_withNones] at hv
          have hall' : ∀ x ∈ mo.leaves, x.2 = Option.none := by
            intro x hx
            have : (mo.leaves.filterMap fun x => mappedOf x.1 x.2) = [] := by
              apply List.eq_nil_of_length_eq_zero
              simpa using hv
            rw [List.filterMap_eq_nil_iff] at this
            have := this x hx
            cases h : x.2 with
            | none => rfl
            | some b => simp [mappedOf, h] at this
          have hst : r0 = stacked w 0 (mo.map fun x => fun _ => x) := by
            rw [g4, stacked, laneOut, laneOut]
            simp only [map_map]
            congr 2
            apply map_congr_leaves
            intro x hx
            simp [mappedOf, hall' x hx]
          rw [hst, finishVmap_closed] at h
          have hout : out = out' := by
            rw [h.2, map_map, ← g2]
            apply map_congr_leaves
            intro x hx
            simp [finalLeaf, hall' x hx]
          refine ⟨?_, hnone, by rw [hout, g1], ?_⟩
          · intro π a ha
            obtain ⟨l, _, hl⟩ := axes_of_tree h1 h3 ha
            exact hall _ (mem_leaves_iff.2 ⟨π, hl⟩)
          · intro π a ha
            rw [hout] at ha
            obtain ⟨l, _, hl⟩ := axes_of_tree g2 g3 ha
            exact hall' _ (mem_leaves_iff.2 ⟨π, hl⟩)
      · rename_i hsome
        right
        obtain ⟨n, q, hn, hst, hb, hsz, hcalls, hq, hdet, harr, hun⟩ := jaxVmap_inv hw hf ho hm hrl
        rw [hst, finishVmap_closed] at h
        obtain ⟨hmove, hout⟩ := h
        refine ⟨n, hn, ⟨hb, ?_⟩, ?_, ?_⟩
        rotate_left
        · by_cases hax : axisSize = Option.none
          · right
            have hne : m.leaves.filterMap Prod.snd ≠ [] := by
              intro he
              exact hsome ⟨by rw [leaves_withNones, he]; rfl, hax⟩
            obtain ⟨ax, hmem⟩ := List.exists_mem_of_ne_nil _ hne
            obtain ⟨x, hx, hx2⟩ := List.mem_filterMap.1 hmem
            obtain ⟨π, hπ⟩ := mem_leaves_iff.1 hx
            have := h3 π x hπ
            rw [hx2] at this
            exact ⟨π, ax, this⟩
          · left
            obtain ⟨k, hk⟩ := Option.ne_none_iff_exists'.1 hax
            rw [hk, hb k hk]
        rotate_left
        · intro π ax ha
          obtain ⟨l, hl, hl'⟩ := axes_of_tree h1 h3 ha
          obtain ⟨v, hv, hv'⟩ := hsz _ (mem_leaves_iff.2 ⟨π, hl'⟩) ax rfl
          exact ⟨v, by rw [hl, ← hv], hv'⟩
        · intro i hi
          refine ⟨laneList w ms i, q.map fun x => (x i).1, hlane i, hcalls i hi, ?_, ?_⟩
          · rw [sameStructure_iff, hout, shape_map, shape_map]
          · intro π l hl
            rw [leafAt?_map, Option.map_eq_some_iff] at hl
            obtain ⟨x, hx, rfl⟩ := hl
            have hmem := mem_leaves_iff.2 ⟨π, hx⟩
            have hA := hq i hi π x hx
            obtain ⟨d1, d2⟩ := hdet x hmem i hi
            cases hax : (x 0).2 with
            | none =>
              left
              rw [d1, hax] at hA
              refine ⟨hA, ?_⟩
              rw [hout, leafAt?_map, hx, hun x hmem hax i hi]
              simp [finalLeaf, hax]
            | some ax =>
              right
              rw [d1, hax] at hA
              obtain ⟨u, hu⟩ := hmove x hmem ax hax
              obtain ⟨v, hv⟩ := harr x hmem (by simp [hax]) i hi
              have hav : ∀ y ∈ lanesOf w n x, ∀ z ∈ lanesOf w n x, w.aval y = w.aval z := by
                have : ∀ y ∈ lanesOf w n x, w.aval y = w.aval (arrOf w (x 0).1) := by
                  intro y hy
                  simp only [lanesOf, List.mem_map, List.mem_range] at hy
                  obtain ⟨j, hj, rfl⟩ := hy
                  have := (hdet x hmem j hj).2
                  cases hj' : (x j).1 <;> cases h0' : (x 0).1 <;> rw [hj', h0'] at this <;> simp [abstract] at this
                  · simp [arrOf, asArr, this]
                  · rw [this]
                intro y hy z hz
                rw [this y hy, this z hz]
              have hne : lanesOf w n x ≠ [] := by
                intro he
                have := congrArg List.length he
                simp [lanesOf] at this
                omega
              have hsz0 := hw.stack_size (lanesOf w n x) hne hav
              have hlen : (lanesOf w n x).length = n := by simp [lanesOf]
              refine ⟨ax, u, v, hA, ?_, isArr_iff.2 hv, ?_, ?_⟩
              · rw [hout, leafAt?_map, hx]
                simp [finalLeaf, hax, hu]
              · rw [hw.move_size _ _ _ hu, hsz0, hlen]
              · rw [hw.slice_move _ _ _ i n hu (by rw [hsz0, hlen]) hi]
                apply hw.slice_stack _ _ _ hav
                simp only [lanesOf, List.getElem?_map, List.getElem?_range hi, Option.map_some, Option.some.injEq]
                exact arrOf_spec w _ _ hv

/-- C29. `filter_vmap` returns when it should: the axes fit, sizes agree, every lane succeeds, outputs with an axis
are arrays with room for that axis, and arrays without do not depend on the lane. -/
theorem filter_vmap_succeeds [DecidableEq K] {w : World K V A O} (hw : Lawful w) {tup : K} {f : Fn K V O}
    (hf : Traceable w f) {params : List String} {spec outAxes : PT K (AxSpec V O)} (ho : TraceableAxes w outAxes)
    {axisSize : Option Nat} {args : List (Val K V O)} {n : Nat} (hn : 0 < n)
    (hres : Resolvable spec (.node tup args)) (hb : IsBatch w spec axisSize (.node tup args) n)
    (hany : axisSize = some n ∨ ∃ π ax, AxisAt spec (.node tup args) π (some ax))
    (lanes : List (List (Val K V O))) (hlen : lanes.length = n)
    (hlanes : ∀ (i : Nat) l, lanes[i]? = some l → IsLane w spec (.node tup args) i (.node tup l))
    (hrun : ∀ l ∈ lanes, ∃ o, f l = .ok o ∧ Resolvable outAxes o ∧
      ∀ π l ax, o.leafAt? π = some l → AxisAt outAxes o π (some ax) → ∃ u, IsArr w l u)
    (hbat : ∀ l ∈ lanes, ∀ o π v, f l = .ok o → AxisAt outAxes o π Option.none → o.leafAt? π = some (.arr v) →
      w.batched f lanes π = false)
    (hmove : ∀ l ∈ lanes, ∀ o π x u us ax, f l = .ok o → AxisAt outAxes o π (some ax) → o.leafAt? π = some x →
      IsArr w x u → (∀ v ∈ us, w.aval v = w.aval u) → us.length = n →
      ∃ v, w.moveaxis (w.stack us) ax = .ok v) :
    ∃ out, filterVmap w tup f params (.tree spec) outAxes axisSize args [] = .ok out := by
  obtain ⟨axes, hr⟩ := resolveAxes_isOk hres
  obtain ⟨m, h1, h2, h3⟩ := resolveAxes_ok hr
  obtain ⟨ms, hm⟩ := node_of_map h1
  have hlaneEq : ∀ (i : Nat) l, lanes[i]? = some l → l = laneList w ms i := by
    intro i l hl
    obtain ⟨e1, e2⟩ := hlanes i l hl
    have : (PT.node tup l) = .node tup (laneList w ms i) := by
      rw [← lane_node, ← hm]
      apply eq_of_shape_leafAt?
      · rw [← sameStructure_iff.1 e1, ← h1, shape_map, shape_map]
      · intro π x y hx hy
        rw [leafAt?_map, Option.map_eq_some_iff] at hy
        obtain ⟨z, hz, rfl⟩ := hy
        obtain ⟨a, ha, ha'⟩ := e2 π z.1 (by rw [← h1, leafAt?_map, hz]; rfl)
        rw [hx] at ha'
        rw [Option.some.inj ha', axisAt_unique ha (h3 π z hz)]
    simpa using this
  have hlanesEq : lanes = (List.range n).map (laneList w ms) := by
    apply List.ext_getElem?
    intro i
    by_cases hi : i < n
    · obtain ⟨l, hl⟩ : ∃ l, lanes[i]? = some l := ⟨lanes[i]'(by omega), List.getElem?_eq_getElem (by omega)⟩
      rw [hl, hlaneEq i l hl, List.getElem?_map, List.getElem?_range hi]; rfl
    · rw [List.getElem?_eq_none (by omega), List.getElem?_eq_none (by simp; omega)]
  have hmem : ∀ i, i < n → laneList w ms i ∈ lanes := by
    intro i hi; rw [hlanesEq]; simp; exact ⟨i, hi, rfl⟩
  have hsz : ∀ x ∈ m.leaves, ∀ ax, x.2 = some ax → ∃ v, x.1 = .arr v ∧ w.size v ax = some n := by
    intro x hx ax hax
    obtain ⟨π, hπ⟩ := mem_leaves_iff.1 hx
    have ha := h3 π x hπ
    rw [hax] at ha
    obtain ⟨v, hv, hv'⟩ := hb.2 π ax ha
    rw [← h1, leafAt?_map, hπ] at hv
    exact ⟨v, by simpa using hv, hv'⟩
  -- the outcomes of the lanes
  have hper : ∀ i, i < n → ∃ mo : PT K (Leaf V O × Option Int), f (laneList w ms i) = .ok (mo.map Prod.fst) ∧
      (∀ π x, mo.leafAt? π = some x → AxisAt outAxes (mo.map Prod.fst) π x.2) ∧
      resolveAxes (mo.map Prod.fst) outAxes = .ok (withNones (mo.map Prod.snd)) ∧
      (∀ x ∈ mo.leaves, x.2.isSome → ∃ u, asArr w x.1 = .ok u) := by
    intro i hi
    obtain ⟨o, o1, o2, o3⟩ := hrun _ (hmem i hi)
    obtain ⟨r, hr'⟩ := resolveAxes_isOk o2
    obtain ⟨mo, g1, g2, g3⟩ := resolveAxes_ok hr'
    refine ⟨mo, by rw [g1, o1], by rw [g1]; exact g3, by rw [g1, hr', g2], ?_⟩
    intro x hx hs
    obtain ⟨π, hπ⟩ := mem_leaves_iff.1 hx
    obtain ⟨ax, hax⟩ := Option.isSome_iff_exists.1 hs
    have := g3 π x hπ
    rw [hax] at this
    obtain ⟨u, hu⟩ := o3 π x.1 ax (by rw [← g1, leafAt?_map, hπ]; rfl) this
    exact ⟨u, isArr_iff.1 hu⟩
  obtain ⟨mo0, _⟩ := hper 0 hn
  let pick : Nat → PT K (Leaf V O × Option Int) := fun i => if hi : i < n then (hper i hi).choose else mo0
  have hpick : ∀ i, i < n → _ := fun i hi => by
    have := (hper i hi).choose_spec
    have e : (hper i hi).choose = pick i := by simp only [pick, hi, dif_pos]
    rw [e] at this
    exact this
  have hsame : ∀ i, i < n → Alike w ((pick i).map Prod.fst) ((pick 0).map Prod.fst) := fun i hi =>
    hf _ _ _ _ (lanes_alike hw (hm ▸ hsz) i 0 hi hn) (hpick i hi).1 (hpick 0 hn).1
  obtain ⟨q, q2, hq, hpos, hqf, hdet⟩ := gather ho hn (fun i hi => (hpick i hi).2.1) hsame
  have harr : ∀ x ∈ q.leaves, (x 0).2.isSome → ∀ i, i < n → ∃ v, asArr w (x i).1 = .ok v := by
    intro x hx h0 i hi
    obtain ⟨π, hπ⟩ := hpos x hx
    apply (hpick i hi).2.2.2 (x i) (mem_leaves_iff.2 ⟨π, q2 π x hπ i hi⟩)
    rw [(hdet x hx i hi).1, h0]
  have hj := jaxVmap_isOk (w := w) (f := f) (outAxes := outAxes) (axisSize := axisSize) hm hn (q := q) hb.1 hsz (by
      rcases hany with h | ⟨π, ax, ha⟩
      · left; rw [h]; simp
      · right
        obtain ⟨l, _, hl⟩ := axes_of_tree h1 h3 ha
        exact ⟨_, mem_leaves_iff.2 ⟨π, hl⟩, rfl⟩)
    (fun i hi => by rw [(hpick i hi).1, hqf i hi])
    (fun i hi => by rw [← hqf i hi, (hpick i hi).2.2.1, ← hq i hi, map_map])
    (fun x hx i hi => (hdet x hx i hi).1) harr (by
      intro π x v hπ h0 hv
      rw [← hlanesEq]
      apply hbat _ (hmem 0 hn) _ π v (hpick 0 hn).1
      · have := (hpick 0 hn).2.1 π (x 0) (q2 π x hπ 0 hn)
        rwa [h0] at this
      · rw [leafAt?_map, q2 π x hπ 0 hn, ← hv]; rfl)
  have hfin := (finishVmap_closed w n q (out := _)).2 ⟨by
    intro x hx ax hax
    obtain ⟨π, hπ⟩ := hpos x hx
    have ha := (hpick 0 hn).2.1 π (x 0) (q2 π x hπ 0 hn)
    rw [hax] at ha
    obtain ⟨u, hu⟩ := harr x hx (by simp [hax]) 0 hn
    apply hmove _ (hmem 0 hn) _ π (x 0).1 u (lanesOf w n x) ax (hpick 0 hn).1 ha
      (by rw [leafAt?_map, q2 π x hπ 0 hn]; rfl) (isArr_iff.2 hu)
    · intro v hv
      simp only [lanesOf, List.mem_map, List.mem_range] at hv
      obtain ⟨j, hj, rfl⟩ := hv
      have hd := (hdet x hx j hj).2
      rw [← arrOf_spec w _ _ hu]
      cases hj' : (x j).1 <;> cases h0' : (x 0).1 <;> rw [hj', h0'] at hd <;> simp [abstract] at hd
      · simp [arrOf, asArr, hd]
      · rw [hd]
    · simp [lanesOf], rfl⟩
  refine ⟨q.map (finalLeaf w n), ?_⟩
  have hsplit := split_closed (V := V) (O := O) noLeaf m Prod.fst Prod.snd
  simp only [bind, Except.bind] at hsplit
  simp only [filterVmap, namedTree, bind, Except.bind, List.length_nil, ne_eq, not_true_eq_false, if_false, hr, h2]
  cases hnf : (noneFlags (withNones (m.map Prod.snd)) : Except Err (PT K (Filters.Spec K (Leaf V O)))) with
  | error e => rw [noneFlags_closed] at hnf; cases hnf
  | ok flags =>
    simp only [hnf] at hsplit
    rw [h1] at hsplit
    simp only [hsplit]
    rw [runLanes, if_neg, hj]
    · exact hfin
    · rintro ⟨e1, e2⟩
      rcases hany with h | ⟨π, ax, ha⟩
      · rw [e2] at h; cases h
      · obtain ⟨l, _, hl⟩ := axes_of_tree h1 h3 ha
        rw [leaves_withNones] at e1
        have : m.leaves.filterMap Prod.snd = [] := List.eq_nil_of_length_eq_zero e1
        rw [List.filterMap_eq_nil_iff] at this
        have := this _ (mem_leaves_iff.2 ⟨π, hl⟩)
        simp at this

end Verif.Vmap
