import Verif.Vmap.PmapLemmas
import Verif.Vmap.Example
/-! # Properties of `filter_pmap` (C31) -/

namespace Verif.Vmap

open PT Filters

variable {K V A O : Type}

theorem hasLane_final {w : World K V A O} (hw : Lawful w) {outAxes : PT K (AxSpec V O)}
    {q : PT K (Nat → Leaf V O × Option Int)} {n i : Nat} (hi : i < n)
    (hq : ∀ i, i < n → ∀ π x, q.leafAt? π = some x → AxisAt outAxes (q.map fun x => (x i).1) π (x i).2)
    (hdet : ∀ x ∈ q.leaves, ∀ i, i < n → (x i).2 = (x 0).2 ∧ abstract w (x i).1 = abstract w (x 0).1)
    (harr : ∀ x ∈ q.leaves, (x 0).2.isSome → ∀ i, i < n → ∃ v, asArr w (x i).1 = .ok v)
    (hun : ∀ x ∈ q.leaves, (x 0).2 = Option.none → ∀ i, i < n → (x i).1 = (x 0).1)
    (hmove : ∀ x ∈ q.leaves, ∀ ax, (x 0).2 = some ax → ∃ u, w.moveaxis (w.stack (lanesOf w n x)) ax = .ok u) :
    HasLane w outAxes n i (q.map fun x => (x i).1) (q.map (finalLeaf w n)) := by
  refine ⟨by rw [sameStructure_iff, shape_map, shape_map], ?_⟩
  intro π l hl
  rw [leafAt?_map, Option.map_eq_some_iff] at hl
  obtain ⟨x, hx, rfl⟩ := hl
  have hmem := mem_leaves_iff.2 ⟨π, hx⟩
  have hA := hq i hi π x hx
  obtain ⟨d1, d2⟩ := hdet x hmem i hi
  cases hax : (x 0).2 with
  | none =>
    left
    rw [d1, hax] at hA
    refine ⟨hA, ?_⟩
    rw [leafAt?_map, hx, hun x hmem hax i hi]
    simp [finalLeaf, hax]
  | some ax =>
    right
    rw [d1, hax] at hA
    obtain ⟨u, hu⟩ := hmove x hmem ax hax
    obtain ⟨v, hv⟩ := harr x hmem (by simp [hax]) i hi
    have hav : ∀ y ∈ lanesOf w n x, ∀ z ∈ lanesOf w n x, w.aval y = w.aval z := by
      have : ∀ y ∈ lanesOf w n x, w.aval y = w.aval (arrOf w (x 0).1) := by
        intro y hy
        simp only [lanesOf, List.mem_map, List.mem_range] at hy
        obtain ⟨j, hj, rfl⟩ := hy
        have := (hdet x hmem j hj).2
        cases hj' : (x j).1 <;> cases h0' : (x 0).1 <;> rw [hj', h0'] at this <;> simp [abstract] at this
        · simp [arrOf, asArr, this]
        · rw [this]
      intro y hy z hz
      rw [this y hy, this z hz]
    have hne : lanesOf w n x ≠ [] := by
      intro he
      have := congrArg List.length he
      simp [lanesOf] at this
      omega
    have hsz0 := hw.stack_size (lanesOf w n x) hne hav
    have hlen : (lanesOf w n x).length = n := by simp [lanesOf]
    refine ⟨ax, u, v, hA, ?_, isArr_iff.2 hv, ?_, ?_⟩
    · rw [leafAt?_map, hx]
      simp [finalLeaf, hax, hu]
    · rw [hw.move_size _ _ _ hu, hsz0, hlen]
    · rw [hw.slice_move _ _ _ i n hu (by rw [hsz0, hlen]) hi]
      apply hw.slice_stack _ _ _ hav
      simp only [lanesOf, List.getElem?_map, List.getElem?_range hi, Option.map_some, Option.some.injEq]
      exact arrOf_spec w _ _ hv

/-- Every array with an axis has size `n` along it, and so says `axis_size` if given. -/
def IsPmapBatch (w : World K V A O) (axes : PT K (AxSpec V O)) (axisSize : Option Nat) (t : Val K V O) (n : Nat) :
    Prop :=
  (∀ m, axisSize = some m → m = n) ∧
    ∀ π ax v, AxisAt axes t π (some ax) → t.leafAt? π = some (.arr v) → w.size v ax = some n

/-- The axis exists in some output once the mapped axis is added. -/
def AxisInRange (w : World K V A O) (ndim : V → Nat) (o : Val K V O) (ax : Int) : Prop :=
  ∃ π l v, o.leafAt? π = some l ∧ IsArr w l v ∧ -((ndim v : Int) + 1) ≤ ax ∧ ax < (ndim v : Int) + 1

theorem foldl_max (g : V → Nat) (L : List V) (b k : Nat) :
    k < L.foldl (fun m v => max m (g v)) b ↔ k < b ∨ ∃ v ∈ L, k < g v := by
  induction L generalizing b with
  | nil => simp
  | cons x L ih =>
    rw [List.foldl_cons, ih]
    simp only [List.mem_cons]
    constructor
    · rintro (h | ⟨v, hv, h⟩)
      · by_cases hb : k < b
        · exact .inl hb
        · exact .inr ⟨x, .inl rfl, by omega⟩
      · exact .inr ⟨v, .inr hv, h⟩
    · rintro (h | ⟨v, rfl | hv, h⟩)
      · exact .inl (by omega)
      · exact .inl (by omega)
      · exact .inr ⟨v, hv, h⟩

theorem mem_axisRange_max (w : World K V A O) (ndim : V → Nat) (o : Val K V O) (ax : Int) :
    ax ∈ axisRange (maxOutSize w ndim o) ↔ AxisInRange w ndim o ax := by
  obtain ⟨k, hk⟩ : ∃ k : Nat, ∀ M : Nat, (-(M : Int) ≤ ax ∧ ax < M) ↔ k < M := by
    by_cases h : 0 ≤ ax
    · exact ⟨ax.toNat, fun M => by omega⟩
    · exact ⟨(-ax - 1).toNat, fun M => by omega⟩
  rw [mem_axisRange, hk, maxOutSize, foldl_max]
  simp only [Nat.not_lt_zero, false_or, List.mem_filterMap]
  constructor
  · rintro ⟨v, ⟨l, hl, hv⟩, h⟩
    obtain ⟨π, hπ⟩ := mem_leaves_iff.1 hl
    refine ⟨π, l, v, hπ, ?_, ?_⟩
    · rw [isArr_iff]
      cases ha : asArr w l with
      | error e => simp [ha, Except.toOption] at hv
      | ok u => simp [ha, Except.toOption] at hv; rw [hv]
    · have := (hk (ndim v + 1)).2 h
      omega
  · rintro ⟨π, l, v, hπ, hv, h⟩
    refine ⟨v, ⟨l, mem_leaves_iff.2 ⟨π, hπ⟩, by simp [isArr_iff.1 hv, Except.toOption]⟩, ?_⟩
    apply (hk (ndim v + 1)).1
    omega

theorem maxOutSize_alike {w : World K V A O} {ndim : V → Nat} (hnd : ∀ u v, w.aval u = w.aval v → ndim u = ndim v)
    {o o' : Val K V O} (h : Alike w o o') : maxOutSize w ndim o = maxOutSize w ndim o' := by
  have key : ∀ (L L' : List (Leaf V O)), L.map (abstract w) = L'.map (abstract w) →
      (L.filterMap fun l => (asArr w l).toOption).map ndim = (L'.filterMap fun l => (asArr w l).toOption).map ndim := by
    intro L
    induction L with
    | nil => intro L' h; simp at h; subst h; rfl
    | cons x L ih =>
      intro L' h
      cases L' with
      | nil => simp at h
      | cons y L' =>
        simp only [List.map_cons, List.cons.injEq] at h
        have := ih L' h.2
        cases x with
        | arr u =>
          cases y with
          | obj o => simp [abstract] at h
          | arr v =>
            simp only [abstract, Sum.inl.injEq] at h
            have e : ∀ u : V, (asArr w (.arr u : Leaf V O)).toOption = some u := fun _ => rfl
            simp only [List.filterMap_cons, e, List.map_cons, this, hnd u v h.1]
        | obj a =>
          cases y with
          | arr v => simp [abstract] at h
          | obj b =>
            simp only [abstract, Sum.inr.injEq] at h
            rw [h.1]
            simp only [List.filterMap_cons]
            cases (asArr w (.obj b)).toOption <;> simp [this]
  have h' := congrArg leaves h
  rw [leaves_map, leaves_map] at h'
  have := key _ _ h'
  have e : ∀ (L : List V) b, L.foldl (fun m v => max m (ndim v + 1)) b = (L.map ndim).foldl (fun m k => max m (k + 1)) b := by
    intro L b
    rw [List.foldl_map]
  rw [maxOutSize, maxOutSize, e, e, this]

theorem pmap_lanes_alike {w : World K V A O} (hw : Lawful w) {n : Nat} {tup : K}
    {ms : List (PT K (Leaf V O × Option Int))}
    (hsz : ∀ x ∈ (PT.node tup ms).leaves, ∀ v ax, x = (.arr v, some ax) → w.size v ax = some n) (i j : Nat)
    (hi : i < n) (hj : j < n) :
    (laneList w ms i).map (PT.map (abstract w)) = (laneList w ms j).map (PT.map (abstract w)) := by
  have key : ((PT.node tup ms).map fun x => inLane w i x.1 x.2).map (abstract w) =
      ((PT.node tup ms).map fun x => inLane w j x.1 x.2).map (abstract w) := by
    rw [map_map, map_map]
    apply map_congr_leaves
    rintro ⟨l, a⟩ hx
    cases a with
    | none => rfl
    | some ax =>
      cases l with
      | obj o => rfl
      | arr v =>
        simp only [inLane, sliceLeaf, abstract]
        rw [hw.slice_aval v ax n i j (hsz _ hx v ax rfl) hi hj]
  rw [lane_node, lane_node] at key
  simpa [PT.map, mapL_eq] using key

theorem mapE_map {X Y Z : Type} (g : Y → Except Err Z) (h : X → Y) (L : List X) :
    mapE g (L.map h) = mapE (fun x => g (h x)) L := by
  induction L with
  | nil => rfl
  | cons x L ih => simp only [List.map_cons, mapE, ih]

/-- What is left once the inputs are sliced. -/
theorem filterPmap_start [DecidableEq K] {w : World K V A O} {ndim : V → Nat} {tup : K} {f : Fn K V O}
    {params : List String} {spec outAxes : PT K (AxSpec V O)} {axisSize : Option Nat} {args : List (Val K V O)}
    {m : PT K (Leaf V O × Option Int)} {ms : List (PT K (Leaf V O × Option Int))} (hm : m = .node tup ms)
    (h1 : m.map Prod.fst = .node tup args)
    (hr : resolveAxes (.node tup args) spec = .ok (withNones (m.map Prod.snd))) :
    filterPmap w ndim tup f params (.tree spec) outAxes axisSize args [] = (do
      let sizes ← pmapSizes w (withNones (m.map Prod.snd)) (withNones (m.map fun x => dynL x.1))
      let n ← batchSize axisSize sizes
      let outs ← mapE (fun i => f (laneList w ms i)) (List.range n)
      pmapOutputs w ndim (w.batched f ((List.range n).map (laneList w ms))) outAxes outs) := by
  have hin := inputs_closed m
  rw [h1] at hin
  simp only [filterPmap, namedTree, bind, Except.bind, List.length_nil, ne_eq, not_true_eq_false, if_false, hr, hin]
  cases pmapSizes w (withNones (m.map Prod.snd)) (withNones (m.map fun x => dynL x.1)) with
  | error e => rfl
  | ok sizes =>
    simp only
    cases batchSize axisSize sizes with
    | error e => rfl
    | ok n =>
      simp only
      have hl : mapE (pmapLane w (withNones (m.map Prod.snd)) (withNones (m.map fun x => dynL x.1))) (List.range n) =
          .ok ((List.range n).map fun i => withNones (m.map fun x => (dynL x.1).map fun l => inLane w i l x.2)) := by
        rw [mapE_ok]
        refine ⟨by simp, ?_⟩
        intro j i hj
        exact ⟨_, by rw [List.getElem?_map, hj]; rfl, pmapLane_closed w m i⟩
      have hc : ∀ i, Filters.combine noLeaf [withNones (m.map fun x => (dynL x.1).map fun l => inLane w i l x.2),
          withNones (m.map fun x => staticL x.1)] = .ok (.node tup (laneList w ms i)) := by
        intro i
        rw [pmap_combine, ← lane_node, ← hm]
      have hcall : mapE (pmapCall f (withNones (m.map fun x => staticL x.1)))
          ((List.range n).map fun i => withNones (m.map fun x => (dynL x.1).map fun l => inLane w i l x.2)) =
          mapE (fun i => f (laneList w ms i)) (List.range n) := by
        rw [mapE_map]
        congr 1
        funext i
        simp only [pmapCall, hc, bind, Except.bind, applyTuple]
      have hfull : fullLanes (withNones (m.map fun x => staticL x.1))
          ((List.range n).map fun i => withNones (m.map fun x => (dynL x.1).map fun l => inLane w i l x.2)) =
          (List.range n).map (laneList w ms) := by
        rw [fullLanes, List.filterMap_map]
        rw [← List.filterMap_eq_map]
        congr 1
        funext i
        simp only [Function.comp, hc]
      simp only [hl, hcall, hfull]

theorem isLane_laneList (w : World K V A O) {spec : PT K (AxSpec V O)} {tup : K} {args : List (Val K V O)}
    {m : PT K (Leaf V O × Option Int)} {ms : List (PT K (Leaf V O × Option Int))} (hm : m = .node tup ms)
    (h1 : m.map Prod.fst = .node tup args)
    (h3 : ∀ π x, m.leafAt? π = some x → AxisAt spec (.node tup args) π x.2) (i : Nat) :
    IsLane w spec (.node tup args) i (.node tup (laneList w ms i)) := by
  rw [← lane_node, ← hm, ← h1]
  refine ⟨by rw [sameStructure_iff, shape_map, shape_map], ?_⟩
  intro π l hl
  rw [leafAt?_map, Option.map_eq_some_iff] at hl
  obtain ⟨x, hx, rfl⟩ := hl
  exact ⟨x.2, by rw [h1]; exact h3 π x hx, by simp [leafAt?_map, hx]⟩

/-- C31. When `filter_pmap` returns, the function was called on every lane of the arguments, and the result has the
outcome of each call as a lane: the same tree, every leaf once, at the axis asked for. All axes exist. -/
theorem filter_pmap_lanes [DecidableEq K] {w : World K V A O} (hw : Lawful w) {ndim : V → Nat}
    (hnd : ∀ u v, w.aval u = w.aval v → ndim u = ndim v) {tup : K} {f : Fn K V O}
    (hf : Traceable w f) {params : List String} {spec outAxes : PT K (AxSpec V O)} (ho : TraceableAxes w outAxes)
    {axisSize : Option Nat} {args : List (Val K V O)} {kwargs : List String} {out : Val K V O}
    (h : filterPmap w ndim tup f params (.tree spec) outAxes axisSize args kwargs = .ok out) :
    kwargs = [] ∧ ∃ n, 0 < n ∧ IsPmapBatch w spec axisSize (.node tup args) n ∧ ∀ i, i < n → ∃ args' o,
       IsLane w spec (.node tup args) i (.node tup args') ∧ f args' = .ok o ∧ HasLane w outAxes n i o out ∧
       ∀ π ax, AxisAt outAxes o π (some ax) → AxisInRange w ndim o ax := by
  have hk : kwargs = [] := by
    rw [filterPmap] at h
    split at h
    · cases h
    rename_i hk
    simpa using hk
  subst hk
  refine ⟨rfl, ?_⟩
  cases hr : resolveAxes (.node tup args) spec with
  | error e => simp [filterPmap, namedTree, hr, bind, Except.bind] at h
  | ok axes =>
    obtain ⟨m, h1, h2, h3⟩ := resolveAxes_ok hr
    obtain ⟨ms, hm⟩ := node_of_map h1
    rw [h2] at hr
    rw [filterPmap_start hm h1 hr] at h
    simp only [bind, Except.bind] at h
    cases hs : pmapSizes w (withNones (m.map Prod.snd)) (withNones (m.map fun x => dynL x.1)) with
    | error e => simp [hs] at h
    | ok sizes =>
      obtain ⟨p1, p2⟩ := pmapSizes_closed w m
      have hsome := p2 _ hs
      have hsizes := p1 hsome
      rw [hs] at hsizes
      have hsizes := Except.ok.inj hsizes
      simp only [hs] at h
      cases hn : batchSize axisSize sizes with
      | error e => simp [hn] at h
      | ok n =>
        obtain ⟨hb1, hb2⟩ := batchSize_ok hn
        have hsz : ∀ x ∈ m.leaves, ∀ v ax, x = (.arr v, some ax) → w.size v ax = some n := by
          rintro x hx v ax rfl
          obtain ⟨k, hk⟩ := Option.isSome_iff_exists.1 (hsome _ hx v ax rfl)
          have : k ∈ sizes := by
            rw [hsizes, List.mem_filterMap]
            exact ⟨_, hx, hk⟩
          rw [hk, hb2 k this]
        simp only [hn] at h
        cases houts : mapE (fun i => f (laneList w ms i)) (List.range n) with
        | error e => simp [houts] at h
        | ok outs =>
          simp only [houts] at h
          unfold pmapOutputs at h
          split at h
          · cases h
          rename_i o os
          simp only [bind, Except.bind] at h
          cases hrs : mapE (pmapSplit (maxOutSize w ndim o) outAxes) (o :: os) with
          | error e => simp [hrs] at h
          | ok rs =>
            simp only [hrs] at h
            have hlen : (o :: os).length = n := by simpa using (mapE_ok.1 houts).1
            have hn0 : 0 < n := by simp at hlen; omega
            have hlane : ∀ i, i < n → ∃ mo : PT K (Leaf V O × Option Int),
                f (laneList w ms i) = .ok (mo.map Prod.fst) ∧
                (∀ π x, mo.leafAt? π = some x → AxisAt outAxes (mo.map Prod.fst) π x.2) ∧
                (∀ x ∈ mo.leaves, ∀ ax, x.2 = some ax → ax ∈ axisRange (maxOutSize w ndim o)) ∧
                (o :: os)[i]? = some (mo.map Prod.fst) ∧
                rs[i]? = some (splitOut (maxOutSize w ndim o) mo Prod.fst Prod.snd) := by
              intro i hi
              obtain ⟨oi, e1, e2⟩ := (mapE_ok.1 houts).2 i i (List.getElem?_range hi)
              obtain ⟨ri, g1, g2⟩ := (mapE_ok.1 hrs).2 i oi e1
              obtain ⟨mo, f1, f2, f3, f4⟩ := pmapSplit_inv g2
              subst f1
              exact ⟨mo, e2, f2, f3, e1, by rw [g1, f4]⟩
            obtain ⟨mo0, a0⟩ := hlane 0 hn0
            let pick : Nat → PT K (Leaf V O × Option Int) := fun i =>
              if hi : i < n then (hlane i hi).choose else mo0
            have hpick : ∀ i, i < n → f (laneList w ms i) = .ok ((pick i).map Prod.fst) ∧
                (∀ π x, (pick i).leafAt? π = some x → AxisAt outAxes ((pick i).map Prod.fst) π x.2) ∧
                (∀ x ∈ (pick i).leaves, ∀ ax, x.2 = some ax → ax ∈ axisRange (maxOutSize w ndim o)) ∧
                (o :: os)[i]? = some ((pick i).map Prod.fst) ∧
                rs[i]? = some (splitOut (maxOutSize w ndim o) (pick i) Prod.fst Prod.snd) := by
              intro i hi
              simp only [pick, hi, dif_pos]
              exact (hlane i hi).choose_spec
            have hsame : ∀ i, i < n → Alike w ((pick i).map Prod.fst) ((pick 0).map Prod.fst) := fun i hi =>
              hf _ _ _ _ (pmap_lanes_alike hw (hm ▸ hsz) i 0 hi hn0) (hpick i hi).1 (hpick 0 hn0).1
            obtain ⟨q, q2, hq, hpos, hqf, hdet⟩ := gather ho hn0 (fun i hi => (hpick i hi).2.1) hsame
            have hrseq : rs = (List.range n).map fun i =>
                splitOut (maxOutSize w ndim o) q (fun x => (x i).1) (fun x => (x i).2) := by
              apply List.ext_getElem?
              intro i
              by_cases hi : i < n
              · rw [(hpick i hi).2.2.2.2, List.getElem?_map, List.getElem?_range hi]
                simp only [Option.map_some, ← hq i hi, splitOut_map]
              · rw [List.getElem?_eq_none, List.getElem?_eq_none]
                · simp; omega
                · have := (mapE_ok.1 hrs).1
                  omega
            rw [hrseq] at h
            cases hcol : collect w (maxOutSize w ndim o) (w.batched f ((List.range n).map (laneList w ms)))
                ((List.range n).map fun i =>
                  splitOut (maxOutSize w ndim o) q (fun x => (x i).1) (fun x => (x i).2)) with
            | error e => simp [hcol] at h
            | ok r =>
              obtain ⟨c1, c2, c3⟩ := (collect_closed w _ _ q n hn0 (fun x hx i hi => (hdet x hx i hi).1)).1 hcol
              have hrange : ∀ x ∈ q.leaves, ∀ ax, (x 0).2 = some ax → ax ∈ axisRange (maxOutSize w ndim o) := by
                intro x hx ax h0
                obtain ⟨π, hπ⟩ := hpos x hx
                exact (hpick 0 hn0).2.2.1 (x 0) (mem_leaves_iff.2 ⟨π, q2 π x hπ 0 hn0⟩) ax h0
              simp only [hcol] at h
              rw [c3, pmapPostprocess_closed w n _ q hrange] at h
              have hout := (Except.ok.inj h).symm
              have hrun : mapE f ((List.range n).map (laneList w ms)) =
                  .ok ((List.range n).map fun i => q.map fun x => (x i).1) := by
                rw [mapE_ok]
                refine ⟨by simp, ?_⟩
                intro j y hj
                have hj' : j < n := by
                  have := (List.getElem?_eq_some_iff.1 hj).1
                  simpa using this
                rw [List.getElem?_map, List.getElem?_range hj'] at hj
                simp only [Option.map_some, Option.some.injEq] at hj
                subst hj
                refine ⟨_, by rw [List.getElem?_map, List.getElem?_range hj']; rfl, ?_⟩
                rw [(hpick j hj').1, hqf j hj']
              have hun : ∀ x ∈ q.leaves, (x 0).2 = Option.none → ∀ i, i < n → (x i).1 = (x 0).1 := by
                intro x hx h0 i hi
                obtain ⟨π, hπ⟩ := hpos x hx
                have hd := (hdet x hx i hi).2
                cases h0' : (x 0).1 with
                | obj b =>
                  rw [h0'] at hd
                  cases hi' : (x i).1 with
                  | arr v => rw [hi'] at hd; simp [abstract] at hd
                  | obj b' => rw [hi'] at hd; simp [abstract] at hd; rw [hd]
                | arr v =>
                  have hb := c1 π x hπ h0 ⟨v, h0'⟩
                  have := hw.batched_sound f _ _ π hrun hb (q.map fun x => (x i).1)
                    (List.mem_map.2 ⟨i, by simpa using hi, rfl⟩) (q.map fun x => (x 0).1)
                    (List.mem_map.2 ⟨0, by simpa using hn0, rfl⟩)
                  rw [leafAt?_map, leafAt?_map, hπ] at this
                  rw [← h0']
                  simpa using this
              refine ⟨n, hn0, ⟨hb1, ?_⟩, ?_⟩
              · intro π ax v ha hv
                obtain ⟨l, hl, hl'⟩ := axes_of_tree h1 h3 ha
                rw [hl] at hv
                cases hv
                exact hsz _ (mem_leaves_iff.2 ⟨π, hl'⟩) v ax rfl
              · intro i hi
                refine ⟨laneList w ms i, q.map fun x => (x i).1, isLane_laneList w hm h1 h3 i, ?_, ?_, ?_⟩
                · rw [(hpick i hi).1, hqf i hi]
                · rw [hout]
                  apply hasLane_final hw hi _ hdet _ hun
                  · intro x hx ax h0
                    exact (c2 x hx ax h0 (hrange x hx ax h0)).2
                  · intro j hj π x hx
                    have := (hpick j hj).2.1 π (x j) (q2 π x hx j hj)
                    rwa [hqf j hj] at this
                  · intro x hx h0 j hj
                    obtain ⟨ax, hax⟩ := Option.isSome_iff_exists.1 h0
                    exact (c2 x hx ax hax (hrange x hx ax hax)).1 j hj
                · intro π ax ha
                  rw [← hqf i hi] at ha
                  obtain ⟨l, hl, hl'⟩ := axes_of_tree rfl (hpick i hi).2.1 ha
                  have hmem := (hpick i hi).2.2.1 _ (mem_leaves_iff.2 ⟨π, hl'⟩) ax rfl
                  have ho0 : o = (pick 0).map Prod.fst := by
                    have := (hpick 0 hn0).2.2.2.1
                    simpa using this
                  rw [ho0, ← maxOutSize_alike hnd (hsame i hi), mem_axisRange_max, hqf i hi] at hmem
                  exact hmem

/-- C31. Keyword arguments are refused. -/
theorem filter_pmap_kwargs [DecidableEq K] (w : World K V A O) (ndim : V → Nat) (tup : K) (f : Fn K V O)
    (params : List String) (inAxes : InAxes K V O) (outAxes : PT K (AxSpec V O)) (axisSize : Option Nat)
    (args : List (Val K V O)) {kwargs : List String} (h : kwargs ≠ []) :
    filterPmap w ndim tup f params inAxes outAxes axisSize args kwargs = .error .runtimeError := by
  rw [filterPmap, if_pos]
  simpa using h

theorem pmap_setup [DecidableEq K] {w : World K V A O} (hw : Lawful w) {ndim : V → Nat} {tup : K} {f : Fn K V O}
    {params : List String} {spec outAxes : PT K (AxSpec V O)} {axisSize : Option Nat} {args : List (Val K V O)} {n : Nat}
    (hres : Resolvable spec (.node tup args)) (hb : IsPmapBatch w spec axisSize (.node tup args) n)
    (hany : axisSize = some n ∨ ∃ π ax v, AxisAt spec (.node tup args) π (some ax) ∧
      (PT.node tup args).leafAt? π = some (.arr v))
    {lanes : List (List (Val K V O))} (hlen : lanes.length = n)
    (hlanes : ∀ (i : Nat) l, lanes[i]? = some l → IsLane w spec (.node tup args) i (.node tup l))
    {outs : List (Val K V O)} (hrun : mapE f lanes = .ok outs) :
    filterPmap w ndim tup f params (.tree spec) outAxes axisSize args [] =
      pmapOutputs w ndim (w.batched f lanes) outAxes outs ∧
    ∀ l ∈ lanes, ∀ l' ∈ lanes, l.map (PT.map (abstract w)) = l'.map (PT.map (abstract w)) := by
  obtain ⟨axes, hr⟩ := resolveAxes_isOk hres
  obtain ⟨m, h1, h2, h3⟩ := resolveAxes_ok hr
  obtain ⟨ms, hm⟩ := node_of_map h1
  rw [h2] at hr
  have hlaneEq : ∀ (i : Nat) l, lanes[i]? = some l → l = laneList w ms i := by
    intro i l hl
    obtain ⟨e1, e2⟩ := hlanes i l hl
    have : (PT.node tup l) = .node tup (laneList w ms i) := by
      rw [← lane_node, ← hm]
      apply eq_of_shape_leafAt?
      · rw [← sameStructure_iff.1 e1, ← h1, shape_map, shape_map]
      · intro π x y hx hy
        rw [leafAt?_map, Option.map_eq_some_iff] at hy
        obtain ⟨z, hz, rfl⟩ := hy
        obtain ⟨a, ha, ha'⟩ := e2 π z.1 (by rw [← h1, leafAt?_map, hz]; rfl)
        rw [hx] at ha'
        rw [Option.some.inj ha', axisAt_unique ha (h3 π z hz)]
    simpa using this
  have hlanesEq : lanes = (List.range n).map (laneList w ms) := by
    apply List.ext_getElem?
    intro i
    by_cases hi : i < n
    · obtain ⟨l, hl⟩ : ∃ l, lanes[i]? = some l := ⟨lanes[i]'(by omega), List.getElem?_eq_getElem (by omega)⟩
      rw [hl, hlaneEq i l hl, List.getElem?_map, List.getElem?_range hi]; rfl
    · rw [List.getElem?_eq_none (by omega), List.getElem?_eq_none (by simp; omega)]
  have hsz : ∀ x ∈ m.leaves, ∀ v ax, x = (.arr v, some ax) → w.size v ax = some n := by
    rintro x hx v ax rfl
    obtain ⟨π, hπ⟩ := mem_leaves_iff.1 hx
    have ha := h3 π _ hπ
    exact hb.2 π ax v ha (by rw [← h1, leafAt?_map, hπ]; rfl)
  constructor
  · rw [filterPmap_start hm h1 hr, (pmapSizes_closed w m).1 (fun x hx v ax e => by rw [hsz x hx v ax e]; rfl)]
    have hbs : batchSize axisSize (m.leaves.filterMap (sizeOf? w)) = .ok n := by
      apply batchSize_isOk hb.1
      · intro s hs
        rw [List.mem_filterMap] at hs
        obtain ⟨⟨l, a⟩, hx, hs⟩ := hs
        cases l with
        | obj o => simp [sizeOf?] at hs
        | arr v => cases a with
          | none => simp [sizeOf?] at hs
          | some ax =>
            rw [sizeOf?, hsz _ hx v ax rfl] at hs
            exact (Option.some.inj hs).symm
      · rcases hany with h | ⟨π, ax, v, ha, hv⟩
        · left; rw [h]; simp
        · right
          obtain ⟨l, hl, hl'⟩ := axes_of_tree h1 h3 ha
          rw [hl] at hv
          cases hv
          have hmem := mem_leaves_iff.2 ⟨π, hl'⟩
          intro h0
          rw [List.filterMap_eq_nil_iff] at h0
          have := h0 _ hmem
          rw [sizeOf?, hsz _ hmem v ax rfl] at this
          cases this
    simp only [hbs, bind, Except.bind]
    have : mapE (fun i => f (laneList w ms i)) (List.range n) = .ok outs := by
      rw [← mapE_map, ← hlanesEq, hrun]
    simp only [this]
    rw [← hlanesEq]
  · intro l hl l' hl'
    rw [hlanesEq, List.mem_map] at hl hl'
    obtain ⟨i, hi, rfl⟩ := hl
    obtain ⟨j, hj, rfl⟩ := hl'
    exact pmap_lanes_alike hw (hm ▸ hsz) i j (by simpa using hi) (by simpa using hj)

/-- C31. An axis in `out_axes` which no output has is refused. -/
theorem filter_pmap_axis_range [DecidableEq K] {w : World K V A O} (hw : Lawful w) {ndim : V → Nat}
    (hnd : ∀ u v, w.aval u = w.aval v → ndim u = ndim v) {tup : K} {f : Fn K V O} (hf : Traceable w f)
    {params : List String} {spec outAxes : PT K (AxSpec V O)} {axisSize : Option Nat} {args : List (Val K V O)} {n : Nat}
    (hres : Resolvable spec (.node tup args)) (hb : IsPmapBatch w spec axisSize (.node tup args) n)
    (hany : axisSize = some n ∨ ∃ π ax v, AxisAt spec (.node tup args) π (some ax) ∧
      (PT.node tup args).leafAt? π = some (.arr v))
    (lanes : List (List (Val K V O))) (hlen : lanes.length = n)
    (hlanes : ∀ (i : Nat) l, lanes[i]? = some l → IsLane w spec (.node tup args) i (.node tup l))
    (hrun : ∀ l ∈ lanes, ∃ o, f l = .ok o ∧ Resolvable outAxes o)
    {l : List (Val K V O)} (hl : l ∈ lanes) {o : Val K V O} (ho : f l = .ok o) {π : List Nat} {ax : Int}
    (ha : AxisAt outAxes o π (some ax)) (hbad : ¬ AxisInRange w ndim o ax) :
    filterPmap w ndim tup f params (.tree spec) outAxes axisSize args [] = .error .valueError := by
  have hE : ∀ L : List (List (Val K V O)), (∀ l ∈ L, ∃ o, f l = .ok o ∧ Resolvable outAxes o) →
      ∃ outs, mapE f L = .ok outs := by
    intro L
    induction L with
    | nil => intro _; exact ⟨[], rfl⟩
    | cons x L ih =>
      intro h
      obtain ⟨o, h1, _⟩ := h x (by simp)
      obtain ⟨os, h2⟩ := ih (fun l hl => h l (by simp [hl]))
      exact ⟨o :: os, by simp [mapE, h1, h2, bind, Except.bind, pure, Except.pure]⟩
  obtain ⟨outs, houts⟩ := hE lanes hrun
  obtain ⟨e1, e2⟩ := pmap_setup (ndim := ndim) (params := params) (outAxes := outAxes) hw hres hb hany hlen hlanes houts
  rw [e1]
  obtain ⟨j, hj⟩ := List.getElem?_of_mem hl
  obtain ⟨o', ho', ho''⟩ := (mapE_ok.1 houts).2 j l hj
  have : o' = o := by rw [ho] at ho''; exact (Except.ok.inj ho'').symm
  subst this
  have hmemo : ∀ y ∈ outs, ∃ l' ∈ lanes, f l' = .ok y := by
    intro y hy
    obtain ⟨k, hk⟩ := List.getElem?_of_mem hy
    have hlt : k < lanes.length := by
      have := (List.getElem?_eq_some_iff.1 hk).1
      rw [(mapE_ok.1 houts).1] at this
      exact this
    obtain ⟨y', h1, h2⟩ := (mapE_ok.1 houts).2 k _ (List.getElem?_eq_getElem hlt)
    rw [hk] at h1
    cases h1
    exact ⟨_, List.getElem_mem _, h2⟩
  have hmax : ∀ y ∈ outs, maxOutSize w ndim y = maxOutSize w ndim o' := by
    intro y hy
    obtain ⟨l', hl', hy'⟩ := hmemo y hy
    exact maxOutSize_alike hnd (hf l' l y o' (e2 l' hl' l hl) hy' ho)
  unfold pmapOutputs
  split
  · simp at ho'
  · rename_i o0 os
    rw [hmax o0 (by simp)]
    have hsp : ∀ y ∈ o0 :: os, (∃ r, pmapSplit (maxOutSize w ndim o') outAxes y = .ok r) ∨
        pmapSplit (maxOutSize w ndim o') outAxes y = .error .valueError := by
      intro y hy
      obtain ⟨l', hl', hy'⟩ := hmemo y hy
      obtain ⟨y', g1, g2⟩ := hrun l' hl'
      rw [hy'] at g1
      cases g1
      obtain ⟨axes, hr⟩ := resolveAxes_isOk g2
      obtain ⟨m, h1, h2, h3⟩ := resolveAxes_ok hr
      rw [h2, ← h1] at hr
      obtain ⟨p1, p2⟩ := pmapSplit_closed (maxOutSize w ndim o') hr
      rw [h1] at p1 p2
      by_cases hall : ∀ x ∈ m.leaves, ∀ i, x.2 = some i → i ∈ axisRange (maxOutSize w ndim o')
      · exact .inl ⟨_, p1 hall⟩
      · exact .inr (p2 hall)
    have hthis : pmapSplit (maxOutSize w ndim o') outAxes o' = .error .valueError := by
      rcases hsp o' (List.mem_of_getElem? ho') with ⟨r, hr⟩ | h
      · obtain ⟨m, h1, h2, h3, _⟩ := pmapSplit_inv hr
        obtain ⟨x, _, hx⟩ := axes_of_tree h1 h2 ha
        exact absurd ((mem_axisRange_max w ndim o' ax).1 (h3 _ (mem_leaves_iff.2 ⟨π, hx⟩) ax rfl)) hbad
      · exact h
    have hmap : ∀ L : List (Val K V O), (∀ y ∈ L, (∃ r, pmapSplit (maxOutSize w ndim o') outAxes y = .ok r) ∨
        pmapSplit (maxOutSize w ndim o') outAxes y = .error .valueError) → o' ∈ L →
        mapE (pmapSplit (maxOutSize w ndim o') outAxes) L = .error .valueError := by
      intro L
      induction L with
      | nil => intro _ h; simp at h
      | cons y L ih =>
        intro h hm
        rcases h y (by simp) with ⟨r, hr⟩ | hr
        · have hm' : o' ∈ L := by
            rcases List.mem_cons.1 hm with rfl | h
            · rw [hr] at hthis; cases hthis
            · exact h
          simp [mapE, hr, ih (fun z hz => h z (by simp [hz])) hm', bind, Except.bind]
        · simp [mapE, hr, bind, Except.bind]
    rw [hmap _ hsp (List.mem_of_getElem? ho')]
    rfl

/-- C31. `filter_pmap` returns when it should. -/
theorem filter_pmap_succeeds [DecidableEq K] {w : World K V A O} (hw : Lawful w) {ndim : V → Nat}
    (hnd : ∀ u v, w.aval u = w.aval v → ndim u = ndim v) {tup : K} {f : Fn K V O}
    (hf : Traceable w f) {params : List String} {spec outAxes : PT K (AxSpec V O)} (hoa : TraceableAxes w outAxes)
    {axisSize : Option Nat} {args : List (Val K V O)} {n : Nat} (hn : 0 < n)
    (hres : Resolvable spec (.node tup args)) (hb : IsPmapBatch w spec axisSize (.node tup args) n)
    (hany : axisSize = some n ∨ ∃ π ax v, AxisAt spec (.node tup args) π (some ax) ∧
      (PT.node tup args).leafAt? π = some (.arr v))
    (lanes : List (List (Val K V O))) (hlen : lanes.length = n)
    (hlanes : ∀ (i : Nat) l, lanes[i]? = some l → IsLane w spec (.node tup args) i (.node tup l))
    (hrun : ∀ l ∈ lanes, ∃ o, f l = .ok o ∧ Resolvable outAxes o ∧
      ∀ π l ax, o.leafAt? π = some l → AxisAt outAxes o π (some ax) →
        AxisInRange w ndim o ax ∧ ∃ u, IsArr w l u)
    (hbat : ∀ l ∈ lanes, ∀ o π, f l = .ok o → AxisAt outAxes o π Option.none → w.batched f lanes π = false)
    (hmove : ∀ l ∈ lanes, ∀ o π x u us ax, f l = .ok o → AxisAt outAxes o π (some ax) → o.leafAt? π = some x →
      IsArr w x u → (∀ v ∈ us, w.aval v = w.aval u) → us.length = n →
      ∃ v, w.moveaxis (w.stack us) ax = .ok v) :
    ∃ out, filterPmap w ndim tup f params (.tree spec) outAxes axisSize args [] = .ok out := by
  have hget : ∀ i, i < n → ∃ l, lanes[i]? = some l ∧ l ∈ lanes := fun i hi =>
    ⟨lanes[i]'(by omega), List.getElem?_eq_getElem (by omega), List.getElem_mem _⟩
  have hper : ∀ i, i < n → ∃ mo : PT K (Leaf V O × Option Int), (∃ l, lanes[i]? = some l ∧ l ∈ lanes ∧
        f l = .ok (mo.map Prod.fst)) ∧
      (∀ π x, mo.leafAt? π = some x → AxisAt outAxes (mo.map Prod.fst) π x.2) ∧
      resolveAxes (mo.map Prod.fst) outAxes = .ok (withNones (mo.map Prod.snd)) ∧
      (∀ x ∈ mo.leaves, ∀ ax, x.2 = some ax → AxisInRange w ndim (mo.map Prod.fst) ax ∧ ∃ u, asArr w x.1 = .ok u) := by
    intro i hi
    obtain ⟨l, hl, hl'⟩ := hget i hi
    obtain ⟨o, o1, o2, o3⟩ := hrun l hl'
    obtain ⟨r, hr'⟩ := resolveAxes_isOk o2
    obtain ⟨mo, g1, g2, g3⟩ := resolveAxes_ok hr'
    refine ⟨mo, ⟨l, hl, hl', by rw [g1, o1]⟩, by rw [g1]; exact g3, by rw [g1, hr', g2], ?_⟩
    intro x hx ax hax
    obtain ⟨π, hπ⟩ := mem_leaves_iff.1 hx
    have := g3 π x hπ
    rw [hax] at this
    rw [g1]
    obtain ⟨h1, u, hu⟩ := o3 π x.1 ax (by rw [← g1, leafAt?_map, hπ]; rfl) this
    exact ⟨h1, u, isArr_iff.1 hu⟩
  obtain ⟨mo0, _⟩ := hper 0 hn
  let pick : Nat → PT K (Leaf V O × Option Int) := fun i => if hi : i < n then (hper i hi).choose else mo0
  have hpick : ∀ i, i < n → _ := fun i hi => by
    have := (hper i hi).choose_spec
    have e : (hper i hi).choose = pick i := by simp only [pick, hi, dif_pos]
    rw [e] at this
    exact this
  have houts : mapE f lanes = .ok ((List.range n).map fun i => (pick i).map Prod.fst) := by
    rw [mapE_ok]
    refine ⟨by simp [hlen], ?_⟩
    intro j l hl
    have hj : j < n := by
      have := (List.getElem?_eq_some_iff.1 hl).1
      omega
    obtain ⟨⟨l', e1, _, e2⟩, _⟩ := hpick j hj
    rw [hl] at e1
    cases e1
    exact ⟨_, by rw [List.getElem?_map, List.getElem?_range hj]; rfl, e2⟩
  obtain ⟨e1, e2⟩ := pmap_setup (ndim := ndim) (params := params) (outAxes := outAxes) hw hres hb hany hlen hlanes houts
  rw [e1]
  have hsame : ∀ i, i < n → Alike w ((pick i).map Prod.fst) ((pick 0).map Prod.fst) := fun i hi => by
    obtain ⟨⟨l, _, m1, f1⟩, _⟩ := hpick i hi
    obtain ⟨⟨l', _, m2, f2⟩, _⟩ := hpick 0 hn
    exact hf _ _ _ _ (e2 l m1 l' m2) f1 f2
  obtain ⟨q, q2, hq, hpos, hqf, hdet⟩ := gather hoa hn (fun i hi => (hpick i hi).2.1) hsame
  have hhead : ∃ os, ((List.range n).map fun i => (pick i).map Prod.fst) = (pick 0).map Prod.fst :: os := by
    obtain ⟨k, rfl⟩ : ∃ k, n = k + 1 := ⟨n - 1, by omega⟩
    rw [List.range_succ_eq_map]
    exact ⟨_, rfl⟩
  obtain ⟨os, hos⟩ := hhead
  have hrange : ∀ i, i < n → ∀ x ∈ (pick i).leaves, ∀ ax, x.2 = some ax →
      ax ∈ axisRange (maxOutSize w ndim ((pick 0).map Prod.fst)) := by
    intro i hi x hx ax hax
    rw [← maxOutSize_alike hnd (hsame i hi), mem_axisRange_max]
    exact ((hpick i hi).2.2.2 x hx ax hax).1
  have hsplit : mapE (pmapSplit (maxOutSize w ndim ((pick 0).map Prod.fst)) outAxes)
      ((List.range n).map fun i => (pick i).map Prod.fst) =
      .ok ((List.range n).map fun i => splitOut (maxOutSize w ndim ((pick 0).map Prod.fst)) q
        (fun x => (x i).1) (fun x => (x i).2)) := by
    rw [mapE_map, mapE_ok]
    refine ⟨by simp, ?_⟩
    intro j i hj
    have hi : i < n := by simpa using List.mem_of_getElem? hj
    refine ⟨_, by rw [List.getElem?_map, hj]; rfl, ?_⟩
    rw [(pmapSplit_closed _ (hpick i hi).2.2.1).1 (hrange i hi)]
    simp only [← hq i hi, splitOut_map]
  have hcol := (collect_closed w (maxOutSize w ndim ((pick 0).map Prod.fst)) (w.batched f lanes) q n hn
    (fun x hx i hi => (hdet x hx i hi).1) (r := collected w n (maxOutSize w ndim ((pick 0).map Prod.fst)) q)).2 ⟨by
      intro π x hπ h0 _
      obtain ⟨⟨l, _, m1, f1⟩, a1, _⟩ := hpick 0 hn
      apply hbat l m1 _ π f1
      have := a1 π (x 0) (q2 π x hπ 0 hn)
      rwa [h0] at this, by
      intro x hx ax h0 _
      obtain ⟨π, hπ⟩ := hpos x hx
      have harr : ∀ i, i < n → ∃ v, asArr w (x i).1 = .ok v := by
        intro i hi
        exact ((hpick i hi).2.2.2 (x i) (mem_leaves_iff.2 ⟨π, q2 π x hπ i hi⟩) ax
          (by rw [(hdet x hx i hi).1, h0])).2
      refine ⟨harr, ?_⟩
      obtain ⟨u, hu⟩ := harr 0 hn
      obtain ⟨⟨l, _, m1, f1⟩, a1, _⟩ := hpick 0 hn
      have ha := a1 π (x 0) (q2 π x hπ 0 hn)
      rw [h0] at ha
      apply hmove l m1 _ π (x 0).1 u (lanesOf w n x) ax f1 ha (by rw [leafAt?_map, q2 π x hπ 0 hn]; rfl)
        (isArr_iff.2 hu)
      · intro v hv
        simp only [lanesOf, List.mem_map, List.mem_range] at hv
        obtain ⟨j, hj, rfl⟩ := hv
        have hd := (hdet x hx j hj).2
        rw [← arrOf_spec w _ _ hu]
        cases hj' : (x j).1 <;> cases h0' : (x 0).1 <;> rw [hj', h0'] at hd <;> simp [abstract] at hd
        · simp [arrOf, asArr, hd]
        · rw [hd]
      · simp [lanesOf], rfl⟩
  refine ⟨q.map (finalLeaf w n), ?_⟩
  rw [hos, pmapOutputs, ← hos, hsplit]
  simp only [bind, Except.bind, hcol]
  apply pmapPostprocess_closed
  intro x hx ax h0
  obtain ⟨π, hπ⟩ := hpos x hx
  exact hrange 0 hn (x 0) (mem_leaves_iff.2 ⟨π, q2 π x hπ 0 hn⟩) ax h0

/-- C31. Arguments to the decorator which `filter_pmap` has its own use for are refused, as is an unknown `donate`. -/
theorem filter_pmap_config (pmapkwargs : List String) (donate : String) :
    (makePmap pmapkwargs donate = .error .valueError ↔
      "static_broadcasted_argnums" ∈ pmapkwargs ∨ "donate_argnums" ∈ pmapkwargs ∨
      (∃ x ∈ ["default", "fn", "args", "kwargs", "out"], x ∈ pmapkwargs) ∨
      donate ∉ ["all", "warn", "none", "arrays"]) ∧
    (∀ c, makePmap pmapkwargs donate = .ok c → (c.donateArgnums = Option.none ↔ donate = "none") ∧
      (c.filterWarning = true ↔ donate = "all" ∨ donate = "arrays")) ∧
    ∀ e, makePmap pmapkwargs donate = .error e → e = .valueError := by
  unfold makePmap
  by_cases h1 : pmapkwargs.any (fun x => x == "default" || x == "fn" || x == "args" || x == "kwargs" || x == "out") = true
  · rw [if_pos h1]
    refine ⟨⟨fun _ => ?_, fun _ => rfl⟩, fun c h => (nomatch h), fun e h => by cases h; rfl⟩
    rw [List.any_eq_true] at h1
    obtain ⟨x, hx, h⟩ := h1
    simp only [Bool.or_eq_true, beq_iff_eq] at h
    right; right; left
    refine ⟨x, ?_, hx⟩
    simp only [List.mem_cons, List.not_mem_nil, or_false]
    rcases h with (((h | h) | h) | h) | h <;> simp [h]
  · rw [if_neg h1]
    have h1' : ¬ ∃ x ∈ ["default", "fn", "args", "kwargs", "out"], x ∈ pmapkwargs := by
      rintro ⟨x, hx, hm⟩
      apply h1
      rw [List.any_eq_true]
      refine ⟨x, hm, ?_⟩
      simp only [List.mem_cons, List.not_mem_nil, or_false] at hx
      simp only [Bool.or_eq_true, beq_iff_eq]
      rcases hx with h | h | h | h | h <;> simp [h]
    by_cases h2 : pmapkwargs.any (fun x => x == "static_broadcasted_argnums" || x == "donate_argnums") = true
    · rw [if_pos h2]
      refine ⟨⟨fun _ => ?_, fun _ => rfl⟩, fun c h => (nomatch h), fun e h => by cases h; rfl⟩
      rw [List.any_eq_true] at h2
      obtain ⟨x, hx, h⟩ := h2
      simp only [Bool.or_eq_true, beq_iff_eq] at h
      rcases h with h | h
      · left; rwa [← h]
      · right; left; rwa [← h]
    · rw [if_neg h2]
      have h2' : "static_broadcasted_argnums" ∉ pmapkwargs ∧ "donate_argnums" ∉ pmapkwargs := by
        constructor <;> intro hm <;> apply h2 <;> rw [List.any_eq_true] <;> exact ⟨_, hm, by decide⟩
      simp only [h2'.1, h2'.2, h1', false_or]
      by_cases ha : donate = "arrays"
      · subst ha
        exact ⟨⟨fun h => by simp at h, fun h => by simp at h⟩, fun c h => by
          simp at h; subst h; decide, fun e h => by simp at h⟩
      · have : (donate == "arrays") = false := by simpa using ha
        simp only [this, Bool.false_eq_true, if_false]
        by_cases hd : donate ≠ "all" ∧ donate ≠ "warn" ∧ donate ≠ "none"
        · rw [if_pos hd]
          refine ⟨⟨fun _ => ?_, fun _ => rfl⟩, fun c h => (nomatch h), fun e h => by cases h; rfl⟩
          simp [hd, ha]
        · rw [if_neg hd]
          refine ⟨⟨fun h => (nomatch h), fun h => absurd ?_ hd⟩, fun c h => ?_, fun e h => (nomatch h)⟩
          · simp at h
            exact ⟨h.1, h.2.1, h.2.2.1⟩
          · cases h
            simp [ha]

/-! `filter_pmap(f, in_axes=(1, None), out_axes=(1, None))(matrix, 7)` in the world of integer arrays. -/

namespace Ex

/-- `filter_pmap(f, in_axes=(1, None), out_axes=(1, None))(matrix, 7)` returns: three lanes. -/
theorem pmap_runs : ∃ out, filterPmap world (fun v => v.shape.length) () f [] (.tree spec) spec Option.none [.leaf (.arr matrix), .leaf (.obj 7)] [] =
    .ok out := by
  have hl : ∀ i, IsLane world spec (.node () [.leaf (.arr matrix), .leaf (.obj 7)]) i
      (.node () [.leaf (.arr (slice matrix 1 i)), .leaf (.obj 7)]) := by
    intro i
    refine ⟨by rw [sameStructure_iff]; rfl, ?_⟩
    intro π l h
    rcases π with _ | ⟨i, π⟩
    · simp at h
    · rcases i with _ | _ | i
      · rcases π with _ | ⟨j, π⟩
        · refine ⟨_, (axisAt_spec _ _ _ _ _).2 (.inl ⟨rfl, rfl⟩), ?_⟩
          simp [leafAt?_node] at h; subst h; rfl
        · simp [leafAt?_node] at h
      · rcases π with _ | ⟨j, π⟩
        · refine ⟨_, (axisAt_spec _ _ _ _ _).2 (.inr ⟨rfl, rfl⟩), ?_⟩
          simp [leafAt?_node] at h; subst h; rfl
        · simp [leafAt?_node] at h
      · simp [leafAt?_node] at h
  refine filter_pmap_succeeds lawful (fun u v h => by rw [show u.shape = v.shape from h]) traceable_f traceable_axes (n := 3) (by omega) (resolvable_spec _ _) ?_
    (.inr ⟨[0], 1, matrix, (axisAt_spec _ _ _ _ _).2 (.inl ⟨rfl, rfl⟩), rfl⟩)
    ((List.range 3).map fun i => [.leaf (.arr (slice matrix 1 i)), .leaf (.obj 7)]) (by simp) ?_ ?_ ?_ ?_
  · refine ⟨by simp, ?_⟩
    intro π ax v h hv
    rcases (axisAt_spec _ _ _ _ _).1 h with ⟨rfl, ha⟩ | ⟨_, ha⟩
    · cases ha; cases hv; simp [world, size, normAxis, matrix, mk]
    · cases ha
  · intro i l h
    rw [List.getElem?_map, Option.map_eq_some_iff] at h
    obtain ⟨j, hj, rfl⟩ := h
    have : j = i := by
      have := (List.getElem?_eq_some_iff.1 hj).2
      simpa using this.symm
    subst this
    exact hl j
  · intro l hm
    obtain ⟨j, hj, rfl⟩ := List.mem_map.1 hm
    refine ⟨_, rfl, resolvable_spec _ _, ?_⟩
    intro π l ax h1 h2
    rcases (axisAt_spec _ _ _ _ _).1 h2 with ⟨rfl, h⟩ | ⟨_, h⟩
    · cases h
      refine ⟨⟨[0], _, _, rfl, .inl rfl, ?_⟩, ?_⟩
      · simp [slice, normAxis, matrix, mk]
      · simp [leafAt?_node] at h1; subst h1; exact ⟨_, .inl rfl⟩
    · cases h
  · intro l hm o π ho h2
    obtain ⟨j, hj, rfl⟩ := List.mem_map.1 hm
    cases ho
    rcases (axisAt_spec _ _ _ _ _).1 h2 with ⟨_, h⟩ | ⟨rfl, _⟩
    · cases h
    · simp only [world, decide_eq_false_iff_not, Classical.not_not]
      intro outs houts o h3 o' h4
      have : ∀ o ∈ outs, o.leafAt? [1] = some (.obj 7) := by
        intro o ho
        obtain ⟨k, hk⟩ := List.getElem?_of_mem ho
        have hlen := (mapE_ok.1 houts).1
        have hk' := (List.getElem?_eq_some_iff.1 hk).1
        rw [hlen] at hk'
        obtain ⟨y, y1, y2⟩ := (mapE_ok.1 houts).2 k _ (List.getElem?_eq_getElem hk')
        rw [hk] at y1; cases y1
        simp only [List.getElem_map, f, Except.ok.injEq] at y2
        rw [← y2]; rfl
      rw [this o h3, this o' h4]
  · intro l hm o π x u us ax ho h2 h3 h4 h5 h6
    obtain ⟨j, hj, rfl⟩ := List.mem_map.1 hm
    cases ho
    rcases (axisAt_spec _ _ _ _ _).1 h2 with ⟨rfl, h⟩ | ⟨_, h⟩
    · cases h
      simp only [leafAt?_node, List.getElem?_cons_zero, Option.bind_some, leafAt?_leaf_nil, Option.some.injEq] at h3
      subst h3
      have hu : u = slice matrix 1 j := by simpa [IsArr, eq_comm] using h4
      subst hu
      cases us with
      | nil => simp at h6
      | cons y ys =>
        have hy : y.shape = [2] := h5 y (by simp)
        have : (stack (y :: ys)).shape = [ys.length + 1, 2] := by simp [stack, mk, hy]
        simp only [world, moveaxis, this]
        exact ⟨_, rfl⟩
    · cases h

end Ex

end Verif.Vmap
