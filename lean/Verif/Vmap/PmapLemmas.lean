import Verif.Vmap.Pmap
import Verif.Vmap.Props
/-! # The stages of `filter_pmap` in closed form -/

namespace Verif.Vmap

open PT Filters

variable {K V A O : Type} {δ : Type}

theorem axisFlags_closed (i : Int) (m : PT K δ) (a : δ → Option Int) :
    (axisFlags i (withNones (m.map a)) : Except Err (PT K (Filters.Spec K (Leaf V O)))) =
      .ok (boolSpec false (fun x => a x == some i) m) := by
  rw [axisFlags, treeMap1_closed (u := m.cut isNone) (c := onLeaf .none fun x => orNone (a x))
    (g := fun x => .leaf (onLeaf (.bool false) (fun x => .bool (a x == some i)) x)) (cutNone_withNones m a)]
  · have := join_map_leaf (boolSpec (α := Leaf V O) false (fun x => a x == some i) m)
    rw [boolSpec, map_map] at this
    exact congrArg _ this
  · intro x hx
    rcases cutNone_leaves hx with ⟨y, _, rfl⟩ | rfl
    · simp only [onLeaf_leaf]
      cases a y <;> rfl
    · rfl

/-- The leaf if it has axis `i`. -/
def groupOf (i : Int) (l : Leaf V O) (a : Option Int) : Option (Leaf V O) := if a = some i then some l else Option.none

theorem group_closed [DecidableEq K] (i : Int) (m : PT K δ) (l : δ → Leaf V O) (a : δ → Option Int) :
    (do let flags ← axisFlags i (withNones (m.map a)); Filters.filter isNone flags false .none (m.map l)) =
      .ok (withNones (m.map fun x => groupOf i (l x) (a x))) := by
  rw [axisFlags_closed]
  simp only [bind, Except.bind]
  rw [filter_closed]
  congr 2
  apply map_congr_leaves
  intro x _
  simp [groupOf]

theorem mem_axisRange {maxOut : Nat} {i : Int} : i ∈ axisRange maxOut ↔ -(maxOut : Int) ≤ i ∧ i < maxOut := by
  simp only [axisRange, List.mem_map, List.mem_range]
  constructor
  · rintro ⟨j, hj, rfl⟩; omega
  · intro h
    refine ⟨(i + maxOut).toNat, ?_, ?_⟩ <;> omega

/-- The result of `fun_wrapped` for output leaves `l` with axes `a`. -/
def splitOut (maxOut : Nat) (m : PT K δ) (l : δ → Leaf V O) (a : δ → Option Int) : PmapOut K V O where
  pmapd := (axisRange maxOut).map fun i => withNones (m.map fun x => groupOf i (l x) (a x))
  dyn := (m.leaves.filterMap fun x => unmappedOf (l x) (a x)).map Leaf.dyn?
  static := (m.leaves.filterMap fun x => unmappedOf (l x) (a x)).map Leaf.static?
  treedef := (withNones (m.map fun x => unmappedOf (l x) (a x))).shape

theorem check_closed (maxOut : Nat) (m : PT K δ) (a : δ → Option Int) :
    ((∃ r, treeMap1 noLeaf (checkMapOutAxis maxOut) (withNones (m.map a)) = .ok r) ↔
      ∀ x ∈ m.leaves, ∀ i, a x = some i → i ∈ axisRange maxOut) ∧
    ∀ e, treeMap1 noLeaf (checkMapOutAxis (K := K) maxOut) (withNones (m.map a)) = .error e → e = .valueError := by
  have main : (∃ r, treeMap1 noLeaf (checkMapOutAxis maxOut) (withNones (m.map a)) = .ok r) ↔
      ∀ x ∈ m.leaves, ∀ i, a x = some i → i ∈ axisRange maxOut := by
    constructor
    · rintro ⟨r, h⟩ x hx i hi
      obtain ⟨π, hπ⟩ := mem_leaves_iff.1 hx
      rw [treeMap1_ok] at h
      obtain ⟨o, -, -, h⟩ := h
      obtain ⟨z, -, hz⟩ := h π (.leaf i) (by rw [cut_noLeaf, leafAt?_map, leafAt?_withNones, hπ]; simp [hi])
      rw [mem_axisRange]
      simp only [checkMapOutAxis] at hz
      split at hz
      · cases hz
      · omega
    · intro h
      refine ⟨_, treeMap1_closed (u := withNones (m.map a)) (c := .leaf) (g := fun _ => .none) (cut_noLeaf _) ?_⟩
      intro i hi
      rw [leaves_withNones, List.mem_filterMap] at hi
      obtain ⟨x, hx, hi⟩ := hi
      have := mem_axisRange.1 (h x hx i hi)
      rw [checkMapOutAxis, if_neg]
      omega
  refine ⟨main, ?_⟩
  · intro e h
    have hE : ∀ (L : List (PT K Int)) e, mapE (checkMapOutAxis (K := K) maxOut) L = .error e → e = .valueError := by
      intro L
      induction L with
      | nil => intro e h; simp [mapE] at h
      | cons y L ih =>
        intro e h
        simp only [mapE, bind, Except.bind] at h
        cases hy : checkMapOutAxis (K := K) maxOut y with
        | error e' =>
          simp only [hy, Except.error.injEq] at h
          cases y with
          | leaf x => simp only [checkMapOutAxis] at hy; split at hy <;> cases hy; exact h.symm
          | none => cases hy
          | node k cs => cases hy
        | ok n =>
          simp only [hy] at h
          cases hL : mapE (checkMapOutAxis (K := K) maxOut) L with
          | error e' => simp only [hL, Except.error.injEq] at h; rw [← h]; exact ih e' hL
          | ok ns => simp [hL, pure, Except.pure] at h
    have hok : ∀ L, mapE (checkMapOutAxis (K := K) maxOut) ((withNones (m.map a)).treeLeaves noLeaf) ≠ .ok L := by
      intro L hL
      have : ∀ x ∈ m.leaves, ∀ i, a x = some i → i ∈ axisRange maxOut := by
        intro x hx i hi
        have hmem : (.leaf i : PT K Int) ∈ (withNones (m.map a)).treeLeaves noLeaf := by
          rw [treeLeaves, cut_noLeaf, leaves_map, leaves_withNones]
          exact List.mem_map_of_mem (List.mem_filterMap.2 ⟨x, hx, hi⟩)
        obtain ⟨j, hj⟩ := List.getElem?_of_mem hmem
        obtain ⟨z, -, hz⟩ := (mapE_ok.1 hL).2 j _ hj
        rw [mem_axisRange]
        simp only [checkMapOutAxis] at hz
        split at hz
        · cases hz
        · omega
      obtain ⟨r, hr⟩ := main.2 this
      rw [hr] at h
      cases h
    rw [treeMap1] at h
    cases hL : mapE (checkMapOutAxis (K := K) maxOut) ((withNones (m.map a)).treeLeaves noLeaf) with
    | error e' => simp only [hL, bind, Except.bind, Except.error.injEq] at h; rw [← h]; exact hE _ _ hL
    | ok L => exact absurd hL (hok L)

theorem pmapSplit_closed [DecidableEq K] (maxOut : Nat) {outAxes : PT K (AxSpec V O)}
    {m : PT K (Leaf V O × Option Int)} (hr : resolveAxes (m.map Prod.fst) outAxes = .ok (withNones (m.map Prod.snd))) :
    ((∀ x ∈ m.leaves, ∀ i, x.2 = some i → i ∈ axisRange maxOut) →
      pmapSplit maxOut outAxes (m.map Prod.fst) = .ok (splitOut maxOut m Prod.fst Prod.snd)) ∧
    ((¬ ∀ x ∈ m.leaves, ∀ i, x.2 = some i → i ∈ axisRange maxOut) →
      pmapSplit maxOut outAxes (m.map Prod.fst) = .error .valueError) := by
  obtain ⟨c1, c2⟩ := check_closed maxOut m Prod.snd
  simp only [pmapSplit, hr, bind, Except.bind]
  constructor
  · intro h
    obtain ⟨r, hr'⟩ := c1.2 h
    simp only [hr']
    have hg : mapE (fun i => do
        let flags ← axisFlags i (withNones (m.map Prod.snd))
        Filters.filter isNone flags false .none (m.map Prod.fst)) (axisRange maxOut) =
        .ok ((axisRange maxOut).map fun i => withNones (m.map fun x => groupOf i x.1 x.2)) :=
      (congrArg (fun F => mapE F (axisRange maxOut)) (funext fun i => group_closed i m Prod.fst Prod.snd)).trans
        (mapE_pure _ _)
    simp only [bind, Except.bind] at hg
    simp only [hg, noneFlags_closed]
    rw [filter_closed]
    have : (withNones (m.map fun x => if (x.2.isNone != false) = true then some x.1 else Option.none)) =
        withNones (m.map fun x => unmappedOf x.1 x.2) := by
      congr 1
      apply map_congr_leaves
      intro x _
      cases h : x.2 <;> simp [unmappedOf, h]
    simp only [this]
    rw [splitOut, leaves_withNones]
    rfl
  · intro h
    cases hc : treeMap1 noLeaf (checkMapOutAxis maxOut) (withNones (m.map Prod.snd)) with
    | ok r => exact absurd (c1.1 ⟨r, hc⟩) h
    | error e => simp only; rw [c2 e hc]

theorem pmapSplit_inv [DecidableEq K] {maxOut : Nat} {outAxes : PT K (AxSpec V O)} {out : Val K V O}
    {r : PmapOut K V O} (h : pmapSplit maxOut outAxes out = .ok r) :
    ∃ m : PT K (Leaf V O × Option Int), m.map Prod.fst = out ∧
      (∀ π x, m.leafAt? π = some x → AxisAt outAxes out π x.2) ∧
      (∀ x ∈ m.leaves, ∀ i, x.2 = some i → i ∈ axisRange maxOut) ∧ r = splitOut maxOut m Prod.fst Prod.snd := by
  cases hr : resolveAxes out outAxes with
  | error e => simp [pmapSplit, hr, bind, Except.bind] at h
  | ok axes =>
    obtain ⟨m, h1, h2, h3⟩ := resolveAxes_ok hr
    rw [h2, ← h1] at hr
    obtain ⟨p1, p2⟩ := pmapSplit_closed maxOut hr
    rw [h1] at p1 p2
    refine ⟨m, h1, h3, ?_⟩
    by_cases hall : ∀ x ∈ m.leaves, ∀ i, x.2 = some i → i ∈ axisRange maxOut
    · refine ⟨hall, ?_⟩
      rw [p1 hall] at h
      exact (Except.ok.inj h).symm
    · rw [p2 hall] at h; cases h

theorem stackAt_closed (w : World K V A O) (ax : Int) (q : PT K (Nat → Leaf V O × Option Int)) (n : Nat) (hn : 0 < n)
    (hax : ∀ x ∈ q.leaves, ∀ i, i < n → (x i).2 = (x 0).2) {r : Val K V O} :
    stackAt w ax ((List.range n).map fun i => withNones (q.map fun x => groupOf ax (x i).1 (x i).2)) = .ok r ↔
      (∀ x ∈ q.leaves, (x 0).2 = some ax → ∀ i, i < n → ∃ v, asArr w (x i).1 = .ok v) ∧
      (∀ x ∈ q.leaves, (x 0).2 = some ax → ∃ u, w.moveaxis (w.stack (lanesOf w n x)) ax = .ok u) ∧
      r = withNones (q.map fun x => groupOf ax (finalLeaf w n x) (x 0).2) := by
  let only : (Nat → Leaf V O × Option Int) → Nat → Leaf V O × Option Int :=
    fun x i => ((x i).1, if (x i).2 = some ax then some ax else Option.none)
  have e1 : ((List.range n).map fun i => withNones (q.map fun x => groupOf ax (x i).1 (x i).2)) =
      (List.range n).map fun i => withNones ((q.map only).map fun x => mappedOf (x i).1 (x i).2) := by
    apply List.map_congr_left
    intro i _
    rw [map_map]
    congr 1
    apply map_congr_leaves
    intro x _
    simp only [groupOf, mappedOf, only]
    split <;> simp
  rw [stackAt, e1]
  have hs := fun v => stackLanes_closed w (q.map only) n hn (r := v) (by
    intro x hx i hi
    rw [leaves_map, List.mem_map] at hx
    obtain ⟨y, hy, rfl⟩ := hx
    simp only [only, hax y hy i hi])
  have e2 : withNones ((q.map only).map fun x => (x 0).2.map fun _ => Leaf.arr (O := O) (w.stack (lanesOf w n x))) =
      withNones (q.map fun x => groupOf ax (Leaf.arr (w.stack (lanesOf w n x))) (x 0).2) := by
    rw [map_map]
    congr 1
    apply map_congr_leaves
    intro x _
    have : lanesOf w n (only x) = lanesOf w n x := rfl
    simp only [groupOf, this]
    simp only [only]
    split <;> rfl
  have e3 : (∀ x ∈ (q.map only).leaves, (x 0).2.isSome → ∀ i, i < n → ∃ v, asArr w (x i).1 = .ok v) ↔
      ∀ x ∈ q.leaves, (x 0).2 = some ax → ∀ i, i < n → ∃ v, asArr w (x i).1 = .ok v := by
    constructor
    · intro h x hx hx0 i hi
      exact h (only x) (by rw [leaves_map]; exact List.mem_map_of_mem hx) (by simp [only, hx0]) i hi
    · intro h x hx hx0 i hi
      rw [leaves_map, List.mem_map] at hx
      obtain ⟨y, hy, rfl⟩ := hx
      refine h y hy ?_ i hi
      simp only [only] at hx0
      split at hx0
      · assumption
      · cases hx0
  have e4 : ∀ r, treeMap1 noLeaf (fun x => moveLeaf w x (.leaf ax))
        (withNones (q.map fun x => groupOf ax (Leaf.arr (w.stack (lanesOf w n x))) (x 0).2)) = .ok r ↔
      (∀ x ∈ q.leaves, (x 0).2 = some ax → ∃ u, w.moveaxis (w.stack (lanesOf w n x)) ax = .ok u) ∧
      r = withNones (q.map fun x => groupOf ax (finalLeaf w n x) (x 0).2) := by
    intro r
    have fwd : (∀ x ∈ q.leaves, (x 0).2 = some ax → ∃ u, w.moveaxis (w.stack (lanesOf w n x)) ax = .ok u) →
        treeMap1 noLeaf (fun x => moveLeaf w x (.leaf ax))
        (withNones (q.map fun x => groupOf ax (Leaf.arr (w.stack (lanesOf w n x))) (x 0).2)) =
        .ok (withNones (q.map fun x => groupOf ax (finalLeaf w n x) (x 0).2)) := by
      intro h
      let T : PT K (Nat → Leaf V O × Option Int) := withNones (q.map fun x => if (x 0).2 = some ax then some x else Option.none)
      have t1 : withNones (q.map fun x => groupOf ax (Leaf.arr (O := O) (w.stack (lanesOf w n x))) (x 0).2) =
          T.map fun x => Leaf.arr (w.stack (lanesOf w n x)) := by
        rw [withNones_map]
        congr 1
        apply map_congr_leaves
        intro x _
        simp only [groupOf]; split <;> rfl
      have t2 : withNones (q.map fun x => groupOf ax (finalLeaf w n x) (x 0).2) = T.map (finalLeaf w n) := by
        rw [withNones_map]
        congr 1
        apply map_congr_leaves
        intro x _
        simp only [groupOf]; split <;> rfl
      rw [t1, t2, treeMap1_closed (u := T) (c := fun x => .leaf (.arr (w.stack (lanesOf w n x))))
        (g := fun x => .leaf (finalLeaf w n x)) (by rw [cut_noLeaf, map_map])]
      · have := join_map_leaf (T.map (finalLeaf w n))
        rw [map_map] at this
        rw [this]
      · intro x hx
        rw [leaves_withNones, List.mem_filterMap] at hx
        obtain ⟨y, hy, hx⟩ := hx
        split at hx
        · rename_i h0
          cases hx
          obtain ⟨u, hu⟩ := h x hy h0
          simp [moveLeaf, finalLeaf, h0, hu, Except.map]
        · cases hx
    constructor
    · intro h
      have hall : ∀ x ∈ q.leaves, (x 0).2 = some ax → ∃ u, w.moveaxis (w.stack (lanesOf w n x)) ax = .ok u := by
        intro x hx h0
        obtain ⟨π, hπ⟩ := mem_leaves_iff.1 hx
        rw [treeMap1_ok] at h
        obtain ⟨o, -, -, h⟩ := h
        obtain ⟨z, -, hz⟩ := h π (.leaf (.arr (w.stack (lanesOf w n x))))
          (by rw [cut_noLeaf, leafAt?_map, leafAt?_withNones, hπ]; simp [groupOf, h0])
        simp only [moveLeaf] at hz
        cases hm : w.moveaxis (w.stack (lanesOf w n x)) ax with
        | error e => simp [hm, Except.map] at hz
        | ok u => exact ⟨u, rfl⟩
      refine ⟨hall, ?_⟩
      rw [fwd hall] at h
      exact (Except.ok.inj h).symm
    · rintro ⟨h, rfl⟩
      exact fwd h
  constructor
  · intro h
    cases hv : stackLanes w ((List.range n).map fun i => withNones ((q.map only).map fun x => mappedOf (x i).1 (x i).2)) with
    | error e => simp [hv, bind, Except.bind] at h
    | ok v =>
      simp only [hv, bind, Except.bind] at h
      obtain ⟨s1, s2⟩ := (hs v).1 hv
      rw [s2, e2] at h
      exact ⟨e3.1 s1, (e4 r).1 h⟩
  · rintro ⟨h1, h2⟩
    simp only [(hs _).2 ⟨e3.2 h1, rfl⟩, bind, Except.bind]
    rw [e2]
    exact (e4 r).2 h2

theorem mem_positions_zip {α : Type} (t : PT K α) :
    (positions t).length = t.leaves.length ∧
    ∀ π x, (π, x) ∈ (positions t).zip t.leaves ↔ t.leafAt? π = some x := by
  induction t using PT.ind with
  | leaf a =>
    refine ⟨rfl, ?_⟩
    intro π x
    cases π with
    | nil => simp [leafAt?, get?, positions, leaves, eq_comm]
    | cons i π => simp [leafAt?, get?, positions, leaves]
  | none => exact ⟨rfl, fun π x => by cases π <;> simp [leafAt?, get?, positions, leaves]⟩
  | node k cs ih =>
    have key : ∀ (cs : List (PT K α)) (s : Nat), (∀ c ∈ cs, (positions c).length = c.leaves.length ∧
        ∀ π x, (π, x) ∈ (positions c).zip c.leaves ↔ c.leafAt? π = some x) →
        (positionsL s cs).length = (leavesL cs).length ∧
        ∀ (ρ : List Nat) (x : α), (ρ, x) ∈ (positionsL s cs).zip (leavesL cs) ↔
          ∃ (i : Nat) (c : PT K α) (π : List Nat), cs[i]? = some c ∧ ρ = (s + i) :: π ∧ c.leafAt? π = some x := by
      intro cs
      induction cs with
      | nil => intro s _; exact ⟨rfl, by simp [positionsL]⟩
      | cons c cs ihc =>
        intro s h
        obtain ⟨l1, l2⟩ := h c (by simp)
        obtain ⟨r1, r2⟩ := ihc (s + 1) (fun d hd => h d (by simp [hd]))
        constructor
        · simp [positionsL, leavesL, l1, r1]
        · intro ρ x
          simp only [positionsL, leavesL]
          rw [List.zip_append (by simp [l1]), List.mem_append, List.zip_map_left, List.mem_map, r2]
          constructor
          · rintro (⟨⟨π, y⟩, hy, e⟩ | ⟨i, d, π, hi, rfl, hx⟩)
            · simp only [Prod.map, Prod.mk.injEq, id_eq] at e
              obtain ⟨rfl, rfl⟩ := e
              exact ⟨0, c, π, rfl, rfl, (l2 π y).1 hy⟩
            · exact ⟨i + 1, d, π, hi, by rw [Nat.add_assoc, Nat.add_comm 1 i], hx⟩
          · rintro ⟨i, d, π, hi, rfl, hx⟩
            cases i with
            | zero =>
              simp only [List.getElem?_cons_zero, Option.some.injEq] at hi
              subst hi
              left
              exact ⟨(π, x), (l2 π x).2 hx, rfl⟩
            | succ i =>
              right
              exact ⟨i, d, π, hi, by rw [Nat.add_assoc, Nat.add_comm 1 i], hx⟩
    obtain ⟨k1, k2⟩ := key cs 0 ih
    refine ⟨k1, ?_⟩
    intro π x
    rw [positions, leaves, k2]
    cases π with
    | nil => simp [leafAt?, get?]
    | cons i π =>
      rw [leafAt?_node]
      constructor
      · rintro ⟨j, c, ρ, hj, e, hx⟩
        simp only [Nat.zero_add, List.cons.injEq] at e
        obtain ⟨rfl, rfl⟩ := e
        simp [hj, hx]
      · intro h
        cases hc : cs[i]? with
        | none => simp [hc] at h
        | some c => exact ⟨i, c, π, hc, by simp, by simpa [hc] using h⟩

theorem positions_map {α β : Type} (f : α → β) (t : PT K α) : positions (t.map f) = positions t := by
  induction t using PT.ind with
  | leaf a => rfl
  | none => rfl
  | node k cs ih =>
    simp only [PT.map, positions, mapL_eq]
    have key : ∀ (cs : List (PT K α)) (s : Nat), (∀ c ∈ cs, positions (c.map f) = positions c) →
        positionsL s (cs.map (PT.map f)) = positionsL s cs := by
      intro cs
      induction cs with
      | nil => intro s _; rfl
      | cons c cs ihc =>
        intro s h
        simp only [List.map_cons, positionsL, h c (by simp), ihc (s + 1) (fun d hd => h d (by simp [hd]))]
    exact key cs 0 ih

theorem nonpmapd_closed (maxOut : Nat) (m : PT K δ) (l : δ → Leaf V O) (a : δ → Option Int) :
    treeUnflatten (splitOut maxOut m l a).treedef
        (List.zipWith pickLeaf (splitOut maxOut m l a).dyn (splitOut maxOut m l a).static) =
      .ok (withNones (m.map fun x => unmappedOf (l x) (a x))) := by
  apply unflatten_withNones
  · intro x _; rfl
  · simp only [splitOut]
    have : ∀ L : List (Leaf V O), List.zipWith (pickLeaf (K := K)) (L.map Leaf.dyn?) (L.map Leaf.static?) =
        L.map fun l => .leaf l := by
      intro L
      induction L with
      | nil => rfl
      | cons y L ih =>
        simp only [List.map_cons, List.zipWith_cons_cons, ih]
        cases y <;> rfl
    exact this _

/-! ## Inputs -/

/-- A leaf if it is an array. -/
def dynL (l : Leaf V O) : Option (Leaf V O) := if isArray (K := Unit) (.leaf l) then some l else Option.none
/-- A leaf if it is not an array. -/
def staticL (l : Leaf V O) : Option (Leaf V O) := if isArray (K := Unit) (.leaf l) then Option.none else some l

theorem isArray_leaf (l : Leaf V O) : isArray (K := K) (.leaf l) = isArray (K := Unit) (.leaf l) := by
  cases l <;> rfl

theorem inputs_closed [DecidableEq K] (m : PT K (Leaf V O × Option Int)) :
    Filters.partition noLeaf (.leaf (.callable fun x => .ok (isArray x))) .none (m.map Prod.fst) =
      .ok (withNones (m.map fun x => dynL x.1), withNones (m.map fun x => staticL x.1)) := by
  rw [partition_callable_closed, map_map, map_map]
  simp only [isArray_leaf, dynL, staticL]

theorem pmapLane_closed [DecidableEq K] (w : World K V A O) (m : PT K (Leaf V O × Option Int)) (i : Nat) :
    pmapLane w (withNones (m.map Prod.snd)) (withNones (m.map fun x => dynL x.1)) i =
      .ok (withNones (m.map fun x => (dynL x.1).map fun l => inLane w i l x.2)) := by
  rw [pmapLane, treeMap2_closed (u := m.cut isNone) (b := onLeaf .none fun x => orNone x.2)
    (c := onLeaf .none fun x => orNone (dynL x.1))
    (g := onLeaf .none fun x => orNone ((dynL x.1).map fun l => inLane w i l x.2)) (cutNone_withNones m Prod.snd)]
  · rw [cutNone_join (by rfl)]
    simp only [onLeaf_leaf, withNones, map_map]
  · rw [cutNone_join (by rfl)]
    simp only [onLeaf_leaf, withNones, map_map]
  · intro x hx
    rcases cutNone_leaves hx with ⟨y, _, rfl⟩ | rfl
    · simp only [onLeaf_leaf]
      obtain ⟨l, a⟩ := y
      cases l <;> cases a <;> rfl
    · rfl

theorem pmap_combine [DecidableEq K] (w : World K V A O) (m : PT K (Leaf V O × Option Int)) (i : Nat) :
    Filters.combine noLeaf [withNones (m.map fun x => (dynL x.1).map fun l => inLane w i l x.2),
        withNones (m.map fun x => staticL x.1)] = .ok (m.map fun x => inLane w i x.1 x.2) := by
  rw [combine_two_closed, ← withNones_some m (fun x => inLane w i x.1 x.2)]
  congr 2
  apply map_congr_leaves
  rintro ⟨l, a⟩ _
  cases l <;> cases a <;> rfl

/-- The size of a leaf with an axis. -/
def sizeOf? (w : World K V A O) : Leaf V O × Option Int → Option Nat
  | (.arr v, some ax) => w.size v ax
  | _ => Option.none

theorem pmapSizes_closed [DecidableEq K] (w : World K V A O) (m : PT K (Leaf V O × Option Int)) :
    ((∀ x ∈ m.leaves, ∀ v ax, x = (.arr v, some ax) → (w.size v ax).isSome) →
      pmapSizes w (withNones (m.map Prod.snd)) (withNones (m.map fun x => dynL x.1)) =
        .ok (m.leaves.filterMap (sizeOf? w))) ∧
    ∀ sizes, pmapSizes w (withNones (m.map Prod.snd)) (withNones (m.map fun x => dynL x.1)) = .ok sizes →
      ∀ x ∈ m.leaves, ∀ v ax, x = (.arr v, some ax) → (w.size v ax).isSome := by
  have hcut := cutNone_withNones m (Prod.snd : Leaf V O × Option Int → Option Int)
  have hjoin : withNones (m.map fun x => dynL x.1) =
      ((m.cut isNone).map (onLeaf .none fun x => orNone (dynL x.1))).join := by
    rw [cutNone_join (by rfl)]
    simp only [onLeaf_leaf, withNones, map_map]
  constructor
  · intro h
    rw [pmapSizes, treeMap2_closed (u := m.cut isNone) (b := onLeaf .none fun x => orNone x.2)
      (c := onLeaf .none fun x => orNone (dynL x.1))
      (g := onLeaf .none fun x => orNone (sizeOf? w x)) hcut hjoin]
    · rw [cutNone_join (by rfl)]
      simp only [onLeaf_leaf, Except.map]
      have := leaves_withNones m (sizeOf? w)
      simp only [withNones, map_map] at this
      rw [this]
    · intro x hx
      rcases cutNone_leaves hx with ⟨y, hy, rfl⟩ | rfl
      · simp only [onLeaf_leaf]
        obtain ⟨l, a⟩ := y
        cases l with
        | obj o => cases a <;> rfl
        | arr v => cases a with
          | none => rfl
          | some ax =>
            have := h _ hy v ax rfl
            cases hs : w.size v ax with
            | none => simp [hs] at this
            | some k => simp [dynL, isArray, orNone, pmapSizeLeaf, leafSize, hs, sizeOf?, Except.map]
      · rfl
  · rintro sizes h x hx v ax rfl
    rw [pmapSizes] at h
    cases hr : treeMap2 isNone (pmapSizeLeaf w) (withNones (m.map Prod.snd)) (withNones (m.map fun x => dynL x.1)) with
    | error e => simp [hr, Except.map] at h
    | ok r =>
      rw [treeMap2_ok] at hr
      obtain ⟨c, o, g1, g2, -, -, g5⟩ := hr
      have hc : c = (m.cut isNone).map (onLeaf .none fun x => orNone (dynL x.1)) := by
        apply join_inj
        · rw [g1, hcut, shape_map, shape_map]
        · rw [g2, hjoin]
      obtain ⟨π, hπ⟩ := mem_leaves_iff.1 hx
      have hl : (m.cut isNone).leafAt? π = some (.leaf (.arr v, some ax)) := by
        exact leafAt?_cut_isNone.2 ⟨leafAt?_eq_some.1 hπ, .inl ⟨_, rfl⟩⟩
      obtain ⟨z, -, hz⟩ := g5 π (.leaf ax) (.leaf (.arr v))
        (by rw [hcut, leafAt?_map, hl]; rfl) (by rw [hc, leafAt?_map, hl]; rfl)
      simp only [pmapSizeLeaf, leafSize] at hz
      cases hs : w.size v ax with
      | none => simp [hs, Except.map] at hz
      | some k => rfl

/-! ## Outputs -/

/-- What `jax.pmap` returns. -/
def collected (w : World K V A O) (n maxOut : Nat) (q : PT K (Nat → Leaf V O × Option Int)) : PmapOut K V O :=
  { splitOut maxOut q (fun x => (x 0).1) (fun x => (x 0).2) with
    pmapd := (axisRange maxOut).map fun ax => withNones (q.map fun x => groupOf ax (finalLeaf w n x) (x 0).2) }

theorem splitOut_map {γ : Type} (maxOut : Nat) (m : PT K γ) (g : γ → δ) (l : δ → Leaf V O) (a : δ → Option Int) :
    splitOut maxOut (m.map g) l a = splitOut maxOut m (fun x => l (g x)) (fun x => a (g x)) := by
  simp only [splitOut, map_map, leaves_map, List.filterMap_map, Function.comp_def]

theorem collect_closed (w : World K V A O) (maxOut : Nat) (bat : List Nat → Bool)
    (q : PT K (Nat → Leaf V O × Option Int)) (n : Nat) (hn : 0 < n)
    (hax : ∀ x ∈ q.leaves, ∀ i, i < n → (x i).2 = (x 0).2) {r : PmapOut K V O} :
    collect w maxOut bat ((List.range n).map fun i => splitOut maxOut q (fun x => (x i).1) (fun x => (x i).2)) = .ok r ↔
      (∀ π x, q.leafAt? π = some x → (x 0).2 = Option.none → (∃ v, (x 0).1 = .arr v) → bat π = false) ∧
      (∀ x ∈ q.leaves, ∀ ax, (x 0).2 = some ax → ax ∈ axisRange maxOut →
        (∀ i, i < n → ∃ v, asArr w (x i).1 = .ok v) ∧ ∃ u, w.moveaxis (w.stack (lanesOf w n x)) ax = .ok u) ∧
      r = collected w n maxOut q := by
  have hhead : ∃ rs, ((List.range n).map fun i => splitOut maxOut q (fun x => (x i).1) (fun x => (x i).2)) =
      splitOut maxOut q (fun x => (x 0).1) (fun x => (x 0).2) :: rs := by
    obtain ⟨k, rfl⟩ : ∃ k, n = k + 1 := ⟨n - 1, by omega⟩
    rw [List.range_succ_eq_map]
    exact ⟨_, rfl⟩
  obtain ⟨rs, hrs⟩ := hhead
  have hgroup : ∀ j : Nat, j < 2 * maxOut →
      (((List.range n).map fun i => splitOut maxOut q (fun x => (x i).1) (fun x => (x i).2)).filterMap fun r => r.pmapd[j]?) =
      (List.range n).map fun i => withNones (q.map fun x => groupOf ((j : Int) - maxOut) (x i).1 (x i).2) := by
    intro j hj
    rw [List.filterMap_map]
    rw [← List.filterMap_eq_map]
    congr 1
    funext i
    simp [Function.comp, splitOut, axisRange, List.getElem?_range hj]
  -- the check for batched outputs
  have hbatch : (((positions (splitOut maxOut q (fun x => (x 0).1) (fun x => (x 0).2)).treedef).zip
        (splitOut maxOut q (fun x => (x 0).1) (fun x => (x 0).2)).dyn).any (fun p => p.2.isSome && bat p.1)) = false ↔
      ∀ π x, q.leafAt? π = some x → (x 0).2 = Option.none → (∃ v, (x 0).1 = .arr v) → bat π = false := by
    let T : PT K (Leaf V O) := withNones (q.map fun x => unmappedOf (x 0).1 (x 0).2)
    have t1 : (splitOut maxOut q (fun x => (x 0).1) (fun x => (x 0).2)).treedef = T.shape := rfl
    have t2 : (splitOut maxOut q (fun x => (x 0).1) (fun x => (x 0).2)).dyn = T.leaves.map Leaf.dyn? := by
      simp only [splitOut, T, leaves_withNones]
    have t3 : positions T.shape = positions T := positions_map _ _
    rw [t1, t2, t3]
    obtain ⟨z1, z2⟩ := mem_positions_zip T
    rw [List.any_eq_false]
    constructor
    · intro h π x hπ h0 ⟨v, hv⟩
      have hT : T.leafAt? π = some (.arr v) := by
        rw [leafAt?_withNones, hπ]
        simp [unmappedOf, h0, hv]
      have := h (π, some v) (by
        rw [List.zip_map_right, List.mem_map]
        exact ⟨(π, .arr v), (z2 _ _).2 hT, rfl⟩)
      simpa using this
    · rintro h ⟨π, d⟩ hp
      rw [List.zip_map_right, List.mem_map] at hp
      obtain ⟨⟨π', l⟩, hl, e⟩ := hp
      have hT := (z2 π' l).1 hl
      simp only [Prod.map, Prod.mk.injEq, id_eq] at e
      obtain ⟨rfl, rfl⟩ := e
      rw [leafAt?_withNones] at hT
      cases hq : q.leafAt? π' with
      | none => simp [hq] at hT
      | some x =>
        simp only [hq, Option.bind_some, unmappedOf] at hT
        split at hT
        · rename_i hnone
          cases l with
          | obj o => simp [Leaf.dyn?]
          | arr v =>
            have := h π' x hq (by simpa using hnone) ⟨v, by simpa using hT⟩
            simp [this]
        · cases hT
  have hmap : ∀ gs, mapE (fun j : Nat => stackAt w ((j : Int) - maxOut)
        ((((List.range n).map fun i => splitOut maxOut q (fun x => (x i).1) (fun x => (x i).2))).filterMap fun r => r.pmapd[j]?))
        (List.range (2 * maxOut)) = .ok gs ↔
      (∀ x ∈ q.leaves, ∀ ax, (x 0).2 = some ax → ax ∈ axisRange maxOut →
        (∀ i, i < n → ∃ v, asArr w (x i).1 = .ok v) ∧ ∃ u, w.moveaxis (w.stack (lanesOf w n x)) ax = .ok u) ∧
      gs = (axisRange maxOut).map fun ax => withNones (q.map fun x => groupOf ax (finalLeaf w n x) (x 0).2) := by
    intro gs
    rw [mapE_ok]
    constructor
    · rintro ⟨e1, e2⟩
      have e3 : ∀ j : Nat, j < 2 * maxOut → ∃ g, gs[j]? = some g ∧
          stackAt w ((j : Int) - maxOut)
            ((List.range n).map fun i => withNones (q.map fun x => groupOf ((j : Int) - maxOut) (x i).1 (x i).2)) = .ok g := by
        intro j hj
        obtain ⟨g, g1, g2⟩ := e2 j j (List.getElem?_range hj)
        rw [hgroup j hj] at g2
        exact ⟨g, g1, g2⟩
      constructor
      · intro x hx ax h0 hr
        rw [axisRange, List.mem_map] at hr
        obtain ⟨j, hj, rfl⟩ := hr
        obtain ⟨g, _, g2⟩ := e3 j (by simpa using hj)
        obtain ⟨s1, s2, _⟩ := (stackAt_closed w _ q n hn hax).1 g2
        exact ⟨s1 x hx h0, s2 x hx h0⟩
      · apply List.ext_getElem?
        intro j
        by_cases hj : j < 2 * maxOut
        · obtain ⟨g, g1, g2⟩ := e3 j hj
          obtain ⟨_, _, s3⟩ := (stackAt_closed w _ q n hn hax).1 g2
          rw [g1, s3]
          simp [axisRange, List.getElem?_range hj]
        · rw [List.getElem?_eq_none, List.getElem?_eq_none]
          · simp [axisRange]; omega
          · simp at e1; omega
    · rintro ⟨h, rfl⟩
      refine ⟨by simp [axisRange], ?_⟩
      intro j k hk
      obtain ⟨hj, rfl⟩ : j < 2 * maxOut ∧ k = j := by
        rw [List.getElem?_eq_some_iff] at hk
        obtain ⟨h1, h2⟩ := hk
        simp at h1 h2
        exact ⟨h1, h2.symm⟩
      refine ⟨withNones (q.map fun x => groupOf ((k : Int) - maxOut) (finalLeaf w n x) (x 0).2), ?_, ?_⟩
      · simp only [axisRange, List.getElem?_map, List.getElem?_range hj, Option.map_some]
      · rw [hgroup k hj]
        have hmem : ((k : Int) - maxOut) ∈ axisRange maxOut := by
          rw [axisRange, List.mem_map]; exact ⟨k, by simpa using hj, rfl⟩
        exact (stackAt_closed w _ q n hn hax).2 ⟨fun x hx h0 => (h x hx _ h0 hmem).1, fun x hx h0 => (h x hx _ h0 hmem).2, rfl⟩
  rw [hrs, collect, ← hrs]
  constructor
  · intro h
    split at h
    · cases h
    · rename_i hb
      have hb := hbatch.1 (by simpa using hb)
      refine ⟨hb, ?_⟩
      cases hg : mapE (fun j : Nat => stackAt w ((j : Int) - maxOut)
          ((((List.range n).map fun i => splitOut maxOut q (fun x => (x i).1) (fun x => (x i).2))).filterMap fun r => r.pmapd[j]?))
          (List.range (2 * maxOut)) with
      | error e => simp only [hg, bind, Except.bind] at h; cases h
      | ok gs =>
        obtain ⟨h1, h2⟩ := (hmap gs).1 hg
        simp only [hg, bind, Except.bind, pure, Except.pure, Except.ok.injEq] at h
        refine ⟨h1, ?_⟩
        rw [← h, h2]; rfl
  · rintro ⟨h1, h2, rfl⟩
    rw [if_neg (by rw [hbatch.2 h1]; simp), (hmap _).2 ⟨h2, rfl⟩]
    rfl

theorem pmapPostprocess_closed [DecidableEq K] (w : World K V A O) (n maxOut : Nat)
    (q : PT K (Nat → Leaf V O × Option Int))
    (hr : ∀ x ∈ q.leaves, ∀ ax, (x 0).2 = some ax → ax ∈ axisRange maxOut) :
    pmapPostprocess (collected w n maxOut q) = .ok (q.map (finalLeaf w n)) := by
  have h1 := nonpmapd_closed maxOut q (fun x => (x 0).1) (fun x => (x 0).2)
  rw [pmapPostprocess]
  have e : (collected w n maxOut q).treedef = (splitOut maxOut q (fun x => (x 0).1) (fun x => (x 0).2)).treedef ∧
    (collected w n maxOut q).dyn = (splitOut maxOut q (fun x => (x 0).1) (fun x => (x 0).2)).dyn ∧
    (collected w n maxOut q).static = (splitOut maxOut q (fun x => (x 0).1) (fun x => (x 0).2)).static := ⟨rfl, rfl, rfl⟩
  rw [e.1, e.2.1, e.2.2, h1]
  simp only [bind, Except.bind]
  have h2 := combine_closed q
    (((axisRange maxOut).map fun ax => fun x : Nat → Leaf V O × Option Int => groupOf ax (finalLeaf w n x) (x 0).2) ++
      [fun x => unmappedOf (x 0).1 (x 0).2]) (by simp)
  rw [List.map_append, List.map_map] at h2
  simp only [collected]
  refine Eq.trans h2 ?_
  rw [← withNones_some q (finalLeaf w n)]
  congr 2
  apply map_congr_leaves
  intro x hx
  rw [List.findSome?_append, List.findSome?_map]
  cases h0 : (x 0).2 with
  | none =>
    have : List.findSome? ((fun f => f x) ∘ fun ax => fun x : Nat → Leaf V O × Option Int => groupOf ax (finalLeaf w n x) (x 0).2)
        (axisRange maxOut) = Option.none := by
      rw [List.findSome?_eq_none_iff]
      intro ax _
      simp [groupOf, h0]
    rw [this]
    simp [unmappedOf, h0, finalLeaf]
  | some ax =>
    have hmem := hr x hx ax h0
    have : List.findSome? ((fun f => f x) ∘ fun ax => fun x : Nat → Leaf V O × Option Int => groupOf ax (finalLeaf w n x) (x 0).2)
        (axisRange maxOut) = some (finalLeaf w n x) := by
      generalize axisRange maxOut = L at hmem
      induction L with
      | nil => simp at hmem
      | cons b L ih =>
        rw [List.findSome?_cons]
        by_cases hb : ax = b
        · simp [groupOf, h0, hb]
        · have : groupOf b (finalLeaf w n x) (x 0).2 = Option.none := by simp [groupOf, h0, hb]
          simp only [Function.comp, this]
          exact ih (by simpa [hb] using hmem)
    rw [this]; rfl

end Verif.Vmap
