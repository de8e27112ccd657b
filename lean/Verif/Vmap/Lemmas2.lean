import Verif.Vmap.Lemmas
/-! # The stages of `filter_vmap` in closed form -/

namespace Verif.Vmap

open PT Filters

variable {K V A O : Type} {δ : Type}

theorem noneFlags_closed (m : PT K δ) (a : δ → Option Int) :
    (noneFlags (withNones (m.map a)) : Except Err (PT K (Filters.Spec K (Leaf V O)))) =
      .ok (boolSpec true (fun x => (a x).isNone) m) := by
  rw [noneFlags, treeMap1_closed (u := m.cut isNone) (c := onLeaf .none fun x => orNone (a x))
    (g := fun x => .leaf (onLeaf (.bool true) (fun x => .bool (a x).isNone) x)) (cutNone_withNones m a)]
  · have := join_map_leaf (boolSpec (α := Leaf V O) true (fun x => (a x).isNone) m)
    rw [boolSpec, map_map] at this
    exact congrArg _ this
  · intro x hx
    rcases cutNone_leaves hx with ⟨y, _, rfl⟩ | rfl
    · simp only [onLeaf_leaf]
      cases a y <;> rfl
    · rfl

/-- The mapped part of a leaf. -/
def mappedOf (l : Leaf V O) (a : Option Int) : Option (Leaf V O) := if a.isNone then Option.none else some l
/-- The unmapped part of a leaf. -/
def unmappedOf (l : Leaf V O) (a : Option Int) : Option (Leaf V O) := if a.isNone then some l else Option.none

theorem split_closed [DecidableEq K] (p : Val K V O → Bool) (m : PT K δ) (l : δ → Leaf V O) (a : δ → Option Int) :
    (do let flags ← noneFlags (withNones (m.map a)); Filters.partition p flags .none (m.map l)) =
      .ok (withNones (m.map fun x => unmappedOf (l x) (a x)), withNones (m.map fun x => mappedOf (l x) (a x))) := by
  rw [noneFlags_closed]
  exact partition_closed p true _ l m

theorem unflatten_withNones (m : PT K δ) (f g : δ → Option (Leaf V O))
    (h : ∀ x ∈ m.leaves, (f x).isSome = (g x).isSome) (ls : List (Val K V O))
    (hl : ls = (m.leaves.filterMap f).map fun l => .leaf l) :
    treeUnflatten (withNones (m.map g)).shape ls = .ok (withNones (m.map f)) := by
  have := treeUnflatten_shape ((withNones (m.map f)).map fun l => (.leaf l : Val K V O))
  rwa [leaves_map, shape_map, leaves_withNones, join_map_leaf, shape_withNones m f g h, ← hl] at this

theorem laneArgs_closed (w : World K V A O) (m : PT K δ) (l : δ → Leaf V O) (a : δ → Option Int) (i : Nat) :
    laneArgs w (withNones (m.map fun x => mappedOf (l x) (a x))) (withNones (m.map a)) i =
      .ok (withNones (m.map fun x => (a x).map (sliceLeaf w i (l x)))) := by
  rw [laneArgs, leaves_withNones, leaves_withNones]
  apply unflatten_withNones
  · intro x _; cases h : a x <;> simp [mappedOf, h]
  · induction m.leaves with
    | nil => rfl
    | cons x xs ih =>
      cases h : a x with
      | none =>
        have h1 : mappedOf (l x) (a x) = Option.none := by simp [mappedOf, h]
        simp only [List.filterMap_cons, h1, h, Option.map_none]
        exact ih
      | some b =>
        have h1 : mappedOf (l x) (a x) = some (l x) := by simp [mappedOf, h]
        simp only [List.filterMap_cons, h1]
        simp only [h, Option.map_some, List.zipWith_cons_cons, List.map_cons, ih]

theorem combine_two_closed [DecidableEq K] (m : PT K δ) (f g : δ → Option (Leaf V O)) :
    Filters.combine noLeaf [withNones (m.map f), withNones (m.map g)] =
      .ok (withNones (m.map fun x => (f x).or (g x))) := by
  have := combine_closed m [f, g] (by simp)
  simp only [List.map_cons, List.map_nil] at this
  rw [this]
  congr 2
  apply map_congr_leaves
  intro x _
  simp only [List.findSome?_cons, List.findSome?_nil]
  cases f x with
  | none => simp only [Option.none_or]; cases g x <;> rfl
  | some y => rfl

theorem lane_combine [DecidableEq K] (w : World K V A O) (m : PT K δ) (l : δ → Leaf V O) (a : δ → Option Int) (i : Nat) :
    Filters.combine noLeaf [withNones (m.map fun x => (a x).map (sliceLeaf w i (l x))),
        withNones (m.map fun x => unmappedOf (l x) (a x))] =
      .ok (m.map fun x => inLane w i (l x) (a x)) := by
  rw [combine_two_closed, ← withNones_some m (fun x => inLane w i (l x) (a x))]
  congr 2
  apply map_congr_leaves
  intro x _
  cases h : a x <;> cases h' : l x <;> simp [unmappedOf, inLane, sliceLeaf]

theorem whole_combine [DecidableEq K] (m : PT K δ) (l : δ → Leaf V O) (a : δ → Option Int) :
    Filters.combine noLeaf [withNones (m.map fun x => mappedOf (l x) (a x)),
        withNones (m.map fun x => unmappedOf (l x) (a x))] = .ok (m.map l) := by
  rw [combine_two_closed, ← withNones_some m l]
  congr 2
  apply map_congr_leaves
  intro x _
  cases h : a x <;> simp [unmappedOf, mappedOf]

/-- The result of one call of `_fun_wrapper` for output leaves `l` with axes `a`. -/
def laneOut (m : PT K δ) (l : δ → Leaf V O) (a : δ → Option Int) : LaneOut K V O where
  vmapd := withNones (m.map fun x => mappedOf (l x) (a x))
  nonvmapdArr := withNones (m.map fun x =>
    (unmappedOf (l x) (a x)).bind fun y => if isArray (K := K) (.leaf y) then some y else Option.none)
  nonvmapdStatic := withNones (m.map fun x =>
    (unmappedOf (l x) (a x)).bind fun y => if isArray (K := K) (.leaf y) then Option.none else some y)
  outAxes := withNones (m.map a)

theorem funWrapper_closed [DecidableEq K] {f : Fn K V O} {outAxes : PT K (AxSpec V O)} {static dyn : Val K V O}
    {tup : K} {args : List (Val K V O)} (hc : Filters.combine noLeaf [dyn, static] = .ok (.node tup args)) :
    funWrapper f outAxes static dyn = (do
      let out ← f args
      let axes ← resolveAxes out outAxes
      let flags ← noneFlags axes
      let p ← Filters.partition isNone flags .none out
      let q ← Filters.partition noLeaf (.leaf (.callable fun x => .ok (isArray x))) .none p.1
      pure ⟨p.2, q.1, q.2, axes⟩) := by
  simp only [funWrapper, hc, bind, Except.bind, applyTuple]

theorem funWrapper_ok [DecidableEq K] {f : Fn K V O} {outAxes : PT K (AxSpec V O)} {static dyn : Val K V O}
    {tup : K} {args : List (Val K V O)} (hc : Filters.combine noLeaf [dyn, static] = .ok (.node tup args))
    {out : Val K V O} (hf : f args = .ok out) {m : PT K (Leaf V O × Option Int)} (hm : m.map Prod.fst = out)
    (hr : resolveAxes out outAxes = .ok (withNones (m.map Prod.snd))) :
    funWrapper f outAxes static dyn = .ok (laneOut m Prod.fst Prod.snd) := by
  rw [funWrapper_closed hc, hf]
  simp only [bind, Except.bind, hr]
  have h1 := noneFlags_closed (V := V) (O := O) m Prod.snd
  have h2 := partition_closed (α := Leaf V O) isNone true (fun x : Leaf V O × Option Int => x.2.isNone) Prod.fst m
  simp only [h1]
  rw [← hm, h2]
  simp only
  rw [partition_callable_closed, withNones_withNones, withNones_withNones]
  rfl

theorem funWrapper_inv [DecidableEq K] {f : Fn K V O} {outAxes : PT K (AxSpec V O)} {static dyn : Val K V O}
    {tup : K} {args : List (Val K V O)} (hc : Filters.combine noLeaf [dyn, static] = .ok (.node tup args))
    {r : LaneOut K V O} (h : funWrapper f outAxes static dyn = .ok r) :
    ∃ out, ∃ m : PT K (Leaf V O × Option Int), f args = .ok out ∧ m.map Prod.fst = out ∧
      (∀ π x, m.leafAt? π = some x → AxisAt outAxes out π x.2) ∧ r = laneOut m Prod.fst Prod.snd := by
  have h' := h
  rw [funWrapper_closed hc] at h'
  cases hf : f args with
  | error e => simp [hf, bind, Except.bind] at h'
  | ok out =>
    simp only [hf, bind, Except.bind] at h'
    cases hr : resolveAxes out outAxes with
    | error e => simp [hr] at h'
    | ok axes =>
      obtain ⟨m, h1, h2, h3⟩ := resolveAxes_ok hr
      refine ⟨out, m, rfl, h1, h3, ?_⟩
      rw [funWrapper_ok hc hf h1 (by rw [hr, h2])] at h
      exact (Except.ok.inj h).symm

/-! ## Stacking -/

/-- The array of an output leaf. -/
def arrOf (w : World K V A O) (l : Leaf V O) : V :=
  match asArr w l with
  | .ok v => v
  | .error _ => w.stack []

/-- All lanes of a mapped leaf. -/
def lanesOf (w : World K V A O) (n : Nat) (x : Nat → Leaf V O × Option Int) : List V :=
  (List.range n).map fun i => arrOf w (x i).1

theorem filterMap_congr_some {X Y Z : Type} (L : List X) (f : X → Option Y) (g : X → Option Z)
    (h : ∀ x ∈ L, (f x).isSome = (g x).isSome) (j : Nat) (x : Y) (hx : (L.filterMap f)[j]? = some x) :
    ∃ e ∈ L, f e = some x ∧ ∃ y, g e = some y ∧ (L.filterMap g)[j]? = some y := by
  induction L generalizing j with
  | nil => simp at hx
  | cons e L ih =>
    have he := h e (by simp)
    cases hf : f e with
    | none =>
      rw [hf] at he
      have hg : g e = Option.none := by simpa using he.symm
      simp only [List.filterMap_cons, hf] at hx
      obtain ⟨e', h1, h2, y, h3, h4⟩ := ih (fun x hx => h x (by simp [hx])) j hx
      exact ⟨e', by simp [h1], h2, y, h3, by simpa [List.filterMap_cons, hg] using h4⟩
    | some z =>
      rw [hf] at he
      obtain ⟨y, hg⟩ := Option.isSome_iff_exists.1 (by simpa using he.symm : (g e).isSome = true)
      simp only [List.filterMap_cons, hf] at hx
      cases j with
      | zero =>
        simp at hx; subst hx
        exact ⟨e, by simp, hf, y, hg, by simp [List.filterMap_cons, hg]⟩
      | succ j =>
        simp only [List.getElem?_cons_succ] at hx
        obtain ⟨e', h1, h2, y', h3, h4⟩ := ih (fun x hx => h x (by simp [hx])) j hx
        exact ⟨e', by simp [h1], h2, y', h3, by simpa [List.filterMap_cons, hg] using h4⟩


theorem mapE_total {X Y : Type} {f : X → Except Err Y} {d : X → Y} (hd : ∀ x y, f x = .ok y → d x = y) {xs : List X}
    {ys : List Y} : mapE f xs = .ok ys ↔ (∀ x ∈ xs, f x = .ok (d x)) ∧ ys = xs.map d := by
  induction xs generalizing ys with
  | nil => simp [mapE, eq_comm]
  | cons x xs ih =>
    simp only [mapE, bind, Except.bind, pure, Except.pure]
    cases h : f x with
    | error e => simp [h]
    | ok y =>
      have hy := hd x y h
      subst hy
      simp only
      cases h2 : mapE f xs with
      | error e =>
        simp only [reduceCtorEq, List.mem_cons, forall_eq_or_imp, List.map_cons, false_iff]
        rintro ⟨⟨-, h3⟩, -⟩
        rw [ih.2 ⟨h3, rfl⟩] at h2
        cases h2
      | ok zs =>
        obtain ⟨h3, rfl⟩ := ih.1 h2
        simp only [Except.ok.injEq, List.mem_cons, forall_eq_or_imp, List.map_cons]
        exact ⟨fun e => ⟨⟨h, h3⟩, e.symm⟩, fun e => e.2.symm⟩

theorem isArr_iff {w : World K V A O} {l : Leaf V O} {u : V} : IsArr w l u ↔ asArr w l = .ok u := by
  cases l with
  | arr v => simp [IsArr, asArr]
  | obj o => cases h : w.asArray o <;> simp [IsArr, asArr, h]

theorem arrOf_spec (w : World K V A O) (l : Leaf V O) (v : V) (h : asArr w l = .ok v) : arrOf w l = v := by
  simp [arrOf, h]

theorem stackLanes_head (w : World K V A O) {ts : List (Val K V O)} {t : Val K V O} (h : ts[0]? = some t) :
    stackLanes w ts = (do
      let rows ← mapE (fun u : Val K V O => mapE (asArr w) u.leaves) ts
      treeUnflatten t.shape
        ((List.range t.leaves.length).map fun j => .leaf (.arr (w.stack (column rows j))))) := by
  cases ts with
  | nil => simp at h
  | cons t' ts => simp at h; subst h; rfl

theorem column_map {X Y I : Type} (is : List I) (L : List X) (h : I → X → Y) (j : Nat) (x : X) (hx : L[j]? = some x) :
    column (is.map fun i => L.map (h i)) j = is.map fun i => h i x := by
  rw [column, List.filterMap_map]
  induction is with
  | nil => rfl
  | cons i is ih => simp [List.filterMap_cons, hx] at ih ⊢; exact ih

/-- The trees of all lanes, stacked. -/
theorem stackLanes_closed (w : World K V A O) (q : PT K (Nat → Leaf V O × Option Int)) (n : Nat) (hn : 0 < n)
    (hax : ∀ x ∈ q.leaves, ∀ i, i < n → (x i).2 = (x 0).2) {r : Val K V O} :
    stackLanes w ((List.range n).map fun i => withNones (q.map fun x => mappedOf (x i).1 (x i).2)) = .ok r ↔
      (∀ x ∈ q.leaves, (x 0).2.isSome → ∀ i, i < n → ∃ v, asArr w (x i).1 = .ok v) ∧
      r = withNones (q.map fun x => (x 0).2.map fun _ => .arr (w.stack (lanesOf w n x))) := by
  have hfm : ∀ i, i < n → (q.leaves.filterMap fun x => mappedOf (x i).1 (x i).2) =
      (q.leaves.filter fun x => (x 0).2.isSome).map fun x => (x i).1 := by
    intro i hi
    have : ∀ L : List (Nat → Leaf V O × Option Int), (∀ x ∈ L, (x i).2 = (x 0).2) →
        (L.filterMap fun x => mappedOf (x i).1 (x i).2) = (L.filter fun x => (x 0).2.isSome).map fun x => (x i).1 := by
      intro L
      induction L with
      | nil => intro _; rfl
      | cons x xs ih =>
        intro h
        have hx := h x (by simp)
        have ih' := ih fun y hy => h y (by simp [hy])
        cases h0 : (x 0).2 with
        | none =>
          have h1 : mappedOf (x i).1 (x i).2 = Option.none := by simp [mappedOf, hx, h0]
          simp only [List.filterMap_cons, h1, List.filter_cons, h0]
          exact ih'
        | some b =>
          have h1 : mappedOf (x i).1 (x i).2 = some (x i).1 := by simp [mappedOf, hx, h0]
          simp only [List.filterMap_cons, h1, List.filter_cons, h0]
          simpa using ih'
    exact this _ fun x hx => hax x hx i hi
  have hG : (q.leaves.filterMap fun x => (x 0).2.map fun _ => (Leaf.arr (w.stack (lanesOf w n x)) : Leaf V O)) =
      (q.leaves.filter fun x => (x 0).2.isSome).map fun x => .arr (w.stack (lanesOf w n x)) := by
    induction q.leaves with
    | nil => rfl
    | cons x xs ih => cases h0 : (x 0).2 <;> simp [List.filterMap_cons, List.filter_cons, h0, ih]
  rw [stackLanes_head w (t := withNones (q.map fun x => mappedOf (x 0).1 (x 0).2)) (by simp [hn])]
  have hrows : ∀ rows, mapE (fun u : Val K V O => mapE (asArr w) u.leaves)
      ((List.range n).map fun i => withNones (q.map fun x => mappedOf (x i).1 (x i).2)) = .ok rows ↔
      (∀ x ∈ q.leaves, (x 0).2.isSome → ∀ i, i < n → ∃ v, asArr w (x i).1 = .ok v) ∧
      rows = (List.range n).map fun i => (q.leaves.filter fun x => (x 0).2.isSome).map fun x => arrOf w (x i).1 := by
    intro rows
    rw [mapE_total (d := fun u => u.leaves.map (arrOf w))
      (fun u y h => ((mapE_total (arrOf_spec w)).1 h).2.symm)]
    apply and_congr
    · constructor
      · intro h x hx h0 i hi
        have h1 := h (withNones (q.map fun x => mappedOf (x i).1 (x i).2)) (by simp; exact ⟨i, hi, rfl⟩)
        rw [leaves_withNones, hfm i hi] at h1
        have h2 := ((mapE_total (arrOf_spec w)).1 h1).1 (x i).1 (by
          simp only [List.mem_map, List.mem_filter]
          exact ⟨x, ⟨hx, h0⟩, rfl⟩)
        exact ⟨_, h2⟩
      · intro h u hu
        simp only [List.mem_map, List.mem_range] at hu
        obtain ⟨i, hi, rfl⟩ := hu
        rw [leaves_withNones, hfm i hi, mapE_total (arrOf_spec w)]
        refine ⟨?_, rfl⟩
        intro l hl
        simp only [List.mem_map, List.mem_filter] at hl
        obtain ⟨x, ⟨hx, h0⟩, rfl⟩ := hl
        obtain ⟨v, hv⟩ := h x hx h0 i hi
        rw [hv, arrOf_spec w _ _ hv]
    · rw [List.map_map]
      have : ((fun u : Val K V O => u.leaves.map (arrOf w)) ∘
          fun i => withNones (q.map fun x => mappedOf (x i).1 (x i).2)) =
          fun i => (q.leaves.filterMap fun x => mappedOf (x i).1 (x i).2).map (arrOf w) := by
        funext i; simp [leaves_withNones]
      rw [this, List.map_congr_left (g := fun i =>
        (q.leaves.filter fun x => (x 0).2.isSome).map fun x => arrOf w (x i).1)]
      intro i hi
      rw [hfm i (by simpa using hi), List.map_map]
      rfl
  have hun : treeUnflatten (withNones (q.map fun x => mappedOf (x 0).1 (x 0).2)).shape
      ((List.range (withNones (q.map fun x => mappedOf (x 0).1 (x 0).2)).leaves.length).map fun j =>
        (.leaf (.arr (w.stack (column ((List.range n).map fun i =>
          (q.leaves.filter fun x => (x 0).2.isSome).map fun x => arrOf w (x i).1) j))) : Val K V O)) =
      .ok (withNones (q.map fun x => (x 0).2.map fun _ => .arr (w.stack (lanesOf w n x)))) := by
    apply unflatten_withNones
    · intro x _; cases h : (x 0).2 <;> simp [mappedOf]
    · rw [hG, leaves_withNones, hfm 0 hn, List.map_map]
      apply List.ext_getElem?
      intro j
      simp only [List.length_map, List.getElem?_map]
      cases hj : (q.leaves.filter fun x => (x 0).2.isSome)[j]? with
      | none =>
        have := List.getElem?_eq_none_iff.1 hj
        simp [List.getElem?_range, Nat.not_lt.2 this]
      | some x =>
        obtain ⟨hlt, -⟩ := List.getElem?_eq_some_iff.1 hj
        rw [List.getElem?_range hlt]
        simp only [Option.map_some, Function.comp]
        rw [column_map _ _ (fun i (x : Nat → Leaf V O × Option Int) => arrOf w (x i).1) j x hj]
        rfl
  constructor
  · intro h
    cases hr : mapE (fun u : Val K V O => mapE (asArr w) u.leaves)
        ((List.range n).map fun i => withNones (q.map fun x => mappedOf (x i).1 (x i).2)) with
    | error e => simp [hr, bind, Except.bind] at h
    | ok rows =>
      obtain ⟨h1, h2⟩ := (hrows rows).1 hr
      simp only [hr, bind, Except.bind, h2, hun] at h
      exact ⟨h1, (Except.ok.inj h).symm⟩
  · rintro ⟨h1, rfl⟩
    simp only [(hrows _).2 ⟨h1, rfl⟩, bind, Except.bind, hun]

/-! ## Putting the output together -/

/-- A leaf of the output. -/
def finalLeaf (w : World K V A O) (n : Nat) (x : Nat → Leaf V O × Option Int) : Leaf V O :=
  match (x 0).2 with
  | Option.none => (x 0).1
  | some ax => match w.moveaxis (w.stack (lanesOf w n x)) ax with
    | .ok u => .arr u
    | .error _ => .arr (w.stack [])

/-- The stacked lanes together with the unmapped parts of the first. -/
def stacked (w : World K V A O) (n : Nat) (q : PT K (Nat → Leaf V O × Option Int)) : LaneOut K V O :=
  { laneOut q (fun x => (x 0).1) (fun x => (x 0).2) with
    vmapd := withNones (q.map fun x => (x 0).2.map fun _ => .arr (w.stack (lanesOf w n x))) }

theorem finishVmap_closed [DecidableEq K] (w : World K V A O) (n : Nat) (q : PT K (Nat → Leaf V O × Option Int))
    {out : Val K V O} : finishVmap w (stacked w n q) = .ok out ↔
      (∀ x ∈ q.leaves, ∀ ax, (x 0).2 = some ax → ∃ u, w.moveaxis (w.stack (lanesOf w n x)) ax = .ok u) ∧
      out = q.map (finalLeaf w n) := by
  have h1 : Filters.combine noLeaf [(stacked w n q).nonvmapdArr, (stacked w n q).nonvmapdStatic] =
      .ok (withNones (q.map fun x => unmappedOf (x 0).1 (x 0).2)) := by
    rw [stacked, laneOut, combine_two_closed]
    congr 2
    apply map_congr_leaves
    intro x _
    cases h : (x 0).2 <;> simp only [unmappedOf, Option.isNone]
    · simp only [if_true, Option.bind_some]; split <;> rfl
    · rfl
  have h2 : (stacked w n q).vmapd.shape = (stacked w n q).outAxes.shape := by
    apply shape_withNones
    intro x _; simp
  simp only [finishVmap, h1, h2, bind, Except.bind, ne_eq, not_true_eq_false, if_false]
  -- the tree of pairs of a stacked array and its axis
  let T : PT K (V × Int) := withNones (q.map fun x => (x 0).2.map fun ax => (w.stack (lanesOf w n x), ax))
  have e1 : (stacked w n q).vmapd = T.map fun y => .arr y.1 := by
    rw [withNones_map]
    show withNones (q.map fun x => (x 0).2.map fun _ => Leaf.arr (w.stack (lanesOf w n x))) = _
    congr 1
    apply map_congr_leaves
    intro x _; cases (x 0).2 <;> rfl
  have e2 : (stacked w n q).outAxes = T.map fun y => y.2 := by
    rw [withNones_map]
    show withNones (q.map fun x => (x 0).2) = _
    congr 1
    apply map_congr_leaves
    intro x _; cases (x 0).2 <;> rfl
  have hT : T.leaves = q.leaves.filterMap fun x => (x 0).2.map fun ax => (w.stack (lanesOf w n x), ax) :=
    leaves_withNones _ _
  have hmem : ∀ y, y ∈ T.leaves ↔ ∃ x ∈ q.leaves, (x 0).2 = some y.2 ∧ y.1 = w.stack (lanesOf w n x) := by
    intro y
    rw [hT, List.mem_filterMap]
    constructor
    · rintro ⟨x, hx, h⟩
      cases h0 : (x 0).2 with
      | none => simp [h0] at h
      | some ax => simp [h0] at h; subst h; exact ⟨x, hx, h0, rfl⟩
    · rintro ⟨x, hx, h0, h⟩
      exact ⟨x, hx, by simp [h0, ← h]⟩
  rw [e1, e2]
  -- `tree_map` succeeds exactly if every call does
  have hmove : ∀ (hall : ∀ y ∈ T.leaves, ∃ u, w.moveaxis y.1 y.2 = .ok u),
      treeMap2 noLeaf (moveLeaf w) (T.map fun y => .arr y.1) (T.map fun y => y.2) =
      .ok (withNones (q.map fun x => mappedOf (finalLeaf w n x) (x 0).2)) := by
    intro hall
    rw [treeMap2_closed (u := T) (b := fun y => .leaf (.arr y.1)) (c := fun y => .leaf y.2)
      (g := fun y => .leaf (match w.moveaxis y.1 y.2 with | .ok u => .arr u | .error _ => .arr (w.stack [])))
      (by rw [cut_noLeaf, map_map])]
    · have := join_map_leaf (T.map fun y =>
        (match w.moveaxis y.1 y.2 with | .ok u => .arr u | .error _ => .arr (w.stack []) : Leaf V O))
      rw [map_map] at this
      rw [this]
      show Except.ok (PT.map _ (withNones _)) = _
      rw [withNones_map]
      congr 2
      apply map_congr_leaves
      intro x _
      cases h : (x 0).2 with
      | none => simp [mappedOf]
      | some ax => simp [mappedOf, finalLeaf, h]
    · have := join_map_leaf (T.map fun y => y.2)
      rw [map_map] at this
      exact this.symm
    · intro y hy
      obtain ⟨u, hu⟩ := hall y hy
      simp [moveLeaf, hu, Except.map]
  have hfin : Filters.combine noLeaf [withNones (q.map fun x => mappedOf (finalLeaf w n x) (x 0).2),
      withNones (q.map fun x => unmappedOf (x 0).1 (x 0).2)] = .ok (q.map (finalLeaf w n)) := by
    rw [combine_two_closed, ← withNones_some q (finalLeaf w n)]
    congr 2
    apply map_congr_leaves
    intro x _
    cases h : (x 0).2 with
    | none => simp [mappedOf, unmappedOf, finalLeaf, h]
    | some ax => simp [mappedOf, unmappedOf]
  constructor
  · intro h
    cases hr : treeMap2 noLeaf (moveLeaf w) (T.map fun y => .arr y.1) (T.map fun y => y.2) with
    | error e => simp [hr] at h
    | ok r =>
      have hall : ∀ y ∈ T.leaves, ∃ u, w.moveaxis y.1 y.2 = .ok u := by
        intro y hy
        obtain ⟨i, hi⟩ := List.getElem?_of_mem hy
        obtain ⟨π, hπ⟩ := exists_leafAt?_of_getElem? hi
        have h3 := hπ T rfl y hi
        rw [treeMap2_ok] at hr
        obtain ⟨c, o, g1, g2, -, -, g5⟩ := hr
        have hc : c = (T.map fun y => (.leaf y.2 : PT K Int)) := by
          apply join_inj
          · rw [g1, cut_noLeaf, shape_map, shape_map, shape_map]
          · rw [g2]
            have := join_map_leaf (T.map fun y => y.2)
            rw [map_map] at this
            exact this.symm
        obtain ⟨z, -, hz⟩ := g5 π (.leaf (.arr y.1)) (.leaf y.2) (by simp [cut_noLeaf, leafAt?_map, h3])
          (by simp [hc, leafAt?_map, h3])
        simp only [moveLeaf] at hz
        cases hm : w.moveaxis y.1 y.2 with
        | error e => simp [hm, Except.map] at hz
        | ok u => exact ⟨u, rfl⟩
      rw [hmove hall] at hr
      cases hr
      rw [hmove hall] at h
      simp only [hfin] at h
      refine ⟨?_, (Except.ok.inj h).symm⟩
      intro x hx ax h0
      exact hall (w.stack (lanesOf w n x), ax) ((hmem _).2 ⟨x, hx, h0, rfl⟩)
  · rintro ⟨h3, rfl⟩
    rw [hmove]
    · exact hfin
    · intro y hy
      obtain ⟨x, hx, h0, h4⟩ := (hmem y).1 hy
      rw [h4]
      exact h3 x hx _ h0

end Verif.Vmap
