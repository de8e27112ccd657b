import Verif.Vmap.PmapCache
/-! # Properties of the cache of `filter_pmap` (C89) -/

namespace Verif.Vmap

open PT Filters

variable {K V A O S Q F N J : Type}

/-! ### Pairs of trees -/

theorem exists_pair {α β γ : Type} {x : PT K α} {y : PT K β} {f : α → γ} {g : β → γ} (h : x.map f = y.map g) :
    ∃ q : PT K (α × β), q.map Prod.fst = x ∧ q.map Prod.snd = y ∧ ∀ p ∈ q.leaves, f p.1 = g p.2 := by
  induction x using ind generalizing y with
  | leaf a =>
    cases y with
    | leaf b => simp only [PT.map, PT.leaf.injEq] at h; exact ⟨.leaf (a, b), rfl, rfl, by simpa [leaves] using h⟩
    | none => simp [PT.map] at h
    | node k cs => simp [PT.map] at h
  | none =>
    cases y with
    | leaf b => simp [PT.map] at h
    | none => exact ⟨.none, rfl, rfl, by simp [leaves]⟩
    | node k cs => simp [PT.map] at h
  | node k cs ih =>
    cases y with
    | leaf b => simp [PT.map] at h
    | none => simp [PT.map] at h
    | node k' cs' =>
      simp only [PT.map, mapL_eq, PT.node.injEq] at h
      obtain ⟨rfl, h⟩ := h
      have key : ∀ (l : List (PT K α)) (l' : List (PT K β)), (∀ c ∈ l, ∀ {y : PT K β}, c.map f = y.map g →
            ∃ q : PT K (α × β), q.map Prod.fst = c ∧ q.map Prod.snd = y ∧ ∀ p ∈ q.leaves, f p.1 = g p.2) →
          l.map (PT.map f) = l'.map (PT.map g) →
          ∃ qs : List (PT K (α × β)), qs.map (PT.map Prod.fst) = l ∧ qs.map (PT.map Prod.snd) = l' ∧ ∀ q ∈ qs, ∀ p ∈ q.leaves, f p.1 = g p.2 := by
        intro l
        induction l with
        | nil =>
          intro l' _ hl
          have : l' = [] := by simpa using hl.symm
          subst this
          exact ⟨[], rfl, rfl, by simp⟩
        | cons c l ihl =>
          intro l' hc hl
          cases l' with
          | nil => simp at hl
          | cons c' l' =>
            simp only [List.map_cons, List.cons.injEq] at hl
            obtain ⟨q, h1, h2, h3⟩ := hc c (by simp) hl.1
            obtain ⟨qs, g1, g2, g3⟩ := ihl l' (fun d hd => hc d (by simp [hd])) hl.2
            refine ⟨q :: qs, by simp [h1, g1], by simp [h2, g2], ?_⟩
            intro r hr
            rcases List.mem_cons.1 hr with rfl | hr
            · exact h3
            · exact g3 r hr
      obtain ⟨qs, h1, h2, h3⟩ := key cs cs' ih h
      refine ⟨.node k qs, by simp [PT.map, mapL_eq, h1], by simp [PT.map, mapL_eq, h2], ?_⟩
      intro p hp
      simp only [leaves, leavesL_eq, List.mem_flatMap] at hp
      obtain ⟨q, hq, hp⟩ := hp
      exact h3 q hq p hp

theorem map_eq_leaf {α β γ : Type} {x : PT K α} {f : α → β} {g : α → β} (h : x.map f = x.map g) : ∀ a ∈ x.leaves, f a = g a := by
  have h1 := congrArg leaves h
  rw [leaves_map, leaves_map] at h1
  exact List.map_inj_left.1 h1

theorem withNones_inj {α β : Type} {x : PT K α} {f g : α → Option β} (h : withNones (x.map f) = withNones (x.map g)) :
    ∀ a ∈ x.leaves, f a = g a := by
  induction x using ind with
  | leaf a =>
    simp only [withNones, PT.map, join] at h
    intro b hb
    simp only [leaves, List.mem_singleton] at hb
    subst hb
    cases hf : f b <;> cases hg : g b <;> simp [hf, hg, orNone] at h ⊢
    exact h
  | none => simp [leaves]
  | node k cs ih =>
    simp only [withNones, PT.map, mapL_eq, join, joinL_eq, List.map_map, PT.node.injEq, true_and] at h
    intro a ha
    simp only [leaves, leavesL_eq, List.mem_flatMap] at ha
    obtain ⟨c, hc, ha⟩ := ha
    have := List.map_inj_left.1 h c hc
    exact ih c hc this a ha

/-- The static part and the structs are the same just if the values are. -/
theorem split_iff (w : CacheWorld K V A O S Q F N) (x y : Val K V O) :
    ((withNones (x.map staticL)).map w.objKey = (withNones (y.map staticL)).map w.objKey ∧
      (withNones (x.map dynL)).map w.structKey = (withNones (y.map dynL)).map w.structKey) ↔ SameVal w x y := by
  have e1 : ∀ z : Val K V O, (withNones (z.map staticL)).map w.objKey = withNones ((z.map w.leafClass).map fun c => match c with
      | .inl _ => Option.none
      | .inr q => some (some q)) := by
    intro z
    rw [withNones_map, map_map]
    congr 2
    funext l
    cases l <;> rfl
  have e2 : ∀ z : Val K V O, (withNones (z.map dynL)).map w.structKey = withNones ((z.map w.leafClass).map fun c => match c with
      | .inl s => some (some s)
      | .inr _ => Option.none) := by
    intro z
    rw [withNones_map, map_map]
    congr 2
    funext l
    cases l <;> rfl
  rw [e1, e1, e2, e2, SameVal]
  generalize x.map w.leafClass = x
  generalize y.map w.leafClass = y
  constructor
  · rintro ⟨h1, h2⟩
    induction x using ind generalizing y with
    | leaf a =>
      cases y with
      | leaf b =>
        simp only [withNones, PT.map, join] at h1 h2
        cases a <;> cases b <;> simp [orNone] at h1 h2 ⊢ <;> first | exact h1 | exact h2
      | none => cases a <;> simp [withNones, PT.map, join, orNone] at h1 h2
      | node k cs => cases a <;> simp [withNones, PT.map, join, orNone] at h1 h2
    | none =>
      cases y with
      | leaf b => cases b <;> simp [withNones, PT.map, join, orNone] at h1 h2
      | none => rfl
      | node k cs => simp [withNones, PT.map, join] at h1
    | node k cs ih =>
      cases y with
      | leaf b => cases b <;> simp [withNones, PT.map, join, orNone] at h1 h2
      | none => simp [withNones, PT.map, join] at h1
      | node k' cs' =>
        simp only [withNones, PT.map, mapL_eq, join, joinL_eq, List.map_map, PT.node.injEq] at h1 h2
        obtain ⟨rfl, h1⟩ := h1
        obtain ⟨_, h2⟩ := h2
        congr 1
        induction cs generalizing cs' with
        | nil => simpa using h1.symm
        | cons c cs ihl =>
          cases cs' with
          | nil => simp at h1
          | cons c' cs' =>
            simp only [List.map_cons, List.cons.injEq] at h1 h2 ⊢
            exact ⟨ih c (by simp) c' h1.1 h2.1, ihl (fun d hd => ih d (by simp [hd])) cs' h1.2 h2.2⟩
  · rintro rfl
    exact ⟨rfl, rfl⟩

/-! ### The key -/

section
variable [DecidableEq K]

theorem splitArrays_eq (x : Val K V O) : splitArrays x = .ok (withNones (x.map dynL), withNones (x.map staticL)) := by
  rw [splitArrays, partition_callable_closed]
  simp only [isArray_leaf]
  rfl

theorem prepare_ok {tup : K} {c : PCall K V O J} {p : Prep K V O} (h : prepare tup c = .ok p) :
    c.kwargs = [] ∧ axesOf tup c = .ok p.axes ∧ p.fn = (withNones (c.fn.map dynL), withNones (c.fn.map staticL)) ∧
      p.args = (withNones ((PT.node tup c.args).map dynL), withNones ((PT.node tup c.args).map staticL)) := by
  rw [prepare] at h
  split at h
  · contradiction
  · rename_i hk
    simp only [bind, Except.bind, pure, Except.pure, splitArrays_eq] at h
    simp only [axesOf, Except.bind]
    cases hn : namedTree tup c.params c.args.length c.inAxes with
    | error e => simp [hn] at h
    | ok spec =>
      simp only [hn] at h ⊢
      cases hr : resolveAxes (.node tup c.args) spec with
      | error e => simp [hr] at h
      | ok axes =>
        simp only [hr, Except.ok.injEq] at h
        subst h
        exact ⟨by simpa using hk, rfl, rfl, rfl⟩

theorem prepare_isOk {tup : K} {c : PCall K V O J} {axes : PT K Int} (hk : c.kwargs = []) (h : axesOf tup c = .ok axes) :
    ∃ p, prepare tup c = .ok p := by
  rw [prepare, if_neg (by simp [hk])]
  simp only [axesOf, Except.bind] at h
  simp only [bind, Except.bind, pure, Except.pure, splitArrays_eq]
  cases hn : namedTree tup c.params c.args.length c.inAxes with
  | error e => simp [hn] at h
  | ok spec =>
    simp only [hn] at h ⊢
    rw [h]
    exact ⟨_, rfl⟩

theorem key_iff (w : CacheWorld K V A O S Q F N) {tup : K} {c d : PCall K V O J} {p p' : Prep K V O} (hp : prepare tup c = .ok p)
    (hp' : prepare tup d = .ok p') :
    (w.function c.fn, pmapKey w c p) = (w.function d.fn, pmapKey w d p') ↔ SameCall w tup c d := by
  obtain ⟨_, h2, h3, h4⟩ := prepare_ok hp
  obtain ⟨_, g2, g3, g4⟩ := prepare_ok hp'
  simp only [pmapKey, Prod.mk.injEq, PKey.mk.injEq, h3, h4, g3, g4]
  constructor
  · rintro ⟨i1, i2, i3, i4, i5, i6, i7, i8, i9, i10⟩
    exact ⟨i1, i2, (split_iff w _ _).1 ⟨i3, i6⟩, (split_iff w _ _).1 ⟨i4, i7⟩, by rw [h2, g2, i8], i5, i9, i10⟩
  · rintro ⟨i1, i2, i3, i4, i5, i6, i7, i8⟩
    obtain ⟨a1, a2⟩ := (split_iff w _ _).2 i3
    obtain ⟨b1, b2⟩ := (split_iff w _ _).2 i4
    rw [h2, g2] at i5
    injection i5 with i5
    exact ⟨i1, i2, a1, b1, i6, a2, b2, i5, i7, i8⟩

omit [DecidableEq K] in
theorem static_hash (w : CacheWorld K V A O S Q F N) (x : Val K V O) :
    (withNones (x.map staticL)).leaves.all w.leafHash = true ↔ ∀ o, .obj o ∈ x.leaves → w.hashable o = true := by
  rw [leaves_withNones, List.all_eq_true]
  constructor
  · intro h o ho
    exact h (.obj o) (List.mem_filterMap.2 ⟨_, ho, rfl⟩)
  · intro h l hl
    obtain ⟨l', hl', hs⟩ := List.mem_filterMap.1 hl
    cases l' with
    | arr v => simp [staticL, isArray] at hs
    | obj o =>
      simp [staticL, isArray] at hs
      subst hs
      exact h o hl'

theorem hash_iff (w : CacheWorld K V A O S Q F N) {tup : K} {c : PCall K V O J} {p : Prep K V O} (hp : prepare tup c = .ok p) :
    keyHash w c p = true ↔ CallHash w tup c := by
  obtain ⟨_, _, h3, h4⟩ := prepare_ok hp
  rw [keyHash, CallHash, h3, h4, Bool.and_eq_true, Bool.and_eq_true, static_hash, static_hash, List.all_eq_true, and_assoc]

/-! ### An entry made by an equal call -/

/-- An array from the first, anything else from the second. -/
def mixLeaf (a b : Leaf V O) : Leaf V O :=
  match a with
  | .arr v => .arr v
  | .obj _ => b

omit [DecidableEq K] in
theorem mixed_of_pair (w : CacheWorld K V A O S Q F N) {q : PT K (Leaf V O × Leaf V O)} (h : ∀ p ∈ q.leaves, w.leafClass p.1 = w.leafClass p.2) :
    Mixed (q.map Prod.fst) (q.map Prod.snd) (q.map fun p => mixLeaf p.1 p.2) := by
  refine ⟨by rw [sameStructure_iff, shape_map, shape_map], by rw [sameStructure_iff, shape_map, shape_map], ?_⟩
  intro π l hl
  rw [leafAt?_map, Option.map_eq_some_iff] at hl
  obtain ⟨⟨a, b⟩, hp, rfl⟩ := hl
  have hc := h _ (mem_leaves_iff.2 ⟨π, hp⟩)
  rw [leafAt?_map, leafAt?_map, hp]
  cases a <;> cases b <;> simp [mixLeaf, CacheWorld.leafClass] at hc ⊢

/-- The mixed leaf looks like the second. -/
theorem mixLeaf_struct (w : CacheWorld K V A O S Q F N) {a b : Leaf V O} (h : w.leafClass a = w.leafClass b) :
    w.leafStruct (mixLeaf a b) = w.leafStruct b := by
  cases a <;> cases b <;> simp [mixLeaf, CacheWorld.leafClass, CacheWorld.leafStruct] at h ⊢
  exact h

theorem mixLeaf_dyn (w : CacheWorld K V A O S Q F N) {a b : Leaf V O} (h : w.leafClass a = w.leafClass b) : dynL (mixLeaf a b) = dynL a := by
  cases a <;> cases b <;> simp [mixLeaf, CacheWorld.leafClass, dynL, isArray] at h ⊢

theorem mixLeaf_static (w : CacheWorld K V A O S Q F N) {a b : Leaf V O} (h : w.leafClass a = w.leafClass b) :
    staticL (mixLeaf a b) = staticL b := by
  cases a <;> cases b <;> simp [mixLeaf, CacheWorld.leafClass, staticL, isArray] at h ⊢

omit [DecidableEq K] in
theorem maxOut_rank (w : CacheWorld K V A O S Q F N) {o o' : Val K V O} (h : o.map w.leafRank = o'.map w.leafRank) :
    maxOutSize w.toWorld w.ndim o = maxOutSize w.toWorld w.ndim o' := by
  have key : ∀ (L L' : List (Leaf V O)), L.map w.leafRank = L'.map w.leafRank → ∀ b : Nat,
      (L.filterMap fun l => (asArr w.toWorld l).toOption).foldl (fun m v => max m (w.ndim v + 1)) b =
      (L'.filterMap fun l => (asArr w.toWorld l).toOption).foldl (fun m v => max m (w.ndim v + 1)) b := by
    intro L
    induction L with
    | nil => intro L' h; simp at h; subst h; intro b; rfl
    | cons x L ih =>
      intro L' h b
      cases L' with
      | nil => simp at h
      | cons y L' =>
        simp only [List.map_cons, List.cons.injEq] at h
        have hx : ((asArr w.toWorld x).toOption).map w.ndim = ((asArr w.toWorld y).toOption).map w.ndim := by
          have := h.1
          cases x <;> cases y <;> simp [CacheWorld.leafRank] at this
          · simp [asArr, Except.toOption, this]
          · rw [this]
        rw [List.filterMap_cons, List.filterMap_cons]
        cases ha : (asArr w.toWorld x).toOption <;> cases hb : (asArr w.toWorld y).toOption <;> simp [ha, hb] at hx
        · simpa using ih L' h.2 b
        · simp only [List.foldl_cons, hx]
          exact ih L' h.2 _
  rw [maxOutSize, maxOutSize]
  apply key
  rw [← leaves_map, h, leaves_map]

theorem pmapOutputs_finish (w : World K V A O) (ndim : V → Nat) (bat : List Nat → Bool) (outAxes : PT K (AxSpec V O)) (maxOut : Nat)
    (outs : List (Val K V O)) (h : ∀ o, outs.head? = some o → maxOut = maxOutSize w ndim o) :
    finishPmap w maxOut bat outAxes outs = pmapOutputs w ndim bat outAxes outs := by
  cases outs with
  | nil => rfl
  | cons o os => rw [h o rfl]; rfl

/-- The entry made for `d`, run on the arrays of an equal call `c`. -/
theorem runEntry_mixed (w : CacheWorld K V A O S Q F N) (hw : Shapely w) {tup : K} {c d : PCall K V O J} {p p' : Prep K V O}
    (hp : prepare tup c = .ok p) (hp' : prepare tup d = .ok p') (hs : SameCall w tup c d) {e : Entry K V O} (he : makeEntry w d p' = .ok e) :
    ∃ fn args, Mixed c.fn d.fn fn ∧ Mixed (.node tup c.args) (.node tup d.args) (.node tup args) ∧
      runEntry w e p.fn.1 p.args.1 = pmapAt w.toWorld w.ndim tup (w.call fn) p.axes (d.outAxes.map w.axis) c.axisSize args := by
  obtain ⟨_, h2, h3, h4⟩ := prepare_ok hp
  obtain ⟨_, g2, g3, g4⟩ := prepare_ok hp'
  obtain ⟨qf, qf1, qf2, qf3⟩ := exists_pair hs.fn
  -- the axes of both calls
  have hax : p'.axes = p.axes := by
    have := hs.axes
    rw [h2, g2] at this
    injection this with this
    exact this.symm
  have hm : ∀ {c : PCall K V O J} {axes}, axesOf tup c = .ok axes → ∃ m : PT K (Leaf V O × Option Int), m.map Prod.fst = .node tup c.args ∧
      axes = withNones (m.map Prod.snd) := by
    intro c axes h
    simp only [axesOf, Except.bind] at h
    cases hn : namedTree tup c.params c.args.length c.inAxes with
    | error e => simp [hn] at h
    | ok spec =>
      simp only [hn] at h
      obtain ⟨m, m1, m2, _⟩ := resolveAxes_ok h
      exact ⟨m, m1, m2⟩
  obtain ⟨m, m1, m2⟩ := hm h2
  obtain ⟨m', m1', m2'⟩ := hm g2
  have hmm : m.map (fun x => w.leafClass x.1) = m'.map fun x => w.leafClass x.1 := by
    have := hs.args
    rw [SameVal, ← m1, ← m1', map_map, map_map] at this
    exact this
  obtain ⟨q, q1, q2, q3⟩ := exists_pair hmm
  have q4 : ∀ x ∈ q.leaves, x.1.2 = x.2.2 := by
    rw [hax, m2, ← q1, ← q2, map_map, map_map] at m2'
    exact withNones_inj m2'
  -- the mixed call
  obtain ⟨qs, hqs⟩ : ∃ qs, q = .node tup qs := by
    rw [← q1, map_map] at m1
    cases q with
    | leaf a => simp [PT.map] at m1
    | none => simp [PT.map] at m1
    | node k qs => simp only [PT.map, PT.node.injEq] at m1; exact ⟨qs, by rw [m1.1]⟩
  let mix : (Leaf V O × Option Int) × (Leaf V O × Option Int) → Leaf V O × Option Int := fun x => (mixLeaf x.1.1 x.2.1, x.1.2)
  let ms := qs.map (PT.map mix)
  have hmix : q.map mix = .node tup ms := by rw [hqs]; simp [PT.map, mapL_eq, ms]
  let args := ms.map (PT.map Prod.fst)
  have hargs : (q.map mix).map Prod.fst = .node tup args := by rw [hmix]; simp [PT.map, mapL_eq, args]
  refine ⟨qf.map fun x => mixLeaf x.1 x.2, args, ?_, ?_, ?_⟩
  · have := mixed_of_pair w qf3
    rwa [qf1, qf2] at this
  · have := mixed_of_pair w (q := q.map fun x => (x.1.1, x.2.1)) (by
      intro x hx
      rw [leaves_map, List.mem_map] at hx
      obtain ⟨y, hy, rfl⟩ := hx
      exact q3 y hy)
    simp only [map_map] at this
    have e1 : (q.map fun x => x.1.1) = .node tup c.args := by rw [← m1, ← q1, map_map]
    have e2 : (q.map fun x => x.2.1) = .node tup d.args := by rw [← m1', ← q2, map_map]
    have e3 : (q.map fun x => mixLeaf x.1.1 x.2.1) = .node tup args := by rw [← hargs, map_map]
    rwa [e1, e2, e3] at this
  · -- the pieces of the mixed call
    have a1 : p.axes = withNones ((q.map mix).map Prod.snd) := by rw [m2, ← q1, map_map, map_map]
    have a2 : p.args.1 = withNones ((q.map mix).map fun x => dynL x.1) := by
      rw [h4, ← m1, ← q1]
      simp only [map_map]
      congr 1
      exact map_congr_leaves fun x hx => (mixLeaf_dyn w (q3 x hx)).symm
    obtain ⟨ms', hms'⟩ : ∃ ms', m' = .node tup ms' := by
      cases m' with
      | leaf a => simp [PT.map] at m1'
      | none => simp [PT.map] at m1'
      | node k ms' => simp only [PT.map, PT.node.injEq] at m1'; exact ⟨ms', by rw [m1'.1]⟩
    have b1 : p'.args.1 = withNones (m'.map fun x => dynL x.1) := by rw [g4, ← m1']; simp only [map_map]
    have b2 : p'.args.2 = withNones (m'.map fun x => staticL x.1) := by rw [g4, ← m1']; simp only [map_map]
    have a3 : p'.args.2 = withNones ((q.map mix).map fun x => staticL x.1) := by
      rw [b2, ← q2]
      simp only [map_map]
      congr 1
      exact map_congr_leaves fun x hx => (mixLeaf_static w (q3 x hx)).symm
    have a4 : Filters.combine noLeaf [p.fn.1, p'.fn.2] = .ok (qf.map fun x => mixLeaf x.1 x.2) := by
      rw [h3, g3, ← qf1, ← qf2]
      simp only [map_map]
      rw [combine_two_closed, ← withNones_some qf (fun x => mixLeaf x.1 x.2)]
      congr 2
      apply map_congr_leaves
      rintro ⟨a, b⟩ hx
      have := qf3 _ hx
      cases a <;> cases b <;> simp [CacheWorld.leafClass, mixLeaf, dynL, staticL, isArray] at this ⊢
    have a5 : Filters.combine noLeaf [p'.fn.1, p'.fn.2] = .ok d.fn := by
      rw [g3, combine_two_closed]
      have := withNones_some d.fn (fun x => x)
      rw [map_id_fun] at this
      conv => rhs; rw [← this]
      congr 2
      apply map_congr_leaves
      intro a _
      cases a <;> rfl
    -- how the entry came about
    have he' := he
    simp only [makeEntry, bind, Except.bind, pure, Except.pure, a5] at he'
    cases hz : pmapSizes w.toWorld p'.axes p'.args.1 with
    | error x => simp [hz] at he'
    | ok sizes =>
    simp only [hz] at he'
    cases hb : batchSize d.axisSize sizes with
    | error x => simp [hb] at he'
    | ok n =>
    simp only [hb] at he'
    cases hnz : nonzero n with
    | error x => simp [hnz] at he'
    | ok _ =>
    simp only [hnz] at he'
    have hlane' : pmapLane w.toWorld p'.axes p'.args.1 0 = .ok (withNones (m'.map fun x => (dynL x.1).map fun l => inLane w.toWorld 0 l x.2)) := by
      rw [m2', b1, pmapLane_closed]
    have hcall' : ∀ f : Fn K V O, pmapCall f p'.args.2 (withNones (m'.map fun x => (dynL x.1).map fun l => inLane w.toWorld 0 l x.2)) =
        f (laneList w.toWorld ms' 0) := by
      intro f
      rw [pmapCall, b2, pmap_combine, hms', lane_node]
      rfl
    simp only [hlane', hcall'] at he'
    cases ho : w.call d.fn (laneList w.toWorld ms' 0) with
    | error x => simp [ho] at he'
    | ok out =>
    simp only [ho, Except.ok.injEq] at he'
    subst he'
    simp only [runEntry, pmapAt, bind, Except.bind, a4, hax]
    have hin := inputs_closed (q.map mix)
    rw [hargs] at hin
    rw [hin]
    simp only [← a2, ← a3, ← hs.axisSize]
    cases pmapSizes w.toWorld p.axes p.args.1 with
    | error x => rfl
    | ok sizes =>
    simp only
    cases batchSize c.axisSize sizes with
    | error x => rfl
    | ok n =>
    simp only
    have hl : mapE (pmapLane w.toWorld p.axes p.args.1) (List.range n) =
        .ok ((List.range n).map fun i => withNones ((q.map mix).map fun x => (dynL x.1).map fun l => inLane w.toWorld i l x.2)) := by
      rw [mapE_ok]
      refine ⟨by simp, ?_⟩
      intro j i hj
      exact ⟨_, by rw [List.getElem?_map, hj]; rfl, by rw [a1, a2, pmapLane_closed]⟩
    rw [hl]
    simp only
    cases hr : mapE (pmapCall (w.call (qf.map fun x => mixLeaf x.1 x.2)) p'.args.2)
        ((List.range n).map fun i => withNones ((q.map mix).map fun x => (dynL x.1).map fun l => inLane w.toWorld i l x.2)) with
    | error x => rfl
    | ok outs =>
    simp only
    apply pmapOutputs_finish
    intro o hhead
    apply maxOut_rank
    -- the first lane of the mixed call
    rw [mapE_ok] at hr
    have hn : 0 < n := by
      have := hr.1
      cases n with
      | zero => simp at this; subst this; simp at hhead
      | succ n => omega
    obtain ⟨y, hy, hc⟩ := hr.2 0 _ (by rw [List.getElem?_map, List.getElem?_range hn]; rfl)
    have : y = o := by rw [List.head?_eq_getElem?, hy] at hhead; exact Option.some.inj hhead
    subst this
    have hc' : w.call (qf.map fun x => mixLeaf x.1 x.2) (laneList w.toWorld ms 0) = .ok y := by
      rw [← hc, pmapCall, a3, pmap_combine, hmix, lane_node]
      rfl
    refine (hw.call _ _ _ _ _ _ ?_ ?_ hc' ho).symm
    · rw [← qf2, map_map, map_map]
      exact map_congr_leaves fun x hx => mixLeaf_struct w (qf3 x hx)
    · have key : ((q.map mix).map fun x => inLane w.toWorld 0 x.1 x.2).map w.leafStruct =
          (m'.map fun x => inLane w.toWorld 0 x.1 x.2).map w.leafStruct := by
        rw [← q2]
        simp only [map_map]
        apply map_congr_leaves
        rintro ⟨⟨a, i⟩, ⟨b, j⟩⟩ hx
        have i1 := q3 _ hx
        have i2 := q4 _ hx
        simp only at i1 i2
        subst i2
        cases i <;> cases a <;> cases b <;> simp [mix, mixLeaf, inLane, CacheWorld.leafStruct, CacheWorld.leafClass] at i1 ⊢
        · exact i1
        · exact hw.slice _ _ _ _ i1
      rw [hmix, hms', lane_node, lane_node] at key
      simp only [PT.map, mapL_eq, PT.node.injEq, true_and] at key
      exact key

end

/-! ### Histories -/

section
variable [DecidableEq K] [DecidableEq S] [DecidableEq Q] [DecidableEq F] [DecidableEq N] [DecidableEq J]

/-- Every entry was made by a call of the history. -/
def PInv (w : CacheWorld K V A O S Q F N) (tup : K) (P : PCall K V O J → Prop) (s : PSt K V O S Q F N J) : Prop :=
  ∀ x ∈ s.entries, ∃ d p', P d ∧ prepare tup d = .ok p' ∧ x.1 = (w.function d.fn, pmapKey w d p') ∧ makeEntry w d p' = .ok x.2

theorem findEntry_mem {k : Option F × PKey K S Q N J} {l : List ((Option F × PKey K S Q N J) × Entry K V O)} {e : Entry K V O}
    (h : findEntry k l = some e) : (k, e) ∈ l := by
  induction l with
  | nil => simp [findEntry] at h
  | cons x l ih =>
    simp only [findEntry] at h
    split at h
    · rename_i hx
      injection h with h
      subst hx; subst h
      simp
    · exact List.mem_cons_of_mem _ (ih h)

/-- What a call returns and leaves behind. -/
theorem callPmap_cases (w : CacheWorld K V A O S Q F N) (tup : K) (s : PSt K V O S Q F N J) (c : PCall K V O J) {p : Prep K V O}
    (hp : prepare tup c = .ok p) :
    (¬ CallHash w tup c ∧ callPmap w tup s c = (.error .typeError, s)) ∨
    (CallHash w tup c ∧ ∃ e, findEntry (w.function c.fn, pmapKey w c p) s.entries = some e ∧ callPmap w tup s c = (runEntry w e p.fn.1 p.args.1, s)) ∨
    (CallHash w tup c ∧ findEntry (w.function c.fn, pmapKey w c p) s.entries = Option.none ∧ ∃ e, makeEntry w c p = .error e ∧
      callPmap w tup s c = (.error e, { s with traces := s.traces + 1 })) ∨
    (CallHash w tup c ∧ findEntry (w.function c.fn, pmapKey w c p) s.entries = Option.none ∧ ∃ e, makeEntry w c p = .ok e ∧
      callPmap w tup s c = (runEntry w e p.fn.1 p.args.1, ⟨((w.function c.fn, pmapKey w c p), e) :: s.entries, s.traces + 1⟩)) := by
  simp only [callPmap, hp]
  by_cases hh : CallHash w tup c
  · right
    rw [if_pos ((hash_iff w hp).2 hh)]
    cases hl : findEntry (w.function c.fn, pmapKey w c p) s.entries with
    | some e => exact .inl ⟨hh, e, rfl, rfl⟩
    | none =>
      right
      cases hf : makeEntry w c p with
      | error e => exact .inl ⟨hh, rfl, e, rfl, rfl⟩
      | ok e => exact .inr ⟨hh, rfl, e, rfl, rfl⟩
  · left
    exact ⟨hh, if_neg fun h => hh ((hash_iff w hp).1 h)⟩

theorem pinv_mono {w : CacheWorld K V A O S Q F N} {tup : K} {P P' : PCall K V O J → Prop} {s : PSt K V O S Q F N J} (h : PInv w tup P s)
    (hP : ∀ d, P d → P' d) : PInv w tup P' s := by
  intro x hx
  obtain ⟨d, p', h1, h2⟩ := h x hx
  exact ⟨d, p', hP d h1, h2⟩

theorem pinv_step {w : CacheWorld K V A O S Q F N} {tup : K} {P : PCall K V O J → Prop} {s : PSt K V O S Q F N J} (h : PInv w tup P s)
    (ev : PEvent K V O F J) : PInv w tup (fun d => P d ∨ ev = .call d) (stepPmap w tup s ev) := by
  have hm := pinv_mono h (P' := fun d => P d ∨ ev = .call d) fun d hd => .inl hd
  cases ev with
  | clear => intro x hx; simp [stepPmap] at hx
  | drop f => intro x hx; exact hm x (List.mem_filter.1 hx).1
  | call c =>
    simp only [stepPmap]
    cases hp : prepare tup c with
    | error e => simpa only [callPmap, hp] using hm
    | ok p =>
      rcases callPmap_cases w tup s c hp with ⟨_, hc⟩ | ⟨_, e, _, hc⟩ | ⟨_, _, e, _, hc⟩ | ⟨_, _, e, he, hc⟩ <;> rw [hc]
      · exact hm
      · exact hm
      · exact hm
      · intro x hx
        rcases List.mem_cons.1 hx with rfl | hx
        · exact ⟨c, p, .inr rfl, hp, rfl, he⟩
        · exact hm x hx

theorem pinv_run (w : CacheWorld K V A O S Q F N) (tup : K) (h : List (PEvent K V O F J)) :
    PInv w tup (fun d => .call d ∈ h) (runPmap w tup h) := by
  have : ∀ (h : List (PEvent K V O F J)) (P : PCall K V O J → Prop) (s : PSt K V O S Q F N J), PInv w tup P s →
      PInv w tup (fun d => P d ∨ .call d ∈ h) (h.foldl (stepPmap w tup) s) := by
    intro h
    induction h with
    | nil => intro P s hs; exact pinv_mono hs fun d hd => .inl hd
    | cons ev h ih =>
      intro P s hs
      refine pinv_mono (ih _ _ (pinv_step hs ev)) ?_
      rintro d ((hd | rfl) | hd)
      · exact .inl hd
      · exact .inr (by simp)
      · exact .inr (by simp [hd])
  exact pinv_mono (this h (fun _ => False) ⟨[], 0⟩ (by intro x hx; simp at hx)) fun d hd => hd.resolve_left id

theorem sameCall_refl (w : CacheWorld K V A O S Q F N) (tup : K) (c : PCall K V O J) : SameCall w tup c c :=
  ⟨rfl, rfl, rfl, rfl, rfl, rfl, rfl, rfl⟩

omit [DecidableEq K] [DecidableEq S] [DecidableEq Q] [DecidableEq F] [DecidableEq N] [DecidableEq J] in
theorem mixed_refl (x : Val K V O) : Mixed x x x :=
  ⟨sameStructure_iff.2 rfl, sameStructure_iff.2 rfl, fun π l h => ⟨fun v hv => by rw [h, hv], fun o ho => by rw [h, ho]⟩⟩

omit [DecidableEq K] [DecidableEq S] [DecidableEq Q] [DecidableEq F] [DecidableEq N] [DecidableEq J] in
theorem mixed_exact {w : CacheWorld K V A O S Q F N} (hW : ∀ a b, w.cls a = w.cls b → a = b) {x y m : Val K V O} (hs : SameVal w x y)
    (h : Mixed x y m) : m = x := by
  obtain ⟨q, rfl, rfl, q3⟩ := exists_pair hs
  obtain ⟨h1, _, h3⟩ := h
  apply eq_of_shape_leafAt? (sameStructure_iff.1 h1)
  intro π l l' hl hl'
  obtain ⟨i1, i2⟩ := h3 π l hl
  cases l with
  | arr v => rw [i1 v rfl] at hl'; exact Option.some.inj hl'
  | obj o =>
    have := i2 o rfl
    rw [leafAt?_map, Option.map_eq_some_iff] at this hl'
    obtain ⟨⟨a, b⟩, hp, hb⟩ := this
    obtain ⟨x, hx, ha⟩ := hl'
    rw [hp] at hx
    injection hx with hx
    subst hx
    simp only at hb ha
    subst hb ha
    have hc := q3 _ (mem_leaves_iff.2 ⟨π, hp⟩)
    cases a with
    | arr v => simp [CacheWorld.leafClass] at hc
    | obj o' =>
      simp only [CacheWorld.leafClass, Sum.inr.injEq] at hc
      rw [hW _ _ hc]

omit [DecidableEq S] [DecidableEq Q] [DecidableEq F] [DecidableEq N] [DecidableEq J] in
/-- If no entry can be made, `filter_pmap` without a cache raises the same. -/
theorem makeEntry_error (w : CacheWorld K V A O S Q F N) {tup : K} {c : PCall K V O J} {p : Prep K V O} (hp : prepare tup c = .ok p) {x : Err}
    (he : makeEntry w c p = .error x) :
    pmapAt w.toWorld w.ndim tup (w.call c.fn) p.axes (c.outAxes.map w.axis) c.axisSize c.args = .error x := by
  obtain ⟨_, h2, h3, h4⟩ := prepare_ok hp
  obtain ⟨m, m1, m2⟩ : ∃ m : PT K (Leaf V O × Option Int), m.map Prod.fst = .node tup c.args ∧ p.axes = withNones (m.map Prod.snd) := by
    simp only [axesOf, Except.bind] at h2
    cases hn : namedTree tup c.params c.args.length c.inAxes with
    | error e => simp [hn] at h2
    | ok spec =>
      simp only [hn] at h2
      obtain ⟨m, m1, m2, _⟩ := resolveAxes_ok h2
      exact ⟨m, m1, m2⟩
  have b1 : p.args.1 = withNones (m.map fun x => dynL x.1) := by rw [h4, ← m1]; simp only [map_map]
  have b2 : p.args.2 = withNones (m.map fun x => staticL x.1) := by rw [h4, ← m1]; simp only [map_map]
  have a5 : Filters.combine noLeaf [p.fn.1, p.fn.2] = .ok c.fn := by
    rw [h3, combine_two_closed]
    have := withNones_some c.fn (fun x => x)
    rw [map_id_fun] at this
    conv => rhs; rw [← this]
    congr 2
    apply map_congr_leaves
    intro a _
    cases a <;> rfl
  have hin := inputs_closed m
  rw [m1] at hin
  simp only [makeEntry, bind, Except.bind, pure, Except.pure, a5] at he
  simp only [pmapAt, bind, Except.bind, hin]
  simp only [← b1, ← b2]
  cases hz : pmapSizes w.toWorld p.axes p.args.1 with
  | error y => simpa [hz] using he
  | ok sizes =>
  simp only [hz] at he ⊢
  cases hb : batchSize c.axisSize sizes with
  | error y => simpa [hb] using he
  | ok n =>
  simp only [hb] at he ⊢
  have hlane : ∀ i, pmapLane w.toWorld p.axes p.args.1 i = .ok (withNones (m.map fun x => (dynL x.1).map fun l => inLane w.toWorld i l x.2)) := by
    intro i
    rw [m2, b1, pmapLane_closed]
  have hl : mapE (pmapLane w.toWorld p.axes p.args.1) (List.range n) =
      .ok ((List.range n).map fun i => withNones (m.map fun x => (dynL x.1).map fun l => inLane w.toWorld i l x.2)) := by
    rw [mapE_ok]
    refine ⟨by simp, ?_⟩
    intro j i hj
    exact ⟨_, by rw [List.getElem?_map, hj]; rfl, hlane i⟩
  rw [hl]
  simp only [hlane] at he ⊢
  cases n with
  | zero =>
    simp only [nonzero, if_true, Except.error.injEq] at he
    subst he
    rfl
  | succ n =>
    simp only [nonzero, Nat.add_one_ne_zero, if_false] at he
    rw [List.range_succ_eq_map, List.map_cons, mapE]
    cases ho : pmapCall (w.call c.fn) p.args.2 (withNones (m.map fun x => (dynL x.1).map fun l => inLane w.toWorld 0 l x.2)) with
    | error y => simpa [ho, bind, Except.bind] using he
    | ok out => simp [ho] at he

/-- **C89**, after any history of calls, also of other functions, of `clear_caches`, and of functions going away: a call of a function decorated with
`filter_pmap` raises a TypeError if something other than an array cannot be hashed, and otherwise does what `filter_pmap` without a cache does on the same arrays, with
everything else taken from this call or an earlier one which equals it. -/
theorem pmap_cached (w : CacheWorld K V A O S Q F N) (hw : Shapely w) (tup : K) (h : List (PEvent K V O F J)) (c : PCall K V O J)
    (hk : c.kwargs = []) {axes : PT K Int} (ha : axesOf tup c = .ok axes) :
    (¬ CallHash w tup c → (callPmap w tup (runPmap w tup h) c).1 = .error .typeError) ∧
    (CallHash w tup c → ∃ d, (d = c ∨ .call d ∈ h) ∧ SameCall w tup c d ∧ ∃ fn args, Mixed c.fn d.fn fn ∧
      Mixed (.node tup c.args) (.node tup d.args) (.node tup args) ∧
      (callPmap w tup (runPmap w tup h) c).1 =
        pmapAt w.toWorld w.ndim tup (w.call fn) axes (d.outAxes.map w.axis) c.axisSize args) := by
  obtain ⟨p, hp⟩ := prepare_isOk hk ha
  have hax : axes = p.axes := by
    have := (prepare_ok hp).2.1
    rw [ha] at this
    exact Except.ok.inj this
  subst hax
  constructor
  · intro hn
    rcases callPmap_cases w tup (runPmap w tup h) c hp with ⟨_, hc⟩ | ⟨hh, _⟩ | ⟨hh, _⟩ | ⟨hh, _⟩
    · rw [hc]
    all_goals exact absurd hh hn
  · intro hh
    rcases callPmap_cases w tup (runPmap w tup h) c hp with ⟨hn, _⟩ | ⟨_, e, he, hc⟩ | ⟨_, _, x, hx, hc⟩ | ⟨_, _, e, he, hc⟩
    · exact absurd hh hn
    · obtain ⟨d, p', h1, h2, h3, h4⟩ := pinv_run w tup h _ (findEntry_mem he)
      have hs := (key_iff w hp h2).1 h3
      obtain ⟨fn, args, i1, i2, i3⟩ := runEntry_mixed w hw hp h2 hs h4
      exact ⟨d, .inr h1, hs, fn, args, i1, i2, by rw [hc, i3]⟩
    · refine ⟨c, .inl rfl, sameCall_refl w tup c, c.fn, c.args, ?_, ?_, ?_⟩
      · exact mixed_refl _
      · exact mixed_refl _
      · rw [hc, makeEntry_error w hp hx]
    · have hs := sameCall_refl w tup c
      obtain ⟨fn, args, i1, i2, i3⟩ := runEntry_mixed w hw hp hp hs he
      exact ⟨c, .inl rfl, hs, fn, args, i1, i2, by rw [hc, i3]⟩

/-- **C89**, if `==` tells all objects apart: a decorated function does what it does without a cache, whatever was called before.

Missing: this for objects which are equal but different, where it is false (`pmap_equal_static`). -/
theorem pmap_cached_exact_partial (w : CacheWorld K V A O S Q F N) (hw : Shapely w) (hW : ∀ a b, w.cls a = w.cls b → a = b) (tup : K)
    (h : List (PEvent K V O F J)) (c : PCall K V O J) (hh : CallHash w tup c) :
    (callPmap w tup (runPmap w tup h) c).1 =
      filterPmap w.toWorld w.ndim tup (w.call c.fn) c.params c.inAxes (c.outAxes.map w.axis) c.axisSize c.args c.kwargs := by
  by_cases hk : c.kwargs = []
  · rw [hk, filterPmap_at]
    cases ha : axesOf tup c with
    | error e =>
      have h1 := ha
      simp only [axesOf, Except.bind] at h1 ⊢
      have h2 : prepare tup c = .error e := by
        rw [prepare, if_neg (by simp [hk])]
        simp only [bind, Except.bind]
        cases hn : namedTree tup c.params c.args.length c.inAxes with
        | error e => simpa [hn] using h1
        | ok spec => simp only [hn] at h1 ⊢; rw [h1]
      simp only [callPmap, h2]
      cases hn : namedTree tup c.params c.args.length c.inAxes with
      | error e => simpa [hn] using h1.symm
      | ok spec => simp only [hn] at h1 ⊢; rw [h1]
    | ok axes =>
      obtain ⟨d, _, hs, fn, args, h1, h2, h3⟩ := (pmap_cached w hw tup h c hk ha).2 hh
      have e1 := mixed_exact hW hs.fn h1
      have e2 := mixed_exact hW hs.args h2
      have e3 : c.outAxes = d.outAxes := by
        have := hs.outAxes
        obtain ⟨q, q1, q2, q3⟩ := exists_pair this
        rw [← q1, ← q2]
        exact map_congr_leaves fun x hx => hW _ _ (q3 x hx)
      simp only [PT.node.injEq, true_and] at e2
      rw [h3, e1, e2, ← e3]
      simp only [axesOf, Except.bind] at ha ⊢
      cases hn : namedTree tup c.params c.args.length c.inAxes with
      | error e => simp [hn] at ha
      | ok spec => simp only [hn] at ha ⊢; rw [ha]
  · rw [filter_pmap_kwargs _ _ _ _ _ _ _ _ _ hk]
    have : prepare tup c = .error .runtimeError := by rw [prepare, if_pos (by simpa using hk)]
    simp only [callPmap, this]

theorem findEntry_step (w : CacheWorld K V A O S Q F N) (tup : K) {s : PSt K V O S Q F N J} {ev : PEvent K V O F J} (h1 : ev ≠ .clear)
    {k : Option F × PKey K S Q N J} (h2 : ∀ f, ev = .drop f → k.1 ≠ some f) {e : Entry K V O} (h : findEntry k s.entries = some e) :
    findEntry k (stepPmap w tup s ev).entries = some e := by
  cases ev with
  | clear => exact absurd rfl h1
  | drop f =>
    have hk := h2 f rfl
    simp only [stepPmap]
    generalize s.entries = l at h ⊢
    induction l with
    | nil => exact h
    | cons x l ih =>
      simp only [findEntry] at h
      by_cases hx : x.1 = k
      · rw [if_pos hx] at h
        rw [List.filter_cons_of_pos (by simpa [hx] using hk)]
        simp [findEntry, hx, h]
      · rw [if_neg hx] at h
        rw [List.filter_cons]
        split
        · simp only [findEntry, if_neg hx]; exact ih h
        · exact ih h
  | call c =>
    simp only [stepPmap]
    cases hp : prepare tup c with
    | error e => simpa only [callPmap, hp] using h
    | ok p =>
      rcases callPmap_cases w tup s c hp with ⟨_, hc⟩ | ⟨_, e, _, hc⟩ | ⟨_, _, e, _, hc⟩ | ⟨_, hn, e', he, hc⟩ <;> rw [hc]
      · exact h
      · exact h
      · exact h
      · simp only [findEntry]
        rw [if_neg, h]
        intro hk
        rw [hk, h] at hn
        contradiction

/-- **C89**: after a call that returned, equal calls do not trace the function for `_filter_pmap_cache` again, until the caches are cleared or the function goes
away. -/
theorem pmap_once (w : CacheWorld K V A O S Q F N) (tup : K) (h h' : List (PEvent K V O F J)) (c c' : PCall K V O J) {v : Val K V O}
    (hc : (callPmap w tup (runPmap w tup h) c).1 = .ok v) (h1 : .clear ∉ h') (h2 : ∀ f, w.function c.fn = some f → .drop f ∉ h')
    (hs : SameCall w tup c' c) (hh : CallHash w tup c') (hk : c'.kwargs = []) :
    (callPmap w tup (runPmap w tup (h ++ .call c :: h')) c').2 = runPmap w tup (h ++ .call c :: h') := by
  obtain ⟨p, hp⟩ : ∃ p, prepare tup c = .ok p := by
    cases hp : prepare tup c with
    | ok p => exact ⟨p, rfl⟩
    | error e => simp only [callPmap, hp] at hc; cases hc
  obtain ⟨p', hp'⟩ := prepare_isOk hk (hs.axes.trans (prepare_ok hp).2.1)
  have hkey := (key_iff w hp' hp).2 hs
  obtain ⟨e, he⟩ : ∃ e, findEntry (w.function c.fn, pmapKey w c p) (callPmap w tup (runPmap w tup h) c).2.entries = some e := by
    rcases callPmap_cases w tup (runPmap w tup h) c hp with ⟨_, hx⟩ | ⟨_, e, he, hx⟩ | ⟨_, _, e, he, hx⟩ | ⟨_, _, e, he, hx⟩ <;> rw [hx] at hc ⊢
    · cases hc
    · exact ⟨e, he⟩
    · cases hc
    · exact ⟨e, by simp [findEntry]⟩
  have key : ∀ (h' : List (PEvent K V O F J)) (s : PSt K V O S Q F N J), .clear ∉ h' → (∀ f, w.function c.fn = some f → .drop f ∉ h') →
      findEntry (w.function c.fn, pmapKey w c p) s.entries = some e →
      findEntry (w.function c.fn, pmapKey w c p) (h'.foldl (stepPmap w tup) s).entries = some e := by
    intro h'
    induction h' with
    | nil => intro s _ _ hs; exact hs
    | cons ev h' ih =>
      intro s g1 g2 hs
      simp only [List.mem_cons, not_or] at g1
      refine ih _ g1.2 (fun f hf hm => g2 f hf (by simp [hm])) (findEntry_step w tup (fun hev => g1.1 hev.symm) ?_ hs)
      rintro f rfl hf
      exact g2 f hf (by simp)
  have hfin : findEntry (w.function c'.fn, pmapKey w c' p') (runPmap w tup (h ++ .call c :: h')).entries = some e := by
    rw [hkey]
    simp only [runPmap, List.foldl_append, List.foldl_cons, stepPmap]
    exact key h' _ h1 h2 he
  rcases callPmap_cases w tup (runPmap w tup (h ++ .call c :: h')) c' hp' with ⟨hn, _⟩ | ⟨_, e, _, hx⟩ | ⟨_, hn, _⟩ | ⟨_, hn, _⟩
  · exact absurd hh hn
  · rw [hx]
  · rw [hfin] at hn; contradiction
  · rw [hfin] at hn; contradiction

end

/-! ### Examples -/

namespace PmapToy

/-- Scalars and vectors. -/
abbrev Arr := Nat ⊕ List Nat

/-- Integers as objects; `1` and `2` are equal, as `1` and `True` are in Python. The function `obj 0` returns its arguments in a tuple. -/
def world (cls : Int → Int) : CacheWorld Unit Arr Bool Int Nat Int Int Unit where
  aval v := v.isLeft
  size v _ := v.elim (fun _ => Option.none) fun l => some l.length
  slice v _ i := .inl (v.elim id fun l => l.getD i 0)
  stack xs := .inr (xs.map fun v => v.elim id fun _ => 0)
  moveaxis v _ := .ok v
  asArray _ := Option.none
  batched _ _ _ := true
  ndim v := v.elim (fun _ => 0) fun _ => 1
  call _ args := .ok (.node () args)
  struct v := v.elim (fun _ => 0) fun l => l.length + 1
  cls := cls
  hashable _ := true
  axis _ := ifArray 0
  function f := match f with
    | .leaf (.obj o) => some o
    | _ => Option.none
  names _ := ()

def one (o : Int) : Int := if o = 2 then 1 else o

/-- `filter_pmap(f)(jnp.array(v), o)` -/
def theCall (v : List Nat) (o : Int) : PCall Unit Arr Int Unit where
  fn := .leaf (.obj 0)
  params := []
  inAxes := .tree (.leaf (ifArray 0))
  outAxes := .leaf 0
  axisSize := Option.none
  config := ()
  args := [.leaf (.arr (.inr v)), .leaf (.obj o)]
  kwargs := []

theorem shapely (cls : Int → Int) : Shapely (world cls) where
  slice := by intro v v' ax i _; rfl
  call := by
    intro f f' args args' o o' _ h h1 h2
    simp only [world, Except.ok.injEq] at h1 h2
    subst h1 h2
    have key : (PT.node () args).map (world cls).leafStruct = (PT.node () args').map (world cls).leafStruct := by
      simp only [PT.map, mapL_eq, h]
    obtain ⟨q, q1, q2, q3⟩ := exists_pair key
    rw [← q1, ← q2, map_map, map_map]
    apply map_congr_leaves
    rintro ⟨a, b⟩ hx
    have := q3 _ hx
    cases a with
    | arr v => cases b with
      | arr v' => cases v <;> cases v' <;> simp [CacheWorld.leafStruct, CacheWorld.leafRank, world] at this ⊢
      | obj o => simp [CacheWorld.leafStruct] at this
    | obj o => cases b with
      | arr v' => simp [CacheWorld.leafStruct] at this
      | obj o' => simpa [CacheWorld.leafStruct, CacheWorld.leafRank] using this

/-- The hypotheses are met, and calls return. -/
theorem toy_runs : CallHash (world id) () (theCall [3, 4] 2) ∧
    (callPmap (world id) () (runPmap (world id) () [.call (theCall [5, 6] 1), .clear, .drop 7]) (theCall [3, 4] 2)).1 =
      .ok (.node () [.leaf (.arr (.inr [3, 4])), .leaf (.obj 2)]) :=
  ⟨⟨fun _ _ => rfl, fun _ _ => rfl, fun _ _ => rfl⟩, rfl⟩

/-- After a call with `1`, the call with `True` returns `1`. -/
theorem pmap_equal_static : ∃ (h : List (PEvent Unit Arr Int Int Unit)) (c : PCall Unit Arr Int Unit), CallHash (world one) () c ∧
    (callPmap (world one) () (runPmap (world one) () h) c).1 ≠
      filterPmap (world one).toWorld (world one).ndim () ((world one).call c.fn) c.params c.inAxes (c.outAxes.map (world one).axis) c.axisSize c.args
        c.kwargs := by
  refine ⟨[.call (theCall [5, 6] 1)], theCall [3, 4] 2, ⟨fun _ _ => rfl, fun _ _ => rfl, fun _ _ => rfl⟩, ?_⟩
  have h1 : (callPmap (world one) () (runPmap (world one) () [.call (theCall [5, 6] 1)]) (theCall [3, 4] 2)).1 =
      .ok (.node () [.leaf (.arr (.inr [3, 4])), .leaf (.obj 1)]) := rfl
  have h2 : filterPmap (world one).toWorld (world one).ndim () ((world one).call (theCall [3, 4] 2).fn) (theCall [3, 4] 2).params
      (theCall [3, 4] 2).inAxes ((theCall [3, 4] 2).outAxes.map (world one).axis) (theCall [3, 4] 2).axisSize (theCall [3, 4] 2).args
      (theCall [3, 4] 2).kwargs = .ok (.node () [.leaf (.arr (.inr [3, 4])), .leaf (.obj 2)]) := rfl
  rw [h1, h2]
  simp

/-- Three calls with arrays of the same shape trace the function once. -/
theorem toy_once : (runPmap (world id) () [.call (theCall [5, 6] 1), .call (theCall [7, 8] 1), .call (theCall [9, 9] 1)]).traces = 1 := rfl

end PmapToy

end Verif.Vmap
