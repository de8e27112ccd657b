import Verif.Vmap.Example
/-! # Errors of `filter_vmap` (C29); dictionaries for `in_axes` (C30) -/

namespace Verif.Vmap

open PT Filters

variable {K V A O : Type}

/-- C29. Keyword arguments are refused. -/
theorem filter_vmap_kwargs [DecidableEq K] (w : World K V A O) (tup : K) (f : Fn K V O) (params : List String)
    (inAxes : InAxes K V O) (outAxes : PT K (AxSpec V O)) (axisSize : Option Nat) (args : List (Val K V O))
    {kwargs : List String} (h : kwargs ≠ []) :
    filterVmap w tup f params inAxes outAxes axisSize args kwargs = .error .runtimeError := by
  rw [filterVmap, if_pos]
  simpa using h

/-- The stages before the lanes are run. -/
theorem filterVmap_start [DecidableEq K] {w : World K V A O} {tup : K} {f : Fn K V O} {params : List String}
    {spec outAxes : PT K (AxSpec V O)} {axisSize : Option Nat} {args : List (Val K V O)}
    {m : PT K (Leaf V O × Option Int)} (h1 : m.map Prod.fst = .node tup args)
    (hr : resolveAxes (.node tup args) spec = .ok (withNones (m.map Prod.snd))) :
    filterVmap w tup f params (.tree spec) outAxes axisSize args [] = (do
      let r ← runLanes w (funWrapper f outAxes (withNones (m.map fun x => unmappedOf x.1 x.2)))
        (fun lanes => w.batched f (fullLanes (withNones (m.map fun x => unmappedOf x.1 x.2)) lanes))
        (withNones (m.map Prod.snd)) axisSize (withNones (m.map fun x => mappedOf x.1 x.2))
      finishVmap w r) := by
  have hsplit := split_closed (V := V) (O := O) noLeaf m Prod.fst Prod.snd
  simp only [bind, Except.bind] at hsplit
  simp only [filterVmap, namedTree, bind, Except.bind, List.length_nil, ne_eq, not_true_eq_false, if_false, hr]
  cases hnf : (noneFlags (withNones (m.map Prod.snd)) : Except Err (PT K (Filters.Spec K (Leaf V O)))) with
  | error e => rw [noneFlags_closed] at hnf; cases hnf
  | ok flags =>
    simp only [hnf] at hsplit
    rw [h1] at hsplit
    simp only [hsplit]

theorem mapE_error' {X Y : Type} {f : X → Except Err Y} {xs : List X} {e : Err} (h : mapE f xs = .error e) :
    ∃ x ∈ xs, f x = .error e := by
  induction xs with
  | nil => simp [mapE] at h
  | cons x xs ih =>
    simp only [mapE, bind, Except.bind] at h
    cases hx : f x with
    | error e' => rw [hx] at h; cases h; exact ⟨x, by simp, hx⟩
    | ok y =>
      rw [hx] at h
      simp only at h
      cases hxs : mapE f xs with
      | error e' => rw [hxs] at h; cases h; obtain ⟨z, h1, h2⟩ := ih hxs; exact ⟨z, by simp [h1], h2⟩
      | ok ys => rw [hxs] at h; cases h

/-- C29. An entry of `in_axes` that is not `None`, an integer or a callable is refused with `ValueError`, if `in_axes` fits the
arguments otherwise and its callables return. -/
theorem filter_vmap_bad_axis [DecidableEq K] (w : World K V A O) {tup : K} {f : Fn K V O} {params : List String}
    {spec outAxes : PT K (AxSpec V O)} {axisSize : Option Nat} {args : List (Val K V O)}
    (hpre : IsPrefix (spec.cut isNone) (.node tup args))
    (hcall : ∀ σ g, spec.leafAt? σ = some (.callable g) → ∀ l, ∃ a, g l = .ok a)
    {σ : List Nat} (hbad : spec.leafAt? σ = some .other) :
    filterVmap w tup f params (.tree spec) outAxes axisSize args [] = .error .valueError := by
  suffices h : resolveAxes (.node tup args) spec = .error .valueError by
    simp [filterVmap, namedTree, bind, Except.bind, h]
  obtain ⟨c, c1, c2⟩ := isPrefix_iff.1 hpre
  have hbad' : (spec.cut isNone).leafAt? σ = some (.leaf .other) :=
    leafAt?_cut_isNone.2 ⟨leafAt?_eq_some.1 hbad, .inl ⟨_, rfl⟩⟩
  cases h : resolveAxes (.node tup args) spec with
  | ok r =>
    exfalso
    obtain ⟨c', o, h1, -, -, -, H⟩ := treeMap2_ok.1 h
    have hc' : ∃ y, c'.leafAt? σ = some y := by
      have := leafAt?_isSome_of_shape h1 σ
      rw [hbad'] at this
      exact Option.isSome_iff_exists.1 this
    obtain ⟨y, hy⟩ := hc'
    obtain ⟨z, -, hz⟩ := H σ _ y hbad' hy
    simp [resolveAxis] at hz
  | error e =>
    congr 1
    have hfl : flattenUpTo (spec.treeStructure isNone) (PT.node tup args) = .ok c.leaves :=
      flattenUpTo_ok.2 ⟨c, c1, rfl, c2⟩
    simp only [resolveAxes, treeMap2, hfl, bind, Except.bind] at h
    cases hm : mapE (fun xy : PT K (AxSpec V O) × Val K V O => resolveAxis xy.1 xy.2) ((spec.treeLeaves isNone).zip c.leaves) with
    | ok outs =>
      exfalso
      rw [hm] at h
      simp only at h
      have hlen := (mapE_ok.1 hm).1
      rw [List.length_zip, length_leaves_of_shape c1, treeLeaves, Nat.min_self] at hlen
      obtain ⟨o, e1, e2⟩ := exists_fill (spec.cut isNone) outs hlen
      have := treeUnflatten_shape o
      rw [e1, e2] at this
      rw [treeStructure, this] at h
      cases h
    | error e' =>
      rw [hm] at h
      cases h
      obtain ⟨⟨s, y⟩, hx, he⟩ := mapE_error' hm
      obtain ⟨π, hπ⟩ := mem_leaves_iff.1 (List.of_mem_zip hx).1
      obtain ⟨g1, g2⟩ := leafAt?_cut_isNone.1 hπ
      rcases g2 with ⟨a, rfl⟩ | rfl
      · cases a with
        | int n =>
          simp only [resolveAxis] at he
          rw [treeMap1_closed (u := y) (c := fun a => .leaf a) (g := fun _ => .leaf n) (cut_noLeaf y) (fun _ _ => rfl)] at he
          cases he
        | callable g =>
          simp only [resolveAxis] at he
          rw [treeMap1_closed (u := y) (c := fun a => .leaf a)
            (g := fun l => axisVal (match g l with | .ok a => a | .error _ => Option.none)) (cut_noLeaf y) (fun l _ => by
              obtain ⟨a, ha⟩ := hcall π g (leafAt?_eq_some.2 g1) l
              simp [callAxis, ha, Except.map])] at he
          cases he
        | other => simp only [resolveAxis, Except.error.injEq] at he; exact he.symm
      · simp only [resolveAxis] at he
        rw [treeMap1_closed (u := y) (c := fun a => .leaf a) (g := fun _ => .none) (cut_noLeaf y) (fun _ _ => rfl)] at he
        cases he

/-- C29. Without any mapped input and without `axis_size`, an output with an axis is refused. -/
theorem filter_vmap_no_axis [DecidableEq K] (w : World K V A O) {tup : K} {f : Fn K V O} {params : List String}
    {spec outAxes : PT K (AxSpec V O)} {args : List (Val K V O)} (hres : Resolvable spec (.node tup args))
    (hno : NoMapped spec (.node tup args)) {o : Val K V O} (hf : f args = .ok o) (hro : Resolvable outAxes o)
    {π : List Nat} {ax : Int} (ha : AxisAt outAxes o π (some ax)) :
    filterVmap w tup f params (.tree spec) outAxes Option.none args [] = .error .valueError := by
  obtain ⟨axes, hr⟩ := resolveAxes_isOk hres
  obtain ⟨m, h1, h2, h3⟩ := resolveAxes_ok hr
  rw [h2] at hr
  obtain ⟨axes', hr'⟩ := resolveAxes_isOk hro
  obtain ⟨mo, g1, g2, g3⟩ := resolveAxes_ok hr'
  rw [g2] at hr'
  have hwc := whole_combine (V := V) (O := O) m Prod.fst Prod.snd
  rw [h1] at hwc
  rw [filterVmap_start h1 hr, runLanes, if_pos, funWrapper_ok hwc hf g1 hr']
  · simp only [bind, Except.bind]
    rw [if_pos]
    rw [laneOut, leaves_withNones]
    obtain ⟨l, _, hl⟩ := axes_of_tree g1 g3 ha
    have hmem := mem_leaves_iff.2 ⟨π, hl⟩
    intro h0
    have := List.eq_nil_of_length_eq_zero h0
    rw [List.filterMap_eq_nil_iff] at this
    have := this _ hmem
    simp [mappedOf] at this
  · refine ⟨?_, rfl⟩
    rw [leaves_withNones]
    have : m.leaves.filterMap Prod.snd = [] := by
      rw [List.filterMap_eq_nil_iff]
      intro x hx
      obtain ⟨π, hπ⟩ := mem_leaves_iff.1 hx
      exact hno π x.2 (h3 π x hπ)
    rw [this]; rfl

/-- C29. Mapped inputs of different sizes are refused, as is a mapped input which is not an array or lacks the axis. -/
theorem filter_vmap_sizes [DecidableEq K] (w : World K V A O) {tup : K} {f : Fn K V O} {params : List String}
    {spec outAxes : PT K (AxSpec V O)} {axisSize : Option Nat} {args : List (Val K V O)}
    (hres : Resolvable spec (.node tup args)) (hany : axisSize ≠ Option.none ∨ ¬ NoMapped spec (.node tup args))
    (hno : ∀ n, ¬ IsBatch w spec axisSize (.node tup args) n) :
    filterVmap w tup f params (.tree spec) outAxes axisSize args [] = .error .valueError := by
  obtain ⟨axes, hr⟩ := resolveAxes_isOk hres
  obtain ⟨m, h1, h2, h3⟩ := resolveAxes_ok hr
  rw [h2] at hr
  rw [filterVmap_start h1 hr, runLanes, if_neg, jaxVmap]
  · have hshape : (withNones (m.map Prod.snd)).shape = (withNones (m.map fun x => mappedOf x.1 x.2)).shape := by
      apply shape_withNones
      intro x _; cases h : x.2 <;> simp [mappedOf]
    simp only [hshape, ne_eq, not_true_eq_false, if_false, bind, Except.bind, leaves_withNones]
    have herr : ∀ (L : List (Leaf V O × Int)) e, mapE (leafSize w) L = .error e → e = .valueError := by
      intro L
      induction L with
      | nil => intro e h; simp [mapE] at h
      | cons y L ih =>
        intro e h
        simp only [mapE, bind, Except.bind] at h
        cases hy : leafSize w y with
        | error e' =>
          simp only [hy, Except.error.injEq] at h
          obtain ⟨l, ax⟩ := y
          cases l with
          | obj o => simp [leafSize] at hy; rw [← h, ← hy]
          | arr v =>
            simp only [leafSize] at hy
            cases hv : w.size v ax <;> simp [hv] at hy
            rw [← h, ← hy]
        | ok n =>
          simp only [hy] at h
          cases hL : mapE (leafSize w) L with
          | error e' => simp only [hL, Except.error.injEq] at h; rw [← h]; exact ih e' hL
          | ok ns => simp [hL, pure, Except.pure] at h
    cases hs : mapE (leafSize w) ((m.leaves.filterMap fun x => mappedOf x.1 x.2).zip (m.leaves.filterMap Prod.snd)) with
    | error e => simp only; rw [herr _ e hs]
    | ok sizes =>
      simp only
      cases hn : batchSize axisSize sizes with
      | error e =>
        simp only
        rw [batchSize] at hn
        split at hn
        · cases hn; rfl
        · split at hn
          · cases hn
          · cases hn; rfl
      | ok n =>
        exfalso
        obtain ⟨b1, b2⟩ := batchSize_ok hn
        apply hno n
        refine ⟨b1, ?_⟩
        intro π ax ha
        obtain ⟨l, hl, hl'⟩ := axes_of_tree h1 h3 ha
        obtain ⟨j, hj⟩ := List.getElem?_of_mem (mem_zip_mapped m.leaves _ (mem_leaves_iff.2 ⟨π, hl'⟩) ax rfl)
        obtain ⟨s, e1, e2⟩ := (mapE_ok.1 hs).2 j _ hj
        have := b2 s (List.mem_of_getElem? e1)
        subst this
        cases l with
        | obj o => simp [leafSize] at e2
        | arr v =>
          refine ⟨v, hl, ?_⟩
          simp only [leafSize] at e2
          cases hv : w.size v ax with
          | none => simp [hv] at e2
          | some k => simp [hv] at e2; rw [e2]
  · rintro ⟨e1, e2⟩
    rcases hany with h | h
    · exact h e2
    · apply h
      intro π a ha
      obtain ⟨l, _, hl⟩ := axes_of_tree h1 h3 ha
      rw [leaves_withNones] at e1
      have := List.eq_nil_of_length_eq_zero e1
      rw [List.filterMap_eq_nil_iff] at this
      exact this _ (mem_leaves_iff.2 ⟨π, hl⟩)

/-! ## Named axes -/

section Named
variable {X : Type}

theorem get?_remove (d : Dict String X) (p k : String) :
    Dict.get? (d.filter fun e => e.1 ≠ p) k = if k = p then Option.none else d.get? k := by
  induction d with
  | nil => simp [Dict.get?]
  | cons e d ih =>
    obtain ⟨a, b⟩ := e
    by_cases h : a = p
    · subst h
      simp only [ne_eq, not_true_eq_false, decide_false, List.filter_cons, Bool.false_eq_true, if_false]
      simp only [ne_eq] at ih
      rw [ih, Dict.get?]
      by_cases hk : k = a
      · simp [hk]
      · simp [hk, Ne.symm hk]
    · simp only [ne_eq, h, not_false_eq_true, decide_true, List.filter_cons, if_true, Dict.get?]
      simp only [ne_eq] at ih
      rw [ih]
      by_cases hk : a = k
      · subst hk; simp [h]
      · simp [hk]

theorem popNames_spec (default : X) (n : Nat) (ps : List String) (d : Dict String X) (hp : ps.Nodup) :
    (popNames default n ps d).1 = (ps.take n).map (fun p => (d.get? p).getD default) ∧
    (popNames default n ps d).2 = d.filter fun e => e.1 ∉ ps.take n := by
  induction n generalizing ps d with
  | zero => exact ⟨by simp [popNames], by simp only [popNames]; exact (List.filter_eq_self.2 (by simp)).symm⟩
  | succ n ih =>
    cases ps with
    | nil => exact ⟨by simp [popNames], by simp only [popNames]; exact (List.filter_eq_self.2 (by simp)).symm⟩
    | cons p ps =>
      simp only [List.nodup_cons] at hp
      obtain ⟨h1, h2⟩ := ih ps (d.filter fun e => e.1 ≠ p) hp.2
      simp only [popNames, List.take_succ_cons, List.map_cons]
      constructor
      · rw [h1]
        congr 1
        apply List.map_congr_left
        intro k hk
        rw [get?_remove, if_neg]
        rintro rfl
        exact hp.1 (List.mem_of_mem_take hk)
      · rw [h2, List.filter_filter]
        congr 1
        funext e
        by_cases h : e.1 = p <;> simp [h]

/-- C30. The dictionaries of the program are as they were. -/
theorem named_in_axes_unmodified (default : X) (params : List String) (nargs : Nat) (heap : Heap X) (addr a : Nat)
    (d : Dict String X) (h : heap[a]? = some d) :
    (namedInAxes default params nargs heap addr).2[a]? = some d := by
  have hlt := (List.getElem?_eq_some_iff.1 h).1
  have : ∀ e, (heap ++ [e])[a]? = some d := fun e => by rw [List.getElem?_append_left hlt, h]
  unfold namedInAxes
  simp only
  split <;> exact this _

/-- C30. For each passed argument that has a parameter of its own: the entry under the name of the parameter if there
is one, the default otherwise. A name that belongs to no passed argument is an error, and there is no other. -/
theorem named_in_axes_partial (default : X) {params : List String} (hp : params.Nodup) (nargs : Nat) (heap : Heap X)
    {addr : Nat} {d : Dict String X} (h : heap[addr]? = some d) :
    ((∀ k ∈ Dict.keys d, k ∈ params.take nargs) → ∃ l, (namedInAxes default params nargs heap addr).1 = .ok l ∧
        l.length = min nargs params.length ∧
        ∀ (i : Nat) p, i < nargs → params[i]? = some p → l[i]? = some ((d.get? p).getD default)) ∧
    (∀ k ∈ Dict.keys d, k ∉ params.take nargs → (namedInAxes default params nargs heap addr).1 = .error .valueError) := by
  obtain ⟨h1, h2⟩ := popNames_spec default nargs params d hp
  constructor
  · intro hk
    refine ⟨(params.take nargs).map (fun p => (d.get? p).getD default), ?_, by simp, ?_⟩
    · have : (popNames default nargs params d).2 = [] := by
        rw [h2, List.filter_eq_nil_iff]
        intro e he
        simpa using hk e.1 (List.mem_map_of_mem he)
      simp [namedInAxes, h, this, h1]
    · intro i p hi hip
      rw [List.getElem?_map, List.getElem?_take, if_pos hi, hip]
      rfl
  · intro k hk hk'
    obtain ⟨e, he, rfl⟩ := List.mem_map.1 hk
    have : (popNames default nargs params d).2 ≠ [] := by
      rw [h2]
      intro h0
      rw [List.filter_eq_nil_iff] at h0
      exact h0 e he (by simpa using hk')
    simp [namedInAxes, h, this]

end Named

/-- C30. Calling with a dictionary is calling with the tuple of the entries so found, if every argument passed has a
parameter of its own. -/
theorem filter_vmap_named_partial [DecidableEq K] (w : World K V A O) (tup : K) (f : Fn K V O) {params : List String}
    (hp : params.Nodup) (d : Dict String (PT K (AxSpec V O))) (outAxes : PT K (AxSpec V O)) (axisSize : Option Nat)
    (args : List (Val K V O)) (hargs : args.length ≤ params.length) :
    ((∀ k ∈ Dict.keys d, k ∈ params.take args.length) →
      ∃ l : List (PT K (AxSpec V O)), l.length = args.length ∧
        (∀ (i : Nat) p, i < args.length → params[i]? = some p → l[i]? = some ((d.get? p).getD (.leaf (ifArray 0)))) ∧
        filterVmap w tup f params (.dict d) outAxes axisSize args [] =
          filterVmap w tup f params (.tree (.node tup l)) outAxes axisSize args []) ∧
    ((∃ k ∈ Dict.keys d, k ∉ params.take args.length) →
        filterVmap w tup f params (.dict d) outAxes axisSize args [] = .error .valueError) := by
  obtain ⟨h1, h2⟩ := named_in_axes_partial (.leaf (ifArray 0) : PT K (AxSpec V O)) hp args.length [d]
    (addr := 0) rfl
  constructor
  · intro hk
    obtain ⟨l, e1, e2, e3⟩ := h1 hk
    refine ⟨l, by rw [e2]; omega, e3, ?_⟩
    simp only [filterVmap, namedTree, e1, Except.map]
  · rintro ⟨k, hk, hk'⟩
    have := h2 k hk hk'
    simp only [filterVmap, namedTree, this, Except.map, List.length_nil, ne_eq, not_true_eq_false, if_false, bind,
      Except.bind]

/-- C29, C30. The default entry `if_array(axis)`: arrays get the axis, and all else is left alone. -/
theorem if_array_axis (axis : Int) (t : Val K V O) :
    Resolvable (.leaf (ifArray axis)) t ∧
    (∀ π v, t.leafAt? π = some (.arr v) → AxisAt (.leaf (ifArray axis)) t π (some axis)) ∧
    ∀ π o, t.leafAt? π = some (.obj o) → AxisAt (.leaf (ifArray axis)) t π Option.none := by
  have h1 : ∀ π v, t.leafAt? π = some (.arr v) → AxisAt (.leaf (ifArray axis)) t π (some axis) :=
    fun π v h => ⟨[], π, _, _, rfl, h, rfl, .inr (.inr ⟨_, rfl, rfl⟩)⟩
  have h2 : ∀ π o, t.leafAt? π = some (.obj o) → AxisAt (.leaf (ifArray axis)) t π Option.none :=
    fun π o h => ⟨[], π, _, _, rfl, h, rfl, .inr (.inr ⟨_, rfl, rfl⟩)⟩
  refine ⟨⟨?_, ?_, ?_⟩, h1, h2⟩
  · rw [isPrefix_iff]
    exact ⟨.leaf t, rfl, rfl⟩
  · intro σ h
    cases σ with
    | nil => simp [leafAt?, get?, ifArray] at h
    | cons i σ => simp [leafAt?, get?] at h
  · intro π l h
    cases l with
    | arr v => exact ⟨_, h1 π v h⟩
    | obj o => exact ⟨_, h2 π o h⟩

/-- C30 does not hold as it stands: the second argument of `def f(*xs)` has no parameter of its own, and instead of
getting `if_array(0)` the call is an error. `filter_vmap(f, in_axes={})(x, y)` with equal arrays `x` and `y`. -/
theorem named_varargs [DecidableEq K] (w : World K V A O) (tup : K) (f : Fn K V O) (outAxes : PT K (AxSpec V O))
    (x y : V) :
    filterVmap w tup f ["xs"] (.dict []) outAxes Option.none [.leaf (.arr x), .leaf (.arr y)] [] =
      .error .treeError := by
  simp [filterVmap, namedTree, namedInAxes, popNames, Dict.get?, Except.map, bind, Except.bind, resolveAxes, treeMap2,
    treeStructure, cut, cutL, shape, PT.map, mapL, flattenUpTo, flattenUpToL, isNone]

/-- With the default `in_axes` the same call is fine: both get `if_array(0)`. -/
theorem unnamed_varargs (tup : K) (x y : V) :
    AxisAt (.leaf (ifArray 0)) (.node tup [.leaf (.arr x), .leaf (.arr y)] : Val K V O) [1] (some 0) :=
  ⟨[], [1], .leaf (ifArray 0), .arr y, rfl, rfl, rfl, .inr (.inr ⟨_, rfl, rfl⟩)⟩

/-- `in_axes=(0, "x")`: the second entry is none of the three. -/
example : IsPrefix ((.node () [.leaf (.int 0), .leaf .other] : PT Unit (AxSpec Ex.Arr Int)).cut isNone)
      (.node () [.leaf (.obj 3), .leaf (.obj 7)] : Val Unit Ex.Arr Int) ∧
    (.node () [.leaf (.int 0), .leaf .other] : PT Unit (AxSpec Ex.Arr Int)).leafAt? [1] = some .other :=
  ⟨isPrefix_iff.2 ⟨.node () [.leaf (.leaf (.obj 3)), .leaf (.leaf (.obj 7))], rfl, rfl⟩, rfl⟩

/-- `filter_vmap(f, in_axes={"y": None})(matrix, 7)` for `def f(x, y)`: `x` gets `if_array(0)`. -/
example : (namedTree () ["x", "y"] 2 (.dict [("y", .none)]) : Except Err (PT Unit (AxSpec Ex.Arr Int))) =
    .ok (.node () [.leaf (ifArray 0), .none]) := rfl

example : (namedTree () ["x", "y"] 1 (.dict [("y", .none)]) : Except Err (PT Unit (AxSpec Ex.Arr Int))) =
    .error .valueError := rfl

end Verif.Vmap
