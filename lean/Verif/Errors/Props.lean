import Verif.Errors.Spec
import Verif.Filters.Props
import Verif.PyTree.Closed

/-! # C32: runtime errors -/

namespace Verif.Errors

open PT NN Filters

theorem mem_indices {s i : List Nat} : i ∈ indices s ↔ InB i s := by
  induction s generalizing i with
  | nil => cases i <;> simp [indices, InB]
  | cons n ns ih =>
    cases i with
    | nil => simp [indices, InB]
    | cons a i => simp [indices, InB, ih]

theorem insertIdx_eraseIdx {l : List Nat} {k : Nat} (h : k < l.length) :
    (l.eraseIdx k).insertIdx k l[k] = l := by
  induction l generalizing k with
  | nil => simp at h
  | cons a l ih =>
    cases k with
    | zero => simp
    | succ k => simp only [List.eraseIdx_cons_succ, List.insertIdx_succ_cons, List.getElem_cons_succ]
                rw [ih (by simpa using h)]

/-- All the entries of the array behind any number of tracers. -/
def entries {α : Type} : Traced α → List α
  | .array a => (indices a.shape).map a.at_
  | .batched x _ => entries x
  | .jitted x => entries x

theorem hasEntry_length {α : Type} {t : Traced α} {lane idx : List Nat} {v : α} (hw : t.WF)
    (h : t.HasEntry lane idx v) : idx.length = t.rank := by
  induction t generalizing lane idx with
  | array a => exact inB_length h.2.1
  | batched x axis ih =>
    obtain ⟨i, rest, _, ha, h⟩ := h
    have := ih hw.1 h
    rw [List.length_insertIdx_of_le_length ha] at this
    simp only [Traced.rank]
    omega
  | jitted x ih => exact ih hw h

theorem mem_entries {α : Type} {t : Traced α} (hw : t.WF) {v : α} :
    v ∈ entries t ↔ ∃ lane idx, t.HasEntry lane idx v := by
  induction t with
  | array a =>
    simp only [entries, List.mem_map, mem_indices, Traced.HasEntry]
    constructor
    · rintro ⟨i, h, rfl⟩; exact ⟨[], i, rfl, h, rfl⟩
    · rintro ⟨_, i, _, h, h'⟩; exact ⟨i, h, h'⟩
  | batched x axis ih =>
    simp only [entries, ih hw.1, Traced.HasEntry]
    constructor
    · rintro ⟨lane, idx, h⟩
      have hl := hasEntry_length hw.1 h
      have ha : axis < idx.length := by rw [hl]; exact hw.2
      refine ⟨idx[axis] :: lane, idx.eraseIdx axis, idx[axis], lane, rfl, ?_, ?_⟩
      · rw [List.length_eraseIdx_of_lt ha]; omega
      · rw [insertIdx_eraseIdx ha]; exact h
    · rintro ⟨_, idx, i, rest, _, _, h⟩
      exact ⟨rest, _, h⟩
  | jitted x ih => exact ih hw

theorem unvmapAny_value (t : Traced Bool) : (unvmapAny t).value = (entries t).any id := by
  induction t with
  | array a => simp [unvmapAny, Traced.value, scalar, entries, List.any_map]
  | batched x axis ih => exact ih
  | jitted x ih => exact ih

theorem foldl_max (xs : List Int) (x : Int) :
    (xs.foldl max x = x ∨ xs.foldl max x ∈ xs) ∧ x ≤ xs.foldl max x ∧ ∀ y ∈ xs, y ≤ xs.foldl max x := by
  induction xs generalizing x with
  | nil => simp
  | cons a xs ih =>
    obtain ⟨h1, h2, h3⟩ := ih (max x a)
    simp only [List.foldl_cons, List.mem_cons]
    refine ⟨?_, by omega, ?_⟩
    · rcases h1 with h1 | h1
      · rw [h1]; by_cases h : x ≤ a
        · right; left; omega
        · left; omega
      · exact .inr (.inr h1)
    · rintro y (rfl | hy)
      · omega
      · exact h3 y hy

theorem jnpMax_ok {l : List Int} {m : Int} (h1 : m ∈ l) (h2 : ∀ x ∈ l, x ≤ m) : jnpMax l = .ok m := by
  cases l with
  | nil => simp at h1
  | cons x xs =>
    obtain ⟨h3, h4, h5⟩ := foldl_max xs x
    simp only [jnpMax]
    congr 1
    apply Int.le_antisymm
    · rcases h3 with h3 | h3
      · rw [h3]; exact h2 x (by simp)
      · exact h2 _ (by simp [h3])
    · rcases List.mem_cons.1 h1 with rfl | h1
      · exact h4
      · exact h5 m h1

theorem unvmapMax_value {t : Traced Int} {m : Int} (h1 : m ∈ entries t) (h2 : ∀ x ∈ entries t, x ≤ m) :
    ∃ u, unvmapMax t = .ok u ∧ u.value = m := by
  induction t with
  | array a =>
    have := jnpMax_ok h1 h2
    simp only [entries] at this
    simp only [unvmapMax, this, bind, Except.bind, pure, Except.pure]
    exact ⟨_, rfl, rfl⟩
  | batched x axis ih => exact ih h1 h2
  | jitted x ih =>
    obtain ⟨u, hu, hv⟩ := ih h1 h2
    simp only [unvmapMax, hu, bind, Except.bind, pure, Except.pure]
    exact ⟨_, rfl, hv⟩

/-- The reductions leave no batch axis, so that `lax.cond` sees a single predicate. -/
theorem unvmap_unbatched :
    (∀ t, (unvmapAny t).Unbatched) ∧ ∀ t u, unvmapMax t = .ok u → u.Unbatched := by
  constructor
  · intro t
    induction t with
    | array a => rfl
    | batched x axis ih => exact ih
    | jitted x ih => exact ih
  · intro t
    induction t with
    | array a =>
      intro u h
      simp only [unvmapMax, bind, Except.bind, pure, Except.pure] at h
      split at h
      · cases h
      · cases h; rfl
    | batched x axis ih => exact ih
    | jitted x ih =>
      intro u h
      simp only [unvmapMax, bind, Except.bind, pure, Except.pure] at h
      split at h
      · cases h
      · rename_i v hv; cases h; exact ih v hv

/-- The value of the predicate the code computes. -/
theorem resolvePred_trace {p : Pred} (hw : p.WF) :
    ∃ b, (b = true ↔ p.SomeTrue) ∧ resolvePred (tracePred p) = if p.isArray then .traced b else .static b := by
  cases p with
  | py b => exact ⟨b, by simp [Pred.SomeTrue], rfl⟩
  | arr t =>
    refine ⟨(entries t).any id, ?_, ?_⟩
    · rw [List.any_eq_true]
      constructor
      · rintro ⟨x, hx, h⟩
        simp only [id] at h
        subst h
        exact (mem_entries hw).1 hx
      · intro h
        exact ⟨true, (mem_entries hw).2 h, rfl⟩
    · simp [tracePred, resolvePred, Pred.isArray, unvmapAny, known, Traced.isTracer, Traced.value, unvmapAny_value]

theorem resolveIndex_trace {i : Index} {m : Int} (hw : i.WF) (hm : i.Largest m) :
    resolveIndex (traceIndex i) = .ok (if i.isArray then .traced m else .static m) := by
  cases i with
  | py j => simp [traceIndex, resolveIndex, Index.isArray, Index.Largest] at hm ⊢; exact hm.symm
  | arr t =>
    obtain ⟨h1, h2⟩ := hm
    obtain ⟨u, hu, hv⟩ := unvmapMax_value (t := t) ((mem_entries hw).2 h1)
      (fun x hx => by obtain ⟨l, j, h⟩ := (mem_entries hw).1 hx; exact h2 l j x h)
    simp [traceIndex, resolveIndex, unvmapMax, hu, bind, Except.bind, pure, Except.pure, known, Traced.isTracer,
      Traced.value, hv, Index.isArray]

section
variable {K : Type} [DecidableEq K]

omit [DecidableEq K] in
theorem nanLike_ok {l : Leaf} (h : l.isArray = true) (hf : ¬ Foreign l) :
    nanLike l = .ok (nanned l) ∧ nanLikeStruct l = .ok (nanned l) := by
  cases l with
  | arr d a => cases d <;> first | exact ⟨rfl, rfl⟩ | exact absurd trivial hf
  | obj n => cases h

omit [DecidableEq K] in
theorem cut_noLeaf_map {α : Type} (t : PT K α) : t.cut noLeaf = t.map PT.leaf := by
  induction t using PT.ind with
  | leaf a => rfl
  | none => rfl
  | node k cs ih =>
    simp only [cut, noLeaf, PT.map, cutL_eq, mapL_eq, Bool.false_eq_true, if_false]
    congr 1
    exact List.map_congr_left ih

omit [DecidableEq K] in
theorem treeMap_nan {x : PT K Leaf} (h : ∀ l ∈ x.leaves, l.isArray = true) (hf : ∀ l ∈ x.leaves, ¬ Foreign l) :
    treeMap1 noLeaf nanLikeTree x = .ok (x.map nanned) ∧ treeMap1 noLeaf nanStructTree x = .ok (x.map nanned) := by
  have hj : (x.map fun l => PT.leaf (nanned l)).join = x.map nanned := by
    have := join_map_leaf (x.map nanned)
    rwa [map_map] at this
  constructor <;>
    (rw [treeMap1_closed (u := x) (c := PT.leaf) (g := fun l => PT.leaf (nanned l)) (cut_noLeaf_map x)]
     · exact congrArg Except.ok hj
     · intro l hl
       simp [nanLikeTree, nanStructTree, nanLike_ok (h l hl) (hf l hl), bind, Except.bind, pure, Except.pure])

/-- The dynamic part. -/
def dyn (x : PT K Leaf) : PT K Leaf := withNones (x.map fun a => if a.isArray then some a else Option.none)

theorem thread_eq (x : PT K Leaf) (b : Bool) (i : Int) (msgs : List String) (mode : Mode)
    (hf : b = true → mode ≠ .raise → ∀ l ∈ x.leaves, ¬ Foreign l) :
    thread x b i msgs mode =
      if ¬ ∃ l ∈ x.leaves, l.isArray = true then .fail (.err .valueError)
      else if b = false then ⟨[], .ok x⟩
      else match mode with
        | .nan => ⟨[], .ok (x.map nanned)⟩
        | .raise => match pyIndex msgs i with
          | .ok m => .fail (.runtime m)
          | .error e => .fail (.err e)
        | .breakpoint => match pyIndex msgs i with
          | .ok m => ⟨[m], .ok (x.map nanned)⟩
          | .error e => .fail (.err e) := by
  have hp := partition_callable_closed (K := K) isArrayTree x
  simp only [thread, hp, leaves_withNones, List.length_eq_zero_iff, List.filterMap_eq_nil_iff]
  by_cases hx : ∃ l ∈ x.leaves, l.isArray = true
  · have hx' : ¬ ∀ l ∈ x.leaves, (if isArrayTree (PT.leaf l : PT K Leaf) then some l else Option.none) = Option.none := by
      intro h
      obtain ⟨l, hl, h'⟩ := hx
      have := h l hl
      simp [isArrayTree, h'] at this
    rw [if_neg hx', if_neg (Classical.not_not.2 (show ∃ l ∈ x.leaves, l.isArray = true from hx))]
    have hc : combine noLeaf [withNones (x.map fun a => if isArrayTree (PT.leaf a : PT K Leaf) then some a else Option.none),
        withNones (x.map fun a => if isArrayTree (PT.leaf a : PT K Leaf) then Option.none else some a)] = .ok x :=
      (combine_partition hp).1
    have hd : ∀ l ∈ (withNones (x.map fun a => if isArrayTree (PT.leaf a : PT K Leaf) then some a else Option.none)).leaves,
        l.isArray = true := by
      intro l hl
      rw [leaves_withNones, List.mem_filterMap] at hl
      obtain ⟨a, _, h⟩ := hl
      by_cases ha : a.isArray = true
      · rw [if_pos (show isArrayTree (PT.leaf a : PT K Leaf) = true from ha)] at h
        cases h; exact ha
      · rw [if_neg (show ¬ isArrayTree (PT.leaf a : PT K Leaf) = true from ha)] at h
        cases h
    have hn := fun (h1 : b = true) (h2 : mode ≠ .raise) => treeMap_nan hd (fun l hl => by
      rw [leaves_withNones, List.mem_filterMap] at hl
      obtain ⟨a', ha, h⟩ := hl
      split at h
      · cases h; exact hf h1 h2 _ ha
      · cases h)
    have hcn : combine noLeaf [(withNones (x.map fun a => if isArrayTree (PT.leaf a : PT K Leaf) then some a else Option.none)).map nanned,
        withNones (x.map fun a => if isArrayTree (PT.leaf a : PT K Leaf) then Option.none else some a)]
        = .ok (x.map nanned) := by
      rw [withNones_map]
      refine (combine_closed x [_, _] (by simp)).trans ?_
      rw [← withNones_some x nanned]
      congr 2
      apply map_congr_leaves
      intro l _
      cases l <;> simp [isArrayTree, Leaf.isArray, nanned]
    cases b with
    | false => cases mode <;> simp [errorCond, hc, Run.ofExcept]
    | true =>
      cases mode with
      | raise => simp only [errorCond, if_true]; cases pyIndex msgs i <;> simp [Run.fail]
      | nan => simp [errorCond, (hn rfl nofun).1, Run.ofExcept, hcn]
      | breakpoint =>
        simp only [errorCond, if_true, (hn rfl nofun).2]
        cases pyIndex msgs i <;> simp [Run.fail, Run.ofExcept, hcn]
  · have hx' : ∀ l ∈ x.leaves, (if isArrayTree (PT.leaf l : PT K Leaf) then some l else Option.none) = Option.none := by
      intro l hl
      have : ¬ l.isArray = true := fun h => hx ⟨l, hl, h⟩
      simp [isArrayTree, this]
    rw [if_pos hx', if_pos hx]

/-- Whether or not `filter_jit` is used, the same thing runs. -/
theorem branchedErrorIf_eq (env : Mode) (x : PT K Leaf) (pred : Pred) (index : Index) (msgs : List String)
    (onError : OnError) :
    branchedErrorIf env x pred index msgs onError = impl env x (tracePred pred) (traceIndex index) msgs onError := by
  unfold branchedErrorIf
  split
  · rfl
  · rename_i h
    simp only [Bool.or_eq_true, not_or, Bool.not_eq_true] at h
    cases pred with
    | arr t => simp [Pred.isArray] at h
    | py b =>
      cases index with
      | arr t => simp [Index.isArray] at h
      | py i => rfl

/-- The mode in force: the environment's if the argument is left at its default. -/
def ModeIs (env : Mode) : OnError → Mode → Prop
  | .default, m => m = env
  | .mode m', m => m = m'
  | .other _, _ => False

theorem resolveMode_ok {env m : Mode} {o : OnError} (h : ModeIs env o m) : resolveMode env o = .ok m := by
  cases o with
  | default => simp [ModeIs] at h; simp [resolveMode, h]
  | mode m' => simp [ModeIs] at h; simp [resolveMode, h]
  | other s => exact h.elim

/-- **C32**, no error: if no entry of the predicate in any batch element is true, and the predicate is a
`bool` or there is an array to attach the check to, `x` is returned as it is. -/
theorem branched_error_if_quiet {env m : Mode} {x : PT K Leaf} {pred : Pred} {index : Index} {i : Int}
    {msgs : List String} {o : OnError} (hp : pred.WF) (hi : index.WF) (hl : index.Largest i) (ho : ModeIs env o m)
    (h : ¬ pred.SomeTrue) (ha : pred.isArray = false ∨ HasArray x) :
    branchedErrorIf env x pred index msgs o = ⟨[], .ok x⟩ := by
  obtain ⟨b, hb, hr⟩ := resolvePred_trace hp
  have hb' : b = false := by cases b; rfl; exact (h (hb.1 rfl)).elim
  subst hb'
  rw [branchedErrorIf_eq]
  simp only [impl, resolveMode_ok ho, resolveIndex_trace hi hl, hr]
  cases hpa : pred.isArray with
  | false => simp
  | true =>
    rcases ha with ha | ha
    · rw [ha] at hpa; cases hpa
    · simp only [if_true]
      rw [thread_eq x false _ msgs m nofun,
        if_neg (Classical.not_not.2 (show ∃ l ∈ x.leaves, l.isArray = true from ha)), if_pos rfl]

/-- The message that an index selects: from the front, or from the back if it is negative. -/
def Selects (msgs : List String) (i : Int) (msg : String) : Prop :=
  (∃ j : Nat, i = j ∧ msgs[j]? = some msg) ∨ (∃ j : Nat, i = -1 - (j : Int) ∧ msgs.reverse[j]? = some msg)

theorem pyIndex_selects {msgs : List String} {i : Int} {msg : String} : Selects msgs i msg ↔ pyIndex msgs i = .ok msg := by
  by_cases h0 : i < 0
  · obtain ⟨j, rfl⟩ : ∃ j : Nat, i = -1 - (j : Int) := ⟨(-1 - i).toNat, by omega⟩
    have hn : ∀ k : Nat, ¬ (-1 - (j : Int)) = k := by intro k; omega
    have hr : Selects msgs (-1 - (j : Int)) msg ↔ msgs.reverse[j]? = some msg := by
      constructor
      · rintro (⟨k, h, -⟩ | ⟨k, h, hk⟩)
        · exact absurd h (hn k)
        · obtain rfl : j = k := by omega
          exact hk
      · exact fun h => .inr ⟨j, rfl, h⟩
    rw [hr]
    simp only [pyIndex, h0, if_true]
    by_cases hj : j < msgs.length
    · rw [List.getElem?_reverse hj, if_neg (by omega), show (-1 - (j : Int) + msgs.length).toNat = msgs.length - 1 - j by omega]
      cases msgs[msgs.length - 1 - j]? <;> simp
    · rw [if_pos (by omega), List.getElem?_eq_none (by simp; omega)]
      simp
  · obtain ⟨j, rfl⟩ : ∃ j : Nat, i = j := ⟨i.toNat, by omega⟩
    have hr : Selects msgs j msg ↔ msgs[j]? = some msg := by
      constructor
      · rintro (⟨k, h, hk⟩ | ⟨k, h, -⟩)
        · obtain rfl : j = k := by omega
          exact hk
        · omega
      · exact fun h => .inl ⟨j, rfl, h⟩
    rw [hr]
    simp only [pyIndex, h0, if_false, Int.toNat_natCast]
    cases msgs[j]? <;> simp

theorem pyIndex_none {msgs : List String} {i : Int} (h : ∀ msg, ¬ Selects msgs i msg) : pyIndex msgs i = .error .indexError := by
  have h' : ∀ msg, pyIndex msgs i ≠ .ok msg := fun msg hm => h msg (pyIndex_selects.2 hm)
  unfold pyIndex at h' ⊢
  simp only at h' ⊢
  by_cases h1 : (if i < 0 then i + (msgs.length : Int) else i) < 0
  · rw [if_pos h1]
  · rw [if_neg h1] at h' ⊢
    cases h2 : msgs[(if i < 0 then i + (msgs.length : Int) else i).toNat]? with
    | none => rfl
    | some m => simp [h2] at h'

/-- **C32**, raising: if some entry of the predicate in some batch element is true, the message belonging to
the largest index of the batch is raised: at trace time if predicate and index are known then, and otherwise
when the program runs. -/
theorem branched_error_if_raises {env : Mode} {x : PT K Leaf} {pred : Pred} {index : Index} {i : Int}
    {msgs : List String} {msg : String} {o : OnError} (hp : pred.WF) (hi : index.WF) (hl : index.Largest i)
    (ho : ModeIs env o .raise) (h : pred.SomeTrue) (hm : Selects msgs i msg)
    (ha : (pred.isArray = false ∧ index.isArray = false) ∨ HasArray x) :
    branchedErrorIf env x pred index msgs o =
      ⟨[], .error (if pred.isArray = false ∧ index.isArray = false then .traceTime msg else .runtime msg)⟩ := by
  obtain ⟨b, hb, hr⟩ := resolvePred_trace hp
  have hb' : b = true := hb.2 h
  subst hb'
  have hpy : pyIndex msgs i = .ok msg := pyIndex_selects.1 hm
  rw [branchedErrorIf_eq]
  simp only [impl, resolveMode_ok ho, resolveIndex_trace hi hl, hr]
  have ht (hx : HasArray x) : thread x true i msgs .raise = .fail (.runtime msg) := by
    rw [thread_eq _ _ _ _ _ (fun _ h => absurd rfl h),
      if_neg (Classical.not_not.2 (show ∃ l ∈ x.leaves, l.isArray = true from hx))]
    simp [hpy]
  cases hpa : pred.isArray <;> cases hia : index.isArray <;> simp [hpa, hia, hpy, Known.val] at ha ⊢ <;>
    first | (rw [ht ha]; rfl) | rfl

/-- **C32**, `on_error="nan"`: if some entry is true, the arrays of `x` are replaced by NaN-like ones and the
rest of `x` is kept. Partial: if predicate and index are both known at trace time the code maps `_nan_like`
over all leaves, so that the claim needs all leaves to be arrays; see `error_if_nan_static_fails`. And arrays in a
dtype that NumPy does not have itself are not replaced; see `error_if_nan_bfloat16`. -/
theorem branched_error_if_nan_partial {env : Mode} {x : PT K Leaf} {pred : Pred} {index : Index} {i : Int}
    {msgs : List String} {o : OnError} (hp : pred.WF) (hi : index.WF) (hl : index.Largest i)
    (ho : ModeIs env o .nan) (h : pred.SomeTrue) (ha : HasArray x)
    (hs : pred.isArray = false → index.isArray = false → ∀ l ∈ x.leaves, l.isArray = true)
    (hf : ∀ l ∈ x.leaves, ¬ Foreign l) :
    branchedErrorIf env x pred index msgs o = ⟨[], .ok (x.map nanned)⟩ := by
  obtain ⟨b, hb, hr⟩ := resolvePred_trace hp
  have hb' : b = true := hb.2 h
  subst hb'
  rw [branchedErrorIf_eq]
  simp only [impl, resolveMode_ok ho, resolveIndex_trace hi hl, hr]
  have ht : thread x true i msgs .nan = ⟨[], .ok (x.map nanned)⟩ := by
    rw [thread_eq _ _ _ _ _ (fun _ _ => hf),
      if_neg (Classical.not_not.2 (show ∃ l ∈ x.leaves, l.isArray = true from ha))]
    simp
  cases hpa : pred.isArray <;> cases hia : index.isArray <;> simp [Known.val, ht]
  rw [(treeMap_nan (hs hpa hia) hf).1]
  rfl

/-- **C32**, `on_error="breakpoint"`: the message is printed, and if execution continues the arrays are
NaN-like. (With everything known at trace time it is printed at trace time too.) Partial as before; see
`error_if_breakpoint_bfloat16`. -/
theorem branched_error_if_breakpoint_partial {env : Mode} {x : PT K Leaf} {pred : Pred} {index : Index} {i : Int}
    {msgs : List String} {msg : String} {o : OnError} (hp : pred.WF) (hi : index.WF) (hl : index.Largest i)
    (ho : ModeIs env o .breakpoint) (h : pred.SomeTrue) (hm : Selects msgs i msg) (ha : HasArray x)
    (hf : ∀ l ∈ x.leaves, ¬ Foreign l) :
    branchedErrorIf env x pred index msgs o =
      ⟨if pred.isArray = false ∧ index.isArray = false then [msg, msg] else [msg], .ok (x.map nanned)⟩ := by
  obtain ⟨b, hb, hr⟩ := resolvePred_trace hp
  have hb' : b = true := hb.2 h
  subst hb'
  have hpy : pyIndex msgs i = .ok msg := pyIndex_selects.1 hm
  rw [branchedErrorIf_eq]
  simp only [impl, resolveMode_ok ho, resolveIndex_trace hi hl, hr]
  have ht : thread x true i msgs .breakpoint = ⟨[msg], .ok (x.map nanned)⟩ := by
    rw [thread_eq _ _ _ _ _ (fun _ _ => hf),
      if_neg (Classical.not_not.2 (show ∃ l ∈ x.leaves, l.isArray = true from ha))]
    simp [hpy]
  cases hpa : pred.isArray <;> cases hia : index.isArray <;> simp [Known.val, hpy, ht]

/-- **C32**, an index without message: the error is not lost, but is an `IndexError` instead. Nothing is printed, and `x` is not
returned. -/
theorem branched_error_if_out_of_range {env m : Mode} {x : PT K Leaf} {pred : Pred} {index : Index} {i : Int}
    {msgs : List String} {o : OnError} (hp : pred.WF) (hi : index.WF) (hl : index.Largest i)
    (ho : ModeIs env o m) (hmode : m ≠ .nan) (h : pred.SomeTrue) (hm : ∀ msg, ¬ Selects msgs i msg)
    (ha : (pred.isArray = false ∧ index.isArray = false) ∨ HasArray x) :
    branchedErrorIf env x pred index msgs o = ⟨[], .error (.err .indexError)⟩ := by
  obtain ⟨b, hb, hr⟩ := resolvePred_trace hp
  have hb' : b = true := hb.2 h
  subst hb'
  have hpy := pyIndex_none hm
  rw [branchedErrorIf_eq]
  simp only [impl, resolveMode_ok ho, resolveIndex_trace hi hl, hr]
  have ht (hx : HasArray x) : thread x true i msgs m = .fail (.err .indexError) := by
    have hpart := partition_callable_closed (K := K) isArrayTree x
    have hdyn : ¬ ∀ l ∈ x.leaves, (if isArrayTree (PT.leaf l : PT K Leaf) then some l else Option.none) = Option.none := by
      intro h
      obtain ⟨l, hl, h'⟩ := hx
      have := h l hl
      simp [isArrayTree, h'] at this
    simp only [thread, hpart, leaves_withNones, List.length_eq_zero_iff, List.filterMap_eq_nil_iff]
    rw [if_neg hdyn]
    cases m with
    | raise => simp [errorCond, hpy, Run.fail]
    | breakpoint => simp [errorCond, hpy, Run.fail]
    | nan => exact absurd rfl hmode
  cases hpa : pred.isArray <;> cases hia : index.isArray <;> cases m <;>
    simp_all [Run.fail, Known.val]

/-- The last message, one from the front, and no message. -/
example : Selects ["a", "b"] (-1) "b" ∧ Selects ["a", "b"] 0 "a" ∧ ∀ msg, ¬ Selects ["a", "b"] (-3) msg := by
  refine ⟨.inr ⟨0, rfl, rfl⟩, .inl ⟨0, rfl, rfl⟩, fun msg h => ?_⟩
  rw [pyIndex_selects] at h
  cases h

/-- **C32**, nothing to attach to: with an array as predicate (whatever its value), or a true predicate and
an array as index, and no array in `x`, the call raises instead of dropping the check. -/
theorem branched_error_if_no_array {env m : Mode} {x : PT K Leaf} {pred : Pred} {index : Index} {i : Int}
    {msgs : List String} {o : OnError} (hp : pred.WF) (hi : index.WF) (hl : index.Largest i) (ho : ModeIs env o m)
    (hx : ¬ HasArray x) (h : pred.isArray = true ∨ (pred.SomeTrue ∧ index.isArray = true)) :
    branchedErrorIf env x pred index msgs o = ⟨[], .error (.err .valueError)⟩ := by
  obtain ⟨b, hb, hr⟩ := resolvePred_trace hp
  rw [branchedErrorIf_eq]
  simp only [impl, resolveMode_ok ho, resolveIndex_trace hi hl, hr]
  have ht (b : Bool) : thread x b i msgs m = .fail (.err .valueError) := by
    rw [thread_eq _ _ _ _ _ (fun _ _ l hl hf => hx ⟨l, hl, by
      cases l with
      | arr d a => rfl
      | obj n => cases hf⟩), if_pos (show ¬ ∃ l ∈ x.leaves, l.isArray = true from hx)]
  rcases h with h | ⟨h1, h2⟩
  · cases hia : index.isArray <;> simp [h, Known.val, ht, Run.fail]
  · have hb' : b = true := hb.2 h1
    subst hb'
    cases hpa : pred.isArray <;> simp [h2, Known.val, ht, Run.fail]

/-- **C32**: an unknown `on_error` is refused, whatever the predicate. -/
theorem branched_error_if_unknown_mode (env : Mode) (x : PT K Leaf) (pred : Pred) (index : Index)
    (msgs : List String) (s : String) :
    branchedErrorIf env x pred index msgs (.other s) = ⟨[], .error (.err .runtimeError)⟩ := by
  rw [branchedErrorIf_eq]
  rfl

/-- **C32** for `error_if`, which has one message: it returns `x` if no entry is true ... -/
theorem error_if_quiet {env m : Mode} {x : PT K Leaf} {pred : Pred} {msg : String} {o : OnError} (hp : pred.WF)
    (ho : ModeIs env o m) (h : ¬ pred.SomeTrue) (ha : pred.isArray = false ∨ HasArray x) :
    errorIf env x pred msg o = ⟨[], .ok x⟩ :=
  branched_error_if_quiet (i := 0) hp trivial rfl ho h ha

/-- ... and raises otherwise ... -/
theorem error_if_raises {env : Mode} {x : PT K Leaf} {pred : Pred} {msg : String} {o : OnError} (hp : pred.WF)
    (ho : ModeIs env o .raise) (h : pred.SomeTrue) (ha : pred.isArray = false ∨ HasArray x) :
    errorIf env x pred msg o =
      ⟨[], .error (if pred.isArray then .runtime msg else .traceTime msg)⟩ := by
  have := branched_error_if_raises (index := .py 0) (i := 0) (msgs := [msg]) (msg := msg) hp trivial rfl ho h (.inl ⟨0, rfl, rfl⟩)
    (ha.imp (fun h => ⟨h, rfl⟩) id)
  simp only [Index.isArray, and_true] at this
  rw [errorIf, this]
  cases pred.isArray <;> simp

/-- ... or raises `ValueError` for an array as predicate without an array to attach it to. -/
theorem error_if_no_array {env m : Mode} {x : PT K Leaf} {pred : Pred} {msg : String} {o : OnError} (hp : pred.WF)
    (ho : ModeIs env o m) (hx : ¬ HasArray x) (h : pred.isArray = true) :
    errorIf env x pred msg o = ⟨[], .error (.err .valueError)⟩ :=
  branched_error_if_no_array (i := 0) hp trivial rfl ho hx (.inl h)

end

/-- With a predicate known at trace time, `on_error="nan"` fails on a tree that has a leaf which is not an
array. -/
theorem error_if_nan_static_fails :
    ∃ (x : PT Nat Leaf) (msg : String), HasArray x ∧
      errorIf .nan x (.py true) msg .default = ⟨[], .error (.err .attributeError)⟩ := by
  refine ⟨.node 0 [.leaf (.arr .inexact (scalar (.flt 1))), .leaf (.obj 7)], "m", ?_, rfl⟩
  exact ⟨_, by simp [PT.leaves, PT.leavesL]; exact .inl rfl, rfl⟩

/-- Arrays of `bfloat16` (and of the other data types that numpy does not know) come back as they are: an error at run time goes
unnoticed, whatever the dimensions, the entries and the predicate. -/
theorem error_if_nan_bfloat16 {K : Type} [DecidableEq K] {d : DType} (hd : d = .extFloat ∨ ∃ m, d = .extInteger m)
    (a : NArr Scalar) (pred : Pred) (msg : String) (hp : pred.WF) :
    errorIf .nan (PT.leaf (.arr d a) : PT K Leaf) pred msg .default = ⟨[], .ok (.leaf (.arr d a))⟩ := by
  obtain ⟨b, -, hr⟩ := resolvePred_trace hp
  rw [errorIf, branchedErrorIf_eq]
  rcases hd with rfl | ⟨m, rfl⟩ <;>
    cases pred <;> cases b <;> (simp only [impl, resolveMode, traceIndex, resolveIndex, hr]; rfl)

/-- With `on_error="breakpoint"` they cannot be made NaN-like either, and an exception follows. -/
theorem error_if_breakpoint_bfloat16 {K : Type} [DecidableEq K] {d : DType} (hd : d = .extFloat ∨ ∃ m, d = .extInteger m)
    (a : NArr Scalar) (pred : Pred) (msg : String) (hp : pred.WF) (h : pred.SomeTrue) :
    (errorIf .breakpoint (PT.leaf (.arr d a) : PT K Leaf) pred msg .default).result =
      .error (.err .runtimeError) := by
  obtain ⟨b, hb, hr⟩ := resolvePred_trace hp
  cases hb.2 h
  rw [errorIf, branchedErrorIf_eq]
  rcases hd with rfl | ⟨m, rfl⟩ <;> cases pred <;> (simp only [impl, resolveMode, traceIndex, resolveIndex, hr]; rfl)

namespace Ex

/-- A predicate under two `vmap`s and `jit`, true in one of four batch elements. -/
def pred : Pred := .arr (.batched (.batched (.jitted (.array ⟨[2, 2], fun i => i == [1, 0]⟩)) 0) 0)

def index : Index := .arr (.batched (.array ⟨[3], fun i => match i with | [j] => 2 - j | _ => 0⟩) 0)

def x : PT Nat Leaf := .node 0 [.leaf (.arr (.integer 127) ⟨[3], fun _ => .int 5⟩), .leaf (.obj 7), .none]

example : pred.WF ∧ pred.SomeTrue ∧ index.WF ∧ index.Largest 2 ∧ HasArray x ∧ ¬ HasArray (PT.leaf (.obj 3) : PT Nat Leaf) := by
  refine ⟨by simp [pred, Pred.WF, Traced.WF, Traced.rank], ⟨[0, 1], [], ?_⟩, by simp [index, Index.WF, Traced.WF, Traced.rank],
    ⟨⟨[0], [], ?_⟩, ?_⟩, ⟨.arr (.integer 127) ⟨[3], fun _ => .int 5⟩, ?_, ?_⟩, ?_⟩
  · exact ⟨0, [1], rfl, by simp, 1, [], rfl, by simp, rfl, by simp [InB], rfl⟩
  · exact ⟨0, [], rfl, by simp, rfl, by simp [InB], rfl⟩
  · rintro lane idx v ⟨i, rest, -, -, -, h1, h2⟩
    subst h2
    dsimp only
    split <;> omega
  · simp [x, PT.leaves, PT.leavesL]
  · rfl
  · rintro ⟨l, h, h'⟩
    simp [PT.leaves] at h
    subst h
    cases h'

/-- Nothing in `x` is of a dtype that NumPy does not have. -/
example : ∀ l ∈ x.leaves, ¬ Foreign l := by
  simp [x, PT.leaves, PT.leavesL, Foreign]

/-- No batch element fails. -/
example : (Pred.arr (.batched (.array ⟨[2], fun _ => false⟩) 0)).WF ∧
    ¬ (Pred.arr (.batched (.array ⟨[2], fun _ => false⟩) 0)).SomeTrue := by
  refine ⟨by simp [Pred.WF, Traced.WF, Traced.rank], ?_⟩
  rintro ⟨lane, idx, i, rest, -, -, -, -, h⟩
  cases h

end Ex

end Verif.Errors
