import Verif.Errors.Props

/-! # `on_error="raise"` on a backend that squelches the errors of callbacks

`Verif.Errors.errorCond` lets an exception of a callback stop the program. A TPU does not: it goes on with dummy
values of the right shapes and dtypes. `_error` is written for both (`_errors.py:80-118`), and here is the model
of it for both. -/

namespace Verif.Errors.Tpu

open PT NN Verif.Filters

section
variable {K : Type} [DecidableEq K]

/-- What becomes of an exception in a callback: it stops the program (`none`), or the `n`-th callback returns dummy
values made for the tree of arrays that it should have returned (`some`). -/
abbrev Backend (K : Type) := Option (Nat → PT K Leaf → PT K Leaf)

/-- `jax.pure_callback`: `r` is what the Python function does and `struct` what it should return
(`_errors.py:112`, `:116`). -/
def pureCallback (backend : Backend K) (n : Nat) (struct : PT K Leaf) (r : Run (PT K Leaf)) : Run (PT K Leaf) :=
  match r.result, backend with
  | .error _, some dummies => ⟨r.printed, .ok (dummies n struct)⟩
  | _, _ => r

/-- `raises` (`_errors.py:84-100`). -/
def raises (index : Int) (msgs : List String) : Run (PT K Leaf) :=
  match pyIndex msgs index with
  | .ok m => .fail (.runtime m)
  | .error e => .fail (.err e)

/-- `tpu_msg` (`_errors.py:102-110`); `input` shows the message. -/
def tpuMsg (out : PT K Leaf) (index : Int) (msgs : List String) : Run (PT K Leaf) :=
  match pyIndex msgs index with
  | .ok m => ⟨[m], (Run.ofExcept (treeMap1 noLeaf nanLikeTree out)).result⟩
  | .error e => .fail (.err e)

/-- `handle_error` (`_errors.py:112-118`). -/
def handleError (backend : Backend K) (x : PT K Leaf) (index : Int) (msgs : List String) : Run (PT K Leaf) :=
  let r := pureCallback backend 0 x (raises index msgs)
  match r.result with
  | .error e => ⟨r.printed, .error e⟩
  | .ok out =>
    let r' := pureCallback backend 1 x (tpuMsg out index msgs)
    ⟨r.printed ++ r'.printed, r'.result⟩

/-- `lax.cond(pred, handle_error, lambda: x)` (`_errors.py:120-121`). -/
def errorRaise (backend : Backend K) (x : PT K Leaf) (pred : Bool) (index : Int) (msgs : List String) :
    Run (PT K Leaf) :=
  if pred then handleError backend x index msgs else ⟨[], .ok x⟩

/-- The end of `branched_error_if_impl` (`_errors.py:337-344`). -/
def thread (backend : Backend K) (x : PT K Leaf) (pred : Bool) (index : Int) (msgs : List String) :
    Run (PT K Leaf) :=
  match Filters.partition noLeaf (.leaf (.callable fun l => .ok (isArrayTree l))) .none x with
  | .error e => .fail (.err e)
  | .ok (dynamic, static) =>
    if dynamic.leaves.length = 0 then .fail (.err .valueError)
    else
      let r := errorRaise backend dynamic pred index msgs
      match r.result with
      | .error e => ⟨r.printed, .error e⟩
      | .ok dynamic' => ⟨r.printed, (Run.ofExcept (Filters.combine noLeaf [dynamic', static])).result⟩

/-- `branched_error_if_impl` (`_errors.py:283-344`) with `on_error="raise"`. -/
def impl (backend : Backend K) (x : PT K Leaf) (pred : Pred) (index : Index) (msgs : List String) :
    Run (PT K Leaf) :=
  match resolveIndex index with
  | .error e => .fail (.err e)
  | .ok idx =>
    match resolvePred pred with
    | .static false => ⟨[], .ok x⟩
    | .static true =>
      match idx with
      | .static i =>
        match pyIndex msgs i with
        | .ok m => .fail (.traceTime m)
        | .error e => .fail (.err e)
      | .traced i => thread backend x true i msgs
    | .traced b => thread backend x b idx.val msgs

/-- `branched_error_if` (`_errors.py:261-280`) with `on_error="raise"`. -/
def branchedErrorIf (backend : Backend K) (x : PT K Leaf) (pred : Pred) (index : Index) (msgs : List String) :
    Run (PT K Leaf) :=
  if x.leaves.any Leaf.isArray || pred.isArray || index.isArray then
    impl backend x (tracePred pred) (traceIndex index) msgs
  else impl backend x pred index msgs

/-! ## What dummy values are -/

/-- Shape and dtype of an array: the entries are forgotten. -/
def outline : Leaf → Leaf
  | .arr d a => .arr d ⟨a.shape, fun _ => .nan⟩
  | .obj n => .obj n

/-- Dummy values have the structure, shapes and dtypes that were asked for, and any entries. -/
def Dummies (dummies : Nat → PT K Leaf → PT K Leaf) : Prop :=
  ∀ n t, (dummies n t).map outline = t.map outline

omit [DecidableEq K] in
theorem nanned_outline (l : Leaf) : nanned (outline l) = nanned l := by cases l <;> rfl

theorem isArray_outline (l : Leaf) : (outline l).isArray = l.isArray := by cases l <;> rfl

theorem foreign_outline (l : Leaf) : Foreign (outline l) ↔ Foreign l := by
  cases l with
  | arr d a => cases d <;> exact Iff.rfl
  | obj n => exact Iff.rfl

omit [DecidableEq K] in
theorem map_nanned_eq {s t : PT K Leaf} (h : s.map outline = t.map outline) : s.map nanned = t.map nanned := by
  have h2 : ∀ u : PT K Leaf, u.map nanned = (u.map outline).map nanned := by
    intro u
    rw [map_map]
    exact map_congr_leaves fun l _ => (nanned_outline l).symm
  rw [h2 s, h2 t, h]

omit [DecidableEq K] in
theorem leaves_outline {s t : PT K Leaf} (h : s.map outline = t.map outline) {l : Leaf} (hl : l ∈ s.leaves) :
    ∃ l' ∈ t.leaves, outline l' = outline l := by
  have : outline l ∈ (t.map outline).leaves := by
    rw [← h, leaves_map]; exact List.mem_map_of_mem hl
  rw [leaves_map] at this
  exact List.mem_map.1 this

/-! ## The parts into which `x` is split -/

/-- The arrays of `x`. -/
private def arrays (x : PT K Leaf) : PT K Leaf :=
  withNones (x.map fun a => if isArrayTree (PT.leaf a : PT K Leaf) then some a else Option.none)

/-- The rest of `x`. -/
private def others (x : PT K Leaf) : PT K Leaf :=
  withNones (x.map fun a => if isArrayTree (PT.leaf a : PT K Leaf) then Option.none else some a)

omit [DecidableEq K] in
private theorem mem_arrays {x : PT K Leaf} {l : Leaf} (h : l ∈ (arrays x).leaves) :
    l ∈ x.leaves ∧ l.isArray = true := by
  rw [arrays, leaves_withNones, List.mem_filterMap] at h
  obtain ⟨a, ha, h⟩ := h
  split at h
  · rename_i h'; cases h; exact ⟨ha, h'⟩
  · cases h

private theorem thread_parts {x : PT K Leaf} (hx : HasArray x) (backend : Backend K) (pred : Bool) (index : Int)
    (msgs : List String) :
    thread backend x pred index msgs =
      match (errorRaise backend (arrays x) pred index msgs).result with
      | .error e => ⟨(errorRaise backend (arrays x) pred index msgs).printed, .error e⟩
      | .ok y => ⟨(errorRaise backend (arrays x) pred index msgs).printed,
          (Run.ofExcept (Filters.combine noLeaf [y, others x])).result⟩ := by
  have hp := partition_callable_closed (K := K) isArrayTree x
  have hne : ¬ (arrays x).leaves.length = 0 := by
    rw [List.length_eq_zero_iff, arrays, leaves_withNones, List.filterMap_eq_nil_iff]
    intro h
    obtain ⟨l, hl, h'⟩ := hx
    have := h l hl
    simp [isArrayTree, h'] at this
  simp only [thread, hp]
  exact if_neg hne

private theorem thread_none {x : PT K Leaf} (hx : ¬ HasArray x) (backend : Backend K) (pred : Bool) (index : Int)
    (msgs : List String) : thread backend x pred index msgs = .fail (.err .valueError) := by
  have hp := partition_callable_closed (K := K) isArrayTree x
  simp only [thread, hp]
  apply if_pos
  rw [List.length_eq_zero_iff, leaves_withNones, List.filterMap_eq_nil_iff]
  intro l hl
  have : ¬ l.isArray = true := fun h => hx ⟨l, hl, h⟩
  simp [isArrayTree, this]

private theorem combine_parts (x : PT K Leaf) : combine noLeaf [arrays x, others x] = .ok x :=
  (combine_partition (partition_callable_closed (K := K) isArrayTree x)).1

private theorem combine_nanned (x : PT K Leaf) :
    combine noLeaf [(arrays x).map nanned, others x] = .ok (x.map nanned) := by
  rw [arrays, others, withNones_map]
  refine (combine_closed x [_, _] (by simp)).trans ?_
  rw [← withNones_some x nanned]
  congr 2
  apply map_congr_leaves
  intro l _
  cases l <;> simp [isArrayTree, Leaf.isArray, nanned]

private theorem branchedErrorIf_eq (backend : Backend K) (x : PT K Leaf) (pred : Pred) (index : Index)
    (msgs : List String) :
    branchedErrorIf backend x pred index msgs = impl backend x (tracePred pred) (traceIndex index) msgs := by
  unfold branchedErrorIf
  split
  · rfl
  · rename_i h
    simp only [Bool.or_eq_true, not_or, Bool.not_eq_true] at h
    cases pred with
    | arr t => simp [Pred.isArray] at h
    | py b =>
      cases index with
      | arr t => simp [Index.isArray] at h
      | py i => rfl

omit [DecidableEq K] in
private theorem handleError_squelched {dummies : Nat → PT K Leaf → PT K Leaf} (hd : Dummies dummies)
    {x : PT K Leaf} (h : ∀ l ∈ x.leaves, l.isArray = true) (hf : ∀ l ∈ x.leaves, ¬ Foreign l) {i : Int}
    {msgs : List String} {msg : String} (hm : pyIndex msgs i = .ok msg) :
    handleError (some dummies) x i msgs = ⟨[msg], .ok (x.map nanned)⟩ := by
  have ha : ∀ l ∈ (dummies 0 x).leaves, l.isArray = true := fun l hl => by
    obtain ⟨l', h1, h2⟩ := leaves_outline (hd 0 x) hl
    rw [← isArray_outline, ← h2, isArray_outline]
    exact h l' h1
  have hg : ∀ l ∈ (dummies 0 x).leaves, ¬ Foreign l := fun l hl => by
    obtain ⟨l', h1, h2⟩ := leaves_outline (hd 0 x) hl
    rw [← foreign_outline, ← h2, foreign_outline]
    exact hf l' h1
  simp [handleError, pureCallback, raises, tpuMsg, hm, Run.fail, (treeMap_nan ha hg).1, Run.ofExcept,
    map_nanned_eq (hd 0 x)]

/-! ## The claims -/

/-- **C121**, elsewhere: where exceptions stop the program, the code for TPUs changes nothing. -/
theorem raising_backend (env : Mode) (x : PT K Leaf) (pred : Pred) (index : Index) (msgs : List String) :
    branchedErrorIf Option.none x pred index msgs = Errors.branchedErrorIf env x pred index msgs (.mode .raise) := by
  have he (t : PT K Leaf) (b : Bool) (i : Int) :
      errorRaise Option.none t b i msgs = errorCond t b i msgs .raise := by
    cases b
    · rfl
    · simp only [errorRaise, errorCond, handleError, pureCallback, raises, if_true]
      cases pyIndex msgs i <;> rfl
  have ht (b : Bool) (i : Int) : thread Option.none x b i msgs = Errors.thread x b i msgs .raise := by
    simp only [thread, Errors.thread, he]
    rfl
  rw [branchedErrorIf_eq, Errors.branchedErrorIf_eq]
  simp only [impl, Errors.impl, resolveMode, ht]
  rfl

/-- **C121**, no error: `x` is returned as it is, and nothing is shown. -/
theorem squelched_quiet (backend : Backend K) {x : PT K Leaf} {pred : Pred} {index : Index} {i : Int}
    {msgs : List String} (hp : pred.WF) (hi : index.WF) (hl : index.Largest i) (h : ¬ pred.SomeTrue)
    (ha : pred.isArray = false ∨ HasArray x) :
    branchedErrorIf backend x pred index msgs = ⟨[], .ok x⟩ := by
  obtain ⟨b, hb, hr⟩ := resolvePred_trace hp
  have hb' : b = false := by cases b; rfl; exact (h (hb.1 rfl)).elim
  subst hb'
  rw [branchedErrorIf_eq]
  simp only [impl, resolveIndex_trace hi hl, hr]
  cases hpa : pred.isArray with
  | false => simp
  | true =>
    rcases ha with ha | ha
    · rw [ha] at hpa; cases hpa
    · simp [thread_parts ha, errorRaise, combine_parts, Run.ofExcept]

/-- **C121**, an error known at trace time is raised at trace time, on every backend. -/
theorem squelched_static (backend : Backend K) (x : PT K Leaf) (i : Int) {msgs : List String} {msg : String}
    (hm : Selects msgs i msg) :
    branchedErrorIf backend x (.py true) (.py i) msgs = ⟨[], .error (.traceTime msg)⟩ := by
  rw [branchedErrorIf_eq]
  simp [impl, tracePred, traceIndex, resolveIndex, resolvePred, pyIndex_selects.1 hm, Run.fail]

/-- **C121**, an error found when the program runs: whatever dummy values the backend goes on with, the message of
the largest index is shown, once, and the arrays of `x` are replaced by NaN-like ones and the rest of `x` is kept: the
result is that of `on_error="nan"`. Partial: not for arrays in a dtype that NumPy does not have itself; see
`squelched_bfloat16`. -/
theorem squelched_error_partial {dummies : Nat → PT K Leaf → PT K Leaf} (hd : Dummies dummies) {x : PT K Leaf}
    {pred : Pred} {index : Index} {i : Int} {msgs : List String} {msg : String} (hp : pred.WF) (hi : index.WF)
    (hl : index.Largest i) (h : pred.SomeTrue) (hm : Selects msgs i msg)
    (hn : ¬ (pred.isArray = false ∧ index.isArray = false)) (ha : HasArray x) (hf : ∀ l ∈ x.leaves, ¬ Foreign l) :
    branchedErrorIf (some dummies) x pred index msgs = ⟨[msg], .ok (x.map nanned)⟩ := by
  obtain ⟨b, hb, hr⟩ := resolvePred_trace hp
  have hb' : b = true := hb.2 h
  subst hb'
  have hpy : pyIndex msgs i = .ok msg := pyIndex_selects.1 hm
  have ht : thread (some dummies) x true i msgs = ⟨[msg], .ok (x.map nanned)⟩ := by
    rw [thread_parts ha]
    simp [errorRaise, handleError_squelched hd (fun l hl => (mem_arrays hl).2) (fun l hl => hf l (mem_arrays hl).1)
      hpy, combine_nanned, Run.ofExcept]
  rw [branchedErrorIf_eq]
  simp only [impl, resolveIndex_trace hi hl, hr]
  cases hpa : pred.isArray <;> cases hia : index.isArray <;> simp [hpa, hia, Known.val, ht] at hn ⊢

/-- **C121**, nothing to attach to: the call raises instead of dropping the check, also on such a backend, as the
exception comes while tracing. -/
theorem squelched_no_array (backend : Backend K) {x : PT K Leaf} {pred : Pred} {index : Index} {i : Int}
    {msgs : List String} (hp : pred.WF) (hi : index.WF) (hl : index.Largest i) (hx : ¬ HasArray x)
    (h : pred.isArray = true ∨ (pred.SomeTrue ∧ index.isArray = true)) :
    branchedErrorIf backend x pred index msgs = ⟨[], .error (.err .valueError)⟩ := by
  obtain ⟨b, hb, hr⟩ := resolvePred_trace hp
  rw [branchedErrorIf_eq]
  simp only [impl, resolveIndex_trace hi hl, hr]
  rcases h with h | ⟨h1, h2⟩
  · cases hia : index.isArray <;> simp [h, Known.val, thread_none hx, Run.fail]
  · have hb' : b = true := hb.2 h1
    subst hb'
    cases hpa : pred.isArray <;> simp [h2, Known.val, thread_none hx, Run.fail]

end

/-- The claim is false of arrays in `bfloat16`, the usual dtype on a TPU: the message is shown, but the result is the
dummy values, and not NaN. -/
theorem squelched_bfloat16 (dummies : Nat → PT Unit Leaf → PT Unit Leaf) (a b : NArr Scalar) (msg : String)
    (hd : dummies 0 (.leaf (.arr .extFloat a)) = .leaf (.arr .extFloat b)) :
    branchedErrorIf (some dummies) (.leaf (.arr .extFloat a)) (.arr (.array ⟨[], fun _ => true⟩)) (.py 0) [msg] =
      ⟨[msg], .ok (.leaf (.arr .extFloat b))⟩ := by
  have h : errorRaise (some dummies) (.leaf (.arr .extFloat a)) true 0 [msg] =
      ⟨[msg], .ok (.leaf (.arr .extFloat b))⟩ := by
    simp only [errorRaise, handleError, pureCallback, raises, if_true, tpuMsg, pyIndex, Run.fail]
    simp [hd]
    exact ⟨rfl, rfl⟩
  have h2 : branchedErrorIf (some dummies) (.leaf (.arr .extFloat a)) (.arr (.array ⟨[], fun _ => true⟩)) (.py 0)
      [msg] = thread (some dummies) (.leaf (.arr .extFloat a)) true 0 [msg] := rfl
  have ha : HasArray (.leaf (.arr .extFloat a) : PT Unit Leaf) := ⟨.arr .extFloat a, by simp [leaves], rfl⟩
  have hs : arrays (.leaf (.arr .extFloat a) : PT Unit Leaf) = .leaf (.arr .extFloat a) := rfl
  rw [h2, thread_parts ha, hs, h]
  rfl

/-- An index without message: both callbacks fail to look it up, both exceptions are squelched, and the program goes on with dummy
values although nothing was shown. (Elsewhere this is an `IndexError`: `branched_error_if_out_of_range`.) -/
theorem squelched_out_of_range (dummies : Nat → PT Unit Leaf → PT Unit Leaf) (d : DType) (a b : NArr Scalar) (i : Int)
    (msgs : List String) (hm : ∀ msg, ¬ Selects msgs i msg)
    (hd : dummies 1 (.leaf (.arr d a)) = .leaf (.arr d b)) :
    branchedErrorIf (some dummies) (.leaf (.arr d a)) (.arr (.array ⟨[], fun _ => true⟩)) (.py i) msgs =
      ⟨[], .ok (.leaf (.arr d b))⟩ := by
  have h : errorRaise (some dummies) (.leaf (.arr d a)) true i msgs = ⟨[], .ok (.leaf (.arr d b))⟩ := by
    simp only [errorRaise, handleError, pureCallback, raises, if_true, tpuMsg, pyIndex_none hm, Run.fail]
    simp [hd]
  have h2 : branchedErrorIf (some dummies) (.leaf (.arr d a)) (.arr (.array ⟨[], fun _ => true⟩)) (.py i) msgs =
      thread (some dummies) (.leaf (.arr d a)) true i msgs := rfl
  have ha : HasArray (.leaf (.arr d a) : PT Unit Leaf) := ⟨.arr d a, by simp [leaves], rfl⟩
  have hs : arrays (.leaf (.arr d a) : PT Unit Leaf) = .leaf (.arr d a) := rfl
  rw [h2, thread_parts ha, hs, h]
  rfl

/-- A `float32` array and an object, a message chosen by an index in a batch of two, dummies of ones: the second
message is shown, and the array is NaN. -/
example :
    branchedErrorIf (K := Unit)
      (some fun _ t => t.map fun l => match l with
        | .arr d a => .arr d ⟨a.shape, fun _ => .int 1⟩
        | .obj n => .obj n)
      (.node () [.leaf (.arr .inexact ⟨[2], fun _ => .int 5⟩), .leaf (.obj 7)])
      (.arr (.array ⟨[], fun _ => true⟩))
      (.arr (.batched (.array ⟨[2], fun idx => if idx = [1] then 1 else 0⟩) 0)) ["a", "b"] =
      ⟨["b"], .ok (.node () [.leaf (.arr .inexact ⟨[2], fun _ => .nan⟩), .leaf (.obj 7)])⟩ := by
  refine squelched_error_partial (i := 1) ?_ trivial ⟨trivial, by decide⟩ ?_ ⟨[], [], rfl, ?_, rfl⟩ (.inl ⟨1, rfl, rfl⟩) (by decide) ?_ ?_
  · intro n t
    rw [map_map]
    refine map_congr_leaves fun l _ => ?_
    cases l <;> rfl
  · refine ⟨⟨[1], [], 1, [], rfl, by simp, rfl, ?_, by decide⟩, ?_⟩
    · simp [InB]
    · rintro lane idx v ⟨i, rest, _, _, _, _, rfl⟩
      dsimp only
      split <;> decide
  · simp [InB]
  · exact ⟨_, by simp [leaves, leavesL]; exact Or.inl rfl, rfl⟩
  · intro l hl
    simp [leaves, leavesL] at hl
    rcases hl with rfl | rfl <;> exact id

end Verif.Errors.Tpu
