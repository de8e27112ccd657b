import Verif.Vmap.Example

/-!
# C111: ensembles of models, and scanning over layers

`docs/tricks.md`, "Ensembling" (103-135) and "Improve compilation speed with scan-over-layers" (180-229): a function that makes
a model is run under `filter_vmap`, which gives one pytree whose arrays have a leading axis; it is then used under another
`filter_vmap`, or taken apart by `partition` and scanned over. The functions used are the models of `_vmap_pmap.py` and
`_filters.py`.
-/

namespace Verif.Vmap
namespace Ensemble

open PT Filters

variable {K V A O : Type}

/-! ## Model -/

/-- `eqx.filter_vmap(make)(*args)` (`docs/tricks.md`, 111-116; defaults at `_vmap_pmap.py:215-221`). -/
def makeEnsemble [DecidableEq K] (w : World K V A O) (tup : K) (make : Fn K V O) (params : List String)
    (args : List (Val K V O)) : Except Err (Val K V O) :=
  filterVmap w tup make params (.tree (.leaf (ifArray 0))) (.leaf (ifArray 0)) Option.none args []

/-- `eqx.filter_vmap(call, in_axes=(eqx.if_array(0), None))(ensemble, x)` (`docs/tricks.md`, 118-123). -/
def evaluateSame [DecidableEq K] (w : World K V A O) (tup : K) (call : Fn K V O) (params : List String)
    (ensemble x : Val K V O) : Except Err (Val K V O) :=
  filterVmap w tup call params (.tree (.node tup [.leaf (ifArray 0), .none])) (.leaf (ifArray 0)) Option.none
    [ensemble, x] []

/-- `eqx.filter_vmap(call)(ensemble, x)` (`docs/tricks.md`, 125-130). -/
def evaluateEach [DecidableEq K] (w : World K V A O) (tup : K) (call : Fn K V O) (params : List String)
    (ensemble x : Val K V O) : Except Err (Val K V O) :=
  filterVmap w tup call params (.tree (.leaf (ifArray 0))) (.leaf (ifArray 0)) Option.none [ensemble, x] []

/-- Index `i` of an array; other objects as they are. -/
def index (w : World K V A O) (i : Nat) : Leaf V O → Leaf V O
  | .arr v => .arr (w.slice v 0 i)
  | .obj o => .obj o

/-- The length of the leading axis, for `jax.lax.scan`. -/
def leading (w : World K V A O) : Leaf V O → Except Err Nat
  | .arr v => match w.size v 0 with
    | some n => .ok n
    | Option.none => .error .valueError
  | .obj _ => .error .valueError

/-- The length of `jax.lax.scan`: all leading axes must have the same one, and there must be one. -/
def scanLength (w : World K V A O) (xs : Val K V O) : Except Err Nat := do
  let sizes ← mapE (leading w) xs.leaves
  batchSize Option.none sizes

/-- The iterations of `jax.lax.scan`: the carry consists of arrays, which keep their shapes and dtypes. -/
def scanLoop [DecidableEq K] [DecidableEq A] [DecidableEq O] (w : World K V A O)
    (f : Val K V O → Val K V O → Except Err (Val K V O)) (xs : Val K V O) : List Nat → Val K V O → Except Err (Val K V O)
  | [], c => .ok c
  | i :: is, c => do
    let c' ← f c (xs.map (index w i))
    if c'.map (abstract w) ≠ c.map (abstract w) then .error .typeError else scanLoop w f xs is c'

/-- `jax.lax.scan(f, init, xs)`, without the stacked outputs. JAX runs `f` once on tracers; here it runs in every iteration.
Python scalars in the carry, which JAX would turn into arrays, are not considered. -/
def laxScan [DecidableEq K] [DecidableEq A] [DecidableEq O] (w : World K V A O)
    (f : Val K V O → Val K V O → Except Err (Val K V O)) (init xs : Val K V O) : Except Err (Val K V O) :=
  if init.leaves.all (fun l => isArray (K := K) (.leaf l)) then do
    let n ← scanLength w xs
    scanLoop w f xs (List.range n) init
  else .error .typeError

/-- `TenMLPs.__call__` (`docs/tricks.md`, 207-219). -/
def scanLayers [DecidableEq K] [DecidableEq A] [DecidableEq O] (w : World K V A O) (call : Fn K V O)
    (layers x : Val K V O) : Except Err (Val K V O) := do
  let p ← Filters.partition noLeaf (.leaf (.callable fun y => .ok (isArray y))) .none layers
  laxScan w (fun c dynamic => do
    let layer ← Filters.combine noLeaf [dynamic, p.2]
    call [layer, c]) x p.1

/-! ## Specification -/

/-- `x[i]` for an array `x`; other objects as they are. -/
def row (w : World K V A O) (i : Nat) : Leaf V O → Leaf V O
  | .arr v => .arr (w.slice v 0 i)
  | .obj o => .obj o

/-- Index `i` of every array of a tree: a member of an ensemble. -/
def member (w : World K V A O) (i : Nat) (t : Val K V O) : Val K V O := t.map (row w i)

/-- Every array of the tree has length `n` along its leading axis. -/
def Sized (w : World K V A O) (n : Nat) (t : Val K V O) : Prop := ∀ π v, t.leafAt? π = some (.arr v) → w.size v 0 = some n

/-- The tree contains an array. -/
def HasArray (t : Val K V O) : Prop := ∃ π v, t.leafAt? π = some (.arr v)

/-! ## Proofs -/

theorem index_eq (w : World K V A O) (i : Nat) : index w i = row w i := by
  funext l
  cases l <;> rfl

theorem axisAt_arrays {t : Val K V O} {π : List Nat} {a : Option Int} :
    AxisAt (.leaf (ifArray 0)) t π a ↔
      (∃ v, t.leafAt? π = some (.arr v) ∧ a = some 0) ∨ (∃ o, t.leafAt? π = some (.obj o) ∧ a = Option.none) := by
  constructor
  · rintro ⟨σ, ρ, s, l, h1, h2, h3, h4⟩
    cases σ with
    | cons i σ => simp [get?] at h3
    | nil =>
      simp only [get?, Option.some.injEq] at h3
      subst h3
      rcases h4 with ⟨h, _⟩ | ⟨n, h, _⟩ | ⟨f, h, hf⟩
      · cases h
      · simp [ifArray] at h
      · simp only [ifArray, PT.leaf.injEq, AxSpec.callable.injEq] at h
        subst h
        cases l with
        | arr v => exact .inl ⟨v, h2, by simpa using hf.symm⟩
        | obj o => exact .inr ⟨o, h2, by simpa using hf.symm⟩
  · rintro (⟨v, h, rfl⟩ | ⟨o, h, rfl⟩)
    · exact ⟨[], π, _, _, rfl, h, rfl, .inr (.inr ⟨_, rfl, rfl⟩)⟩
    · exact ⟨[], π, _, _, rfl, h, rfl, .inr (.inr ⟨_, rfl, rfl⟩)⟩

theorem traceable_arrays (w : World K V A O) : TraceableAxes w (.leaf (ifArray 0) : PT K (AxSpec V O)) := by
  intro σ f h l l' hl
  cases σ with
  | cons i σ => simp [leafAt?, get?] at h
  | nil =>
    have h' : ifArray 0 = AxSpec.callable f := by simpa using h
    simp only [ifArray, AxSpec.callable.injEq] at h'
    subst h'
    cases l <;> cases l' <;> simp [abstract] at hl ⊢

/-- A lane of a tree whose arrays are mapped. -/
theorem lane_arrays {w : World K V A O} {t t' : Val K V O} {i : Nat} (h : IsLane w (.leaf (ifArray 0)) t i t') :
    t' = member w i t := by
  apply eq_of_shape_leafAt?
  · rw [member, shape_map, sameStructure_iff.1 h.1]
  · intro π x y hx hy
    rw [member, leafAt?_map, Option.map_eq_some_iff] at hy
    obtain ⟨l, hl, rfl⟩ := hy
    obtain ⟨a, ha, ha'⟩ := h.2 π l hl
    rw [hx] at ha'
    rw [Option.some.inj ha']
    rcases axisAt_arrays.1 ha with ⟨v, hv, rfl⟩ | ⟨o, ho, rfl⟩
    · rw [hl] at hv; cases hv; rfl
    · rw [hl] at ho; cases ho; rfl

/-- A lane of the result. -/
theorem out_arrays {w : World K V A O} {o out : Val K V O} {n i : Nat} (h : HasLane w (.leaf (ifArray 0)) n i o out) :
    o = member w i out ∧ Sized w n out := by
  have hs := sameStructure_iff.1 h.1
  constructor
  · apply eq_of_shape_leafAt?
    · rw [member, shape_map, hs]
    · intro π x y hx hy
      rw [member, leafAt?_map, Option.map_eq_some_iff] at hy
      obtain ⟨l, hl, rfl⟩ := hy
      rcases h.2 π x hx with ⟨ha, ho⟩ | ⟨ax, v, u, ha, hv, hu, _, hsl⟩
      · rw [hl] at ho; cases ho
        rcases axisAt_arrays.1 ha with ⟨v, _, e⟩ | ⟨o', ho', _⟩
        · cases e
        · rw [hx] at ho'; cases ho'; rfl
      · rw [hl] at hv; cases hv
        rcases axisAt_arrays.1 ha with ⟨v', hv', e⟩ | ⟨_, _, e⟩
        · cases e
          rw [hx] at hv'; cases hv'
          rcases hu with hu | ⟨_, hu, _⟩
          · cases hu
            rw [row, hsl]
          · cases hu
        · cases e
  · intro π v hv
    have : (o.leafAt? π).isSome := by rw [leafAt?_isSome_of_shape hs, hv]; rfl
    obtain ⟨x, hx⟩ := Option.isSome_iff_exists.1 this
    rcases h.2 π x hx with ⟨ha, ho⟩ | ⟨ax, v', u, ha, hv', hu, hsz, _⟩
    · rw [hv] at ho; cases ho
      rcases axisAt_arrays.1 ha with ⟨_, _, e⟩ | ⟨o', ho', _⟩
      · cases e
      · rw [hx] at ho'; cases ho'
    · rw [hv] at hv'; cases hv'
      rcases axisAt_arrays.1 ha with ⟨_, _, e⟩ | ⟨_, _, e⟩
      · cases e; exact hsz
      · cases e

theorem noMapped_arrays {t : Val K V O} : NoMapped (.leaf (ifArray 0)) t ↔ ¬ HasArray t := by
  constructor
  · rintro h ⟨π, v, hv⟩
    have := h π _ (axisAt_arrays.2 (.inl ⟨v, hv, rfl⟩))
    cases this
  · intro h π a ha
    rcases axisAt_arrays.1 ha with ⟨v, hv, _⟩ | ⟨_, _, rfl⟩
    · exact absurd ⟨π, v, hv⟩ h
    · rfl

theorem isBatch_arrays {w : World K V A O} {t : Val K V O} {n : Nat} :
    IsBatch w (.leaf (ifArray 0)) Option.none t n ↔ Sized w n t := by
  constructor
  · intro h π v hv
    obtain ⟨v', hv', hs⟩ := h.2 π 0 (axisAt_arrays.2 (.inl ⟨v, hv, rfl⟩))
    rw [hv] at hv'; cases hv'; exact hs
  · intro h
    refine ⟨by simp, ?_⟩
    intro π ax ha
    rcases axisAt_arrays.1 ha with ⟨v, hv, e⟩ | ⟨_, _, e⟩
    · cases e; exact ⟨v, hv, h π v hv⟩
    · cases e

theorem member_of_noArray (w : World K V A O) {t : Val K V O} (h : ¬ HasArray t) (i : Nat) : member w i t = t := by
  apply eq_of_shape_leafAt?
  · rw [member, shape_map]
  · intro π x y hx hy
    rw [member, leafAt?_map, hy] at hx
    cases y with
    | arr v => exact absurd ⟨π, v, hy⟩ h
    | obj o => simpa [row] using hx.symm

theorem member_node (w : World K V A O) (i : Nat) (k : K) (ts : List (Val K V O)) :
    member w i (.node k ts) = .node k (ts.map (member w i)) := by
  simp only [member, PT.map, mapL_eq]
  rfl

/-- `filter_vmap` with the default axes: lane `i` of the result is the function at lane `i` of the arguments. -/
theorem default_lanes [DecidableEq K] {w : World K V A O} (hw : Lawful w) {tup : K} {f : Fn K V O} (hf : Traceable w f)
    {params : List String} {args : List (Val K V O)} {out : Val K V O}
    (h : filterVmap w tup f params (.tree (.leaf (ifArray 0))) (.leaf (ifArray 0)) Option.none args [] = .ok out) :
    (¬ HasArray (.node tup args) ∧ f args = .ok out ∧ ¬ HasArray out) ∨
    ∃ n, 0 < n ∧ Sized w n (.node tup args) ∧ Sized w n out ∧
      ∀ i, i < n → f (args.map (member w i)) = .ok (member w i out) := by
  obtain ⟨_, ⟨h1, _, h2, h3⟩ | ⟨n, hn, hb, -, hl⟩⟩ := filter_vmap_lanes hw hf (traceable_arrays w) h
  · exact .inl ⟨noMapped_arrays.1 h1, h2, noMapped_arrays.1 h3⟩
  · refine .inr ⟨n, hn, isBatch_arrays.1 hb, ?_, ?_⟩
    · obtain ⟨_, _, _, _, h3⟩ := hl 0 hn
      exact (out_arrays h3).2
    · intro i hi
      obtain ⟨args', o, h1, h2, h3⟩ := hl i hi
      have := lane_arrays h1
      rw [member_node] at this
      cases this
      rw [h2, (out_arrays h3).1]

/-- C111. Member `i` of an ensemble is the model made from the `i`-th arguments. -/
theorem ensemble [DecidableEq K] {w : World K V A O} (hw : Lawful w) {tup : K} {make : Fn K V O} (hmake : Traceable w make)
    {params : List String} {args : List (Val K V O)} {ens : Val K V O} (hargs : ∃ a ∈ args, HasArray a)
    (h : makeEnsemble w tup make params args = .ok ens) :
    ∃ n, 0 < n ∧ (∀ a ∈ args, Sized w n a) ∧ Sized w n ens ∧
      ∀ i, i < n → make (args.map (member w i)) = .ok (member w i ens) := by
  rcases default_lanes hw hmake h with ⟨h1, _⟩ | ⟨n, hn, h1, h2, h3⟩
  · obtain ⟨a, ha, π, v, hv⟩ := hargs
    obtain ⟨j, hj⟩ := List.getElem?_of_mem ha
    exact absurd ⟨j :: π, v, by rw [leafAt?_node, hj]; exact hv⟩ h1
  · refine ⟨n, hn, ?_, h2, h3⟩
    intro a ha π v hv
    obtain ⟨j, hj⟩ := List.getElem?_of_mem ha
    exact h1 (j :: π) v (by rw [leafAt?_node, hj]; exact hv)

/-- An ensemble whose members have arrays has one size only. -/
theorem sized_unique {w : World K V A O} {t : Val K V O} {n m : Nat} (h : HasArray t) (h1 : Sized w n t) (h2 : Sized w m t) :
    n = m := by
  obtain ⟨π, v, hv⟩ := h
  have := (h1 π v hv).symm.trans (h2 π v hv)
  simpa using this

theorem axisAt_fst {tup : K} {e x : Val K V O} {π : List Nat} {l : Leaf V O} (h : e.leafAt? π = some l) :
    AxisAt (.node tup [.leaf (ifArray 0), .none]) (.node tup [e, x]) (0 :: π)
      (match l with | .arr _ => some 0 | .obj _ => Option.none) := by
  refine ⟨[0], π, .leaf (ifArray 0), l, rfl, by rw [leafAt?_node]; exact h, rfl, .inr (.inr ⟨_, rfl, ?_⟩)⟩
  cases l <;> rfl

theorem axisAt_snd {tup : K} {e x : Val K V O} {π : List Nat} {l : Leaf V O} (h : x.leafAt? π = some l) :
    AxisAt (.node tup [.leaf (ifArray 0), .none]) (.node tup [e, x]) (1 :: π) Option.none :=
  ⟨[1], π, .none, l, rfl, by rw [leafAt?_node]; exact h, rfl, .inl ⟨rfl, rfl⟩⟩

theorem lane_same {w : World K V A O} {tup : K} {e x : Val K V O} {i : Nat} {t' : Val K V O}
    (h : IsLane w (.node tup [.leaf (ifArray 0), .none]) (.node tup [e, x]) i t') :
    t' = .node tup [member w i e, x] := by
  apply eq_of_shape_leafAt?
  · rw [← sameStructure_iff.1 h.1]
    simp only [shape, map, mapL, member]
    congr 2
    exact (shape_map _ _).symm
  · intro π a b ha hb
    match π with
    | [] => simp at hb
    | 0 :: π =>
      rw [leafAt?_node] at hb
      simp only [List.getElem?_cons_zero, Option.bind_some] at hb
      rw [member, leafAt?_map, Option.map_eq_some_iff] at hb
      obtain ⟨l, hl, rfl⟩ := hb
      obtain ⟨c, hc, hc'⟩ := h.2 (0 :: π) l (by rw [leafAt?_node]; exact hl)
      rw [axisAt_unique hc (axisAt_fst hl), ha] at hc'
      rw [Option.some.inj hc']
      cases l <;> rfl
    | 1 :: π =>
      rw [leafAt?_node] at hb
      simp only [List.getElem?_cons_succ, List.getElem?_cons_zero, Option.bind_some] at hb
      obtain ⟨c, hc, hc'⟩ := h.2 (1 :: π) b (by rw [leafAt?_node]; exact hb)
      rw [axisAt_unique hc (axisAt_snd hb), ha] at hc'
      rw [Option.some.inj hc']
      rfl
    | (j + 2) :: π => simp [leafAt?_node] at hb

/-- C111. Evaluating an ensemble on the same data evaluates every model on it: member `i` of the result is the outcome of the
model made from the `i`-th arguments. -/
theorem evaluate_same [DecidableEq K] {w : World K V A O} (hw : Lawful w) {tup : K} {make call : Fn K V O}
    (hmake : Traceable w make) (hcall : Traceable w call) {params params' : List String} {args : List (Val K V O)}
    {ens x out : Val K V O} (hargs : ∃ a ∈ args, HasArray a) (h : makeEnsemble w tup make params args = .ok ens)
    (h' : evaluateSame w tup call params' ens x = .ok out) :
    ∃ n, 0 < n ∧ (∀ a ∈ args, Sized w n a) ∧ Sized w n out ∧
      ∀ i, i < n → ∃ model, make (args.map (member w i)) = .ok model ∧ call [model, x] = .ok (member w i out) := by
  obtain ⟨n, hn, hs, he, hm⟩ := ensemble hw hmake hargs h
  refine ⟨n, hn, hs, ?_⟩
  obtain ⟨_, ⟨h1, _, h2, h3⟩ | ⟨n', hn', hb, hany, hl⟩⟩ := filter_vmap_lanes hw hcall (traceable_arrays w) h'
  · have hno : ¬ HasArray ens := by
      rintro ⟨π, v, hv⟩
      have := h1 _ _ (axisAt_fst (tup := tup) (x := x) hv)
      cases this
    have ho := noMapped_arrays.1 h3
    refine ⟨fun π v hv => absurd ⟨π, v, hv⟩ ho, ?_⟩
    intro i hi
    refine ⟨_, hm i hi, ?_⟩
    rw [member_of_noArray w hno, member_of_noArray w ho, h2]
  · by_cases hno : HasArray ens
    · have : n' = n := by
        refine sized_unique hno ?_ he
        intro π v hv
        obtain ⟨v', hv', hsz⟩ := hb.2 (0 :: π) 0 (axisAt_fst (tup := tup) (x := x) hv)
        rw [leafAt?_node] at hv'
        simp only [List.getElem?_cons_zero, Option.bind_some] at hv'
        rw [hv] at hv'; cases hv'; exact hsz
      subst this
      constructor
      · obtain ⟨_, _, _, _, h3⟩ := hl 0 hn'
        exact (out_arrays h3).2
      · intro i hi
        refine ⟨_, hm i hi, ?_⟩
        obtain ⟨args', o, h1, h2, h3⟩ := hl i hi
        have := lane_same h1
        simp only [PT.node.injEq, true_and] at this
        rw [← (out_arrays h3).1, ← this, h2]
    · exfalso
      obtain h0 | ⟨π, ax, ha⟩ := hany
      · cases h0
      · obtain ⟨σ, ρ, s, l, e1, e2, e3, e4⟩ := id ha
        match π with
        | [] => simp at e2
        | 0 :: π =>
          rw [leafAt?_node] at e2
          simp only [List.getElem?_cons_zero, Option.bind_some] at e2
          have := axisAt_unique ha (axisAt_fst e2)
          cases l with
          | arr v => exact hno ⟨π, v, e2⟩
          | obj o => cases this
        | 1 :: π =>
          rw [leafAt?_node] at e2
          simp only [List.getElem?_cons_succ, List.getElem?_cons_zero, Option.bind_some] at e2
          cases axisAt_unique ha (axisAt_snd e2)
        | (j + 2) :: π => simp [leafAt?_node] at e2

/-- C111. Evaluating an ensemble on a batch evaluates model `i` on row `i`. -/
theorem evaluate_each [DecidableEq K] {w : World K V A O} (hw : Lawful w) {tup : K} {make call : Fn K V O}
    (hmake : Traceable w make) (hcall : Traceable w call) {params params' : List String} {args : List (Val K V O)}
    {ens x out : Val K V O} (hargs : ∃ a ∈ args, HasArray a) (h : makeEnsemble w tup make params args = .ok ens)
    (hens : HasArray ens) (h' : evaluateEach w tup call params' ens x = .ok out) :
    ∃ n, 0 < n ∧ (∀ a ∈ args, Sized w n a) ∧ Sized w n x ∧ Sized w n out ∧
      ∀ i, i < n → ∃ model, make (args.map (member w i)) = .ok model ∧
        call [model, member w i x] = .ok (member w i out) := by
  obtain ⟨n, hn, hs, he, hm⟩ := ensemble hw hmake hargs h
  obtain ⟨n', hn', hs', he', hm'⟩ := ensemble hw hcall (args := [ens, x]) ⟨ens, by simp, hens⟩ h'
  have : n' = n := sized_unique hens (hs' ens (by simp)) he
  subst this
  exact ⟨n', hn, hs, hs' x (by simp), he', fun i hi => ⟨_, hm i hi, hm' i hi⟩⟩

theorem index_dynamic (w : World K V A O) (i : Nat) (t : Val K V O) :
    (withNones (t.map fun a => if isArray (K := K) (.leaf a) then some a else Option.none)).map (row w i) =
      withNones ((t.map (row w i)).map fun a => if isArray (K := K) (.leaf a) then some a else Option.none) := by
  rw [withNones_map, map_map]
  congr 1
  apply map_congr_leaves
  intro a _
  cases a <;> simp [isArray, row]

theorem static_member (w : World K V A O) (i : Nat) (t : Val K V O) :
    withNones (t.map fun a => if isArray (K := K) (.leaf a) then Option.none else some a) =
      withNones ((t.map (row w i)).map fun a => if isArray (K := K) (.leaf a) then Option.none else some a) := by
  rw [map_map]
  congr 1
  apply map_congr_leaves
  intro a _
  cases a <;> simp [isArray, row]

/-- A layer, put together again. -/
theorem combine_member [DecidableEq K] (w : World K V A O) (i : Nat) (t : Val K V O) :
    Filters.combine noLeaf
      [(withNones (t.map fun a => if isArray (K := K) (.leaf a) then some a else Option.none)).map (row w i),
        withNones (t.map fun a => if isArray (K := K) (.leaf a) then Option.none else some a)] = .ok (member w i t) := by
  rw [index_dynamic, static_member w i t]
  have := combine_closed (t.map (row w i)) [fun a => if isArray (K := K) (.leaf a) then some a else Option.none,
    fun a => if isArray (K := K) (.leaf a) then Option.none else some a] (by simp)
  simp only [List.map_cons, List.map_nil] at this
  rw [this]
  congr 1
  rw [← map_id_fun (member w i t), ← withNones_some (member w i t) fun x => x]
  unfold member
  congr 1
  apply map_congr_leaves
  intro a _
  cases a <;> simp [isArray]

theorem scanLength_eq (w : World K V A O) {t : Val K V O} {n : Nat} (hs : Sized w n t) (ha : HasArray t) :
    scanLength w (withNones (t.map fun a => if isArray (K := K) (.leaf a) then some a else Option.none)) = .ok n := by
  have hl : (withNones (t.map fun a => if isArray (K := K) (.leaf a) then some a else Option.none)).leaves =
      t.leaves.filter fun a => isArray (K := K) (.leaf a) := by
    rw [leaves_withNones]
    induction t.leaves with
    | nil => rfl
    | cons a l ih => cases h : isArray (K := K) (.leaf a) <;> simp [List.filterMap_cons, List.filter_cons, h, ih]
  have h1 : mapE (leading w) (t.leaves.filter fun a => isArray (K := K) (.leaf a)) =
      .ok ((t.leaves.filter fun a => isArray (K := K) (.leaf a)).map fun _ => n) := by
    rw [mapE_ok]
    refine ⟨by simp, ?_⟩
    intro j a hj
    refine ⟨n, by rw [List.getElem?_map, hj]; rfl, ?_⟩
    have hm := List.mem_filter.1 (List.mem_of_getElem? hj)
    obtain ⟨π, hπ⟩ := mem_leaves_iff.1 hm.1
    cases a with
    | arr v => rw [leading, hs π v hπ]
    | obj o => simp [isArray] at hm
  rw [scanLength, hl, h1]
  obtain ⟨π, v, hv⟩ := ha
  have hmem : Leaf.arr v ∈ t.leaves.filter fun a => isArray (K := K) (.leaf a) :=
    List.mem_filter.2 ⟨mem_leaves_iff.2 ⟨π, hv⟩, rfl⟩
  generalize t.leaves.filter (fun a => isArray (K := K) (.leaf a)) = l at hmem
  cases l with
  | nil => cases hmem
  | cons a l =>
    simp [bind, Except.bind, batchSize]

theorem scanLoop_ok [DecidableEq K] [DecidableEq A] [DecidableEq O] {w : World K V A O} {call : Fn K V O} {t : Val K V O}
    {f : Val K V O → Val K V O → Except Err (Val K V O)} {xs : Val K V O}
    (hf : ∀ c i, f c (xs.map (index w i)) = call [member w i t, c]) (is : List Nat) (c y : Val K V O) :
    scanLoop w f xs is c = .ok y ↔
      (is.map fun i => member w i t).foldlM (fun c m => call [m, c]) c = .ok y ∧
      ∀ (j : Nat) c', ((is.map fun i => member w i t).take j).foldlM (fun c m => call [m, c]) c = .ok c' → Alike w c' c := by
  induction is generalizing c with
  | nil =>
    simp only [scanLoop, List.map_nil, List.foldlM_nil, List.take_nil, pure, Except.pure]
    constructor
    · intro h; exact ⟨h, fun _ c' h' => by cases h'; rfl⟩
    · intro h; exact h.1
  | cons i is ih =>
    simp only [scanLoop, hf, List.map_cons, List.foldlM_cons, bind, Except.bind]
    cases hc : call [member w i t, c] with
    | error e =>
      simp only [reduceCtorEq, false_and]
    | ok c1 =>
      simp only
      constructor
      · intro h
        split at h
        · cases h
        · rename_i hal
          have hal : Alike w c1 c := by simpa [Alike] using hal
          obtain ⟨h1, h2⟩ := (ih c1).1 h
          refine ⟨h1, ?_⟩
          intro j c' hj
          cases j with
          | zero =>
            simp only [List.take_zero, List.foldlM_nil, pure, Except.pure, Except.ok.injEq] at hj
            subst hj; rfl
          | succ j =>
            simp only [List.take_succ_cons, List.foldlM_cons, bind, Except.bind, hc] at hj
            exact (h2 j c' hj).trans hal
      · rintro ⟨h1, h2⟩
        have hal : Alike w c1 c := h2 1 c1 (by
          simp only [List.take_succ_cons, List.take_zero, List.foldlM_cons, List.foldlM_nil, bind, Except.bind, hc, pure, Except.pure])
        rw [if_neg (by simpa [Alike] using hal)]
        refine (ih c1).2 ⟨h1, ?_⟩
        intro j c' hj
        refine (h2 (j + 1) c' ?_).trans hal.symm
        simp only [List.take_succ_cons, List.foldlM_cons, bind, Except.bind, hc]
        exact hj

theorem scanLayers_ok [DecidableEq K] [DecidableEq A] [DecidableEq O] {w : World K V A O} {call : Fn K V O} {t x y : Val K V O}
    {n : Nat} (hs : Sized w n t) (ha : HasArray t) :
    scanLayers w call t x = .ok y ↔ (∀ π l, x.leafAt? π = some l → ∃ v, l = .arr v) ∧
      ((List.range n).map fun i => member w i t).foldlM (fun c m => call [m, c]) x = .ok y ∧
      ∀ (j : Nat) c', (((List.range n).map fun i => member w i t).take j).foldlM (fun c m => call [m, c]) x = .ok c' →
        Alike w c' x := by
  have hx : x.leaves.all (fun l => isArray (K := K) (.leaf l)) = true ↔ ∀ π l, x.leafAt? π = some l → ∃ v, l = .arr v := by
    rw [List.all_eq_true]
    constructor
    · intro h π l hl
      have := h l (mem_leaves_iff.2 ⟨π, hl⟩)
      cases l with
      | arr v => exact ⟨v, rfl⟩
      | obj o => simp [isArray] at this
    · intro h l hl
      obtain ⟨π, hπ⟩ := mem_leaves_iff.1 hl
      obtain ⟨v, rfl⟩ := h π l hπ
      rfl
  simp only [scanLayers, partition_callable_closed, bind, Except.bind, laxScan]
  rw [← hx]
  split
  · rename_i hall
    simp only [hall, true_and, scanLength_eq w hs ha]
    apply scanLoop_ok
    intro c i
    rw [index_eq]
    simp only [combine_member]
  · rename_i hall
    simp [hall]

/-- C111. Scanning over the layers of an ensemble applies the layers one after the other: the result is what the models made from
the first, second, ... arguments make of `x`, the outcome of each given to the next. -/
theorem scan_layers [DecidableEq K] [DecidableEq A] [DecidableEq O] {w : World K V A O} (hw : Lawful w) {tup : K}
    {make call : Fn K V O} (hmake : Traceable w make) {params : List String} {args : List (Val K V O)} {ens : Val K V O}
    (hargs : ∃ a ∈ args, HasArray a) (h : makeEnsemble w tup make params args = .ok ens) (hens : HasArray ens) :
    ∃ layers : List (Val K V O), layers ≠ [] ∧ (∀ a ∈ args, Sized w layers.length a) ∧
      (∀ (i : Nat) layer, layers[i]? = some layer → make (args.map (member w i)) = .ok layer) ∧
      ∀ x y, scanLayers w call ens x = .ok y ↔ (∀ π l, x.leafAt? π = some l → ∃ v, l = .arr v) ∧
        layers.foldlM (fun c layer => call [layer, c]) x = .ok y ∧
        ∀ (j : Nat) c, (layers.take j).foldlM (fun c layer => call [layer, c]) x = .ok c → Alike w c x := by
  obtain ⟨n, hn, hs, he, hm⟩ := ensemble hw hmake hargs h
  refine ⟨(List.range n).map fun i => member w i ens, ?_, ?_, ?_, ?_⟩
  · intro h0
    have := congrArg List.length h0
    simp at this
    omega
  · simpa using hs
  · intro i layer hi
    rw [List.getElem?_map, Option.map_eq_some_iff] at hi
    obtain ⟨j, hj, rfl⟩ := hi
    obtain ⟨hlt, he⟩ := List.getElem?_eq_some_iff.1 hj
    simp only [List.getElem_range] at he
    subst he
    exact hm i (by simpa using hlt)
  · intro x y
    exact scanLayers_ok he hens

/-- C111. An ensemble of models without arrays cannot be scanned over: there is no length. -/
theorem scan_no_arrays [DecidableEq K] [DecidableEq A] [DecidableEq O] {w : World K V A O} {call : Fn K V O} {t x : Val K V O}
    (h : ¬ HasArray t) (hx : ∀ π l, x.leafAt? π = some l → ∃ v, l = .arr v) :
    scanLayers w call t x = .error .valueError := by
  have hx' : x.leaves.all (fun l => isArray (K := K) (.leaf l)) = true := by
    rw [List.all_eq_true]
    intro l hl
    obtain ⟨π, hπ⟩ := mem_leaves_iff.1 hl
    obtain ⟨v, rfl⟩ := hx π l hπ
    rfl
  have hl : (withNones (t.map fun a => if isArray (K := K) (.leaf a) then some a else Option.none)).leaves = [] := by
    rw [leaves_withNones, List.filterMap_eq_nil_iff]
    intro l hl
    obtain ⟨π, hπ⟩ := mem_leaves_iff.1 hl
    cases l with
    | arr v => exact absurd ⟨π, v, hπ⟩ h
    | obj o => rfl
  simp [scanLayers, partition_callable_closed, bind, Except.bind, laxScan, hx', scanLength, hl, mapE, batchSize]

/-- C111. An ensemble is made whenever each of its models is: the keys have a common length, `make` returns for each of them,
and what is stacked can be given its axis. -/
theorem ensemble_succeeds [DecidableEq K] {w : World K V A O} (hw : Lawful w) {tup : K} {make : Fn K V O}
    (hmake : Traceable w make) {params : List String} {args : List (Val K V O)} {n : Nat} (hn : 0 < n)
    (hargs : ∃ a ∈ args, HasArray a) (hs : ∀ a ∈ args, Sized w n a)
    (hrun : ∀ i, i < n → ∃ model, make (args.map (member w i)) = .ok model)
    (hmove : ∀ v, w.size v 0 = some n → ∃ u, w.moveaxis v 0 = .ok u) :
    ∃ ens, makeEnsemble w tup make params args = .ok ens := by
  have hres : ∀ t : Val K V O, Resolvable (.leaf (ifArray 0)) t := by
    intro t
    refine ⟨?_, ?_, ?_⟩
    · intro π
      cases π with
      | nil => simp [cut, isNone, headAt?, get?, head]
      | cons i π => simp [cut, isNone, headAt?, get?]
    · intro σ h
      cases σ with
      | nil => simp [ifArray] at h
      | cons i σ => simp [leafAt?, get?] at h
    · intro π l hl
      cases l with
      | arr v => exact ⟨_, axisAt_arrays.2 (.inl ⟨v, hl, rfl⟩)⟩
      | obj o => exact ⟨_, axisAt_arrays.2 (.inr ⟨o, hl, rfl⟩)⟩
  have hsn : Sized w n (.node tup args) := by
    intro π v hv
    cases π with
    | nil => simp at hv
    | cons i π =>
      rw [leafAt?_node] at hv
      cases ha : args[i]? with
      | none => simp [ha] at hv
      | some a =>
        rw [ha] at hv
        exact hs a (List.mem_of_getElem? ha) π v hv
  have hmv : ∀ (us : List V) (u : V), (∀ v ∈ us, w.aval v = w.aval u) → us.length = n →
      ∃ v, w.moveaxis (w.stack us) 0 = .ok v := by
    intro us u h1 h2
    apply hmove
    rw [hw.stack_size us (by intro h; subst h; simp at h2; omega) (fun a ha b hb => (h1 a ha).trans (h1 b hb).symm), h2]
  refine filter_vmap_succeeds hw hmake (traceable_arrays w) hn (hres _) (isBatch_arrays.2 hsn) (.inr ?_)
    ((List.range n).map fun i => args.map (member w i)) (by simp) ?_ ?_ ?_ ?_
  · obtain ⟨a, ha, π, v, hv⟩ := hargs
    obtain ⟨j, hj⟩ := List.getElem?_of_mem ha
    exact ⟨j :: π, 0, axisAt_arrays.2 (.inl ⟨v, by rw [leafAt?_node, hj]; exact hv, rfl⟩)⟩
  · intro i l hl
    rw [List.getElem?_map, Option.map_eq_some_iff] at hl
    obtain ⟨j, hj, rfl⟩ := hl
    obtain ⟨hlt, he⟩ := List.getElem?_eq_some_iff.1 hj
    simp only [List.getElem_range] at he
    subst he
    rw [← member_node]
    refine ⟨by rw [sameStructure_iff, member, shape_map], ?_⟩
    intro π l hl
    cases l with
    | arr v => exact ⟨some 0, axisAt_arrays.2 (.inl ⟨v, hl, rfl⟩), by rw [member, leafAt?_map, hl]; rfl⟩
    | obj o => exact ⟨Option.none, axisAt_arrays.2 (.inr ⟨o, hl, rfl⟩), by rw [member, leafAt?_map, hl]; rfl⟩
  · intro l hl
    obtain ⟨i, hi, rfl⟩ := List.mem_map.1 hl
    obtain ⟨model, hm⟩ := hrun i (by simpa using hi)
    refine ⟨model, hm, hres _, ?_⟩
    intro π l ax h1 h2
    rcases axisAt_arrays.1 h2 with ⟨v, hv, _⟩ | ⟨_, _, e⟩
    · rw [h1] at hv; cases hv; exact ⟨v, .inl rfl⟩
    · cases e
  · intro l hl o π v _ h2 h3
    rcases axisAt_arrays.1 h2 with ⟨_, _, e⟩ | ⟨o', ho', _⟩
    · cases e
    · rw [h3] at ho'; cases ho'
  · intro l hl o π x u us ax _ h2 _ _ h5 h6
    rcases axisAt_arrays.1 h2 with ⟨_, _, e⟩ | ⟨_, _, e⟩
    · cases e; exact hmv us u h5 h6
    · cases e

/-! ## A concrete ensemble -/

namespace Ex

/-- `def make(x): return [x, 7]` -/
def make : Fn Unit Vmap.Ex.Arr Int
  | [x] => .ok (.node () [x, .leaf (.obj 7)])
  | _ => .error .typeError

/-- `x + y` for arrays of the shape of `y`. -/
def add (x y : Vmap.Ex.Arr) : Vmap.Ex.Arr := Vmap.Ex.mk y.shape fun idx => x.val idx + y.val idx

/-- `def call(model, x): return model[0] + x` -/
def call : Fn Unit Vmap.Ex.Arr Int
  | [.node _ [.leaf (.arr v), _], .leaf (.arr x)] => .ok (.leaf (.arr (add v x)))
  | _ => .error .typeError

theorem traceable_make : Traceable Vmap.Ex.world make := by
  intro args args' o o' h h1 h2
  rcases args with _ | ⟨x, _ | ⟨y, ys⟩⟩ <;> simp only [make, reduceCtorEq] at h1
  rcases args' with _ | ⟨x', _ | ⟨y', ys'⟩⟩ <;> simp only [make, reduceCtorEq] at h2
  cases h1; cases h2
  simpa [Alike, PT.map, mapL] using h

/-- Two models, made from the rows of a matrix, and scanned over: the rows are added to `x`. -/
theorem scans : ∃ ens y, makeEnsemble Vmap.Ex.world () make [] [.leaf (.arr Vmap.Ex.matrix)] = .ok ens ∧ HasArray ens ∧
    scanLayers Vmap.Ex.world call ens (.leaf (.arr (Vmap.Ex.mk [3] fun _ => 100))) = .ok (.leaf (.arr y)) ∧
    y.val [0] = 110 ∧ y.val [2] = 114 := by
  have hsz : Sized Vmap.Ex.world 2 (.leaf (.arr Vmap.Ex.matrix) : Val Unit Vmap.Ex.Arr Int) := by
    intro π v hv
    rcases π with _ | ⟨i, π⟩
    · simp at hv; subst hv; rfl
    · simp [leafAt?, get?] at hv
  have harr : HasArray (.leaf (.arr Vmap.Ex.matrix) : Val Unit Vmap.Ex.Arr Int) := ⟨[], _, rfl⟩
  obtain ⟨ens, he⟩ := ensemble_succeeds Vmap.Ex.lawful (tup := ()) traceable_make (params := [])
    (args := [.leaf (.arr Vmap.Ex.matrix)]) (n := 2) (by omega) ⟨_, by simp, harr⟩ (by simpa using hsz)
    (by intro i _; exact ⟨_, rfl⟩)
    (by
      intro v hv
      simp only [Vmap.Ex.world, Vmap.Ex.size] at hv
      cases hs : v.shape with
      | nil => simp [hs, Vmap.Ex.normAxis] at hv
      | cons n s => exact ⟨_, by simp [Vmap.Ex.world, Vmap.Ex.moveaxis, hs, Vmap.Ex.normAxis]; rfl⟩)
  have harr' : HasArray ens := by
    obtain ⟨n, hn, hs, _, hm⟩ := ensemble Vmap.Ex.lawful traceable_make ⟨_, by simp, harr⟩ he
    have h0 := hm 0 hn
    simp only [make, List.map_cons, List.map_nil, Except.ok.injEq] at h0
    have h1 := congrArg (leafAt? · [0]) h0
    simp only [member, leafAt?_node, leafAt?_map, List.getElem?_cons_zero, Option.bind_some, row, PT.map] at h1
    cases hl : ens.leafAt? [0] with
    | none => rw [hl] at h1; simp [leafAt?, get?] at h1
    | some l =>
      cases l with
      | arr v => exact ⟨_, v, hl⟩
      | obj o => rw [hl] at h1; simp [leafAt?, get?, row] at h1
  obtain ⟨layers, hne, hs, hl, hscan⟩ := scan_layers (call := call) Vmap.Ex.lawful traceable_make ⟨_, by simp, harr⟩ he harr'
  have hlen : layers.length = 2 := sized_unique harr (hs _ (by simp)) hsz
  obtain ⟨m0, m1, rfl⟩ : ∃ a b, layers = [a, b] := by
    match layers, hlen with
    | [a, b], _ => exact ⟨a, b, rfl⟩
  have e0 := hl 0 m0 rfl
  have e1 := hl 1 m1 rfl
  simp only [make, List.map_cons, List.map_nil, Except.ok.injEq, member, PT.map, row] at e0 e1
  subst e0 e1
  refine ⟨ens, _, he, harr', (hscan _ _).2 ⟨?_, rfl, ?_⟩, rfl, rfl⟩
  · intro π l h
    rcases π with _ | ⟨i, π⟩
    · simp at h; exact ⟨_, h.symm⟩
    · simp [leafAt?, get?] at h
  · intro j c h
    match j with
    | 0 => cases h; rfl
    | 1 => cases h; rfl
    | j + 2 =>
      rw [List.take_of_length_le (by simp)] at h
      cases h; rfl

end Ex

end Ensemble
end Verif.Vmap
