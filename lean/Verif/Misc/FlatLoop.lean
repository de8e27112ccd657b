import Verif.PyTree.Closed

/-!
# C115: training loops over the leaves (`docs/tricks.md`, 137-178) and `init`/`apply` pairs (`examples/init_apply.ipynb`)

The loop of `docs/tricks.md` flattens the model and the state of the optimiser once, before the loop, and passes lists of leaves from one step to the
next. `filter_jit` is left out: that it does not change what a function does is C27.
-/

namespace Verif
namespace FlatLoop

open PT Filters

variable {K α β B : Type}

/-! ### Model -/

/-- What `...` stands for in `make_step`: model, state of the optimiser and batch give the next model and state. -/
abbrev Step (K α β B : Type) := PT K α → PT K β → B → Except Err (PT K α × PT K β)

/-- The ordinary loop (`docs/tricks.md`, 140-150). -/
def train (step : Step K α β B) : List B → PT K α → PT K β → Except Err (PT K α × PT K β)
  | [], m, s => .ok (m, s)
  | b :: bs, m, s => do
    let r ← step m s b
    train step bs r.1 r.2

/-- `make_step` on lists of leaves (`docs/tricks.md`, 158-166). -/
def flatStep (dm ds : Def K) (step : Step K α β B) (fm : List (PT K α)) (fs : List (PT K β)) (b : B) :
    Except Err (List (PT K α) × List (PT K β)) := do
  let m ← treeUnflatten dm fm
  let s ← treeUnflatten ds fs
  let r ← step m s b
  pure (r.1.treeLeaves noLeaf, r.2.treeLeaves noLeaf)

/-- The loop (`docs/tricks.md`, 173-174). -/
def flatLoop (dm ds : Def K) (step : Step K α β B) : List B → List (PT K α) → List (PT K β) → Except Err (List (PT K α) × List (PT K β))
  | [], fm, fs => .ok (fm, fs)
  | b :: bs, fm, fs => do
    let r ← flatStep dm ds step fm fs b
    flatLoop dm ds step bs r.1 r.2

/-- Flattening before and unflattening after the loop (`docs/tricks.md`, 168-175). -/
def flatTrain (step : Step K α β B) (bs : List B) (m : PT K α) (s : PT K β) : Except Err (PT K α) := do
  let r ← flatLoop (m.treeStructure noLeaf) (s.treeStructure noLeaf) step bs (m.treeLeaves noLeaf) (s.treeLeaves noLeaf)
  treeUnflatten (m.treeStructure noLeaf) r.1

/-! ### Specification -/

/-- Steps that start with the structure of `m` and `s` end with it. -/
def Keeps (step : Step K α β B) (m : PT K α) (s : PT K β) : Prop :=
  ∀ m' s' b m'' s'', SameStructure m' m → SameStructure s' s → step m' s' b = .ok (m'', s'') → SameStructure m'' m ∧ SameStructure s'' s

/-! ### Proofs -/

theorem structure_noLeaf (t : PT K α) : t.treeStructure noLeaf = t.shape := by rw [treeStructure, cut_noLeaf, shape_map]

theorem unflatten_leaves {t m : PT K α} (h : t.shape = m.shape) : treeUnflatten m.shape (t.treeLeaves noLeaf) = .ok t := by
  have := treeUnflatten_shape (t.map (fun a => PT.leaf (K := K) a))
  rw [shape_map, join_map_leaf, h] at this
  rw [treeLeaves, cut_noLeaf, this]

theorem flatLoop_eq (step : Step K α β B) (m0 : PT K α) (s0 : PT K β) (hk : Keeps step m0 s0) (bs : List B) (m : PT K α) (s : PT K β)
    (hm : m.shape = m0.shape) (hs : s.shape = s0.shape) :
    flatLoop m0.shape s0.shape step bs (m.treeLeaves noLeaf) (s.treeLeaves noLeaf) =
      (train step bs m s).map (fun r => (r.1.treeLeaves noLeaf, r.2.treeLeaves noLeaf)) ∧
    ∀ r, train step bs m s = .ok r → r.1.shape = m0.shape ∧ r.2.shape = s0.shape := by
  induction bs generalizing m s with
  | nil => refine ⟨rfl, ?_⟩; intro r h; cases h; exact ⟨hm, hs⟩
  | cons b bs ih =>
    simp only [flatLoop, flatStep, train, Bind.bind, Except.bind, unflatten_leaves hm, unflatten_leaves hs]
    cases h : step m s b with
    | error e => refine ⟨rfl, ?_⟩; intro r h'; simp at h'
    | ok r =>
      obtain ⟨h1, h2⟩ := hk m s b r.1 r.2 (sameStructure_iff.2 hm) (sameStructure_iff.2 hs) h
      exact ih r.1 r.2 (sameStructure_iff.1 h1) (sameStructure_iff.1 h2)

/-- **C115**: the loop over leaves returns the model that the ordinary loop returns, and raises what it raises, if steps keep the structure of the
model and of the state. -/
theorem flat_train (step : Step K α β B) (m : PT K α) (s : PT K β) (hk : Keeps step m s) (bs : List B) :
    flatTrain step bs m s = (train step bs m s).map Prod.fst := by
  obtain ⟨h1, h2⟩ := flatLoop_eq step m s hk bs m s rfl rfl
  simp only [flatTrain, structure_noLeaf, h1, Bind.bind, Except.bind]
  cases h : train step bs m s with
  | error e => rfl
  | ok r => exact unflatten_leaves (h2 r h).1

/-- **C115**: in any case the model that comes out has the structure of the model that was put in, whatever the steps do. -/
theorem flat_train_structure (step : Step K α β B) (m out : PT K α) (s : PT K β) (bs : List B) (h : flatTrain step bs m s = .ok out) :
    SameStructure out m := by
  have key : ∀ bs (fm : List (PT K α)) (fs : List (PT K β)) r, (∀ x ∈ fm, ∃ a, x = .leaf a) →
      flatLoop m.shape s.shape step bs fm fs = .ok r → ∀ x ∈ r.1, ∃ a, x = .leaf a := by
    intro bs
    induction bs with
    | nil => intro fm fs r hf h; cases h; exact hf
    | cons b bs ih =>
      intro fm fs r hf h
      simp only [flatLoop, Bind.bind, Except.bind] at h
      split at h
      · contradiction
      · rename_i v hv
        refine ih v.1 v.2 r ?_ h
        simp only [flatStep, Bind.bind, Except.bind] at hv
        split at hv
        · contradiction
        · split at hv
          · contradiction
          · split at hv
            · contradiction
            · simp only [pure, Except.pure, Except.ok.injEq] at hv
              subst hv
              simp only [treeLeaves, cut_noLeaf, leaves_map, List.mem_map]
              rintro x ⟨a, -, rfl⟩
              exact ⟨a, rfl⟩
  simp only [flatTrain, structure_noLeaf, Bind.bind, Except.bind] at h
  split at h
  · contradiction
  · rename_i r hr
    have hl := key bs _ _ r (by
      simp only [treeLeaves, cut_noLeaf, leaves_map, List.mem_map]
      rintro x ⟨a, -, rfl⟩
      exact ⟨a, rfl⟩) hr
    obtain ⟨c, h1, h2, rfl⟩ := treeUnflatten_ok h
    rw [sameStructure_iff]
    have : c.join.shape = (c.map (fun _ => PT.leaf (K := K) ())).join.shape := by
      refine shape_join (by rw [shape_map]) ?_
      intro π x y hx hy
      rw [leafAt?_map, hx] at hy
      simp only [Option.map_some, Option.some.injEq] at hy
      subst hy
      obtain ⟨a, rfl⟩ := hl x (by
        obtain ⟨i, -, hi⟩ := index_of_leafAt? hx
        rw [← h2]
        exact List.mem_of_getElem? ((hi c rfl).symm.trans hx))
      rfl
    rw [this]
    have h3 : (c.map (fun _ => PT.leaf (K := K) ())).join = c.shape := by
      have := join_map_leaf c.shape
      rw [shape, map_map] at this
      exact this
    rw [h3, h1]
    exact shape_map _ m

/-- **C115**: if a step changes the number of leaves of the model, the loop raises, whatever batches follow. -/
theorem flat_train_count (step : Step K α β B) (m m' : PT K α) (s s' : PT K β) (b : B) (bs : List B) (h : step m s b = .ok (m', s'))
    (hn : m'.leaves.length ≠ m.leaves.length) : ∃ e, flatTrain step (b :: bs) m s = .error e := by
  have bad : ∀ t, treeUnflatten m.shape (m'.treeLeaves noLeaf) ≠ .ok t := by
    intro t ht
    obtain ⟨c, h1, h2, -⟩ := treeUnflatten_ok ht
    have h3 := congrArg List.length h2
    have h4 : c.leaves.length = m.leaves.length := length_leaves_of_shape (h1 : c.shape = m.shape)
    rw [treeLeaves, cut_noLeaf, leaves_map, List.length_map] at h3
    omega
  simp only [flatTrain, structure_noLeaf, flatLoop, flatStep, Bind.bind, Except.bind, unflatten_leaves (m := m) rfl,
    unflatten_leaves (m := s) rfl, h, pure, Except.pure]
  cases bs with
  | nil =>
    simp only [flatLoop]
    cases ht : treeUnflatten m.shape (m'.treeLeaves noLeaf) with
    | error e => exact ⟨e, rfl⟩
    | ok t => exact absurd ht (bad t)
  | cons b' bs =>
    simp only [flatLoop, flatStep, Bind.bind, Except.bind]
    cases ht : treeUnflatten m.shape (m'.treeLeaves noLeaf) with
    | error e => exact ⟨e, rfl⟩
    | ok t => exact absurd ht (bad t)

/-- A step that moves a leaf to another place, as many leaves as before: the loop over leaves does not notice, and puts it back. -/
theorem flat_train_silent : ∃ (step : Step Unit Nat Nat Unit) (m s : PT Unit Nat),
    flatTrain step [()] m s = .ok (.node () [.leaf 2, .none]) ∧ train step [()] m s = .ok (.node () [.none, .leaf 2], .none) :=
  ⟨fun _ s _ => .ok (.node () [.none, .leaf 2], s), .node () [.leaf 1, .none], .none, rfl, rfl⟩

/-- A step that adds one to every leaf keeps the structure. -/
example : Keeps (fun (m : PT Unit Nat) (s : PT Unit Nat) (b : Nat) => .ok (m.map (· + b), s)) (.node () [.leaf 1, .none]) .none := by
  intro m' s' b m'' s'' hm hs h
  cases h
  refine ⟨?_, hs⟩
  rw [sameStructure_iff] at hm ⊢
  rw [shape_map, hm]

/-! ### `init` and `apply` -/

variable [DecidableEq K] {X Y : Type}

/-- `make_mlp` (`examples/init_apply.ipynb`, cell 0): what `init_fn` returns, and `apply_fn`. `call` is calling the model. -/
def initApply (inexact : α → Bool) (call : PT K α → X → Except Err Y) (model : PT K α) : Except Err (PT K α × (PT K α → X → Except Err Y)) := do
  let p ← Filters.partition noLeaf (.leaf (.callable fun x => .ok (onLeaf false inexact x))) .none model
  pure (p.1, fun params x => do
    let m ← Filters.combine noLeaf [params, p.2]
    call m x)

/-- **C115**: `apply_fn` of the parameters is calling the model; of changed parameters it is calling the model with these inexact arrays changed and
everything else as it was; the parameters are the inexact arrays, in order. -/
theorem init_apply (inexact : α → Bool) (call : PT K α → X → Except Err Y) (model : PT K α) :
    ∃ params apply, initApply inexact call model = .ok (params, apply) ∧ params.leaves = model.leaves.filter inexact ∧
      (∀ x, apply params x = call model x) ∧
      ∀ (f : α → α) x, apply (params.map f) x = call (model.map fun a => if inexact a then f a else a) x := by
  have hmap : ∀ f : α → α, Filters.combine noLeaf
      [(withNones (model.map fun a => if inexact a then some a else Option.none)).map f,
        withNones (model.map fun a => if inexact a then Option.none else some a)] =
      .ok (model.map fun a => if inexact a then f a else a) := by
    intro f
    rw [withNones_map]
    have := combine_closed model [fun a => (if inexact a then some a else Option.none).map f, fun a => if inexact a then Option.none else some a]
      (by simp)
    simp only [List.map_cons, List.map_nil] at this
    rw [this]
    have e : (fun a => List.findSome? (fun g : α → Option α => g a)
        [fun a => (if inexact a then some a else Option.none).map f, fun a => if inexact a then Option.none else some a]) =
        fun a => some (if inexact a then f a else a) := by
      funext a
      cases h : inexact a <;> simp [h]
    rw [e, withNones_some]
  refine ⟨withNones (model.map fun a => if inexact a then some a else Option.none), fun params x => (do
    let m ← Filters.combine noLeaf [params, withNones (model.map fun a => if inexact a then Option.none else some a)]
    call m x), ?_, ?_, ?_, ?_⟩
  · simp only [initApply, partition_callable_closed, Bind.bind, Except.bind, onLeaf_leaf, pure, Except.pure]
    rfl
  · rw [leaves_withNones, ← List.filterMap_eq_filter]
    congr 1
  · intro x
    have := hmap id
    have e : (withNones (model.map fun a => if inexact a then some a else Option.none)).map id =
      withNones (K := K) (model.map fun a => if inexact a then some a else Option.none) := map_id_fun _
    rw [e] at this
    simp only [this, id, ite_self, Bind.bind, Except.bind]
    rw [map_id_fun]
  · intro f x
    simp only [hmap f, Bind.bind, Except.bind]

example : ∃ params apply, initApply (K := Unit) (X := Unit) (fun n : Nat => decide (n < 10)) (fun m _ => .ok m.leaves)
    (.node () [.leaf 3, .leaf 20]) = .ok (params, apply) ∧ params = .node () [.leaf 3, .none] ∧ apply (params.map (· + 1)) () = .ok [4, 20] :=
  ⟨_, _, rfl, rfl, rfl⟩

end FlatLoop
end Verif
