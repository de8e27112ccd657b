import Verif.NN.Shared

/-!
# `inference_mode` (`equinox/nn/_inference.py`)

`attr k` is the index of the child that instances of `k` hold in their attribute `inference`, if they have that attribute.
Attributes called `inference` that are not children (static fields, class attributes) are outside of the model: `tree_at`
refuses to replace them (C06). Leaves are assumed not to have the attribute. The list that `_inferences` returns is
represented by a tuple.
-/

namespace Verif
namespace Inference

open TreeAt PT

variable {K K' α β γ : Type}

/-- `hasattr(x, "inference")`. -/
def hasInf (attr : K → Option Nat) : PT K β → Bool
  | .node k _ => (attr k).isSome
  | _ => false

/-- `[pytree.inference] if hasattr(pytree, "inference") else []` (10). -/
def own (attr : K → Option Nat) : PT K β → List (PT K β)
  | .node k cs => match attr k with
    | some j => match cs[j]? with
      | some c => [c]
      | Option.none => []
    | Option.none => []
  | _ => []

/-- `[x for x in jtu.tree_leaves(pytree, is_leaf=is_leaf) if is_leaf(x)]` (8, 12): `is_leaf` does not accept `pytree`
itself. -/
def below (attr : K → Option Nat) : PT K β → List (PT K β)
  | .node _ cs => cs.flatMap (fun c => (c.treeLeaves (hasInf attr)).filter (hasInf attr))
  | _ => []

/-- `_inferences` (7-17), with a bound on the depth of the recursion. -/
def inferencesN (attr : K → Option Nat) : Nat → PT K β → List (PT K β)
  | 0, _ => []
  | n + 1, x => own attr x ++ (below attr x).flatMap (inferencesN attr n)

mutual
/-- The number of nodes of a tree, which bounds the depth. -/
def size : PT K β → Nat
  | .leaf _ => 1
  | .none => 1
  | .node _ cs => 1 + sizeL cs
/-- `size` on lists. -/
def sizeL : List (PT K β) → Nat
  | [] => 0
  | c :: cs => size c + sizeL cs
end

/-- `_inferences` (7-17). -/
def inferences (attr : K → Option Nat) (x : PT K β) : List (PT K β) := inferencesN attr (size x) x

/-- `inference_mode(pytree, value)` (20-74). `(i, v)` is the object `value`,
and `list` the type of lists. -/
def inferenceMode [DecidableEq K] (env : Env K α) (list : K) (attr : K → Option Nat) (n : Nat) (t : PT K (Val α)) (i : Nat) (v : α) :
    Except Err (PT K (Val α)) :=
  treeAt env (fun x => .ok (.node (.given n, list) (inferences (fun k => attr k.2) x))) noLeaf t
    (.replaceFn (fun _ => .ok (.leaf (.obj i v))))

/-! ### Specification -/

/-- At position `π` is the attribute `inference` of the node above. -/
def IsFlag (attr : K → Option Nat) (t : PT K β) (π : List Nat) : Prop :=
  ∃ ρ j k cs, π = ρ ++ [j] ∧ t.get? ρ = some (.node k cs) ∧ attr k = some j ∧ j < cs.length

/-- All these attributes are leaves (in all layers of Equinox they are `bool`s). -/
def FlagsAreLeaves (attr : K → Option Nat) (t : PT K β) : Prop :=
  ∀ π, IsFlag attr t π → ∃ a, t.get? π = some (.leaf a)

/-! ### Lemmas -/

mutual
/-- `_inferences`, following the structure of the tree. -/
def infs (attr : K → Option Nat) : PT K β → List (PT K β)
  | .leaf _ => []
  | .none => []
  | .node k cs => own attr (.node k cs) ++ infsL attr cs
/-- `infs` on lists. -/
def infsL (attr : K → Option Nat) : List (PT K β) → List (PT K β)
  | [] => []
  | c :: cs => infs attr c ++ infsL attr cs
end

theorem infsL_eq (attr : K → Option Nat) (cs : List (PT K β)) : infsL attr cs = cs.flatMap (infs attr) := by
  induction cs with
  | nil => rfl
  | cons c cs ih => simp [infsL, ih]

theorem infs_below (attr : K → Option Nat) (c : PT K β) :
    ((c.treeLeaves (hasInf attr)).filter (hasInf attr)).flatMap (infs attr) = infs attr c := by
  induction c using PT.ind with
  | leaf a => simp [treeLeaves, cut, leaves, hasInf, infs]
  | none => simp [treeLeaves, cut, leaves, hasInf, infs]
  | node k cs ih =>
    simp only [treeLeaves, cut]
    by_cases h : hasInf attr (.node k cs) = true
    · simp [h, leaves]
    · rw [if_neg h]
      have hk : attr k = Option.none := by simpa [hasInf] using h
      simp only [leaves, leavesL_eq, cutL_eq, infs, own, hk, List.nil_append, infsL_eq]
      rw [List.flatMap_map]
      have : ∀ ds : List (PT K β), (∀ d ∈ ds, d ∈ cs) →
          ((ds.flatMap (fun a => (a.cut (hasInf attr)).leaves)).filter (hasInf attr)).flatMap (infs attr) =
            ds.flatMap (infs attr) := by
        intro ds
        induction ds with
        | nil => simp
        | cons d ds ihd =>
          intro hd
          simp only [List.flatMap_cons, List.filter_append, List.flatMap_append]
          rw [ihd (fun e he => hd e (List.mem_cons_of_mem _ he))]
          have := ih d (hd d (by simp))
          rw [treeLeaves] at this
          rw [this]
      exact this cs (fun _ h => h)

theorem size_pos (t : PT K β) : 0 < size t := by
  cases t <;> simp [size]; omega

theorem size_le_sizeL {cs : List (PT K β)} {c : PT K β} (h : c ∈ cs) : size c ≤ sizeL cs := by
  induction cs with
  | nil => simp at h
  | cons d cs ih =>
    rcases List.mem_cons.1 h with rfl | h
    · simp [sizeL]
    · have := ih h; simp only [sizeL]; omega

theorem size_treeLeaves {p : PT K β → Bool} {t x : PT K β} (h : x ∈ t.treeLeaves p) : size x ≤ size t := by
  induction t using PT.ind with
  | leaf a => simp [treeLeaves, cut, leaves] at h; subst h; exact Nat.le_refl _
  | none =>
    simp only [treeLeaves, cut] at h
    split at h
    · simp [leaves] at h; subst h; exact Nat.le_refl _
    · simp [leaves] at h
  | node k cs ih =>
    simp only [treeLeaves, cut] at h
    split at h
    · simp [leaves] at h; subst h; exact Nat.le_refl _
    · simp only [leaves, leavesL_eq, cutL_eq, List.mem_flatMap, List.mem_map] at h
      obtain ⟨_, ⟨c, hc, rfl⟩, hx⟩ := h
      have h1 := ih c hc hx
      have h2 := size_le_sizeL hc
      simp only [size]; omega

theorem inferencesN_eq (attr : K → Option Nat) (n : Nat) (x : PT K β) (h : size x ≤ n) : inferencesN attr n x = infs attr x := by
  induction n generalizing x with
  | zero => have := size_pos x; omega
  | succ n ih =>
    have hb : ∀ y ∈ below attr x, inferencesN attr n y = infs attr y := by
      intro y hy
      cases x with
      | leaf a => simp [below] at hy
      | none => simp [below] at hy
      | node k cs =>
        simp only [below, List.mem_flatMap, List.mem_filter] at hy
        obtain ⟨c, hc, hy, -⟩ := hy
        have h1 := size_treeLeaves hy
        have h2 := size_le_sizeL hc
        simp only [size] at h
        exact ih y (by omega)
    have hb' : (below attr x).flatMap (inferencesN attr n) = (below attr x).flatMap (infs attr) := by
      revert hb
      generalize below attr x = ys
      intro hb
      induction ys with
      | nil => rfl
      | cons y ys ihy =>
        simp only [List.flatMap_cons]
        rw [hb y (by simp), ihy (fun z hz => hb z (List.mem_cons_of_mem _ hz))]
    rw [inferencesN, hb']
    cases x with
    | leaf a => simp [own, below, infs]
    | none => simp [own, below, infs]
    | node k cs =>
      simp only [infs, infsL_eq, below]
      congr 1
      clear hb hb' h
      induction cs with
      | nil => rfl
      | cons c cs ihc =>
        simp only [List.flatMap_cons, List.flatMap_append, infs_below]
        rw [ihc]

theorem inferences_eq (attr : K → Option Nat) (x : PT K β) : inferences attr x = infs attr x :=
  inferencesN_eq attr _ x (Nat.le_refl _)

/-- The position of the attribute of a node. -/
def ownPath (attr : K → Option Nat) (k : K) (n : Nat) : List (List Nat) :=
  match attr k with
  | some j => if j < n then [[j]] else []
  | Option.none => []

mutual
/-- The positions of all flags. -/
def paths (attr : K → Option Nat) : PT K β → List (List Nat)
  | .leaf _ => []
  | .none => []
  | .node k cs => ownPath attr k cs.length ++ pathsL attr 0 cs
/-- `paths` on the children from the `i`-th on. -/
def pathsL (attr : K → Option Nat) : Nat → List (PT K β) → List (List Nat)
  | _, [] => []
  | i, c :: cs => (paths attr c).map (i :: ·) ++ pathsL attr (i + 1) cs
end

theorem mem_pathsL (attr : K → Option Nat) (i : Nat) (cs : List (PT K β)) (π : List Nat) :
    π ∈ pathsL attr i cs ↔ ∃ (m : Nat) (c : PT K β) (ρ : List Nat), cs[m]? = some c ∧ ρ ∈ paths attr c ∧ π = (i + m) :: ρ := by
  induction cs generalizing i with
  | nil => simp [pathsL]
  | cons c cs ih =>
    simp only [pathsL, List.mem_append, List.mem_map, ih]
    constructor
    · rintro (⟨ρ, hρ, rfl⟩ | ⟨m, d, ρ, h1, h2, rfl⟩)
      · exact ⟨0, c, ρ, rfl, hρ, by simp⟩
      · exact ⟨m + 1, d, ρ, by simpa using h1, h2, by congr 1; omega⟩
    · rintro ⟨m, d, ρ, h1, h2, rfl⟩
      cases m with
      | zero => simp at h1; subst h1; exact .inl ⟨ρ, h2, by simp⟩
      | succ m => exact .inr ⟨m, d, ρ, by simpa using h1, h2, by congr 1; omega⟩

theorem mem_paths (attr : K → Option Nat) (t : PT K β) (π : List Nat) : π ∈ paths attr t ↔ IsFlag attr t π := by
  induction t using PT.ind generalizing π with
  | leaf a =>
    simp only [paths, List.not_mem_nil, false_iff]
    rintro ⟨ρ, j, k, cs, -, h, -⟩
    cases ρ <;> simp [get?] at h
  | none =>
    simp only [paths, List.not_mem_nil, false_iff]
    rintro ⟨ρ, j, k, cs, -, h, -⟩
    cases ρ <;> simp [get?] at h
  | node k cs ih =>
    simp only [paths, List.mem_append, mem_pathsL]
    constructor
    · rintro (h | ⟨m, c, ρ, h1, h2, rfl⟩)
      · unfold ownPath at h
        split at h
        · rename_i j hj
          split at h
          · rename_i hlt
            simp only [List.mem_singleton] at h
            exact ⟨[], j, k, cs, by simp [h], rfl, hj, hlt⟩
          · simp at h
        · simp at h
      · obtain ⟨ρ', j, k', cs', rfl, g1, g2, g3⟩ := (ih c (List.mem_of_getElem? h1) ρ).1 h2
        exact ⟨m :: ρ', j, k', cs', by simp, by simp [get?, h1, g1], g2, g3⟩
    · rintro ⟨ρ, j, k', cs', rfl, g1, g2, g3⟩
      cases ρ with
      | nil =>
        simp only [get?, Option.some.injEq, PT.node.injEq] at g1
        obtain ⟨rfl, rfl⟩ := g1
        left
        simp [ownPath, g2, g3]
      | cons m ρ =>
        right
        simp only [get?, Option.bind_eq_some_iff] at g1
        obtain ⟨c, h1, h2⟩ := g1
        exact ⟨m, c, ρ ++ [j], h1, (ih c (List.mem_of_getElem? h1) _).2 ⟨ρ, j, k', cs', rfl, h2, g2, g3⟩, by simp⟩

theorem nil_not_mem_paths (attr : K → Option Nat) (t : PT K β) : [] ∉ paths attr t := by
  rw [mem_paths]
  rintro ⟨ρ, j, k, cs, h, -⟩
  have := congrArg List.length h
  simp at this

theorem nodup_paths (attr : K → Option Nat) (t : PT K β) : (paths attr t).Nodup := by
  induction t using PT.ind with
  | leaf a => simp [paths]
  | none => simp [paths]
  | node k cs ih =>
    have hL : ∀ (ds : List (PT K β)) (i : Nat), (∀ d ∈ ds, d ∈ cs) → (pathsL attr i ds).Nodup := by
      intro ds
      induction ds with
      | nil => intro i _; simp [pathsL]
      | cons d ds ihd =>
        intro i hd
        rw [pathsL, List.nodup_append]
        refine ⟨?_, ihd (i + 1) (fun e he => hd e (List.mem_cons_of_mem _ he)), ?_⟩
        · have := ih d (hd d (by simp))
          rw [List.Nodup, List.pairwise_map]
          exact List.Pairwise.imp (fun h he => h (by simpa using he)) this
        · intro a ha b hb hab
          subst hab
          rw [List.mem_map] at ha
          obtain ⟨ρ, -, rfl⟩ := ha
          obtain ⟨m, c, ρ', -, -, he⟩ := (mem_pathsL _ _ _ _).1 hb
          simp only [List.cons.injEq] at he
          omega
    rw [paths, List.nodup_append]
    refine ⟨?_, hL cs 0 (fun _ h => h), ?_⟩
    · unfold ownPath
      split
      · split <;> simp
      · simp
    · intro a ha b hb hab
      subst hab
      obtain ⟨m, c, ρ, -, h2, rfl⟩ := (mem_pathsL _ _ _ _).1 hb
      unfold ownPath at ha
      split at ha
      · split at ha
        · simp only [List.mem_singleton, List.cons.injEq] at ha
          rw [ha.2] at h2
          exact nil_not_mem_paths _ _ h2
        · simp at ha
      · simp at ha

theorem getAll_append {x : Obj K α} (ps qs : List (List Nat)) :
    getAll x (ps ++ qs) = (getAll x ps).bind (fun ys => (getAll x qs).map (ys ++ ·)) := by
  induction ps with
  | nil => simp [getAll]
  | cons p ps ih =>
    simp only [List.cons_append, getAll, ih]
    cases x.get? p with
    | none => rfl
    | some y =>
      cases getAll x ps with
      | none => rfl
      | some ys => cases getAll x qs <;> simp

theorem getAll_child {k : Id × K} {cs : List (Obj K α)} {i : Nat} {c : Obj K α} (h : cs[i]? = some c) (ps : List (List Nat)) :
    getAll (.node k cs) (ps.map (i :: ·)) = getAll c ps := by
  induction ps with
  | nil => rfl
  | cons p ps ih =>
    simp only [List.map_cons, getAll, ih]
    have : (PT.node k cs).get? (i :: p) = c.get? p := by simp [get?, h]
    rw [this]

theorem getAll_paths (attr : Id × K → Option Nat) (x : Obj K α) : getAll x (paths attr x) = some (infs attr x) := by
  induction x using PT.ind with
  | leaf a => simp [paths, infs, getAll]
  | none => simp [paths, infs, getAll]
  | node k cs ih =>
    have h1 : getAll (.node k cs) (ownPath attr k cs.length) = some (own attr (.node k cs)) := by
      simp only [ownPath, own]
      cases attr k with
      | none => simp [getAll]
      | some j =>
        simp only
        by_cases hj : j < cs.length
        · simp [hj, getAll, get?]
        · simp [hj, getAll]
    have h2 : ∀ (ds : List (Obj K α)) (i : Nat), (∀ m, cs[i + m]? = ds[m]?) → (∀ d ∈ ds, d ∈ cs) →
        getAll (.node k cs) (pathsL attr i ds) = some (infsL attr ds) := by
      intro ds
      induction ds with
      | nil => intro i _ _; simp [pathsL, infsL, getAll]
      | cons d ds ihd =>
        intro i hi hd
        have h0 := hi 0
        simp only [Nat.add_zero, List.getElem?_cons_zero] at h0
        rw [pathsL, getAll_append, getAll_child h0, ih d (hd d (by simp)),
          ihd (i + 1) (fun m => by have := hi (m + 1); rw [List.getElem?_cons_succ] at this; rw [← this]; congr 1; omega)
            (fun e he => hd e (List.mem_cons_of_mem _ he))]
        simp [infsL]
    rw [paths, getAll_append, h1, h2 cs 0 (fun m => by simp) (fun _ h => h)]
    simp [infs]

theorem pathsL_congr {attr : K → Option Nat} {attr' : K' → Option Nat} (cs : List (PT K β)) (ds : List (PT K' γ))
    (hl : cs.length = ds.length)
    (h : ∀ (m : Nat) c d, cs[m]? = some c → ds[m]? = some d → paths attr c = paths attr' d) (i : Nat) :
    pathsL attr i cs = pathsL attr' i ds := by
  induction cs generalizing ds i with
  | nil =>
    cases ds with
    | nil => rfl
    | cons => simp at hl
  | cons c cs ih =>
    cases ds with
    | nil => simp at hl
    | cons d ds =>
      rw [pathsL, pathsL, h 0 c d rfl rfl, ih ds (by simpa using hl) (fun m a b ha hb => h (m + 1) a b (by simpa using ha) (by simpa using hb))]

theorem paths_retag (f : K → K') (attr : K' → Option Nat) (t : PT K β) :
    paths attr (retag f t) = paths (fun k => attr (f k)) t := by
  induction t using PT.ind with
  | leaf a => simp [retag, paths]
  | none => simp [retag, paths]
  | node k cs ih =>
    simp only [retag, retagL_eq, paths, List.length_map]
    congr 1
    refine (pathsL_congr cs _ (by simp) ?_ 0).symm
    intro m c d hc hd
    rw [List.getElem?_map, hc] at hd
    simp only [Option.map_some, Option.some.injEq] at hd
    rw [← hd, ih c (List.mem_of_getElem? hc)]

theorem paths_map (f : β → γ) (attr : K → Option Nat) (t : PT K β) : paths attr (t.map f) = paths attr t := by
  induction t using PT.ind with
  | leaf a => simp [PT.map, paths]
  | none => simp [PT.map, paths]
  | node k cs ih =>
    simp only [PT.map, mapL_eq, paths, List.length_map]
    congr 1
    refine (pathsL_congr cs _ (by simp) ?_ 0).symm
    intro m c d hc hd
    rw [List.getElem?_map, hc] at hd
    simp only [Option.map_some, Option.some.injEq] at hd
    rw [← hd, ih c (List.mem_of_getElem? hc)]

theorem paths_shape {attr : K → Option Nat} {t : PT K β} {u : PT K γ} (h : t.shape = u.shape) :
    paths attr t = paths attr u := by
  rw [← paths_map (fun _ => ()) attr t, ← paths_map (fun _ => ()) attr u]
  exact congrArg _ h

variable [DecidableEq K]

theorem paths_distinct {env : Env K α} {attr : K → Option Nat} (ht : attr env.tuple = Option.none) (t : PT K (Val α)) (π : List Nat) :
    paths attr (distinct env π t) = paths attr t := by
  induction t using PT.ind generalizing π with
  | leaf a =>
    obtain ⟨n, v⟩ := a
    simp only [distinct]
    split <;> simp [paths]
  | none => simp [distinct, paths]
  | node k cs ih =>
    simp only [distinct]
    split
    · rename_i h
      obtain ⟨rfl, h⟩ := h
      have : cs = [] := by simpa using h
      subst this
      simp [paths, ownPath, ht, pathsL]
    · simp only [paths, length_distinctL]
      congr 1
      refine (pathsL_congr cs _ (by simp [length_distinctL]) ?_ 0).symm
      intro m c d hc hd
      rw [distinctL_eq, hc] at hd
      simp only [Option.map_some, Option.some.injEq] at hd
      rw [← hd, ih c (List.mem_of_getElem? hc)]

theorem paths_seen1 {env : Env K α} {attr : K → Option Nat} (ht : attr env.tuple = Option.none) (t : PT K (Val α)) :
    paths (fun k => attr k.2) (plain (seen1 env t)) = paths attr t := by
  rw [plain, paths_map, ← paths_retag Prod.snd attr, seen1,
    retag_label (newId env.tuple 1) _ (fun r => r) (fun _ _ => rfl), map_id', paths_distinct ht]

theorem paths_seen2 {env : Env K α} {attr : K → Option Nat} (ht : attr env.tuple = Option.none) (t : PT K (Val α)) :
    paths (fun k => attr k.2) (seen2 env noLeaf t) = paths attr t := by
  rw [← paths_retag Prod.snd attr, ← paths_map (fun _ => ()) attr]
  have h1 : (retag Prod.snd (seen2 env noLeaf t)).map (fun _ => ()) = (cutTree env noLeaf t).shape := by
    have := shape_label (newId env.tuple 2) (fun π c => TreeAt.Leaf.wrap (.made 2 π) c) [] (cutTree env noLeaf t)
    rw [← shape_retag] at this
    exact this
  rw [h1]
  have h0 : cutTree env noLeaf t = (retag Prod.snd (seen1 env t)).map PT.leaf := by
    have : (seen1 env t).cut (fun x => noLeaf (plain x)) = (seen1 env t).map PT.leaf := cut_noLeaf _
    rw [cutTree, this, map_retag]
  rw [shape, paths_map, h0, paths_map, seen1, retag_label (newId env.tuple 1) _ (fun r => r) (fun _ _ => rfl), map_id',
    paths_distinct ht]

/-- `_inferences` selects exactly the flags. -/
theorem inferenceMode_eq {env : Env K α} {list : K} {attr : K → Option Nat} (ht : attr env.tuple = Option.none) (n : Nat) (t : PT K (Val α))
    (i : Nat) (v : α) :
    inferenceMode env list attr n t i v =
      treeAt env (selectMany list n (paths attr t)) noLeaf t (.replaceFn (fun _ => .ok (.leaf (.obj i v)))) := by
  have h1 : selectMany list n (paths attr t) (plain (seen1 env t)) =
      .ok (.node (.given n, list) (inferences (fun k => attr k.2) (plain (seen1 env t)))) := by
    rw [selectMany, ← paths_seen1 ht, getAll_paths, inferences_eq]
  have h2 : selectMany list n (paths attr t) (seen2 env noLeaf t) =
      .ok (.node (.given n, list) (inferences (fun k => attr k.2) (seen2 env noLeaf t))) := by
    rw [selectMany, ← paths_seen2 ht, getAll_paths, inferences_eq]
  simp only [inferenceMode, treeAt, h1, h2]

/-! ### Properties -/

theorem flag_inside {attr : K → Option Nat} {t : PT K (Val α)} (hf : FlagsAreLeaves attr t) {p π : List Nat} (hp : IsFlag attr t p)
    (h : p <+: π) {x : PT K (Val α)} (hx : t.get? π = some x) : π = p := by
  obtain ⟨a, ha⟩ := hf p hp
  obtain ⟨ρ, rfl⟩ := h
  rw [get?_append, ha] at hx
  cases ρ with
  | nil => simp
  | cons => simp [get?] at hx

/-- **C39**: `inference_mode` returns; every attribute `inference`, at any depth, is then the new value; and nothing else
changes. -/
theorem inference_mode_sets {env : Env K α} {list : K} {attr : K → Option Nat} {t : PT K (Val α)} {n i : Nat} {v : α}
    (ht : attr env.tuple = Option.none) (hodd : NoOddTuples env t) (hf : FlagsAreLeaves attr t)
    (htuple : ∀ ys, env.nodes (.node (.given n, list) ys) = .ok ys) :
    ∃ out, inferenceMode env list attr n t i v = .ok out ∧ (∀ π, IsFlag attr t π → out.get? π = some (.leaf (i, v))) ∧
      ∀ π, ¬ IsFlag attr t π → out.headAt? π = t.headAt? π := by
  have hapart : ∀ p ∈ paths attr t, ∀ p' ∈ paths attr t, p <+: p' → p = p' := by
    intro p hp p' hp' h
    rw [mem_paths] at hp hp'
    obtain ⟨a, ha⟩ := hf p' hp'
    exact (flag_inside hf hp h ha).symm
  have hreach : ReachableAll env noLeaf t (paths attr t) := by
    refine ⟨?_, hapart⟩
    intro p hp
    rw [mem_paths] at hp
    obtain ⟨a, ha⟩ := hf p hp
    exact reachable_of_get ha (by simp)
  rw [inferenceMode_eq ht]
  obtain ⟨out, h⟩ := Shared.tree_at_many_fn_succeeds (f := fun _ => .ok (.leaf (.obj i v))) hodd hreach htuple (fun _ => rfl)
    (fun _ => ⟨_, rfl⟩)
  obtain ⟨h1, h2⟩ := tree_at_many_replace_fn hodd (nodup_paths attr t) hapart htuple h
  have h3 : ∀ π, IsFlag attr t π → out.get? π = some (.leaf (i, v)) := by
    intro π hπ
    obtain ⟨x, y, -, hy, hg⟩ := h1 π ((mem_paths _ _ _).2 hπ)
    cases hy
    exact hg
  refine ⟨out, h, h3, ?_⟩
  intro π hπ
  by_cases hin : ∃ p ∈ paths attr t, p <+: π
  · obtain ⟨p, hp, ρ, rfl⟩ := hin
    rw [mem_paths] at hp
    obtain ⟨a, ha⟩ := hf p hp
    have hne : ρ ≠ [] := by
      rintro rfl
      rw [List.append_nil] at hπ
      exact hπ hp
    cases ρ with
    | nil => exact absurd rfl hne
    | cons r ρ => simp [headAt?, get?_append, ha, h3 p hp, get?]
  · exact h2 π (fun p hp hpre => hin ⟨p, hp, hpre⟩)

omit [DecidableEq K] in
theorem isFlag_of_sets {attr : K → Option Nat} {t out : PT K (Val α)} {i : Nat} {v : α} (hf : FlagsAreLeaves attr t)
    (h1 : ∀ π, IsFlag attr t π → out.get? π = some (.leaf (i, v))) (h2 : ∀ π, ¬ IsFlag attr t π → out.headAt? π = t.headAt? π)
    (π : List Nat) : IsFlag attr out π ↔ IsFlag attr t π := by
  have key : ∀ ρ k n, out.headAt? ρ = some (.node k n) ↔ t.headAt? ρ = some (.node k n) := by
    intro ρ k n
    by_cases hρ : IsFlag attr t ρ
    · obtain ⟨a, ha⟩ := hf ρ hρ
      simp [headAt?, h1 ρ hρ, ha, head]
    · rw [h2 ρ hρ]
  have conv : ∀ (u : PT K (Val α)), IsFlag attr u π ↔ ∃ ρ j k n, π = ρ ++ [j] ∧ u.headAt? ρ = some (.node k n) ∧ attr k = some j ∧ j < n := by
    intro u
    constructor
    · rintro ⟨ρ, j, k, cs, rfl, a, b, c⟩
      exact ⟨ρ, j, k, cs.length, rfl, by simp [headAt?, a, head], b, c⟩
    · rintro ⟨ρ, j, k, n, rfl, a, b, c⟩
      simp only [headAt?, Option.map_eq_some_iff] at a
      obtain ⟨x, hx, hh⟩ := a
      cases x with
      | leaf => simp [head] at hh
      | none => simp [head] at hh
      | node k' cs =>
        simp only [head, Head.node.injEq] at hh
        obtain ⟨rfl, rfl⟩ := hh
        exact ⟨ρ, j, k', cs, rfl, hx, b, c⟩
  rw [conv, conv]
  constructor
  · rintro ⟨ρ, j, k, n, a, b, c⟩; exact ⟨ρ, j, k, n, a, (key _ _ _).1 b, c⟩
  · rintro ⟨ρ, j, k, n, a, b, c⟩; exact ⟨ρ, j, k, n, a, (key _ _ _).2 b, c⟩

/-- **C39**: the last call wins; with the same value twice, `inference_mode` is idempotent. -/
theorem inference_mode_last {env : Env K α} {list : K} {attr : K → Option Nat} {t out : PT K (Val α)} {n i i' : Nat} {v v' : α}
    (ht : attr env.tuple = Option.none) (hodd : NoOddTuples env t) (hf : FlagsAreLeaves attr t) (hv : env.emptyTuple v = false)
    (htuple : ∀ ys, env.nodes (.node (.given n, list) ys) = .ok ys)
    (h : inferenceMode env list attr n t i v = .ok out) :
    inferenceMode env list attr n out i' v' = inferenceMode env list attr n t i' v' := by
  obtain ⟨out1, h1, g1, f1⟩ := inference_mode_sets (i := i) (v := v) ht hodd hf htuple
  rw [h] at h1; cases h1
  have hfl := isFlag_of_sets hf g1 f1
  have hf' : FlagsAreLeaves attr out := fun π hπ => ⟨_, g1 π ((hfl π).1 hπ)⟩
  have hodd' : NoOddTuples env out := by
    intro π w hw
    rw [leafAt?_eq_some] at hw
    by_cases hπ : IsFlag attr t π
    · rw [g1 π hπ] at hw
      cases hw
      exact hv
    · have := f1 π hπ
      simp only [headAt?, hw, Option.map_some, head] at this
      cases ht' : t.get? π with
      | none => rw [ht'] at this; cases this
      | some x =>
        rw [ht'] at this
        simp only [Option.map_some, Option.some.injEq] at this
        cases x with
        | leaf a =>
          simp only [head, Head.leaf.injEq] at this
          subst this
          exact hodd π w (leafAt?_eq_some.2 ht')
        | none => cases this
        | node => cases this
  obtain ⟨o2, e2, g2, f2⟩ := inference_mode_sets (i := i') (v := v') ht hodd' hf' htuple
  obtain ⟨o3, e3, g3, f3⟩ := inference_mode_sets (i := i') (v := v') ht hodd hf htuple
  rw [e2, e3]
  congr 1
  refine ext_headAt? (fun π => ?_)
  by_cases hπ : IsFlag attr t π
  · simp [headAt?, g2 π ((hfl π).2 hπ), g3 π hπ]
  · rw [f2 π (fun hc => hπ ((hfl π).1 hc)), f3 π hπ, f1 π hπ]

/-! ### Example -/

/-- A model with flags at several depths, one of them inside a module that has a flag as well. -/
def exModel : PT String (Val Nat) :=
  .node "Model" [.node "Dropout" [.leaf (1, 50), .leaf (2, 0)],
    .node "BatchNorm" [.leaf (2, 0), .node "list" [.node "Dropout" [.leaf (1, 60), .leaf (2, 0)], .leaf (4, 4)]]]

def exAttr (k : String) : Option Nat := if k = "Dropout" then some 1 else if k = "BatchNorm" then some 0 else Option.none

/-- The hypotheses can be met. -/
example : exAttr exEnv.tuple = Option.none ∧ NoOddTuples exEnv exModel ∧ FlagsAreLeaves exAttr exModel ∧
    (∀ ys, exEnv.nodes (.node (.given 7, "list") ys) = .ok ys) := by
  refine ⟨rfl, Shared.odd_of_leaves (by simp [exModel, leaves, leavesL]), ?_, fun _ => rfl⟩
  intro π hπ
  rw [← mem_paths] at hπ
  have : paths exAttr exModel = [[0, 1], [1, 0], [1, 1, 0, 1]] := by rfl
  rw [this] at hπ
  simp only [List.mem_cons, List.not_mem_nil, or_false] at hπ
  rcases hπ with rfl | rfl | rfl <;> exact ⟨_, rfl⟩
example : inferenceMode exEnv "list" exAttr 7 exModel 3 1 = .ok
    (.node "Model" [.node "Dropout" [.leaf (1, 50), .leaf (3, 1)],
      .node "BatchNorm" [.leaf (3, 1), .node "list" [.node "Dropout" [.leaf (1, 60), .leaf (3, 1)], .leaf (4, 4)]]]) := by rfl

end Inference
end Verif
