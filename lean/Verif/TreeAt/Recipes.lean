import Verif.NN.Inference
import Verif.AD.Training
import Verif.PyTree.Maps

/-!
# C112: surgery on models

The recipes of `docs/tricks.md` for replacing the weights of all linear layers ("Custom parameter initialisation", 18-52) and for
giving parameters a behaviour of their own ("Custom per-parameter behaviour", 54-101), and the filter specification of
`examples/frozen_layer.ipynb` (cell 4). They use `tree_at` with a `where` that searches the tree.
-/

namespace Verif
namespace Recipes

open PT TreeAt

variable {K K' α β γ Key : Type}

/-! ## Model -/

/-- `isinstance(x, eqx.nn.Linear)`, or `isinstance(x, Symmetric)`. -/
def isKind (kind : K → Bool) : PT K β → Bool
  | .node k _ => kind k
  | _ => false

/-- `x.weight`: the child number `j`. -/
def weight (j : Nat) : PT K β → Except Err (PT K β)
  | .node _ cs => match cs[j]? with
    | some c => .ok c
    | Option.none => .error .attributeError
  | _ => .error .attributeError

/-- `get_weights` (`docs/tricks.md`, 41-43). -/
def getWeights (kind : K → Bool) (j : Nat) (m : PT K β) : Except Err (List (PT K β)) :=
  mapE (weight j) ((m.treeLeaves (isKind kind)).filter (isKind kind))

/-- `get_weights` as an argument of `tree_at`: it returns a new object of type `list`. -/
def whereWeights (list : K) (n : Nat) (kind : K → Bool) (j : Nat) (x : Obj K α) : Except Err (Obj K α) := do
  let ws ← getWeights (fun k => kind k.2) j x
  pure (.node (.given n, list) ws)

/-- `init_linear_weight` (`docs/tricks.md`, 39-48). `split n` is `jax.random.split(key, n)`. -/
def initLinearWeight [DecidableEq K] (env : Env K α) (list : K) (n : Nat) (kind : K → Bool) (j : Nat)
    (initFn : PT K (Val α) → Key → Except Err (PT K (Val α))) (split : Nat → List Key) (model : PT K (Val α)) :
    Except Err (PT K (Val α)) := do
  let ws ← getWeights kind j model
  let new ← mapE (fun p => initFn p.1 p.2) (ws.zip (split ws.length))
  treeAt env (whereWeights list n kind j) noLeaf model (.replace (.node list new))

/-- `eqx.tree_at(get_weights, model, replace_fn=Symmetric)` (`docs/tricks.md`, 89-93). -/
def symmetricModel [DecidableEq K] (env : Env K α) (list : K) (n : Nat) (kind : K → Bool) (j : Nat) (sym : K)
    (model : PT K (Val α)) : Except Err (PT K (Val α)) :=
  treeAt env (whereWeights list n kind j) noLeaf model (.replaceFn fun x => .ok (.node sym [x]))

/-- `maybe_symmetric` (`docs/tricks.md`, 74-78). `get` is what `Symmetric.get` makes of `self.matrix`. -/
def maybeSymmetric [DecidableEq K] (sym : K) (get : PT K β → Except Err (PT K β)) (x : PT K β) : Except Err (PT K β) :=
  if isKind (fun k => decide (k = sym)) x then do
    let matrix ← weight 0 x
    get matrix
  else .ok x

/-- `resolve_symmetric` (`docs/tricks.md`, 80-81). -/
def resolveSymmetric [DecidableEq K] (sym : K) (get : PT K β → Except Err (PT K β)) (model : PT K β) : Except Err (PT K β) :=
  treeMap1 (isKind fun k => decide (k = sym)) (maybeSymmetric sym get) model

/-- `filter_spec` (`examples/frozen_layer.ipynb`, cell 4): `False` everywhere, then `tree_at` at the positions `ps`. `i`, `i'` are
the identities of `False` and `True`. -/
def freezeSpec [DecidableEq K] (env : Env K Bool) (n i i' : Nat) (ps : List (List Nat)) (model : PT K α) :
    Except Err (PT K (Val Bool)) :=
  treeAt env (selectMany env.tuple n ps) noLeaf (model.map fun _ => (i, false))
    (.replace (.node env.tuple (ps.map fun _ => .leaf (i', true))))

/-! ## Specification -/

/-- At `π` there is a layer of the kind, and it is not inside another one. -/
def Outermost (kind : K → Bool) (t : PT K β) (π : List Nat) : Prop :=
  (∃ k cs, t.get? π = some (.node k cs) ∧ kind k = true) ∧
    ∀ ρ σ k cs, π = ρ ++ σ → σ ≠ [] → t.get? ρ = some (.node k cs) → kind k = false

/-! ## Proofs -/

mutual
/-- The positions of the outermost layers, from left to right. -/
def kinds (kind : K → Bool) : PT K β → List (List Nat)
  | .leaf _ => []
  | .none => []
  | .node k cs => if kind k then [[]] else kindsL kind 0 cs
/-- `kinds` on the children from the `i`-th on. -/
def kindsL (kind : K → Bool) : Nat → List (PT K β) → List (List Nat)
  | _, [] => []
  | i, c :: cs => (kinds kind c).map (i :: ·) ++ kindsL kind (i + 1) cs
end

theorem mem_kindsL (kind : K → Bool) (i : Nat) (cs : List (PT K β)) (π : List Nat) :
    π ∈ kindsL kind i cs ↔ ∃ (m : Nat) (c : PT K β) (ρ : List Nat), cs[m]? = some c ∧ ρ ∈ kinds kind c ∧ π = (i + m) :: ρ := by
  induction cs generalizing i with
  | nil => simp [kindsL]
  | cons c cs ih =>
    simp only [kindsL, List.mem_append, List.mem_map, ih]
    constructor
    · rintro (⟨ρ, hρ, rfl⟩ | ⟨m, d, ρ, h1, h2, rfl⟩)
      · exact ⟨0, c, ρ, rfl, hρ, by simp⟩
      · exact ⟨m + 1, d, ρ, by simpa using h1, h2, by congr 1; omega⟩
    · rintro ⟨m, d, ρ, h1, h2, rfl⟩
      cases m with
      | zero => simp at h1; subst h1; exact .inl ⟨ρ, h2, by simp⟩
      | succ m => exact .inr ⟨m, d, ρ, by simpa using h1, h2, by congr 1; omega⟩

theorem mem_kinds (kind : K → Bool) (t : PT K β) (π : List Nat) : π ∈ kinds kind t ↔ Outermost kind t π := by
  induction t using PT.ind generalizing π with
  | leaf a =>
    simp only [kinds, List.not_mem_nil, false_iff]
    rintro ⟨⟨k, cs, h, -⟩, -⟩
    cases π <;> simp [get?] at h
  | none =>
    simp only [kinds, List.not_mem_nil, false_iff]
    rintro ⟨⟨k, cs, h, -⟩, -⟩
    cases π <;> simp [get?] at h
  | node k cs ih =>
    rw [kinds]
    split
    · rename_i hk
      rw [List.mem_singleton]
      constructor
      · rintro rfl
        refine ⟨⟨k, cs, rfl, hk⟩, ?_⟩
        intro ρ σ k' cs' h hσ
        exact absurd (List.append_eq_nil_iff.1 h.symm).2 hσ
      · rintro ⟨-, h⟩
        cases π with
        | nil => rfl
        | cons m π =>
          have := h [] (m :: π) k cs rfl (by simp) rfl
          rw [hk] at this
          cases this
    · rename_i hk
      rw [mem_kindsL]
      constructor
      · rintro ⟨m, c, ρ, h1, h2, rfl⟩
        obtain ⟨⟨k', cs', g1, g2⟩, g3⟩ := (ih c (List.mem_of_getElem? h1) ρ).1 h2
        rw [Nat.zero_add]
        refine ⟨⟨k', cs', by simp [get?, h1, g1], g2⟩, ?_⟩
        intro ρ' σ k'' cs'' he hσ hg
        cases ρ' with
        | nil =>
          simp only [get?, Option.some.injEq, PT.node.injEq] at hg
          rw [← hg.1]
          simpa using hk
        | cons a ρ' =>
          simp only [List.cons_append, List.cons.injEq] at he
          obtain ⟨rfl, rfl⟩ := he
          exact g3 ρ' σ k'' cs'' rfl hσ (by simpa [get?, h1] using hg)
      · rintro ⟨⟨k', cs', g1, g2⟩, g3⟩
        cases π with
        | nil =>
          simp only [get?, Option.some.injEq, PT.node.injEq] at g1
          rw [← g1.1] at g2
          exact absurd g2 hk
        | cons m π =>
          simp only [get?, Option.bind_eq_some_iff] at g1
          obtain ⟨c, h1, h2⟩ := g1
          refine ⟨m, c, π, h1, (ih c (List.mem_of_getElem? h1) π).2 ⟨⟨k', cs', h2, g2⟩, ?_⟩, by simp⟩
          intro ρ σ k'' cs'' he hσ hg
          exact g3 (m :: ρ) σ k'' cs'' (by simp [he]) hσ (by simpa [get?, h1] using hg)

theorem sorted_kinds (kind : K → Bool) (t : PT K β) : (kinds kind t).Pairwise (· < ·) := by
  induction t using PT.ind with
  | leaf a => simp [kinds]
  | none => simp [kinds]
  | node k cs ih =>
    have hL : ∀ (ds : List (PT K β)) (i : Nat), (∀ d ∈ ds, d ∈ cs) → (kindsL kind i ds).Pairwise (· < ·) := by
      intro ds
      induction ds with
      | nil => intro i _; simp [kindsL]
      | cons d ds ihd =>
        intro i hd
        rw [kindsL, List.pairwise_append]
        refine ⟨?_, ihd (i + 1) (fun e he => hd e (List.mem_cons_of_mem _ he)), ?_⟩
        · rw [List.pairwise_map]
          exact List.Pairwise.imp (fun h => by rw [List.cons_lt_cons_iff]; exact .inr ⟨rfl, h⟩) (ih d (hd d (by simp)))
        · intro a ha b hb
          rw [List.mem_map] at ha
          obtain ⟨ρ, -, rfl⟩ := ha
          obtain ⟨m, c, ρ', -, -, rfl⟩ := (mem_kindsL _ _ _ _).1 hb
          rw [List.cons_lt_cons_iff]
          exact .inl (by omega)
    rw [kinds]
    split
    · simp
    · exact hL cs 0 (fun _ h => h)

theorem get_kinds (kind : K → Bool) (t : PT K β) :
    (kinds kind t).map t.get? = ((t.treeLeaves (isKind kind)).filter (isKind kind)).map some := by
  induction t using PT.ind with
  | leaf a => simp [kinds, treeLeaves, cut, leaves, isKind]
  | none => simp [kinds, treeLeaves, cut, leaves, isKind]
  | node k cs ih =>
    rw [kinds, treeLeaves, cut]
    by_cases hk : kind k = true
    · simp [isKind, hk, leaves, get?]
    · have hk' : isKind kind (.node k cs) = false := by simpa [isKind] using hk
      rw [if_neg hk, if_neg (by simp [hk'])]
      simp only [leaves, leavesL_eq, cutL_eq, List.flatMap_map]
      have hL : ∀ (ds : List (PT K β)) (i : Nat), (∀ m, cs[i + m]? = ds[m]?) → (∀ d ∈ ds, d ∈ cs) →
          (kindsL kind i ds).map (PT.node k cs).get? =
            ((ds.flatMap fun c => (c.cut (isKind kind)).leaves).filter (isKind kind)).map some := by
        intro ds
        induction ds with
        | nil => intro i _ _; simp [kindsL]
        | cons d ds ihd =>
          intro i hi hd
          have h0 := hi 0
          simp only [Nat.add_zero, List.getElem?_cons_zero] at h0
          have hh := ih d (hd d (by simp))
          rw [treeLeaves] at hh
          rw [kindsL, List.map_append, List.map_map, List.flatMap_cons, List.filter_append, List.map_append, ← hh,
            ← ihd (i + 1) (fun m => by have := hi (m + 1); rw [List.getElem?_cons_succ] at this; rw [← this]; congr 1; omega)
              (fun e he => hd e (List.mem_cons_of_mem _ he))]
          congr 1
          apply List.map_congr_left
          intro ρ _
          simp [get?, h0]
      exact hL cs 0 (fun m => by simp) (fun _ h => h)

theorem weight_eq (j : Nat) (x : PT K β) : weight j x = match x.get? [j] with
    | some c => .ok c
    | Option.none => .error .attributeError := by
  cases x with
  | leaf a => rfl
  | none => rfl
  | node k cs =>
    simp only [weight, get?]
    cases cs[j]? <;> rfl

theorem weights_getAll (j : Nat) (x : Obj K α) (ps : List (List Nat)) (xs : List (Obj K α)) (h : ps.map x.get? = xs.map some) :
    mapE (weight j) xs = match getAll x (ps.map (· ++ [j])) with
      | some ys => .ok ys
      | Option.none => .error .attributeError := by
  induction ps generalizing xs with
  | nil =>
    cases xs with
    | nil => rfl
    | cons => simp at h
  | cons p ps ih =>
    cases xs with
    | nil => simp at h
    | cons y ys =>
      simp only [List.map_cons, List.cons.injEq] at h
      simp only [mapE, List.map_cons, getAll, get?_append, h.1, Option.bind_some, weight_eq, ih ys h.2, bind, Except.bind,
        pure, Except.pure]
      cases y.get? [j] with
      | none => rfl
      | some c =>
        simp only [Option.bind_some]
        cases getAll x (ps.map (· ++ [j])) <;> rfl

/-- `get_weights` is a selection of positions. -/
theorem whereWeights_eq (list : K) (n : Nat) (kind : K → Bool) (j : Nat) (x : Obj K α) :
    whereWeights list n kind j x = selectMany list n ((kinds (fun k => kind k.2) x).map (· ++ [j])) x := by
  rw [whereWeights, getWeights, weights_getAll j x _ _ (get_kinds _ x), selectMany]
  cases getAll x ((kinds (fun k => kind k.2) x).map (· ++ [j])) <;> rfl

theorem kindsL_congr {kind : K → Bool} {kind' : K' → Bool} (cs : List (PT K β)) (ds : List (PT K' γ))
    (hl : cs.length = ds.length)
    (h : ∀ (m : Nat) c d, cs[m]? = some c → ds[m]? = some d → kinds kind c = kinds kind' d) (i : Nat) :
    kindsL kind i cs = kindsL kind' i ds := by
  induction cs generalizing ds i with
  | nil =>
    cases ds with
    | nil => rfl
    | cons => simp at hl
  | cons c cs ih =>
    cases ds with
    | nil => simp at hl
    | cons d ds =>
      rw [kindsL, kindsL, h 0 c d rfl rfl, ih ds (by simpa using hl) (fun m a b ha hb => h (m + 1) a b (by simpa using ha) (by simpa using hb))]

theorem kinds_retag (f : K → K') (kind : K' → Bool) (t : PT K β) :
    kinds kind (retag f t) = kinds (fun k => kind (f k)) t := by
  induction t using PT.ind with
  | leaf a => simp [retag, kinds]
  | none => simp [retag, kinds]
  | node k cs ih =>
    simp only [retag, retagL_eq, kinds]
    congr 1
    refine (kindsL_congr cs _ (by simp) ?_ 0).symm
    intro m c d hc hd
    rw [List.getElem?_map, hc] at hd
    simp only [Option.map_some, Option.some.injEq] at hd
    rw [← hd, ih c (List.mem_of_getElem? hc)]

theorem kinds_map (f : β → γ) (kind : K → Bool) (t : PT K β) : kinds kind (t.map f) = kinds kind t := by
  induction t using PT.ind with
  | leaf a => simp [PT.map, kinds]
  | none => simp [PT.map, kinds]
  | node k cs ih =>
    simp only [PT.map, mapL_eq, kinds]
    congr 1
    refine (kindsL_congr cs _ (by simp) ?_ 0).symm
    intro m c d hc hd
    rw [List.getElem?_map, hc] at hd
    simp only [Option.map_some, Option.some.injEq] at hd
    rw [← hd, ih c (List.mem_of_getElem? hc)]

variable [DecidableEq K]

theorem kinds_distinct {env : Env K α} {kind : K → Bool} (ht : kind env.tuple = false) (t : PT K (Val α)) (π : List Nat) :
    kinds kind (distinct env π t) = kinds kind t := by
  induction t using PT.ind generalizing π with
  | leaf a =>
    obtain ⟨n, v⟩ := a
    simp only [distinct]
    split <;> simp [kinds]
  | none => simp [distinct, kinds]
  | node k cs ih =>
    simp only [distinct]
    split
    · rename_i h
      obtain ⟨rfl, h⟩ := h
      have : cs = [] := by simpa using h
      subst this
      simp [kinds, ht, kindsL]
    · simp only [kinds]
      congr 1
      refine (kindsL_congr cs _ (by simp [length_distinctL]) ?_ 0).symm
      intro m c d hc hd
      rw [distinctL_eq, hc] at hd
      simp only [Option.map_some, Option.some.injEq] at hd
      rw [← hd, ih c (List.mem_of_getElem? hc)]

theorem kinds_seen1 {env : Env K α} {kind : K → Bool} (ht : kind env.tuple = false) (t : PT K (Val α)) :
    kinds (fun k => kind k.2) (plain (seen1 env t)) = kinds kind t := by
  rw [plain, kinds_map, ← kinds_retag Prod.snd kind, seen1,
    retag_label (newId env.tuple 1) _ (fun r => r) (fun _ _ => rfl), map_id', kinds_distinct ht]

theorem kinds_seen2 {env : Env K α} {kind : K → Bool} (ht : kind env.tuple = false) (t : PT K (Val α)) :
    kinds (fun k => kind k.2) (seen2 env noLeaf t) = kinds kind t := by
  rw [← kinds_retag Prod.snd kind, ← kinds_map (fun _ => ()) kind]
  have h1 : (retag Prod.snd (seen2 env noLeaf t)).map (fun _ => ()) = (cutTree env noLeaf t).shape := by
    have := shape_label (newId env.tuple 2) (fun π c => TreeAt.Leaf.wrap (.made 2 π) c) [] (cutTree env noLeaf t)
    rw [← shape_retag] at this
    exact this
  rw [h1]
  have h0 : cutTree env noLeaf t = (retag Prod.snd (seen1 env t)).map PT.leaf := by
    have : (seen1 env t).cut (fun x => noLeaf (plain x)) = (seen1 env t).map PT.leaf := cut_noLeaf _
    rw [cutTree, this, map_retag]
  rw [shape, kinds_map, h0, kinds_map, seen1, retag_label (newId env.tuple 1) _ (fun r => r) (fun _ _ => rfl), map_id',
    kinds_distinct ht]

/-- The positions of the weights. -/
def spots (kind : K → Bool) (j : Nat) (t : PT K β) : List (List Nat) := (kinds kind t).map (· ++ [j])

theorem treeAt_weights {env : Env K α} {list : K} {n : Nat} {kind : K → Bool} {j : Nat} (ht : kind env.tuple = false)
    (t : PT K (Val α)) (repl : Repl K α) :
    treeAt env (whereWeights list n kind j) noLeaf t repl = treeAt env (selectMany list n (spots kind j t)) noLeaf t repl := by
  have h1 : whereWeights list n kind j (plain (seen1 env t)) = selectMany list n (spots kind j t) (plain (seen1 env t)) := by
    rw [whereWeights_eq, kinds_seen1 ht]; rfl
  have h2 : whereWeights list n kind j (seen2 env noLeaf t) = selectMany list n (spots kind j t) (seen2 env noLeaf t) := by
    rw [whereWeights_eq, kinds_seen2 ht]; rfl
  simp only [treeAt, h1, h2]

omit [DecidableEq K] in
theorem spots_nodup (kind : K → Bool) (j : Nat) (t : PT K β) : (spots kind j t).Nodup := by
  rw [spots, List.Nodup, List.pairwise_map]
  refine List.Pairwise.imp ?_ (sorted_kinds kind t)
  intro a b hab he
  have := List.append_cancel_right he
  subst this
  exact absurd hab (List.lt_irrefl _)

omit [DecidableEq K] in
theorem spots_apart (kind : K → Bool) (j : Nat) (t : PT K β) :
    ∀ p ∈ spots kind j t, ∀ p' ∈ spots kind j t, p <+: p' → p = p' := by
  intro p hp p' hp' h
  obtain ⟨q, hq, rfl⟩ := List.mem_map.1 hp
  obtain ⟨q', hq', rfl⟩ := List.mem_map.1 hp'
  rw [mem_kinds] at hq hq'
  have hpre : q <+: q' := by
    have h1 : q <+: q' ++ [j] := (List.prefix_append q [j]).trans h
    have hlen := h.length_le
    simp only [List.length_append, List.length_cons, List.length_nil] at hlen
    exact List.prefix_of_prefix_length_le h1 (List.prefix_append q' [j]) (by omega)
  obtain ⟨σ, rfl⟩ := hpre
  cases σ with
  | nil => simp
  | cons a σ =>
    obtain ⟨⟨k, cs, h1, h2⟩, _⟩ := hq
    have := hq'.2 q (a :: σ) k cs rfl (by simp) h1
    rw [h2] at this
    cases this

theorem spots_reachable {env : Env K α} {kind : K → Bool} {j : Nat} {t : PT K (Val α)}
    (hw : ∀ p, Outermost kind t p → ∃ w, t.get? (p ++ [j]) = some w ∧ w ≠ .none) :
    ReachableAll env noLeaf t (spots kind j t) := by
  refine ⟨?_, spots_apart kind j t⟩
  intro p hp
  obtain ⟨q, hq, rfl⟩ := List.mem_map.1 hp
  obtain ⟨w, h1, h2⟩ := hw q ((mem_kinds _ _ _).1 hq)
  exact reachable_of_get h1 h2

omit [DecidableEq K] in
theorem getWeights_ok {kind : K → Bool} {j : Nat} {t : PT K β} {ws : List (PT K β)} :
    getWeights kind j t = .ok ws ↔ ws.length = (kinds kind t).length ∧
      ∀ (i : Nat) p, (kinds kind t)[i]? = some p → ∃ w, ws[i]? = some w ∧ t.get? (p ++ [j]) = some w := by
  have h := get_kinds kind t
  rw [getWeights, mapE_ok]
  generalize (t.treeLeaves (isKind kind)).filter (isKind kind) = xs at h
  have hl : (kinds kind t).length = xs.length := by simpa using congrArg List.length h
  have hi : ∀ (i : Nat) p, (kinds kind t)[i]? = some p → ∃ x, xs[i]? = some x ∧ t.get? p = some x := by
    intro i p hp
    have := congrArg (·[i]?) h
    simp only [List.getElem?_map, hp, Option.map_some] at this
    cases hx : xs[i]? with
    | none => simp [hx] at this
    | some x => exact ⟨x, rfl, by simpa [hx] using this⟩
  have key : ∀ (x w : PT K β) p, t.get? p = some x → (weight j x = .ok w ↔ t.get? (p ++ [j]) = some w) := by
    intro x w p hp
    rw [weight_eq, get?_append, hp, Option.bind_some]
    cases x.get? [j] <;> simp
  rw [hl]
  constructor
  · rintro ⟨h1, h2⟩
    refine ⟨h1, ?_⟩
    intro i p hp
    obtain ⟨x, hx, hx'⟩ := hi i p hp
    obtain ⟨w, hw, hw'⟩ := h2 i x hx
    exact ⟨w, hw, (key x w p hx').1 hw'⟩
  · rintro ⟨h1, h2⟩
    refine ⟨h1, ?_⟩
    intro i x hx
    have hlt : i < (kinds kind t).length := by
      rw [hl]; exact (List.getElem?_eq_some_iff.1 hx).1
    obtain ⟨x', hx', hg⟩ := hi i _ (List.getElem?_eq_getElem hlt)
    rw [hx] at hx'; cases hx'
    obtain ⟨w, hw, hw'⟩ := h2 i _ (List.getElem?_eq_getElem hlt)
    exact ⟨w, hw, (key x w _ hg).2 hw'⟩

/-- **C112**, custom initialisation: if a model is returned, then the weight of each outermost linear layer is what `init_fn` makes
of the old weight and of a key of its own (the `i`-th key for the `i`-th layer from left to right), and nothing else has changed. -/
theorem init_linear_weight {env : Env K α} {list : K} {n : Nat} {kind : K → Bool} {j : Nat}
    {initFn : PT K (Val α) → Key → Except Err (PT K (Val α))} {split : Nat → List Key} {model out : PT K (Val α)}
    (hodd : NoOddTuples env model) (ht : kind env.tuple = false)
    (hlist : ∀ ys, env.nodes (.node (.given n, list) ys) = .ok ys) (hitems : ∀ ys, env.items (.node list ys) = .ok ys)
    (hsplit : ∀ m, (split m).length = m)
    (h : initLinearWeight env list n kind j initFn split model = .ok out) :
    ∃ ps : List (List Nat), (∀ π, π ∈ ps ↔ Outermost kind model π) ∧ ps.Pairwise (· < ·) ∧
      (∀ (i : Nat) p, ps[i]? = some p → ∃ w key z, model.get? (p ++ [j]) = some w ∧ (split ps.length)[i]? = some key ∧
        initFn w key = .ok z ∧ out.get? (p ++ [j]) = some z) ∧
      ∀ π, (∀ p ∈ ps, ¬ p ++ [j] <+: π) → out.headAt? π = model.headAt? π := by
  simp only [initLinearWeight, bind, Except.bind] at h
  cases h1 : getWeights kind j model with
  | error e => simp [h1] at h
  | ok ws =>
    simp only [h1] at h
    cases h2 : mapE (fun p => initFn p.1 p.2) (ws.zip (split ws.length)) with
    | error e => simp [h2] at h
    | ok new =>
      simp only [h2] at h
      rw [treeAt_weights ht] at h
      obtain ⟨g1, g2⟩ := tree_at_many_put_get hodd (spots_nodup kind j model) (spots_apart kind j model) hlist (hitems new) h
      obtain ⟨e1, e2⟩ := getWeights_ok.1 h1
      obtain ⟨e3, e4⟩ := mapE_ok.1 h2
      refine ⟨kinds kind model, mem_kinds kind model, sorted_kinds kind model, ?_, ?_⟩
      · intro i p hp
        obtain ⟨w, hw, hw'⟩ := e2 i p hp
        have hi : i < ws.length := (List.getElem?_eq_some_iff.1 hw).1
        have hk : (split ws.length)[i]? = some ((split ws.length)[i]'(by rw [hsplit]; exact hi)) := List.getElem?_eq_getElem _
        obtain ⟨z, hz, hz'⟩ := e4 i (w, _) (by rw [List.getElem?_zip_eq_some]; exact ⟨hw, hk⟩)
        obtain ⟨z', hz1, hz2⟩ := g1 i (p ++ [j]) (by rw [spots, List.getElem?_map, hp]; rfl)
        rw [hz] at hz1; cases hz1
        exact ⟨w, _, z, hw', by rw [← e1]; exact hk, hz', hz2⟩
      · intro π hπ
        apply g2
        intro p hp
        obtain ⟨q, hq, rfl⟩ := List.mem_map.1 hp
        exact hπ q hq

/-- **C112**: it does return a model if every linear layer has a weight and `init_fn` returns. -/
theorem init_linear_weight_succeeds {env : Env K α} {list : K} {n : Nat} {kind : K → Bool} {j : Nat}
    {initFn : PT K (Val α) → Key → Except Err (PT K (Val α))} {split : Nat → List Key} {model : PT K (Val α)}
    (ht : kind env.tuple = false)
    (hlist : ∀ ys, env.nodes (.node (.given n, list) ys) = .ok ys) (hitems : ∀ ys, env.items (.node list ys) = .ok ys)
    (hsplit : ∀ m, (split m).length = m)
    (hw : ∀ p, Outermost kind model p → ∃ w, model.get? (p ++ [j]) = some w ∧ w ≠ .none ∧ ∀ key, ∃ z, initFn w key = .ok z) :
    ∃ out, initLinearWeight env list n kind j initFn split model = .ok out := by
  have hws : ∃ ws, getWeights kind j model = .ok ws := by
    have : ∀ qs : List (List Nat), (∀ q ∈ qs, q ∈ kinds kind model) → ∃ ws : List (PT K (Val α)), ws.length = qs.length ∧
        ∀ (i : Nat) p, qs[i]? = some p → ∃ w, ws[i]? = some w ∧ model.get? (p ++ [j]) = some w := by
      intro qs
      induction qs with
      | nil => intro _; exact ⟨[], rfl, by simp⟩
      | cons q qs ih =>
        intro hq
        obtain ⟨ws, h1, h2⟩ := ih (fun a ha => hq a (List.mem_cons_of_mem _ ha))
        obtain ⟨w, h3, _⟩ := hw q ((mem_kinds _ _ _).1 (hq q (by simp)))
        refine ⟨w :: ws, by simp [h1], ?_⟩
        intro i p hp
        cases i with
        | zero => simp only [List.getElem?_cons_zero, Option.some.injEq] at hp; subst hp; exact ⟨w, rfl, h3⟩
        | succ i => simpa using h2 i p (by simpa using hp)
    obtain ⟨ws, h1, h2⟩ := this _ (fun _ h => h)
    exact ⟨ws, getWeights_ok.2 ⟨h1, h2⟩⟩
  obtain ⟨ws, hws⟩ := hws
  obtain ⟨e1, e2⟩ := getWeights_ok.1 hws
  have hnew : ∃ new, mapE (fun p => initFn p.1 p.2) (ws.zip (split ws.length)) = .ok new := by
    cases hm : mapE (fun p => initFn p.1 p.2) (ws.zip (split ws.length)) with
    | ok new => exact ⟨new, rfl⟩
    | error e =>
      obtain ⟨x, hx, hf⟩ := mapE_error hm
      obtain ⟨i, hi⟩ := List.getElem?_of_mem hx
      obtain ⟨hi1, _⟩ := List.getElem?_zip_eq_some.1 hi
      have hlt : i < (kinds kind model).length := by rw [← e1]; exact (List.getElem?_eq_some_iff.1 hi1).1
      obtain ⟨w, g1, g2⟩ := e2 i _ (List.getElem?_eq_getElem hlt)
      rw [hi1] at g1; cases g1
      obtain ⟨w', g3, _, g4⟩ := hw _ ((mem_kinds _ _ _).1 (List.getElem_mem hlt))
      rw [g2] at g3; cases g3
      obtain ⟨z, hz⟩ := g4 x.2
      rw [hf] at hz; cases hz
  obtain ⟨new, hnew⟩ := hnew
  have hlen : new.length = (spots kind j model).length := by
    rw [length_mapE hnew, List.length_zip, hsplit, spots, List.length_map, e1, Nat.min_self]
  obtain ⟨out, ho⟩ := tree_at_many_succeeds (r := .node list new) (spots_reachable (env := env) (j := j) (t := model) fun p hp => by
      obtain ⟨w, g1, g2, _⟩ := hw p hp
      exact ⟨w, g1, g2⟩) hlist (fun _ => rfl) (hitems new) hlen
  refine ⟨out, ?_⟩
  simp only [initLinearWeight, bind, Except.bind, hws, hnew]
  rw [treeAt_weights ht]
  exact ho

omit [DecidableEq K] in
theorem exists_list {δ : Type} {P : Nat → List Nat → δ → Prop} (qs : List (List Nat))
    (h : ∀ (i : Nat) q, qs[i]? = some q → ∃ z, P i q z) :
    ∃ zs : List δ, zs.length = qs.length ∧ ∀ (i : Nat) q, qs[i]? = some q → ∃ z, zs[i]? = some z ∧ P i q z := by
  induction qs generalizing P with
  | nil => exact ⟨[], rfl, by simp⟩
  | cons q qs ih =>
    obtain ⟨z, hz⟩ := h 0 q rfl
    obtain ⟨zs, h1, h2⟩ := ih (P := fun i => P (i + 1)) (fun i q' hq => h (i + 1) q' (by simpa using hq))
    refine ⟨z :: zs, by simp [h1], ?_⟩
    intro i q' hq
    cases i with
    | zero => simp only [List.getElem?_cons_zero, Option.some.injEq] at hq; subst hq; exact ⟨z, rfl, hz⟩
    | succ i => simpa using h2 i q' (by simpa using hq)

omit [DecidableEq K] in
theorem head_eq_node {t u : PT K β} {π : List Nat} (h : t.headAt? π = u.headAt? π) {k cs} (hk : t.get? π = some (.node k cs)) :
    ∃ ds, u.get? π = some (.node k ds) := by
  simp only [headAt?, hk, Option.map_some, head] at h
  cases hu : u.get? π with
  | none => simp [hu] at h
  | some y =>
    cases y with
    | leaf a => simp [hu, head] at h
    | none => simp [hu, head] at h
    | node l ds =>
      simp only [hu, Option.map_some, head, Option.some.injEq, Head.node.injEq] at h
      obtain ⟨rfl, _⟩ := h
      exact ⟨ds, rfl⟩

/-- **C112**, parameters with a behaviour of their own: wrapping the weight of every outermost linear layer and resolving the
wrappers later succeeds; in between, each weight is wrapped, with the old one inside; in the end each weight is what `get` makes of
the old one; and nothing else changes. -/
theorem resolve_symmetric {env : Env K α} {list : K} {n : Nat} {kind : K → Bool} {j : Nat} {sym : K}
    {get : PT K (Val α) → Except Err (PT K (Val α))} {model : PT K (Val α)}
    (hodd : NoOddTuples env model) (ht : kind env.tuple = false)
    (hlist : ∀ ys, env.nodes (.node (.given n, list) ys) = .ok ys) (hitems : ∀ ys, env.items (.node list ys) = .ok ys)
    (hsym : ∀ π cs, model.get? π ≠ some (.node sym cs))
    (hw : ∀ p, Outermost kind model p → ∃ w z, model.get? (p ++ [j]) = some w ∧ w ≠ .none ∧ get w = .ok z) :
    ∃ s r, symmetricModel env list n kind j sym model = .ok s ∧ resolveSymmetric sym get s = .ok r ∧
      (∀ p, Outermost kind model p → ∃ w z, model.get? (p ++ [j]) = some w ∧ s.get? (p ++ [j]) = some (.node sym [w]) ∧
        get w = .ok z ∧ r.get? (p ++ [j]) = some z) ∧
      ∀ π, (∀ p, Outermost kind model p → ¬ p ++ [j] <+: π) →
        s.headAt? π = model.headAt? π ∧ r.headAt? π = model.headAt? π := by
  have hreach : ReachableAll env noLeaf model (spots kind j model) := spots_reachable fun p hp => by
    obtain ⟨w, z, h1, h2, _⟩ := hw p hp
    exact ⟨w, h1, h2⟩
  obtain ⟨s, hs⟩ := Shared.tree_at_many_fn_succeeds (f := fun x => .ok (.node sym [x])) (n := n) (k := list) hodd hreach hlist
    (fun _ => rfl) (fun _ => ⟨_, rfl⟩)
  obtain ⟨hs1, hs2⟩ := tree_at_many_replace_fn hodd (spots_nodup kind j model) (spots_apart kind j model) hlist hs
  have hmem : ∀ p, Outermost kind model p → p ++ [j] ∈ spots kind j model := fun p hp =>
    List.mem_map.2 ⟨p, (mem_kinds _ _ _).2 hp, rfl⟩
  have hput : ∀ p, Outermost kind model p → ∃ w z, model.get? (p ++ [j]) = some w ∧ s.get? (p ++ [j]) = some (.node sym [w]) ∧
      get w = .ok z := by
    intro p hp
    obtain ⟨w, z, h1, h2, h3⟩ := hw p hp
    obtain ⟨x, y, g1, g2, g3⟩ := hs1 _ (hmem p hp)
    cases g2
    rw [h1] at g1; cases g1
    exact ⟨_, z, h1, by rw [g3]; rfl, h3⟩
  have hframe : ∀ π, (∀ p, Outermost kind model p → ¬ p ++ [j] <+: π) → s.headAt? π = model.headAt? π := by
    intro π hπ
    apply hs2
    intro q hq
    obtain ⟨p, hp, rfl⟩ := List.mem_map.1 hq
    exact hπ p ((mem_kinds _ _ _).1 hp)
  -- the final model, put together directly
  obtain ⟨zs, hz1, hz2⟩ := exists_list (P := fun _ q z => ∃ w, model.get? q = some w ∧ get w = .ok z) (spots kind j model) (by
    intro i q hq
    obtain ⟨p, hp, rfl⟩ := List.mem_map.1 (List.mem_of_getElem? hq)
    obtain ⟨w, z, h1, _, h3⟩ := hw p ((mem_kinds _ _ _).1 hp)
    exact ⟨z, w, h1, h3⟩)
  obtain ⟨r, hr⟩ := tree_at_many_succeeds (r := .node list zs) (n := n) hreach hlist (fun _ => rfl) (hitems zs) hz1
  obtain ⟨hr1, hr2⟩ := tree_at_many_put_get hodd (spots_nodup kind j model) (spots_apart kind j model) hlist (hitems zs) hr
  have hput' : ∀ p, Outermost kind model p → ∃ w z, model.get? (p ++ [j]) = some w ∧ get w = .ok z ∧ r.get? (p ++ [j]) = some z := by
    intro p hp
    obtain ⟨i, hi⟩ := List.getElem?_of_mem (hmem p hp)
    obtain ⟨z, h1, w, h2, h3⟩ := hz2 i _ hi
    obtain ⟨z', h4, h5⟩ := hr1 i _ hi
    rw [h1] at h4; cases h4
    exact ⟨w, z, h2, h3, h5⟩
  have hframe' : ∀ π, (∀ p, Outermost kind model p → ¬ p ++ [j] <+: π) → r.headAt? π = model.headAt? π := by
    intro π hπ
    apply hr2
    intro q hq
    obtain ⟨p, hp, rfl⟩ := List.mem_map.1 hq
    exact hπ p ((mem_kinds _ _ _).1 hp)
  -- what is cut off when resolving
  have hcut : ∀ π x, IsCutLeaf (isKind fun k => decide (k = sym)) s π x →
      (∃ p, Outermost kind model p ∧ π = p ++ [j]) ∨ ((∀ p, Outermost kind model p → ¬ p ++ [j] <+: π) ∧ ∃ a, x = .leaf a) := by
    rintro π x ⟨hx, hk, habove⟩
    by_cases hin : ∃ p, Outermost kind model p ∧ p ++ [j] <+: π
    · obtain ⟨p, hp, σ, rfl⟩ := hin
      left
      refine ⟨p, hp, ?_⟩
      cases σ with
      | nil => simp
      | cons a σ =>
        obtain ⟨w, z, _, g2, _⟩ := hput p hp
        have := habove (p ++ [j]) (a :: σ) _ rfl (by simp) g2
        simp [isKind] at this
    · right
      have hno : ∀ p, Outermost kind model p → ¬ p ++ [j] <+: π := fun p hp hpre => hin ⟨p, hp, hpre⟩
      refine ⟨hno, ?_⟩
      rcases hk with h | h
      · exact h
      · cases x with
        | leaf a => exact ⟨a, rfl⟩
        | none => simp [isKind] at h
        | node k cs =>
          simp only [isKind, decide_eq_true_eq] at h
          subst h
          obtain ⟨ds, hds⟩ := head_eq_node (hframe π hno) hx
          exact absurd hds (hsym π ds)
  have hmaps : Maps1 (isKind fun k => decide (k = sym)) (maybeSymmetric sym get) s r := by
    constructor
    · intro π x hx
      rcases hcut π x hx with ⟨p, hp, rfl⟩ | ⟨hno, a, rfl⟩
      · obtain ⟨w, z, g1, g2, g3⟩ := hput' p hp
        obtain ⟨w', z', e1, e2, e3⟩ := hput p hp
        rw [g1] at e1; cases e1
        have hxs := hx.1
        rw [e2] at hxs; cases hxs
        exact ⟨z, by simp [maybeSymmetric, isKind, weight, bind, Except.bind, g2], g3⟩
      · refine ⟨.leaf a, by simp [maybeSymmetric, isKind], ?_⟩
        have h1 := (hframe' π hno).trans (hframe π hno).symm
        simp only [headAt?, hx.1, Option.map_some, head] at h1
        cases hy : r.get? π with
        | none => simp [hy] at h1
        | some y => cases y <;> simp [hy, head] at h1 ⊢; exact h1
    · rintro π ⟨⟨x, hx, hl⟩, habove⟩
      have hno : ∀ p, Outermost kind model p → ¬ p ++ [j] <+: π := by
        rintro p hp ⟨σ, rfl⟩
        obtain ⟨w, z, _, g2, _⟩ := hput p hp
        have := habove (p ++ [j]) σ _ rfl g2
        simp [isKind] at this
      have h1 := (hframe' π hno).trans (hframe π hno).symm
      cases x with
      | leaf a => exact absurd rfl (hl a)
      | none => exact .inl ⟨by simp [headAt?, hx, head], by rw [h1]; simp [headAt?, hx, head]⟩
      | node k cs => exact .inr ⟨k, cs.length, by simp [headAt?, hx, head], by rw [h1]; simp [headAt?, hx, head]⟩
  have hres : resolveSymmetric sym get s = .ok r := by
    cases hm : resolveSymmetric sym get s with
    | ok r' => rw [maps1_unique (treeMap1_maps hm) hmaps]
    | error e =>
      obtain ⟨π, x, hx, hf⟩ := treeMap1_error hm
      obtain ⟨z, hz, _⟩ := hmaps.1 π x hx
      rw [hf] at hz; cases hz
  refine ⟨s, r, ?_, hres, ?_, fun π hπ => ⟨hframe π hπ, hframe' π hπ⟩⟩
  · rw [symmetricModel, treeAt_weights ht, hs]
  · intro p hp
    obtain ⟨w, z, g1, g2, g3⟩ := hput p hp
    obtain ⟨w', z', e1, e2, e3⟩ := hput' p hp
    rw [g1] at e1; cases e1
    rw [g3] at e2; cases e2
    exact ⟨w, z, g1, g2, g3, e3⟩

/-- **C112**, the filter specification of the example on freezing: it has the structure of the model, `True` at the selected leaves and
`False` at the others. -/
theorem freeze_spec {env : Env K Bool} {n i i' : Nat} {ps : List (List Nat)} {model : PT K α}
    (hb : ∀ b, env.emptyTuple b = false) (hps : ps.Nodup) (hleaf : ∀ p ∈ ps, ∃ a, model.leafAt? p = some a)
    (htuple : ∀ ys, env.nodes (.node (.given n, env.tuple) ys) = .ok ys) (hitems : ∀ ys, env.items (.node env.tuple ys) = .ok ys) :
    ∃ spec, freezeSpec env n i i' ps model = .ok spec ∧ SameStructure (spec.map Prod.snd) model ∧
      ∀ π a, model.leafAt? π = some a → (spec.map Prod.snd).leafAt? π = some (decide (π ∈ ps)) := by
  have hodd : NoOddTuples env (model.map fun _ => (i, false)) := fun _ v _ => hb v.2
  have hl : ∀ p ∈ ps, (model.map fun _ => (i, false)).get? p = some (.leaf (i, false)) := by
    intro p hp
    obtain ⟨a, ha⟩ := hleaf p hp
    rw [← leafAt?_eq_some, leafAt?_map, ha]; rfl
  have hapart : ∀ p ∈ ps, ∀ p' ∈ ps, p <+: p' → p = p' := by
    rintro p hp p' hp' ⟨σ, rfl⟩
    have h1 := hl _ hp'
    rw [get?_append, hl p hp] at h1
    cases σ with
    | nil => simp
    | cons => simp [get?] at h1
  have hreach : ReachableAll env noLeaf (model.map fun _ => (i, false)) ps :=
    ⟨fun p hp => reachable_of_get (hl p hp) (by simp), hapart⟩
  obtain ⟨spec, h⟩ := tree_at_many_succeeds (r := .node env.tuple (ps.map fun _ => .leaf (i', true))) (n := n) hreach htuple
    (fun _ => rfl) (hitems _) (by simp)
  obtain ⟨h1, h2⟩ := tree_at_many_put_get hodd hps hapart htuple (hitems _) h
  have hin : ∀ p ∈ ps, spec.get? p = some (.leaf (i', true)) := by
    intro p hp
    obtain ⟨k, hk⟩ := List.getElem?_of_mem hp
    obtain ⟨z, g1, g2⟩ := h1 k p hk
    rw [List.getElem?_map, hk] at g1
    cases g1
    exact g2
  have hout : ∀ π, (∀ p ∈ ps, ¬ p <+: π) → spec.headAt? π = (model.map fun _ => (i, false)).headAt? π := h2
  refine ⟨spec, h, ?_, ?_⟩
  · intro π
    by_cases hin' : ∃ p ∈ ps, p <+: π
    · obtain ⟨p, hp, σ, rfl⟩ := hin'
      obtain ⟨a, ha⟩ := hleaf p hp
      have ha' := leafAt?_eq_some.1 ha
      have hs' : (spec.map Prod.snd).get? p = some (.leaf true) := by
        rw [← leafAt?_eq_some, leafAt?_map, leafAt?_eq_some.2 (hin p hp)]; rfl
      cases σ with
      | nil => simp [headAt?, hs', ha', head]
      | cons b σ => simp [headAt?, get?_append, hs', ha', get?]
    · have := hout π (fun p hp hpre => hin' ⟨p, hp, hpre⟩)
      rw [headAt?_map, this, headAt?_map]
      cases model.headAt? π with
      | none => simp
      | some x => cases x <;> simp
  · intro π a ha
    by_cases hπ : π ∈ ps
    · rw [leafAt?_map, leafAt?_eq_some.2 (hin π hπ)]
      simp [hπ]
    · have hno : ∀ p ∈ ps, ¬ p <+: π := by
        rintro p hp ⟨σ, rfl⟩
        obtain ⟨b, hb'⟩ := hleaf p hp
        rw [leafAt?_eq_some] at ha hb'
        rw [get?_append, hb'] at ha
        cases σ with
        | nil => simp at hπ; exact hπ hp
        | cons => simp [get?] at ha
      have h3 := hout π hno
      rw [headAt?_map, headAt?, headAt?, leafAt?_eq_some.1 ha] at h3
      rw [leafAt?_map]
      cases hy : spec.get? π with
      | none => simp [hy] at h3
      | some y =>
        cases y with
        | none => simp [hy, head] at h3
        | node k cs => simp [hy, head] at h3
        | leaf v =>
          simp [hy, head] at h3
          rw [leafAt?_eq_some.2 hy, h3]
          simp [hπ]

/-- **C112**: so training changes nothing but the selected leaves. -/
theorem freeze_trained {S : Type} {env : Env K Bool} {n i i' : Nat} {ps : List (List Nat)} {model : PT K α}
    (hb : ∀ b, env.emptyTuple b = false) (hps : ps.Nodup) (hleaf : ∀ p ∈ ps, ∃ a, model.leafAt? p = some a)
    (htuple : ∀ ys, env.nodes (.node (.given n, env.tuple) ys) = .ok ys) (hitems : ∀ ys, env.items (.node env.tuple ys) = .ok ys)
    {J : AD.Jax K α} {add : PT K α → PT K α → Except Err (PT K α)} {optim : AD.Training.Optim K α S} (ho : optim.Structural)
    (ha : AD.Training.AddsInexact J add) {f : AD.PyFn K α} {batches : List (List (PT K α))} {model' : PT K α} {state state' : S}
    {spec : PT K (Val Bool)} (h : freezeSpec env n i i' ps model = .ok spec)
    (h' : AD.Training.train J add optim (spec.map Prod.snd) f batches model state = .ok (model', state')) :
    SameStructure model' model ∧ ∀ π a, model.leafAt? π = some a → π ∉ ps → model'.leafAt? π = some a := by
  obtain ⟨spec', h1, h2, h3⟩ := freeze_spec (i := i) (i' := i') hb hps hleaf htuple hitems
  rw [h] at h1; cases h1
  obtain ⟨g1, g2, _⟩ := AD.Training.trained h2 ho ha h'
  refine ⟨g1, ?_⟩
  intro π a hπ hn
  exact g2 π a ⟨hπ, .inl (by rw [h3 π a hπ]; simp [hn])⟩

/-! ## Concrete cases -/

/-- Tags are names of types. -/
def exEnv : Env String Nat where
  tuple := "tuple"
  emptyTuple := fun _ => false
  nodes := fun x => match x with | .node _ ys => .ok ys | _ => .error .typeError
  items := fun x => match x with | .node _ ys => .ok ys | _ => .error .typeError

/-- Two linear layers which share their weight, and an activation function. -/
def exModel : PT String (Val Nat) :=
  .node "MLP" [.node "tuple" [.node "Linear" [.leaf (1, 10), .leaf (2, 20)], .node "Linear" [.leaf (1, 10), .none]], .leaf (3, 30)]

def exKind (k : String) : Bool := k == "Linear"

def exInit : PT String (Val Nat) → Nat → Except Err (PT String (Val Nat))
  | .leaf (_, v), key => .ok (.leaf (100 + key, v + key))
  | _, _ => .error .typeError

example : initLinearWeight exEnv "list" 50 exKind 0 exInit List.range exModel = .ok
    (.node "MLP" [.node "tuple" [.node "Linear" [.leaf (100, 10), .leaf (2, 20)], .node "Linear" [.leaf (101, 11), .none]],
      .leaf (3, 30)]) := by rfl

example : symmetricModel exEnv "list" 50 exKind 0 "Symmetric" exModel = .ok
    (.node "MLP" [.node "tuple" [.node "Linear" [.node "Symmetric" [.leaf (1, 10)], .leaf (2, 20)],
      .node "Linear" [.node "Symmetric" [.leaf (1, 10)], .none]], .leaf (3, 30)]) := by rfl

example : resolveSymmetric "Symmetric" (exInit · 5) (.node "MLP" [.node "tuple" [.node "Linear" [.node "Symmetric" [.leaf (1, 10)],
    .leaf (2, 20)], .node "Linear" [.node "Symmetric" [.leaf (1, 10)], .none]], .leaf (3, 30)]) = .ok
    (.node "MLP" [.node "tuple" [.node "Linear" [.leaf (105, 15), .leaf (2, 20)], .node "Linear" [.leaf (105, 15), .none]],
      .leaf (3, 30)]) := by rfl

/-- The hypotheses can be met. -/
example : NoOddTuples exEnv exModel ∧ exKind exEnv.tuple = false ∧ (∀ ys, exEnv.nodes (.node (.given 50, "list") ys) = .ok ys) ∧
    (∀ ys, exEnv.items (.node "list" ys) = .ok ys) ∧ (∀ m, (List.range m).length = m) ∧
    (∀ p, Outermost exKind exModel p → ∃ w, exModel.get? (p ++ [0]) = some w ∧ w ≠ .none ∧ ∀ key, ∃ z, exInit w key = .ok z) := by
  refine ⟨fun _ _ _ => rfl, rfl, fun _ => rfl, fun _ => rfl, fun m => by simp, ?_⟩
  intro p hp
  have : kinds exKind exModel = [[0, 0], [0, 1]] := by rfl
  rw [← mem_kinds, this] at hp
  simp only [List.mem_cons, List.not_mem_nil, or_false] at hp
  rcases hp with rfl | rfl <;> exact ⟨_, rfl, by simp, fun _ => ⟨_, rfl⟩⟩

def exEnvB : Env String Bool where
  tuple := "tuple"
  emptyTuple := fun _ => false
  nodes := fun x => match x with | .node _ ys => .ok ys | _ => .error .typeError
  items := fun x => match x with | .node _ ys => .ok ys | _ => .error .typeError

example : freezeSpec exEnvB 50 0 1 [[0, 0, 0], [0, 0, 1]] exModel = .ok
    (.node "MLP" [.node "tuple" [.node "Linear" [.leaf (1, true), .leaf (1, true)], .node "Linear" [.leaf (0, false), .none]],
      .leaf (0, false)]) := by rfl

end Recipes
end Verif
