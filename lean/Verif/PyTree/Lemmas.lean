import Verif.PyTree.Model

/-! # Helper lemmas about pytrees -/

namespace Verif
namespace PT

variable {K : Type} {α : Type} {β : Type} {γ : Type}

theorem mapL_eq (f : α → β) (cs : List (PT K α)) : mapL f cs = cs.map (map f) := by
  induction cs with
  | nil => simp [mapL]
  | cons c cs ih => simp [mapL, ih]

theorem cutL_eq (p : PT K α → Bool) (cs : List (PT K α)) : cutL p cs = cs.map (cut p) := by
  induction cs with
  | nil => simp [cutL]
  | cons c cs ih => simp [cutL, ih]

theorem joinL_eq (cs : List (PT K (PT K α))) : joinL cs = cs.map join := by
  induction cs with
  | nil => simp [joinL]
  | cons c cs ih => simp [joinL, ih]

theorem leavesL_eq (cs : List (PT K α)) : leavesL cs = cs.flatMap leaves := by
  induction cs with
  | nil => simp [leavesL]
  | cons c cs ih => simp [leavesL, ih]

theorem map_map (f : α → β) (g : β → γ) (t : PT K α) : (t.map f).map g = t.map (fun a => g (f a)) := by
  induction t using ind with
  | leaf a => simp [map]
  | none => simp [map]
  | node k cs ih =>
    simp only [map, mapL_eq, List.map_map, PT.node.injEq, true_and]
    exact List.map_congr_left fun c hc => ih c hc

theorem shape_map (f : α → β) (t : PT K α) : (t.map f).shape = t.shape := by
  simp [shape, map_map]

@[simp] theorem shape_leaf (a : α) : (PT.leaf a : PT K α).shape = .leaf () := rfl
@[simp] theorem shape_none : (PT.none : PT K α).shape = .none := rfl
@[simp] theorem shape_node (k : K) (cs : List (PT K α)) :
    (PT.node k cs).shape = .node k (cs.map shape) := by
  simp [shape, map, mapL_eq]

theorem join_cut (p : PT K α → Bool) (t : PT K α) : (t.cut p).join = t := by
  induction t using ind with
  | leaf a => simp [cut, join]
  | none => simp only [cut]; split <;> simp [join]
  | node k cs ih =>
    simp only [cut]; split
    · simp [join]
    · simp only [join, cutL_eq, joinL_eq, List.map_map, PT.node.injEq, true_and]
      conv => rhs; rw [← List.map_id cs]
      exact List.map_congr_left fun c hc => by simpa using ih c hc

theorem leaves_map (f : α → β) (t : PT K α) : (t.map f).leaves = t.leaves.map f := by
  induction t using ind with
  | leaf a => simp [map, leaves]
  | none => simp [map, leaves]
  | node k cs ih =>
    simp only [map, leaves, mapL_eq, leavesL_eq]
    induction cs with
    | nil => rfl
    | cons c cs ih2 =>
      simp only [List.map_cons, List.flatMap_cons, List.map_append]
      rw [ih c (by simp), ih2 (fun c hc => ih c (by simp [hc]))]

/-- Filling the shape of `c` with the leaves of `c` gives `c`. -/
theorem fill_shape (c : PT K β) (rest : List β) : fill c.shape (c.leaves ++ rest) = .ok (c, rest) := by
  induction c using ind generalizing rest with
  | leaf a => simp [leaves, fill]
  | none => simp [leaves, fill]
  | node k cs ih =>
    have : ∀ (cs : List (PT K β)) (rest), (∀ c ∈ cs, ∀ rest, fill c.shape (c.leaves ++ rest) = .ok (c, rest)) →
        fillL (cs.map shape) (leavesL cs ++ rest) = .ok (cs, rest) := by
      intro cs
      induction cs with
      | nil => intros; simp [fillL, leavesL]
      | cons c cs ih2 =>
        intro rest h
        simp only [List.map_cons, fillL, leavesL, List.append_assoc]
        rw [h c (by simp)]
        simp only [bind, Except.bind]
        rw [ih2 rest (fun c hc => h c (by simp [hc]))]
        rfl
    simp only [shape_node, fill, leaves]
    rw [this cs rest ih]; rfl

/-- A successful `fill` returns a tree of the right shape containing the consumed leaves. -/
theorem fill_ok {d : Def K} {xs : List β} {c : PT K β} {rest : List β}
    (h : fill d xs = .ok (c, rest)) : c.shape = d ∧ c.leaves ++ rest = xs := by
  induction d using ind generalizing xs c rest with
  | leaf a => cases a; cases xs <;> simp [fill] at h; obtain ⟨rfl, rfl⟩ := h; simp [leaves]
  | none => simp [fill] at h; obtain ⟨rfl, rfl⟩ := h; simp [leaves]
  | node k ds ih =>
    have : ∀ (ds : List (Def K)), (∀ d ∈ ds, ∀ (xs : List β) c rest, fill d xs = .ok (c, rest) →
          c.shape = d ∧ c.leaves ++ rest = xs) → ∀ (xs : List β) cs rest,
        fillL ds xs = .ok (cs, rest) → cs.map shape = ds ∧ leavesL cs ++ rest = xs := by
      intro ds
      induction ds with
      | nil => intro _ xs cs rest h; simp [fillL] at h; obtain ⟨rfl, rfl⟩ := h; simp [leavesL]
      | cons d ds ih2 =>
        intro H xs cs rest h
        simp only [fillL, bind, Except.bind] at h
        split at h
        · contradiction
        · rename_i v hv; obtain ⟨c, r⟩ := v
          simp only at h
          split at h
          · contradiction
          · rename_i v hv'; obtain ⟨cs', r'⟩ := v
            simp [pure, Except.pure] at h
            obtain ⟨rfl, rfl⟩ := h
            have h1 := H d (by simp) _ _ _ hv
            have h2 := ih2 (fun d hd => H d (by simp [hd])) _ _ _ hv'
            simp [leavesL, h1.1, h2.1, h2.2, h1.2]
    simp only [fill, bind, Except.bind] at h
    split at h
    · contradiction
    · rename_i v hv; obtain ⟨cs', r⟩ := v
      simp [pure, Except.pure] at h
      obtain ⟨rfl, rfl⟩ := h
      have := this ds (fun d hd xs c rest h => ih d hd h) _ _ _ hv
      simp [leaves, this.1, this.2]

/-- Shape and leaves determine a tree. -/
theorem eq_of_shape_leaves {c d : PT K β} (h : c.shape = d.shape) (h' : c.leaves = d.leaves) : c = d := by
  have h1 := fill_shape c []
  have h2 := fill_shape d []
  rw [h, h'] at h1; rw [h1] at h2; simpa using h2

theorem length_leaves_of_shape {c : PT K β} {d : PT K γ} (h : c.shape = d.shape) :
    c.leaves.length = d.leaves.length := by
  have := congrArg (fun t => (leaves t).length) h
  simpa [shape, leaves_map] using this

theorem treeUnflatten_shape (c : PT K (PT K α)) : treeUnflatten c.shape c.leaves = .ok c.join := by
  have := fill_shape c []
  simp only [List.append_nil] at this
  simp [treeUnflatten, this, bind, Except.bind, pure, Except.pure]

theorem treeUnflatten_ok {d : Def K} {xs : List (PT K α)} {t} (h : treeUnflatten d xs = .ok t) :
    ∃ c : PT K (PT K α), c.shape = d ∧ c.leaves = xs ∧ c.join = t := by
  simp only [treeUnflatten, bind, Except.bind] at h
  split at h
  · contradiction
  · rename_i v hv; obtain ⟨c, r⟩ := v
    simp only at h
    split at h
    · rename_i hr
      simp at hr; subst hr
      have := fill_ok hv
      simp [pure, Except.pure] at h
      exact ⟨c, this.1, by simpa using this.2, h⟩
    · contradiction

/-- Filling succeeds when the number of leaves is right. -/
theorem exists_fill {γ : Type} (d : PT K γ) (xs : List β) (h : xs.length = d.leaves.length) :
    ∃ c : PT K β, c.shape = d.shape ∧ c.leaves = xs := by
  have key : ∀ (d : PT K γ) (xs : List β), d.leaves.length ≤ xs.length →
      ∃ c : PT K β, c.shape = d.shape ∧ c.leaves = xs.take d.leaves.length := by
    intro d
    induction d using ind with
    | leaf a =>
      intro xs h; cases xs with
      | nil => simp [leaves] at h
      | cons x xs => exact ⟨.leaf x, by simp [leaves]⟩
    | none => intro xs _; exact ⟨.none, by simp [leaves]⟩
    | node k ds ih =>
      have : ∀ ds : List (PT K γ), (∀ d ∈ ds, ∀ xs : List β, d.leaves.length ≤ xs.length →
            ∃ c : PT K β, c.shape = d.shape ∧ c.leaves = xs.take d.leaves.length) →
          ∀ xs : List β, (leavesL ds).length ≤ xs.length →
            ∃ cs : List (PT K β), cs.map shape = ds.map shape ∧ leavesL cs = xs.take (leavesL ds).length := by
        intro ds
        induction ds with
        | nil => intro _ xs _; exact ⟨[], by simp [leavesL]⟩
        | cons d ds ih2 =>
          intro H xs hx
          simp only [leavesL, List.length_append] at hx
          obtain ⟨c, hc1, hc2⟩ := H d (by simp) xs (by omega)
          obtain ⟨cs, h1, h2⟩ := ih2 (fun d hd => H d (by simp [hd])) (xs.drop d.leaves.length)
            (by simp; omega)
          refine ⟨c :: cs, by simp [hc1, h1], ?_⟩
          simp [leavesL, hc2, h2, List.take_add]
      intro xs hx
      obtain ⟨cs, h1, h2⟩ := this ds ih xs hx
      exact ⟨.node k cs, by simp [h1], by simpa [leaves] using h2⟩
  obtain ⟨c, h1, h2⟩ := key d xs (by omega)
  exact ⟨c, h1, by rw [h2, ← h, List.take_length]⟩

theorem flattenUpTo_ok [DecidableEq K] {d : Def K} {t : PT K α} {xs : List (PT K α)} :
    flattenUpTo d t = .ok xs ↔ ∃ c : PT K (PT K α), c.shape = d ∧ c.leaves = xs ∧ c.join = t := by
  constructor
  · intro h
    induction d using ind generalizing t xs with
    | leaf a =>
      cases a; simp [flattenUpTo] at h; subst h
      exact ⟨.leaf t, by simp [leaves, join]⟩
    | none =>
      cases t <;> simp [flattenUpTo] at h; subst h
      exact ⟨.none, by simp [leaves, join]⟩
    | node k ds ih =>
      have : ∀ ds : List (Def K), (∀ d ∈ ds, ∀ (t : PT K α) xs, flattenUpTo d t = .ok xs →
            ∃ c : PT K (PT K α), c.shape = d ∧ c.leaves = xs ∧ c.join = t) →
          ∀ (ts : List (PT K α)) xs, flattenUpToL ds ts = .ok xs →
            ∃ cs : List (PT K (PT K α)), cs.map shape = ds ∧ leavesL cs = xs ∧ joinL cs = ts := by
        intro ds
        induction ds with
        | nil =>
          intro _ ts xs h; cases ts <;> simp [flattenUpToL] at h; subst h
          exact ⟨[], by simp [leavesL, joinL]⟩
        | cons d ds ih2 =>
          intro H ts xs h
          cases ts with
          | nil => simp [flattenUpToL] at h
          | cons t ts =>
            simp only [flattenUpToL, bind, Except.bind] at h
            split at h
            · contradiction
            · rename_i ys hys
              split at h
              · contradiction
              · rename_i zs hzs
                simp [pure, Except.pure] at h; subst h
                obtain ⟨c, h1, h2, h3⟩ := H d (by simp) _ _ hys
                obtain ⟨cs, h4, h5, h6⟩ := ih2 (fun d hd => H d (by simp [hd])) _ _ hzs
                exact ⟨c :: cs, by simp [leavesL, joinL, *]⟩
      cases t with
      | leaf a => simp [flattenUpTo] at h
      | none => simp [flattenUpTo] at h
      | node l ts =>
        simp only [flattenUpTo] at h
        split at h
        · rename_i hk; subst hk
          obtain ⟨cs, h1, h2, h3⟩ := this ds (fun d hd t xs h => ih d hd h) ts xs h
          exact ⟨.node k cs, by simp [leaves, join, *]⟩
        · contradiction
  · rintro ⟨c, rfl, rfl, rfl⟩
    induction c using ind with
    | leaf a => simp [flattenUpTo, leaves, join]
    | none => simp [flattenUpTo, leaves, join]
    | node k cs ih =>
      simp only [shape_node, join, flattenUpTo, if_true, leaves]
      induction cs with
      | nil => simp [joinL, flattenUpToL, leavesL]
      | cons c cs ih2 =>
        simp only [List.map_cons, joinL, flattenUpToL, leavesL]
        rw [ih c (by simp), ih2 (fun c hc => ih c (by simp [hc]))]
        rfl

/-! ### Positions -/

theorem get?_append (t : PT K α) (π ρ : List Nat) :
    t.get? (π ++ ρ) = (t.get? π).bind (fun s => s.get? ρ) := by
  induction π generalizing t with
  | nil => simp [get?]
  | cons i π ih =>
    cases t with
    | leaf a => simp [get?]
    | none => simp [get?]
    | node k cs =>
      simp only [List.cons_append, get?]
      cases cs[i]? with
      | none => simp
      | some c => simp [ih]

theorem leafAt?_node (k : K) (cs : List (PT K α)) (i π) :
    (PT.node k cs).leafAt? (i :: π) = (cs[i]?).bind (fun c => c.leafAt? π) := by
  simp only [leafAt?, get?]
  cases cs[i]? <;> rfl

@[simp] theorem leafAt?_leaf_nil (a : α) : (PT.leaf a : PT K α).leafAt? [] = some a := rfl
@[simp] theorem leafAt?_leaf_cons (a : α) (i π) : (PT.leaf a : PT K α).leafAt? (i :: π) = Option.none := rfl
@[simp] theorem leafAt?_none (π) : (PT.none : PT K α).leafAt? π = Option.none := by cases π <;> rfl
@[simp] theorem leafAt?_node_nil (k : K) (cs : List (PT K α)) : (PT.node k cs).leafAt? [] = Option.none := rfl

theorem leafAt?_eq_some {t : PT K α} {π a} : t.leafAt? π = some a ↔ t.get? π = some (.leaf a) := by
  simp only [leafAt?]
  split <;> simp_all

theorem leafAt?_map (f : α → β) (t : PT K α) (π) : (t.map f).leafAt? π = (t.leafAt? π).map f := by
  induction t using ind generalizing π with
  | leaf a => cases π <;> simp [map]
  | none => simp [map]
  | node k cs ih =>
    cases π with
    | nil => simp [map]
    | cons i π =>
      simp only [map, mapL_eq, leafAt?_node, List.getElem?_map]
      cases h : cs[i]? with
      | none => simp
      | some c => simpa using ih c (List.mem_of_getElem? h) π

/-- A leaf position corresponds to an index into the list of leaves, and the index depends on the
shape only. -/
theorem index_of_leafAt? {γ : Type} {d : PT K γ} {π x} (h : d.leafAt? π = some x) :
    ∃ i, i < d.leaves.length ∧ ∀ {β : Type} (c : PT K β), c.shape = d.shape → c.leafAt? π = c.leaves[i]? := by
  induction d using ind generalizing π x with
  | leaf a =>
    cases π with
    | nil =>
      refine ⟨0, by simp [leaves], ?_⟩
      intro β c hc; cases c <;> simp at hc; simp [leaves]
    | cons i π => simp at h
  | none => simp at h
  | node k ds ih =>
    cases π with
    | nil => simp at h
    | cons i π =>
      rw [leafAt?_node] at h
      cases hd : ds[i]? with
      | none => simp [hd] at h
      | some d =>
        simp [hd] at h
        obtain ⟨j, hj, hall⟩ := ih d (List.mem_of_getElem? hd) h
        refine ⟨(leavesL (ds.take i)).length + j, ?_, ?_⟩
        · have hlt : i < ds.length := by
            rcases Nat.lt_or_ge i ds.length with h | h
            · exact h
            · rw [List.getElem?_eq_none h] at hd; simp at hd
          have : ds = ds.take i ++ d :: ds.drop (i+1) := by
            conv => lhs; rw [← List.take_append_drop i ds]
            congr 1
            rw [List.drop_eq_getElem_cons hlt]
            rw [List.getElem?_eq_getElem hlt] at hd
            simp at hd; rw [hd]
          simp only [leaves]
          conv => rhs; rw [this]
          simp only [leavesL_eq, List.flatMap_append, List.flatMap_cons, List.length_append]
          omega
        · intro β c hc
          cases c with
          | leaf a => simp at hc
          | none => simp at hc
          | node l cs =>
            simp only [shape_node, PT.node.injEq] at hc
            obtain ⟨rfl, hcs⟩ := hc
            have hlt : i < cs.length := by
              have := congrArg List.length hcs; simp at this
              rcases Nat.lt_or_ge i ds.length with h | h
              · omega
              · rw [List.getElem?_eq_none h] at hd; simp at hd
            have hci : cs[i]? = some cs[i] := List.getElem?_eq_getElem hlt
            rw [leafAt?_node, hci]
            simp only [Option.bind_some, leaves]
            have hsplit : cs = cs.take i ++ cs[i] :: cs.drop (i+1) := by
              conv => lhs; rw [← List.take_append_drop i cs]
              congr 1
              rw [List.drop_eq_getElem_cons hlt]
            have hsh : cs[i].shape = d.shape := by
              have := congrArg (fun l => l[i]?) hcs
              simpa [hci, hd] using this
            have hlen : (leavesL (ds.take i)).length = (leavesL (cs.take i)).length := by
              have : (PT.node l (cs.take i)).shape = (PT.node l (ds.take i)).shape := by
                simp only [shape_node, List.map_take, hcs]
              have := length_leaves_of_shape this
              simpa [leaves] using this.symm
            have hjlt : j < cs[i].leaves.length := by
              rw [length_leaves_of_shape hsh]; exact hj
            have hR : leavesL cs = leavesL (cs.take i) ++ (cs[i].leaves ++ leavesL (cs.drop (i+1))) := by
              conv => lhs; rw [hsplit]
              simp only [leavesL_eq, List.flatMap_append, List.flatMap_cons]
            rw [hR, hlen, List.getElem?_append_right (by omega), List.getElem?_append_left (by omega)]
            simp only [Nat.add_sub_cancel_left]
            exact hall _ hsh

/-- Every leaf has a position. -/
theorem exists_leafAt?_of_getElem? {d : PT K γ} {i : Nat} {x} (h : d.leaves[i]? = some x) :
    ∃ π, ∀ {β : Type} (c : PT K β), c.shape = d.shape → ∀ y, c.leaves[i]? = some y → c.leafAt? π = some y := by
  induction d using ind generalizing i x with
  | leaf a =>
    refine ⟨[], ?_⟩
    intro β c hc y hy
    cases c <;> simp at hc
    cases i <;> simp [leaves] at hy h ⊢
    exact hy
  | none => simp [leaves] at h
  | node k ds ih =>
    have : ∀ ds : List (PT K γ), (∀ d ∈ ds, ∀ (i : Nat) x, d.leaves[i]? = some x →
          ∃ π, ∀ {β : Type} (c : PT K β), c.shape = d.shape → ∀ y, c.leaves[i]? = some y → c.leafAt? π = some y) →
        ∀ (i : Nat) x, (leavesL ds)[i]? = some x → ∃ (j : Nat) (π : List Nat), ∀ {β : Type} (cs : List (PT K β)), cs.map shape = ds.map shape →
          ∀ y, (leavesL cs)[i]? = some y → (cs[j]?).bind (fun (c : PT K β) => c.leafAt? π) = some y := by
      intro ds
      induction ds with
      | nil => intro _ i x h; simp [leavesL] at h
      | cons d ds ih2 =>
        intro H i x h
        simp only [leavesL] at h
        rcases Nat.lt_or_ge i d.leaves.length with hi | hi
        · rw [List.getElem?_append_left hi] at h
          obtain ⟨π, hπ⟩ := H d (by simp) i x h
          refine ⟨0, π, ?_⟩
          intro β cs hcs y hy
          cases cs with
          | nil => simp at hcs
          | cons c cs =>
            simp only [List.map_cons, List.cons.injEq] at hcs
            simp only [leavesL] at hy
            have := length_leaves_of_shape hcs.1
            rw [List.getElem?_append_left (by omega)] at hy
            simpa using hπ c hcs.1 y hy
        · rw [List.getElem?_append_right hi] at h
          obtain ⟨j, π, hπ⟩ := ih2 (fun d hd => H d (by simp [hd])) _ x h
          refine ⟨j + 1, π, ?_⟩
          intro β cs hcs y hy
          cases cs with
          | nil => simp at hcs
          | cons c cs =>
            simp only [List.map_cons, List.cons.injEq] at hcs
            simp only [leavesL] at hy
            have hl := length_leaves_of_shape hcs.1
            rw [List.getElem?_append_right (by omega), hl] at hy
            simpa using hπ cs hcs.2 y hy
    obtain ⟨j, π, hπ⟩ := this ds (fun d hd i x h => ih d hd h) i x (by simpa [leaves] using h)
    refine ⟨j :: π, ?_⟩
    intro β c hc y hy
    cases c with
    | leaf a => simp at hc
    | none => simp at hc
    | node l cs =>
      simp only [shape_node, PT.node.injEq] at hc
      rw [leafAt?_node]
      exact hπ cs hc.2 y (by simpa [leaves] using hy)

theorem leafAt?_isSome_of_shape {c : PT K β} {d : PT K γ} (h : c.shape = d.shape) (π) :
    (c.leafAt? π).isSome = (d.leafAt? π).isSome := by
  have h1 := leafAt?_map (fun _ => ()) c π
  have h2 := leafAt?_map (fun _ => ()) d π
  simp only [shape] at h
  rw [h, h2] at h1
  cases hc : c.leafAt? π <;> cases hd : d.leafAt? π <;> simp_all

/-- `join` looked at below a leaf position. -/
theorem get?_join {c : PT K (PT K α)} {π x} (h : c.leafAt? π = some x) (ρ : List Nat) :
    c.join.get? (π ++ ρ) = x.get? ρ := by
  induction c using ind generalizing π x with
  | leaf a => cases π <;> simp at h; subst h; simp [join]
  | none => simp at h
  | node k cs ih =>
    cases π with
    | nil => simp at h
    | cons i π =>
      rw [leafAt?_node] at h
      simp only [join, joinL_eq, List.cons_append, get?, List.getElem?_map]
      cases hc : cs[i]? with
      | none => simp [hc] at h
      | some c =>
        simp only [hc, Option.bind_some] at h
        simpa using ih c (List.mem_of_getElem? hc) h

theorem get?_join_nil {c : PT K (PT K α)} {π x} (h : c.leafAt? π = some x) :
    c.join.get? π = some x := by
  have := get?_join h []
  simpa [get?] using this

/-! ### `mapE` and `zipAll` -/

theorem mapE_ok {f : β → Except Err γ} {xs : List β} {ys : List γ} :
    mapE f xs = .ok ys ↔ ys.length = xs.length ∧ ∀ (i : Nat) x, xs[i]? = some x → ∃ y, ys[i]? = some y ∧ f x = .ok y := by
  induction xs generalizing ys with
  | nil => simp [mapE, eq_comm]
  | cons x xs ih =>
    simp only [mapE, bind, Except.bind]
    constructor
    · intro h
      split at h
      · contradiction
      · rename_i y hy
        split at h
        · contradiction
        · rename_i zs hzs
          simp [pure, Except.pure] at h; subst h
          have := ih.1 hzs
          refine ⟨by simp [this.1], ?_⟩
          intro i x' hx'
          cases i with
          | zero => simp at hx'; subst hx'; exact ⟨y, by simp, hy⟩
          | succ i => simpa using this.2 i x' (by simpa using hx')
    · rintro ⟨hl, h⟩
      cases ys with
      | nil => simp at hl
      | cons y ys =>
        obtain ⟨y', hy', hf⟩ := h 0 x rfl
        simp at hy'; subst hy'
        have := (ih (ys := ys)).2 ⟨by simpa using hl, fun i x hx => by simpa using h (i+1) x (by simpa using hx)⟩
        simp [hf, this, pure, Except.pure]

/-- `mapE` of a function that always succeeds. -/
theorem mapE_pure (f : β → γ) (xs : List β) : mapE (fun x => .ok (f x)) xs = .ok (xs.map f) := by
  induction xs with
  | nil => rfl
  | cons x xs ih => simp [mapE, ih, bind, Except.bind, pure, Except.pure]

theorem length_zipCons (xs : List β) (yss : List (List β)) :
    (zipCons xs yss).length = min xs.length yss.length := by
  induction xs generalizing yss with
  | nil => simp [zipCons]
  | cons x xs ih => cases yss <;> simp [zipCons, ih]

theorem zipCons_getElem? (xs : List β) (yss : List (List β)) (i : Nat) :
    (zipCons xs yss)[i]? = match xs[i]?, yss[i]? with
      | some x, some ys => some (x :: ys)
      | _, _ => Option.none := by
  induction xs generalizing yss i with
  | nil => simp [zipCons]
  | cons x xs ih =>
    cases yss with
    | nil => simp [zipCons]
    | cons ys yss => cases i <;> simp [zipCons, ih]

theorem length_zipAll (xs : List β) (rest : List (List β)) (h : ∀ ys ∈ rest, ys.length = xs.length) :
    (zipAll xs rest).length = xs.length := by
  induction rest generalizing xs with
  | nil => simp [zipAll]
  | cons ys rest ih =>
    simp only [zipAll, length_zipCons]
    rw [ih ys (fun zs hz => by rw [h zs (by simp [hz]), h ys (by simp)]), h ys (by simp)]
    simp

theorem zipAll_getElem? (xs : List β) (rest : List (List β)) (h : ∀ ys ∈ rest, ys.length = xs.length)
    (i : Nat) (x : β) (hx : xs[i]? = some x) :
    (zipAll xs rest)[i]? = some (x :: rest.filterMap (fun ys => ys[i]?)) := by
  induction rest generalizing xs x with
  | nil => simp [zipAll, hx]
  | cons ys rest ih =>
    have hi : i < ys.length := by
      rw [h ys (by simp)]
      rcases Nat.lt_or_ge i xs.length with h | h
      · exact h
      · rw [List.getElem?_eq_none h] at hx; simp at hx
    simp only [zipAll, zipCons_getElem?, hx]
    rw [ih ys (fun zs hz => by rw [h zs (by simp [hz]), h ys (by simp)]) ys[i] (by simp [hi])]
    simp [hi]

end PT
end Verif
