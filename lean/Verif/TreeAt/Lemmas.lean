import Verif.TreeAt.Spec
import Verif.PyTree.SpecLemmas

/-! # Lemmas about `tree_at` -/

namespace Verif
namespace TreeAt

open PT

variable {K K' α β γ : Type}

theorem retagL_eq (f : K → K') (cs : List (PT K β)) : retagL f cs = cs.map (retag f) := by
  induction cs with
  | nil => simp [retagL]
  | cons c cs ih => simp [retagL, ih]

theorem get?_retag (f : K → K') (t : PT K β) (π) : (retag f t).get? π = (t.get? π).map (retag f) := by
  induction π generalizing t with
  | nil => simp [get?]
  | cons i π ih =>
    cases t with
    | leaf a => simp [retag, get?]
    | none => simp [retag, get?]
    | node k cs =>
      simp only [retag, get?, retagL_eq, List.getElem?_map]
      cases cs[i]? with
      | none => rfl
      | some c => simp [ih]

theorem leafAt?_retag (f : K → K') (t : PT K β) (π) : (retag f t).leafAt? π = t.leafAt? π := by
  unfold leafAt?
  rw [get?_retag]
  cases t.get? π with
  | none => rfl
  | some x => cases x <;> simp [retag]

theorem leaves_retag (f : K → K') (t : PT K β) : (retag f t).leaves = t.leaves := by
  induction t using PT.ind with
  | leaf a => simp [retag, leaves]
  | none => simp [retag, leaves]
  | node k cs ih =>
    simp only [retag, leaves, retagL_eq, leavesL_eq]
    induction cs with
    | nil => rfl
    | cons c cs ih2 =>
      simp only [List.map_cons, List.flatMap_cons]
      rw [ih c (by simp), ih2 (fun d hd => ih d (List.mem_cons_of_mem _ hd))]

theorem map_retag (f : K → K') (g : β → γ) (t : PT K β) : (retag f t).map g = retag f (t.map g) := by
  induction t using PT.ind with
  | leaf a => simp [retag, PT.map]
  | none => simp [retag, PT.map]
  | node k cs ih =>
    simp only [retag, PT.map, retagL_eq, mapL_eq, List.map_map, PT.node.injEq, true_and]
    exact List.map_congr_left ih

theorem shape_retag (f : K → K') (t : PT K β) : (retag f t).shape = retag f t.shape := map_retag f _ t

theorem labelL_eq (s : List Nat → K → Nat → Id) (f : List Nat → β → γ) (π : List Nat) (i : Nat) (cs : List (PT K β)) (j : Nat) :
    (labelL s f π i cs)[j]? = (cs[j]?).map (label s f (π ++ [i + j])) := by
  induction cs generalizing i j with
  | nil => simp [labelL]
  | cons c cs ih =>
    cases j with
    | zero => simp [labelL]
    | succ j => simp only [labelL, List.getElem?_cons_succ, ih]; congr 3; simp; omega

theorem length_labelL (s : List Nat → K → Nat → Id) (f : List Nat → β → γ) (π : List Nat) (i : Nat) (cs : List (PT K β)) :
    (labelL s f π i cs).length = cs.length := by
  induction cs generalizing i with
  | nil => simp [labelL]
  | cons c cs ih => simp [labelL, ih]

theorem get?_label (s : List Nat → K → Nat → Id) (f : List Nat → β → γ) (π : List Nat) (t : PT K β) (ρ) :
    (label s f π t).get? ρ = (t.get? ρ).map (label s f (π ++ ρ)) := by
  induction ρ generalizing t π with
  | nil => simp [get?]
  | cons i ρ ih =>
    cases t with
    | leaf a => simp [label, get?]
    | none => simp [label, get?]
    | node k cs =>
      simp only [label, get?, labelL_eq]
      cases cs[i]? with
      | none => rfl
      | some c => simp [ih]

theorem retag_label (s : List Nat → K → Nat → Id) (f : List Nat → β → γ) (g : β → γ) (hg : ∀ π a, f π a = g a) (π : List Nat) (t : PT K β) :
    retag Prod.snd (label s f π t) = t.map g := by
  induction t using PT.ind generalizing π with
  | leaf a => simp [label, retag, PT.map, hg]
  | none => simp [label, retag, PT.map]
  | node k cs ih =>
    simp only [label, retag, PT.map, retagL_eq, mapL_eq, PT.node.injEq, true_and]
    apply List.ext_getElem?
    intro j
    rw [List.getElem?_map, List.getElem?_map, labelL_eq]
    cases hj : cs[j]? with
    | none => rfl
    | some c => simp [ih c (List.mem_of_getElem? hj)]

theorem map_id' (t : PT K β) : t.map (fun a => a) = t := by
  induction t using PT.ind with
  | leaf a => simp [PT.map]
  | none => simp [PT.map]
  | node k cs ih =>
    simp only [PT.map, mapL_eq, PT.node.injEq, true_and]
    rw [List.map_congr_left (g := fun c => c) ih]; simp

theorem shape_label (s : List Nat → K → Nat → Id) (f : List Nat → β → γ) (π : List Nat) (t : PT K β) :
    retag Prod.snd (label s f π t).shape = t.shape := by
  rw [← shape_retag]
  induction t using PT.ind generalizing π with
  | leaf a => simp [label, retag]
  | none => simp [label, retag]
  | node k cs ih =>
    simp only [label, retag, shape, PT.map, retagL_eq, mapL_eq, PT.node.injEq, true_and]
    apply List.ext_getElem?
    intro j
    simp only [List.getElem?_map, labelL_eq]
    cases hj : cs[j]? with
    | none => rfl
    | some c => simpa [shape] using ih c (List.mem_of_getElem? hj) (π ++ [0 + j])

theorem restoreL_eq (tup : K) (cs : List (PT K (Raw α))) : restoreL tup cs = cs.map (restore tup) := by
  induction cs with
  | nil => simp [restoreL]
  | cons c cs ih => simp [restoreL, ih]

theorem get?_restore (tup : K) (t : PT K (Raw α)) (π) : (restore tup t).get? π = (t.get? π).map (restore tup) := by
  induction π generalizing t with
  | nil => simp [get?]
  | cons i π ih =>
    cases t with
    | leaf a => cases a <;> simp [restore, get?]
    | none => simp [restore, get?]
    | node k cs =>
      simp only [restore, get?, restoreL_eq, List.getElem?_map]
      cases cs[i]? with
      | none => rfl
      | some c => simp [ih]

theorem restore_obj (tup : K) (t : PT K (Val α)) : restore tup (t.map (fun v => Raw.obj v.1 v.2)) = t := by
  induction t using PT.ind with
  | leaf a => simp [PT.map, restore]
  | none => simp [PT.map, restore]
  | node k cs ih =>
    simp only [PT.map, mapL_eq, restore, restoreL_eq, List.map_map, PT.node.injEq, true_and]
    exact (List.map_congr_left (g := fun c => c) ih).trans (by simp)

variable [DecidableEq K]

theorem distinctL_eq (env : Env K α) (π : List Nat) (i : Nat) (cs : List (PT K (Val α))) (j : Nat) :
    (distinctL env π i cs)[j]? = (cs[j]?).map (distinct env (π ++ [i + j])) := by
  induction cs generalizing i j with
  | nil => simp [distinctL]
  | cons c cs ih =>
    cases j with
    | zero => simp [distinctL]
    | succ j => simp only [distinctL, List.getElem?_cons_succ, ih]; congr 3; simp; omega

theorem length_distinctL (env : Env K α) (π : List Nat) (i : Nat) (cs : List (PT K (Val α))) :
    (distinctL env π i cs).length = cs.length := by
  induction cs generalizing i with
  | nil => simp [distinctL]
  | cons c cs ih => simp [distinctL, ih]

theorem get?_distinct (env : Env K α) (π : List Nat) (t : PT K (Val α)) (ρ) :
    (distinct env π t).get? ρ = (t.get? ρ).map (distinct env (π ++ ρ)) := by
  induction ρ generalizing t π with
  | nil => simp [get?]
  | cons i ρ ih =>
    cases t with
    | leaf a => obtain ⟨n, v⟩ := a; simp only [distinct]; split <;> simp [get?]
    | none => simp [distinct, get?]
    | node k cs =>
      simp only [distinct]
      split
      · rename_i h
        have : cs = [] := by simpa using h.2
        subst this
        simp [get?]
      · simp only [get?, distinctL_eq]
        cases cs[i]? with
        | none => rfl
        | some c => simp [ih]

theorem restore_distinct (env : Env K α) (π : List Nat) (t : PT K (Val α)) (h : NoOddTuples env t) :
    restore env.tuple (distinct env π t) = t := by
  induction t using PT.ind generalizing π with
  | leaf a =>
    obtain ⟨n, v⟩ := a
    have := h [] (n, v) rfl
    simp only at this
    simp [distinct, this, restore]
  | none => simp [distinct, restore]
  | node k cs ih =>
    simp only [distinct]
    split
    · rename_i hh
      have : cs = [] := by simpa using hh.2
      subst this
      simp [restore, hh.1]
    · simp only [restore, restoreL_eq, PT.node.injEq, true_and]
      apply List.ext_getElem?
      intro j
      rw [List.getElem?_map, distinctL_eq]
      cases hj : cs[j]? with
      | none => rfl
      | some c =>
        simp only [Option.map_some, Option.some.injEq]
        apply ih c (List.mem_of_getElem? hj)
        intro ρ v hv
        apply h (j :: ρ) v
        rw [leafAt?_node, hj]
        exact hv

omit [DecidableEq K] in
theorem NoOddTuples.get? {env : Env K α} {t : PT K (Val α)} (h : NoOddTuples env t) {π x} (hx : t.get? π = some x) :
    NoOddTuples env x := by
  intro ρ v hv
  apply h (π ++ ρ) v
  rw [leafAt?_eq_some] at hv ⊢
  rw [get?_append, hx]
  exact hv

/-! ### What `where` sees -/

omit [DecidableEq K] in
theorem get?_plain (x : PT (Id × K) (Raw α)) (π) : (plain x).get? π = (x.get? π).map plain := by
  unfold plain
  induction π generalizing x with
  | nil => simp [get?]
  | cons i π ih =>
    cases x with
    | leaf a => simp [PT.map, get?]
    | none => simp [PT.map, get?]
    | node k cs =>
      simp only [PT.map, get?, mapL_eq, List.getElem?_map]
      cases cs[i]? with
      | none => rfl
      | some c => simp [ih]

/-- The cut tree, without identities. -/
def cutTree (env : Env K α) (isLeaf : Obj K α → Bool) (t : PT K (Val α)) : PT K (PT (Id × K) (Raw α)) :=
  retag Prod.snd ((seen1 env t).cut (fun x => isLeaf (plain x)))

/-- The second pass. -/
def wrapAll (tup : K) (π : List Nat) (c : PT K (PT (Id × K) (Raw α))) : Obj K α :=
  label (newId tup 2) (fun π c => Leaf.wrap (.made 2 π) c) π c

theorem seen2_eq (env : Env K α) (isLeaf : Obj K α → Bool) (t : PT K (Val α)) :
    seen2 env isLeaf t = wrapAll env.tuple [] (cutTree env isLeaf t) := rfl

theorem get?_seen2 (env : Env K α) (isLeaf : Obj K α → Bool) (t : PT K (Val α)) (π) :
    (seen2 env isLeaf t).get? π = ((cutTree env isLeaf t).get? π).map (wrapAll env.tuple π) := by
  rw [seen2_eq, wrapAll, get?_label]; rfl

theorem get?_seen1 (env : Env K α) (t : PT K (Val α)) (π) :
    (seen1 env t).get? π = (t.get? π).map (fun x => label (newId env.tuple 1) (fun _ r => r) π (distinct env π x)) := by
  rw [seen1, get?_label, get?_distinct]
  cases t.get? π <;> simp

theorem restore_seen1 (env : Env K α) (π : List Nat) (x : PT K (Val α)) (h : NoOddTuples env x) :
    restore env.tuple (retag Prod.snd (label (newId env.tuple 1) (fun _ r => r) π (distinct env π x))) = x := by
  rw [retag_label (newId env.tuple 1) _ (fun r => r) (fun _ _ => rfl), map_id', restore_distinct env π x h]

/-- A leaf of the cut tree holds what was there. -/
theorem cutTree_leaf {env : Env K α} {isLeaf : Obj K α → Bool} {t : PT K (Val α)} {π c}
    (h : (cutTree env isLeaf t).get? π = some (.leaf c)) : (seen1 env t).get? π = some c := by
  have : (cutTree env isLeaf t).leafAt? π = some c := leafAt?_eq_some.2 h
  rw [cutTree, leafAt?_retag, ← isCutLeaf_iff] at this
  exact this.1

theorem headAt?_retag {K K' β : Type} (f : K → K') (t : PT K β) (π) :
    (retag f t).headAt? π = (t.headAt? π).map (fun h => match h with
      | .leaf a => .leaf a | .none => .none | .node k n => .node (f k) n) := by
  simp only [headAt?, get?_retag, Option.map_map]
  congr 1
  funext x
  cases x <;> simp [retag, head, retagL_eq]

/-- Containers and `None`s of the cut tree are those of the tree. -/
theorem cutTree_head {env : Env K α} {isLeaf : Obj K α → Bool} {t : PT K (Val α)} {π} :
    (∀ k n, (cutTree env isLeaf t).headAt? π = some (.node k n) → t.headAt? π = some (.node k n)) ∧
    ((cutTree env isLeaf t).headAt? π = some .none → t.headAt? π = some .none) := by
  have key : ∀ h : Head (Id × K) (PT (Id × K) (Raw α)), (∀ a, h ≠ .leaf a) →
      ((seen1 env t).cut (fun x => isLeaf (plain x))).headAt? π = some h →
      ∃ x, t.get? π = some x ∧ (h = .none → x = .none) ∧
        (∀ i k n, h = .node (i, k) n → ∃ cs, x = .node k cs ∧ cs.length = n) := by
    intro h hnl hh
    have hj := headAt?_join_of_not_leaf (c := (seen1 env t).cut (fun x => isLeaf (plain x))) (π := π)
    rw [join_cut] at hj
    have h2 : ∃ y, (seen1 env t).get? π = some y ∧ (h = .none → y.head = .none) ∧ (∀ k n, h = .node k n → y.head = .node k n) := by
      cases h with
      | leaf a => exact absurd rfl (hnl a)
      | none =>
        have := hj.2 hh
        simp only [headAt?, Option.map_eq_some_iff] at this
        obtain ⟨y, hy, hy'⟩ := this
        exact ⟨y, hy, fun _ => hy', by simp⟩
      | node k n =>
        have := hj.1 k n hh
        simp only [headAt?, Option.map_eq_some_iff] at this
        obtain ⟨y, hy, hy'⟩ := this
        exact ⟨y, hy, by simp, by rintro k n ⟨⟩; exact hy'⟩
    obtain ⟨y, hy, hy1, hy2⟩ := h2
    rw [get?_seen1, Option.map_eq_some_iff] at hy
    obtain ⟨x, hx, rfl⟩ := hy
    refine ⟨x, hx, ?_, ?_⟩
    · intro e
      have := hy1 e
      cases x with
      | leaf a => obtain ⟨n, v⟩ := a; simp only [distinct] at this; split at this <;> simp [label, head] at this
      | none => rfl
      | node k cs => simp only [distinct] at this; split at this <;> simp [label, head] at this
    · rintro i k n rfl
      have := hy2 _ _ rfl
      cases x with
      | leaf a => obtain ⟨n, v⟩ := a; simp only [distinct] at this; split at this <;> simp [label, head] at this
      | none => simp [distinct, label, head] at this
      | node k' cs =>
        simp only [distinct] at this
        split at this
        · simp [label, head] at this
        · simp only [label, head, Head.node.injEq, Prod.mk.injEq, length_labelL, length_distinctL] at this
          obtain ⟨⟨_, rfl⟩, h3⟩ := this
          exact ⟨cs, rfl, h3⟩
  constructor
  · intro k n h
    rw [cutTree, headAt?_retag, Option.map_eq_some_iff] at h
    obtain ⟨hd, h1, h2⟩ := h
    cases hd with
    | leaf a => simp at h2
    | none => simp at h2
    | node ik m =>
      simp only [Head.node.injEq] at h2
      obtain ⟨rfl, rfl⟩ := h2
      obtain ⟨x, hx, _, hx2⟩ := key _ (by simp) h1
      obtain ⟨cs, rfl, hl⟩ := hx2 ik.1 ik.2 m rfl
      simp [headAt?, hx, head, hl]
  · intro h
    rw [cutTree, headAt?_retag, Option.map_eq_some_iff] at h
    obtain ⟨hd, h1, h2⟩ := h
    cases hd with
    | leaf a => simp at h2
    | node ik m => simp at h2
    | none =>
      obtain ⟨x, hx, hx1, _⟩ := key _ (by simp) h1
      rw [hx1 rfl] at hx
      simp [headAt?, hx, head]

/-! ### Positions of leaves -/

omit [DecidableEq K] in
/-- Different positions have different indices. -/
theorem index_unique {d : PT K β} {π π' x x'} (h : d.leafAt? π = some x) (h' : d.leafAt? π' = some x') :
    ∃ i i' : Nat, d.leaves[i]? = some x ∧ d.leaves[i']? = some x' ∧ (i = i' → π = π') := by
  obtain ⟨i, _, hi⟩ := index_of_leafAt? h
  obtain ⟨i', _, hi'⟩ := index_of_leafAt? h'
  refine ⟨i, i', by rw [← hi d rfl, h], by rw [← hi' d rfl, h'], ?_⟩
  rintro rfl
  obtain ⟨o, ho, ho'⟩ := exists_of_shape d (fun π (y : List Nat) => y = π) (fun π x _ => ⟨π, rfl⟩)
  have e1 := hi o ho
  have e2 := hi' o ho
  have s1 : (o.leafAt? π).isSome := by rw [leafAt?_isSome_of_shape ho, h]; rfl
  rw [Option.isSome_iff_exists] at s1
  obtain ⟨y, hy⟩ := s1
  have hy' : o.leafAt? π' = some y := by rw [e2, ← e1, hy]
  rw [← ho' π y hy, ho' π' y hy']

theorem two_le_countP {q : β → Bool} {l : List β} {i j : Nat} {x y : β} (hij : i ≠ j) (hi : l[i]? = some x)
    (hj : l[j]? = some y) (hx : q x = true) (hy : q y = true) : 2 ≤ l.countP q := by
  induction l generalizing i j with
  | nil => simp at hi
  | cons a l ih =>
    rw [List.countP_cons]
    cases i with
    | zero =>
      cases j with
      | zero => exact absurd rfl hij
      | succ j =>
        simp at hi hj; subst hi
        have : 0 < l.countP q := List.countP_pos_iff.2 ⟨y, List.mem_of_getElem? hj, hy⟩
        simp only [hx, if_true]; omega
    | succ i =>
      cases j with
      | zero =>
        simp at hi hj; subst hj
        have : 0 < l.countP q := List.countP_pos_iff.2 ⟨x, List.mem_of_getElem? hi, hx⟩
        simp only [hy, if_true]; omega
      | succ j =>
        simp at hi hj
        have := ih (by omega) hi hj
        omega

omit [DecidableEq K] in
/-- Counting leaves is counting positions. -/
theorem countP_one {d : PT K β} {q : β → Bool} : d.leaves.countP q = 1 ↔
    ∃ π, (∃ x, d.leafAt? π = some x ∧ q x = true) ∧
      ∀ π', (∃ x, d.leafAt? π' = some x ∧ q x = true) → π' = π := by
  constructor
  · intro h
    have : 0 < d.leaves.countP q := by omega
    obtain ⟨x, hx, hq⟩ := List.countP_pos_iff.1 this
    obtain ⟨i, hi, hi'⟩ := List.getElem_of_mem hx
    have hi'' : d.leaves[i]? = some x := by rw [List.getElem?_eq_getElem hi, hi']
    obtain ⟨π, hπ⟩ := exists_leafAt?_of_getElem? hi''
    have hx := hπ d rfl x hi''
    refine ⟨π, ⟨x, hx, hq⟩, ?_⟩
    rintro π' ⟨x', hx', hq'⟩
    obtain ⟨a, b, ha, hb, hab⟩ := index_unique hx' hx
    by_cases e : a = b
    · exact hab e
    · have := two_le_countP e ha hb hq' hq
      omega
  · rintro ⟨π, ⟨x, hx, hq⟩, huniq⟩
    obtain ⟨i, hi, hall⟩ := index_of_leafAt? hx
    have hix : d.leaves[i]? = some x := by rw [← hall d rfl, hx]
    have h1 : 0 < d.leaves.countP q := List.countP_pos_iff.2 ⟨x, List.mem_of_getElem? hix, hq⟩
    have h2 : ¬ 2 ≤ d.leaves.countP q := by
      intro h2
      have : ∀ l : List β, 2 ≤ l.countP q → ∃ (i j : Nat) (x y : β), i ≠ j ∧ l[i]? = some x ∧ l[j]? = some y ∧ q x = true ∧ q y = true := by
        intro l
        induction l with
        | nil => simp
        | cons a l ih =>
          intro hl
          rw [List.countP_cons] at hl
          by_cases ha : q a = true
          · simp only [ha, if_true] at hl
            have : 0 < l.countP q := by omega
            obtain ⟨y, hy, hqy⟩ := List.countP_pos_iff.1 this
            obtain ⟨j, hj, hj'⟩ := List.getElem_of_mem hy
            exact ⟨0, j + 1, a, y, by omega, rfl, by simp [List.getElem?_eq_getElem hj, hj'], ha, hqy⟩
          · simp only [ha] at hl
            obtain ⟨i, j, x, y, hij, h1, h2, h3⟩ := ih hl
            exact ⟨i + 1, j + 1, x, y, by omega, h1, h2, h3⟩
      obtain ⟨a, b, y, z, hab, ha, hb, hqy, hqz⟩ := this _ h2
      obtain ⟨ρ, hρ⟩ := exists_leafAt?_of_getElem? ha
      obtain ⟨σ, hσ⟩ := exists_leafAt?_of_getElem? hb
      have e1 := huniq ρ ⟨y, hρ d rfl y ha, hqy⟩
      have e2 := huniq σ ⟨z, hσ d rfl z hb, hqz⟩
      subst e1; subst e2
      obtain ⟨o, ho, _⟩ := exists_of_shape d (fun π (y : List Nat) => y = π) (fun π x _ => ⟨π, rfl⟩)
      -- a tree of the same shape whose leaves are their indices
      have hlen : (List.range d.leaves.length).length = d.leaves.length := by simp
      obtain ⟨c, hc, hcl⟩ := exists_fill d (List.range d.leaves.length) hlen
      have hal : a < d.leaves.length := (List.getElem?_eq_some_iff.1 ha).1
      have hbl : b < d.leaves.length := (List.getElem?_eq_some_iff.1 hb).1
      have c1 := hρ c hc a (by rw [hcl, List.getElem?_range hal])
      have c2 := hσ c hc b (by rw [hcl, List.getElem?_range hbl])
      rw [c1] at c2
      exact hab (Option.some.inj c2)
    omega

/-! ### `omap` -/

omit [DecidableEq K] in
theorem omap_ok {p : Obj K α → Bool} {f : Obj K α → Except Err (PT K (Raw α))} {x : Obj K α} {out} :
    omap p f x = .ok out ↔ ∃ o : PT K (PT K (Raw α)), o.shape = retag Prod.snd (x.cut p).shape ∧ o.join = out ∧
      ∀ π y, (x.cut p).leafAt? π = some y → ∃ z, o.leafAt? π = some z ∧ f y = .ok z := by
  have hsh : ∀ o : PT K (PT K (Raw α)), o.shape = retag Prod.snd (x.cut p).shape →
      (retag Prod.snd (x.cut p)).shape = o.shape := by
    intro o ho; rw [shape_retag, ho]
  have hlv : (retag (Prod.snd : Id × K → K) (x.cut p)).leaves = (x.cut p).leaves := leaves_retag _ _
  simp only [omap, bind, Except.bind, treeLeaves, structureOf, treeStructure]
  constructor
  · intro h
    split at h
    · exact absurd h (by simp)
    · rename_i outs ho
      obtain ⟨o, h1, h2, h3⟩ := treeUnflatten_ok h
      refine ⟨o, h1, h3, ?_⟩
      obtain ⟨_, hm⟩ := mapE_ok.1 ho
      have := (leafAt?_rel (hsh o h1) (fun y z => f y = .ok z)).1 (by
        intro i y hy
        rw [hlv] at hy
        obtain ⟨z, hz, hfz⟩ := hm i y hy
        exact ⟨z, by rw [h2]; exact hz, hfz⟩)
      intro π y hy
      exact this π y (by rw [leafAt?_retag]; exact hy)
  · rintro ⟨o, h1, h2, h3⟩
    have := (leafAt?_rel (hsh o h1) (fun y z => f y = .ok z)).2 (by
      intro π y hy
      rw [leafAt?_retag] at hy
      exact h3 π y hy)
    have hm : mapE f (x.cut p).leaves = .ok o.leaves := by
      rw [mapE_ok]
      refine ⟨?_, ?_⟩
      · rw [← hlv]; exact (length_leaves_of_shape (hsh o h1)).symm
      · intro i y hy
        exact this i y (by rw [hlv]; exact hy)
    rw [hm]
    simp only
    rw [← h1, treeUnflatten_shape, h2]

/-! ### The result -/

omit [DecidableEq K] in
/-- Every position is at or below a leaf, or is a container or `None`, or does not exist. -/
theorem position_cases (c : PT K (PT K β)) (π : List Nat) :
    (∃ σ ρ x, π = σ ++ ρ ∧ c.leafAt? σ = some x) ∨
    ((∀ σ ρ x, π = σ ++ ρ → c.leafAt? σ ≠ some x) ∧ (c.headAt? π = some .none ∨ ∃ k n, c.headAt? π = some (.node k n))) ∨
    ((∀ σ ρ x, π = σ ++ ρ → c.leafAt? σ ≠ some x) ∧ c.headAt? π = Option.none ∧ c.join.headAt? π = Option.none) := by
  induction c using PT.ind generalizing π with
  | leaf a => exact .inl ⟨[], π, a, rfl, rfl⟩
  | none =>
    cases π with
    | nil => exact .inr (.inl ⟨by intro σ ρ x h; simp [leafAt?]; cases σ <;> simp [get?], .inl rfl⟩)
    | cons i π =>
      refine .inr (.inr ⟨?_, by simp [headAt?, get?], by simp [join, headAt?, get?]⟩)
      intro σ ρ x h; simp [leafAt?]; cases σ <;> simp [get?]
  | node k cs ih =>
    cases π with
    | nil =>
      refine .inr (.inl ⟨?_, .inr ⟨k, cs.length, rfl⟩⟩)
      intro σ ρ x h
      have : σ = [] := by cases σ <;> simp_all
      subst this; simp [leafAt?, get?]
    | cons i π =>
      cases hc : cs[i]? with
      | none =>
        refine .inr (.inr ⟨?_, by simp [headAt?, get?, hc], by simp [join, joinL_eq, headAt?, get?, hc]⟩)
        intro σ ρ x h
        cases σ with
        | nil => simp [leafAt?, get?]
        | cons j σ =>
          simp at h; obtain ⟨rfl, rfl⟩ := h
          rw [leafAt?_node, hc]; simp
      | some c =>
        have hcons : ∀ σ' ρ x, i :: π = σ' ++ ρ → (∀ σ ρ x, π = σ ++ ρ → c.leafAt? σ ≠ some x) →
            (PT.node k cs).leafAt? σ' ≠ some x := by
          intro σ' ρ x h hno
          cases σ' with
          | nil => simp [leafAt?, get?]
          | cons j σ =>
            simp at h; obtain ⟨rfl, rfl⟩ := h
            rw [leafAt?_node, hc]
            exact hno σ ρ x rfl
        rcases ih c (List.mem_of_getElem? hc) π with ⟨σ, ρ, x, rfl, h⟩ | ⟨h1, h2⟩ | ⟨h1, h2, h3⟩
        · exact .inl ⟨i :: σ, ρ, x, rfl, by rw [leafAt?_node, hc]; exact h⟩
        · refine .inr (.inl ⟨fun σ' ρ x h => hcons σ' ρ x h h1, ?_⟩)
          simp only [headAt?_node_cons, hc, Option.bind_some]
          exact h2
        · refine .inr (.inr ⟨fun σ' ρ x h => hcons σ' ρ x h h1, ?_, ?_⟩)
          · simp only [headAt?_node_cons, hc, Option.bind_some]; exact h2
          · simp only [join, joinL_eq, headAt?_node_cons, List.getElem?_map, hc, Option.map_some, Option.bind_some]
            exact h3

omit [DecidableEq K] in
/-- The objects treated as leaves in the replacement pass. -/
theorem topmost_iff {x : Obj K α} {ids : List Id} {i : Id} {π : List Nat} (hi : i ∈ ids) :
    Topmost x ids i π ↔ ∃ y, (x.cut (fun x => decide (idOf x ∈ ids))).leafAt? π = some y ∧ idOf y = i := by
  constructor
  · rintro ⟨⟨y, hy, rfl⟩, h2⟩
    refine ⟨y, ?_, rfl⟩
    rw [← isCutLeaf_iff]
    refine ⟨hy, .inr (by simpa using hi), ?_⟩
    intro ρ σ z h3 h4 h5
    simp only [decide_eq_false_iff_not]
    intro hm
    exact h2 ρ σ _ h3 h4 hm ⟨z, h5, rfl⟩
  · rintro ⟨y, hy, rfl⟩
    rw [← isCutLeaf_iff] at hy
    refine ⟨⟨y, hy.1, rfl⟩, ?_⟩
    rintro ρ σ j h3 h4 hj ⟨z, hz, rfl⟩
    have := hy.2.2 ρ σ z h3 h4 hz
    simp only [decide_eq_false_iff_not] at this
    exact this hj

omit [DecidableEq K] in
theorem lookup_none {ids : List Id} {fns : List (Fn K α)} (hl : fns.length = ids.length) {i : Id} :
    lookup ids fns i = Option.none ↔ i ∉ ids := by
  unfold lookup
  rw [Option.map_eq_none_iff, List.find?_eq_none]
  constructor
  · intro h hi
    obtain ⟨j, hj, hj'⟩ := List.getElem_of_mem hi
    have : (ids.zip fns)[j]? = some (i, fns[j]'(by omega)) := by
      rw [List.getElem?_zip_eq_some]
      exact ⟨by rw [List.getElem?_eq_getElem hj, hj'], by rw [List.getElem?_eq_getElem]⟩
    have := h _ (List.mem_reverse.2 (List.mem_of_getElem? this))
    simp at this
  · intro h p hp
    rw [List.mem_reverse] at hp
    have := (List.of_mem_zip hp).1
    simp only [decide_eq_true_eq]
    rintro rfl
    exact h this

omit [DecidableEq K] in
theorem lookup_last {ids : List Id} {fns : List (Fn K α)} {j : Nat} {i : Id} {f : Fn K α}
    (hj : ids[j]? = some i) (hf : fns[j]? = some f) (hl : ∀ j', j < j' → ids[j']? ≠ some i) :
    lookup ids fns i = some f := by
  unfold lookup
  have key : ∀ (l : List (Id × Fn K α)) (j : Nat), l[j]? = some (i, f) → (∀ j', j < j' → ∀ g, l[j']? ≠ some (i, g)) →
      l.reverse.find? (fun p => decide (p.1 = i)) = some (i, f) := by
    intro l
    induction l with
    | nil => intro j h; simp at h
    | cons a l ih =>
      intro j h hno
      rw [List.reverse_cons, List.find?_append]
      cases j with
      | zero =>
        simp at h; subst h
        have : l.reverse.find? (fun p => decide (p.1 = i)) = Option.none := by
          rw [List.find?_eq_none]
          intro p hp
          rw [List.mem_reverse] at hp
          obtain ⟨m, hm, hm'⟩ := List.getElem_of_mem hp
          simp only [decide_eq_true_eq]
          rintro rfl
          exact hno (m + 1) (by omega) p.2 (by simp [List.getElem?_eq_getElem hm, hm'])
        rw [this]; simp
      | succ j =>
        rw [ih j (by simpa using h) (fun j' hj' g => by
          have := hno (j' + 1) (by omega) g
          simpa using this)]
        rfl
  rw [key (ids.zip fns) j (List.getElem?_zip_eq_some.2 ⟨hj, hf⟩) (by
    intro j' hj' g h
    exact hl j' hj' (List.getElem?_zip_eq_some.1 h).1)]
  rfl

/-- The replacement pass, for arbitrary replacement functions. -/
theorem replaceNodes_ok {env : Env K α} {isLeaf : Obj K α → Bool} {t : PT K (Val α)} (hodd : NoOddTuples env t)
    {ids : List Id} {fns : List (Fn K α)} (hl : fns.length = ids.length) {out : PT K (Val α)}
    (h : replaceNodes env (seen2 env isLeaf t) ids fns = .ok out) :
    Replaced (seen2 env isLeaf t) t out ids (fun j π z => ∃ f y w, fns[j]? = some f ∧
      (seen2 env isLeaf t).get? π = some y ∧ f y = .ok w ∧ z = restore env.tuple w) := by
  simp only [replaceNodes, bind, Except.bind] at h
  split at h
  · exact absurd h (by simp)
  rename_i out' ho
  split at h
  · exact absurd h (by simp)
  rename_i hcount
  simp only [Except.ok.injEq] at h
  subst h
  obtain ⟨o, hshape, hjoin, hleaf⟩ := omap_ok.1 ho
  subst hjoin
  simp only [List.any_eq_true, decide_eq_true_eq, not_exists, not_and, Decidable.not_not] at hcount
  refine ⟨?_, ?_, ?_⟩
  · intro i hi
    have := hcount i hi
    unfold count treeLeaves at this
    rw [countP_one] at this
    obtain ⟨π, ⟨y, hy, hq⟩, hu⟩ := this
    refine ⟨π, (topmost_iff hi).2 ⟨y, hy, by simpa using hq⟩, ?_⟩
    intro π' hπ'
    obtain ⟨y', hy', e⟩ := (topmost_iff hi).1 hπ'
    exact hu π' ⟨y', hy', by simpa using e⟩
  · intro j i π hj hlast htop
    have hi : i ∈ ids := List.mem_of_getElem? hj
    have hjl : j < fns.length := by rw [hl]; exact (List.getElem?_eq_some_iff.1 hj).1
    obtain ⟨y, hy, hyi⟩ := (topmost_iff hi).1 htop
    obtain ⟨w, hw, hfw⟩ := hleaf π y hy
    have hlook := lookup_last hj (List.getElem?_eq_getElem hjl) hlast
    unfold makeReplacement at hfw
    rw [hyi, hlook] at hfw
    refine ⟨restore env.tuple w, ⟨fns[j], y, w, List.getElem?_eq_getElem hjl, (isCutLeaf_iff.2 hy).1, hfw, rfl⟩, ?_⟩
    rw [get?_restore, get?_join_nil hw]
    rfl
  · intro π hno
    rcases position_cases o π with ⟨σ, ρ, w, rfl, hw⟩ | ⟨_, h2⟩ | ⟨hno', h1, h2⟩
    · -- below a leaf that was not replaced
      have hs : (((seen2 env isLeaf t).cut (fun x => decide (idOf x ∈ ids))).leafAt? σ).isSome := by
        have := leafAt?_isSome_of_shape (c := retag Prod.snd ((seen2 env isLeaf t).cut (fun x => decide (idOf x ∈ ids))))
          (d := o) (by rw [shape_retag, hshape]) σ
        rw [leafAt?_retag] at this
        rw [this, hw]; rfl
      rw [Option.isSome_iff_exists] at hs
      obtain ⟨y, hy⟩ := hs
      obtain ⟨w', hw', hfw⟩ := hleaf σ y hy
      rw [hw] at hw'; cases hw'
      have hni : idOf y ∉ ids := fun hm => hno _ hm σ ρ rfl ((topmost_iff hm).2 ⟨y, hy, rfl⟩)
      unfold makeReplacement at hfw
      rw [(lookup_none hl).2 hni] at hfw
      simp only [removeWrapper'] at hfw
      have hget := (isCutLeaf_iff.2 hy).1
      rw [get?_seen2, Option.map_eq_some_iff] at hget
      obtain ⟨c, hc, rfl⟩ := hget
      cases c with
      | none => simp [wrapAll, label, removeWrapper] at hfw
      | node k cs => simp [wrapAll, label, removeWrapper] at hfw
      | leaf c =>
        simp only [wrapAll, label, removeWrapper, Except.ok.injEq] at hfw
        subst hfw
        have := cutTree_leaf hc
        rw [get?_seen1, Option.map_eq_some_iff] at this
        obtain ⟨x, hx, rfl⟩ := this
        rw [headAt?, get?_restore, get?_join hw, ← get?_restore, restore_seen1 env σ x (hodd.get? hx)]
        rw [headAt?, get?_append, hx]
        rfl
    · -- a container or None
      have h3 := headAt?_of_shape (c := o) (d := retag Prod.snd ((seen2 env isLeaf t).cut (fun x => decide (idOf x ∈ ids))))
        (by rw [shape_retag, hshape]) π
      have hjn := headAt?_join_of_not_leaf (c := o) (π := π)
      have hj2 := headAt?_join_of_not_leaf (c := (seen2 env isLeaf t).cut (fun x => decide (idOf x ∈ ids))) (π := π)
      rw [join_cut] at hj2
      have hct := cutTree_head (env := env) (isLeaf := isLeaf) (t := t) (π := π)
      have hse : ∀ hd, (seen2 env isLeaf t).headAt? π = some hd → (hd = .none → (cutTree env isLeaf t).headAt? π = some .none) ∧
          (∀ ik n, hd = .node ik n → (cutTree env isLeaf t).headAt? π = some (.node ik.2 n)) := by
        intro hd hh
        rw [headAt?, get?_seen2] at hh
        cases hc : (cutTree env isLeaf t).get? π with
        | none => rw [hc] at hh; simp at hh
        | some c =>
          rw [hc] at hh
          cases c with
          | leaf c => simp [wrapAll, label, head] at hh; subst hh; simp
          | none => simp [wrapAll, label, head] at hh; subst hh; simp [headAt?, hc, head]
          | node k cs =>
            simp only [wrapAll, label, Option.map_some, head, length_labelL, Option.some.injEq] at hh
            subst hh
            simp [headAt?, hc, head]
      rcases h2 with h2 | ⟨k, n, h2⟩
      · have e1 := hjn.2 h2
        have e2 := h3.2.1 h2
        rw [headAt?_retag, Option.map_eq_some_iff] at e2
        obtain ⟨hd, e2, e3⟩ := e2
        have : hd = .none := by cases hd <;> simp at e3 ⊢
        subst this
        have e4 := hct.2 ((hse _ (hj2.2 e2)).1 rfl)
        rw [e4]
        simp only [headAt?, Option.map_eq_some_iff] at e1 ⊢
        obtain ⟨z, hz, hz'⟩ := e1
        refine ⟨restore env.tuple z, by rw [get?_restore, hz]; rfl, ?_⟩
        cases z <;> simp [head] at hz' ⊢
        simp [restore]
      · have e1 := hjn.1 k n h2
        have e2 := (h3.1 k n).1 h2
        rw [headAt?_retag, Option.map_eq_some_iff] at e2
        obtain ⟨hd, e2, e3⟩ := e2
        cases hd with
        | leaf a => simp at e3
        | none => simp at e3
        | node ik m =>
          simp only [Head.node.injEq] at e3
          obtain ⟨rfl, rfl⟩ := e3
          have e4 := hct.1 _ _ ((hse _ (hj2.1 _ _ e2)).2 _ _ rfl)
          rw [e4]
          simp only [headAt?, Option.map_eq_some_iff] at e1 ⊢
          obtain ⟨z, hz, hz'⟩ := e1
          refine ⟨restore env.tuple z, by rw [get?_restore, hz]; rfl, ?_⟩
          cases z <;> simp [head] at hz'
          simp [restore, restoreL_eq, head, hz']
    · -- no such position
      have e1 : (restore env.tuple o.join).headAt? π = Option.none := by
        rw [headAt?, get?_restore]
        rw [headAt?, Option.map_eq_none_iff] at h2
        rw [h2]; rfl
      rw [e1]
      have hnl : ∀ σ ρ y, π = σ ++ ρ → ((seen2 env isLeaf t).cut (fun x => decide (idOf x ∈ ids))).leafAt? σ ≠ some y := by
        intro σ ρ y e hy
        obtain ⟨w, hw, _⟩ := hleaf σ y hy
        exact hno' σ ρ w e hw
      symm
      rw [headAt?, Option.map_eq_none_iff]
      have hs2 : (seen2 env isLeaf t).get? π = Option.none := by
        rcases position_cases ((seen2 env isLeaf t).cut (fun x => decide (idOf x ∈ ids))) π with ⟨σ, ρ, w, e, hw⟩ | ⟨_, h2⟩ | ⟨_, _, h2⟩
        · exact absurd hw (hnl σ ρ w e)
        · have h3 := headAt?_of_shape (c := o) (d := retag Prod.snd ((seen2 env isLeaf t).cut (fun x => decide (idOf x ∈ ids))))
            (by rw [shape_retag, hshape]) π
          rcases h2 with h2 | ⟨k, n, h2⟩
          · have := h3.2.2 (by rw [headAt?_retag, h2]; rfl)
            rw [h1] at this; exact absurd this (by simp)
          · have := (h3.1 k.2 n).2 (by rw [headAt?_retag, h2]; rfl)
            rw [h1] at this; exact absurd this (by simp)
        · rw [join_cut, headAt?, Option.map_eq_none_iff] at h2
          exact h2
      have hct : (cutTree env isLeaf t).get? π = Option.none := by
        rw [get?_seen2, Option.map_eq_none_iff] at hs2; exact hs2
      have hs1 : (seen1 env t).get? π = Option.none := by
        rcases position_cases ((seen1 env t).cut (fun x => isLeaf (plain x))) π with ⟨σ, ρ, w, e, hw⟩ | ⟨_, h2⟩ | ⟨_, _, h2⟩
        · have hcl : (cutTree env isLeaf t).get? σ = some (.leaf w) := by
            rw [← leafAt?_eq_some, cutTree, leafAt?_retag]; exact hw
          have hsl : (seen2 env isLeaf t).headAt? σ = some (.leaf (.wrap (.made 2 σ) w)) := by
            rw [headAt?, get?_seen2, hcl]; rfl
          rcases position_cases ((seen2 env isLeaf t).cut (fun x => decide (idOf x ∈ ids))) σ with ⟨σ', ρ', w', e', hw'⟩ | ⟨_, h2⟩ | ⟨_, _, h2⟩
          · exact absurd hw' (hnl σ' (ρ' ++ ρ) w' (by rw [e, e', List.append_assoc]))
          · have hj := headAt?_join_of_not_leaf (c := (seen2 env isLeaf t).cut (fun x => decide (idOf x ∈ ids))) (π := σ)
            rw [join_cut, hsl] at hj
            rcases h2 with h2 | ⟨k, n, h2⟩
            · exact absurd (hj.2 h2) (by simp)
            · exact absurd (hj.1 k n h2) (by simp)
          · rw [join_cut, hsl] at h2
            exact absurd h2 (by simp)
        · have : ((cutTree env isLeaf t).headAt? π).isSome := by
            rw [cutTree, headAt?_retag]
            rcases h2 with h2 | ⟨k, n, h2⟩ <;> rw [h2] <;> rfl
          rw [headAt?, hct] at this
          exact absurd this (by simp)
        · rw [join_cut, headAt?, Option.map_eq_none_iff] at h2
          exact h2
      rw [get?_seen1, Option.map_eq_none_iff] at hs1
      exact hs1

end TreeAt
end Verif
