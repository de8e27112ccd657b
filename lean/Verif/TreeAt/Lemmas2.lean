import Verif.TreeAt.Lemmas

/-! # Lemmas about `tree_at`: selectors, unwrapping, success -/

namespace Verif
namespace TreeAt

open PT

variable {K K' α β γ : Type}

theorem get?_join_sub {c c' : PT K (PT K β)} {π} (h : c.get? π = some c') : c.join.get? π = some c'.join := by
  induction π generalizing c with
  | nil => simp [get?] at h; subst h; simp [get?]
  | cons i π ih =>
    cases c with
    | leaf a => simp [get?] at h
    | none => simp [get?] at h
    | node k cs =>
      simp only [get?] at h
      cases hc : cs[i]? with
      | none => simp [hc] at h
      | some d =>
        simp only [hc, Option.bind_some] at h
        simp [join, joinL_eq, get?, hc, ih h]

theorem get?_map' (f : β → γ) (t : PT K β) (π) : (t.map f).get? π = (t.get? π).map (PT.map f) := by
  induction π generalizing t with
  | nil => simp [get?]
  | cons i π ih =>
    cases t with
    | leaf a => simp [PT.map, get?]
    | none => simp [PT.map, get?]
    | node k cs =>
      simp only [PT.map, get?, mapL_eq, List.getElem?_map]
      cases cs[i]? with
      | none => rfl
      | some c => simp [ih]

theorem get?_cut {p : PT K β → Bool} {t : PT K β} {π c} (h : (t.cut p).get? π = some c) :
    ∃ x, t.get? π = some x ∧ c = x.cut p := by
  induction π generalizing t with
  | nil => simp [get?] at h; subst h; exact ⟨t, by simp [get?], rfl⟩
  | cons i π ih =>
    cases t with
    | leaf a => simp [cut, get?] at h
    | none => simp only [cut] at h; split at h <;> simp [get?] at h
    | node k cs =>
      simp only [cut] at h
      split at h
      · simp [get?] at h
      · simp only [get?, cutL_eq, List.getElem?_map] at h
        cases hc : cs[i]? with
        | none => simp [hc] at h
        | some d =>
          simp only [hc, Option.map_some, Option.bind_some] at h
          obtain ⟨x, hx, e⟩ := ih h
          exact ⟨x, by simp [get?, hc, hx], e⟩

theorem cut_map (f : β → γ) (p : PT K γ → Bool) (t : PT K β) :
    (t.map f).cut p = (t.cut (fun x => p (x.map f))).map (PT.map f) := by
  induction t using PT.ind with
  | leaf a => simp [PT.map, cut]
  | none =>
    cases h : p (PT.none : PT K γ) <;> simp [PT.map, cut, h]
  | node k cs ih =>
    cases h : p (PT.node k (cs.map (PT.map f)))
    · simp only [PT.map, cut, mapL_eq, h, cutL_eq, List.map_map, Bool.false_eq_true, if_false, PT.node.injEq, true_and]
      exact List.map_congr_left ih
    · simp [PT.map, cut, mapL_eq, h]

theorem retag_join (f : K → K') (c : PT K (PT K β)) : ((retag f c).map (retag f)).join = retag f c.join := by
  induction c using PT.ind with
  | leaf a => simp [retag, PT.map, join]
  | none => simp [retag, PT.map, join]
  | node k cs ih =>
    simp only [retag, PT.map, join, retagL_eq, mapL_eq, joinL_eq, List.map_map, PT.node.injEq, true_and]
    exact List.map_congr_left ih

theorem mapE_append {f : β → Except Err γ} {xs ys : List β} {xs' ys' : List γ} (hx : mapE f xs = .ok xs')
    (hy : mapE f ys = .ok ys') : mapE f (xs ++ ys) = .ok (xs' ++ ys') := by
  induction xs generalizing xs' with
  | nil => simp [mapE] at hx; subst hx; simpa using hy
  | cons x xs ih =>
    simp only [mapE, bind, Except.bind, List.cons_append] at hx ⊢
    cases hfx : f x with
    | error e => rw [hfx] at hx; exact absurd hx (by simp)
    | ok y =>
      rw [hfx] at hx
      cases hm : mapE f xs with
      | error e => rw [hm] at hx; exact absurd hx (by simp)
      | ok l =>
        rw [hm] at hx
        simp only [pure, Except.pure, Except.ok.injEq] at hx
        subst hx
        rw [ih hm]
        rfl

/-- The contents of the wrappers, from left to right. -/
theorem unwrap_leaves [DecidableEq K] (tup : K) (π : List Nat) (c : PT K (PT (Id × K) (Raw α))) :
    mapE removeWrapper ((wrapAll tup π c).leaves.map PT.leaf) = .ok c.leaves := by
  unfold wrapAll
  induction c using PT.ind generalizing π with
  | leaf a => rfl
  | none => rfl
  | node k cs ih =>
    simp only [label, leaves]
    have : ∀ (cs : List (PT K (PT (Id × K) (Raw α)))) (i : Nat), (∀ c ∈ cs, ∀ π,
        mapE removeWrapper ((label (newId tup 2) (fun π c => Leaf.wrap (Id.made 2 π) c) π c).leaves.map PT.leaf) = .ok c.leaves) →
        mapE removeWrapper ((leavesL (labelL (newId tup 2) (fun π c => Leaf.wrap (Id.made 2 π) c) π i cs)).map PT.leaf) =
          .ok (leavesL cs) := by
      intro cs
      induction cs with
      | nil => intro i _; rfl
      | cons c cs ih2 =>
        intro i h
        simp only [labelL, leavesL, List.map_append]
        exact mapE_append (h c (by simp) _) (ih2 (i + 1) (fun d hd => h d (List.mem_cons_of_mem _ hd)))
    exact this cs 0 (fun c hc π => ih c hc π)

theorem mapE_comp {f : β → Except Err γ} {g : γ → β'} {xs : List β} {ys : List γ} (h : mapE f xs = .ok ys) :
    mapE (fun x => match f x with | .ok y => .ok (g y) | .error e => .error e) xs = .ok (ys.map g) := by
  rw [mapE_ok] at h ⊢
  refine ⟨by simpa using h.1, ?_⟩
  intro i x hx
  obtain ⟨y, hy, hf⟩ := h.2 i x hx
  exact ⟨g y, by simp [hy], by rw [hf]⟩

/-- Unwrapping a copied tree. -/
theorem omap_unwrap [DecidableEq K] (tup : K) (π : List Nat) (c : PT K (PT (Id × K) (Raw α))) :
    omap noLeaf removeWrapper' (wrapAll tup π c) = .ok (c.map (retag Prod.snd)).join := by
  have h1 : (wrapAll tup π c).treeLeaves noLeaf = (wrapAll tup π c).leaves.map PT.leaf := by
    unfold treeLeaves; rw [cut_noLeaf, leaves_map]
  have h2 : structureOf noLeaf (wrapAll tup π c) = c.shape := by
    unfold structureOf treeStructure
    rw [cut_noLeaf, shape_map]
    exact shape_label (newId tup 2) _ π c
  have h3 := mapE_comp (g := retag (Prod.snd : Id × K → K)) (unwrap_leaves tup π c)
  have h4 : mapE removeWrapper' ((wrapAll tup π c).leaves.map PT.leaf) = .ok (c.leaves.map (retag Prod.snd)) := by
    rw [← h3]
    congr 1
    funext x
    simp only [removeWrapper', bind, Except.bind, pure, Except.pure]
    cases removeWrapper x <;> rfl
  simp only [omap, bind, Except.bind, h1, h4, h2]
  rw [← shape_map (retag (Prod.snd : Id × K → K)) c, ← leaves_map]
  exact treeUnflatten_shape _

variable [DecidableEq K]

theorem cutTree_sub {env : Env K α} {isLeaf : Obj K α → Bool} {t : PT K (Val α)} {π c}
    (h : (cutTree env isLeaf t).get? π = some c) :
    ∃ x, t.get? π = some x ∧
      c = retag Prod.snd ((label (newId env.tuple 1) (fun _ r => r) π (distinct env π x)).cut (fun x => isLeaf (plain x))) := by
  rw [cutTree, get?_retag, Option.map_eq_some_iff] at h
  obtain ⟨c', hc', rfl⟩ := h
  obtain ⟨x, hx, rfl⟩ := get?_cut hc'
  rw [get?_seen1, Option.map_eq_some_iff] at hx
  obtain ⟨y, hy, rfl⟩ := hx
  exact ⟨y, hy, rfl⟩

/-- There are no empty tuples left. -/
theorem idOf_wrapAll {env : Env K α} {isLeaf : Obj K α → Bool} {t : PT K (Val α)} {π c}
    (h : (cutTree env isLeaf t).get? π = some c) :
    idOf (wrapAll env.tuple π c) = if c.isNone then Id.none else Id.made 2 π := by
  obtain ⟨x, hx, e⟩ := cutTree_sub h
  cases c with
  | leaf a => simp [wrapAll, label, idOf, isNone]
  | none => simp [wrapAll, label, idOf, isNone]
  | node k cs =>
    have hne : ¬ (k = env.tuple ∧ cs.length = 0) := by
      cases x with
      | leaf a =>
        obtain ⟨n, v⟩ := a
        simp only [distinct] at e
        split at e <;> simp [label, cut, retag] at e
      | none =>
        simp only [distinct, label, cut] at e
        split at e <;> simp [retag] at e
      | node k' cs' =>
        simp only [distinct] at e
        split at e
        · simp [label, cut, retag] at e
        · rename_i hn
          simp only [label, cut] at e
          split at e
          · simp [retag] at e
          · simp only [retag, PT.node.injEq, retagL_eq, cutL_eq] at e
            obtain ⟨rfl, rfl⟩ := e
            rintro ⟨hk, hl⟩
            simp only [List.length_map, length_labelL, length_distinctL] at hl
            exact hn ⟨hk, by rw [List.isEmpty_iff]; exact List.eq_nil_of_length_eq_zero hl⟩
    simp only [wrapAll, label, idOf, isNone, newId]
    rw [if_neg hne]
    rfl

/-- What `replace_fn` is given is the original subtree (with empty tuples replaced by equal objects). -/
theorem unwrapped {env : Env K α} {isLeaf : Obj K α → Bool} {t : PT K (Val α)} (hodd : NoOddTuples env t) {π y}
    (h : (seen2 env isLeaf t).get? π = some y) :
    ∃ x, omap noLeaf removeWrapper' y = .ok x ∧ t.get? π = some (restore env.tuple x) := by
  rw [get?_seen2, Option.map_eq_some_iff] at h
  obtain ⟨c, hc, rfl⟩ := h
  obtain ⟨x, hx, rfl⟩ := cutTree_sub hc
  refine ⟨_, omap_unwrap env.tuple π _, ?_⟩
  rw [retag_join, join_cut, restore_seen1 env π x (hodd.get? hx)]
  exact hx

/-! ### Finding objects -/

omit [DecidableEq K] in
theorem occurs_iff (i : Id) (x : Obj K α) : occurs i x = true ↔ ∃ π, At x i π := by
  induction x using PT.ind with
  | leaf a =>
    constructor
    · intro h
      refine ⟨[], .leaf a, rfl, ?_⟩
      cases a <;> simpa [occurs, idOf] using h
    · rintro ⟨π, y, hy, rfl⟩
      cases π with
      | nil => simp [get?] at hy; subst hy; cases a <;> simp [occurs, idOf]
      | cons => simp [get?] at hy
  | none =>
    constructor
    · intro h; exact ⟨[], .none, rfl, by simpa [occurs, idOf] using h⟩
    · rintro ⟨π, y, hy, rfl⟩
      cases π with
      | nil => simp [get?] at hy; subst hy; simp [occurs, idOf]
      | cons => simp [get?] at hy
  | node k cs ih =>
    have hL : ∀ cs : List (Obj K α), occursL i cs = true ↔ ∃ c ∈ cs, occurs i c = true := by
      intro cs
      induction cs with
      | nil => simp [occursL]
      | cons c cs ih => simp [occursL, ih]
    simp only [occurs, Bool.or_eq_true, hL]
    constructor
    · rintro (h | ⟨c, hc, h⟩)
      · exact ⟨[], _, rfl, by simpa [idOf] using h⟩
      · obtain ⟨π, y, hy, e⟩ := (ih c hc).1 h
        obtain ⟨j, hj, hj'⟩ := List.getElem_of_mem hc
        exact ⟨j :: π, y, by simp [get?, List.getElem?_eq_getElem hj, hj', hy], e⟩
    · rintro ⟨π, y, hy, rfl⟩
      cases π with
      | nil => simp [get?] at hy; subst hy; left; simp [idOf]
      | cons j π =>
        right
        simp only [get?] at hy
        cases hc : cs[j]? with
        | none => simp [hc] at hy
        | some c =>
          simp only [hc, Option.bind_some] at hy
          have hcm := List.mem_of_getElem? hc
          exact ⟨c, hcm, (ih c hcm).2 ⟨π, y, hy, rfl⟩⟩

/-- Identities in the tree which `where` sees. -/
theorem at_seen2 {env : Env K α} {isLeaf : Obj K α → Bool} {t : PT K (Val α)} {i π}
    (h : At (seen2 env isLeaf t) i π) : i = .none ∨ i = .made 2 π := by
  obtain ⟨y, hy, rfl⟩ := h
  rw [get?_seen2, Option.map_eq_some_iff] at hy
  obtain ⟨c, hc, rfl⟩ := hy
  rw [idOf_wrapAll hc]
  split <;> simp

theorem at_none {env : Env K α} {isLeaf : Obj K α → Bool} {t : PT K (Val α)} {π y}
    (h : (seen2 env isLeaf t).get? π = some y) : idOf y = .none ↔ y = .none := by
  rw [get?_seen2, Option.map_eq_some_iff] at h
  obtain ⟨c, hc, rfl⟩ := h
  rw [idOf_wrapAll hc]
  cases c <;> simp [isNone, wrapAll, label]

/-! ### Success -/

/-- The replacement pass succeeds when every selected object is found exactly once and no replacement function
raises. -/
theorem replaceNodes_complete {env : Env K α} {isLeaf : Obj K α → Bool} {t : PT K (Val α)}
    {ids : List Id} {fns : List (Fn K α)} (hl : fns.length = ids.length)
    (honce : ∀ i ∈ ids, ∃ π, Topmost (seen2 env isLeaf t) ids i π ∧ ∀ π', Topmost (seen2 env isLeaf t) ids i π' → π' = π)
    (hf : ∀ f ∈ fns, ∀ π y, (seen2 env isLeaf t).get? π = some y → idOf y ∈ ids → Except.Ok (f y)) :
    Except.Ok (replaceNodes env (seen2 env isLeaf t) ids fns) := by
  have hfn : ∀ π y, ((seen2 env isLeaf t).cut (fun x => decide (idOf x ∈ ids))).leafAt? π = some y →
      ∃ z, makeReplacement ids fns y = .ok z := by
    intro π y hy
    have hc := isCutLeaf_iff.2 hy
    unfold makeReplacement
    cases hlk : lookup ids fns (idOf y) with
    | some f =>
      simp only
      have hm : idOf y ∈ ids := by
        have := mt (lookup_none hl (i := idOf y)).2
        rw [hlk] at this
        exact Decidable.not_not.1 (this (by simp))
      have hfm : f ∈ fns := by
        unfold lookup at hlk
        rw [Option.map_eq_some_iff] at hlk
        obtain ⟨p, hp, rfl⟩ := hlk
        have := List.mem_of_find?_eq_some hp
        rw [List.mem_reverse] at this
        exact (List.of_mem_zip this).2
      obtain ⟨z, hz⟩ := hf f hfm π y hc.1 hm
      exact ⟨z, hz⟩
    | none =>
      simp only
      have hni := (lookup_none hl).1 hlk
      have hget := hc.1
      rw [get?_seen2, Option.map_eq_some_iff] at hget
      obtain ⟨c, hcc, rfl⟩ := hget
      cases c with
      | leaf a => exact ⟨_, rfl⟩
      | none =>
        rcases hc.2.1 with ⟨a, ha⟩ | hd
        · simp [wrapAll, label] at ha
        · simp only [decide_eq_true_eq] at hd; exact absurd hd hni
      | node k cs =>
        rcases hc.2.1 with ⟨a, ha⟩ | hd
        · simp [wrapAll, label] at ha
        · simp only [decide_eq_true_eq] at hd; exact absurd hd hni
  have hom : Except.Ok (omap (fun x => decide (idOf x ∈ ids)) (makeReplacement ids fns) (seen2 env isLeaf t)) := by
    obtain ⟨o, ho, ho'⟩ := exists_of_shape (retag Prod.snd ((seen2 env isLeaf t).cut (fun x => decide (idOf x ∈ ids))))
      (fun π z => ∀ y, ((seen2 env isLeaf t).cut (fun x => decide (idOf x ∈ ids))).leafAt? π = some y →
        makeReplacement ids fns y = .ok z) (by
        intro π y hy
        rw [leafAt?_retag] at hy
        obtain ⟨z, hz⟩ := hfn π y hy
        refine ⟨z, ?_⟩
        intro y' hy'
        rw [hy] at hy'; cases hy'
        exact hz)
    refine ⟨o.join, omap_ok.2 ⟨o, by rw [← shape_retag]; exact ho, rfl, ?_⟩⟩
    intro π y hy
    have hs : (o.leafAt? π).isSome := by
      rw [leafAt?_isSome_of_shape ho, leafAt?_retag, hy]; rfl
    rw [Option.isSome_iff_exists] at hs
    obtain ⟨z, hz⟩ := hs
    exact ⟨z, hz, ho' π z hz y hy⟩
  obtain ⟨out, hout⟩ := hom
  refine ⟨restore env.tuple out, ?_⟩
  simp only [replaceNodes, bind, Except.bind, hout]
  rw [if_neg]
  rw [List.any_eq_true]
  rintro ⟨i, hi, hne⟩
  apply absurd hne
  simp only [decide_not, Bool.not_eq_true', decide_eq_false_iff_not, Decidable.not_not]
  unfold count treeLeaves
  rw [countP_one]
  obtain ⟨π, hπ, hu⟩ := honce i hi
  obtain ⟨y, hy, e⟩ := (topmost_iff hi).1 hπ
  refine ⟨π, ⟨y, hy, by simpa using e⟩, ?_⟩
  rintro π' ⟨y', hy', e'⟩
  exact hu π' ((topmost_iff hi).2 ⟨y', hy', by simpa using e'⟩)

omit [DecidableEq K] in
/-- A successful replacement pass found every selected object exactly once. -/
theorem replaceNodes_once {env : Env K α} {x : Obj K α} {ids : List Id} {fns : List (Fn K α)} {out}
    (h : replaceNodes env x ids fns = .ok out) :
    ∀ i ∈ ids, ∃ π, Topmost x ids i π ∧ ∀ π', Topmost x ids i π' → π' = π := by
  intro i hi
  simp only [replaceNodes, bind, Except.bind] at h
  split at h
  · exact absurd h (by simp)
  · split at h
    · exact absurd h (by simp)
    · rename_i hany
      have hc : count ids x i = 1 := by
        apply Decidable.byContradiction
        intro hne
        exact hany (List.any_eq_true.2 ⟨i, hi, by simpa using hne⟩)
      unfold count treeLeaves at hc
      rw [countP_one] at hc
      obtain ⟨π, ⟨y, hy, e⟩, hu⟩ := hc
      refine ⟨π, (topmost_iff hi).2 ⟨y, hy, by simpa using e⟩, ?_⟩
      intro π' hπ'
      obtain ⟨y', hy', e'⟩ := (topmost_iff hi).1 hπ'
      exact hu π' ⟨y', hy', by simpa using e'⟩

/-! ### Selectors -/

/-- The two results of a selector agree, part by part. -/
theorem checkWhere_part {env : Env K α} {isLeaf : Obj K α → Bool} {t : PT K (Val α)} {p : List Nat} {r2 : Obj K α}
    (h2 : (seen2 env isLeaf t).get? p = some r2) :
    ∃ r1, (plain (seen1 env t)).get? p = some r1 ∧ structureOf isLeaf r1 = structureOf noLeaf r2 ∧
      ∃ cs, mapE removeWrapper (r2.treeLeaves noLeaf) = .ok cs ∧
        (r1.treeLeaves isLeaf).map idOf = cs.map (fun c => idOf (plain c)) := by
  rw [get?_seen2, Option.map_eq_some_iff] at h2
  obtain ⟨c, hc, rfl⟩ := h2
  obtain ⟨x, hx, rfl⟩ := cutTree_sub hc
  refine ⟨plain (label (newId env.tuple 1) (fun _ r => r) p (distinct env p x)), ?_, ?_, ?_⟩
  · rw [get?_plain, get?_seen1, hx]; rfl
  · unfold structureOf treeStructure
    rw [cut_noLeaf, shape_map]
    have := shape_label (newId env.tuple 2) (fun π c => Leaf.wrap (.made 2 π) c) p
      (retag Prod.snd ((label (newId env.tuple 1) (fun _ r => r) p (distinct env p x)).cut (fun x => isLeaf (plain x))))
    unfold wrapAll
    rw [this, shape_retag]
    unfold plain
    rw [cut_map, shape_map]
  · refine ⟨(retag Prod.snd ((label (newId env.tuple 1) (fun _ r => r) p (distinct env p x)).cut (fun x => isLeaf (plain x)))).leaves, ?_, ?_⟩
    · have h1 : (wrapAll env.tuple p (retag Prod.snd ((label (newId env.tuple 1) (fun _ r => r) p (distinct env p x)).cut (fun x => isLeaf (plain x))))).treeLeaves noLeaf
          = (wrapAll env.tuple p (retag Prod.snd ((label (newId env.tuple 1) (fun _ r => r) p (distinct env p x)).cut (fun x => isLeaf (plain x))))).leaves.map PT.leaf := by
        unfold treeLeaves; rw [cut_noLeaf, leaves_map]
      rw [h1]
      exact unwrap_leaves env.tuple p _
    · rw [leaves_retag]
      unfold treeLeaves plain
      rw [cut_map, leaves_map, List.map_map]
      rfl

theorem checkWhere_one {env : Env K α} {isLeaf : Obj K α → Bool} {t : PT K (Val α)} {p : List Nat} {r2 : Obj K α}
    (h2 : (seen2 env isLeaf t).get? p = some r2) :
    ∃ r1, (plain (seen1 env t)).get? p = some r1 ∧ checkWhere isLeaf r1 r2 = .ok () := by
  obtain ⟨r1, h1, hs, cs, hcs, hids⟩ := checkWhere_part h2
  refine ⟨r1, h1, ?_⟩
  simp only [checkWhere, bind, Except.bind, hcs, hs, hids]
  simp

theorem checkWhere_many {env : Env K α} {isLeaf : Obj K α → Bool} {t : PT K (Val α)} {ps : List (List Nat)}
    {rs2 : List (Obj K α)} (h2 : getAll (seen2 env isLeaf t) ps = some rs2) (k : K) (n : Nat)
    (hleaf : ∀ rs, isLeaf (.node (.given n, k) rs) = false) :
    ∃ rs1, getAll (plain (seen1 env t)) ps = some rs1 ∧
      checkWhere isLeaf (.node (.given n, k) rs1) (.node (.given n, k) rs2) = .ok () := by
  have key : ∃ rs1, getAll (plain (seen1 env t)) ps = some rs1 ∧
      rs1.map (structureOf isLeaf) = rs2.map (structureOf noLeaf) ∧
      ∃ cs, mapE removeWrapper (rs2.flatMap (treeLeaves noLeaf)) = .ok cs ∧
        (rs1.flatMap (treeLeaves isLeaf)).map idOf = cs.map (fun c => idOf (plain c)) := by
    induction ps generalizing rs2 with
    | nil =>
      simp only [getAll, Option.some.injEq] at h2; subst h2
      exact ⟨[], rfl, rfl, [], rfl, rfl⟩
    | cons p ps ih =>
      simp only [getAll, Option.bind_eq_some_iff, Option.map_eq_some_iff] at h2
      obtain ⟨r2, hr2, rs2', hrs2, rfl⟩ := h2
      obtain ⟨r1, h1, hs, cs, hcs, hids⟩ := checkWhere_part hr2
      obtain ⟨rs1, e1, e2, cs', e3, e4⟩ := ih hrs2
      refine ⟨r1 :: rs1, by simp [getAll, h1, e1], by simp [hs, e2], cs ++ cs', ?_, ?_⟩
      · simp only [List.flatMap_cons]
        exact mapE_append hcs e3
      · simp [hids, e4]
  obtain ⟨rs1, e1, e2, cs, e3, e4⟩ := key
  refine ⟨rs1, e1, ?_⟩
  have hl1 : (PT.node (Id.given n, k) rs1 : Obj K α).treeLeaves isLeaf = rs1.flatMap (treeLeaves isLeaf) := by
    simp only [treeLeaves, cut, hleaf, Bool.false_eq_true, if_false, leaves, cutL_eq, leavesL_eq, List.flatMap_map]
    rfl
  have hl2 : (PT.node (Id.given n, k) rs2 : Obj K α).treeLeaves noLeaf = rs2.flatMap (treeLeaves noLeaf) := by
    simp only [treeLeaves, cut, noLeaf, Bool.false_eq_true, if_false, leaves, cutL_eq, leavesL_eq, List.flatMap_map]
    rfl
  have hs1 : structureOf isLeaf (PT.node (Id.given n, k) rs1 : Obj K α) = .node k (rs1.map (structureOf isLeaf)) := by
    simp only [structureOf, treeStructure, cut, hleaf, Bool.false_eq_true, if_false, shape, PT.map, retag, retagL_eq, cutL_eq, mapL_eq, List.map_map]
    rfl
  have hs2 : structureOf noLeaf (PT.node (Id.given n, k) rs2 : Obj K α) = .node k (rs2.map (structureOf noLeaf)) := by
    simp only [structureOf, treeStructure, cut, noLeaf, Bool.false_eq_true, if_false, shape, PT.map, retag, retagL_eq, cutL_eq, mapL_eq, List.map_map]
    rfl
  simp only [checkWhere, bind, Except.bind, hl1, hl2, hs1, hs2, e2, e3, e4]
  simp

end TreeAt
end Verif
