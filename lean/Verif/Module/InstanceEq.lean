import Verif.Module.InstanceProps

/-! # C35: flattening, equality and hashes of whole objects -/

namespace Verif.Module

open TreeEqual (Env Res treeEqual TreeEq LeafEq)

variable {N C K A E V W : Type} [DecidableEq N]

theorem flattenFields_mem {d : Dict N V} {fs : List (Field N)} {p : N × V}
    (h : p ∈ (flattenFields d fs).1 ∨ p ∈ (flattenFields d fs).2) : d.get? p.1 = some p.2 := by
  induction fs with
  | nil => simp [flattenFields] at h
  | cons f fs ih =>
    simp only [flattenFields] at h
    cases hf : Dict.get? d f.name with
    | none => rw [hf] at h; exact ih h
    | some v =>
      rw [hf] at h
      cases hs : f.static with
      | true =>
        simp only [hs, if_true, List.mem_cons] at h
        rcases h with h | rfl | h
        · exact ih (.inl h)
        · exact hf
        · exact ih (.inr h)
      | false =>
        simp only [hs, Bool.false_eq_true, if_false, List.mem_cons] at h
        rcases h with (rfl | h) | h
        · exact hf
        · exact ih (.inl h)
        · exact ih (.inr h)

theorem flattenModule_child {info : Info N C V} {c : C} {ns : List N} {vs : List V} {v : V}
    (h : v ∈ (flattenModule info c (ns.zip vs)).1) : v ∈ vs := by
  simp only [flattenModule] at h
  obtain ⟨p, hp, rfl⟩ := List.mem_map.1 h
  have := Dict.mem_of_get? _ (flattenFields_mem (.inl hp))
  exact (List.of_mem_zip this).2

theorem Aux.map_id (a : Aux N V) : a.map id = a := by
  simp [Aux.map]

theorem map_eq_self {l : List V} {f : V → V} (h : ∀ x ∈ l, f x = x) : l.map f = l := by
  induction l with
  | nil => rfl
  | cons a l ih => simp [h a (by simp), ih (fun x hx => h x (List.mem_cons_of_mem _ hx))]

/-- Trees of the structure of some object are what flattening gives for the object built from them. -/
theorem toPT_fromPT {info : Info N C (Obj N C K A)} (hok : info.OK) (hdis : info.Disjoint) (o : Obj N C K A) :
    ∀ t : PT (Key N C K (Obj N C K A)) A, t.shape = (toPT info id o).shape → toPT info id (fromPT t) = t := by
  -- lists of children of the same shapes
  have hlist : ∀ (os : List (Obj N C K A)),
      (∀ o ∈ os, ∀ t : PT (Key N C K (Obj N C K A)) A, t.shape = (toPT info id o).shape → toPT info id (fromPT t) = t) →
      ∀ cs : List (PT (Key N C K (Obj N C K A)) A), cs.map PT.shape = (os.map (toPT info id)).map PT.shape →
        (cs.map fromPT).map (toPT info id) = cs := by
    intro os ih cs h
    induction os generalizing cs with
    | nil => cases cs with
      | nil => rfl
      | cons _ _ => simp at h
    | cons o os ihos =>
      cases cs with
      | nil => simp at h
      | cons c cs =>
        simp only [List.map_cons, List.cons.injEq] at h ⊢
        exact ⟨ih o (by simp) c h.1, ihos (fun o ho => ih o (List.mem_cons_of_mem _ ho)) cs h.2⟩
  induction o using Obj.ind with
  | leaf a =>
    intro t ht
    cases t with
    | leaf b => rfl
    | none => simp [toPT] at ht
    | node k cs => simp [toPT] at ht
  | none =>
    intro t ht
    cases t with
    | leaf b => simp [toPT] at ht
    | none => rfl
    | node k cs => simp [toPT] at ht
  | node k os ih =>
    intro t ht
    cases t with
    | leaf b => simp [toPT] at ht
    | none => simp [toPT] at ht
    | node k' cs =>
      rw [toPT, toPTL_eq, PT.shape_node, PT.shape_node] at ht
      injection ht with h1 h2
      subst h1
      rw [fromPT, toPT, toPTL_eq, fromPTL_eq, hlist os ih cs h2]
  | inst c ns vs ih =>
    intro t ht
    cases t with
    | leaf b => simp [toPT] at ht
    | none => simp [toPT] at ht
    | node k' cs =>
      rw [toPT_inst, PT.shape_node, PT.shape_node] at ht
      injection ht with h1 h2
      subst h1
      rw [Aux.map_id, fromPT]
      rw [toPT_inst, zip_fst_snd, fromPTL_eq]
      have hl : (cs.map fromPT).length = (flattenModule info c (ns.zip vs)).1.length := by
        have := congrArg List.length h2
        simpa using this
      rw [flatten_unflatten hok hdis hl]
      simp only [Aux.map_id]
      rw [hlist _ (fun o ho => ih o (flattenModule_child ho)) cs h2]

/-- **C35**, other leaves (what `tree_map` relies on): unflattening with any leaves, as many as there are, gives an
object with these leaves and the same structure. -/
theorem unflatten_leaves {info : Info N C (Obj N C K A)} (hok : info.OK) (hdis : info.Disjoint) (o : Obj N C K A)
    {xs : List A} (hl : xs.length = (treeFlatten info o).1.length) :
    ∃ o', treeUnflattenObj (treeFlatten info o).2 xs = .ok o' ∧ treeFlatten info o' = (xs, (treeFlatten info o).2) := by
  obtain ⟨t, h1, h2⟩ := PT.exists_fill (toPT info id o) xs hl
  have h3 := toPT_fromPT hok hdis o t h1
  refine ⟨fromPT t, ?_, ?_⟩
  · rw [treeUnflattenObj, treeFlatten, ← h1, ← h2]
    have := PT.fill_shape t []
    rw [List.append_nil] at this
    rw [this]
    rfl
  · rw [treeFlatten, h3, h1, h2]
    rfl

/-- Flattening and unflattening is `fromPT` after `toPT`. -/
theorem unflatten_eq (info : Info N C (Obj N C K A)) (o : Obj N C K A) :
    treeUnflattenObj (treeFlatten info o).2 (treeFlatten info o).1 = .ok (fromPT (toPT info id o)) := by
  rw [treeUnflattenObj, treeFlatten]
  have := PT.fill_shape (toPT info id o) []
  rw [List.append_nil] at this
  rw [this]
  rfl

theorem fromPT_toPT {info : Info N C (Obj N C K A)} (hok : info.OK) (o : Obj N C K A) (hw : o.WF info) :
    Same info o (fromPT (toPT info id o)) := by
  induction o using Obj.ind with
  | leaf a => exact .leaf a
  | none => exact .none
  | node k os ih =>
    cases hw with
    | node _ _ hos =>
    rw [toPT, fromPT, toPTL_eq, fromPTL_eq]
    refine .node _ _ _ (by simp) ?_
    intro i x y hx hy
    simp only [List.getElem?_map, hx, Option.map_some, Option.some.injEq] at hy
    subst hy
    have hm := List.mem_of_getElem? hx
    exact ih x hm (hos x hm)
  | inst c ns vs ih =>
    cases hw with
    | inst _ _ _ hd hvs =>
    rw [toPT_inst, fromPT, fromPTL_eq, Aux.map_id]
    have hlen : (((flattenModule info c (ns.zip vs)).1.map (toPT info id)).map fromPT).length =
        (flattenModule info c (ns.zip vs)).1.length := by simp
    have hget := unflatten_get hok (c := c) (d := ns.zip vs) hlen
    have hone := unflatten_flatten hok (c := c) (d := ns.zip vs) hd
    have hdyn : ∀ n, IsDyn info c n → n ∉ info.wrapper →
        Dict.get? (unflattenModule (flattenModule info c (ns.zip vs)).2
          (((flattenModule info c (ns.zip vs)).1.map (toPT info id)).map fromPT)) n =
        (Dict.get? (ns.zip vs) n).map (fun o => fromPT (toPT info id o)) := by
      intro n hn hnw
      rw [((hget n).2 (.inl hnw)).2.1 hn, List.map_map, get?_zip_map]
      have : (flattenModule info c (ns.zip vs)).2.dynamicNames.zip (flattenModule info c (ns.zip vs)).1 =
          (flattenFields (ns.zip vs) (info.fields c)).1 := zip_fst_snd _
      rw [this, (flattenFields_fst (hok.1 c) n).1 hn]
      rfl
    refine .inst _ _ _ _ _ ?_ ?_ ?_ ?_
    · intro n hn hnw
      simp only [entry, zip_fst_snd]
      rw [hdyn n hn hnw]
      simp
    · intro n hn hnw x y hx hy
      simp only [entry, zip_fst_snd] at hx hy
      rw [hdyn n hn hnw, hx] at hy
      simp only [Option.map_some, Option.some.injEq] at hy
      subst hy
      have hm := (List.of_mem_zip (Dict.mem_of_get? _ hx)).2
      exact ih x hm (hvs x hm)
    · intro n hn
      rw [zip_fst_snd]
      -- the children do not matter here
      have hsame : getattr info c (unflattenModule (flattenModule info c (ns.zip vs)).2
          (((flattenModule info c (ns.zip vs)).1.map (toPT info id)).map fromPT)) n =
          getattr info c (unflattenModule (flattenModule info c (ns.zip vs)).2
          (flattenModule info c (ns.zip vs)).1) n := by
        have hget' := unflatten_get hok (c := c) (d := ns.zip vs) (vs := (flattenModule info c (ns.zip vs)).1) rfl n
        have key : Dict.get? (unflattenModule (flattenModule info c (ns.zip vs)).2
            (((flattenModule info c (ns.zip vs)).1.map (toPT info id)).map fromPT)) n =
            Dict.get? (unflattenModule (flattenModule info c (ns.zip vs)).2
            (flattenModule info c (ns.zip vs)).1) n := by
          by_cases hw : n ∈ info.wrapper
          · cases hg : getattr info c (ns.zip vs) n with
            | some v => rw [(hget n).1 hw v hg, hget'.1 hw v hg]
            | none =>
              have a := (hget n).2 (.inr hg)
              have b := hget'.2 (.inr hg)
              by_cases hS : IsStat info c n
              · rw [a.1 hS, b.1 hS]
              · by_cases hD : IsDyn info c n
                · rw [a.2.1 hD, b.2.1 hD, List.map_map, get?_zip_map]
                  have e : (flattenModule info c (ns.zip vs)).2.dynamicNames.zip (flattenModule info c (ns.zip vs)).1 =
                      (flattenFields (ns.zip vs) (info.fields c)).1 := zip_fst_snd _
                  rw [e, (flattenFields_fst (hok.1 c) n).1 hD]
                  have hc : Dict.get? (ns.zip vs) n = none := by
                    cases hdn : Dict.get? (ns.zip vs) n with
                    | none => rfl
                    | some v => rw [getattr, hdn] at hg; cases hg
                  rw [hc]; rfl
                · rw [a.2.2 hD hS, b.2.2 hD hS]
          · have hD : ¬ IsDyn info c n := fun h => hn ⟨h, hw⟩
            have a := (hget n).2 (.inl hw)
            have b := hget'.2 (.inl hw)
            by_cases hS : IsStat info c n
            · rw [a.1 hS, b.1 hS]
            · rw [a.2.2 hD hS, b.2.2 hD hS]
        rw [getattr, getattr, key]
      rw [hsame]
      exact (hone.1 n).symm
    · intro n hn hnw
      simp only [entry, zip_fst_snd]
      exact (((hget n).2 (.inl hnw)).1 hn).symm

/-- **C35**, round trip: flattening and unflattening an object gives an object that looks the same. -/
theorem module_round_trip {info : Info N C (Obj N C K A)} (hok : info.OK) {o : Obj N C K A} (hw : o.WF info) :
    ∃ o', treeUnflattenObj (treeFlatten info o).2 (treeFlatten info o).1 = .ok o' ∧ Same info o o' :=
  ⟨_, unflatten_eq info o, fromPT_toPT hok o hw⟩

/-! ### Equality -/

section equality
variable {ν β : Type}

theorem treeEq_node {K : Type} {env : Env ν β} {tm : Bool} {k l : K} {cs ds : List (PT K (TreeEqual.Leaf ν β))} :
    TreeEq env tm (.node k cs) (.node l ds) ↔ k = l ∧ cs.length = ds.length ∧
      ∀ (i : Nat) x y, cs[i]? = some x → ds[i]? = some y → TreeEq env tm x y := by
  unfold TreeEq
  rw [PT.shape_node, PT.shape_node]
  constructor
  · rintro ⟨h1, h2⟩
    injection h1 with h3 h4
    refine ⟨h3, by simpa using congrArg List.length h4, fun i x y hx hy => ⟨?_, fun π a b ha hb => ?_⟩⟩
    · have := congrArg (fun l => l[i]?) h4
      simpa [hx, hy] using this
    · exact h2 (i :: π) a b (by rw [PT.leafAt?_node, hx]; exact ha) (by rw [PT.leafAt?_node, hy]; exact hb)
  · rintro ⟨rfl, hl, h⟩
    refine ⟨?_, ?_⟩
    · congr 1
      apply List.ext_getElem?
      intro i
      simp only [List.getElem?_map]
      cases hx : cs[i]? with
      | none =>
        have : ds[i]? = none := by rw [List.getElem?_eq_none_iff] at hx ⊢; omega
        rw [this]
      | some x =>
        have : ∃ y, ds[i]? = some y := by
          have hlt : i < ds.length := by have := (List.getElem?_eq_some_iff.1 hx).1; omega
          exact ⟨ds[i], List.getElem?_eq_getElem hlt⟩
        obtain ⟨y, hy⟩ := this
        rw [hy]
        simp [(h i x y hx hy).1]
    · intro π a b ha hb
      cases π with
      | nil => simp at ha
      | cons i π =>
        rw [PT.leafAt?_node] at ha hb
        cases hx : cs[i]? with
        | none => rw [hx] at ha; cases ha
        | some x =>
          cases hy : ds[i]? with
          | none => rw [hy] at hb; cases hb
          | some y =>
            rw [hx] at ha
            rw [hy] at hb
            exact (h i x y hx hy).2 π a b ha hb

theorem treeEq_leaf {K : Type} {env : Env ν β} {a b : TreeEqual.Leaf ν β} :
    TreeEq env false (.leaf a : PT K _) (.leaf b) ↔ LeafEq env a b := by
  unfold TreeEq
  constructor
  · rintro ⟨-, h⟩
    exact (h [] a b rfl rfl).1
  · intro h
    refine ⟨rfl, fun π x y hx hy => ?_⟩
    cases π with
    | nil => cases hx; cases hy; exact ⟨h, fun h => nomatch h⟩
    | cons i π => cases hx

end equality

/-- Two lists of pairs with the same names and values that agree after `κ`. -/
theorem get?_map_of_lists {κ : V → E} {l l' : List (N × V)} (h1 : l.map (·.1) = l'.map (·.1))
    (h2 : (l.map (·.2)).map κ = (l'.map (·.2)).map κ) (n : N) :
    (Dict.get? l n).map κ = (Dict.get? l' n).map κ := by
  have e : ∀ l : List (N × V), (Dict.get? l n).map κ = Dict.get? ((l.map (·.1)).zip ((l.map (·.2)).map κ)) n := by
    intro l
    rw [get?_zip_map, zip_fst_snd]
  rw [e, e, h1, h2]

theorem flattenFields_aux {κ : V → E} {d d' : Dict N V} {fs : List (Field N)}
    (hp : ∀ f ∈ fs, ((d.get? f.name).isSome ↔ (d'.get? f.name).isSome))
    (hs : ∀ f ∈ fs, f.static = true → (d.get? f.name).map κ = (d'.get? f.name).map κ) :
    (flattenFields d fs).1.map (·.1) = (flattenFields d' fs).1.map (·.1) ∧
    (flattenFields d fs).2.map (·.1) = (flattenFields d' fs).2.map (·.1) ∧
    ((flattenFields d fs).2.map (·.2)).map κ = ((flattenFields d' fs).2.map (·.2)).map κ := by
  induction fs with
  | nil => simp [flattenFields]
  | cons f fs ih =>
    obtain ⟨i1, i2, i3⟩ := ih (fun g hg => hp g (List.mem_cons_of_mem _ hg)) (fun g hg => hs g (List.mem_cons_of_mem _ hg))
    have hpf := hp f (by simp)
    have hsf := hs f (by simp)
    simp only [flattenFields]
    cases h : d.get? f.name with
    | none =>
      cases h' : d'.get? f.name with
      | none => exact ⟨i1, i2, i3⟩
      | some v' => rw [h, h'] at hpf; simp at hpf
    | some v =>
      cases h' : d'.get? f.name with
      | none => rw [h, h'] at hpf; simp at hpf
      | some v' =>
        cases hst : f.static with
        | false =>
          simp only [Bool.false_eq_true, if_false, List.map_cons, i1]
          exact ⟨trivial, i2, i3⟩
        | true =>
          have := hsf hst
          rw [h, h'] at this
          simp only [Option.map_some, Option.some.injEq] at this
          simp only [if_true, List.map_cons, i2, i3, this]
          exact ⟨i1, trivial, trivial⟩

omit [DecidableEq N] in
theorem wrapperFields_aux {κ : V → E} {look look' : N → Option V} {ns : List N}
    (h : ∀ n ∈ ns, (look n).map κ = (look' n).map κ) :
    (wrapperFields look ns).map (·.1) = (wrapperFields look' ns).map (·.1) ∧
    ((wrapperFields look ns).map (·.2)).map κ = ((wrapperFields look' ns).map (·.2)).map κ := by
  induction ns with
  | nil => simp [wrapperFields]
  | cons m ns ih =>
    obtain ⟨i1, i2⟩ := ih (fun n hn => h n (List.mem_cons_of_mem _ hn))
    have hm := h m (by simp)
    simp only [wrapperFields]
    cases h1 : look m with
    | none =>
      cases h2 : look' m with
      | none => exact ⟨i1, i2⟩
      | some v' => rw [h1, h2] at hm; simp at hm
    | some v =>
      cases h2 : look' m with
      | none => rw [h1, h2] at hm; simp at hm
      | some v' =>
        rw [h1, h2] at hm
        simp only [Option.map_some, Option.some.injEq] at hm
        simp only [List.map_cons, i1, i2, hm]
        exact ⟨trivial, trivial⟩

/-- When two modules of a class have equal auxiliary data. -/
theorem aux_eq_iff {info : Info N C V} (hok : info.OK) {c : C} {κ : V → E} {d d' : Dict N V} :
    (flattenModule info c d).2.map κ = (flattenModule info c d').2.map κ ↔
    (∀ n, IsDyn info c n ∨ IsStat info c n → ((d.get? n).isSome ↔ (d'.get? n).isSome)) ∧
    (∀ n, IsStat info c n → (d.get? n).map κ = (d'.get? n).map κ) ∧
    (∀ n ∈ info.wrapper, (getattr info c d n).map κ = (getattr info c d' n).map κ) := by
  simp only [flattenModule, Aux.map, Aux.mk.injEq]
  constructor
  · rintro ⟨h1, h2, h3, h4, h5⟩
    have hS : ∀ n, IsStat info c n → (d.get? n).map κ = (d'.get? n).map κ := by
      intro n hn
      rw [← (flattenFields_snd (hok.1 c) n).1 hn, ← (flattenFields_snd (d := d') (hok.1 c) n).1 hn]
      exact get?_map_of_lists h2 h3 n
    refine ⟨?_, hS, ?_⟩
    · rintro n (hn | hn)
      · rw [← (flattenFields_fst (hok.1 c) n).1 hn, ← (flattenFields_fst (d := d') (hok.1 c) n).1 hn,
          Dict.get?_isSome_iff, Dict.get?_isSome_iff, Dict.keys, Dict.keys, h1]
      · have := congrArg Option.isSome (hS n hn)
        simp only [Option.isSome_map] at this
        rw [this]
    · intro n hn
      have := get?_map_of_lists h4 h5 n
      rwa [wrapperFields_get, wrapperFields_get, if_pos hn, if_pos hn] at this
  · rintro ⟨h1, h2, h3⟩
    obtain ⟨a1, a2, a3⟩ := flattenFields_aux (κ := κ) (d := d) (d' := d') (fs := info.fields c)
      (fun f hf => h1 f.name (by
        cases hs : f.static with
        | false => exact .inl ⟨f, hf, rfl, hs⟩
        | true => exact .inr ⟨f, hf, rfl, hs⟩))
      (fun f hf hs => h2 f.name ⟨f, hf, rfl, hs⟩)
    obtain ⟨b1, b2⟩ := wrapperFields_aux (κ := κ) (look := getattr info c d) (look' := getattr info c d') h3
    exact ⟨a1, a2, a3, b1, b2⟩

/-- Children in the same places are children under the same names. -/
theorem children_iff {P : V → V → Prop} {d d' : Dict N V} {fs : List (Field N)}
    (hp : ∀ f ∈ fs, ((d.get? f.name).isSome ↔ (d'.get? f.name).isSome)) :
    (∀ (i : Nat) x y, ((flattenFields d fs).1.map (·.2))[i]? = some x → ((flattenFields d' fs).1.map (·.2))[i]? = some y →
      P x y) ↔
    ∀ f ∈ fs, f.static = false → ∀ x y, d.get? f.name = some x → d'.get? f.name = some y → P x y := by
  induction fs with
  | nil => simp [flattenFields]
  | cons f fs ih =>
    have ih := ih (fun g hg => hp g (List.mem_cons_of_mem _ hg))
    have hpf := hp f (by simp)
    simp only [flattenFields, List.mem_cons, forall_eq_or_imp]
    rw [← ih]
    cases h : d.get? f.name with
    | none =>
      cases h' : d'.get? f.name with
      | none => simp
      | some v' => rw [h, h'] at hpf; simp at hpf
    | some v =>
      cases h' : d'.get? f.name with
      | none => rw [h, h'] at hpf; simp at hpf
      | some v' =>
        cases hst : f.static with
        | true => simp
        | false =>
          simp only [Bool.false_eq_true, if_false, List.map_cons, Option.some.injEq, forall_const]
          constructor
          · intro hh
            exact ⟨fun x y hx hy => hh 0 x y (by simp [hx]) (by simp [hy]), fun i x y hx hy => hh (i + 1) x y (by simpa using hx) (by simpa using hy)⟩
          · rintro ⟨h0, hh⟩ i x y hx hy
            cases i with
            | zero => simp at hx hy; exact h0 x y hx hy
            | succ i => exact hh i x y (by simpa using hx) (by simpa using hy)

section equality
variable {ν β : Type}

theorem treeEq_iff {info : Info N C (Obj N C K (TreeEqual.Leaf ν β))} (hok : info.OK)
    (κ : Obj N C K (TreeEqual.Leaf ν β) → E) (env : Env ν β) (x : Obj N C K (TreeEqual.Leaf ν β)) :
    ∀ y, TreeEq env false (toPT info κ x) (toPT info κ y) ↔ ModEq info κ (LeafEq env) x y := by
  induction x using Obj.ind with
  | leaf a =>
    intro y
    cases y with
    | leaf b =>
      rw [toPT, toPT, treeEq_leaf]
      exact ⟨.leaf, fun h => by cases h; assumption⟩
    | none => exact ⟨fun h => (nomatch h.1), fun h => nomatch h⟩
    | node k cs => exact ⟨fun h => by simp [TreeEq, toPT] at h, fun h => nomatch h⟩
    | inst c ns vs => exact ⟨fun h => by simp [TreeEq, toPT] at h, fun h => nomatch h⟩
  | none =>
    intro y
    cases y with
    | leaf b => exact ⟨fun h => (nomatch h.1), fun h => nomatch h⟩
    | none => exact ⟨fun _ => .none, fun _ => ⟨rfl, fun π x y hx => by simp [toPT] at hx⟩⟩
    | node k cs => exact ⟨fun h => by simp [TreeEq, toPT] at h, fun h => nomatch h⟩
    | inst c ns vs => exact ⟨fun h => by simp [TreeEq, toPT] at h, fun h => nomatch h⟩
  | node k cs ih =>
    intro y
    cases y with
    | leaf b => exact ⟨fun h => by simp [TreeEq, toPT] at h, fun h => nomatch h⟩
    | none => exact ⟨fun h => by simp [TreeEq, toPT] at h, fun h => nomatch h⟩
    | inst c ns vs =>
      refine ⟨fun h => ?_, fun h => nomatch h⟩
      rw [toPT, toPT, treeEq_node] at h
      exact nomatch h.1
    | node l ds =>
      rw [toPT, toPT, treeEq_node, toPTL_eq, toPTL_eq]
      simp only [List.length_map, List.getElem?_map, Option.map_eq_some_iff]
      constructor
      · rintro ⟨hk, hl, h⟩
        injection hk with hk
        subst hk
        refine .node _ _ _ hl fun i x y hx hy => ?_
        exact (ih x (List.mem_of_getElem? hx) y).1 (h i _ _ ⟨x, hx, rfl⟩ ⟨y, hy, rfl⟩)
      · intro h
        cases h with
        | node _ _ _ hl h =>
        refine ⟨rfl, hl, ?_⟩
        rintro i _ _ ⟨x, hx, rfl⟩ ⟨y, hy, rfl⟩
        exact (ih x (List.mem_of_getElem? hx) y).2 (h i x y hx hy)
  | inst c ns vs ih =>
    intro y
    cases y with
    | leaf b => exact ⟨fun h => by simp [TreeEq, toPT] at h, fun h => nomatch h⟩
    | none => exact ⟨fun h => by simp [TreeEq, toPT] at h, fun h => nomatch h⟩
    | node l ds =>
      refine ⟨fun h => ?_, fun h => nomatch h⟩
      rw [toPT, toPT, treeEq_node] at h
      exact nomatch h.1
    | inst c' ns' vs' =>
      rw [toPT_inst, toPT_inst, treeEq_node]
      simp only [List.length_map, List.getElem?_map, Option.map_eq_some_iff]
      have hfield : ∀ (d d' : Dict N (Obj N C K (TreeEqual.Leaf ν β))),
          (∀ n, IsDyn info c n ∨ IsStat info c n → ((d.get? n).isSome ↔ (d'.get? n).isSome)) →
          ∀ f ∈ info.fields c, ((d.get? f.name).isSome ↔ (d'.get? f.name).isSome) := by
        intro d d' h f hf
        refine h f.name ?_
        cases hs : f.static with
        | false => exact .inl ⟨f, hf, rfl, hs⟩
        | true => exact .inr ⟨f, hf, rfl, hs⟩
      constructor
      · rintro ⟨hk, hl, h⟩
        injection hk with hc ha
        subst hc
        obtain ⟨a1, a2, a3⟩ := (aux_eq_iff hok).1 ha
        refine .inst _ _ _ _ _ a1 a2 a3 ?_
        rintro n ⟨f, hf, rfl, hs⟩ x y hx hy
        refine (children_iff (P := ModEq info κ (LeafEq env)) (hfield _ _ a1)).1 ?_ f hf hs x y hx hy
        intro i x y hx hy
        have hxm : x ∈ vs := flattenModule_child (info := info) (c := c) (List.mem_of_getElem? hx)
        exact (ih x hxm y).1 (h i _ _ ⟨x, hx, rfl⟩ ⟨y, hy, rfl⟩)
      · intro h
        cases h with
        | inst _ _ _ _ _ a1 a2 a3 a4 =>
        have ha := (aux_eq_iff (info := info) (c := c) (κ := κ) (d := ns.zip vs) (d' := ns'.zip vs') hok).2 ⟨a1, a2, a3⟩
        have hlen : (flattenModule info c (ns.zip vs)).1.length = (flattenModule info c (ns'.zip vs')).1.length := by
          have := congrArg (fun a => a.dynamicNames.length) ha
          simpa [Aux.map, flattenModule] using this
        refine ⟨by rw [ha], hlen, ?_⟩
        rintro i _ _ ⟨x, hx, rfl⟩ ⟨y, hy, rfl⟩
        have hxm : x ∈ vs := flattenModule_child (info := info) (c := c) (List.mem_of_getElem? hx)
        refine (ih x hxm y).2 ?_
        exact (children_iff (P := ModEq info κ (LeafEq env)) (hfield _ _ a1)).2
          (fun f hf hs x y hx hy => a4 f.name ⟨f, hf, rfl, hs⟩ x y hx hy) i x y hx hy

variable [DecidableEq C] [DecidableEq K] [DecidableEq E]

/-- **C35**, equality: `==` on modules is true exactly if they have the same class, the same fields set, equal static
fields, and equal contents in the other fields, all the way down. -/
theorem module_eq_iff {info : Info N C (Obj N C K (TreeEqual.Leaf ν β))} (hok : info.OK)
    {κ : Obj N C K (TreeEqual.Leaf ν β) → E} {env : Env ν β} {x y : Obj N C K (TreeEqual.Leaf ν β)} :
    ∃ r, moduleEq info κ env x y = .ok r ∧ (r.val = true ↔ ModEq info κ (LeafEq env) x y) := by
  cases h : moduleEq info κ env x y with
  | error e => simp [moduleEq, treeEqual] at h
  | ok r =>
    refine ⟨r, rfl, ?_⟩
    have := TreeEqual.tree_equal_iff h
    rw [this]
    simp only [List.mem_singleton, forall_eq]
    exact treeEq_iff hok κ env x y

end equality

/-! ### Hashes -/

theorem ModEq.leaves {info : Info N C (Obj N C K A)} (hok : info.OK) {κ : Obj N C K A → E} {R : A → A → Prop}
    {x y : Obj N C K A} (h : ModEq info κ R x y) :
    (toPT info id x).leaves.length = (toPT info id y).leaves.length ∧
    ∀ (i : Nat) a b, (toPT info id x).leaves[i]? = some a → (toPT info id y).leaves[i]? = some b → R a b := by
  -- concatenations of related lists
  have hflat : ∀ (cs ds : List (PT (Key N C K (Obj N C K A)) A)), cs.length = ds.length →
      (∀ (i : Nat) x y, cs[i]? = some x → ds[i]? = some y → x.leaves.length = y.leaves.length ∧
        ∀ (i : Nat) a b, x.leaves[i]? = some a → y.leaves[i]? = some b → R a b) →
      (PT.leavesL cs).length = (PT.leavesL ds).length ∧
        ∀ (i : Nat) a b, (PT.leavesL cs)[i]? = some a → (PT.leavesL ds)[i]? = some b → R a b := by
    intro cs
    induction cs with
    | nil =>
      intro ds hl _
      cases ds with
      | nil => exact ⟨rfl, fun i a b ha => by simp [PT.leavesL] at ha⟩
      | cons _ _ => simp at hl
    | cons c cs ih =>
      intro ds hl hh
      cases ds with
      | nil => simp at hl
      | cons d ds =>
        obtain ⟨h1, h2⟩ := hh 0 c d rfl rfl
        obtain ⟨h3, h4⟩ := ih ds (by simpa using hl)
          (fun i x y hx hy => hh (i + 1) x y (by simpa using hx) (by simpa using hy))
        simp only [PT.leavesL, List.length_append]
        refine ⟨by omega, fun i a b ha hb => ?_⟩
        by_cases hi : i < c.leaves.length
        · rw [List.getElem?_append_left hi] at ha
          rw [List.getElem?_append_left (by omega)] at hb
          exact h2 i a b ha hb
        · rw [List.getElem?_append_right (by omega)] at ha
          rw [List.getElem?_append_right (by omega), ← h1] at hb
          exact h4 _ a b ha hb
  induction h with
  | leaf hab =>
    refine ⟨rfl, fun i a b ha hb => ?_⟩
    cases i with
    | zero => cases ha; cases hb; exact hab
    | succ i => simp [toPT, PT.leaves] at ha
  | none => exact ⟨rfl, fun i a b ha => by simp [toPT, PT.leaves] at ha⟩
  | node k cs ds hl _ ih =>
    rw [toPT, toPT, toPTL_eq, toPTL_eq, PT.leaves, PT.leaves]
    refine hflat _ _ (by simpa using hl) ?_
    intro i x y hx hy
    simp only [List.getElem?_map, Option.map_eq_some_iff] at hx hy
    obtain ⟨x', hx, rfl⟩ := hx
    obtain ⟨y', hy, rfl⟩ := hy
    exact ih i x' y' hx hy
  | inst c ns vs ns' vs' a1 a2 a3 _ ih =>
    rw [toPT_inst, toPT_inst, PT.leaves, PT.leaves]
    have ha := (aux_eq_iff (info := info) (c := c) (κ := κ) (d := ns.zip vs) (d' := ns'.zip vs') hok).2 ⟨a1, a2, a3⟩
    have hlen : (flattenModule info c (ns.zip vs)).1.length = (flattenModule info c (ns'.zip vs')).1.length := by
      have := congrArg (fun a => a.dynamicNames.length) ha
      simpa [Aux.map, flattenModule] using this
    refine hflat _ _ (by simpa using hlen) ?_
    intro i x y hx hy
    simp only [List.getElem?_map, Option.map_eq_some_iff] at hx hy
    obtain ⟨x', hx, rfl⟩ := hx
    obtain ⟨y', hy, rfl⟩ := hy
    refine (children_iff (P := fun x y => (toPT info id x).leaves.length = (toPT info id y).leaves.length ∧
      ∀ (i : Nat) a b, (toPT info id x).leaves[i]? = some a → (toPT info id y).leaves[i]? = some b → R a b) ?_).2
      (fun f hf hs x y hx hy => ih f.name ⟨f, hf, rfl, hs⟩ x y hx hy) i x' y' hx hy
    intro f hf
    refine a1 f.name ?_
    cases hs : f.static with
    | false => exact .inl ⟨f, hf, rfl, hs⟩
    | true => exact .inr ⟨f, hf, rfl, hs⟩

theorem mapE_rel {H : Type} {R : A → A → Prop} {hash : A → Except Err H}
    (hr : ∀ a b h h', R a b → hash a = .ok h → hash b = .ok h' → h = h') {xs ys : List A} (hl : xs.length = ys.length)
    (hxy : ∀ (i : Nat) a b, xs[i]? = some a → ys[i]? = some b → R a b) {hs hs' : List H}
    (h1 : PT.mapE hash xs = .ok hs) (h2 : PT.mapE hash ys = .ok hs') : hs = hs' := by
  induction xs generalizing ys hs hs' with
  | nil =>
    cases ys with
    | nil => rw [h1] at h2; cases h2; rfl
    | cons _ _ => simp at hl
  | cons x xs ih =>
    cases ys with
    | nil => simp at hl
    | cons y ys =>
      simp only [PT.mapE, bind, Except.bind, pure, Except.pure] at h1 h2
      split at h1
      · cases h1
      · rename_i a ha
        split at h1
        · cases h1
        · rename_i as has
          split at h2
          · cases h2
          · rename_i b hb
            split at h2
            · cases h2
            · rename_i bs hbs
              cases h1
              cases h2
              rw [hr x y a b (hxy 0 x y rfl rfl) ha hb, ih (by simpa using hl)
                (fun i a b ha hb => hxy (i + 1) a b (by simpa using ha) (by simpa using hb)) has hbs]

/-- **C35**, hashes: modules that are equal have equal hashes, if both can be hashed (arrays cannot), given that equal
leaves have equal hashes. -/
theorem module_hash_eq {ν β H : Type} [DecidableEq C] [DecidableEq K] [DecidableEq E]
    {info : Info N C (Obj N C K (TreeEqual.Leaf ν β))} (hok : info.OK) {κ : Obj N C K (TreeEqual.Leaf ν β) → E}
    {env : Env ν β} {hashLeaf : TreeEqual.Leaf ν β → Except Err H} {combine : List H → H}
    (hleaf : ∀ a b h h', LeafEq env a b → hashLeaf a = .ok h → hashLeaf b = .ok h' → h = h')
    {x y : Obj N C K (TreeEqual.Leaf ν β)} {r : Res} (heq : moduleEq info κ env x y = .ok r) (hr : r.val = true) {h h' : H}
    (hx : moduleHash info hashLeaf combine x = .ok h) (hy : moduleHash info hashLeaf combine y = .ok h') : h = h' := by
  obtain ⟨r', hr', hiff⟩ := module_eq_iff (κ := κ) (env := env) (x := x) (y := y) hok
  rw [heq] at hr'
  cases hr'
  obtain ⟨h1, h2⟩ := (hiff.1 hr).leaves hok
  simp only [moduleHash, bind, Except.bind, pure, Except.pure] at hx hy
  split at hx
  · cases hx
  · rename_i hs hhs
    split at hy
    · cases hy
    · rename_i hs' hhs'
      cases hx
      cases hy
      rw [mapE_rel hleaf h1 h2 hhs hhs']

/-- A module without unhashable leaves can be hashed: static fields do not matter. -/
theorem module_hash_ok {H : Type} {info : Info N C (Obj N C K A)} {hashLeaf : A → Except Err H} {combine : List H → H}
    {x : Obj N C K A} (h : ∀ a ∈ (treeFlatten info x).1, ∃ v, hashLeaf a = .ok v) :
    ∃ v, moduleHash info hashLeaf combine x = .ok v := by
  have : ∀ l : List A, (∀ a ∈ l, ∃ v, hashLeaf a = .ok v) → ∃ vs, PT.mapE hashLeaf l = .ok vs := by
    intro l
    induction l with
    | nil => intro _; exact ⟨[], rfl⟩
    | cons a l ih =>
      intro h
      obtain ⟨v, hv⟩ := h a (by simp)
      obtain ⟨vs, hvs⟩ := ih (fun b hb => h b (List.mem_cons_of_mem _ hb))
      exact ⟨v :: vs, by simp [PT.mapE, hv, hvs, bind, Except.bind, pure, Except.pure]⟩
  obtain ⟨vs, hvs⟩ := this _ h
  exact ⟨combine vs, by simp only [treeFlatten] at hvs; simp [moduleHash, hvs, bind, Except.bind, pure, Except.pure]⟩

/-! ### Examples -/

namespace Ex2

/-- Class 0 has dynamic fields 1 and 2, a static field 3; name 9 is a wrapper name, set on the class. -/
def info : Info Nat Nat (Obj Nat Nat Nat Nat) where
  fields _ := [⟨1, false⟩, ⟨3, true⟩, ⟨2, false⟩]
  wrapper := [9, 8]
  classAttr _ n := if n = 9 then some (.leaf 100) else none

/-- An instance in which field 2 is not set and which holds another instance. -/
def o : Obj Nat Nat Nat Nat := .inst 0 [3, 1] [.leaf 7, .inst 0 [1, 2, 3] [.leaf 4, .node 0 [.leaf 5, .none], .leaf 8]]

end Ex2

/-- The hypotheses of the theorems above can be met. -/
example : Ex2.info.OK ∧ Ex2.info.Disjoint ∧ Ex2.o.WF Ex2.info ∧ (treeFlatten Ex2.info Ex2.o).1 = [4, 5] := by
  have hw : ∀ c ns (vs : List (Obj Nat Nat Nat Nat)), (∀ n ∈ ns, n = 1 ∨ n = 2 ∨ n = 3) → ∀ n v, entry ns vs n = some v →
      IsDyn Ex2.info c n ∨ IsStat Ex2.info c n ∨ n ∈ Ex2.info.wrapper := by
    intro c ns vs h n v hv
    have hm := (List.of_mem_zip (Dict.mem_of_get? _ hv)).1
    rcases h n hm with rfl | rfl | rfl
    · exact .inl ⟨⟨1, false⟩, by simp [Ex2.info], rfl, rfl⟩
    · exact .inl ⟨⟨2, false⟩, by simp [Ex2.info], rfl, rfl⟩
    · exact .inr (.inl ⟨⟨3, true⟩, by simp [Ex2.info], rfl, rfl⟩)
  refine ⟨⟨fun _ => by simp [Ex2.info], by simp [Ex2.info]⟩, fun c f hf => ?_, ?_, rfl⟩
  · simp only [Ex2.info, List.mem_cons, List.not_mem_nil, or_false] at hf
    rcases hf with rfl | rfl | rfl <;> simp [Ex2.info]
  · refine .inst _ _ _ (hw _ _ _ (by simp)) ?_
    intro v hv
    simp only [List.mem_cons, List.not_mem_nil, or_false] at hv
    rcases hv with rfl | rfl
    · exact .leaf _
    · refine .inst _ _ _ (hw _ _ _ (by simp)) ?_
      intro v hv
      simp only [List.mem_cons, List.not_mem_nil, or_false] at hv
      rcases hv with rfl | rfl | rfl
      · exact .leaf _
      · refine .node _ _ ?_
        intro v hv
        simp only [List.mem_cons, List.not_mem_nil, or_false] at hv
        rcases hv with rfl | rfl
        · exact .leaf _
        · exact .none
      · exact .leaf _

/-- **C35**: any other number of leaves raises. -/
theorem unflatten_count (info : Info N C (Obj N C K A)) (o : Obj N C K A) {xs : List A}
    (hl : xs.length ≠ (treeFlatten info o).1.length) : ∃ e, treeUnflattenObj (treeFlatten info o).2 xs = .error e := by
  simp only [treeUnflattenObj, treeFlatten, bind, Except.bind] at hl ⊢
  cases h : PT.fill (toPT info id o).shape xs with
  | error e => exact ⟨e, rfl⟩
  | ok r =>
    obtain ⟨t, rest⟩ := r
    obtain ⟨h1, h2⟩ := PT.fill_ok h
    cases rest with
    | nil =>
      rw [List.append_nil] at h2
      exact absurd (by rw [← h2]; exact PT.length_leaves_of_shape h1) hl
    | cons x rest => exact ⟨.treeError, rfl⟩

/-- Without the assumption on names `unflatten_leaves` is false: a field called `__doc__` (9 here) is both a child and part
of the structure, and unflattening with other leaves restores the old value. -/
theorem wrapper_named_field :
    let info : Info Nat Nat (Obj Nat Nat Nat Nat) := ⟨fun _ => [⟨9, false⟩], [9], fun _ _ => none⟩
    let o : Obj Nat Nat Nat Nat := .inst 0 [9] [.leaf 1]
    (treeFlatten info o).1 = [1] ∧
      treeUnflattenObj (treeFlatten info o).2 [2] = .ok (.inst 0 [9] [.leaf 1]) := by
  exact ⟨rfl, rfl⟩

end Verif.Module
