import Verif.PyTree.Lemmas
import Verif.PyTree.Spec

/-! # Relating the definitions of `jax.tree_util` to positions -/

namespace Verif
namespace PT

variable {K : Type} {α : Type} {β : Type} {γ : Type}

theorem headAt?_node_cons (k : K) (cs : List (PT K α)) (i π) :
    (PT.node k cs).headAt? (i :: π) = (cs[i]?).bind (fun c => c.headAt? π) := by
  simp only [headAt?, get?]
  cases cs[i]? <;> rfl

@[simp] theorem headAt?_nil (t : PT K α) : t.headAt? [] = some t.head := by simp [headAt?, get?]
@[simp] theorem headAt?_leaf_cons (a : α) (i π) : (PT.leaf a : PT K α).headAt? (i :: π) = Option.none := rfl
@[simp] theorem headAt?_none_cons (i π) : (PT.none : PT K α).headAt? (i :: π) = Option.none := rfl

theorem get?_isSome_headAt? (t : PT K α) (π) : (t.get? π).isSome = (t.headAt? π).isSome := by
  simp [headAt?]

/-- Positions determine a tree. -/
theorem ext_headAt? {s t : PT K α} (h : ∀ π, s.headAt? π = t.headAt? π) : s = t := by
  induction s using ind generalizing t with
  | leaf a => have h0 := h []; clear h; cases t <;> simp_all [head]
  | none => have h0 := h []; clear h; cases t <;> simp_all [head]
  | node k cs ih =>
    have h0 := h []
    cases t with
    | leaf => simp [head] at h0
    | none => simp [head] at h0
    | node l ds =>
      simp [head] at h0
      obtain ⟨rfl, hl⟩ := h0
      congr 1
      apply List.ext_getElem hl
      intro i h1 h2
      apply ih _ (List.getElem_mem h1)
      intro π
      have := h (i :: π)
      simpa [headAt?_node_cons, h1, h2] using this

theorem isPrefix_node {k : K} {ds : List (PT K β)} {t : PT K α} :
    IsPrefix (.node k ds) t ↔ ∃ cs, t = .node k cs ∧ cs.length = ds.length ∧
      ∀ (i : Nat) d c, ds[i]? = some d → cs[i]? = some c → IsPrefix d c := by
  constructor
  · intro h
    have h0 := h []
    simp only [headAt?_nil, head] at h0
    cases t with
    | leaf => simp [head] at h0
    | none => simp [head] at h0
    | node l cs =>
      simp [head] at h0
      obtain ⟨rfl, hl⟩ := h0
      refine ⟨cs, rfl, hl, ?_⟩
      intro i d c hd hc π
      have := h (i :: π)
      simpa [headAt?_node_cons, get?, hd, hc] using this
  · rintro ⟨cs, rfl, hl, h⟩ π
    cases π with
    | nil => simp [head, hl]
    | cons i π =>
      cases hd : ds[i]? with
      | none => simp [headAt?_node_cons, hd]
      | some d =>
        have hi : i < cs.length := by
          rw [hl]; rcases Nat.lt_or_ge i ds.length with h | h
          · exact h
          · rw [List.getElem?_eq_none h] at hd; simp at hd
        have := h i d cs[i] hd (by simp [hi]) π
        simpa [headAt?_node_cons, hd, get?, hi] using this

/-- `IsPrefix` in terms of substitution. -/
theorem isPrefix_iff {d : PT K β} {t : PT K α} :
    IsPrefix d t ↔ ∃ c : PT K (PT K α), c.shape = d.shape ∧ c.join = t := by
  induction d using ind generalizing t with
  | leaf a =>
    constructor
    · intro _; exact ⟨.leaf t, by simp [join]⟩
    · rintro _ π
      cases π <;> simp [head, get?]
  | none =>
    constructor
    · intro h
      have := h []
      refine ⟨.none, by simp, ?_⟩
      cases t <;> simp_all [head, join]
    · rintro ⟨c, hc, rfl⟩ π
      cases c <;> simp at hc
      cases π <;> simp [head, join]
  | node k ds ih =>
    rw [isPrefix_node]
    constructor
    · rintro ⟨cs, rfl, hl, h⟩
      have : ∀ (i : Nat) d c, ds[i]? = some d → cs[i]? = some c → ∃ e : PT K (PT K α), e.shape = d.shape ∧ e.join = c :=
        fun i d c hd hc => (ih d (List.mem_of_getElem? hd)).1 (h i d c hd hc)
      have key : ∀ (ds : List (PT K β)) (cs : List (PT K α)), cs.length = ds.length →
          (∀ (i : Nat) d c, ds[i]? = some d → cs[i]? = some c → ∃ e : PT K (PT K α), e.shape = d.shape ∧ e.join = c) →
          ∃ es : List (PT K (PT K α)), es.map shape = ds.map shape ∧ es.map join = cs := by
        intro ds
        induction ds with
        | nil => intro cs hl _; cases cs <;> simp at hl; exact ⟨[], by simp⟩
        | cons d ds ih2 =>
          intro cs hl H
          cases cs with
          | nil => simp at hl
          | cons c cs =>
            obtain ⟨e, h1, h2⟩ := H 0 d c rfl rfl
            obtain ⟨es, h3, h4⟩ := ih2 cs (by simpa using hl) (fun i d c hd hc => H (i+1) d c (by simpa using hd) (by simpa using hc))
            exact ⟨e :: es, by simp [h1, h3], by simp [h2, h4]⟩
      obtain ⟨es, h1, h2⟩ := key ds cs hl this
      exact ⟨.node k es, by simp [h1], by simp [join, joinL_eq, h2]⟩
    · rintro ⟨c, hc, rfl⟩
      cases c with
      | leaf => simp at hc
      | none => simp at hc
      | node l cs =>
        simp only [shape_node, PT.node.injEq] at hc
        obtain ⟨rfl, hcs⟩ := hc
        have hl := congrArg List.length hcs
        simp at hl
        refine ⟨cs.map join, by simp [join, joinL_eq], by simpa using hl, ?_⟩
        intro i d c hd hc
        simp only [List.getElem?_map, Option.map_eq_some_iff] at hc
        obtain ⟨e, he, rfl⟩ := hc
        refine (ih d (List.mem_of_getElem? hd)).2 ⟨e, ?_, rfl⟩
        have := congrArg (fun l => l[i]?) hcs
        simpa [he, hd] using this

theorem isCutLeaf_iff {p : PT K α → Bool} {t : PT K α} {π x} :
    IsCutLeaf p t π x ↔ (t.cut p).leafAt? π = some x := by
  induction t using ind generalizing π x with
  | leaf a =>
    cases π with
    | nil =>
      simp only [IsCutLeaf, get?, cut, leafAt?_leaf_nil, Option.some.injEq]
      constructor
      · exact fun h => h.1
      · rintro rfl
        refine ⟨rfl, .inl ⟨a, rfl⟩, ?_⟩
        intro ρ σ y h hs; simp at h; exact absurd h.2 hs
    | cons i π => simp [IsCutLeaf, get?, cut]
  | none =>
    cases π with
    | nil =>
      simp only [IsCutLeaf, get?, cut]
      constructor
      · rintro ⟨h, h', _⟩
        simp at h; subst h
        simp at h'
        simp [h']
      · intro h
        split at h
        · simp at h; subst h
          refine ⟨rfl, .inr (by assumption), ?_⟩
          intro ρ σ y h hs; simp at h; exact absurd h.2 hs
        · simp at h
    | cons i π => simp only [IsCutLeaf, get?, cut]; split <;> simp
  | node k cs ih =>
    cases hp : p (.node k cs) with
    | true =>
      simp only [cut, hp, if_true]
      cases π with
      | nil =>
        simp only [IsCutLeaf, get?, leafAt?_leaf_nil, Option.some.injEq]
        constructor
        · exact fun h => h.1
        · rintro rfl
          refine ⟨rfl, .inr hp, ?_⟩
          intro ρ σ y h hs; simp at h; exact absurd h.2 hs
      | cons i π =>
        simp only [leafAt?_leaf_cons, reduceCtorEq, iff_false]
        rintro ⟨_, _, h⟩
        have := h [] (i :: π) (.node k cs) rfl (by simp) rfl
        simp [hp] at this
    | false =>
      simp only [cut, hp, Bool.false_eq_true, if_false]
      cases π with
      | nil =>
        simp only [IsCutLeaf, get?, leafAt?_node_nil, reduceCtorEq, iff_false, Option.some.injEq]
        rintro ⟨rfl, h, _⟩
        simp [hp] at h
      | cons i π =>
        rw [leafAt?_node, cutL_eq, List.getElem?_map]
        cases hc : cs[i]? with
        | none => simp [IsCutLeaf, get?, hc]
        | some c =>
          simp only [Option.map_some, Option.bind_some]
          rw [← ih c (List.mem_of_getElem? hc)]
          simp only [IsCutLeaf, get?, hc, Option.bind_some]
          refine and_congr_right fun _ => and_congr_right fun _ => ?_
          constructor
          · intro h ρ σ y hπ hs hy
            exact h (i :: ρ) σ y (by simp [hπ]) hs (by simp [get?, hc, hy])
          · intro h ρ σ y hπ hs hy
            cases ρ with
            | nil => simp [get?] at hy; rw [← hy]; exact hp
            | cons j ρ =>
              simp at hπ
              obtain ⟨rfl, hπ⟩ := hπ
              exact h ρ σ y hπ hs (by simpa [get?, hc] using hy)

/-- The skeleton of a tree, seen through `cut`. -/
theorem isSkeleton_iff {p : PT K α → Bool} {t : PT K α} {π} :
    IsSkeleton p t π ↔ (t.cut p).headAt? π = some .none ∨ ∃ k n, (t.cut p).headAt? π = some (.node k n) := by
  induction t using ind generalizing π with
  | leaf a =>
    cases π with
    | nil => simp [IsSkeleton, get?, cut, head]
    | cons i π => simp [IsSkeleton, get?, cut]
  | none =>
    cases π with
    | nil =>
      simp only [IsSkeleton, get?, cut]
      cases hp : p .none with
      | true =>
        simp only [if_true, headAt?_nil, head]
        simp
        exact ⟨.none, rfl, hp⟩
      | false =>
        simp [head]
        intro ρ σ y h1 h2 hy; subst h1; simp [get?] at hy; rw [← hy]; exact hp
    | cons i π => simp only [IsSkeleton, get?, cut]; split <;> simp
  | node k cs ih =>
    cases hp : p (.node k cs) with
    | true =>
      simp only [cut, hp, if_true]
      have : ¬ IsSkeleton p (.node k cs) π := by
        rintro ⟨_, h⟩
        have := h [] π _ rfl rfl
        simp [hp] at this
      simp only [this, false_iff]
      cases π <;> simp [head]
    | false =>
      simp only [cut, hp, Bool.false_eq_true, if_false]
      cases π with
      | nil =>
        simp only [headAt?_nil, head]
        simp [IsSkeleton, get?]
        intro ρ σ y h1 h2 hy; subst h1; simp [get?] at hy; rw [← hy]; exact hp
      | cons i π =>
        rw [headAt?_node_cons, cutL_eq, List.getElem?_map]
        cases hc : cs[i]? with
        | none => simp [IsSkeleton, get?, hc]
        | some c =>
          simp only [Option.map_some, Option.bind_some]
          rw [← ih c (List.mem_of_getElem? hc)]
          simp only [IsSkeleton, get?, hc, Option.bind_some]
          refine and_congr_right fun _ => ?_
          constructor
          · intro h ρ σ y hπ hy
            exact h (i :: ρ) σ y (by simp [hπ]) (by simp [get?, hc, hy])
          · intro h ρ σ y hπ hy
            cases ρ with
            | nil => simp [get?] at hy; rw [← hy]; exact hp
            | cons j ρ =>
              simp at hπ
              obtain ⟨rfl, hπ⟩ := hπ
              exact h ρ σ y hπ (by simpa [get?, hc] using hy)

/-- Head of a substituted tree above its leaves. -/
theorem headAt?_join_of_not_leaf {c : PT K (PT K α)} {π} :
    (∀ k n, c.headAt? π = some (.node k n) → c.join.headAt? π = some (.node k n)) ∧
    (c.headAt? π = some .none → c.join.headAt? π = some .none) := by
  induction c using ind generalizing π with
  | leaf t => cases π <;> simp [head]
  | none => cases π <;> simp [head, join]
  | node k cs ih =>
    cases π with
    | nil => simp [head, join, joinL_eq]
    | cons i π =>
      simp only [join, joinL_eq, headAt?_node_cons, List.getElem?_map]
      cases hc : cs[i]? with
      | none => simp
      | some c => simpa using ih c (List.mem_of_getElem? hc)

theorem headAt?_map (f : α → β) (t : PT K α) (π) :
    (t.map f).headAt? π = (t.headAt? π).map (fun h => match h with
      | .leaf a => .leaf (f a) | .none => .none | .node k n => .node k n) := by
  induction t using ind generalizing π with
  | leaf a => cases π <;> simp [map, head]
  | none => cases π <;> simp [map, head]
  | node k cs ih =>
    cases π with
    | nil => simp [map, head, mapL_eq]
    | cons i π =>
      simp only [map, mapL_eq, headAt?_node_cons, List.getElem?_map]
      cases hc : cs[i]? with
      | none => simp
      | some c => simpa using ih c (List.mem_of_getElem? hc) π

theorem headAt?_of_shape {c : PT K β} {d : PT K γ} (h : c.shape = d.shape) (π) :
    (∀ k n, c.headAt? π = some (.node k n) ↔ d.headAt? π = some (.node k n)) ∧
    (c.headAt? π = some .none ↔ d.headAt? π = some .none) := by
  have h1 := headAt?_map (fun _ => ()) c π
  have h2 := headAt?_map (fun _ => ()) d π
  rw [show c.map (fun _ => ()) = d.map (fun _ => ()) from h, h2] at h1
  cases hc : c.headAt? π with
  | none => cases hd : d.headAt? π <;> simp_all
  | some x =>
    cases hd : d.headAt? π with
    | none => simp_all
    | some y => cases x <;> cases y <;> simp_all

theorem sameStructure_iff {s : PT K α} {t : PT K β} : SameStructure s t ↔ s.shape = t.shape := by
  constructor
  · intro h
    apply ext_headAt?
    intro π
    simp only [shape, headAt?_map]
    have := h π
    revert this
    cases hs : s.headAt? π with
    | none => cases ht : t.headAt? π <;> simp
    | some x =>
      cases ht : t.headAt? π with
      | none => cases x <;> simp
      | some y => cases x <;> cases y <;> simp
  · intro h π
    have h1 := headAt?_map (fun _ => ()) s π
    have h2 := headAt?_map (fun _ => ()) t π
    rw [show s.map (fun _ => ()) = t.map (fun _ => ()) from h, h2] at h1
    cases hs : s.headAt? π with
    | none => cases ht : t.headAt? π <;> simp_all
    | some x =>
      cases ht : t.headAt? π with
      | none => simp_all
      | some y => cases x <;> cases y <;> simp_all

/-! ### `tree_map` by positions -/

/-- If the leaf lists of two trees of the same shape are related index by index, their leaves are
related position by position, and conversely. -/
theorem leafAt?_rel {c : PT K β} {d : PT K γ} (h : c.shape = d.shape) (R : β → γ → Prop) :
    (∀ (i : Nat) x, c.leaves[i]? = some x → ∃ y, d.leaves[i]? = some y ∧ R x y) ↔
    (∀ π x, c.leafAt? π = some x → ∃ y, d.leafAt? π = some y ∧ R x y) := by
  constructor
  · intro H π x hx
    obtain ⟨i, hi, hall⟩ := index_of_leafAt? hx
    have h1 : c.leaves[i]? = some x := by rw [← hx]; exact (hall c rfl).symm
    obtain ⟨y, hy, hR⟩ := H i x h1
    exact ⟨y, by rw [hall d h.symm, hy], hR⟩
  · intro H i x hx
    obtain ⟨π, hπ⟩ := exists_leafAt?_of_getElem? hx
    obtain ⟨y, hy, hR⟩ := H π x (hπ c rfl x hx)
    have hi : i < d.leaves.length := by
      rw [← length_leaves_of_shape h]
      rcases Nat.lt_or_ge i c.leaves.length with h | h
      · exact h
      · rw [List.getElem?_eq_none h] at hx; simp at hx
    have h2 : d.leaves[i]? = some d.leaves[i] := by simp [hi]
    have := hπ d h.symm _ h2
    rw [hy] at this
    simp at this
    exact ⟨y, by rw [h2, this], hR⟩

theorem treeMap1_ok {p : PT K α → Bool} {f : PT K α → Except Err (PT K γ)} {t out} :
    treeMap1 p f t = .ok out ↔ ∃ o : PT K (PT K γ), o.shape = (t.cut p).shape ∧ o.join = out ∧
      ∀ π x, (t.cut p).leafAt? π = some x → ∃ y, o.leafAt? π = some y ∧ f x = .ok y := by
  simp only [treeMap1, bind, Except.bind, treeLeaves, treeStructure]
  constructor
  · intro h
    split at h
    · contradiction
    · rename_i ys hys
      obtain ⟨o, h1, h2, h3⟩ := treeUnflatten_ok h
      refine ⟨o, h1, h3, ?_⟩
      rw [← leafAt?_rel h1.symm, h2]
      exact (mapE_ok.1 hys).2
  · rintro ⟨o, h1, h2, h3⟩
    have : mapE f (t.cut p).leaves = .ok o.leaves :=
      mapE_ok.2 ⟨length_leaves_of_shape h1, (leafAt?_rel h1.symm _).2 h3⟩
    rw [this]
    simp only
    rw [← h1, treeUnflatten_shape, h2]

theorem treeMap2_ok [DecidableEq K] {p : PT K β → Bool} {f : PT K β → PT K α → Except Err (PT K γ)} {s t out} :
    treeMap2 p f s t = .ok out ↔ ∃ (c : PT K (PT K α)) (o : PT K (PT K γ)),
      c.shape = (s.cut p).shape ∧ c.join = t ∧ o.shape = (s.cut p).shape ∧ o.join = out ∧
      ∀ π x y, (s.cut p).leafAt? π = some x → c.leafAt? π = some y → ∃ z, o.leafAt? π = some z ∧ f x y = .ok z := by
  simp only [treeMap2, bind, Except.bind, treeLeaves, treeStructure]
  have key : ∀ (c : PT K (PT K α)) (o : PT K (PT K γ)), c.shape = (s.cut p).shape → o.shape = (s.cut p).shape →
      (mapE (fun xy => f xy.1 xy.2) ((s.cut p).leaves.zip c.leaves) = .ok o.leaves ↔
       ∀ π x y, (s.cut p).leafAt? π = some x → c.leafAt? π = some y → ∃ z, o.leafAt? π = some z ∧ f x y = .ok z) := by
    intro c o hc ho
    have hlc := length_leaves_of_shape hc
    have hlo := length_leaves_of_shape ho
    rw [mapE_ok]
    constructor
    · rintro ⟨_, H⟩ π x y hx hy
      obtain ⟨i, hi, hall⟩ := index_of_leafAt? hx
      have e1 := hall _ rfl; rw [hx] at e1
      have e2 := hall c hc; rw [hy] at e2
      obtain ⟨z, hz, hf⟩ := H i (x, y) (by rw [List.getElem?_zip_eq_some]; exact ⟨e1.symm, e2.symm⟩)
      exact ⟨z, by rw [hall o ho, hz], hf⟩
    · intro H
      refine ⟨by simp [hlc, hlo], ?_⟩
      rintro i ⟨x, y⟩ hxy
      rw [List.getElem?_zip_eq_some] at hxy
      obtain ⟨π, hπ⟩ := exists_leafAt?_of_getElem? hxy.1
      obtain ⟨z, hz, hf⟩ := H π x y (hπ _ rfl x hxy.1) (hπ c hc y hxy.2)
      have hi : i < o.leaves.length := by
        rw [hlo]
        rcases Nat.lt_or_ge i (s.cut p).leaves.length with h | h
        · exact h
        · have := hxy.1; rw [List.getElem?_eq_none h] at this; simp at this
      have h2 : o.leaves[i]? = some o.leaves[i] := by simp [hi]
      have := hπ o ho _ h2
      rw [hz] at this
      simp at this
      exact ⟨z, by rw [h2, this], hf⟩
  constructor
  · intro h
    split at h
    · contradiction
    · rename_i ts hts
      obtain ⟨c, hc1, hc2, hc3⟩ := flattenUpTo_ok.1 hts
      split at h
      · contradiction
      · rename_i ys hys
        obtain ⟨o, h1, h2, h3⟩ := treeUnflatten_ok h
        subst hc2 h2
        exact ⟨c, o, hc1, hc3, h1, h3, (key c o hc1 h1).1 hys⟩
  · rintro ⟨c, o, hc1, hc2, ho1, ho2, H⟩
    rw [flattenUpTo_ok.2 ⟨c, hc1, rfl, hc2⟩]
    simp only
    rw [(key c o hc1 ho1).2 H]
    simp only
    rw [← ho1, treeUnflatten_shape, ho2]

/-- Position-wise form of the n-ary `tree_map`. -/
theorem treeMap_ok [DecidableEq K] {p : PT K α → Bool} {f : List (PT K α) → Except Err (PT K α)} {t rest out} :
    treeMap p f t rest = .ok out ↔ (∀ r ∈ rest, IsPrefix (t.cut p) r) ∧ ∃ o : PT K (PT K α),
      o.shape = (t.cut p).shape ∧ o.join = out ∧
      ∀ π x, (t.cut p).leafAt? π = some x →
        ∃ y, o.leafAt? π = some y ∧ f (x :: rest.filterMap (fun r => r.get? π)) = .ok y := by
  simp only [treeMap, bind, Except.bind, treeLeaves, treeStructure]
  -- the trees obtained from `rest`
  have hrs : ∀ rs, mapE (flattenUpTo (t.cut p).shape) rest = .ok rs ↔
      ∃ cs : List (PT K (PT K α)), (∀ c ∈ cs, c.shape = (t.cut p).shape) ∧ cs.map join = rest ∧ cs.map leaves = rs := by
    intro rs
    clear f out
    induction rest generalizing rs with
    | nil =>
      simp only [mapE, Except.ok.injEq, List.map_eq_nil_iff]
      constructor
      · rintro rfl; exact ⟨[], by simp⟩
      · rintro ⟨cs, -, rfl, rfl⟩; rfl
    | cons r rest ih =>
      simp only [mapE, bind, Except.bind]
      constructor
      · intro h
        split at h
        · contradiction
        · rename_i xs hxs
          split at h
          · contradiction
          · rename_i xss hxss
            simp [pure, Except.pure] at h; subst h
            obtain ⟨c, h1, h2, h3⟩ := flattenUpTo_ok.1 hxs
            obtain ⟨cs, h4, h5, h6⟩ := (ih _).1 hxss
            exact ⟨c :: cs, by simpa [h1] using h4, by simp [h3, h5], by simp [h2, h6]⟩
      · rintro ⟨cs, h1, h2, h3⟩
        cases cs with
        | nil => simp at h2
        | cons c cs =>
          simp only [List.map_cons, List.cons.injEq] at h2
          subst h3
          rw [flattenUpTo_ok.2 ⟨c, h1 c (by simp), rfl, h2.1⟩]
          simp only
          rw [(ih _).2 ⟨cs, fun c hc => h1 c (by simp [hc]), h2.2, rfl⟩]
          rfl
  have key : ∀ (cs : List (PT K (PT K α))) (o : PT K (PT K α)), (∀ c ∈ cs, c.shape = (t.cut p).shape) →
      o.shape = (t.cut p).shape →
      (mapE f (zipAll (t.cut p).leaves (cs.map leaves)) = .ok o.leaves ↔
        ∀ π x, (t.cut p).leafAt? π = some x →
        ∃ y, o.leafAt? π = some y ∧ f (x :: (cs.map join).filterMap (fun r => r.get? π)) = .ok y) := by
    intro cs o hcs ho
    have hlo := length_leaves_of_shape ho
    have hlen : ∀ ys ∈ cs.map leaves, ys.length = (t.cut p).leaves.length := by
      intro ys hys
      obtain ⟨c, hc, rfl⟩ := List.mem_map.1 hys
      exact length_leaves_of_shape (hcs c hc)
    have hgather : ∀ (i : Nat) π, (∀ c ∈ cs, ∀ y, c.leaves[i]? = some y → c.leafAt? π = some y) →
        i < (t.cut p).leaves.length →
        (cs.map leaves).filterMap (fun ys => ys[i]?) = (cs.map join).filterMap (fun r => r.get? π) := by
      intro i π H hi
      simp only [List.filterMap_map]
      clear hlen
      induction cs with
      | nil => simp
      | cons c cs ih =>
        have hi' : i < c.leaves.length := by rw [length_leaves_of_shape (hcs c (by simp))]; exact hi
        have h1 : c.leaves[i]? = some c.leaves[i] := by simp [hi']
        have h2 := get?_join_nil (H c (by simp) _ h1)
        simp only [List.filterMap_cons, Function.comp, h1, h2]
        have := ih (fun c hc => hcs c (by simp [hc])) (fun c hc => H c (by simp [hc]))
        simpa [Function.comp_def] using this
    rw [mapE_ok, length_zipAll _ _ hlen]
    constructor
    · rintro ⟨_, H⟩ π x hx
      obtain ⟨i, hi, hall⟩ := index_of_leafAt? hx
      have e1 := hall _ rfl; rw [hx] at e1
      obtain ⟨y, hy, hf⟩ := H i _ (zipAll_getElem? _ _ hlen i x e1.symm)
      rw [hgather i π (fun c hc y hy => by rw [hall c (hcs c hc), hy]) hi] at hf
      exact ⟨y, by rw [hall o ho, hy], hf⟩
    · intro H
      refine ⟨hlo, ?_⟩
      intro i xs hxs
      have hi : i < (t.cut p).leaves.length := by
        rw [← length_zipAll _ _ hlen]
        rcases Nat.lt_or_ge i (zipAll (t.cut p).leaves (cs.map leaves)).length with h | h
        · exact h
        · rw [List.getElem?_eq_none h] at hxs; simp at hxs
      have e1 : (t.cut p).leaves[i]? = some (t.cut p).leaves[i] := by simp [hi]
      rw [zipAll_getElem? _ _ hlen i _ e1] at hxs
      simp only [Option.some.injEq] at hxs; subst hxs
      obtain ⟨π, hπ⟩ := exists_leafAt?_of_getElem? e1
      obtain ⟨y, hy, hf⟩ := H π _ (hπ _ rfl _ e1)
      have h2 : o.leaves[i]? = some o.leaves[i] := by simp [hlo, hi]
      have := hπ o ho _ h2
      rw [hy] at this
      simp at this
      refine ⟨y, by rw [h2, this], ?_⟩
      rw [hgather i π (fun c hc y hy => hπ c (hcs c hc) y hy) hi]
      exact hf
  constructor
  · intro h
    split at h
    · contradiction
    · rename_i rs hr
      obtain ⟨cs, hcs, rfl, rfl⟩ := (hrs rs).1 hr
      split at h
      · contradiction
      · rename_i ys hys
        obtain ⟨o, h1, h2, h3⟩ := treeUnflatten_ok h
        subst h2
        refine ⟨?_, o, h1, h3, (key cs o hcs h1).1 hys⟩
        intro r hr
        obtain ⟨c, hc, rfl⟩ := List.mem_map.1 hr
        exact isPrefix_iff.2 ⟨c, hcs c hc, rfl⟩
  · rintro ⟨hpre, o, h1, h2, h3⟩
    have : ∃ cs : List (PT K (PT K α)), (∀ c ∈ cs, c.shape = (t.cut p).shape) ∧ cs.map join = rest := by
      clear hrs key h3
      induction rest with
      | nil => exact ⟨[], by simp⟩
      | cons r rest ih =>
        obtain ⟨cs, ha, hb⟩ := ih (fun r hr => hpre r (by simp [hr]))
        obtain ⟨c, hc, hd⟩ := isPrefix_iff.1 (hpre r (by simp))
        exact ⟨c :: cs, by simpa [hc] using ha, by simp [hb, hd]⟩
    obtain ⟨cs, hcs, rfl⟩ := this
    rw [(hrs _).2 ⟨cs, hcs, rfl, rfl⟩]
    simp only
    rw [(key cs o hcs h1).2 h3]
    simp only
    rw [← h1, treeUnflatten_shape, h2]

/-- A tree whose leaves are given by a function of the position. -/
theorem exists_of_shape {γ : Type} (d : PT K β) (R : List Nat → γ → Prop)
    (h : ∀ π x, d.leafAt? π = some x → ∃ y, R π y) :
    ∃ o : PT K γ, o.shape = d.shape ∧ ∀ π y, o.leafAt? π = some y → R π y := by
  induction d using ind generalizing R with
  | leaf a =>
    obtain ⟨y, hy⟩ := h [] a rfl
    refine ⟨.leaf y, by simp, ?_⟩
    intro π z hz; cases π <;> simp at hz; subst hz; exact hy
  | none => exact ⟨.none, by simp, by simp⟩
  | node k ds ih =>
    have : ∀ ds : List (PT K β), (∀ d ∈ ds, ∀ (R : List Nat → γ → Prop), (∀ π x, d.leafAt? π = some x → ∃ y, R π y) →
        ∃ o : PT K γ, o.shape = d.shape ∧ ∀ π y, o.leafAt? π = some y → R π y) → ∀ (R : List Nat → γ → Prop) (n : Nat),
        (∀ (i : Nat) d, ds[i]? = some d → ∀ π x, d.leafAt? π = some x → ∃ y, R ((n + i) :: π) y) →
        ∃ os : List (PT K γ), os.map shape = ds.map shape ∧
          ∀ (i : Nat) o, os[i]? = some o → ∀ π y, o.leafAt? π = some y → R ((n + i) :: π) y := by
      intro ds
      induction ds with
      | nil => intro _ R n _; exact ⟨[], by simp⟩
      | cons d ds ih2 =>
        intro H R n hR
        obtain ⟨o, h1, h2⟩ := H d (by simp) (fun π y => R (n :: π) y) (fun π x hx => by simpa using hR 0 d rfl π x hx)
        obtain ⟨os, h3, h4⟩ := ih2 (fun d hd => H d (by simp [hd])) R (n+1)
          (fun i d hd π x hx => by
            have := hR (i+1) d (by simpa using hd) π x hx
            rwa [show n + 1 + i = n + (i + 1) by omega])
        refine ⟨o :: os, by simp [h1, h3], ?_⟩
        intro i o' ho' π y hy
        cases i with
        | zero => simp at ho'; subst ho'; exact h2 π y hy
        | succ i =>
          have := h4 i o' (by simpa using ho') π y hy
          rwa [show n + (i + 1) = n + 1 + i by omega]
    obtain ⟨os, h1, h2⟩ := this ds ih R 0 (fun i d hd π x hx => by
      simpa using h (i :: π) x (by simp [leafAt?_node, hd, hx]))
    refine ⟨.node k os, by simp [h1], ?_⟩
    intro π y hy
    cases π with
    | nil => simp at hy
    | cons i π =>
      rw [leafAt?_node] at hy
      cases ho : os[i]? with
      | none => simp [ho] at hy
      | some o => simpa using h2 i o ho π y (by simpa [ho] using hy)

/-- Substituting trees of equal shapes into trees of equal shape gives trees of equal shape. -/
theorem shape_join {c : PT K (PT K β)} {d : PT K (PT K γ)} (h : c.shape = d.shape)
    (H : ∀ π x y, c.leafAt? π = some x → d.leafAt? π = some y → x.shape = y.shape) :
    c.join.shape = d.join.shape := by
  induction c using ind generalizing d with
  | leaf a =>
    cases d <;> simp at h
    simpa [join] using H [] _ _ rfl rfl
  | none => cases d <;> simp at h; simp [join]
  | node k cs ih =>
    cases d with
    | leaf => simp at h
    | none => simp at h
    | node l ds =>
      simp only [shape_node, PT.node.injEq] at h
      obtain ⟨rfl, hcs⟩ := h
      simp only [join, joinL_eq, shape_node, List.map_map, PT.node.injEq, true_and]
      have hl := congrArg List.length hcs
      simp at hl
      apply List.ext_getElem (by simp [hl])
      intro i h1 h2
      simp only [List.length_map] at h1 h2
      simp only [List.getElem_map, Function.comp]
      refine ih _ (List.getElem_mem h1) ?_ ?_
      · have := congrArg (fun l => l[i]?) hcs
        simpa [h1, h2] using this
      · intro π x y hx hy
        exact H (i :: π) x y (by simp [leafAt?_node, h1, hx]) (by simp [leafAt?_node, h2, hy])

/-- A leaf of a substituted tree is a leaf of a substituted subtree. -/
theorem leafAt?_join {c : PT K (PT K α)} {π a} :
    c.join.leafAt? π = some a ↔ ∃ σ ρ x, π = σ ++ ρ ∧ c.leafAt? σ = some x ∧ x.leafAt? ρ = some a := by
  constructor
  · intro h
    induction c using ind generalizing π with
    | leaf t => exact ⟨[], π, t, by simp, rfl, by simpa [join] using h⟩
    | none => simp [join] at h
    | node k cs ih =>
      cases π with
      | nil => simp [join] at h
      | cons i π =>
        simp only [join, joinL_eq, leafAt?_node, List.getElem?_map] at h
        cases hc : cs[i]? with
        | none => simp [hc] at h
        | some c =>
          simp only [hc, Option.map_some, Option.bind_some] at h
          obtain ⟨σ, ρ, x, rfl, h1, h2⟩ := ih c (List.mem_of_getElem? hc) h
          exact ⟨i :: σ, ρ, x, by simp, by simp [leafAt?_node, hc, h1], h2⟩
  · rintro ⟨σ, ρ, x, rfl, h1, h2⟩
    have := get?_join h1 ρ
    rw [leafAt?_eq_some] at h2 ⊢
    rw [this, h2]

theorem join_map_leaf (t : PT K α) : (t.map (fun a => PT.leaf a)).join = t := by
  induction t using ind with
  | leaf a => simp [map, join]
  | none => simp [map, join]
  | node k cs ih =>
    simp only [map, mapL_eq, join, joinL_eq, List.map_map, PT.node.injEq, true_and]
    conv => rhs; rw [← List.map_id cs]
    exact List.map_congr_left fun c hc => by simpa using ih c hc

theorem cut_noLeaf (t : PT K α) : t.cut noLeaf = t.map (fun a => PT.leaf a) := by
  induction t using ind with
  | leaf a => simp [cut, map]
  | none => simp [cut, map, noLeaf]
  | node k cs ih =>
    simp only [cut, noLeaf, Bool.false_eq_true, if_false, map, cutL_eq, mapL_eq, PT.node.injEq, true_and]
    exact List.map_congr_left fun c hc => ih c hc

/-- Substitution is associative. -/
theorem join_join (c : PT K (PT K (PT K α))) : c.join.join = (c.map join).join := by
  induction c using ind with
  | leaf a => simp [map, join]
  | none => simp [map, join]
  | node k cs ih =>
    simp only [map, mapL_eq, join, joinL_eq, List.map_map, PT.node.injEq, true_and]
    exact List.map_congr_left fun c hc => ih c hc

theorem eq_of_shape_leafAt? {c d : PT K β} (h : c.shape = d.shape)
    (H : ∀ π x y, c.leafAt? π = some x → d.leafAt? π = some y → x = y) : c = d := by
  apply ext_headAt?
  intro π
  have h1 := headAt?_of_shape h π
  have h2 := leafAt?_isSome_of_shape h π
  cases hc : c.headAt? π with
  | none =>
    cases hd : d.headAt? π with
    | none => rfl
    | some y =>
      cases y with
      | leaf a =>
        have : d.leafAt? π = some a := by
          simp only [headAt?, Option.map_eq_some_iff] at hd
          obtain ⟨x, hx, hx'⟩ := hd
          cases x <;> simp [head] at hx'
          subst hx'; exact leafAt?_eq_some.2 hx
        rw [this] at h2
        have : c.leafAt? π = Option.none := by
          simp only [headAt?, Option.map_eq_none_iff] at hc
          simp [leafAt?, hc]
        simp [this] at h2
      | none => have := h1.2.2 hd; simp [hc] at this
      | node k n => have := (h1.1 k n).2 hd; simp [hc] at this
  | some x =>
    cases x with
    | none => rw [h1.2.1 hc]
    | node k n => rw [(h1.1 k n).1 hc]
    | leaf a =>
      have ha : c.leafAt? π = some a := by
        simp only [headAt?, Option.map_eq_some_iff] at hc
        obtain ⟨x, hx, hx'⟩ := hc
        cases x <;> simp [head] at hx'
        subst hx'; exact leafAt?_eq_some.2 hx
      rw [ha] at h2
      cases hb : d.leafAt? π with
      | none => simp [hb] at h2
      | some b =>
        have := H π a b ha hb
        subst this
        rw [leafAt?_eq_some] at hb
        simp [headAt?, hb, head]

end PT
end Verif
