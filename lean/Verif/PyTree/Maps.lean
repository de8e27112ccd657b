import Verif.PyTree.SpecLemmas

/-! # `tree_map` of one and of two trees, position by position -/

namespace Verif
namespace PT

variable {K : Type} {α : Type} {β : Type} {γ : Type}

/-- `out` is what `tree_map(f, t, is_leaf=p)` shall return: at every leaf the value of `f`, and around them the
containers of `t`. -/
def Maps1 (p : PT K α → Bool) (f : PT K α → Except Err (PT K γ)) (t : PT K α) (out : PT K γ) : Prop :=
  (∀ π x, IsCutLeaf p t π x → ∃ z, f x = .ok z ∧ out.get? π = some z) ∧
    ∀ π, IsSkeleton p t π → (t.headAt? π = some .none ∧ out.headAt? π = some .none) ∨
      ∃ k n, t.headAt? π = some (.node k n) ∧ out.headAt? π = some (.node k n)

/-- The same for `tree_map(f, s, t, is_leaf=p)`. -/
def Maps2 (p : PT K β → Bool) (f : PT K β → PT K α → Except Err (PT K γ)) (s : PT K β) (t : PT K α) (out : PT K γ) : Prop :=
  (∀ π x, IsCutLeaf p s π x → ∃ y z, t.get? π = some y ∧ f x y = .ok z ∧ out.get? π = some z) ∧
    ∀ π, IsSkeleton p s π → (s.headAt? π = some .none ∧ out.headAt? π = some .none) ∨
      ∃ k n, s.headAt? π = some (.node k n) ∧ out.headAt? π = some (.node k n)

theorem skeleton_heads {p : PT K α → Bool} {t : PT K α} {o : PT K (PT K γ)} (h : o.shape = (t.cut p).shape) {π : List Nat}
    (hs : IsSkeleton p t π) : (t.headAt? π = some .none ∧ o.join.headAt? π = some .none) ∨
      ∃ k n, t.headAt? π = some (.node k n) ∧ o.join.headAt? π = some (.node k n) := by
  have hj := headAt?_join_of_not_leaf (c := t.cut p) (π := π)
  rw [join_cut] at hj
  rcases isSkeleton_iff.1 hs with h1 | ⟨k, n, h1⟩
  · exact .inl ⟨hj.2 h1, headAt?_join_of_not_leaf.2 ((headAt?_of_shape h π).2.2 h1)⟩
  · exact .inr ⟨k, n, hj.1 k n h1, headAt?_join_of_not_leaf.1 k n (((headAt?_of_shape h π).1 k n).2 h1)⟩

theorem treeMap1_maps {p : PT K α → Bool} {f : PT K α → Except Err (PT K γ)} {t out} (h : treeMap1 p f t = .ok out) :
    Maps1 p f t out := by
  obtain ⟨o, h1, rfl, H⟩ := treeMap1_ok.1 h
  refine ⟨?_, fun π hs => skeleton_heads h1 hs⟩
  intro π x hx
  obtain ⟨z, hz, hf⟩ := H π x (isCutLeaf_iff.1 hx)
  exact ⟨z, hf, get?_join_nil hz⟩

theorem treeMap2_maps [DecidableEq K] {p : PT K β → Bool} {f : PT K β → PT K α → Except Err (PT K γ)} {s t out}
    (h : treeMap2 p f s t = .ok out) : Maps2 p f s t out := by
  obtain ⟨c, o, h1, rfl, h2, rfl, H⟩ := treeMap2_ok.1 h
  refine ⟨?_, fun π hs => skeleton_heads h2 hs⟩
  intro π x hx
  rw [isCutLeaf_iff] at hx
  obtain ⟨y, hy⟩ := Option.isSome_iff_exists.1 (show (c.leafAt? π).isSome by
    rw [leafAt?_isSome_of_shape h1, hx]; rfl)
  obtain ⟨z, hz, hf⟩ := H π x y hx hy
  exact ⟨y, z, get?_join_nil hy, hf, get?_join_nil hz⟩

/-- The result is determined. -/
theorem maps1_unique {p : PT K α → Bool} {f : PT K α → Except Err (PT K γ)} {t : PT K α} {o o' : PT K γ} (h : Maps1 p f t o)
    (h' : Maps1 p f t o') : o = o' := by
  have key : ∀ (t : PT K α) (o o' : PT K γ), Maps1 p f t o → Maps1 p f t o' → o = o' := by
    intro t
    induction t using PT.ind with
    | leaf a =>
      intro o o' h h'
      have hc : IsCutLeaf p (.leaf a) [] (.leaf a) := isCutLeaf_iff.2 (by simp [cut])
      obtain ⟨z, h1, h2⟩ := h.1 _ _ hc
      obtain ⟨z', h1', h2'⟩ := h'.1 _ _ hc
      rw [h1] at h1'; cases h1'
      simp only [get?, Option.some.injEq] at h2 h2'
      rw [h2, h2']
    | none =>
      intro o o' h h'
      by_cases hp : p .none = true
      · have hc : IsCutLeaf p .none [] .none := isCutLeaf_iff.2 (by simp [cut, hp])
        obtain ⟨z, h1, h2⟩ := h.1 _ _ hc
        obtain ⟨z', h1', h2'⟩ := h'.1 _ _ hc
        rw [h1] at h1'; cases h1'
        simp only [get?, Option.some.injEq] at h2 h2'
        rw [h2, h2']
      · have hs : IsSkeleton p (.none : PT K α) [] := isSkeleton_iff.2 (by simp [cut, hp, head, headAt?, get?])
        have g := h.2 _ hs
        have g' := h'.2 _ hs
        cases o <;> cases o' <;> simp [headAt?, get?, head] at g g' ⊢
    | node k cs ih =>
      intro o o' h h'
      by_cases hp : p (.node k cs) = true
      · have hc : IsCutLeaf p (.node k cs) [] (.node k cs) := isCutLeaf_iff.2 (by simp [cut, hp])
        obtain ⟨z, h1, h2⟩ := h.1 _ _ hc
        obtain ⟨z', h1', h2'⟩ := h'.1 _ _ hc
        rw [h1] at h1'; cases h1'
        simp only [get?, Option.some.injEq] at h2 h2'
        rw [h2, h2']
      · have hcut : (PT.node k cs).cut p = .node k (cs.map (cut p)) := by simp [cut, hp, cutL_eq]
        have hs : IsSkeleton p (.node k cs) [] := isSkeleton_iff.2 (by simp [hcut, headAt?, get?, head])
        have root : ∀ u : PT K γ, Maps1 p f (.node k cs) u → ∃ ds, u = .node k ds ∧ ds.length = cs.length ∧
            ∀ (i : Nat) c d, cs[i]? = some c → ds[i]? = some d → Maps1 p f c d := by
          intro u hu
          have g := hu.2 _ hs
          cases u with
          | leaf a => simp [headAt?, get?, head] at g
          | none => simp [headAt?, get?, head] at g
          | node l ds =>
            simp [headAt?, get?, head] at g
            obtain ⟨rfl, g⟩ := g
            refine ⟨ds, rfl, g.symm, ?_⟩
            intro i c d hc hd
            constructor
            · intro π x hx
              have : IsCutLeaf p (.node k cs) (i :: π) x := by
                rw [isCutLeaf_iff] at hx ⊢
                rw [hcut, leafAt?_node, List.getElem?_map, hc]
                exact hx
              obtain ⟨z, h1, h2⟩ := hu.1 _ _ this
              exact ⟨z, h1, by simpa [get?, hd] using h2⟩
            · intro π hx
              have : IsSkeleton p (.node k cs) (i :: π) := by
                rw [isSkeleton_iff] at hx ⊢
                rw [hcut]
                simp only [headAt?_node_cons, List.getElem?_map, hc]
                exact hx
              have g2 := hu.2 _ this
              simpa [headAt?_node_cons, hc, hd] using g2
        obtain ⟨ds, rfl, hl, hd⟩ := root o h
        obtain ⟨ds', rfl, hl', hd'⟩ := root o' h'
        congr 1
        apply List.ext_getElem?
        intro i
        by_cases hi : i < cs.length
        · have e1 : cs[i]? = some cs[i] := by simp [hi]
          have e2 : ds[i]? = some (ds[i]'(by omega)) := by simp [hl, hi]
          have e3 : ds'[i]? = some (ds'[i]'(by omega)) := by simp [hl', hi]
          rw [e2, e3]
          exact congrArg some (ih _ (List.mem_of_getElem? e1) _ _ (hd i _ _ e1 e2) (hd' i _ _ e1 e3))
        · rw [List.getElem?_eq_none (by omega), List.getElem?_eq_none (by omega)]
  exact key t o o' h h'

theorem mapE_error {f : β → Except Err γ} {xs : List β} {e : Err} (h : mapE f xs = .error e) : ∃ x ∈ xs, f x = .error e := by
  induction xs with
  | nil => simp [mapE] at h
  | cons x xs ih =>
    simp only [mapE, bind, Except.bind, pure, Except.pure] at h
    split at h
    · rename_i e' he
      cases h
      exact ⟨x, by simp, he⟩
    · split at h
      · rename_i e' he
        cases h
        obtain ⟨y, hy, hf⟩ := ih he
        exact ⟨y, by simp [hy], hf⟩
      · cases h

theorem length_mapE {f : β → Except Err γ} {xs : List β} {ys} (h : mapE f xs = .ok ys) : ys.length = xs.length :=
  (mapE_ok.1 h).1

theorem treeUnflatten_isOk {d : PT K β} {xs : List (PT K α)} (h : xs.length = d.leaves.length) :
    ∃ t, treeUnflatten d.shape xs = .ok t := by
  obtain ⟨o, h1, h2⟩ := exists_fill d xs h
  exact ⟨o.join, by rw [← h1, ← h2, treeUnflatten_shape]⟩

/-- `tree_map` of one tree raises only what `f` raises. -/
theorem treeMap1_error {p : PT K α → Bool} {f : PT K α → Except Err (PT K γ)} {t : PT K α} {e : Err}
    (h : treeMap1 p f t = .error e) : ∃ π x, IsCutLeaf p t π x ∧ f x = .error e := by
  simp only [treeMap1, bind, Except.bind] at h
  split at h
  · rename_i e' he
    cases h
    obtain ⟨x, hx, hf⟩ := mapE_error he
    obtain ⟨i, hi⟩ := List.getElem?_of_mem hx
    obtain ⟨π, hπ⟩ := exists_leafAt?_of_getElem? hi
    exact ⟨π, x, isCutLeaf_iff.2 (hπ _ rfl x hi), hf⟩
  · rename_i ys hys
    obtain ⟨u, hu⟩ := treeUnflatten_isOk (d := t.cut p) (xs := ys) (length_mapE hys)
    rw [treeStructure, hu] at h
    cases h

theorem exists_up_to {s : PT K β} {t : PT K α} (p : PT K β → Bool) (h : s.shape = t.shape) :
    ∃ c : PT K (PT K α), c.shape = (s.cut p).shape ∧ c.join = t := by
  induction s using PT.ind generalizing t with
  | leaf a => exact ⟨.leaf t, by simp [cut, shape, map], rfl⟩
  | none =>
    have ht : t = .none := by
      cases t with
      | none => rfl
      | leaf => simp [shape, map] at h
      | node => simp [shape, map] at h
    subst ht
    by_cases hp : p .none = true
    · exact ⟨.leaf .none, by simp [cut, hp, shape, map], rfl⟩
    · exact ⟨.none, by simp [cut, hp, shape, map], rfl⟩
  | node k cs ih =>
    by_cases hp : p (.node k cs) = true
    · exact ⟨.leaf t, by simp [cut, hp, shape, map], rfl⟩
    · cases t with
      | leaf => simp [shape, map] at h
      | none => simp [shape, map] at h
      | node l ds =>
        simp only [shape, map, mapL_eq, PT.node.injEq] at h
        obtain ⟨rfl, h⟩ := h
        have : ∀ (cs' : List (PT K β)) (ds' : List (PT K α)), (∀ c ∈ cs', c ∈ cs) →
            cs'.map (map fun _ => ()) = ds'.map (map fun _ => ()) →
            ∃ es : List (PT K (PT K α)), es.map (map fun _ => ()) = (cs'.map (cut p)).map (map fun _ => ()) ∧ es.map join = ds' := by
          intro cs'
          induction cs' with
          | nil =>
            intro ds' _ he
            cases ds' with
            | nil => exact ⟨[], rfl, rfl⟩
            | cons => simp at he
          | cons c cs' ihc =>
            intro ds' hm he
            cases ds' with
            | nil => simp at he
            | cons d ds' =>
              simp only [List.map_cons, List.cons.injEq] at he
              obtain ⟨e, h1, h2⟩ := ih c (hm c (by simp)) he.1
              obtain ⟨es, h3, h4⟩ := ihc ds' (fun c hc => hm c (by simp [hc])) he.2
              exact ⟨e :: es, by simp [h3]; exact h1, by simp [h2, h4]⟩
        obtain ⟨es, h1, h2⟩ := this cs ds (fun _ hc => hc) h
        exact ⟨.node k es, by simp [cut, hp, cutL_eq, shape, map, mapL_eq, h1], by simp [join, joinL_eq, h2]⟩

/-- On trees of the same structure, `tree_map` of two trees raises only what `f` raises. -/
theorem treeMap2_error [DecidableEq K] {p : PT K β → Bool} {f : PT K β → PT K α → Except Err (PT K γ)} {s : PT K β} {t : PT K α}
    {e : Err} (hst : s.shape = t.shape) (h : treeMap2 p f s t = .error e) :
    ∃ π x y, IsCutLeaf p s π x ∧ t.get? π = some y ∧ f x y = .error e := by
  obtain ⟨c, hc1, hc2⟩ := exists_up_to p hst
  simp only [treeMap2, bind, Except.bind, treeStructure, treeLeaves] at h
  rw [flattenUpTo_ok.2 ⟨c, hc1, rfl, hc2⟩] at h
  simp only at h
  have hlen := length_leaves_of_shape hc1
  split at h
  · rename_i e' he
    cases h
    obtain ⟨⟨x, y⟩, hx, hf⟩ := mapE_error he
    obtain ⟨i, hi⟩ := List.getElem?_of_mem hx
    rw [List.getElem?_zip_eq_some] at hi
    obtain ⟨π, hπ⟩ := exists_leafAt?_of_getElem? hi.1
    refine ⟨π, x, y, isCutLeaf_iff.2 (hπ _ rfl x hi.1), ?_, hf⟩
    rw [← hc2]
    exact get?_join_nil (hπ c hc1 y hi.2)
  · rename_i ys hys
    obtain ⟨u, hu⟩ := treeUnflatten_isOk (d := s.cut p) (xs := ys) (by rw [length_mapE hys]; simp [hlen])
    rw [hu] at h
    cases h

end PT
end Verif
