import Verif.Vmap.Spec
import Verif.PyTree.Closed
/-! # Lemmas about `filter_vmap` -/

namespace Verif.Vmap

open PT Filters

variable {K V A O : Type}

theorem axisVal_eq : (axisVal : Option Int → PT K Int) = orNone := by
  funext a; cases a <;> rfl

theorem positionsL_eq {α : Type} (n : Nat) (cs : List (PT K α)) (π : List Nat) :
    π ∈ positionsL n cs ↔ ∃ (i : Nat) (c : PT K α) (ρ : List Nat), cs[i]? = some c ∧ π = (n + i) :: ρ ∧ ρ ∈ positions c := by
  induction cs generalizing n with
  | nil => simp [positionsL]
  | cons c cs ih =>
    simp only [positionsL, List.mem_append, List.mem_map, ih]
    constructor
    · rintro (⟨ρ, h1, rfl⟩ | ⟨i, c', ρ, h1, rfl, h2⟩)
      · exact ⟨0, c, ρ, rfl, rfl, h1⟩
      · exact ⟨i + 1, c', ρ, by simpa using h1, by simp; omega, h2⟩
    · rintro ⟨i, c', ρ, h1, rfl, h2⟩
      cases i with
      | zero => simp at h1; subst h1; exact .inl ⟨ρ, h2, rfl⟩
      | succ i => exact .inr ⟨i, c', ρ, by simpa using h1, by simp; omega, h2⟩

theorem mem_positions {α : Type} (t : PT K α) (π : List Nat) : π ∈ positions t ↔ (t.leafAt? π).isSome := by
  induction t using ind generalizing π with
  | leaf a => cases π <;> simp [positions]
  | none => simp [positions]
  | node k cs ih =>
    rw [positions, positionsL_eq]
    cases π with
    | nil => simp
    | cons i π =>
      simp only [leafAt?_node]
      constructor
      · rintro ⟨j, c, ρ, h1, h2, h3⟩
        simp only [Nat.zero_add, List.cons.injEq] at h2
        obtain ⟨rfl, rfl⟩ := h2
        simpa [h1] using (ih c (List.mem_of_getElem? h1) π).1 h3
      · intro h
        cases hc : cs[i]? with
        | none => simp [hc] at h
        | some c =>
          refine ⟨i, c, π, hc, by simp, (ih c (List.mem_of_getElem? hc) π).2 ?_⟩
          simpa [hc] using h

/-! ## Resolving axes -/

theorem resolveAxis_ok {s : PT K (AxSpec V O)} {t : Val K V O} {r : PT K Int} :
    resolveAxis s t = .ok r ↔ ∃ m : PT K (Leaf V O × Option Int), m.map Prod.fst = t ∧ r = withNones (m.map Prod.snd) ∧
      (∀ π x, m.leafAt? π = some x → EntryAxis s x.1 x.2) ∧
      (s = .none ∨ (∃ n, s = .leaf (.int n)) ∨ ∃ f, s = .leaf (.callable f)) := by
  have key : ∀ a : Option Int, ∀ r, treeMap1 noLeaf (fun _ => .ok (orNone a)) t = .ok r ↔
      r = withNones ((t.map fun l => (l, a)).map Prod.snd) := by
    intro a r
    rw [treeMap1_closed (u := t) (c := fun a => .leaf a) (g := fun _ => orNone a) (cut_noLeaf t) (fun _ _ => rfl),
      withNones, map_map, map_map]
    simp only [Except.ok.injEq, eq_comm]
  have hone : ∀ a : Option Int, (∀ (m : PT K (Leaf V O × Option Int)), m.map Prod.fst = t →
      (∀ π x, m.leafAt? π = some x → x.2 = a) → m = t.map fun l => (l, a)) := by
    intro a m h1 h2
    rw [← h1, map_map]
    apply eq_of_shape_leafAt? (by rw [shape_map])
    intro π x y hx hy
    rw [leafAt?_map, hx] at hy
    simp only [Option.map_some, Option.some.injEq] at hy
    rw [← hy, ← h2 π x hx]
  have hfst : ∀ a : Option Int, (t.map fun l => (l, a)).map Prod.fst = t := by
    intro a; rw [map_map]; exact map_id_fun t
  rcases s with x | _ | ⟨k, cs⟩
  · cases x with
    | int n =>
      refine (key (some n) r).trans ⟨fun h => ⟨_, hfst _, h, ?_, .inr (.inl ⟨n, rfl⟩)⟩, ?_⟩
      · intro π x hx
        rw [leafAt?_map, Option.map_eq_some_iff] at hx
        obtain ⟨l, _, rfl⟩ := hx
        exact .inr (.inl ⟨n, rfl, rfl⟩)
      · rintro ⟨m, h1, h2, h3, -⟩
        rw [h2, hone (some n) m h1]
        intro π x hx
        rcases h3 π x hx with ⟨h, -⟩ | ⟨n', h, h'⟩ | ⟨f, h, -⟩
        · cases h
        · cases h; exact h'
        · cases h
    | callable f =>
      show treeMap1 noLeaf (callAxis f) t = .ok r ↔ _
      rw [treeMap1_ok, cut_noLeaf]
      constructor
      · rintro ⟨o, h1, h2, h3⟩
        obtain ⟨m, e1, e2⟩ := exists_of_shape t (fun π (x : Leaf V O × Option Int) => t.leafAt? π = some x.1 ∧
          o.leafAt? π = some (orNone x.2) ∧ f x.1 = .ok x.2) (by
            intro π l hl
            obtain ⟨y, hy, hy'⟩ := h3 π (.leaf l) (by simp [leafAt?_map, hl])
            simp only [callAxis] at hy'
            cases hf : f l with
            | error e => simp [hf, Except.map] at hy'
            | ok a =>
              simp only [hf, Except.map, Except.ok.injEq] at hy'
              exact ⟨(l, a), hl, by rw [hy, ← hy', axisVal_eq], hf⟩)
        refine ⟨m, ?_, ?_, ?_, .inr (.inr ⟨f, rfl⟩)⟩
        · apply eq_of_shape_leafAt? (by rw [shape_map, e1])
          intro π x y hx hy
          rw [leafAt?_map, Option.map_eq_some_iff] at hx
          obtain ⟨z, hz, rfl⟩ := hx
          have := (e2 π z hz).1
          rw [hy] at this
          simpa using this.symm
        · rw [← h2, withNones, map_map]
          congr 1
          rw [shape_map] at h1
          apply eq_of_shape_leafAt? (by rw [shape_map, e1, h1])
          intro π x y hx hy
          rw [leafAt?_map, Option.map_eq_some_iff] at hy
          obtain ⟨z, hz, rfl⟩ := hy
          have := (e2 π z hz).2.1
          rw [hx] at this
          simpa using this
        · intro π x hx
          exact .inr (.inr ⟨f, rfl, (e2 π x hx).2.2⟩)
      · rintro ⟨m, h1, h2, h3, -⟩
        refine ⟨m.map fun x => orNone x.2, by rw [shape_map, shape_map, ← h1, shape_map], ?_, ?_⟩
        · rw [h2, withNones, map_map]
        · intro π x hx
          rw [← h1, map_map, leafAt?_map, Option.map_eq_some_iff] at hx
          obtain ⟨z, hz, rfl⟩ := hx
          refine ⟨orNone z.2, by simp [leafAt?_map, hz], ?_⟩
          rcases h3 π z hz with ⟨h, -⟩ | ⟨n', h, h'⟩ | ⟨f', h, h'⟩
          · cases h
          · cases h
          · cases h
            simp [callAxis, h', Except.map, axisVal_eq]
    | other =>
      simp only [resolveAxis, reduceCtorEq, false_iff]
      rintro ⟨m, -, -, -, h | ⟨n, h⟩ | ⟨f, h⟩⟩ <;> cases h
  · refine (key Option.none r).trans ⟨fun h => ⟨_, hfst _, h, ?_, .inl rfl⟩, ?_⟩
    · intro π x hx
      rw [leafAt?_map, Option.map_eq_some_iff] at hx
      obtain ⟨l, _, rfl⟩ := hx
      exact .inl ⟨rfl, rfl⟩
    · rintro ⟨m, h1, h2, h3, -⟩
      rw [h2, hone Option.none m h1]
      intro π x hx
      rcases h3 π x hx with ⟨-, h⟩ | ⟨n', h, h'⟩ | ⟨f, h, -⟩
      · exact h
      · cases h
      · cases h
  · simp only [resolveAxis, reduceCtorEq, false_iff]
    rintro ⟨m, -, -, -, h | ⟨n, h⟩ | ⟨f, h⟩⟩ <;> cases h

theorem entryAxis_end {s : PT K (AxSpec V O)} {l a} (h : EntryAxis s l a) : s = .none ∨ ∃ x, s = .leaf x := by
  rcases h with ⟨h, -⟩ | ⟨n, h, -⟩ | ⟨f, h, -⟩
  · exact .inl h
  · exact .inr ⟨_, h⟩
  · exact .inr ⟨_, h⟩

/-- The entry responsible for a leaf is the only one above it. -/
theorem axisAt_entry {axes : PT K (AxSpec V O)} {t : Val K V O} {σ ρ : List Nat} {a : Option Int}
    (h : AxisAt axes t (σ ++ ρ) a) {s : PT K (AxSpec V O)} (hs : axes.get? σ = some s)
    (he : s = .none ∨ ∃ x, s = .leaf x) {l : Leaf V O} (hl : t.leafAt? (σ ++ ρ) = some l) : EntryAxis s l a := by
  obtain ⟨σ', ρ', s', l', h1', h2', h3', h4'⟩ := h
  have hl' : l' = l := by rw [hl] at h2'; simpa using h2'.symm
  subst hl'
  have hstop : ∀ {s : PT K (AxSpec V O)} {τ y}, (s = .none ∨ ∃ x, s = .leaf x) → s.get? τ = some y → τ = [] := by
    intro s τ y he hg
    rcases he with rfl | ⟨x, rfl⟩ <;> cases τ <;> simp [get?] at hg ⊢
  have hsame : σ = σ' := by
    rcases List.append_eq_append_iff.1 h1' with ⟨τ, e1, _⟩ | ⟨τ, e1, _⟩
    · rw [e1, get?_append, hs] at h3'
      have := hstop he h3'
      rw [e1, this]; simp
    · rw [e1, get?_append, h3'] at hs
      have := hstop (entryAxis_end h4') hs
      rw [e1, this]; simp
  subst hsame
  rw [hs] at h3'
  cases h3'
  exact h4'

theorem entryAxis_unique {s : PT K (AxSpec V O)} {l : Leaf V O} {a b : Option Int} (h : EntryAxis s l a)
    (h' : EntryAxis s l b) : a = b := by
  rcases h with ⟨h, rfl⟩ | ⟨n, h, rfl⟩ | ⟨f, h, h5⟩ <;> rcases h' with ⟨h', rfl⟩ | ⟨n', h', rfl⟩ | ⟨f', h', h5'⟩ <;>
    rw [h] at h' <;> cases h' <;> try rfl
  rw [h5] at h5'
  simpa using h5'

theorem axisAt_unique {axes : PT K (AxSpec V O)} {t : Val K V O} {π : List Nat} {a b : Option Int}
    (h : AxisAt axes t π a) (h' : AxisAt axes t π b) : a = b := by
  obtain ⟨σ, ρ, s, l, rfl, h2, h3, h4⟩ := h
  exact entryAxis_unique h4 (axisAt_entry h' h3 (entryAxis_end h4) h2)

/-- Resolving axes gives each leaf its axis. -/
theorem resolveAxes_ok [DecidableEq K] {axes : PT K (AxSpec V O)} {t : Val K V O} {r : PT K Int}
    (h : resolveAxes t axes = .ok r) :
    ∃ m : PT K (Leaf V O × Option Int), m.map Prod.fst = t ∧ r = withNones (m.map Prod.snd) ∧
      ∀ π x, m.leafAt? π = some x → AxisAt axes t π x.2 := by
  rw [resolveAxes, treeMap2_ok] at h
  obtain ⟨c, o, h1, h2, h3, h4, h5⟩ := h
  obtain ⟨M, e1, e2⟩ := exists_of_shape (axes.cut isNone) (fun π (y : PT K (Leaf V O × Option Int)) =>
      c.leafAt? π = some (y.map Prod.fst) ∧ o.leafAt? π = some (withNones (y.map Prod.snd)) ∧
      ∃ s, (axes.cut isNone).leafAt? π = some s ∧ ∀ ρ x, y.leafAt? ρ = some x → EntryAxis s x.1 x.2) (by
    intro π s hs
    have hc := leafAt?_isSome_of_shape h1 π
    rw [hs] at hc
    obtain ⟨y, hy⟩ := Option.isSome_iff_exists.1 (by simpa using hc : (c.leafAt? π).isSome = true)
    obtain ⟨z, hz, hz'⟩ := h5 π s y hs hy
    obtain ⟨m, g1, g2, g3, -⟩ := resolveAxis_ok.1 hz'
    exact ⟨m, by rw [g1, hy], by rw [hz, g2], s, hs, g3⟩)
  have hm1 : M.map (PT.map Prod.fst) = c := by
    apply eq_of_shape_leafAt? (by rw [shape_map, e1, h1])
    intro π x y hx hy
    rw [leafAt?_map, Option.map_eq_some_iff] at hx
    obtain ⟨z, hz, rfl⟩ := hx
    have := (e2 π z hz).1
    rw [hy] at this
    simpa using this.symm
  have hm2 : M.map (fun y => withNones (y.map Prod.snd)) = o := by
    apply eq_of_shape_leafAt? (by rw [shape_map, e1, h3])
    intro π x y hx hy
    rw [leafAt?_map, Option.map_eq_some_iff] at hx
    obtain ⟨z, hz, rfl⟩ := hx
    have := (e2 π z hz).2.1
    rw [hy] at this
    simpa using this.symm
  have hfst : M.join.map Prod.fst = t := by rw [map_join, hm1, h2]
  refine ⟨M.join, hfst, ?_, ?_⟩
  · rw [← h4, ← hm2, withNones, map_join, map_join, map_map, join_join, map_map]
    rfl
  · intro π x hx
    obtain ⟨σ, ρ, y, rfl, hy, hy'⟩ := leafAt?_join.1 hx
    obtain ⟨-, -, s, hs, hall⟩ := e2 σ y hy
    refine ⟨σ, ρ, s, x.1, rfl, by rw [← hfst, leafAt?_map, hx]; rfl, ?_, hall ρ x hy'⟩
    exact (leafAt?_cut_isNone.1 hs).1

/-- Resolving axes succeeds if `axes` is a prefix and every leaf gets an axis. -/
theorem resolveAxes_isOk [DecidableEq K] {axes : PT K (AxSpec V O)} {t : Val K V O} (h : Resolvable axes t) :
    ∃ r, resolveAxes t axes = .ok r := by
  obtain ⟨h1, h2, h3⟩ := h
  obtain ⟨c, c1, c2⟩ := isPrefix_iff.1 h1
  have hz : ∀ π s y, (axes.cut isNone).leafAt? π = some s → c.leafAt? π = some y → ∃ z, resolveAxis s y = .ok z := by
    intro π s y hs hy
    obtain ⟨g1, g2⟩ := leafAt?_cut_isNone.1 hs
    obtain ⟨m, m1, m2⟩ := exists_of_shape y (fun ρ (x : Leaf V O × Option Int) => y.leafAt? ρ = some x.1 ∧
        EntryAxis s x.1 x.2) (by
      intro ρ l hl
      have hl' : t.leafAt? (π ++ ρ) = some l := by rw [← c2]; exact leafAt?_join.2 ⟨π, ρ, y, rfl, hy, hl⟩
      obtain ⟨a, ha⟩ := h3 (π ++ ρ) l hl'
      exact ⟨(l, a), hl, axisAt_entry ha g1 (g2.elim .inr .inl) hl'⟩)
    refine ⟨withNones (m.map Prod.snd), resolveAxis_ok.2 ⟨m, ?_, rfl, fun π x hx => (m2 π x hx).2, ?_⟩⟩
    · apply eq_of_shape_leafAt? (by rw [shape_map, m1])
      intro ρ x z hx hz
      rw [leafAt?_map, Option.map_eq_some_iff] at hx
      obtain ⟨u, hu, rfl⟩ := hx
      have := (m2 ρ u hu).1
      rw [hz] at this
      simpa using this.symm
    · rcases g2 with ⟨x, rfl⟩ | rfl
      · cases x with
        | int n => exact .inr (.inl ⟨n, rfl⟩)
        | callable f => exact .inr (.inr ⟨f, rfl⟩)
        | other => exact absurd (leafAt?_eq_some.2 g1) (h2 π)
      · exact .inl rfl
  obtain ⟨o, o1, o2⟩ := exists_of_shape (axes.cut isNone) (fun π (z : PT K Int) => ∀ s y,
      (axes.cut isNone).leafAt? π = some s → c.leafAt? π = some y → resolveAxis s y = .ok z) (by
    intro π s hs
    have := leafAt?_isSome_of_shape c1 π
    rw [hs] at this
    obtain ⟨y, hy⟩ := Option.isSome_iff_exists.1 (by simpa using this : (c.leafAt? π).isSome = true)
    obtain ⟨z, hz'⟩ := hz π s y hs hy
    refine ⟨z, ?_⟩
    intro s' y' hs' hy'
    rw [hs] at hs'; rw [hy] at hy'; cases hs'; cases hy'
    exact hz')
  refine ⟨o.join, treeMap2_ok.2 ⟨c, o, c1, c2, o1, rfl, ?_⟩⟩
  intro π s y hs hy
  have := leafAt?_isSome_of_shape o1 π
  rw [hs] at this
  obtain ⟨z, hz'⟩ := Option.isSome_iff_exists.1 (by simpa using this : (o.leafAt? π).isSome = true)
  exact ⟨z, hz', o2 π z hz' s y hs hy⟩

end Verif.Vmap
