import Verif.Filters.Lemmas

/-!
# Properties of `filter`, `partition`, `combine`, `apply_updates` (C01 - C04)
-/

namespace Verif
namespace Filters

open PT

variable {K : Type} {α : Type}

/-! ## C01 partition then combine -/

/-- C01. Without `is_leaf`: whatever the spec, if `partition` succeeds then `combine` restores the
tree, in either order. -/
theorem combine_partition [DecidableEq K] {spec : PT K (Spec K α)} {t l r : PT K α}
    (h : partition noLeaf spec .none t = .ok (l, r)) :
    combine noLeaf [l, r] = .ok t ∧ combine noLeaf [r, l] = .ok t := by
  rw [partition_eq] at h
  simp only [bind, Except.bind, pure, Except.pure] at h
  split at h
  · contradiction
  · rename_i l' hl
    split at h
    · contradiction
    · rename_i r' hr
      simp at h; obtain ⟨rfl, rfl⟩ := h
      obtain ⟨m, d, o, hm, hd, rfl, ho, rfl, H⟩ := filter_ok.1 hl
      obtain ⟨m', d', o', hm', hd', hdj, ho', rfl, H'⟩ := filter_ok.1 hr
      rw [hm] at hm'; simp at hm'; subst hm'
      have := join_inj (by rw [hd, hd']) hdj
      subst this
      obtain ⟨d2, e1, e2, e3, _⟩ := filterTree_split hm
      have := join_inj (by rw [hd, e1]) e2.symm
      subst this
      have hleaf : ∀ π x, d'.leafAt? π = some x → ∃ a, x = .leaf a := by
        intro π x hx
        obtain ⟨s, b, ⟨σ, ρ, sub, rfl, h1, h2, _, h4, _⟩, _⟩ := e3 π x hx
        rcases h4 with h4 | h4
        · exact h4
        · simp [noLeaf] at h4
      have hsel : ∀ π x, d'.leafAt? π = some x →
          (o.leafAt? π = some x ∧ o'.leafAt? π = some .none) ∨ (o.leafAt? π = some .none ∧ o'.leafAt? π = some x) := by
        intro π x hx
        obtain ⟨s, b, _, _, hb⟩ := e3 π x hx
        have h1 := H π b x hb hx
        have h2 := H' π b x hb hx
        cases b
        · right; simpa using ⟨h1, h2⟩
        · left; simpa using ⟨h1, h2⟩
      exact ⟨combine_two ho ho' (fun π x hx => .inl (hleaf π x hx)) hsel (by intros; rfl),
        combine_two ho' ho (fun π x hx => .inl (hleaf π x hx)) (fun π x hx => (hsel π x hx).symm.imp And.symm And.symm) (by intros; rfl)⟩

/-- C01 with `is_leaf`. The same `is_leaf` is given to `partition` and `combine`; it inspects the
type of containers only, and the spec does not reach inside containers it accepts. -/
theorem combine_partition_isLeaf [DecidableEq K] {p : PT K α → Bool} {spec : PT K (Spec K α)} {t l r : PT K α}
    (hp : TypeBased p)
    (hspec : ∀ π k n y, spec.headAt? π = some (.node k n) → t.get? π = some y → p y = false)
    (h : partition p spec .none t = .ok (l, r)) :
    combine p [l, r] = .ok t ∧ combine p [r, l] = .ok t := by
  rw [partition_eq] at h
  simp only [bind, Except.bind, pure, Except.pure] at h
  split at h
  · contradiction
  · rename_i l' hl
    split at h
    · contradiction
    · rename_i r' hr
      simp at h; obtain ⟨rfl, rfl⟩ := h
      obtain ⟨m, d, o, hm, hd, rfl, ho, rfl, H⟩ := filter_ok.1 hl
      obtain ⟨m', d', o', hm', hd', hdj, ho', rfl, H'⟩ := filter_ok.1 hr
      rw [hm] at hm'; simp at hm'; subst hm'
      have := join_inj (by rw [hd, hd']) hdj
      subst this
      obtain ⟨d2, e1, e2, e3, e4⟩ := filterTree_split hm
      have := join_inj (by rw [hd, e1]) e2.symm
      subst this
      have hleaf : ∀ π x, d'.leafAt? π = some x → (∃ a, x = .leaf a) ∨ p x = true := by
        intro π x hx
        obtain ⟨s, b, ⟨σ, ρ, sub, rfl, h1, h2, _, h4, _⟩, _⟩ := e3 π x hx
        exact h4
      have hsel : ∀ π x, d'.leafAt? π = some x →
          (o.leafAt? π = some x ∧ o'.leafAt? π = some .none) ∨ (o.leafAt? π = some .none ∧ o'.leafAt? π = some x) := by
        intro π x hx
        obtain ⟨s, b, _, _, hb⟩ := e3 π x hx
        have h1 := H π b x hb hx
        have h2 := H' π b x hb hx
        cases b
        · right; simpa using ⟨h1, h2⟩
        · left; simpa using ⟨h1, h2⟩
      -- containers of `d'` are rejected by `p`
      have hnode : ∀ π k n y, d'.headAt? π = some (.node k n) → d'.join.get? π = some y → p y = false := by
        intro π k n y h1 h2
        obtain ⟨c, hc1, hc2, hc3, _⟩ := filterTree_ok.1 hm
        have hdc : d' = (c.map (cut p)).join :=
          join_inj (by rw [hd, hc3]) (by rw [shape_join_map_cut, hc2])
        by_cases hs : ∃ σ ρ s, π = σ ++ ρ ∧ spec.leafAt? σ = some s
        · obtain ⟨σ, ρ, s, rfl, hs⟩ := hs
          have := leafAt?_isSome_of_shape hc1 σ
          rw [hs] at this
          obtain ⟨sub, hsub⟩ := Option.isSome_iff_exists.1 this
          have hcut : (c.map (cut p)).leafAt? σ = some (sub.cut p) := by simp [leafAt?_map, hsub]
          rw [hdc] at h1
          simp only [headAt?, get?_join hcut] at h1
          have hsk : IsSkeleton p sub ρ := isSkeleton_iff.2 (.inr ⟨k, n, h1⟩)
          rw [← hc2, get?_join hsub] at h2
          exact hsk.2 ρ [] y (by simp) h2
        · -- above the leaves of the spec: the spec has a container there
          have key : ∀ (s : PT K (Spec K α)) (c : PT K (PT K α)), c.shape = s.shape →
              ∀ π, (∀ σ ρ x, π = σ ++ ρ → s.leafAt? σ ≠ some x) →
              ((c.map (cut p)).join.headAt? π = some (.node k n) → s.headAt? π = some (.node k n)) := by
            intro s
            induction s using ind with
            | leaf a => intro c hc π hπ; exact absurd rfl (hπ [] π a (by simp))
            | none => intro c hc π hπ; cases c <;> simp at hc; cases π <;> simp [map, join, head]
            | node k' ss ih =>
              intro c hc π hπ
              cases c with
              | leaf => simp at hc
              | none => simp at hc
              | node l cs =>
                simp only [shape_node, PT.node.injEq] at hc
                obtain ⟨rfl, hcs⟩ := hc
                have hl := congrArg List.length hcs
                simp at hl
                cases π with
                | nil => simp [map, mapL_eq, join, joinL_eq, head, hl]
                | cons i π =>
                  simp only [map, mapL_eq, join, joinL_eq, headAt?_node_cons, List.getElem?_map]
                  cases hc : cs[i]? with
                  | none => simp
                  | some c' =>
                    have hi : i < ss.length := by
                      rw [← hl]
                      rcases Nat.lt_or_ge i cs.length with h | h
                      · exact h
                      · rw [List.getElem?_eq_none h] at hc; simp at hc
                    have hsi : ss[i]? = some ss[i] := by simp [hi]
                    simp only [Option.map_some, Option.bind_some, hsi]
                    refine ih _ (List.getElem_mem hi) c' ?_ π ?_
                    · have := congrArg (fun l => l[i]?) hcs
                      simpa [hc, hi] using this
                    · intro σ ρ x hσ hx
                      exact hπ (i :: σ) ρ x (by simp [hσ]) (by simp [leafAt?_node, hi, hx])
          have := key spec c hc1 π (fun σ ρ s hσ hs' => hs ⟨σ, ρ, s, hσ, hs'⟩) (by rw [← hdc]; exact h1)
          exact hspec π k n y this h2
      -- hence so are the containers of the two halves
      have htrans : ∀ o2 : PT K (PT K α), o2.shape = d'.shape →
          ∀ π k n y, o2.headAt? π = some (.node k n) → o2.join.get? π = some y → p y = false := by
        intro o2 ho2 π k n y h1 h2
        have h3 := ((headAt?_of_shape ho2 π).1 k n).1 h1
        have h4 := headAt?_join_of_not_leaf.1 k n h3
        have h5 := headAt?_join_of_not_leaf.1 k n h1
        simp only [headAt?, Option.map_eq_some_iff] at h4
        obtain ⟨z, hz, hz'⟩ := h4
        have hpz := hnode π k n z h3 hz
        simp only [headAt?, h2, Option.map_some, Option.some.injEq] at h5
        cases y <;> simp [head] at h5
        cases z <;> simp [head] at hz'
        rw [h5.1, hp k _ _, ← hz'.1]; exact hpz
      exact ⟨combine_two ho ho' hleaf hsel (htrans o ho),
        combine_two ho' ho hleaf (fun π x hx => (hsel π x hx).symm.imp And.symm And.symm) (htrans o' ho')⟩

/-- `[1, None, [2]]` split by `[is one, True, False]`. -/
example : partition (K := Nat) (α := Nat) noLeaf
    (.node 0 [.leaf (.callable (fun x => .ok (x = .leaf 1))), .leaf (.bool true), .leaf (.bool false)])
    .none (.node 0 [.leaf 1, .none, .node 0 [.leaf 2]])
    = .ok (.node 0 [.leaf 1, .none, .node 0 [.none]], .node 0 [.none, .none, .node 0 [.leaf 2]]) := by rfl

/-- The hypotheses of `combine_partition_isLeaf` can be met with an `is_leaf` that matters. -/
example : ∃ (p : PT Nat Nat → Bool) (spec : PT Nat (Spec Nat Nat)) (t l r : PT Nat Nat),
    TypeBased p ∧ (∀ π k n y, spec.headAt? π = some (.node k n) → t.get? π = some y → p y = false) ∧
    partition p spec .none t = .ok (l, r) ∧ l = .node 0 [.node 1 [.leaf 5, .leaf 6], .none] := by
  refine ⟨fun x => match x with | .node 1 _ => true | _ => false,
    .node 0 [.leaf (.bool true), .leaf (.bool false)],
    .node 0 [.node 1 [.leaf 5, .leaf 6], .leaf 7], _, .node 0 [.none, .leaf 7], ?_, ?_, rfl, rfl⟩
  · intro k cs cs'; rcases k with _ | _ | k <;> rfl
  · intro π k n y h1 h2
    match π with
    | [] => simp [get?] at h2; subst h2; rfl
    | [0] => simp [headAt?, get?, head] at h1
    | [1] => simp [headAt?, get?, head] at h1
    | 0 :: _ :: _ => simp [headAt?, get?] at h1
    | 1 :: _ :: _ => simp [headAt?, get?] at h1
    | (n+2) :: _ => simp [headAt?, get?] at h1

/-- C01, the limit of the claim: with an `is_leaf` that looks at the contents of a container the
round trip fails. Here `is_leaf` accepts exactly `[1, None]`. -/
theorem combine_partition_contentBased_fails :
    ∃ (p : PT Nat Nat → Bool) (spec : PT Nat (Spec Nat Nat)) (t l r : PT Nat Nat),
      partition p spec .none t = .ok (l, r) ∧ combine p [l, r] ≠ .ok t := by
  refine ⟨fun x => decide (x = .node 0 [.leaf 1, .none]),
    .leaf (.callable (fun x => .ok (decide (x = .leaf 1)))), .node 0 [.leaf 1, .leaf 2],
    .node 0 [.leaf 1, .none], .node 0 [.none, .leaf 2], by rfl, ?_⟩
  decide

/-! ## C02 what filter keeps -/

/-- C02. A governed object stays in its place exactly if its spec entry evaluates to `not inverse`,
and is replaced otherwise. -/
theorem filter_governed [DecidableEq K] {p : PT K α → Bool} {spec : PT K (Spec K α)} {inverse replace}
    {t out : PT K α} (h : filter p spec inverse replace t = .ok out) {π s x} (hg : Governs p spec t π s x) :
    ∃ b, Evaluates s x b ∧ out.get? π = some (if b = inverse then replace else x) := by
  obtain ⟨m, d, o, hm, hd, rfl, ho, rfl, H⟩ := filter_ok.1 h
  obtain ⟨d2, e1, e2, e3, e4⟩ := filterTree_split hm
  have := join_inj (by rw [hd, e1]) e2.symm
  subst this
  have hx := e4 π s x hg
  obtain ⟨m', hm'⟩ := Option.isSome_iff_exists.1 (show (m.leafAt? π).isSome by
    rw [← leafAt?_isSome_of_shape hd, hx]; rfl)
  obtain ⟨b, hb⟩ := (filterTree_isOk.1 ⟨m, hm⟩).2.2 π s x hg
  -- the mask value is the evaluation of the entry
  have hmb : m.leafAt? π = some b := by
    obtain ⟨c, hc1, hc2, hc3, Hc⟩ := filterTree_ok.1 hm
    obtain ⟨σ, ρ, sub, rfl, h1, h2, h3⟩ := hg
    obtain ⟨sub', hsub'⟩ := Option.isSome_iff_exists.1 (show (c.leafAt? σ).isSome by
      rw [leafAt?_isSome_of_shape hc1, h1]; rfl)
    have e := get?_join_nil hsub'
    rw [hc2, h2] at e; simp at e; subst e
    obtain ⟨b', hb', hmb'⟩ := (Hc σ s sub h1 hsub').2 ρ x (isCutLeaf_iff.1 h3)
    rw [hb] at hb'; simp at hb'; rw [hmb', hb']
  refine ⟨b, ?_, ?_⟩
  · cases s with
    | bool b' => left; simp [Spec.eval] at hb; rw [hb]
    | callable f => right; exact ⟨f, rfl, hb⟩
    | other => simp [Spec.eval] at hb
  · have := get?_join_nil (H π b x hmb hx)
    rw [this]
    cases b <;> cases inverse <;> rfl

/-- C02. Everything above the governed positions (containers and `None`s) is unchanged. -/
theorem filter_frame [DecidableEq K] {p : PT K α → Bool} {spec : PT K (Spec K α)} {inverse replace}
    {t out : PT K α} (h : filter p spec inverse replace t = .ok out) {π} (ha : Above p spec t π) :
    out.headAt? π = t.headAt? π := by
  obtain ⟨m, d, o, hm, hd, rfl, ho, rfl, H⟩ := filter_ok.1 h
  obtain ⟨d2, e1, e2, e3, e4⟩ := filterTree_split hm
  have := join_inj (by rw [hd, e1]) e2.symm
  subst this
  obtain ⟨hsome, hno⟩ := ha
  -- `d` has a container or `None` at `π`
  have key : ∀ (d : PT K (PT K α)) π, (d.join.get? π).isSome → (∀ σ ρ x, π = σ ++ ρ → d.leafAt? σ ≠ some x) →
      d.headAt? π = some .none ∨ ∃ k n, d.headAt? π = some (.node k n) := by
    intro d
    induction d using ind with
    | leaf a => intro π _ h; exact absurd rfl (h [] π a (by simp))
    | none => intro π h _; cases π <;> simp_all [join, get?, head]
    | node k cs ih =>
      intro π h1 h2
      cases π with
      | nil => right; exact ⟨k, cs.length, by simp [head]⟩
      | cons i π =>
        simp only [join, joinL_eq, get?, List.getElem?_map] at h1
        cases hc : cs[i]? with
        | none => simp [hc] at h1
        | some c =>
          have := ih c (List.mem_of_getElem? hc) π (by simpa [hc] using h1) (fun σ ρ x hσ hx =>
            h2 (i :: σ) ρ x (by simp [hσ]) (by simp [leafAt?_node, hc, hx]))
          simpa [headAt?_node_cons, hc] using this
  have hd' := key d π hsome (fun σ ρ x hσ hx => by
    obtain ⟨s, b, hg, _⟩ := e3 σ x hx
    exact hno σ ρ s x hσ hg)
  rcases hd' with h1 | ⟨k, n, h1⟩
  · rw [headAt?_join_of_not_leaf.2 h1, headAt?_join_of_not_leaf.2 (headAt?_none_of_shape ho.symm h1)]
  · rw [headAt?_join_of_not_leaf.1 k n h1,
      headAt?_join_of_not_leaf.1 k n (((headAt?_of_shape ho π).1 k n).2 h1)]

/-- C02. `filter` succeeds exactly when the spec is a prefix of the tree, has no invalid entry, and
no callable raises. -/
theorem filter_succeeds_iff [DecidableEq K] {p : PT K α → Bool} {spec : PT K (Spec K α)} {inverse replace}
    {t : PT K α} : (∃ out, filter p spec inverse replace t = .ok out) ↔
      IsPrefix spec t ∧ (∀ σ, spec.leafAt? σ ≠ some .other) ∧
        ∀ π s x, Governs p spec t π s x → ∃ b, Evaluates s x b := by
  have hev : ∀ (s : Spec K α) x, (∃ b, Evaluates s x b) ↔ ∃ b, s.eval x = .ok b := by
    intro s x
    cases s with
    | bool b => exact ⟨fun _ => ⟨b, rfl⟩, fun _ => ⟨b, .inl rfl⟩⟩
    | callable f => simp [Evaluates, Spec.eval]
    | other => simp [Evaluates, Spec.eval]
  simp only [hev]
  rw [← filterTree_isOk]
  constructor
  · rintro ⟨out, h⟩
    obtain ⟨m, _, _, hm, _⟩ := filter_ok.1 h
    exact ⟨m, hm⟩
  · rintro ⟨m, hm⟩
    obtain ⟨d, hd1, hd2, _⟩ := filterTree_split hm
    obtain ⟨o, ho1, ho2⟩ := exists_sel hd1 (fun b x => if b != inverse then x else replace)
    exact ⟨o.join, filter_ok.2 ⟨m, d, o, hm, hd1, hd2, ho1, rfl, ho2⟩⟩

/-- C02. `partition` is `filter` together with its inverse. -/
theorem partition_eq_filters [DecidableEq K] (p : PT K α → Bool) (spec : PT K (Spec K α)) (replace t : PT K α) (l r : PT K α) :
    partition p spec replace t = .ok (l, r) ↔
      filter p spec false replace t = .ok l ∧ filter p spec true replace t = .ok r := by
  rw [partition_eq]
  simp only [bind, Except.bind, pure, Except.pure]
  cases h1 : filter p spec false replace t with
  | error e => simp
  | ok l' =>
    cases h2 : filter p spec true replace t with
    | error e => simp
    | ok r' => simp

/-- A spec `[True, is_one]` on `[(1, 2), 3]` with replacement 9. The entry `True` governs 2 (at
`[0, 1]`), the callable governs 3 (at `[1]`). -/
example : filter (K := Nat) (α := Nat) noLeaf
      (.node 0 [.leaf (.bool true), .leaf (.callable (fun x => .ok (x = .leaf 1)))]) false (.leaf 9)
      (.node 0 [.node 1 [.leaf 1, .leaf 2], .leaf 3]) = .ok (.node 0 [.node 1 [.leaf 1, .leaf 2], .leaf 9]) ∧
    Governs (K := Nat) (α := Nat) noLeaf (.node 0 [.leaf (.bool true), .leaf (.callable (fun x => .ok (x = .leaf 1)))])
      (.node 0 [.node 1 [.leaf 1, .leaf 2], .leaf 3]) [0, 1] (.bool true) (.leaf 2) := by
  refine ⟨rfl, [0], [1], .node 1 [.leaf 1, .leaf 2], rfl, rfl, rfl, ?_⟩
  rw [isCutLeaf_iff]; rfl

/-- An invalid entry and a spec that is not a prefix both raise. -/
example : filter (K := Nat) (α := Nat) noLeaf (.leaf .other) false .none (.leaf 3) = .error .valueError ∧
    filter (K := Nat) (α := Nat) noLeaf (.node 0 [.leaf (.bool true)]) false .none (.leaf 3) = .error .treeError :=
  ⟨rfl, rfl⟩

/-! ## C03 combine -/

/-- C03. At every place where the first tree has a leaf (or `None`, or a subtree accepted by
`is_leaf`), the result has the first object which is not `None` among the objects the trees have
there; every tree has one. -/
theorem combine_leaf [DecidableEq K] {p : PT K α → Bool} {t out : PT K α} {ts : List (PT K α)}
    (h : combine p (t :: ts) = .ok out) {π x} (hx : IsCutLeaf (fun x => x.isNone || p x) t π x) :
    ∃ xs y, (t :: ts).map (fun r => r.get? π) = xs.map some ∧ out.get? π = some y ∧ IsFirstNonNone xs y := by
  obtain ⟨hpre, o, h1, rfl, H⟩ := combine_ok.1 h
  rw [isCutLeaf_iff] at hx
  have hxs : ts.map (fun r => r.get? π) = (ts.filterMap (fun r => r.get? π)).map some := by
    clear H h
    induction ts with
    | nil => rfl
    | cons r ts ih =>
      have := hpre r (by simp) π
      have hh : (t.cut (fun x => x.isNone || p x)).headAt? π = some (.leaf x) := by
        rw [leafAt?_eq_some] at hx; simp [headAt?, hx, head]
      simp only [hh] at this
      obtain ⟨y, hy⟩ := Option.isSome_iff_exists.1 this
      simp only [List.map_cons, hy, List.filterMap_cons]
      rw [ih (fun r hr => hpre r (by simp [hr]))]
  refine ⟨x :: ts.filterMap (fun r => r.get? π), _, ?_, get?_join_nil (H π x hx), combineLeaf_first _⟩
  have := (isCutLeaf_iff.2 hx).1
  simp [this, hxs]

/-- C03. Containers above those places are kept. -/
theorem combine_frame [DecidableEq K] {p : PT K α → Bool} {t out : PT K α} {ts : List (PT K α)}
    (h : combine p (t :: ts) = .ok out) {π} (hπ : IsSkeleton (fun x => x.isNone || p x) t π) :
    out.headAt? π = t.headAt? π := by
  obtain ⟨hpre, o, h1, rfl, H⟩ := combine_ok.1 h
  have hj := join_cut (fun x => x.isNone || p x) t
  rcases isSkeleton_iff.1 hπ with h2 | ⟨k, n, h2⟩
  · rw [headAt?_join_of_not_leaf.2 (headAt?_none_of_shape h1.symm h2)]
    have := headAt?_join_of_not_leaf.2 h2
    rw [hj] at this; exact this.symm
  · rw [headAt?_join_of_not_leaf.1 k n (((headAt?_of_shape h1 π).1 k n).2 h2)]
    have := headAt?_join_of_not_leaf.1 k n h2
    rw [hj] at this; exact this.symm

/-- C03. `combine` succeeds exactly when every later tree has the containers of the first one. -/
theorem combine_succeeds_iff [DecidableEq K] {p : PT K α → Bool} {t : PT K α} {ts : List (PT K α)} :
    (∃ out, combine p (t :: ts) = .ok out) ↔
      ∀ r ∈ ts, ∀ π, IsSkeleton (fun x => x.isNone || p x) t π → r.headAt? π = t.headAt? π := by
  have hj := join_cut (fun x => x.isNone || p x) t
  have hpre : ∀ r : PT K α, IsPrefix (t.cut (fun x => x.isNone || p x)) r ↔
      ∀ π, IsSkeleton (fun x => x.isNone || p x) t π → r.headAt? π = t.headAt? π := by
    intro r
    constructor
    · intro h π hπ
      have := h π
      rcases isSkeleton_iff.1 hπ with h2 | ⟨k, n, h2⟩
      · rw [h2] at this
        have e := headAt?_join_of_not_leaf.2 h2
        rw [hj] at e; rw [e]; exact this
      · rw [h2] at this
        have e := headAt?_join_of_not_leaf.1 k n h2
        rw [hj] at e; rw [e]; exact this
    · -- by induction on the cut tree
      intro h
      have key : ∀ (c : PT K (PT K α)) (r : PT K α),
          (∀ π, (c.headAt? π = some .none ∨ ∃ k n, c.headAt? π = some (.node k n)) → r.headAt? π = c.join.headAt? π) →
          IsPrefix c r := by
        intro c
        induction c using ind with
        | leaf a => intro r _; exact isPrefix_iff.2 ⟨.leaf r, by simp [join]⟩
        | none =>
          intro r h
          have := h [] (.inl (by simp [head]))
          refine isPrefix_iff.2 ⟨.none, by simp, ?_⟩
          cases r <;> simp [head, join] at this; rfl
        | node k cs ih =>
          intro r h
          have h0 := h [] (.inr ⟨k, cs.length, by simp [head]⟩)
          simp [join, joinL_eq, head] at h0
          cases r with
          | leaf => simp [head] at h0
          | none => simp [head] at h0
          | node l rs =>
            simp [head] at h0
            obtain ⟨rfl, hl⟩ := h0
            refine isPrefix_node.2 ⟨rs, rfl, hl, ?_⟩
            intro i c r' hc hr
            refine ih c (List.mem_of_getElem? hc) r' ?_
            intro π hπ
            have := h (i :: π) (by simpa [headAt?_node_cons, hc] using hπ)
            simpa [headAt?_node_cons, hr, join, joinL_eq, hc] using this
      apply key
      intro π hπ
      rw [hj]
      exact h π (isSkeleton_iff.2 hπ)
  constructor
  · rintro ⟨out, h⟩ r hr
    exact (hpre r).1 ((combine_ok.1 h).1 r hr)
  · intro h
    have hpre' := fun r hr => (hpre r).2 (h r hr)
    obtain ⟨o, h1, h2⟩ := exists_of_shape (t.cut (fun x => x.isNone || p x))
      (fun π y => ∀ x, (t.cut (fun x => x.isNone || p x)).leafAt? π = some x →
        y = combineLeaf (x :: ts.filterMap (fun r => r.get? π))) (by
        intro π x hx
        exact ⟨combineLeaf (x :: ts.filterMap (fun r => r.get? π)), fun x' hx' => by
          rw [hx] at hx'; simp at hx'; rw [hx']⟩)
    refine ⟨o.join, combine_ok.2 ⟨hpre', o, h1, rfl, ?_⟩⟩
    intro π x hx
    obtain ⟨y, hy⟩ := Option.isSome_iff_exists.1 (show (o.leafAt? π).isSome by
      rw [leafAt?_isSome_of_shape h1, hx]; rfl)
    rw [hy, h2 π y hy x hx]

/-- C03. On trees of the same structure (up to `None`) `combine` is the position-wise "first present
leaf". Every such family has a merge, and it is unique. -/
theorem combine_eq_merge [DecidableEq K] {c : PT K (Option α)} {cs : List (PT K (Option α))}
    (h : ∀ c' ∈ cs, SameStructure c' c) :
    ∃ o, IsMerge (c :: cs) o ∧ combine noLeaf ((c :: cs).map withNones) = .ok (withNones o) := by
  obtain ⟨o, ho⟩ := exists_merge h
  exact ⟨o, ho, combine_merge (by simp) ho⟩

/-- C03. Associativity, for any grouping into two non-empty blocks. -/
theorem combine_assoc [DecidableEq K] {c d : PT K (Option α)} {cs ds : List (PT K (Option α))}
    (hc : ∀ c' ∈ cs, SameStructure c' c) (hd : ∀ d' ∈ d :: ds, SameStructure d' c) :
    ∃ l r out, combine noLeaf ((c :: cs).map withNones) = .ok l ∧
      combine noLeaf ((d :: ds).map withNones) = .ok r ∧ combine noLeaf [l, r] = .ok out ∧
      combine noLeaf (((c :: cs) ++ (d :: ds)).map withNones) = .ok out := by
  have hdc := sameStructure_iff.1 (hd d (by simp))
  obtain ⟨o1, h1, e1⟩ := combine_eq_merge hc
  obtain ⟨o2, h2, e2⟩ := combine_eq_merge (c := d) (cs := ds)
    (fun d' hd' => sameStructure_iff.2 ((sameStructure_iff.1 (hd d' (by simp [hd']))).trans hdc.symm))
  obtain ⟨o, h, e⟩ := combine_eq_merge (c := c) (cs := cs ++ d :: ds) (fun x hx => by
    rcases List.mem_append.1 hx with hx | hx
    · exact hc x hx
    · exact hd x hx)
  refine ⟨_, _, _, e1, e2, ?_, e⟩
  have s1 := sameStructure_iff.1 (h1.1 c (by simp))
  have s2 := sameStructure_iff.1 (h2.1 d (by simp))
  have s := sameStructure_iff.1 (h.1 c (by simp))
  have hm : IsMerge [o1, o2] o := by
    refine ⟨?_, ?_⟩
    · intro x hx
      rw [sameStructure_iff]
      simp at hx
      rcases hx with rfl | rfl
      · rw [← s1, s]
      · rw [← s2, hdc, s]
    · intro π v hv
      rw [h.2 π v hv]
      obtain ⟨v1, hv1⟩ := Option.isSome_iff_exists.1 (show (o1.leafAt? π).isSome by
        rw [leafAt?_isSome_of_shape (s1.symm.trans s), hv]; rfl)
      obtain ⟨v2, hv2⟩ := Option.isSome_iff_exists.1 (show (o2.leafAt? π).isSome by
        rw [leafAt?_isSome_of_shape (s2.symm.trans (hdc.trans s)), hv]; rfl)
      rw [← List.cons_append, List.findSome?_append]
      simp only [List.findSome?_cons, hv1, hv2, Option.join_some, List.findSome?_nil]
      rw [h1.2 π v1 hv1, h2.2 π v2 hv2]
      simp only [List.findSome?_cons]
      cases (c.leafAt? π).join with
      | some a => rfl
      | none =>
        simp only
        cases cs.findSome? (fun c => (c.leafAt? π).join) with
        | some a => rfl
        | none =>
          simp only [Option.none_or]
          cases (d.leafAt? π).join <;> simp
          cases ds.findSome? (fun c => (c.leafAt? π).join) <;> rfl
  simpa using combine_merge (by simp) hm

/-- C03. A tree combined with itself, or with an all-`None` tree of its structure on either side,
is unchanged; trees with disjoint support commute. -/
theorem combine_laws [DecidableEq K] {c d e : PT K (Option α)} (hd : SameStructure d c) (he : SameStructure e c)
    (hnone : ∀ π v, e.leafAt? π = some v → v = Option.none) :
    combine noLeaf [withNones c, withNones c] = .ok (withNones c) ∧
    combine noLeaf [withNones c, withNones e] = .ok (withNones c) ∧
    combine noLeaf [withNones e, withNones c] = .ok (withNones c) ∧
    ((∀ π, c.leafAt? π = some Option.none ∨ d.leafAt? π = some Option.none ∨ c.leafAt? π = Option.none) →
      combine noLeaf [withNones c, withNones d] = combine noLeaf [withNones d, withNones c]) := by
  have hd' := sameStructure_iff.1 hd
  have he' := sameStructure_iff.1 he
  have hee : ∀ π, (e.leafAt? π).join = Option.none := by
    intro π
    cases h : e.leafAt? π with
    | none => rfl
    | some v => rw [hnone π v h]; rfl
  refine ⟨?_, ?_, ?_, ?_⟩
  · refine combine_merge (cs := [c, c]) (by simp) ⟨by simp [sameStructure_iff], ?_⟩
    intro π v hv; cases v <;> simp [hv]
  · refine combine_merge (cs := [c, e]) (by simp) ⟨by simp [sameStructure_iff, he'], ?_⟩
    intro π v hv; cases v <;> simp [hv, hee]
  · refine combine_merge (cs := [e, c]) (by simp) ⟨by simp [sameStructure_iff, he'], ?_⟩
    intro π v hv; cases v <;> simp [hv, hee]
  · intro hdis
    obtain ⟨o, ho, e1⟩ := combine_eq_merge (c := c) (cs := [d]) (by simpa using hd)
    have : IsMerge [d, c] o := by
      refine ⟨fun x hx => ho.1 x (by simp at hx ⊢; exact hx.symm), ?_⟩
      intro π v hv
      rw [ho.2 π v hv]
      simp only [List.findSome?_cons, List.findSome?_nil]
      rcases hdis π with h | h | h
      · simp only [h, Option.join_some]
      · simp only [h, Option.join_some]
      · simp only [h, Option.join_none]
    have e2 := combine_merge (by simp) this
    simp only [List.map_cons, List.map_nil] at e1 e2
    rw [e1, e2]

/-- The families in these laws are the ones of the documentation: `[None, 1, 2]` and `[0, None, None]`. -/
example : combine (K := Nat) noLeaf [withNones (.node 0 [.leaf Option.none, .leaf (some 1), .leaf (some 2)]),
      withNones (.node 0 [.leaf (some 0), .leaf Option.none, .leaf Option.none])] = .ok (.node 0 [.leaf 0, .leaf 1, .leaf 2]) ∧
    (∀ π, (PT.node 0 [.leaf Option.none, .leaf (some 1), .leaf (some 2)] : PT Nat (Option Nat)).leafAt? π = some Option.none ∨
      (PT.node 0 [.leaf (some 0), .leaf Option.none, .leaf Option.none] : PT Nat (Option Nat)).leafAt? π = some Option.none ∨
      (PT.node 0 [.leaf Option.none, .leaf (some 1), .leaf (some 2)] : PT Nat (Option Nat)).leafAt? π = Option.none) := by
  refine ⟨rfl, ?_⟩
  intro π
  match π with
  | [] => simp
  | [0] => simp [leafAt?_node]
  | [1] => simp [leafAt?_node]
  | [2] => simp [leafAt?_node]
  | 0 :: _ :: _ => simp [leafAt?_node]
  | 1 :: _ :: _ => simp [leafAt?_node]
  | 2 :: _ :: _ => simp [leafAt?_node]
  | (n+3) :: _ => simp [leafAt?_node]

/-- Without `is_leaf`, a subtree in the first tree against `None` in the second raises; the other
way round the subtree is taken. -/
example : combine (K := Nat) (α := Nat) noLeaf [.node 0 [.node 1 [.leaf 5]], .node 0 [.none]] = .error .treeError ∧
    combine (K := Nat) (α := Nat) noLeaf [.node 0 [.none], .node 0 [.node 1 [.leaf 5]]] = .ok (.node 0 [.node 1 [.leaf 5]]) :=
  ⟨rfl, rfl⟩

/-! ## C04 apply_updates -/

/-- C04. Where the update is `None` (possibly for a whole subtree) the model is unchanged; where it
is a leaf, the update is added; containers are kept. -/
theorem applyUpdates_spec [DecidableEq K] {add : PT K α → PT K α → Except Err (PT K α)} {model updates out : PT K α}
    (h : applyUpdates add model updates = .ok out) (π : List Nat) :
    (updates.get? π = some .none → ∃ x, model.get? π = some x ∧ out.get? π = some x) ∧
    (∀ u, updates.get? π = some (.leaf u) →
      ∃ x y, model.get? π = some x ∧ add x (.leaf u) = .ok y ∧ out.get? π = some y) ∧
    (∀ k n, updates.headAt? π = some (.node k n) →
      model.headAt? π = some (.node k n) ∧ out.headAt? π = some (.node k n)) := by
  obtain ⟨c, o, h1, rfl, h3, rfl, H⟩ := treeMap2_ok.1 h
  refine ⟨?_, ?_, ?_⟩
  · intro hu
    have hcut := leafAt?_cut_isNone.2 ⟨hu, .inr rfl⟩
    obtain ⟨x, hx⟩ := Option.isSome_iff_exists.1 (show (c.leafAt? π).isSome by
      rw [leafAt?_isSome_of_shape h1, hcut]; rfl)
    obtain ⟨z, hz, he⟩ := H π _ x hcut hx
    simp [applyUpdate, isNone] at he; subst he
    exact ⟨x, get?_join_nil hx, get?_join_nil hz⟩
  · intro u hu
    have hcut := leafAt?_cut_isNone.2 ⟨hu, .inl ⟨u, rfl⟩⟩
    obtain ⟨x, hx⟩ := Option.isSome_iff_exists.1 (show (c.leafAt? π).isSome by
      rw [leafAt?_isSome_of_shape h1, hcut]; rfl)
    obtain ⟨z, hz, he⟩ := H π _ x hcut hx
    simp [applyUpdate, isNone] at he
    exact ⟨x, z, get?_join_nil hx, he, get?_join_nil hz⟩
  · intro k n hu
    have hcut : (updates.cut isNone).headAt? π = some (.node k n) := by
      have : (noneLeaf (updates.map (fun a => PT.leaf a))).headAt? π = some (.node k n) := by
        have key : ∀ (t : PT K (PT K α)) π, t.headAt? π = some (.node k n) → (noneLeaf t).headAt? π = some (.node k n) := by
          intro t
          induction t using ind with
          | leaf a => intro π; cases π <;> simp [head]
          | none => intro π; cases π <;> simp [head]
          | node k' cs ih =>
            intro π h
            cases π with
            | nil => simpa [noneLeaf, noneLeafL_eq, head] using h
            | cons i π =>
              simp only [noneLeaf, noneLeafL_eq, headAt?_node_cons, List.getElem?_map] at h ⊢
              cases hc : cs[i]? with
              | none => simp [hc] at h
              | some c => simpa using ih c (List.mem_of_getElem? hc) π (by simpa [hc] using h)
        apply key
        rw [headAt?_map, hu]; rfl
      rw [cut_isNone]; exact this
    exact ⟨headAt?_join_of_not_leaf.1 k n (((headAt?_of_shape h1 π).1 k n).2 hcut),
      headAt?_join_of_not_leaf.1 k n (((headAt?_of_shape h3 π).1 k n).2 hcut)⟩

/-- C04. It raises exactly when the updates (with `None` as a leaf) are not a prefix of the model or
an addition raises. -/
theorem applyUpdates_succeeds_iff [DecidableEq K] {add : PT K α → PT K α → Except Err (PT K α)} {model updates : PT K α} :
    (∃ out, applyUpdates add model updates = .ok out) ↔
      (∀ π, (∀ k n, updates.headAt? π = some (.node k n) → model.headAt? π = some (.node k n)) ∧
        ((updates.get? π).isSome → (model.get? π).isSome)) ∧
      ∀ π u x, updates.get? π = some (.leaf u) → model.get? π = some x → ∃ y, add x (.leaf u) = .ok y := by
  constructor
  · rintro ⟨out, h⟩
    refine ⟨fun π => ⟨fun k n hu => ((applyUpdates_spec h π).2.2 k n hu).1, ?_⟩, ?_⟩
    · intro hs
      obtain ⟨u, hu⟩ := Option.isSome_iff_exists.1 hs
      cases u with
      | leaf u => obtain ⟨x, y, hx, _⟩ := (applyUpdates_spec h π).2.1 u hu; simp [hx]
      | none => obtain ⟨x, hx, _⟩ := (applyUpdates_spec h π).1 hu; simp [hx]
      | node k cs =>
        have := ((applyUpdates_spec h π).2.2 k cs.length (by simp [headAt?, hu, head])).1
        rw [get?_isSome_headAt?, this]; rfl
    · intro π u x hu hx
      obtain ⟨x', y, hx', hy, _⟩ := (applyUpdates_spec h π).2.1 u hu
      rw [hx] at hx'; simp at hx'; subst hx'; exact ⟨y, hy⟩
  · rintro ⟨hpre, hadd⟩
    have key : ∀ (u m : PT K α), (∀ π, (∀ k n, u.headAt? π = some (.node k n) → m.headAt? π = some (.node k n)) ∧
        ((u.get? π).isSome → (m.get? π).isSome)) → IsPrefix (noneLeaf (u.map (fun a => PT.leaf a))) m := by
      intro u
      induction u using ind with
      | leaf a => intro m _; exact isPrefix_iff.2 ⟨.leaf m, by simp [noneLeaf, map, join]⟩
      | none => intro m _; exact isPrefix_iff.2 ⟨.leaf m, by simp [noneLeaf, map, join]⟩
      | node k us ih =>
        intro m h
        have h0 := (h []).1 k us.length (by simp [head])
        cases m with
        | leaf => simp [head] at h0
        | none => simp [head] at h0
        | node l ms =>
          simp [head] at h0
          obtain ⟨rfl, hl⟩ := h0
          simp only [map, mapL_eq, noneLeaf, noneLeafL_eq, List.map_map]
          refine isPrefix_node.2 ⟨ms, rfl, by simpa using hl, ?_⟩
          intro i d m' hd hm
          simp only [List.getElem?_map, Option.map_eq_some_iff] at hd
          obtain ⟨u', hu', rfl⟩ := hd
          refine ih u' (List.mem_of_getElem? hu') m' ?_
          intro π
          have := h (i :: π)
          simpa [headAt?_node_cons, get?, hu', hm] using this
    have hp := key updates model hpre
    rw [← cut_isNone] at hp
    obtain ⟨c, h1, h2⟩ := isPrefix_iff.1 hp
    obtain ⟨o, h3, h4⟩ := exists_of_shape (updates.cut isNone)
      (fun π z => ∀ u x, (updates.cut isNone).leafAt? π = some u → c.leafAt? π = some x → applyUpdate add u x = .ok z) (by
        intro π u hu
        obtain ⟨x, hx⟩ := Option.isSome_iff_exists.1 (show (c.leafAt? π).isSome by
          rw [leafAt?_isSome_of_shape h1, hu]; rfl)
        have : ∃ z, applyUpdate add u x = .ok z := by
          obtain ⟨g1, ⟨a, rfl⟩ | rfl⟩ := leafAt?_cut_isNone.1 hu
          · have := hadd π a x g1 (by rw [← h2]; exact get?_join_nil hx)
            simpa [applyUpdate, isNone] using this
          · exact ⟨x, by simp [applyUpdate, isNone]⟩
        obtain ⟨z, hz⟩ := this
        refine ⟨z, ?_⟩
        intro u' x' hu' hx'
        rw [hu] at hu'; rw [hx] at hx'; simp at hu' hx'; rw [← hu', ← hx']; exact hz)
    refine ⟨o.join, treeMap2_ok.2 ⟨c, o, h1, h2, h3, rfl, ?_⟩⟩
    intro π u x hu hx
    obtain ⟨z, hz⟩ := Option.isSome_iff_exists.1 (show (o.leafAt? π).isSome by
      rw [leafAt?_isSome_of_shape h3, hu]; rfl)
    exact ⟨z, hz, h4 π z hz u x hu hx⟩

/-- C04. Updates for the trainable half of a partition never touch a leaf of the frozen half. -/
theorem applyUpdates_frozen [DecidableEq K] {add : PT K α → PT K α → Except Err (PT K α)}
    {spec : PT K (Spec K α)} {model trainable frozen updates out : PT K α}
    (hp : partition noLeaf spec .none model = .ok (trainable, frozen))
    (hu : SameStructure updates trainable)
    (h : applyUpdates add model updates = .ok out) {π a} (ha : frozen.leafAt? π = some a) :
    out.leafAt? π = some a ∧ model.leafAt? π = some a := by
  obtain ⟨hl, hr⟩ := (partition_eq_filters _ _ _ _ _ _).1 hp
  obtain ⟨m, d, o, hm, hd, rfl, ho, rfl, H⟩ := filter_ok.1 hl
  obtain ⟨m', d', o', hm', hd', hdj, ho', rfl, H'⟩ := filter_ok.1 hr
  rw [hm] at hm'; simp at hm'; subst hm'
  have := join_inj (by rw [hd, hd']) hdj
  subst this
  obtain ⟨σ, ρ, x, rfl, h1, h2⟩ := leafAt?_join.1 ha
  obtain ⟨y, hy⟩ := Option.isSome_iff_exists.1 (show (d'.leafAt? σ).isSome by
    rw [← leafAt?_isSome_of_shape ho', h1]; rfl)
  obtain ⟨b, hb⟩ := Option.isSome_iff_exists.1 (show (m.leafAt? σ).isSome by
    rw [← leafAt?_isSome_of_shape hd, hy]; rfl)
  have e1 := H σ b y hb hy
  have e2 := H' σ b y hb hy
  rw [h1] at e2
  cases b with
  | true => simp at e2; subst e2; simp at h2
  | false =>
    simp at e1 e2; subst e2
    -- the frozen leaf is a leaf of the model, and `trainable` has `None` there
    obtain ⟨d2, f1, f2, f3, _⟩ := filterTree_split hm
    have := join_inj (by rw [hd, f1]) f2.symm
    subst this
    obtain ⟨s, b, ⟨_, _, _, _, _, _, _, g4, _⟩, _⟩ := f3 σ x hy
    rcases g4 with ⟨a', rfl⟩ | g4
    · cases ρ with
      | cons i ρ => simp at h2
      | nil =>
        simp at h2; subst h2
        simp only [List.append_nil]
        have ht := get?_join_nil e1
        have hun : updates.get? σ = some .none := by
          apply headAt?_none_get?
          have := (headAt?_of_shape (sameStructure_iff.1 hu) σ).2
          rw [this]; simp [headAt?, ht, head]
        obtain ⟨x, hx1, hx2⟩ := (applyUpdates_spec h σ).1 hun
        have hg := get?_join_nil hy
        rw [hg] at hx1; simp at hx1; subst hx1
        exact ⟨leafAt?_eq_some.2 hx2, leafAt?_eq_some.2 hg⟩
    · simp [noLeaf] at g4

/-- Leaf addition on numbers, raising on anything else. -/
def addNat (x u : PT Nat Nat) : Except Err (PT Nat Nat) :=
  match x, u with
  | .leaf a, .leaf b => .ok (.leaf (a + b))
  | _, _ => .error .typeError

example : partition (K := Nat) (α := Nat) noLeaf (.node 0 [.leaf (.bool true), .leaf (.bool false)]) .none
      (.node 0 [.leaf 1, .node 1 [.leaf 2]]) = .ok (.node 0 [.leaf 1, .node 1 [.none]], .node 0 [.none, .node 1 [.leaf 2]]) ∧
    applyUpdates addNat (.node 0 [.leaf 1, .node 1 [.leaf 2]]) (.node 0 [.leaf 10, .node 1 [.none]])
      = .ok (.node 0 [.leaf 11, .node 1 [.leaf 2]]) ∧
    applyUpdates addNat (.node 0 [.leaf 1]) (.leaf 10) = .error .typeError := ⟨rfl, rfl, rfl⟩

end Filters
end Verif
