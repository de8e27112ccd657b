import Verif.PyTree.SpecLemmas
import Verif.Filters.Spec

/-! # Helper lemmas for filters -/

namespace Verif
namespace Filters

open PT

variable {K : Type} {α : Type}

/-- The truth value a spec entry gives to an object. -/
def Spec.eval (s : Spec K α) (x : PT K α) : Except Err Bool :=
  match s with
  | .bool b => .ok b
  | .callable f => f x
  | .other => .error .valueError

theorem makeFilterTree_ok {p : PT K α → Bool} {s : Spec K α} {x : PT K α} {m : PT K Bool} :
    makeFilterTree p (.leaf s) x = .ok m ↔ (s ≠ .other) ∧ m.shape = (x.cut p).shape ∧
      ∀ ρ y, (x.cut p).leafAt? ρ = some y → ∃ b, s.eval y = .ok b ∧ m.leafAt? ρ = some b := by
  have key : ∀ f : PT K α → Except Err Bool,
      (treeMap1 p (fun x => do let b ← f x; pure (.leaf b)) x = .ok m ↔ m.shape = (x.cut p).shape ∧
        ∀ ρ y, (x.cut p).leafAt? ρ = some y → ∃ b, f y = .ok b ∧ m.leafAt? ρ = some b) := by
    intro f
    rw [treeMap1_ok]
    constructor
    · rintro ⟨o, h1, rfl, h3⟩
      have hl : ∀ ρ z, o.leafAt? ρ = some z → ∃ b, z = .leaf b := by
        intro ρ z hz
        have := leafAt?_isSome_of_shape h1 ρ
        rw [hz] at this
        obtain ⟨y, hy⟩ := Option.isSome_iff_exists.1 this.symm
        obtain ⟨z', hz', hf⟩ := h3 ρ y hy
        rw [hz] at hz'; simp at hz'; subst hz'
        cases hfy : f y with
        | error e => simp [hfy, bind, Except.bind] at hf
        | ok b => simp [hfy, bind, Except.bind, pure, Except.pure] at hf; exact ⟨b, hf.symm⟩
      refine ⟨?_, ?_⟩
      · have : o.join.shape = (o.map (fun _ => PT.leaf (K := K) ())).join.shape := by
          apply shape_join (by rw [shape_map])
          intro π x y hx hy
          obtain ⟨b, rfl⟩ := hl π x hx
          rw [leafAt?_map] at hy
          simp at hy
          obtain ⟨_, _, rfl⟩ := hy
          simp
        rw [this, ← h1]
        have e : (o.map (fun _ => PT.leaf (K := K) ())) = (o.map (fun _ => ())).map (fun a => PT.leaf a) := by
          rw [map_map]
        rw [e, join_map_leaf, ← shape, shape, shape, map_map]
      · intro ρ y hy
        obtain ⟨z, hz, hf⟩ := h3 ρ y hy
        obtain ⟨b, rfl⟩ := hl ρ z hz
        refine ⟨b, ?_, leafAt?_join.2 ⟨ρ, [], .leaf b, by simp, hz, rfl⟩⟩
        cases hfy : f y with
        | error e => simp [hfy, bind, Except.bind] at hf
        | ok b' => simp [hfy, bind, Except.bind, pure, Except.pure] at hf; rw [hf]
    · rintro ⟨h1, h2⟩
      refine ⟨m.map (fun b => .leaf b), by rw [shape_map, h1], join_map_leaf m, ?_⟩
      intro ρ y hy
      obtain ⟨b, hb, hm⟩ := h2 ρ y hy
      exact ⟨.leaf b, by simp [leafAt?_map, hm], by simp [hb, bind, Except.bind, pure, Except.pure]⟩
  cases s with
  | bool b =>
    have := key (fun _ => .ok b)
    simp only [makeFilterTree]
    simp only [bind, Except.bind, pure, Except.pure] at this
    rw [this]
    simp [Spec.eval]
  | callable f =>
    simp only [makeFilterTree, key]
    simp [Spec.eval]
  | other => simp [makeFilterTree]

/-- Substitution of trees of a fixed shape is injective. -/
theorem join_inj {c d : PT K (PT K α)} (h : c.shape = d.shape) (h' : c.join = d.join) : c = d := by
  apply eq_of_shape_leafAt? h
  intro π x y hx hy
  have h1 := get?_join_nil hx
  have h2 := get?_join_nil hy
  rw [h'] at h1
  rw [h1] at h2; simpa using h2

theorem shape_join_map_cut (p : PT K α → Bool) (c : PT K (PT K α)) :
    (c.map (cut p)).join.join = c.join := by
  rw [join_join, map_map]
  congr 1
  apply eq_of_shape_leafAt? (by rw [shape_map])
  intro π x y hx hy
  rw [leafAt?_map, hy] at hx
  simp [join_cut] at hx
  exact hx.symm

theorem filterTree_ok [DecidableEq K] {p : PT K α → Bool} {spec : PT K (Spec K α)} {t : PT K α} {m : PT K Bool} :
    filterTree p spec t = .ok m ↔ ∃ c : PT K (PT K α), c.shape = spec.shape ∧ c.join = t ∧
      m.shape = (c.map (cut p)).join.shape ∧
      ∀ σ s x, spec.leafAt? σ = some s → c.leafAt? σ = some x → s ≠ .other ∧
        ∀ ρ y, (x.cut p).leafAt? ρ = some y → ∃ b, s.eval y = .ok b ∧ m.leafAt? (σ ++ ρ) = some b := by
  simp only [filterTree, treeMap2_ok, cut_noLeaf, shape_map]
  constructor
  · rintro ⟨c, o, h1, h2, h3, rfl, H⟩
    refine ⟨c, h1, h2, ?_, ?_⟩
    · apply shape_join (by rw [shape_map, h1, h3])
      intro π z w hz hw
      rw [leafAt?_map] at hw
      simp only [Option.map_eq_some_iff] at hw
      obtain ⟨y, hy, rfl⟩ := hw
      have := leafAt?_isSome_of_shape h1 π
      rw [hy] at this
      obtain ⟨s, hs⟩ := Option.isSome_iff_exists.1 this.symm
      obtain ⟨z', hz', hf⟩ := H π (.leaf s) y (by simp [leafAt?_map, hs]) hy
      rw [hz] at hz'; simp at hz'; subst hz'
      exact (makeFilterTree_ok.1 hf).2.1
    · intro σ s x hs hx
      obtain ⟨z, hz, hf⟩ := H σ (.leaf s) x (by simp [leafAt?_map, hs]) hx
      have := makeFilterTree_ok.1 hf
      refine ⟨this.1, ?_⟩
      intro ρ y hy
      obtain ⟨b, hb, hzb⟩ := this.2.2 ρ y hy
      exact ⟨b, hb, leafAt?_join.2 ⟨σ, ρ, z, rfl, hz, hzb⟩⟩
  · rintro ⟨c, h1, h2, h3, H⟩
    -- rebuild the tree of mask trees from `m`
    have : IsPrefix spec m := by
      rw [isPrefix_iff]
      have hd : ∃ e : PT K (PT K Unit), e.shape = spec.shape ∧ e.join = m.shape := by
        refine ⟨(c.map (cut p)).map shape, by rw [shape_map, shape_map, h1], ?_⟩
        rw [h3]
        have : ((c.map (cut p)).map shape).join = (c.map (cut p)).join.shape := by
          have := shape_join (c := (c.map (cut p)).map shape) (d := c.map (cut p)) (by rw [shape_map]) (by
            intro π x y hx hy
            rw [leafAt?_map, hy] at hx; simp at hx; rw [← hx]; simp [shape, map_map])
          have e : ∀ u : PT K Unit, u.shape = u := by
            intro u; apply eq_of_shape_leafAt? (by simp [shape, map_map]); intros; rfl
          rw [e] at this; exact this
        exact this
      obtain ⟨e, he1, he2⟩ := hd
      have : IsPrefix spec m.shape := isPrefix_iff.2 ⟨e, he1, he2⟩
      have hm : IsPrefix spec m := by
        intro π
        have := this π
        revert this
        cases spec.headAt? π with
        | none => simp
        | some hd =>
          cases hd with
          | leaf s => simp only [get?_isSome_headAt?, shape, headAt?_map]; simp
          | none =>
            simp only [shape]
            rw [(headAt?_of_shape (shape_map (fun _ => ()) m) π).2]; exact id
          | node k n =>
            simp only [shape]
            rw [(headAt?_of_shape (shape_map (fun _ => ()) m) π).1]; exact id
      exact isPrefix_iff.1 hm
    obtain ⟨o, ho1, ho2⟩ := isPrefix_iff.1 this
    refine ⟨c, o, h1, h2, ho1, ho2, ?_⟩
    intro π x y hx hy
    rw [leafAt?_map] at hx
    simp only [Option.map_eq_some_iff] at hx
    obtain ⟨s, hs, rfl⟩ := hx
    have hz := leafAt?_isSome_of_shape ho1 π
    rw [hs] at hz
    obtain ⟨z, hz⟩ := Option.isSome_iff_exists.1 hz
    refine ⟨z, hz, makeFilterTree_ok.2 ⟨(H π s y hs hy).1, ?_, ?_⟩⟩
    · -- shapes agree below `π`
      apply ext_headAt?
      intro ρ
      have e1 : m.shape.get? (π ++ ρ) = z.shape.get? ρ := by
        have hzm := get?_join_nil hz
        rw [ho2] at hzm
        have : m.shape.get? π = some z.shape := by
          have gm : ∀ {β γ : Type} (f : β → γ) (t : PT K β) π, (t.map f).get? π = (t.get? π).map (PT.map f) := by
            intro β γ f t π
            induction π generalizing t with
            | nil => simp [get?]
            | cons i π ih =>
              cases t with
              | leaf => simp [map, get?]
              | none => simp [map, get?]
              | node k cs =>
                simp only [map, mapL_eq, get?, List.getElem?_map]
                cases cs[i]? <;> simp [ih]
          simp only [shape, gm, hzm]; rfl
        rw [get?_append, this]; rfl
      have e2 : (c.map (cut p)).join.shape.get? (π ++ ρ) = (y.cut p).shape.get? ρ := by
        have hym : (c.map (cut p)).join.get? π = some (y.cut p) := get?_join_nil (by simp [leafAt?_map, hy])
        have : (c.map (cut p)).join.shape.get? π = some (y.cut p).shape := by
          have gm : ∀ {β γ : Type} (f : β → γ) (t : PT K β) π, (t.map f).get? π = (t.get? π).map (PT.map f) := by
            intro β γ f t π
            induction π generalizing t with
            | nil => simp [get?]
            | cons i π ih =>
              cases t with
              | leaf => simp [map, get?]
              | none => simp [map, get?]
              | node k cs =>
                simp only [map, mapL_eq, get?, List.getElem?_map]
                cases cs[i]? <;> simp [ih]
          simp only [shape, gm, hym]; rfl
        rw [get?_append, this]; rfl
      simp only [headAt?]
      rw [← e1, ← e2, h3]
    · intro ρ w hw
      obtain ⟨b, hb, hmb⟩ := (H π s y hs hy).2 ρ w hw
      refine ⟨b, hb, ?_⟩
      rw [leafAt?_eq_some] at hmb ⊢
      rw [← ho2, get?_join hz] at hmb
      exact hmb

theorem selTree_ok [DecidableEq K] {m : PT K Bool} {d : PT K (PT K α)} (hd : d.shape = m.shape)
    (g : Bool → PT K α → PT K α) {out : PT K α} (F : PT K Bool → PT K α → Except Err (PT K α))
    (hF : ∀ b x, F (.leaf b) x = .ok (g b x)) :
    treeMap2 noLeaf F m d.join = .ok out ↔ ∃ o : PT K (PT K α), o.shape = d.shape ∧ o.join = out ∧
      ∀ π b x, m.leafAt? π = some b → d.leafAt? π = some x → o.leafAt? π = some (g b x) := by
  simp only [treeMap2_ok, cut_noLeaf, shape_map]
  constructor
  · rintro ⟨c, o, h1, h2, h3, h4, H⟩
    have := join_inj (by rw [h1, hd]) h2
    subst this
    refine ⟨o, by rw [h3, hd], h4, ?_⟩
    intro π b x hb hx
    obtain ⟨z, hz, hf⟩ := H π (.leaf b) x (by simp [leafAt?_map, hb]) hx
    rw [hF] at hf; simp at hf; rw [hz, hf]
  · rintro ⟨o, h1, h2, H⟩
    refine ⟨d, o, hd, rfl, by rw [h1, hd], h2, ?_⟩
    intro π b x hb hx
    rw [leafAt?_map] at hb
    simp only [Option.map_eq_some_iff] at hb
    obtain ⟨b, hb, rfl⟩ := hb
    exact ⟨_, H π b x hb hx, hF b x⟩

/-- Selection never fails. -/
theorem exists_sel {m : PT K Bool} {d : PT K (PT K α)} (hd : d.shape = m.shape) (g : Bool → PT K α → PT K α) :
    ∃ o : PT K (PT K α), o.shape = d.shape ∧
      ∀ π b x, m.leafAt? π = some b → d.leafAt? π = some x → o.leafAt? π = some (g b x) := by
  obtain ⟨o, h1, h2⟩ := exists_of_shape d
    (fun π z => ∀ b x, m.leafAt? π = some b → d.leafAt? π = some x → z = g b x) (by
      intro π x hx
      have := leafAt?_isSome_of_shape hd π
      rw [hx] at this
      obtain ⟨b, hb⟩ := Option.isSome_iff_exists.1 this.symm
      refine ⟨g b x, ?_⟩
      intro b' x' hb' hx'
      rw [hb] at hb'; rw [hx] at hx'; simp at hb' hx'; rw [hb', hx'])
  refine ⟨o, h1, ?_⟩
  intro π b x hb hx
  have := leafAt?_isSome_of_shape h1 π
  rw [hx] at this
  obtain ⟨z, hz⟩ := Option.isSome_iff_exists.1 this
  rw [hz, h2 π z hz b x hb hx]

/-- Everything there is to know about a successful filter tree: `d` splits `t` along the mask. -/
theorem filterTree_split [DecidableEq K] {p : PT K α → Bool} {spec : PT K (Spec K α)} {t : PT K α} {m : PT K Bool}
    (h : filterTree p spec t = .ok m) : ∃ d : PT K (PT K α), d.shape = m.shape ∧ d.join = t ∧
      (∀ π x, d.leafAt? π = some x → ∃ s b, Governs p spec t π s x ∧ s.eval x = .ok b ∧ m.leafAt? π = some b) ∧
      (∀ π s x, Governs p spec t π s x → d.leafAt? π = some x) := by
  obtain ⟨c, h1, h2, h3, H⟩ := filterTree_ok.1 h
  refine ⟨(c.map (cut p)).join, h3.symm, by rw [shape_join_map_cut, h2], ?_, ?_⟩
  · intro π x hx
    obtain ⟨σ, ρ, y, rfl, hy, hx⟩ := leafAt?_join.1 hx
    rw [leafAt?_map] at hy
    simp only [Option.map_eq_some_iff] at hy
    obtain ⟨sub, hsub, rfl⟩ := hy
    have := leafAt?_isSome_of_shape h1 σ
    rw [hsub] at this
    obtain ⟨s, hs⟩ := Option.isSome_iff_exists.1 this.symm
    obtain ⟨b, hb, hm⟩ := (H σ s sub hs hsub).2 ρ x hx
    exact ⟨s, b, ⟨σ, ρ, sub, rfl, hs, by rw [← h2]; exact get?_join_nil hsub, isCutLeaf_iff.2 hx⟩, hb, hm⟩
  · rintro π s x ⟨σ, ρ, sub, rfl, hs, hsub, hx⟩
    have := leafAt?_isSome_of_shape h1 σ
    rw [hs] at this
    obtain ⟨sub', hsub'⟩ := Option.isSome_iff_exists.1 this
    have e := get?_join_nil hsub'
    rw [h2, hsub] at e
    simp at e; subst e
    exact leafAt?_join.2 ⟨σ, ρ, sub.cut p, rfl, by simp [leafAt?_map, hsub'], isCutLeaf_iff.1 hx⟩

/-- When the filter tree exists. -/
theorem filterTree_isOk [DecidableEq K] {p : PT K α → Bool} {spec : PT K (Spec K α)} {t : PT K α} :
    (∃ m, filterTree p spec t = .ok m) ↔ IsPrefix spec t ∧ (∀ σ, spec.leafAt? σ ≠ some .other) ∧
      ∀ π s x, Governs p spec t π s x → ∃ b, s.eval x = .ok b := by
  constructor
  · rintro ⟨m, h⟩
    obtain ⟨c, h1, h2, h3, H⟩ := filterTree_ok.1 h
    refine ⟨isPrefix_iff.2 ⟨c, h1, h2⟩, ?_, ?_⟩
    · intro σ hσ
      have := leafAt?_isSome_of_shape h1 σ
      rw [hσ] at this
      obtain ⟨x, hx⟩ := Option.isSome_iff_exists.1 this
      exact (H σ _ x hσ hx).1 rfl
    · intro π s x hg
      obtain ⟨d, hd1, hd2, hd3, hd4⟩ := filterTree_split h
      have := hd4 π s x hg
      rcases hg with ⟨σ, ρ, sub, rfl, hs, hsub, hx⟩
      have hc := leafAt?_isSome_of_shape h1 σ
      rw [hs] at hc
      obtain ⟨sub', hsub'⟩ := Option.isSome_iff_exists.1 hc
      have e := get?_join_nil hsub'
      rw [h2, hsub] at e
      simp at e; subst e
      obtain ⟨b, hb, _⟩ := (H σ s sub hs hsub').2 ρ x (isCutLeaf_iff.1 hx)
      exact ⟨b, hb⟩
  · rintro ⟨hpre, hoth, hev⟩
    obtain ⟨c, h1, h2⟩ := isPrefix_iff.1 hpre
    obtain ⟨m, hm1, hm2⟩ := exists_of_shape (c.map (cut p)).join
      (fun π b => ∀ s x, Governs p spec t π s x → s.eval x = .ok b) (by
        intro π x hx
        obtain ⟨σ, ρ, y, rfl, hy, hx⟩ := leafAt?_join.1 hx
        rw [leafAt?_map] at hy
        simp only [Option.map_eq_some_iff] at hy
        obtain ⟨sub, hsub, rfl⟩ := hy
        have := leafAt?_isSome_of_shape h1 σ
        rw [hsub] at this
        obtain ⟨s, hs⟩ := Option.isSome_iff_exists.1 this.symm
        have hg : Governs p spec t (σ ++ ρ) s x :=
          ⟨σ, ρ, sub, rfl, hs, by rw [← h2]; exact get?_join_nil hsub, isCutLeaf_iff.2 hx⟩
        obtain ⟨b, hb⟩ := hev _ s x hg
        refine ⟨b, ?_⟩
        rintro s' x' ⟨σ', ρ', sub', he, hs', hsub', hx'⟩
        -- the governing entry is unique, because leaf positions of the spec are incomparable
        have hlen : σ = σ' ∧ ρ = ρ' := by
          have key : ∀ (d : PT K (Spec K α)) σ σ' (ρ ρ' : List Nat) s s', d.leafAt? σ = some s → d.leafAt? σ' = some s' →
              σ ++ ρ = σ' ++ ρ' → σ = σ' ∧ ρ = ρ' := by
            intro d σ
            induction σ generalizing d with
            | nil =>
              intro σ' ρ ρ' s s' h h' he
              cases σ' with
              | nil => simpa using he
              | cons i σ' => cases d <;> simp at h; simp at h'
            | cons i σ ih =>
              intro σ' ρ ρ' s s' h h' he
              cases σ' with
              | nil => cases d <;> simp at h'; simp at h
              | cons j σ' =>
                simp at he
                obtain ⟨rfl, he⟩ := he
                cases d with
                | leaf => simp at h
                | none => simp at h
                | node k cs =>
                  rw [leafAt?_node] at h h'
                  cases hc : cs[i]? with
                  | none => simp [hc] at h
                  | some c =>
                    simp only [hc, Option.bind_some] at h h'
                    have := ih c σ' ρ ρ' s s' h h' he
                    simp [this]
          exact key spec σ σ' ρ ρ' s s' hs hs' he
        obtain ⟨rfl, rfl⟩ := hlen
        rw [hs] at hs'; simp at hs'; subst hs'
        have e := get?_join_nil hsub
        rw [h2, hsub'] at e; simp at e; subst e
        rw [isCutLeaf_iff] at hx'
        rw [hx] at hx'; simp at hx'; subst hx'
        exact hb)
    refine ⟨m, filterTree_ok.2 ⟨c, h1, h2, hm1, ?_⟩⟩
    intro σ s sub hs hsub
    refine ⟨fun e => hoth σ (by rw [hs, e]), ?_⟩
    intro ρ y hy
    have hl : (c.map (cut p)).join.leafAt? (σ ++ ρ) = some y :=
      leafAt?_join.2 ⟨σ, ρ, sub.cut p, rfl, by simp [leafAt?_map, hsub], hy⟩
    have := leafAt?_isSome_of_shape hm1 (σ ++ ρ)
    rw [hl] at this
    obtain ⟨b, hb⟩ := Option.isSome_iff_exists.1 this
    refine ⟨b, hm2 _ b hb s y ⟨σ, ρ, sub, rfl, hs, by rw [← h2]; exact get?_join_nil hsub, isCutLeaf_iff.2 hy⟩, hb⟩

theorem filter_ok [DecidableEq K] {p : PT K α → Bool} {spec : PT K (Spec K α)} {inverse replace} {t out : PT K α} :
    filter p spec inverse replace t = .ok out ↔ ∃ (m : PT K Bool) (d o : PT K (PT K α)),
      filterTree p spec t = .ok m ∧ d.shape = m.shape ∧ d.join = t ∧ o.shape = d.shape ∧ o.join = out ∧
      ∀ π b x, m.leafAt? π = some b → d.leafAt? π = some x →
        o.leafAt? π = some (if b != inverse then x else replace) := by
  simp only [filter, bind, Except.bind]
  cases hm : filterTree p spec t with
  | error e => simp
  | ok m =>
    obtain ⟨d, hd1, rfl, _⟩ := filterTree_split hm
    simp only
    rw [selTree_ok hd1 (fun b x => if b != inverse then x else replace) _ (by intro b x; simp only; split <;> rfl)]
    constructor
    · rintro ⟨o, h1, h2, h3⟩; exact ⟨m, d, o, rfl, hd1, rfl, h1, h2, h3⟩
    · rintro ⟨m', d', o, hm', h1, h2, h3, h4, h5⟩
      simp at hm'; subst hm'
      have := join_inj (by rw [h1, hd1]) h2
      subst this
      exact ⟨o, h3, h4, h5⟩

theorem partition_eq [DecidableEq K] (p : PT K α → Bool) (spec : PT K (Spec K α)) (replace t : PT K α) :
    partition p spec replace t = (do
      let l ← filter p spec false replace t
      let r ← filter p spec true replace t
      pure (l, r)) := by
  simp only [partition, filter, bind, Except.bind]
  cases hm : filterTree p spec t with
  | error e => rfl
  | ok m =>
    simp only
    congr 1
    · congr 1
      funext mask x
      cases mask with
      | leaf b => cases b <;> rfl
      | none => rfl
      | node => rfl
    · funext l
      congr 1
      congr 1
      funext mask x
      cases mask with
      | leaf b => cases b <;> rfl
      | none => rfl
      | node => rfl

/-! ### combine -/

mutual
/-- Turn `None` nodes of the outer tree into leaves carrying `None`. -/
def noneLeaf : PT K (PT K α) → PT K (PT K α)
  | .leaf x => .leaf x
  | .none => .leaf .none
  | .node k cs => .node k (noneLeafL cs)
def noneLeafL : List (PT K (PT K α)) → List (PT K (PT K α))
  | [] => []
  | c :: cs => noneLeaf c :: noneLeafL cs
end

theorem noneLeafL_eq (cs : List (PT K (PT K α))) : noneLeafL cs = cs.map noneLeaf := by
  induction cs with
  | nil => simp [noneLeafL]
  | cons c cs ih => simp [noneLeafL, ih]

theorem join_noneLeaf (c : PT K (PT K α)) : (noneLeaf c).join = c.join := by
  induction c using ind with
  | leaf a => rfl
  | none => rfl
  | node k cs ih =>
    simp only [noneLeaf, noneLeafL_eq, join, joinL_eq, List.map_map, PT.node.injEq, true_and]
    exact List.map_congr_left fun c hc => ih c hc

theorem shape_noneLeaf {c d : PT K (PT K α)} (h : c.shape = d.shape) : (noneLeaf c).shape = (noneLeaf d).shape := by
  induction c using ind generalizing d with
  | leaf a => cases d <;> simp at h; simp [noneLeaf]
  | none => cases d <;> simp at h; simp [noneLeaf]
  | node k cs ih =>
    cases d with
    | leaf => simp at h
    | none => simp at h
    | node l ds =>
      simp only [shape_node, PT.node.injEq] at h
      obtain ⟨rfl, hcs⟩ := h
      simp only [noneLeaf, noneLeafL_eq, shape_node, List.map_map, PT.node.injEq, true_and]
      have hl := congrArg List.length hcs
      simp at hl
      apply List.ext_getElem (by simp [hl])
      intro i h1 h2
      simp only [List.length_map] at h1 h2
      simp only [List.getElem_map, Function.comp]
      refine ih _ (List.getElem_mem h1) ?_
      have := congrArg (fun l => l[i]?) hcs
      simpa [h1, h2] using this

theorem leafAt?_noneLeaf {c : PT K (PT K α)} {π x} :
    (noneLeaf c).leafAt? π = some x ↔ c.leafAt? π = some x ∨ (c.headAt? π = some .none ∧ x = .none) := by
  induction c using ind generalizing π with
  | leaf a => cases π <;> simp [noneLeaf, head]
  | none => cases π <;> simp [noneLeaf, head, eq_comm]
  | node k cs ih =>
    cases π with
    | nil => simp [noneLeaf, head]
    | cons i π =>
      simp only [noneLeaf, noneLeafL_eq, leafAt?_node, headAt?_node_cons, List.getElem?_map]
      cases hc : cs[i]? with
      | none => simp
      | some c => simpa using ih c (List.mem_of_getElem? hc)

theorem cut_join {q : PT K α → Bool} (hq : q .none = true) {o : PT K (PT K α)}
    (hl : ∀ π x, o.leafAt? π = some x → (∃ a, x = .leaf a) ∨ q x = true)
    (hn : ∀ π k n y, o.headAt? π = some (.node k n) → o.join.get? π = some y → q y = false) :
    o.join.cut q = noneLeaf o := by
  induction o using ind with
  | leaf x =>
    simp only [join, noneLeaf]
    rcases hl [] x rfl with ⟨a, rfl⟩ | h
    · simp [cut]
    · cases x <;> simp [cut, h]
  | none => simp [join, noneLeaf, cut, hq]
  | node k cs ih =>
    have h0 := hn [] k cs.length (.node k (joinL cs)) (by simp [head]) (by simp [join, get?])
    simp only [join, cut, h0, Bool.false_eq_true, if_false, noneLeaf, PT.node.injEq, true_and]
    simp only [cutL_eq, joinL_eq, noneLeafL_eq, List.map_map]
    apply List.map_congr_left
    intro c hc
    obtain ⟨i, hi, rfl⟩ := List.getElem_of_mem hc
    refine ih _ hc ?_ ?_
    · intro π x hx
      exact hl (i :: π) x (by simp [leafAt?_node, hi, hx])
    · intro π k n y h1 h2
      exact hn (i :: π) k n y (by simp [headAt?_node_cons, hi, h1])
        (by simp [join, joinL_eq, get?, hi, h2])

theorem headAt?_none_of_shape {c : PT K (PT K α)} {d : PT K (PT K α)} (h : c.shape = d.shape) {π}
    (hc : c.headAt? π = some .none) : d.headAt? π = some .none := ((headAt?_of_shape h π).2).1 hc

theorem headAt?_none_get? {t : PT K α} {π} (h : t.headAt? π = some .none) : t.get? π = some .none := by
  simp only [headAt?, Option.map_eq_some_iff] at h
  obtain ⟨x, hx, hx'⟩ := h
  cases x <;> simp [head] at hx'
  exact hx

/-- The heart of the round trip: merging two complementary selections. -/
theorem combine_two [DecidableEq K] {p : PT K α → Bool} {d o o' : PT K (PT K α)}
    (h : o.shape = d.shape) (h' : o'.shape = d.shape)
    (hd : ∀ π x, d.leafAt? π = some x → (∃ a, x = .leaf a) ∨ p x = true)
    (hleaf : ∀ π x, d.leafAt? π = some x → (o.leafAt? π = some x ∧ o'.leafAt? π = some .none) ∨
      (o.leafAt? π = some .none ∧ o'.leafAt? π = some x))
    (hn : ∀ π k n y, o.headAt? π = some (.node k n) → o.join.get? π = some y → p y = false) :
    combine p [o.join, o'.join] = .ok d.join := by
  have hcut : o.join.cut (fun x => x.isNone || p x) = noneLeaf o := by
    apply cut_join (by simp [isNone])
    · intro π x hx
      have := leafAt?_isSome_of_shape h π
      rw [hx] at this
      obtain ⟨y, hy⟩ := Option.isSome_iff_exists.1 this.symm
      rcases hleaf π y hy with ⟨h1, _⟩ | ⟨h1, _⟩
      · rw [hx] at h1; simp at h1; subst h1
        rcases hd π x hy with h | h
        · exact .inl h
        · exact .inr (by simp [h])
      · rw [hx] at h1; simp at h1; subst h1; exact .inr (by simp [isNone])
    · intro π k n y h1 h2
      have := hn π k n y h1 h2
      simp only [this, Bool.or_false]
      have := (headAt?_join_of_not_leaf (c := o) (π := π)).1 k n h1
      simp only [headAt?, h2, Option.map_some, Option.some.injEq] at this
      cases y <;> simp [head] at this
      rfl
  simp only [combine]
  rw [treeMap_ok, hcut]
  refine ⟨?_, noneLeaf d, shape_noneLeaf h.symm, join_noneLeaf d, ?_⟩
  · intro r hr
    simp at hr; subst hr
    exact isPrefix_iff.2 ⟨noneLeaf o', shape_noneLeaf (by rw [h, h']), join_noneLeaf o'⟩
  · intro π x hx
    rcases leafAt?_noneLeaf.1 hx with hx | ⟨hx', rfl⟩
    · have := leafAt?_isSome_of_shape h π
      rw [hx] at this
      obtain ⟨y, hy⟩ := Option.isSome_iff_exists.1 this.symm
      refine ⟨y, leafAt?_noneLeaf.2 (.inl hy), ?_⟩
      rcases hleaf π y hy with ⟨h1, h2⟩ | ⟨h1, h2⟩
      · rw [hx] at h1; simp at h1; subst h1
        simp only [List.filterMap_cons, get?_join_nil h2, List.filterMap_nil, combineLeaf]
        cases x <;> simp [isNone]
      · rw [hx] at h1; simp at h1; subst h1
        simp only [List.filterMap_cons, get?_join_nil h2, List.filterMap_nil, combineLeaf]
        cases y <;> simp [isNone]
    · refine ⟨.none, leafAt?_noneLeaf.2 (.inr ⟨headAt?_none_of_shape h hx', rfl⟩), ?_⟩
      have e := headAt?_none_get? (headAt?_join_of_not_leaf.2 (headAt?_none_of_shape (h.trans h'.symm) hx'))
      simp [e, combineLeaf, isNone]

theorem combineLeaf_first (xs : List (PT K α)) : IsFirstNonNone xs (combineLeaf xs) := by
  induction xs with
  | nil => left; simp [combineLeaf]
  | cons x xs ih =>
    simp only [combineLeaf]
    cases x with
    | none =>
      simp only [isNone, if_true]
      rcases ih with ⟨h1, h2⟩ | ⟨h1, i, h2, h3⟩
      · left; exact ⟨h1, by simpa using h2⟩
      · right
        refine ⟨h1, i + 1, by simpa using h2, ?_⟩
        intro j hj
        cases j with
        | zero => rfl
        | succ j => simpa using h3 j (by omega)
    | leaf a => right; exact ⟨by simp [isNone], 0, by simp [isNone], by simp⟩
    | node k cs => right; exact ⟨by simp [isNone], 0, by simp [isNone], by simp⟩

theorem IsFirstNonNone.unique {xs : List (PT K α)} {y z} (h : IsFirstNonNone xs y) (h' : IsFirstNonNone xs z) : y = z := by
  rcases h with ⟨h1, h2⟩ | ⟨h1, i, h2, h3⟩ <;> rcases h' with ⟨h1', h2'⟩ | ⟨h1', i', h2', h3'⟩
  · rw [h1, h1']
  · exact absurd (h2 z (List.mem_of_getElem? h2')) h1'
  · exact absurd (h2' y (List.mem_of_getElem? h2)) h1
  · have : i = i' := by
      rcases Nat.lt_trichotomy i i' with h | h | h
      · have := h3' i h; rw [h2] at this; simp at this; exact absurd this h1
      · exact h
      · have := h3 i' h; rw [h2'] at this; simp at this; exact absurd this h1'
    subst this
    rw [h2] at h2'; simpa using h2'

/-- A tree with optional leaves as an equinox tree: absent leaves become `None`. -/
theorem get?_map' {β γ : Type} (f : β → γ) (t : PT K β) (π) : (t.map f).get? π = (t.get? π).map (PT.map f) := by
  induction π generalizing t with
  | nil => simp [get?]
  | cons i π ih =>
    cases t with
    | leaf => simp [map, get?]
    | none => simp [map, get?]
    | node k cs =>
      simp only [map, mapL_eq, get?, List.getElem?_map]
      cases cs[i]? <;> simp [ih]

theorem combine_ok [DecidableEq K] {p : PT K α → Bool} {t : PT K α} {ts : List (PT K α)} {out : PT K α} :
    combine p (t :: ts) = .ok out ↔
      (∀ r ∈ ts, IsPrefix (t.cut (fun x => x.isNone || p x)) r) ∧ ∃ o : PT K (PT K α),
      o.shape = (t.cut (fun x => x.isNone || p x)).shape ∧ o.join = out ∧
      ∀ π x, (t.cut (fun x => x.isNone || p x)).leafAt? π = some x →
        o.leafAt? π = some (combineLeaf (x :: ts.filterMap (fun r => r.get? π))) := by
  simp only [combine]
  rw [treeMap_ok]
  refine and_congr_right fun _ => exists_congr fun o => and_congr_right fun _ => and_congr_right fun _ => ?_
  constructor
  · intro h π x hx
    obtain ⟨y, hy, he⟩ := h π x hx
    simp at he; rw [hy, he]
  · intro h π x hx
    exact ⟨_, h π x hx, rfl⟩

theorem cut_withNones (c : PT K (Option α)) :
    (withNones c).cut (fun x => x.isNone || noLeaf x) =
      noneLeaf (c.map orNone) := by
  apply cut_join (by simp [isNone])
  · intro π x hx
    rw [leafAt?_map] at hx
    simp only [Option.map_eq_some_iff] at hx
    obtain ⟨a, _, rfl⟩ := hx
    cases a with
    | none => right; rfl
    | some a => left; exact ⟨a, rfl⟩
  · intro π k n y h1 h2
    have := (headAt?_join_of_not_leaf (π := π)).1 k n h1
    simp only [headAt?, h2, Option.map_some, Option.some.injEq] at this
    cases y <;> simp [head] at this
    rfl

theorem combineLeaf_filterMap (cs : List (PT K (Option α))) (π : List Nat)
    (h : ∀ c ∈ cs, (c.leafAt? π).isSome) :
    combineLeaf ((cs.map withNones).filterMap (fun r => r.get? π)) =
      orNone (cs.findSome? (fun c => (c.leafAt? π).join)) := by
  induction cs with
  | nil => rfl
  | cons c cs ih =>
    obtain ⟨v, hv⟩ := Option.isSome_iff_exists.1 (h c (by simp))
    have hg : (withNones c).get? π = some (orNone v) :=
      get?_join_nil (by simp [leafAt?_map, hv])
    simp only [List.map_cons, List.filterMap_cons, hg, List.findSome?_cons, hv, Option.join_some]
    cases v with
    | none => simp only [combineLeaf, isNone, if_true, orNone]; exact ih (fun c hc => h c (by simp [hc]))
    | some a => simp [combineLeaf, isNone, orNone]

theorem combineLeaf_nones (xs : List (PT K α)) (h : ∀ x ∈ xs, x = .none) : combineLeaf xs = .none := by
  induction xs with
  | nil => rfl
  | cons x xs ih =>
    rw [h x (by simp)]
    simp only [combineLeaf, isNone, if_true]
    exact ih (fun x hx => h x (by simp [hx]))

theorem combine_merge [DecidableEq K] {cs : List (PT K (Option α))} {o : PT K (Option α)} (hne : cs ≠ [])
    (h : IsMerge cs o) : combine noLeaf (cs.map withNones) = .ok (withNones o) := by
  obtain ⟨hs, hv⟩ := h
  cases cs with
  | nil => exact absurd rfl hne
  | cons c cs =>
    have hs' : ∀ c' ∈ c :: cs, c'.shape = o.shape := fun c' hc' => sameStructure_iff.1 (hs c' hc')
    simp only [List.map_cons]
    rw [combine_ok, cut_withNones]
    refine ⟨?_, noneLeaf (o.map _), shape_noneLeaf (by rw [shape_map, shape_map]; exact (hs' c (by simp)).symm), join_noneLeaf _, ?_⟩
    · intro r hr
      obtain ⟨c', hc', rfl⟩ := List.mem_map.1 hr
      refine isPrefix_iff.2 ⟨noneLeaf (c'.map _), shape_noneLeaf ?_, join_noneLeaf _⟩
      rw [shape_map, shape_map, hs' c (by simp), hs' c' (by simp [hc'])]
    · intro π x hx
      rcases leafAt?_noneLeaf.1 hx with hx | ⟨hx', rfl⟩
      · rw [leafAt?_map] at hx
        simp only [Option.map_eq_some_iff] at hx
        obtain ⟨v, hv1, rfl⟩ := hx
        have hall : ∀ c' ∈ c :: cs, (c'.leafAt? π).isSome := by
          intro c' hc'
          rw [leafAt?_isSome_of_shape ((hs' c' hc').trans (hs' c (by simp)).symm), hv1]; rfl
        have e := combineLeaf_filterMap (c :: cs) π hall
        have hg : (withNones c).get? π = some (orNone v) :=
          get?_join_nil (by simp [leafAt?_map, hv1])
        simp only [List.map_cons, List.filterMap_cons, hg] at e
        rw [e]
        rw [leafAt?_noneLeaf]
        left
        obtain ⟨w, hw⟩ := Option.isSome_iff_exists.1 (show (o.leafAt? π).isSome by
          rw [← leafAt?_isSome_of_shape (hs' c (by simp)), hv1]; rfl)
        rw [leafAt?_map, hw, hv π w hw]
        rfl
      · rw [combineLeaf_nones]
        · rw [leafAt?_noneLeaf]; right
          refine ⟨?_, rfl⟩
          have : (o.map (orNone (K := K))).shape =
              (c.map (orNone (K := K))).shape := by
            rw [shape_map, shape_map]; exact (hs' c (by simp)).symm
          exact headAt?_none_of_shape this.symm hx'
        · intro x hx2
          simp only [List.mem_cons, List.mem_filterMap, List.mem_map] at hx2
          rcases hx2 with rfl | ⟨r, ⟨c', hc', rfl⟩, hr⟩
          · rfl
          · have : (c'.map (orNone (K := K))).shape =
                (c.map (orNone (K := K))).shape := by
              rw [shape_map, shape_map]; exact (hs' c' (by simp [hc'])).trans (hs' c (by simp)).symm
            have := headAt?_none_get? (headAt?_join_of_not_leaf.2 (headAt?_none_of_shape this.symm hx'))
            rw [withNones, this] at hr; simpa using hr.symm

theorem exists_merge {c : PT K (Option α)} {cs : List (PT K (Option α))} (h : ∀ c' ∈ cs, SameStructure c' c) :
    ∃ o, IsMerge (c :: cs) o := by
  obtain ⟨o, h1, h2⟩ := exists_of_shape c (fun π v => v = (c :: cs).findSome? (fun c => (c.leafAt? π).join))
    (fun π x _ => ⟨_, rfl⟩)
  refine ⟨o, ?_, h2⟩
  intro c' hc'
  rw [sameStructure_iff, h1]
  rcases List.mem_cons.1 hc' with rfl | hc'
  · rfl
  · exact sameStructure_iff.1 (h c' hc')

theorem IsMerge.unique {cs : List (PT K (Option α))} {o o' : PT K (Option α)} (hne : cs ≠ []) (h : IsMerge cs o)
    (h' : IsMerge cs o') : o = o' := by
  cases cs with
  | nil => exact absurd rfl hne
  | cons c cs =>
    apply eq_of_shape_leafAt?
    · rw [← sameStructure_iff.1 (h.1 c (by simp)), sameStructure_iff.1 (h'.1 c (by simp))]
    · intro π x y hx hy
      rw [h.2 π x hx, h'.2 π y hy]

theorem cut_isNone (t : PT K α) :
    t.cut isNone = noneLeaf (t.map (fun a => PT.leaf a)) := by
  conv => lhs; rw [← join_map_leaf t]
  apply cut_join (by simp [isNone])
  · intro π x hx
    rw [leafAt?_map] at hx
    simp only [Option.map_eq_some_iff] at hx
    obtain ⟨a, _, rfl⟩ := hx
    left; exact ⟨a, rfl⟩
  · intro π k n y h1 h2
    have := (headAt?_join_of_not_leaf (π := π)).1 k n h1
    simp only [headAt?, h2, Option.map_some, Option.some.injEq] at this
    cases y <;> simp [head] at this
    rfl

theorem leafAt?_cut_isNone {t : PT K α} {π x} : (t.cut isNone).leafAt? π = some x ↔
    t.get? π = some x ∧ ((∃ a, x = .leaf a) ∨ x = .none) := by
  rw [cut_isNone, leafAt?_noneLeaf, leafAt?_map]
  constructor
  · rintro (h | ⟨h, rfl⟩)
    · simp only [Option.map_eq_some_iff] at h
      obtain ⟨a, ha, rfl⟩ := h
      exact ⟨leafAt?_eq_some.1 ha, .inl ⟨a, rfl⟩⟩
    · have := headAt?_join_of_not_leaf.2 h
      rw [join_map_leaf] at this
      exact ⟨headAt?_none_get? this, .inr rfl⟩
  · rintro ⟨h, ⟨a, rfl⟩ | rfl⟩
    · left; rw [leafAt?_eq_some.2 h]; rfl
    · right; refine ⟨?_, rfl⟩
      rw [headAt?_map, headAt?, h]; rfl

end Filters
end Verif
