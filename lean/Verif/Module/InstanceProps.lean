import Verif.Module.Instance
import Verif.TreeEqual.Props

/-! # C35: flattening, equality and hashes of modules -/

namespace Verif.Module


variable {N C K A E V W : Type} [DecidableEq N]

/-! ### Vocabulary -/

/-- `n` is a field of the class that becomes a child. -/
def IsDyn (info : Info N C V) (c : C) (n : N) : Prop := ∃ f ∈ info.fields c, f.name = n ∧ f.static = false

/-- `n` is a static field of the class. -/
def IsStat (info : Info N C V) (c : C) (n : N) : Prop := ∃ f ∈ info.fields c, f.name = n ∧ f.static = true

/-- Names of fields are not repeated (they are keys of `__dataclass_fields__`), nor are wrapper names (a set). -/
def Info.OK (info : Info N C V) : Prop :=
  (∀ c, ((info.fields c).map (·.name)).Nodup) ∧ info.wrapper.Nodup

/-- No field is called `__doc__` etc. -/
def Info.Disjoint (info : Info N C V) : Prop := ∀ c, ∀ f ∈ info.fields c, f.name ∉ info.wrapper

/-- The entry of `__dict__` of an instance. -/
def entry (ns : List N) (vs : List V) (n : N) : Option V := Dict.get? (ns.zip vs) n

/-- Every instance inside has only fields and wrapper names in its `__dict__` (see C36: nothing else can be assigned). -/
inductive Obj.WF (info : Info N C (Obj N C K A)) : Obj N C K A → Prop
  | leaf (a) : Obj.WF info (.leaf a)
  | none : Obj.WF info .none
  | node (k cs) : (∀ c ∈ cs, Obj.WF info c) → Obj.WF info (.node k cs)
  | inst (c ns vs) :
      (∀ n v, entry ns vs n = some v → IsDyn info c n ∨ IsStat info c n ∨ n ∈ info.wrapper) →
      (∀ v ∈ vs, Obj.WF info v) → Obj.WF info (.inst c ns vs)

/-- Two objects look the same: the same containers, instances of the same class with the same attributes; children are the
same in turn, and all other attributes are identical. Which fields are set in `__dict__` agrees, too. -/
inductive Same (info : Info N C (Obj N C K A)) : Obj N C K A → Obj N C K A → Prop
  | leaf (a) : Same info (.leaf a) (.leaf a)
  | none : Same info .none .none
  | node (k cs ds) : cs.length = ds.length → (∀ (i : Nat) x y, cs[i]? = some x → ds[i]? = some y → Same info x y) →
      Same info (.node k cs) (.node k ds)
  | inst (c ns vs ns' vs') :
      (∀ n, IsDyn info c n → n ∉ info.wrapper → ((entry ns vs n).isSome ↔ (entry ns' vs' n).isSome)) →
      (∀ n, IsDyn info c n → n ∉ info.wrapper →
        ∀ x y, entry ns vs n = some x → entry ns' vs' n = some y → Same info x y) →
      (∀ n, ¬ (IsDyn info c n ∧ n ∉ info.wrapper) →
        getattr info c (ns.zip vs) n = getattr info c (ns'.zip vs') n) →
      (∀ n, IsStat info c n → n ∉ info.wrapper → entry ns vs n = entry ns' vs' n) →
      Same info (.inst c ns vs) (.inst c ns' vs')

/-- Equality as documented: the same containers with equal contents; modules of the same class with the same fields set,
static fields (and `__doc__` etc.) equal according to `κ`, and other fields equal in turn. `R` is equality of leaves. -/
inductive ModEq (info : Info N C (Obj N C K A)) (κ : Obj N C K A → E) (R : A → A → Prop) :
    Obj N C K A → Obj N C K A → Prop
  | leaf {a b} : R a b → ModEq info κ R (.leaf a) (.leaf b)
  | none : ModEq info κ R .none .none
  | node (k cs ds) : cs.length = ds.length →
      (∀ (i : Nat) x y, cs[i]? = some x → ds[i]? = some y → ModEq info κ R x y) → ModEq info κ R (.node k cs) (.node k ds)
  | inst (c ns vs ns' vs') :
      (∀ n, IsDyn info c n ∨ IsStat info c n → ((entry ns vs n).isSome ↔ (entry ns' vs' n).isSome)) →
      (∀ n, IsStat info c n → (entry ns vs n).map κ = (entry ns' vs' n).map κ) →
      (∀ n ∈ info.wrapper, (getattr info c (ns.zip vs) n).map κ = (getattr info c (ns'.zip vs') n).map κ) →
      (∀ n, IsDyn info c n → ∀ x y, entry ns vs n = some x → entry ns' vs' n = some y → ModEq info κ R x y) →
      ModEq info κ R (.inst c ns vs) (.inst c ns' vs')

/-! ### Lemmas -/

theorem Obj.ind {P : Obj N C K A → Prop} (leaf : ∀ a, P (.leaf a)) (none : P .none)
    (node : ∀ k cs, (∀ c ∈ cs, P c) → P (.node k cs)) (inst : ∀ c ns vs, (∀ v ∈ vs, P v) → P (.inst c ns vs)) : ∀ o, P o
  | .leaf a => leaf a
  | .none => none
  | .node k cs => node k cs (go cs)
  | .inst c ns vs => inst c ns vs (go vs)
where
  go : ∀ cs : List (Obj N C K A), ∀ c ∈ cs, P c
  | [], _, h => nomatch h
  | c :: cs, d, h => by
    rcases List.mem_cons.1 h with h | h
    · exact h ▸ Obj.ind leaf none node inst c
    · exact go cs d h

theorem get?_zip_map (g : V → W) (ns : List N) (vs : List V) (n : N) :
    Dict.get? (ns.zip (vs.map g)) n = (Dict.get? (ns.zip vs) n).map g := by
  induction ns generalizing vs with
  | nil => simp [Dict.get?]
  | cons a ns ih =>
    cases vs with
    | nil => simp [Dict.get?]
    | cons v vs =>
      simp only [List.map_cons, List.zip_cons_cons, Dict.get?]
      split
      · simp
      · exact ih vs

theorem flattenFields_map (g : V → W) {d : Dict N V} {d' : Dict N W} (hd : ∀ n, d'.get? n = (d.get? n).map g)
    (fs : List (Field N)) :
    flattenFields d' fs = ((flattenFields d fs).1.map (fun p => (p.1, g p.2)), (flattenFields d fs).2.map (fun p => (p.1, g p.2))) := by
  induction fs with
  | nil => simp [flattenFields]
  | cons f fs ih =>
    simp only [flattenFields, hd]
    cases h : Dict.get? d f.name with
    | none => simpa using ih
    | some v =>
      simp only [Option.map_some]
      cases f.static <;> simp [ih]

theorem toPTL_eq (info : Info N C (Obj N C K A)) (κ : Obj N C K A → E) (os : List (Obj N C K A)) :
    toPTL info κ os = os.map (toPT info κ) := by
  induction os with
  | nil => rfl
  | cons o os ih => simp [toPTL, ih]

theorem fromPTL_eq (ts : List (PT (Key N C K (Obj N C K A)) A)) : fromPTL ts = ts.map fromPT := by
  induction ts with
  | nil => rfl
  | cons o os ih => simp [fromPTL, ih]

/-- A module becomes a node whose children are the objects returned by `_flatten_module`. -/
theorem toPT_inst (info : Info N C (Obj N C K A)) (κ : Obj N C K A → E) (c : C) (ns : List N) (vs : List (Obj N C K A)) :
    toPT info κ (.inst c ns vs) = .node (.module c ((flattenModule info c (ns.zip vs)).2.map κ))
      ((flattenModule info c (ns.zip vs)).1.map (toPT info κ)) := by
  rw [toPT, toPTL_eq, flattenFields_map (toPT info κ) (d := ns.zip vs) (get?_zip_map _ _ _)]
  simp [flattenModule, List.map_map, Function.comp_def]

theorem flattenFields_fst {d : Dict N V} {fs : List (Field N)} (hn : (fs.map (·.name)).Nodup) (n : N) :
    ((∃ f ∈ fs, f.name = n ∧ f.static = false) → Dict.get? (flattenFields d fs).1 n = d.get? n) ∧
    ((¬ ∃ f ∈ fs, f.name = n ∧ f.static = false) → Dict.get? (flattenFields d fs).1 n = none) := by
  induction fs with
  | nil => simp [flattenFields, Dict.get?]
  | cons f fs ih =>
    simp only [List.map_cons, List.nodup_cons] at hn
    obtain ⟨ih1, ih2⟩ := ih hn.2
    simp only [flattenFields]
    by_cases hfn : f.name = n
    · have hrest : ¬ ∃ g ∈ fs, g.name = n ∧ g.static = false := by
        rintro ⟨g, hg, hgn, -⟩
        exact hn.1 (by rw [hfn, ← hgn]; exact List.mem_map.2 ⟨g, hg, rfl⟩)
      have hnone := ih2 hrest
      cases hs : f.static with
      | true =>
        constructor
        · rintro ⟨g, hg, hgn, hgs⟩
          rcases List.mem_cons.1 hg with rfl | hg
          · rw [hs] at hgs; cases hgs
          · exact absurd ⟨g, hg, hgn, hgs⟩ hrest
        · intro _
          split
          · exact hnone
          · exact hnone
      | false =>
        constructor
        · intro _
          cases hd : d.get? f.name with
          | none => simp only []; rw [hnone, ← hfn, hd]
          | some v => simp [Dict.get?, hfn, ← hd]
        · intro hne
          exact absurd ⟨f, by simp, hfn, hs⟩ hne
    · have hiff : (∃ g ∈ f :: fs, g.name = n ∧ g.static = false) ↔ ∃ g ∈ fs, g.name = n ∧ g.static = false := by
        constructor
        · rintro ⟨g, hg, hgn, hgs⟩
          rcases List.mem_cons.1 hg with rfl | hg
          · exact absurd hgn hfn
          · exact ⟨g, hg, hgn, hgs⟩
        · rintro ⟨g, hg, h⟩; exact ⟨g, List.mem_cons_of_mem _ hg, h⟩
      rw [hiff]
      have hcons : ∀ v, Dict.get? ((f.name, v) :: (flattenFields d fs).1) n = Dict.get? (flattenFields d fs).1 n := by
        intro v; simp [Dict.get?, hfn]
      cases Dict.get? d f.name with
      | none => exact ⟨ih1, ih2⟩
      | some v =>
        cases f.static with
        | true => exact ⟨ih1, ih2⟩
        | false =>
          simp only [Bool.false_eq_true, if_false, if_true, hcons]
          exact ⟨ih1, ih2⟩

theorem flattenFields_snd {d : Dict N V} {fs : List (Field N)} (hn : (fs.map (·.name)).Nodup) (n : N) :
    ((∃ f ∈ fs, f.name = n ∧ f.static = true) → Dict.get? (flattenFields d fs).2 n = d.get? n) ∧
    ((¬ ∃ f ∈ fs, f.name = n ∧ f.static = true) → Dict.get? (flattenFields d fs).2 n = none) := by
  induction fs with
  | nil => simp [flattenFields, Dict.get?]
  | cons f fs ih =>
    simp only [List.map_cons, List.nodup_cons] at hn
    obtain ⟨ih1, ih2⟩ := ih hn.2
    simp only [flattenFields]
    by_cases hfn : f.name = n
    · have hrest : ¬ ∃ g ∈ fs, g.name = n ∧ g.static = true := by
        rintro ⟨g, hg, hgn, -⟩
        exact hn.1 (by rw [hfn, ← hgn]; exact List.mem_map.2 ⟨g, hg, rfl⟩)
      have hnone := ih2 hrest
      cases hs : f.static with
      | false =>
        constructor
        · rintro ⟨g, hg, hgn, hgs⟩
          rcases List.mem_cons.1 hg with rfl | hg
          · rw [hs] at hgs; cases hgs
          · exact absurd ⟨g, hg, hgn, hgs⟩ hrest
        · intro _
          split
          · exact hnone
          · exact hnone
      | true =>
        constructor
        · intro _
          cases hd : d.get? f.name with
          | none => simp only []; rw [hnone, ← hfn, hd]
          | some v => simp [Dict.get?, hfn, ← hd]
        · intro hne
          exact absurd ⟨f, by simp, hfn, hs⟩ hne
    · have hiff : (∃ g ∈ f :: fs, g.name = n ∧ g.static = true) ↔ ∃ g ∈ fs, g.name = n ∧ g.static = true := by
        constructor
        · rintro ⟨g, hg, hgn, hgs⟩
          rcases List.mem_cons.1 hg with rfl | hg
          · exact absurd hgn hfn
          · exact ⟨g, hg, hgn, hgs⟩
        · rintro ⟨g, hg, h⟩; exact ⟨g, List.mem_cons_of_mem _ hg, h⟩
      rw [hiff]
      have hcons : ∀ v, Dict.get? ((f.name, v) :: (flattenFields d fs).2) n = Dict.get? (flattenFields d fs).2 n := by
        intro v; simp [Dict.get?, hfn]
      cases Dict.get? d f.name with
      | none => exact ⟨ih1, ih2⟩
      | some v =>
        cases f.static with
        | false => exact ⟨ih1, ih2⟩
        | true =>
          simp only [Bool.false_eq_true, if_false, if_true, hcons]
          exact ⟨ih1, ih2⟩

theorem wrapperFields_get (look : N → Option V) (ns : List N) (n : N) :
    Dict.get? (wrapperFields look ns) n = if n ∈ ns then look n else none := by
  induction ns with
  | nil => simp [wrapperFields, Dict.get?]
  | cons m ns ih =>
    simp only [wrapperFields]
    by_cases hmn : m = n
    · subst hmn
      cases h : look m with
      | none => simp [ih, h]
      | some v => simp [Dict.get?]
    · have hiff : (n ∈ m :: ns) ↔ n ∈ ns := by simp [Ne.symm hmn]
      simp only [hiff, ← ih]
      cases look m with
      | none => rfl
      | some v => simp [Dict.get?, hmn]

theorem flattenFields_names {d : Dict N V} {fs : List (Field N)} :
    ((flattenFields d fs).1.map (·.1)).Sublist (fs.map (·.name)) ∧
    ((flattenFields d fs).2.map (·.1)).Sublist (fs.map (·.name)) := by
  induction fs with
  | nil => simp [flattenFields]
  | cons f fs ih =>
    simp only [flattenFields, List.map_cons]
    cases Dict.get? d f.name with
    | none => exact ⟨ih.1.cons _, ih.2.cons _⟩
    | some v =>
      cases f.static with
      | false => exact ⟨ih.1.cons_cons _, ih.2.cons _⟩
      | true => exact ⟨ih.1.cons _, ih.2.cons_cons _⟩

theorem wrapperFields_names (look : N → Option V) (ns : List N) : ((wrapperFields look ns).map (·.1)).Sublist ns := by
  induction ns with
  | nil => simp [wrapperFields]
  | cons m ns ih =>
    simp only [wrapperFields]
    cases look m with
    | none => exact ih.cons _
    | some v => exact ih.cons_cons _

theorem zip_fst_snd {β : Type} (l : List (β × V)) : (l.map (·.1)).zip (l.map (·.2)) = l := by
  induction l with
  | nil => rfl
  | cons p l ih => simp [ih]

/-- Entries of the new instance. -/
theorem unflatten_get {info : Info N C V} (hok : info.OK) {c : C} {d : Dict N V} {vs : List V}
    (hl : vs.length = (flattenModule info c d).1.length) (n : N) :
    (n ∈ info.wrapper → ∀ v, getattr info c d n = some v →
      Dict.get? (unflattenModule (flattenModule info c d).2 vs) n = some v) ∧
    (n ∉ info.wrapper ∨ getattr info c d n = none →
      (IsStat info c n → Dict.get? (unflattenModule (flattenModule info c d).2 vs) n = d.get? n) ∧
      (IsDyn info c n → Dict.get? (unflattenModule (flattenModule info c d).2 vs) n =
        Dict.get? ((flattenModule info c d).2.dynamicNames.zip vs) n) ∧
      (¬ IsDyn info c n → ¬ IsStat info c n →
        Dict.get? (unflattenModule (flattenModule info c d).2 vs) n = none)) := by
  have hfs := hok.1 c
  have hl' : ((flattenModule info c d).2.dynamicNames).length = vs.length := by
    rw [hl]; simp [flattenModule]
  have hkd : Dict.keys ((flattenModule info c d).2.dynamicNames.zip vs) = (flattenModule info c d).2.dynamicNames := by
    rw [Dict.keys]
    exact List.map_fst_zip (Nat.le_of_eq hl')
  have hnd1 : ((flattenModule info c d).2.dynamicNames).Nodup := flattenFields_names.1.nodup hfs
  have hnd2 : (Dict.keys (flattenFields d (info.fields c)).2).Nodup := flattenFields_names.2.nodup hfs
  have hnd3 : (Dict.keys (wrapperFields (getattr info c d) info.wrapper)).Nodup :=
    (wrapperFields_names _ _).nodup hok.2
  have hget : Dict.get? (unflattenModule (flattenModule info c d).2 vs) n =
      ((Dict.get? (wrapperFields (getattr info c d) info.wrapper) n).or
        ((Dict.get? (flattenFields d (info.fields c)).2 n).or
          (Dict.get? ((flattenModule info c d).2.dynamicNames.zip vs) n))) := by
    have e1 : (flattenModule info c d).2.wrapperNames.zip (flattenModule info c d).2.wrapperValues =
        wrapperFields (getattr info c d) info.wrapper := zip_fst_snd _
    have e2 : (flattenModule info c d).2.staticNames.zip (flattenModule info c d).2.staticValues =
        (flattenFields d (info.fields c)).2 := zip_fst_snd _
    rw [unflattenModule, setAll, setAll, setAll, e1, e2, Dict.get?_update _ _ hnd3, Dict.get?_update _ _ hnd2,
      Dict.get?_update _ _ (by rw [hkd]; exact hnd1)]
    simp [Dict.get?]
  rw [hget, wrapperFields_get]
  have hst := flattenFields_snd (d := d) hfs n
  constructor
  · intro hw v hv
    rw [if_pos hw, hv]; rfl
  · intro hor
    have hwn : (if n ∈ info.wrapper then getattr info c d n else none) = none := by
      rcases hor with h | h
      · rw [if_neg h]
      · rw [h]; simp
    rw [hwn, Option.none_or]
    have hdynnone : ¬ IsDyn info c n → Dict.get? ((flattenModule info c d).2.dynamicNames.zip vs) n = none := by
      intro hnd
      rw [Dict.get?_eq_none_iff, hkd]
      have := (flattenFields_fst (d := d) hfs n).2 hnd
      rw [Dict.get?_eq_none_iff] at this
      exact this
    have hexcl : IsDyn info c n → IsStat info c n → False := by
      rintro ⟨f, hf, hfn, hfs'⟩ ⟨g, hg, hgn, hgs⟩
      have : f = g := by
        have hinj : ∀ l : List (Field N), (l.map (·.name)).Nodup → f ∈ l → g ∈ l → f = g := by
          intro l
          induction l with
          | nil => intro _ h; simp at h
          | cons x l ih =>
            intro hnd hf hg
            simp only [List.map_cons, List.nodup_cons] at hnd
            rcases List.mem_cons.1 hf with rfl | hf'
            · rcases List.mem_cons.1 hg with rfl | hg
              · rfl
              · exact absurd (List.mem_map.2 ⟨g, hg, hgn.trans hfn.symm⟩) hnd.1
            · rcases List.mem_cons.1 hg with rfl | hg
              · exact absurd (List.mem_map.2 ⟨f, hf', hfn.trans hgn.symm⟩) hnd.1
              · exact ih hnd.2 hf' hg
        exact hinj _ hfs hf hg
      subst this
      rw [hfs'] at hgs; cases hgs
    refine ⟨?_, ?_, ?_⟩
    · intro h
      rw [hst.1 h, hdynnone (fun h' => hexcl h' h), Option.or_none]
    · intro h
      rw [hst.2 (fun h' => hexcl h h'), Option.none_or]
    · intro h1 h2
      rw [hst.2 h2, hdynnone h1]; rfl

/-- **C35**, one level: the instance made by `_unflatten_module` from what `_flatten_module` returns has the same
attributes, and the same fields are set. -/
theorem unflatten_flatten {info : Info N C V} (hok : info.OK) {c : C} {d : Dict N V}
    (hd : ∀ n v, d.get? n = some v → IsDyn info c n ∨ IsStat info c n ∨ n ∈ info.wrapper) :
    let d' := unflattenModule (flattenModule info c d).2 (flattenModule info c d).1
    (∀ n, getattr info c d' n = getattr info c d n) ∧ ∀ n, n ∉ info.wrapper → d'.get? n = d.get? n := by
  intro d'
  have hdyn : ∀ n, IsDyn info c n →
      Dict.get? ((flattenModule info c d).2.dynamicNames.zip (flattenModule info c d).1) n = d.get? n := by
    intro n hn
    have : (flattenModule info c d).2.dynamicNames.zip (flattenModule info c d).1 = (flattenFields d (info.fields c)).1 :=
      zip_fst_snd _
    rw [this]
    exact (flattenFields_fst (hok.1 c) n).1 hn
  have hget : ∀ n, (n ∈ info.wrapper → ∀ v, getattr info c d n = some v → d'.get? n = some v) ∧
      (n ∉ info.wrapper ∨ getattr info c d n = none → d'.get? n = d.get? n) := by
    intro n
    obtain ⟨h1, h2⟩ := unflatten_get hok (c := c) (d := d) rfl n
    refine ⟨h1, fun hor => ?_⟩
    obtain ⟨k1, k2, k3⟩ := h2 hor
    by_cases hD : IsDyn info c n
    · exact (k2 hD).trans (hdyn n hD)
    · by_cases hS : IsStat info c n
      · exact k1 hS
      · refine (k3 hD hS).trans ?_
        cases hdn : d.get? n with
        | none => rfl
        | some v =>
          rcases hd n v hdn with h | h | h
          · exact absurd h hD
          · exact absurd h hS
          · have := hor.resolve_left (fun hw => hw h)
            rw [getattr, hdn] at this
            cases this
  refine ⟨fun n => ?_, fun n hn => (hget n).2 (.inl hn)⟩
  by_cases hw : n ∈ info.wrapper
  · cases hg : getattr info c d n with
    | some v => rw [getattr, (hget n).1 hw v hg]
    | none =>
      have := (hget n).2 (.inr hg)
      rw [getattr, this]
      exact hg
  · rw [getattr, (hget n).2 (.inl hw)]
    rfl

theorem get?_zip_cons_ne {ns : List N} {vs : List V} {m n : N} {v : V} (h : m ≠ n) :
    Dict.get? ((m :: ns).zip (v :: vs)) n = Dict.get? (ns.zip vs) n := by
  simp [Dict.get?, h]

theorem flattenFields_replace {d d' : Dict N V} {fs : List (Field N)} (hn : (fs.map (·.name)).Nodup) {vs : List V}
    (hl : vs.length = (flattenFields d fs).1.length)
    (hs : ∀ f ∈ fs, f.static = true → d'.get? f.name = d.get? f.name)
    (hy : ∀ f ∈ fs, f.static = false → d'.get? f.name = Dict.get? (((flattenFields d fs).1.map (·.1)).zip vs) f.name) :
    flattenFields d' fs = (((flattenFields d fs).1.map (·.1)).zip vs, (flattenFields d fs).2) := by
  induction fs generalizing vs with
  | nil => simp [flattenFields]
  | cons f fs ih =>
    simp only [List.map_cons, List.nodup_cons] at hn
    have hne : ∀ g ∈ fs, f.name ≠ g.name := fun g hg he => hn.1 (by rw [he]; exact List.mem_map.2 ⟨g, hg, rfl⟩)
    have hs' : ∀ g ∈ fs, g.static = true → d'.get? g.name = d.get? g.name :=
      fun g hg => hs g (List.mem_cons_of_mem _ hg)
    have hnot : Dict.get? (((flattenFields d fs).1.map (·.1)).zip vs) f.name = none := by
      rw [Dict.get?_eq_none_iff]
      intro hm
      obtain ⟨p, hp, hpe⟩ := List.mem_map.1 hm
      have := (flattenFields_names (d := d) (fs := fs)).1.subset (List.of_mem_zip hp).1
      rw [hpe] at this
      exact hn.1 this
    have hf := hs f (by simp)
    have hg := hy f (by simp)
    have hyt : ∀ g ∈ fs, g.static = false → _ := fun g hgm => hy g (List.mem_cons_of_mem _ hgm)
    simp only [flattenFields] at hl hg hyt ⊢
    cases hst : f.static with
    | true =>
      rw [hf hst]
      simp only [hst] at hl hg hyt
      cases hdf : Dict.get? d f.name with
      | none =>
        simp only [hdf] at hl hg hyt ⊢
        exact ih hn.2 hl hs' hyt
      | some v =>
        simp only [hdf, if_true] at hl hg hyt ⊢
        rw [ih hn.2 hl hs' hyt]
    | false =>
      have hgf := hg hst
      clear hg
      simp only [hst] at hl hyt hgf
      cases hdf : Dict.get? d f.name with
      | none =>
        simp only [hdf] at hl hyt hgf
        simp only [hgf, hnot, hdf]
        exact ih hn.2 hl hs' hyt
      | some v =>
        simp only [hdf, Bool.false_eq_true, if_false, List.length_cons, List.map_cons] at hl hyt hgf ⊢
        cases vs with
        | nil => simp at hl
        | cons u vs =>
          have hyt' : ∀ g ∈ fs, g.static = false →
              d'.get? g.name = Dict.get? (((flattenFields d fs).1.map (·.1)).zip vs) g.name := by
            intro g hgm hgs
            rw [hyt g hgm hgs, get?_zip_cons_ne (hne g hgm)]
          have hgu : d'.get? f.name = some u := by rw [hgf]; simp [Dict.get?]
          rw [ih hn.2 (by simpa using hl) hs' hyt']
          simp [hgu]

theorem wrapperFields_congr {look look' : N → Option V} {ns : List N} (h : ∀ n ∈ ns, look n = look' n) :
    wrapperFields look ns = wrapperFields look' ns := by
  induction ns with
  | nil => rfl
  | cons m ns ih =>
    simp only [wrapperFields, h m (by simp), ih (fun n hn => h n (List.mem_cons_of_mem _ hn))]

/-- **C35**, one level, with other children: flattening what `_unflatten_module` builds from any children gives those
children, and the same structure. -/
theorem flatten_unflatten {info : Info N C V} (hok : info.OK) (hdis : info.Disjoint) {c : C} {d : Dict N V} {vs : List V}
    (hl : vs.length = (flattenModule info c d).1.length) :
    flattenModule info c (unflattenModule (flattenModule info c d).2 vs) = (vs, (flattenModule info c d).2) := by
  have hget := unflatten_get hok (c := c) (d := d) hl
  have hnw : ∀ n, (IsDyn info c n ∨ IsStat info c n) → n ∉ info.wrapper := by
    rintro n (⟨f, hf, rfl, -⟩ | ⟨f, hf, rfl, -⟩) <;> exact hdis c f hf
  have h1 : flattenFields (unflattenModule (flattenModule info c d).2 vs) (info.fields c) =
      (((flattenFields d (info.fields c)).1.map (·.1)).zip vs, (flattenFields d (info.fields c)).2) := by
    refine flattenFields_replace (hok.1 c) (by simpa [flattenModule] using hl) ?_ ?_
    · intro f hf hs
      exact ((hget f.name).2 (.inl (hdis c f hf))).1 ⟨f, hf, rfl, hs⟩
    · intro f hf hs
      exact ((hget f.name).2 (.inl (hdis c f hf))).2.1 ⟨f, hf, rfl, hs⟩
  have h2 : wrapperFields (getattr info c (unflattenModule (flattenModule info c d).2 vs)) info.wrapper =
      wrapperFields (getattr info c d) info.wrapper := by
    refine wrapperFields_congr fun n hn => ?_
    cases hg : getattr info c d n with
    | some v => rw [getattr, (hget n).1 hn v hg]
    | none =>
      have := ((hget n).2 (.inr hg)).2.2 (fun h => hnw n (.inl h) hn) (fun h => hnw n (.inr h) hn)
      rw [getattr, this]
      have hc : d.get? n = none := by
        cases hdn : d.get? n with
        | none => rfl
        | some v => rw [getattr, hdn] at hg; cases hg
      rw [getattr, hc] at hg
      exact hg
  have hlen : ((flattenFields d (info.fields c)).1.map (·.1)).length = vs.length := by
    rw [hl]; simp [flattenModule]
  rw [flattenModule, h1, h2]
  simp only [List.map_fst_zip (Nat.le_of_eq hlen), List.map_snd_zip (Nat.le_of_eq hlen.symm)]
  rfl

end Verif.Module
