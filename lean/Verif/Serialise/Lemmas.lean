import Verif.Serialise.Spec
import Verif.PyTree.SpecLemmas

namespace Verif
namespace Ser

variable {K O C T F : Type} [DecidableEq K] {env : Env} {X Y Z W : Type}

/-- Saving with `A` writes `b`; loading with `B` reads exactly `b` and gives `y`. -/
def RT (A : Act X) (B : Act Y) (b : Bytes) (y : Y) : Prop :=
  (∀ s, ∃ x, A s = (.ok x, s ++ b)) ∧ ∀ rest, B (b ++ rest) = (.ok y, rest)

/-- Saving with `A` writes `b`; loading with `B` raises on every proper prefix of `b`, and on `b` reads all of it or raises. -/
def Cuts (A : Act X) (B : Act Y) (b : Bytes) : Prop :=
  (∀ s, ∃ x, A s = (.ok x, s ++ b)) ∧ (∀ p, p <+: b → p ≠ b → ∃ e s, B p = (.error e, s)) ∧
    ∀ rest, (∃ y, B (b ++ rest) = (.ok y, rest)) ∨ ∃ e s, B (b ++ rest) = (.error e, s)

/-- Lists, element by element. -/
theorem RT_runAll {f : X → Act Z} {g : Y → Act W} :
    ∀ (xs : List (List Nat × X)) (ys : List (List Nat × Y)) (zs : List W), xs.length = ys.length → zs.length = ys.length →
    (∀ (i : Nat) x y z, xs[i]? = some x → ys[i]? = some y → zs[i]? = some z → ∃ b, RT (f x.2) (g y.2) b z) →
    ∃ b, (∀ s, ∃ r, runAll f xs s = (.ok r, s ++ b) ∧ r.length = xs.length) ∧ ∀ rest, runAll g ys (b ++ rest) = (.ok zs, rest) := by
  intro xs
  induction xs with
  | nil =>
    intro ys zs h1 h2 _
    cases ys with
    | cons => simp at h1
    | nil => cases zs with
      | cons => simp at h2
      | nil => exact ⟨[], fun s => ⟨[], by simp [runAll], rfl⟩, fun rest => by simp [runAll]⟩
  | cons x xs ih =>
    intro ys zs h1 h2 H
    cases ys with
    | nil => simp at h1
    | cons y ys => cases zs with
      | nil => simp at h2
      | cons z zs =>
        obtain ⟨b, hb1, hb2⟩ := H 0 x y z rfl rfl rfl
        obtain ⟨b', hb1', hb2'⟩ := ih ys zs (by simpa using h1) (by simpa using h2)
          (fun i x y z hx hy hz => H (i + 1) x y z (by simpa using hx) (by simpa using hy) (by simpa using hz))
        refine ⟨b ++ b', ?_, ?_⟩
        · intro s
          obtain ⟨r, hr⟩ := hb1 s
          obtain ⟨r', hr', hl⟩ := hb1' (s ++ b)
          exact ⟨r :: r', by simp [runAll, hr, hr'], by simp [hl]⟩
        · intro rest
          simp only [runAll, List.append_assoc, hb2, hb2']

theorem Cuts_runAll {f : X → Act Z} {g : Y → Act W} :
    ∀ (xs : List (List Nat × X)) (ys : List (List Nat × Y)), xs.length = ys.length →
    (∀ (i : Nat) x y, xs[i]? = some x → ys[i]? = some y → ∃ b, Cuts (f x.2) (g y.2) b) →
    ∃ b, (∀ s, ∃ r, runAll f xs s = (.ok r, s ++ b) ∧ r.length = xs.length) ∧
      (∀ p, p <+: b → p ≠ b → ∃ e s, runAll g ys p = (.error e, s)) ∧
      ∀ rest, (∃ r, runAll g ys (b ++ rest) = (.ok r, rest) ∧ r.length = ys.length) ∨ ∃ e s, runAll g ys (b ++ rest) = (.error e, s) := by
  intro xs
  induction xs with
  | nil =>
    intro ys h1 _
    cases ys with
    | cons => simp at h1
    | nil =>
      refine ⟨[], fun s => ⟨[], by simp [runAll], rfl⟩, ?_, fun rest => Or.inl ⟨[], by simp [runAll], rfl⟩⟩
      intro p hp hne
      exact absurd (List.prefix_nil.1 hp) hne
  | cons x xs ih =>
    intro ys h1 H
    cases ys with
    | nil => simp at h1
    | cons y ys =>
      obtain ⟨b, hw, hc, hr⟩ := H 0 x y rfl rfl
      obtain ⟨b', hw', hc', hr'⟩ := ih ys (by simpa using h1)
        (fun i x y hx hy => H (i + 1) x y (by simpa using hx) (by simpa using hy))
      have werr : ∀ e : TErr, ∃ e', withPath (X := List W) y.1 (.error e) = .error e' := by
        intro e; cases e <;> exact ⟨_, rfl⟩
      refine ⟨b ++ b', ?_, ?_, ?_⟩
      · intro s
        obtain ⟨r, hr⟩ := hw s
        obtain ⟨r', hr', hl⟩ := hw' (s ++ b)
        exact ⟨r :: r', by simp [runAll, hr, hr'], by simp [hl]⟩
      · intro p hp hne
        rcases List.prefix_or_prefix_of_prefix hp (List.prefix_append b b') with h | h
        · by_cases hpb : p = b
          · subst hpb
            have hb' : b' ≠ [] := by rintro rfl; simp at hne
            rcases hr [] with ⟨w, hw⟩ | ⟨e, s, he⟩
            · simp only [List.append_nil] at hw
              obtain ⟨e, s, he⟩ := hc' [] List.nil_prefix (fun h => hb' h.symm)
              exact ⟨e, s, by simp [runAll, hw, he]⟩
            · simp only [List.append_nil] at he
              obtain ⟨e', he'⟩ := werr e
              exact ⟨e', s, by simp [runAll, he, he']⟩
          · obtain ⟨e, s, he⟩ := hc p h hpb
            obtain ⟨e', he'⟩ := werr e
            exact ⟨e', s, by simp [runAll, he, he']⟩
        · obtain ⟨q, rfl⟩ := h
          have hq : q <+: b' := (List.prefix_append_right_inj b).1 hp
          have hqne : q ≠ b' := by rintro rfl; exact hne rfl
          rcases hr q with ⟨w, hw⟩ | ⟨e, s, he⟩
          · obtain ⟨e, s, he⟩ := hc' q hq hqne
            exact ⟨e, s, by simp [runAll, hw, he]⟩
          · obtain ⟨e', he'⟩ := werr e
            exact ⟨e', s, by simp [runAll, he, he']⟩
      · intro rest
        rcases hr (b' ++ rest) with ⟨w, hw⟩ | ⟨e, s, he⟩
        · rcases hr' rest with ⟨r, hr, hl⟩ | ⟨e, s, he⟩
          · exact Or.inl ⟨w :: r, by simp [runAll, hw, hr], by simp [hl]⟩
          · exact Or.inr ⟨e, s, by simp [runAll, hw, he]⟩
        · obtain ⟨e', he'⟩ := werr e
          exact Or.inr ⟨e', s, by simp [runAll, he, he']⟩

/-! ### Paths -/

theorem length_pathsL {α : Type} (cs : List (PT K α)) (h : ∀ c ∈ cs, (paths c).length = c.leaves.length) (i : Nat) :
    (pathsL i cs).length = (PT.leavesL cs).length := by
  induction cs generalizing i with
  | nil => simp [pathsL, PT.leavesL]
  | cons c cs ih =>
    simp [pathsL, PT.leavesL, h c List.mem_cons_self, ih (fun d hd => h d (List.mem_cons_of_mem _ hd))]

theorem length_paths {α : Type} (t : PT K α) : (paths t).length = t.leaves.length := by
  induction t using PT.ind with
  | leaf a => simp [paths, PT.leaves]
  | none => simp [paths, PT.leaves]
  | node k cs ih => simp only [paths, PT.leaves]; exact length_pathsL cs ih 0

/-- The `i`-th path leads to the `i`-th leaf. -/
theorem leafAt?_paths {α : Type} (t : PT K α) (i : Nat) (π : List Nat) (h : (paths t)[i]? = some π) :
    t.leafAt? π = t.leaves[i]? ∧ (t.leafAt? π).isSome := by
  induction t using PT.ind generalizing i π with
  | leaf a =>
    cases i with
    | zero => simp [paths] at h; subst h; simp [PT.leaves, PT.leafAt?, PT.get?]
    | succ i => simp [paths] at h
  | none => simp [paths] at h
  | node k cs ih =>
    simp only [paths, PT.leaves] at h ⊢
    have key : ∀ (cs : List (PT K α)), (∀ c ∈ cs, ∀ (i : Nat) π, (paths c)[i]? = some π → c.leafAt? π = c.leaves[i]? ∧ (c.leafAt? π).isSome) →
        ∀ (n i : Nat) (π : List Nat), (pathsL n cs)[i]? = some π →
        ∃ j π', π = (n + j) :: π' ∧ (cs[j]?).bind (fun c => c.leafAt? π') = (PT.leavesL cs)[i]? ∧
          ((cs[j]?).bind (fun c => c.leafAt? π')).isSome := by
      intro cs
      induction cs with
      | nil => intro _ n i π h; simp [pathsL] at h
      | cons c cs ihc =>
        intro H n i π h
        simp only [pathsL, PT.leavesL] at h ⊢
        have hl : ((paths c).map (n :: ·)).length = c.leaves.length := by simp [length_paths]
        by_cases hi : i < c.leaves.length
        · rw [List.getElem?_append_left (by omega), List.getElem?_map] at h
          cases hp : (paths c)[i]? with
          | none => simp [hp] at h
          | some ρ =>
            simp [hp] at h
            obtain ⟨h1, h2⟩ := H c List.mem_cons_self i ρ hp
            refine ⟨0, ρ, by simp [← h], ?_, by simpa using h2⟩
            rw [List.getElem?_append_left hi, ← h1]
            simp
        · rw [List.getElem?_append_right (by omega), hl] at h
          obtain ⟨j, π', e1, e2, e3⟩ := ihc (fun d hd => H d (List.mem_cons_of_mem _ hd)) (n + 1) _ π h
          refine ⟨j + 1, π', by rw [e1]; congr 1; omega, ?_, by simpa using e3⟩
          rw [List.getElem?_append_right (by omega)]
          simpa using e2
    obtain ⟨j, π', rfl, e2, e3⟩ := key cs ih 0 i π h
    simp only [Nat.zero_add]
    rw [PT.leafAt?_node]
    exact ⟨e2, e3⟩

/-! ### Trees -/

theorem unflatten_ok {α γ : Type} (c : PT K γ) (ys : List (PT K α)) (h : ys.length = c.leaves.length) :
    ∃ o : PT K (PT K α), o.shape = c.shape ∧ o.leaves = ys ∧ PT.treeUnflatten c.shape ys = .ok o.join := by
  obtain ⟨o, h1, h2⟩ := PT.exists_fill c ys h
  exact ⟨o, h1, h2, by rw [← h1, ← h2, PT.treeUnflatten_shape]⟩

theorem zip_getElem? {α β : Type} {xs : List α} {ys : List β} {i : Nat} {p : α × β} (h : (xs.zip ys)[i]? = some p) :
    xs[i]? = some p.1 ∧ ys[i]? = some p.2 := by
  rw [List.getElem?_zip_eq_some] at h; exact h

variable {α β γ δ : Type}

theorem RT_orderedMap {p : PT K α → Bool} {q : PT K β → Bool} {f : PT K α → Act (PT K γ)} {g : PT K β → Act (PT K δ)}
    {t : PT K α} {u : PT K β} (o : PT K (PT K δ)) (hs : (t.cut p).shape = (u.cut q).shape) (ho : o.shape = (u.cut q).shape)
    (H : ∀ π x y z, (t.cut p).leafAt? π = some x → (u.cut q).leafAt? π = some y → o.leafAt? π = some z →
      ∃ b, RT (f x) (g y) b z) : ∃ b, RT (orderedMap p f t) (orderedMap q g u) b o.join := by
  have l1 := PT.length_leaves_of_shape hs
  have l2 := PT.length_leaves_of_shape ho
  have l3 := length_paths (t.cut p)
  have l4 := length_paths (u.cut q)
  obtain ⟨b, hb1, hb2⟩ := RT_runAll (f := f) (g := g) ((paths (t.cut p)).zip (t.treeLeaves p))
    ((paths (u.cut q)).zip (u.treeLeaves q)) o.leaves (by simp [PT.treeLeaves]; omega) (by simp [PT.treeLeaves]; omega) (by
      intro i x y z hx hy hz
      obtain ⟨hx1, hx2⟩ := zip_getElem? hx
      obtain ⟨hy1, hy2⟩ := zip_getElem? hy
      obtain ⟨π, hπ⟩ := PT.exists_leafAt?_of_getElem? hx2
      exact H π x.2 y.2 z (hπ _ rfl _ hx2) (hπ _ hs.symm _ hy2) (hπ _ (ho.trans hs.symm) _ hz))
  refine ⟨b, ?_, ?_⟩
  · intro s
    obtain ⟨r, hr, hl⟩ := hb1 s
    obtain ⟨o', -, -, h3⟩ := unflatten_ok (t.cut p) r (by rw [hl]; simp [PT.treeLeaves]; omega)
    exact ⟨o'.join, by simp [orderedMap, hr, finish, PT.treeStructure, h3]⟩
  · intro rest
    have : PT.treeUnflatten (u.treeStructure q) o.leaves = .ok o.join := by
      rw [PT.treeStructure, ← ho, PT.treeUnflatten_shape]
    simp [orderedMap, hb2, finish, this]

theorem Cuts_orderedMap {p : PT K α → Bool} {q : PT K β → Bool} {f : PT K α → Act (PT K γ)} {g : PT K β → Act (PT K δ)}
    {t : PT K α} {u : PT K β} (hs : (t.cut p).shape = (u.cut q).shape)
    (H : ∀ π x y, (t.cut p).leafAt? π = some x → (u.cut q).leafAt? π = some y → ∃ b, Cuts (f x) (g y) b) :
    ∃ b, Cuts (orderedMap p f t) (orderedMap q g u) b := by
  have l1 := PT.length_leaves_of_shape hs
  have l3 := length_paths (t.cut p)
  have l4 := length_paths (u.cut q)
  obtain ⟨b, hw, hc, hr⟩ := Cuts_runAll (f := f) (g := g) ((paths (t.cut p)).zip (t.treeLeaves p))
    ((paths (u.cut q)).zip (u.treeLeaves q)) (by simp [PT.treeLeaves]; omega) (by
      intro i x y hx hy
      obtain ⟨hx1, hx2⟩ := zip_getElem? hx
      obtain ⟨hy1, hy2⟩ := zip_getElem? hy
      obtain ⟨π, hπ⟩ := PT.exists_leafAt?_of_getElem? hx2
      exact H π x.2 y.2 (hπ _ rfl _ hx2) (hπ _ hs.symm _ hy2))
  refine ⟨b, ?_, ?_, ?_⟩
  · intro s
    obtain ⟨r, hr, hl⟩ := hw s
    obtain ⟨o', -, -, h3⟩ := unflatten_ok (t.cut p) r (by rw [hl]; simp [PT.treeLeaves]; omega)
    exact ⟨o'.join, by simp [orderedMap, hr, finish, PT.treeStructure, h3]⟩
  · intro s hs1 hs2
    obtain ⟨e, s', he⟩ := hc s hs1 hs2
    exact ⟨e, s', by simp [orderedMap, he, finish]⟩
  · intro rest
    rcases hr rest with ⟨r, hr, hl⟩ | ⟨e, s, he⟩
    · obtain ⟨o', -, -, h3⟩ := unflatten_ok (u.cut q) r (by rw [hl]; simp [PT.treeLeaves]; omega)
      exact Or.inl ⟨o'.join, by simp [orderedMap, hr, finish, PT.treeStructure, h3]⟩
    · exact Or.inr ⟨e, s, by simp [orderedMap, he, finish]⟩

variable {F' ε : Type}

/-- Two trees of functions of the same shape, each a prefix of its tree. -/
theorem RT_orderedMap2 {f : PT K F → PT K α → Act (PT K γ)} {g : PT K F' → PT K β → Act (PT K δ)}
    {sp : PT K F} {sp' : PT K F'} (t : PT K (PT K α)) (u : PT K (PT K β)) (o : PT K (PT K δ))
    (h0 : sp.shape = sp'.shape) (ht : t.shape = sp.shape) (hu : u.shape = sp.shape) (ho : o.shape = sp.shape)
    (H : ∀ π a a' x y z, sp.leafAt? π = some a → sp'.leafAt? π = some a' → t.leafAt? π = some x → u.leafAt? π = some y →
      o.leafAt? π = some z → ∃ b, RT (f (.leaf a) x) (g (.leaf a') y) b z) :
    ∃ b, RT (orderedMap2 f sp t.join) (orderedMap2 g sp' u.join) b o.join := by
  have d1 : PT.flattenUpTo (sp.treeStructure PT.noLeaf) t.join = .ok t.leaves := by
    refine PT.flattenUpTo_ok.2 ⟨t, ?_, rfl, rfl⟩
    rw [PT.treeStructure, PT.cut_noLeaf, PT.shape_map, ht]
  have d2 : PT.flattenUpTo (sp'.treeStructure PT.noLeaf) u.join = .ok u.leaves := by
    refine PT.flattenUpTo_ok.2 ⟨u, ?_, rfl, rfl⟩
    rw [PT.treeStructure, PT.cut_noLeaf, PT.shape_map, ← h0, hu]
  have l0 := PT.length_leaves_of_shape h0
  have l1 := PT.length_leaves_of_shape ht
  have l2 := PT.length_leaves_of_shape hu
  have l3 := PT.length_leaves_of_shape ho
  have k1 : (sp.cut PT.noLeaf).leaves.length = sp.leaves.length := by simp [PT.cut_noLeaf, PT.leaves_map]
  have k2 : (sp'.cut PT.noLeaf).leaves.length = sp'.leaves.length := by simp [PT.cut_noLeaf, PT.leaves_map]
  have k3 := length_paths (sp.cut PT.noLeaf)
  have k4 := length_paths (sp'.cut PT.noLeaf)
  obtain ⟨b, hb1, hb2⟩ := RT_runAll (f := fun xy => f xy.1 xy.2) (g := fun xy => g xy.1 xy.2)
    ((paths (sp.cut PT.noLeaf)).zip ((sp.treeLeaves PT.noLeaf).zip t.leaves))
    ((paths (sp'.cut PT.noLeaf)).zip ((sp'.treeLeaves PT.noLeaf).zip u.leaves)) o.leaves
    (by simp [PT.treeLeaves]; omega) (by simp [PT.treeLeaves]; omega) (by
      intro i x y z hx hy hz
      obtain ⟨hx1, hx2⟩ := zip_getElem? hx
      obtain ⟨hy1, hy2⟩ := zip_getElem? hy
      obtain ⟨hx3, hx4⟩ := zip_getElem? hx2
      obtain ⟨hy3, hy4⟩ := zip_getElem? hy2
      rw [PT.treeLeaves, PT.cut_noLeaf, PT.leaves_map, List.getElem?_map] at hx3 hy3
      cases ha : sp.leaves[i]? with
      | none => simp [ha] at hx3
      | some a => cases ha' : sp'.leaves[i]? with
        | none => simp [ha'] at hy3
        | some a' =>
          simp [ha] at hx3
          simp [ha'] at hy3
          obtain ⟨π, hπ⟩ := PT.exists_leafAt?_of_getElem? ha
          rw [← hx3, ← hy3]
          exact H π a a' _ _ z (hπ _ rfl _ ha) (hπ _ h0.symm _ ha') (hπ _ ht _ hx4) (hπ _ hu _ hy4) (hπ _ ho _ hz))
  refine ⟨b, ?_, ?_⟩
  · intro s
    obtain ⟨r, hr, hl⟩ := hb1 s
    obtain ⟨o', -, -, h3⟩ := unflatten_ok (sp.cut PT.noLeaf) r (by rw [hl]; simp [PT.treeLeaves]; omega)
    exact ⟨o'.join, by simp only [orderedMap2, d1, hr, finish]; rw [PT.treeStructure, h3]⟩
  · intro rest
    have : PT.treeUnflatten (sp'.treeStructure PT.noLeaf) o.leaves = .ok o.join := by
      rw [PT.treeStructure, PT.cut_noLeaf, PT.shape_map, ← h0, ← ho, PT.treeUnflatten_shape]
    simp only [orderedMap2, d2, hb2, finish, this]

theorem Cuts_orderedMap2 {f : PT K F → PT K α → Act (PT K γ)} {g : PT K F' → PT K β → Act (PT K δ)}
    {sp : PT K F} {sp' : PT K F'} (t : PT K (PT K α)) (u : PT K (PT K β))
    (h0 : sp.shape = sp'.shape) (ht : t.shape = sp.shape) (hu : u.shape = sp.shape)
    (H : ∀ π a a' x y, sp.leafAt? π = some a → sp'.leafAt? π = some a' → t.leafAt? π = some x → u.leafAt? π = some y →
      ∃ b, Cuts (f (.leaf a) x) (g (.leaf a') y) b) :
    ∃ b, Cuts (orderedMap2 f sp t.join) (orderedMap2 g sp' u.join) b := by
  have d1 : PT.flattenUpTo (sp.treeStructure PT.noLeaf) t.join = .ok t.leaves := by
    refine PT.flattenUpTo_ok.2 ⟨t, ?_, rfl, rfl⟩
    rw [PT.treeStructure, PT.cut_noLeaf, PT.shape_map, ht]
  have d2 : PT.flattenUpTo (sp'.treeStructure PT.noLeaf) u.join = .ok u.leaves := by
    refine PT.flattenUpTo_ok.2 ⟨u, ?_, rfl, rfl⟩
    rw [PT.treeStructure, PT.cut_noLeaf, PT.shape_map, ← h0, hu]
  have l0 := PT.length_leaves_of_shape h0
  have l1 := PT.length_leaves_of_shape ht
  have l2 := PT.length_leaves_of_shape hu
  have k1 : (sp.cut PT.noLeaf).leaves.length = sp.leaves.length := by simp [PT.cut_noLeaf, PT.leaves_map]
  have k2 : (sp'.cut PT.noLeaf).leaves.length = sp'.leaves.length := by simp [PT.cut_noLeaf, PT.leaves_map]
  have k3 := length_paths (sp.cut PT.noLeaf)
  have k4 := length_paths (sp'.cut PT.noLeaf)
  obtain ⟨b, hw, hc, hrd⟩ := Cuts_runAll (f := fun xy => f xy.1 xy.2) (g := fun xy => g xy.1 xy.2)
    ((paths (sp.cut PT.noLeaf)).zip ((sp.treeLeaves PT.noLeaf).zip t.leaves))
    ((paths (sp'.cut PT.noLeaf)).zip ((sp'.treeLeaves PT.noLeaf).zip u.leaves))
    (by simp [PT.treeLeaves]; omega) (by
      intro i x y hx hy
      obtain ⟨hx1, hx2⟩ := zip_getElem? hx
      obtain ⟨hy1, hy2⟩ := zip_getElem? hy
      obtain ⟨hx3, hx4⟩ := zip_getElem? hx2
      obtain ⟨hy3, hy4⟩ := zip_getElem? hy2
      rw [PT.treeLeaves, PT.cut_noLeaf, PT.leaves_map, List.getElem?_map] at hx3 hy3
      cases ha : sp.leaves[i]? with
      | none => simp [ha] at hx3
      | some a => cases ha' : sp'.leaves[i]? with
        | none => simp [ha'] at hy3
        | some a' =>
          simp [ha] at hx3
          simp [ha'] at hy3
          obtain ⟨π, hπ⟩ := PT.exists_leafAt?_of_getElem? ha
          rw [← hx3, ← hy3]
          exact H π a a' _ _ (hπ _ rfl _ ha) (hπ _ h0.symm _ ha') (hπ _ ht _ hx4) (hπ _ hu _ hy4))
  refine ⟨b, ?_, ?_, ?_⟩
  · intro s
    obtain ⟨r, hr, hl⟩ := hw s
    obtain ⟨o', -, -, h3⟩ := unflatten_ok (sp.cut PT.noLeaf) r (by rw [hl]; simp [PT.treeLeaves]; omega)
    exact ⟨o'.join, by simp only [orderedMap2, d1, hr, finish]; rw [PT.treeStructure, h3]⟩
  · intro s h1 h2
    obtain ⟨e, s', he⟩ := hc s h1 h2
    exact ⟨e, s', by simp only [orderedMap2, d2, he, finish]⟩
  · intro rest
    rcases hrd rest with ⟨r, hr, hl⟩ | ⟨e, s, he⟩
    · obtain ⟨o', -, -, h3⟩ := unflatten_ok (sp'.cut PT.noLeaf) r (by rw [hl]; simp [PT.treeLeaves]; omega)
      exact Or.inl ⟨o'.join, by simp only [orderedMap2, d2, hr, finish]; rw [PT.treeStructure, h3]⟩
    · exact Or.inr ⟨e, s, by simp only [orderedMap2, d2, he, finish]⟩

/-! ### The default specifications -/

theorem plain_onDisk {d : DType} (h : d.Plain) : d.onDisk = d := by
  cases d <;> simp_all [DType.Plain, DType.onDisk]

theorem plain_ne_key {d : DType} (h : d.onDisk.Plain) : d ≠ .key := by
  rintro rfl; simp [DType.onDisk, DType.Plain] at h

theorem npSave_load (hl : env.Lawful) {a : Arr} (h : a.dtype.onDisk.Plain) :
    ∃ b, npSave env a = (.ok (), b) ∧ ∀ rest, npLoad env (b ++ rest) = (.ok (a.view a.dtype.onDisk), rest) := by
  refine ⟨_, by simp only [npSave, plain_ne_key h, if_false]; rfl, ?_⟩
  intro rest
  simp [npLoad, hl.dec_enc { a with dtype := a.dtype.onDisk } rest h, Arr.view]

theorem RT_default (hl : env.Lawful) {x y : Leaf env O} (hx : Storable x) (hm : Matches x y) :
    ∃ b, RT (serLeaf defaultSer (.leaf x : PT K (Leaf env O))) (deLeaf defaultDe (.leaf y : PT K (Leaf env O))) b (.leaf (loaded x y) : PT K (Leaf env O)) := by
  cases x with
  | jax a =>
    obtain ⟨h1, h2, h3⟩ := hx
    have hp : a.dtype.onDisk.Plain := by
      rcases h1 with ⟨n, h⟩ | h <;> simp [h, DType.onDisk, DType.Plain]
    obtain ⟨b, hb1, hb2⟩ := npSave_load hl hp
    have hj : (jnpOfNp env (a.view a.dtype.onDisk) : Leaf env O) = .jax a := by
      rcases h1 with ⟨n, h⟩ | h
      · have e : a.view a.dtype.onDisk = a := by cases a; simp_all [Arr.view, DType.onDisk]
        rw [e]
        simp [jnpOfNp, h, h3]
        rw [h] at h2
        exact h2
      · have e : (a.view (.void 2)).view .bf16 = a := by cases a; simp_all [Arr.view]
        simp only [h, DType.onDisk, jnpOfNp]
        have e2 : (a.view (.void 2)).dtype = .void 2 := rfl
        simp only [e2, if_true, e, h2, h3]
    have hload : ∀ rest, defaultDe.loadJax (K := K) (O := O) (env := env) (b ++ rest) = (.ok (.leaf (.jax a)), rest) := by
      intro rest; simp [defaultDe.loadJax, hb2, hj]
    refine ⟨b, fun s => ⟨.none, by simp [serLeaf, defaultSer, hb1, liftErr, Except.map]⟩, ?_⟩
    intro rest
    cases y with
    | jax b => simp [deLeaf, defaultDe, hload, liftErr, loaded]
    | struct d s => simp [deLeaf, defaultDe, hload, liftErr, loaded]
    | np | scal | other => simp [Matches] at hm
  | np a =>
    obtain ⟨b, hb1, hb2⟩ := npSave_load hl (a := a) (by rw [plain_onDisk hx]; exact hx)
    refine ⟨b, fun s => ⟨.none, by simp [serLeaf, defaultSer, hb1, liftErr, Except.map]⟩, ?_⟩
    intro rest
    have e : a.view a.dtype.onDisk = a := by cases a; simp [Arr.view, plain_onDisk hx]
    cases y with
    | np b => simp [deLeaf, defaultDe, hb2, e, liftErr, loaded]
    | jax | struct | scal | other => simp [Matches] at hm
  | scal s =>
    obtain ⟨h1, h2⟩ := hx
    obtain ⟨b, hb1, hb2⟩ := npSave_load hl h1
    refine ⟨b, fun s => ⟨.none, by simp [serLeaf, defaultSer, hb1, liftErr, Except.map]⟩, ?_⟩
    intro rest
    cases y with
    | scal t =>
      have hm' : env.tyOf s = env.tyOf t := hm
      simp only [deLeaf, defaultDe, hb2, ← hm', loaded]
      have e : (if env.isBf16 (env.tyOf s) = true then ((env.asArray s).view (env.asArray s).dtype.onDisk).view .bf16
          else (env.asArray s).view (env.asArray s).dtype.onDisk) = scalarOnDisk env s := by
        simp only [scalarOnDisk]; split <;> rfl
      rw [e, h2]
      simp [liftErr]
    | jax | struct | np | other => simp [Matches] at hm
  | struct d s => exact absurd hx (by simp [Storable])
  | other x =>
    cases y with
    | other y =>
      exact ⟨[], fun s => ⟨.none, by simp [serLeaf, defaultSer, liftErr, Except.map]⟩, fun rest => by
        simp [deLeaf, defaultDe, liftErr, loaded]⟩
    | jax | struct | np | scal => simp [Matches] at hm

/-- On a plain array, or an incomplete one, `np.load` reads all of it or raises. -/
theorem Cuts_default (hl : env.Lawful) {x y : Leaf env O}
    (h : (Saved x ∧ Loads y) ∨ (IsOther x ∧ IsOther y)) :
    ∃ b, Cuts (serLeaf defaultSer (.leaf x : PT K (Leaf env O))) (deLeaf defaultDe (.leaf y : PT K (Leaf env O))) b := by
  have key : ∀ a : Arr, a.dtype ≠ .key → Loads y → ∃ b, npSave env a = (.ok (), b) ∧
      (∀ p, p <+: b → p ≠ b → ∃ e s, deLeaf defaultDe (.leaf y : PT K (Leaf env O)) p = (.error e, s)) ∧
      ∀ rest, (∃ z, deLeaf defaultDe (.leaf y : PT K (Leaf env O)) (b ++ rest) = (.ok z, rest)) ∨
        ∃ e s, deLeaf defaultDe (.leaf y : PT K (Leaf env O)) (b ++ rest) = (.error e, s) := by
    intro a ha hy
    refine ⟨env.enc { a with dtype := a.dtype.onDisk }, by simp [npSave, ha], ?_, ?_⟩
    · intro p h1 h2
      obtain ⟨e, he⟩ := hl.dec_prefix _ p h1 h2
      cases y with
      | jax | struct => exact ⟨.raw e, p, by simp [deLeaf, defaultDe, defaultDe.loadJax, npLoad, he, liftErr]⟩
      | np | scal => exact ⟨.raw e, p, by simp [deLeaf, defaultDe, npLoad, he, liftErr]⟩
      | other => simp [Loads] at hy
    · intro rest
      have hd : (∃ a', env.dec (env.enc { a with dtype := a.dtype.onDisk } ++ rest) = .ok (a', rest)) ∨
          ∃ e, env.dec (env.enc { a with dtype := a.dtype.onDisk } ++ rest) = .error e := by
        by_cases ho : a.dtype = .object
        · right
          refine hl.dec_object _ rest ?_
          simp [ho, DType.onDisk]
        · left
          refine ⟨_, hl.dec_enc _ rest ?_⟩
          cases hdt : a.dtype <;> simp_all [DType.onDisk, DType.Plain]
      rcases hd with ⟨a', hd⟩ | ⟨e, he⟩
      · cases y with
        | jax | struct => exact Or.inl ⟨_, by simp [deLeaf, defaultDe, defaultDe.loadJax, npLoad, hd, liftErr]; rfl⟩
        | np => exact Or.inl ⟨_, by simp [deLeaf, defaultDe, npLoad, hd, liftErr]; rfl⟩
        | scal t =>
          cases hf : env.fromItem (env.tyOf t) (if env.isBf16 (env.tyOf t) = true then a'.view .bf16 else a') with
          | ok s => exact Or.inl ⟨_, by simp [deLeaf, defaultDe, npLoad, hd, hf, liftErr]; rfl⟩
          | error e => exact Or.inr ⟨.raw e, rest, by simp [deLeaf, defaultDe, npLoad, hd, hf, liftErr]⟩
        | other => simp [Loads] at hy
      · cases y with
        | jax | struct => exact Or.inr ⟨.raw e, _, by simp [deLeaf, defaultDe, defaultDe.loadJax, npLoad, he, liftErr]; rfl⟩
        | np | scal => exact Or.inr ⟨.raw e, _, by simp [deLeaf, defaultDe, npLoad, he, liftErr]; rfl⟩
        | other => simp [Loads] at hy
  rcases h with ⟨hx, hy⟩ | ⟨hx, hy⟩
  · cases x with
    | jax a =>
      obtain ⟨b, h1, h2, h3⟩ := key a hx hy
      exact ⟨b, fun s => ⟨.none, by simp [serLeaf, defaultSer, h1, liftErr, Except.map]⟩, h2, h3⟩
    | np a =>
      obtain ⟨b, h1, h2, h3⟩ := key a hx hy
      exact ⟨b, fun s => ⟨.none, by simp [serLeaf, defaultSer, h1, liftErr, Except.map]⟩, h2, h3⟩
    | scal t =>
      obtain ⟨b, h1, h2, h3⟩ := key (env.asArray t) hx hy
      exact ⟨b, fun s => ⟨.none, by simp [serLeaf, defaultSer, h1, liftErr, Except.map]⟩, h2, h3⟩
    | struct | other => simp [Saved] at hx
  · cases x with
    | other x => cases y with
      | other y =>
        refine ⟨[], fun s => ⟨.none, by simp [serLeaf, defaultSer, liftErr, Except.map]⟩, ?_, ?_⟩
        · intro p hp hne; exact absurd (List.prefix_nil.1 hp) hne
        · intro rest; exact Or.inl ⟨.leaf (.other y), by simp [deLeaf, defaultDe, liftErr]⟩
      | jax | np | scal | struct => simp [IsOther] at hy
    | jax | np | scal | struct => simp [IsOther] at hx

end Ser
end Verif
