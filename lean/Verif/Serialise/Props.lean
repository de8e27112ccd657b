import Verif.Serialise.Lemmas
import Verif.Serialise.Example

/-!
# Theorems about saving and loading (C09-C11, C54)
-/

namespace Verif
namespace Ser

variable {K O C T F : Type} [DecidableEq K] {env : Env} [DecidableEq C] [DecidableEq T]
variable (cls : K → C) (oty : O → T)

/-- `tree_serialise_leaves(file, tree)` with the default arguments. -/
abbrev save (tree : PT K (Leaf env O)) : Act (PT K (Leaf env O)) := serialise (.leaf defaultSer) PT.noLeaf tree

/-- `tree_deserialise_leaves(file, like)` with the default arguments. -/
abbrev load (like : PT K (Leaf env O)) : Act (PT K (Leaf env O)) := deserialise cls oty (.leaf defaultDe) PT.noLeaf like

theorem assertSame_leaf (n o : Leaf env O) :
    (∃ r, assertSame cls oty (.leaf n : PT K (Leaf env O)) (.leaf o) = .ok r) ↔ Conforms oty n o := by
  cases n <;> cases o <;> simp [assertSame, typeOf, Ty.expected, Conforms, isArray, shapeDtype] <;>
    (try split) <;> (try split) <;> simp_all

theorem conforms_loaded {x y : Leaf env O} (hm : Matches x y) : Conforms oty (loaded x y) y := by
  cases x <;> cases y <;> simp_all [Matches, Conforms, loaded]

/-! ### C10: what is loaded has the right types, shapes and dtypes -/

/-- Whatever the file contains and whatever the filter specification does: if loading returns, every leaf of the result
corresponds to an object of `like` of the same type, and arrays have the shape and dtype `like` asks for. -/
theorem load_checked (spec : PT K (DSpec K env O)) (isLeaf : PT K (Leaf env O) → Bool) (like out : PT K (Leaf env O))
    (s s' : Bytes) (h : deserialise cls oty spec isLeaf like s = (.ok out, s')) (π : List Nat) (n : PT K (Leaf env O))
    (hn : PT.IsCutLeaf isLeaf out π n) :
    ∃ o, like.get? π = some o ∧ typeOf cls oty n = (typeOf cls oty o).expected ∧
      (isArray n = true → shapeDtype n = shapeDtype o) := by
  simp only [deserialise] at h
  split at h
  · simp at h
  · split at h
    · rename_i r hr
      simp only [Prod.mk.injEq, Except.ok.injEq] at h
      obtain ⟨rfl, -⟩ := h
      obtain ⟨c, o, h1, h2, h3, h4, h5⟩ := PT.treeMap2_ok.1 hr
      rw [PT.isCutLeaf_iff] at hn
      have hsome := PT.leafAt?_isSome_of_shape h1 π
      rw [hn] at hsome
      cases hc : c.leafAt? π with
      | none => simp [hc] at hsome
      | some y =>
        obtain ⟨z, -, hz⟩ := h5 π n y hn hc
        refine ⟨y, by rw [← h2]; exact PT.get?_join_nil hc, ?_⟩
        simp only [assertSame] at hz
        split at hz
        · rename_i ht
          refine ⟨ht, ?_⟩
          intro ha
          split at hz
          · contradiction
          · split at hz
            · contradiction
            · rename_i hs hd
              simp only [ha, true_and, ne_eq, Decidable.not_not] at hs hd
              cases hA : shapeDtype n with
              | none => cases hB : shapeDtype y with
                | none => rfl
                | some b => simp [hA, hB] at hs
              | some a => cases hB : shapeDtype y with
                | none => simp [hA, hB] at hs
                | some b =>
                  simp only [hA, hB, Option.map_some, Option.some.injEq] at hs hd
                  congr 1
                  exact Prod.ext hs hd
        · contradiction
    · simp at h

/-- With the default `is_leaf`: the result has the structure of `like`, and every leaf conforms to the leaf of `like`. -/
theorem load_conforms (spec : PT K (DSpec K env O)) (like out : PT K (Leaf env O)) (s s' : Bytes)
    (h : deserialise cls oty spec PT.noLeaf like s = (.ok out, s')) :
    PT.SameStructure out like ∧
      ∀ π n o, out.leafAt? π = some n → like.leafAt? π = some o → Conforms oty n o := by
  have key := h
  simp only [deserialise] at key
  split at key
  · simp at key
  · split at key
    · rename_i r hr
      simp only [Prod.mk.injEq, Except.ok.injEq] at key
      obtain ⟨rfl, -⟩ := key
      obtain ⟨c, o, h1, h2, h3, h4, h5⟩ := PT.treeMap2_ok.1 hr
      rw [PT.cut_noLeaf] at h1 h5
      rw [PT.shape_map] at h1
      rename_i out _ _ _
      have hleaf : ∀ π n y, out.leafAt? π = some n → c.leafAt? π = some y → ∃ m, y = .leaf m ∧ Conforms oty n m := by
        intro π n y hn hy
        obtain ⟨z, -, hz⟩ := h5 π (.leaf n) y (by rw [PT.leafAt?_map, hn]; rfl) hy
        cases y with
        | leaf m => exact ⟨m, rfl, (assertSame_leaf cls oty n m).1 ⟨z, hz⟩⟩
        | none => cases n <;> simp [assertSame, typeOf, Ty.expected] at hz
        | node k cs => cases n <;> simp [assertSame, typeOf, Ty.expected] at hz
      have hshape : out.shape = like.shape := by
        rw [← h2]
        conv => lhs; rw [← PT.join_map_leaf out]
        refine PT.shape_join (by rw [PT.shape_map, h1]) ?_
        intro π x y hx hy
        rw [PT.leafAt?_map] at hx
        cases hn : out.leafAt? π with
        | none => simp [hn] at hx
        | some n =>
          simp [hn] at hx
          subst hx
          obtain ⟨m, rfl, -⟩ := hleaf π n y hn hy
          rfl
      refine ⟨PT.sameStructure_iff.2 hshape, ?_⟩
      intro π n o hn ho
      have hsome := PT.leafAt?_isSome_of_shape h1 π
      rw [hn] at hsome
      cases hc : c.leafAt? π with
      | none => simp [hc] at hsome
      | some y =>
        obtain ⟨m, rfl, hm⟩ := hleaf π n y hn hc
        have := PT.get?_join_nil hc
        rw [h2] at this
        rw [PT.leafAt?_eq_some, this] at ho
        simp at ho
        subst ho
        exact hm
    · simp at key

/-! ### C09: round trip -/

/-- The part before the final check. -/
theorem RT_save (hl : env.Lawful) (tree like out : PT K (Leaf env O)) (hs : tree.shape = like.shape)
    (ho : out.shape = like.shape)
    (H : ∀ π x y, tree.leafAt? π = some x → like.leafAt? π = some y →
      Storable x ∧ Matches x y ∧ out.leafAt? π = some (loaded x y)) :
    ∃ b, (∀ s, ∃ r, save tree s = (.ok r, s ++ b)) ∧ ∀ rest, load cls oty like (b ++ rest) = (.ok out, rest) := by
  have inner : ∃ b, RT (orderedMap PT.noLeaf (serLeaf defaultSer) tree) (orderedMap PT.noLeaf (deLeaf defaultDe) like) b out := by
    have := RT_orderedMap (p := PT.noLeaf) (q := PT.noLeaf) (f := serLeaf (K := K) (env := env) (O := O) defaultSer)
      (g := deLeaf (K := K) (env := env) (O := O) defaultDe)
      (t := tree) (u := like) (out.map PT.leaf)
      (by rw [PT.cut_noLeaf, PT.cut_noLeaf, PT.shape_map, PT.shape_map, hs])
      (by rw [PT.cut_noLeaf, PT.shape_map, PT.shape_map, ho]) (by
        intro π x y z hx hy hz
        rw [PT.cut_noLeaf, PT.leafAt?_map] at hx hy
        rw [PT.leafAt?_map] at hz
        cases hx' : tree.leafAt? π with
        | none => simp [hx'] at hx
        | some x' => cases hy' : like.leafAt? π with
          | none => simp [hy'] at hy
          | some y' =>
            obtain ⟨h1, h2, h3⟩ := H π x' y' hx' hy'
            simp [hx'] at hx
            simp [hy'] at hy
            simp [h3] at hz
            subst hx hy hz
            exact RT_default hl h1 h2)
    rwa [PT.join_map_leaf] at this
  have outer := RT_orderedMap2
    (f := fun sp x => callSpec (fun sp => orderedMap PT.noLeaf (serLeaf (K := K) (env := env) (O := O) sp) x) sp)
    (g := fun sp x => callSpec (fun sp => orderedMap PT.noLeaf (deLeaf (K := K) (env := env) (O := O) sp) x) sp)
    (sp := .leaf defaultSer) (sp' := .leaf defaultDe) (.leaf tree) (.leaf like) (.leaf out) rfl rfl rfl rfl (by
      intro π a a' x y z ha ha' hx hy hz
      cases π with
      | cons => simp at ha
      | nil =>
        simp at ha ha' hx hy hz
        subst ha ha' hx hy hz
        exact inner)
  obtain ⟨b, hb1, hb2⟩ := outer
  refine ⟨b, hb1, ?_⟩
  intro rest
  have hb2' : orderedMap2 (fun sp x => callSpec (fun sp => orderedMap PT.noLeaf (deLeaf (K := K) (env := env) (O := O) sp) x) sp)
      (.leaf defaultDe) like (b ++ rest) = (.ok out, rest) := hb2 rest
  simp only [load, deserialise, hb2']
  obtain ⟨o, ho1, ho2⟩ := PT.exists_of_shape (γ := PT K (Leaf env O)) out (fun _ z => z = .none) (fun _ _ _ => ⟨.none, rfl⟩)
  have : PT.treeMap2 PT.noLeaf (assertSame cls oty) out like = .ok o.join := by
    refine PT.treeMap2_ok.2 ⟨like.map PT.leaf, o, ?_, PT.join_map_leaf like, ?_, rfl, ?_⟩
    · rw [PT.cut_noLeaf, PT.shape_map, PT.shape_map, ho]
    · rw [PT.cut_noLeaf, PT.shape_map, ho1]
    · intro π n y hn hy
      rw [PT.cut_noLeaf, PT.leafAt?_map] at hn
      rw [PT.leafAt?_map] at hy
      cases hn' : out.leafAt? π with
      | none => simp [hn'] at hn
      | some n' => cases hy' : like.leafAt? π with
        | none => simp [hy'] at hy
        | some y' =>
          have hsome := PT.leafAt?_isSome_of_shape hs π
          rw [hy'] at hsome
          cases hx' : tree.leafAt? π with
          | none => simp [hx'] at hsome
          | some x' =>
            obtain ⟨h1, h2, h3⟩ := H π x' y' hx' hy'
            rw [h3] at hn'
            simp only [h3, Option.map_some, Option.some.injEq] at hn
            simp only [hy', Option.map_some, Option.some.injEq] at hy
            subst hn hy
            have hsome' := PT.leafAt?_isSome_of_shape ho1 π
            rw [h3] at hsome'
            cases hz : o.leafAt? π with
            | none => simp [hz] at hsome'
            | some z =>
              obtain rfl := ho2 π z hz
              obtain ⟨r, hr⟩ := (assertSame_leaf cls oty (K := K) (loaded x' y') y').2 (conforms_loaded oty h2)
              refine ⟨.none, rfl, ?_⟩
              rw [hr]
              have : r = .none := by
                simp only [assertSame] at hr
                split at hr
                · split at hr
                  · contradiction
                  · split at hr
                    · contradiction
                    · simpa using hr.symm
                · contradiction
              rw [this]
  rw [this]

/-- Saving a tree and loading it with a `like` of the same structure, types, shapes and dtypes gives a tree with the saved
arrays and scalars and `like`'s other leaves. What was in the file before is kept and what comes after is not touched. -/
theorem round_trip (hl : env.Lawful) (tree like : PT K (Leaf env O)) (hs : PT.SameStructure tree like)
    (H : ∀ π x y, tree.leafAt? π = some x → like.leafAt? π = some y → Storable x ∧ Matches x y) :
    ∃ b out, (∀ before, ∃ r, save tree before = (.ok r, before ++ b)) ∧
      (∀ after, load cls oty like (b ++ after) = (.ok out, after)) ∧ PT.SameStructure out like ∧
      ∀ π x y, tree.leafAt? π = some x → like.leafAt? π = some y → out.leafAt? π = some (loaded x y) := by
  rw [PT.sameStructure_iff] at hs
  obtain ⟨out, h1, h2⟩ := PT.exists_of_shape (γ := Leaf env O) like
    (fun π z => ∀ x y, tree.leafAt? π = some x → like.leafAt? π = some y → z = loaded x y) (by
      intro π y hy
      have hsome := PT.leafAt?_isSome_of_shape hs π
      rw [hy] at hsome
      cases hx : tree.leafAt? π with
      | none => simp [hx] at hsome
      | some x =>
        refine ⟨loaded x y, ?_⟩
        intro x' y' hx' hy'
        rw [hy] at hy'
        simp at hx' hy'
        rw [hx', hy'])
  have h3 : ∀ π x y, tree.leafAt? π = some x → like.leafAt? π = some y → out.leafAt? π = some (loaded x y) := by
    intro π x y hx hy
    have hsome := PT.leafAt?_isSome_of_shape h1 π
    rw [hy] at hsome
    cases hz : out.leafAt? π with
    | none => simp [hz] at hsome
    | some z => rw [h2 π z hz x y hx hy]
  obtain ⟨b, hb1, hb2⟩ := RT_save cls oty hl tree like out hs h1
    (fun π x y hx hy => ⟨(H π x y hx hy).1, (H π x y hx hy).2, h3 π x y hx hy⟩)
  exact ⟨b, out, hb1, hb2, PT.sameStructure_iff.2 h1, h3⟩

theorem matches_self {x : Leaf env O} (h : Storable x) : Matches x x := by
  cases x <;> simp_all [Matches, Storable]

theorem loaded_self (x : Leaf env O) : loaded x x = x := by
  cases x <;> rfl

/-- Loading with the saved tree itself gives it back. -/
theorem round_trip_self (hl : env.Lawful) (tree : PT K (Leaf env O)) (H : ∀ π x, tree.leafAt? π = some x → Storable x) :
    ∃ b, (∀ before, ∃ r, save tree before = (.ok r, before ++ b)) ∧
      ∀ after, load cls oty tree (b ++ after) = (.ok tree, after) := by
  refine RT_save cls oty hl tree tree tree rfl rfl ?_
  intro π x y hx hy
  rw [hx] at hy
  simp at hy
  subst hy
  exact ⟨H π x hx, matches_self (H π x hx), by rw [loaded_self, hx]⟩

/-- Saving several trees to one file. -/
def saveAll : List (PT K (Leaf env O)) → Act Unit
  | [], s => (.ok (), s)
  | t :: ts, s => match save t s with
    | (.ok _, s) => saveAll ts s
    | (.error e, s) => (.error e, s)

/-- Loading several trees from one file. -/
def loadAll : List (PT K (Leaf env O)) → Act (List (PT K (Leaf env O)))
  | [], s => (.ok [], s)
  | l :: ls, s => match load cls oty l s with
    | (.error e, s) => (.error e, s)
    | (.ok t, s) => match loadAll ls s with
      | (.error e, s) => (.error e, s)
      | (.ok ts, s) => (.ok (t :: ts), s)

/-- Any number of trees written one after the other to a file can be read back in the same order. -/
theorem stream_round_trip (hl : env.Lawful) (trees : List (PT K (Leaf env O)))
    (H : ∀ t ∈ trees, ∀ π x, t.leafAt? π = some x → Storable x) :
    ∃ b, (∀ before, saveAll trees before = (.ok (), before ++ b)) ∧
      ∀ after, loadAll cls oty trees (b ++ after) = (.ok trees, after) := by
  induction trees with
  | nil => exact ⟨[], by simp [saveAll], by simp [loadAll]⟩
  | cons t ts ih =>
    obtain ⟨b, h1, h2⟩ := round_trip_self cls oty hl t (H t List.mem_cons_self)
    obtain ⟨b', h1', h2'⟩ := ih (fun t' ht' => H t' (List.mem_cons_of_mem _ ht'))
    refine ⟨b ++ b', ?_, ?_⟩
    · intro before
      obtain ⟨r, hr⟩ := h1 before
      simp only [saveAll, hr, h1', List.append_assoc]
    · intro after
      simp only [loadAll, List.append_assoc, h2, h2']

/-! ### C11: incomplete files -/

/-- If a save stops before all bytes are written, loading what is there raises. The `like` tree needs the same structure, with
arrays or scalars (of any kind) where the saved tree has arrays or scalars. -/
theorem truncated_raises (hl : env.Lawful) (tree like : PT K (Leaf env O)) (hs : PT.SameStructure tree like)
    (H : ∀ π x y, tree.leafAt? π = some x → like.leafAt? π = some y → (Saved x ∧ Loads y) ∨ (IsOther x ∧ IsOther y)) :
    ∃ b, (∀ before, ∃ r, save tree before = (.ok r, before ++ b)) ∧
      ∀ p, p <+: b → p ≠ b → ∃ e s, load cls oty like p = (.error e, s) := by
  rw [PT.sameStructure_iff] at hs
  have inner : ∃ b, Cuts (orderedMap PT.noLeaf (serLeaf defaultSer) tree) (orderedMap PT.noLeaf (deLeaf defaultDe) like) b := by
    refine Cuts_orderedMap (p := PT.noLeaf) (q := PT.noLeaf) (f := serLeaf (K := K) (env := env) (O := O) defaultSer)
      (g := deLeaf (K := K) (env := env) (O := O) defaultDe) (t := tree) (u := like)
      (by rw [PT.cut_noLeaf, PT.cut_noLeaf, PT.shape_map, PT.shape_map, hs]) ?_
    intro π x y hx hy
    rw [PT.cut_noLeaf, PT.leafAt?_map] at hx hy
    cases hx' : tree.leafAt? π with
    | none => simp [hx'] at hx
    | some x' => cases hy' : like.leafAt? π with
      | none => simp [hy'] at hy
      | some y' =>
        simp [hx'] at hx
        simp [hy'] at hy
        subst hx hy
        exact Cuts_default hl (H π x' y' hx' hy')
  have outer := Cuts_orderedMap2
    (f := fun sp x => callSpec (fun sp => orderedMap PT.noLeaf (serLeaf (K := K) (env := env) (O := O) sp) x) sp)
    (g := fun sp x => callSpec (fun sp => orderedMap PT.noLeaf (deLeaf (K := K) (env := env) (O := O) sp) x) sp)
    (sp := .leaf defaultSer) (sp' := .leaf defaultDe) (.leaf tree) (.leaf like) rfl rfl rfl (by
      intro π a a' x y ha ha' hx hy
      cases π with
      | cons => simp at ha
      | nil =>
        simp at ha ha' hx hy
        subst ha ha' hx hy
        exact inner)
  obtain ⟨b, hb1, hb2, -⟩ := outer
  refine ⟨b, hb1, ?_⟩
  intro p h1 h2
  obtain ⟨e, s, he⟩ := hb2 p h1 h2
  have he' : orderedMap2 (fun sp x => callSpec (fun sp => orderedMap PT.noLeaf (deLeaf (K := K) (env := env) (O := O) sp) x) sp)
      (.leaf defaultDe) like p = (.error e, s) := he
  exact ⟨e, s, by simp only [load, deserialise, he']⟩

/-! ### C54: errors name the leaf at fault -/

/-- The error of a list of actions is the error of one of them, with its path put in front; all actions before it
succeeded. -/
theorem runAll_error {X Y : Type} {f : X → Act Y} : ∀ {l : List (List Nat × X)} {s s' : Bytes} {e : TErr},
    runAll f l s = (.error e, s') → ∃ i π x t e', l[i]? = some (π, x) ∧ f x t = (.error e', s') ∧
      e = .path (match e' with | .raw _ => π | .path ρ => π ++ ρ) ∧
      ∃ ys, runAll f (l.take i) s = (.ok ys, t) := by
  intro l
  induction l with
  | nil => intro s s' e h; simp [runAll] at h
  | cons p l ih =>
    obtain ⟨π, x⟩ := p
    intro s s' e h
    simp only [runAll] at h
    cases hf : f x s with
    | mk r t =>
      cases r with
      | error e' =>
        simp only [hf, Prod.mk.injEq] at h
        obtain ⟨h1, rfl⟩ := h
        refine ⟨0, π, x, s, e', rfl, hf, ?_, [], rfl⟩
        cases e' <;> simp [withPath] at h1 <;> exact h1.symm
      | ok y =>
        simp only [hf] at h
        cases hr : runAll f l t with
        | mk r t' =>
          cases r with
          | ok ys => simp [hr] at h
          | error e' =>
            simp only [hr, Prod.mk.injEq, Except.error.injEq] at h
            obtain ⟨rfl, rfl⟩ := h
            obtain ⟨i, π', x', u, e'', h1, h2, h3, ys, h4⟩ := ih hr
            refine ⟨i + 1, π', x', u, e'', by simpa using h1, h2, h3, y :: ys, ?_⟩
            simp [runAll, hf, h4]

/-- When loading with the default arguments fails with a path, that is the path of the leaf of `like` whose loading
failed. -/
theorem load_error_path (like : PT K (Leaf env O)) (s s' : Bytes) (π : List Nat)
    (h : load cls oty like s = (.error (.path π), s')) :
    ∃ y t e, like.leafAt? π = some y ∧ defaultDe (.leaf y : PT K (Leaf env O)) t = (.error e, s') := by
  simp only [load, deserialise] at h
  split at h
  · rename_i e s1 he
    simp only [Prod.mk.injEq, Except.error.injEq] at h
    obtain ⟨rfl, rfl⟩ := h
    simp only [orderedMap2, PT.treeStructure, PT.cut, PT.shape_leaf, PT.flattenUpTo, PT.treeLeaves, PT.leaves, paths,
      List.zip_cons_cons, List.zip_nil_right] at he
    have h1 : runAll (fun xy : PT K (DSpec K env O) × PT K (Leaf env O) =>
        callSpec (fun sp => orderedMap PT.noLeaf (deLeaf sp) xy.2) xy.1) [([], PT.leaf defaultDe, like)] s = (.error (.path π), s1) := by
      generalize hx : runAll _ _ s = r at he
      rw [← hx] at he ⊢
      cases hr : runAll (fun xy : PT K (DSpec K env O) × PT K (Leaf env O) =>
        callSpec (fun sp => orderedMap PT.noLeaf (deLeaf sp) xy.2) xy.1) [([], PT.leaf defaultDe, like)] s with
      | mk r t =>
        cases r with
        | error e => simp only [hr, finish] at he; simp at he ⊢; exact he
        | ok ys =>
          simp only [hr, finish] at he
          split at he <;> simp at he
    obtain ⟨i, ρ, x, t, e', h2, h3, h4, -⟩ := runAll_error h1
    cases i with
    | succ i => simp at h2
    | zero =>
      simp only [List.getElem?_cons_zero, Option.some.injEq, Prod.mk.injEq] at h2
      obtain ⟨rfl, rfl⟩ := h2
      simp only [callSpec, orderedMap] at h3
      cases hr : runAll (deLeaf defaultDe) ((paths (like.cut PT.noLeaf)).zip (like.treeLeaves PT.noLeaf)) t with
      | mk r u =>
        cases r with
        | ok ys =>
          rw [hr] at h3
          simp only [finish] at h3
          exfalso
          have hlen : ∀ {X Y : Type} (f : X → Act Y) (l : List (List Nat × X)) (s u : Bytes) (ys : List Y),
              runAll f l s = (.ok ys, u) → ys.length = l.length := by
            intro X Y f l
            induction l with
            | nil => intro s u ys h; simp [runAll] at h; simp [← h.1]
            | cons p l ih =>
              intro s u ys h
              simp only [runAll] at h
              cases hf : f p.2 s with
              | mk r t =>
                cases r with
                | error e => simp only [hf, Prod.mk.injEq] at h; cases e <;> simp [withPath] at h
                | ok y =>
                  simp only [hf] at h
                  cases hr : runAll f l t with
                  | mk r t' =>
                    cases r with
                    | error e => simp [hr] at h
                    | ok ys' =>
                      simp [hr] at h
                      rw [← h.1, List.length_cons, ih t t' ys' hr, List.length_cons]
          have := hlen _ _ _ _ _ hr
          obtain ⟨o, -, -, h5⟩ := unflatten_ok (like.cut PT.noLeaf) ys (by
            rw [this]; simp [PT.treeLeaves, length_paths])
          rw [PT.treeStructure, h5] at h3
          simp at h3
        | error e'' =>
          rw [hr] at h3
          simp only [finish, Prod.mk.injEq, Except.error.injEq] at h3
          obtain ⟨rfl, rfl⟩ := h3
          obtain ⟨i, ρ, y, v, e3, h5, h6, h7, -⟩ := runAll_error hr
          obtain ⟨h8, h9⟩ := zip_getElem? h5
          simp only [deLeaf, Prod.mk.injEq] at h6
          have hraw : ∃ e, (defaultDe y v).1 = .error e ∧ e3 = .raw e := by
            cases hd : (defaultDe y v).1 with
            | ok z => simp [hd, liftErr] at h6
            | error e => exact ⟨e, rfl, by simpa [hd, liftErr] using h6.1.symm⟩
          obtain ⟨e, he1, rfl⟩ := hraw
          simp only at h7
          subst h7
          simp only [List.nil_append, TErr.path.injEq] at h4
          subst h4
          obtain ⟨h10, h11⟩ := leafAt?_paths _ i _ h8
          rw [PT.treeLeaves] at h9
          rw [h9, PT.cut_noLeaf, PT.leafAt?_map] at h10
          cases hy : like.leafAt? π with
          | none => simp [hy] at h10
          | some y' =>
            simp only [hy, Option.map_some, Option.some.injEq] at h10
            refine ⟨y', v, e, rfl, ?_⟩
            rw [h10]
            exact Prod.ext he1 h6.2
  · split at h
    · simp at h
    · simp at h

/-- A list of actions of which one always raises. -/
theorem runAll_fails {X Y : Type} {f : X → Act Y} : ∀ {l : List (List Nat × X)} {i : Nat} {π : List Nat} {x : X},
    l[i]? = some (π, x) → (∀ s, ∃ e s', f x s = (.error e, s')) → ∀ s, ∃ e s', runAll f l s = (.error e, s') := by
  intro l
  induction l with
  | nil => intro i π x h; simp at h
  | cons p l ih =>
    intro i π x h H s
    have werr : ∀ e : TErr, ∃ e', withPath (X := List Y) p.1 (.error e) = .error e' := by
      intro e; cases e <;> exact ⟨_, rfl⟩
    cases hf : f p.2 s with
    | mk r t =>
      cases r with
      | error e =>
        obtain ⟨e', he'⟩ := werr e
        exact ⟨e', t, by simp [runAll, hf, he']⟩
      | ok y =>
        cases i with
        | zero =>
          simp at h
          obtain ⟨e, s', he⟩ := H s
          rw [h] at hf
          rw [hf] at he
          simp at he
        | succ i =>
          obtain ⟨e, s', he⟩ := ih (by simpa using h) H t
          exact ⟨e, s', by simp [runAll, hf, he]⟩

/-- Saving a tree with a PRNG key array in it raises. -/
theorem save_key_raises (tree : PT K (Leaf env O)) (π : List Nat) (a : Arr) (ha : a.dtype = .key)
    (hx : tree.leafAt? π = some (.jax a) ∨ tree.leafAt? π = some (.np a)) (s : Bytes) :
    ∃ e s', save tree s = (.error e, s') := by
  have inner : ∀ s, ∃ e s', orderedMap PT.noLeaf (serLeaf defaultSer) tree s = (.error e, s') := by
    intro s
    have : ∃ x, (tree.cut PT.noLeaf).leafAt? π = some x ∧ ∀ s, ∃ e s', serLeaf defaultSer x s = (.error e, s') := by
      rcases hx with hx | hx
      · refine ⟨.leaf (.jax a), by rw [PT.cut_noLeaf, PT.leafAt?_map, hx]; rfl, fun s => ⟨.raw .typeError, s, ?_⟩⟩
        simp [serLeaf, defaultSer, npSave, ha, liftErr, Except.map]
      · refine ⟨.leaf (.np a), by rw [PT.cut_noLeaf, PT.leafAt?_map, hx]; rfl, fun s => ⟨.raw .typeError, s, ?_⟩⟩
        simp [serLeaf, defaultSer, npSave, ha, liftErr, Except.map]
    obtain ⟨x, h1, h2⟩ := this
    obtain ⟨i, hi, h3⟩ := PT.index_of_leafAt? h1
    have h4 := h3 _ rfl
    rw [h1] at h4
    have hp : ((paths (tree.cut PT.noLeaf)).zip (tree.treeLeaves PT.noLeaf))[i]? = some ((paths (tree.cut PT.noLeaf))[i]'(by
        rw [length_paths]; exact hi), x) := by
      rw [List.getElem?_zip_eq_some]
      exact ⟨by simp, h4.symm⟩
    obtain ⟨e, s', he⟩ := runAll_fails hp h2 s
    exact ⟨e, s', by simp [orderedMap, he, finish]⟩
  obtain ⟨e, s', he⟩ := runAll_fails (f := fun xy : PT K (SSpec K env O) × PT K (Leaf env O) =>
      callSpec (fun sp => orderedMap PT.noLeaf (serLeaf sp) xy.2) xy.1) (l := [([], PT.leaf defaultSer, tree)]) (i := 0) rfl
    inner s
  refine ⟨e, s', ?_⟩
  simp only [save, serialise, orderedMap2, PT.treeStructure, PT.cut, PT.shape_leaf, PT.flattenUpTo, PT.treeLeaves, PT.leaves, paths,
      List.zip_cons_cons, List.zip_nil_right, he, finish]

/-! ### Behaviour worth knowing -/

/-- A NumPy array of dtype `bfloat16` is written without complaint, but loading it never succeeds. -/
theorem np_bfloat16_never_loads (hl : env.Lawful) (a b : Arr) (ha : a.dtype = .bf16) (hb : b.dtype = .bf16) (after : Bytes) :
    ∃ w, (∀ before, ∃ r, save (.leaf (.np a) : PT K (Leaf env O)) before = (.ok r, before ++ w)) ∧
      ∃ e s, load cls oty (.leaf (.np b) : PT K (Leaf env O)) (w ++ after) = (.error e, s) := by
  obtain ⟨w, h1, h2⟩ := npSave_load hl (a := a) (by simp [ha, DType.onDisk, DType.Plain])
  have hsave : ∀ before, save (.leaf (.np a) : PT K (Leaf env O)) before = (.ok .none, before ++ w) := by
    intro before
    simp [save, serialise, orderedMap2, orderedMap, PT.treeStructure, PT.treeLeaves, PT.cut, PT.leaves, paths, PT.flattenUpTo,
      runAll, callSpec, serLeaf, defaultSer, h1, liftErr, Except.map, finish, PT.treeUnflatten, PT.fill, PT.join, PT.shape, PT.map,
      bind, Except.bind, pure, Except.pure]
  refine ⟨w, fun before => ⟨_, hsave before⟩, ?_⟩
  have hne : (⟨.void 2, a.shape, a.raw⟩ : Arr).dtype ≠ b.dtype := by rw [hb]; simp
  cases hload : load cls oty (.leaf (.np b) : PT K (Leaf env O)) (w ++ after) with
  | mk r s =>
    cases r with
    | error e => exact ⟨e, s, rfl⟩
    | ok out =>
      exfalso
      obtain ⟨hs, hc⟩ := load_conforms cls oty _ _ _ _ _ hload
      have hout : out = .leaf (.np (a.view (.void 2))) := by
        have h2' := h2 after
        simp only [ha, DType.onDisk] at h2'
        simp only [load, deserialise] at hload
        split at hload
        · simp at hload
        · rename_i out' s1 he
          split at hload
          · simp only [Prod.mk.injEq, Except.ok.injEq] at hload
            obtain ⟨rfl, rfl⟩ := hload
            simp [orderedMap2, orderedMap, PT.treeStructure, PT.treeLeaves, PT.cut, PT.leaves, paths, PT.flattenUpTo,
              runAll, callSpec, deLeaf, defaultDe, h2', liftErr, finish, PT.treeUnflatten, PT.fill, PT.join, PT.shape, PT.map,
              bind, Except.bind, pure, Except.pure] at he
            exact he.1.symm
          · simp at hload
      have := hc [] (.np (a.view (.void 2))) (.np b) (by rw [hout]; rfl) rfl
      simp [Conforms, Arr.view, hb] at this

section Examples
open Ex

/-- A model with an array, a number, an activation function and a `None`. -/
def exTree : PT Unit (Leaf Ex.env Unit) :=
  .node () [.leaf (.jax ⟨.std 0, [2], [7, 8]⟩), .leaf (.scal (Num.float 37)), .none, .leaf (.other ()), .leaf (.np ⟨.std 3, [], [1]⟩)]

def exLike : PT Unit (Leaf Ex.env Unit) :=
  .node () [.leaf (.struct (.std 0) [2]), .leaf (.scal (Num.float 0)), .none, .leaf (.other ()), .leaf (.np ⟨.std 3, [], [0]⟩)]

/-- The hypotheses of `round_trip` hold for it. -/
example : ∃ b out, (∀ before, ∃ r, save exTree before = (.ok r, before ++ b)) ∧
    (∀ after, load (fun _ => ()) (fun _ => ()) exLike (b ++ after) = (.ok out, after)) ∧ PT.SameStructure out exLike ∧
      ∀ π x y, exTree.leafAt? π = some x → exLike.leafAt? π = some y → out.leafAt? π = some (loaded x y) := by
  refine round_trip _ _ env_lawful exTree exLike (PT.sameStructure_iff.2 rfl) ?_
  have hst : Storable (.scal (Num.float 37) : Leaf Ex.env Unit) := Ex.storable (.float 37) (by simp)
  rintro (_ | ⟨(_ | _ | _ | _ | _ | n), (_ | ⟨j, π⟩)⟩) x y hx hy <;>
    simp [exTree, exLike, PT.leafAt?, PT.get?] at hx hy <;> subst hx hy
  · exact ⟨⟨Or.inl ⟨0, rfl⟩, rfl, rfl⟩, rfl, rfl⟩
  · exact ⟨hst, rfl⟩
  · exact ⟨trivial, trivial⟩
  · exact ⟨trivial, rfl, rfl⟩

/-- A scalar leaf of `like` silently converts: the saved float 3.7 loads as the integer 3. -/
example : (load (fun _ => ()) (fun _ => ()) (.leaf (.scal (Num.int 0)) : PT Unit (Leaf Ex.env Unit))
    (save (.leaf (.scal (Num.float 37)) : PT Unit (Leaf Ex.env Unit)) []).2).1 = .ok (.leaf (.scal (Num.int 3))) := by
  rfl

/-- An integer too large for NumPy's integer types is saved without complaint, and cannot be loaded. -/
example : (save (.leaf (.scal (Num.int 1000)) : PT Unit (Leaf Ex.env Unit)) []).1 = .ok .none ∧
    (load (fun _ => ()) (fun _ => ()) (.leaf (.scal (Num.int 0)) : PT Unit (Leaf Ex.env Unit))
      (save (.leaf (.scal (Num.int 1000)) : PT Unit (Leaf Ex.env Unit)) []).2).1 = .error (.path []) := by
  constructor <;> rfl

/-- The second leaf is damaged: the error names it. -/
example : (load (fun _ => ()) (fun _ => ()) exLike ((save exTree []).2.take 20)).1 = .error (.path [1]) := by
  rfl

end Examples

end Ser
end Verif
