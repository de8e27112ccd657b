import Verif.Remat.Model
import Verif.AD.Lemmas
import Verif.Filters.Lemmas

/-! # C78: `filter_checkpoint` changes neither results nor derivatives; `filter_shard` places arrays and changes nothing else -/

namespace Verif
namespace Remat

open PT AD Filters

variable {K α S D : Type}

/-! ## Specification -/

/-- The leaf as JAX hands it on: arrays become JAX arrays, everything else stays. -/
def handed (W : World K α S D) (a : α) : α := if W.array a then W.asJax a else a

/-- All arrays in the tree are possible in JAX. -/
def Fits (W : World K α S D) (x : PT K α) : Prop := ∀ a ∈ x.leaves, W.array a = true → W.valid a = true

/-- The array at position `π` gets this entry: it is found in the tree of shardings at a prefix of `π`. -/
def EntryAt (sh : PT K S) (π : List Nat) (e : Option S) : Prop :=
  ∃ σ ρ, π = σ ++ ρ ∧ ((∃ s, sh.get? σ = some (.leaf s) ∧ e = some s) ∨ (sh.get? σ = some .none ∧ e = Option.none))

/-! ## `filter_checkpoint` -/

theorem partition_eq (W : World K α S D) [DecidableEq K] (x : PT K α) :
    W.partition x = .ok (withNones (x.map (keep W.array)), withNones (x.map (drop W.array))) :=
  partition_callable_closed W.isArray x

theorem intoJax_keep (W : World K α S D) (x : PT K α) [Decidable (Fits W x)] :
    W.intoJax (withNones (x.map (keep W.array))) =
      if Fits W x then .ok (withNones (x.map fun a => (keep W.array a).map W.asJax)) else .error .typeError := by
  rw [World.intoJax, withNones_map]
  have hc : ((withNones (x.map (keep W.array))).leaves.all W.valid = true) ↔ Fits W x := ?_
  · by_cases h : Fits W x
    · rw [if_pos (hc.2 h), if_pos h]
    · rw [if_neg (mt hc.1 h), if_neg h]
  rw [leaves_withNones, List.all_eq_true]
  constructor
  · intro h a ha hq
    exact h a (List.mem_filterMap.2 ⟨a, ha, by simp [keep, hq]⟩)
  · intro h a ha
    obtain ⟨b, hb, hk⟩ := List.mem_filterMap.1 ha
    by_cases hq : W.array b = true
    · simp only [keep, hq, if_true, Option.some.injEq] at hk
      exact hk ▸ h b hb hq
    · simp [keep, hq] at hk

theorem combine_handed (W : World K α S D) [DecidableEq K] (x : PT K α) :
    combine noLeaf [withNones (x.map (drop W.array)), withNones (x.map fun a => (keep W.array a).map W.asJax)] = .ok (x.map (handed W)) ∧
      combine noLeaf [withNones (x.map fun a => (keep W.array a).map W.asJax), withNones (x.map (drop W.array))] = .ok (x.map (handed W)) := by
  constructor <;>
  · refine (combine_closed x [_, _] (by simp)).trans ?_
    rw [← withNones_some x (handed W)]
    congr 2
    apply map_congr_leaves
    intro a _
    by_cases h : W.array a = true <;> simp [keep, drop, handed, h]

theorem call_pack (W : World K α S D) (fn : PyFn K α) (args : List (PT K α)) (kwargs : List (String × PT K α)) (f : α → α) :
    W.call fn ((W.pack args kwargs).map f) = fn (args.map (PT.map f)) (kwargs.map fun p => (p.1, p.2.map f)) := by
  simp only [World.pack, PT.map, mapL_eq, mapL, World.call, W.names_dict, List.map_map]
  congr 1
  induction kwargs with
  | nil => rfl
  | cons a l ih => simpa using ih

open Classical in
/-- **C78**, `filter_checkpoint`: the function is called once, with the same arguments up to NumPy arrays having become JAX arrays; exceptions pass,
and what it returns is returned, again with JAX arrays for NumPy arrays. `TypeError` if some array cannot be one of JAX. -/
theorem filter_checkpoint_spec [DecidableEq K] (W : World K α S D) (fn : PyFn K α) (args : List (PT K α)) (kwargs : List (String × PT K α)) :
    filterCheckpoint W fn args kwargs =
      if (∀ t ∈ args, Fits W t) ∧ ∀ p ∈ kwargs, Fits W p.2 then
        match fn (args.map (PT.map (handed W))) (kwargs.map fun p => (p.1, p.2.map (handed W))) with
        | .ok out => if Fits W out then .ok (out.map (handed W)) else .error .typeError
        | .error e => .error e
      else .error .typeError := by
  have hfit : Fits W (W.pack args kwargs) ↔ (∀ t ∈ args, Fits W t) ∧ ∀ p ∈ kwargs, Fits W p.2 := by
    simp only [Fits, World.pack, leaves, leavesL, leavesL_eq, List.append_nil, List.mem_append, List.mem_flatMap, List.mem_map]
    constructor
    · intro h
      exact ⟨fun t ht a ha => h a (.inl ⟨t, ht, ha⟩), fun p hp a ha => h a (.inr ⟨p.2, ⟨p, hp, rfl⟩, ha⟩)⟩
    · rintro ⟨h1, h2⟩ a (⟨t, ht, ha⟩ | ⟨_, ⟨p, hp, rfl⟩, ha⟩)
      · exact h1 t ht a ha
      · exact h2 p hp a ha
  rw [filterCheckpoint, partition_eq]
  simp only [bind, Except.bind, jaxCheckpoint, intoJax_keep, hfit]
  by_cases h : (∀ t ∈ args, Fits W t) ∧ ∀ p ∈ kwargs, Fits W p.2
  · simp only [if_pos h]
    simp only [funCheckpoint, bind, Except.bind, (combine_handed W _).1, call_pack]
    cases fn (args.map (PT.map (handed W))) (kwargs.map fun p => (p.1, p.2.map (handed W))) with
    | error e => rfl
    | ok out =>
      simp only [partition_eq, intoJax_keep]
      by_cases ho : Fits W out
      · simp only [if_pos ho, pure, Except.pure, (combine_handed W out).2]
      · simp only [if_neg ho]
  · simp only [if_neg h]

/-- **C78**: without NumPy arrays nothing changes at all. -/
theorem filter_checkpoint_eq [DecidableEq K] (W : World K α S D) (fn : PyFn K α)
    (hj : ∀ a, W.array a = true → W.valid a = true ∧ W.asJax a = a) : filterCheckpoint W fn = fn := by
  have hh : ∀ t : PT K α, t.map (handed W) = t := by
    intro t
    refine (map_congr_leaves fun a _ => ?_).trans (map_id_fun t)
    by_cases h : W.array a = true
    · simp [handed, h, hj a h]
    · simp [handed, h]
  have hf : ∀ t : PT K α, Fits W t := fun t a _ h => (hj a h).1
  funext args kwargs
  rw [filter_checkpoint_spec, if_pos ⟨fun t _ => hf t, fun p _ => hf p.2⟩]
  have e1 : args.map (PT.map (handed W)) = args := by
    exact (List.map_congr_left fun t _ => hh t).trans (List.map_id _)
  have e2 : (kwargs.map fun p => (p.1, p.2.map (handed W))) = kwargs := by
    exact (List.map_congr_left (g := id) fun p _ => by rw [hh]; rfl).trans (List.map_id _)
  rw [e1, e2]
  cases fn args kwargs with
  | error e => rfl
  | ok out => simp only [if_pos (hf out), hh]

/-- **C78**: so gradients, pullbacks and tangents are those of the function itself. -/
theorem filter_checkpoint_derivatives [DecidableEq K] (W : World K α S D) (J : Jax K α) (fn : PyFn K α)
    (hj : ∀ a, W.array a = true → W.valid a = true ∧ W.asJax a = a) (hasAux : Bool) (args tangents : List (PT K α))
    (kwargs : List (String × PT K α)) :
    valueAndGrad J hasAux (filterCheckpoint W fn) args kwargs = valueAndGrad J hasAux fn args kwargs ∧
      filterVjp J hasAux (filterCheckpoint W fn) args = filterVjp J hasAux fn args ∧
      filterJvp J (filterCheckpoint W fn) args tangents kwargs = filterJvp J fn args tangents kwargs := by
  rw [filter_checkpoint_eq W fn hj]
  exact ⟨rfl, rfl, rfl⟩

/-! ## `filter_shard` -/

/-- The result of `constrain`, if there is one. -/
def constrained (W : World K α S D) (p : Option S × α) : α :=
  match W.constrain p.1 p.2 with
  | .ok v => v
  | .error _ => p.2

/-- Every position of a tree with its entry. -/
theorem exists_entries {sh : PT K S} {x : PT K α} (h : IsPrefix (sh.cut isNone) x) :
    ∃ u : PT K (PT K S × PT K α), u.map Prod.fst = sh.cut isNone ∧ (u.map Prod.snd).join = x := by
  obtain ⟨c, h1, h2⟩ := isPrefix_iff.1 h
  obtain ⟨u, e1, e2⟩ := exists_pair h1.symm
  exact ⟨u, e1, by rw [e2, h2]⟩

/-- The tree of entries and leaves. -/
def paired (u : PT K (PT K S × PT K α)) : PT K (Option S × α) := (u.map fun q => q.2.map fun a => (entry q.1, a)).join

theorem paired_snd (u : PT K (PT K S × PT K α)) : (paired u).map Prod.snd = (u.map Prod.snd).join := by
  rw [paired, map_join, map_map]
  congr 1
  apply map_congr_leaves
  intro q _
  rw [map_map, map_id_fun]

theorem withNones_join {β : Type} (u : PT K (PT K β)) (f : β → Option α) :
    withNones (u.join.map f) = (u.map fun y => withNones (y.map f)).join := by
  simp only [withNones, map_join, map_map, join_join]

theorem flattenAxes_paired [DecidableEq K] {sh : PT K S} (u : PT K (PT K S × PT K α)) (h : u.map Prod.fst = sh.cut isNone) (q : α → Bool) :
    flattenAxes sh (withNones ((paired u).map fun p => keep q p.2)) =
      .ok ((paired u).leaves.filterMap fun p => if q p.2 then some p.1 else Option.none) := by
  have e : treeMap2 isNone (fun s y => .ok (y.map fun _ => entry s)) sh (withNones ((paired u).map fun p => keep q p.2)) =
      .ok (withNones ((paired u).map fun p => if q p.2 then some p.1 else Option.none)) := by
    refine (treeMap2_closed (u := u) (b := Prod.fst) (c := fun w => withNones (w.2.map (keep q)))
      (g := fun w => (withNones (w.2.map (keep q))).map fun _ => entry w.1) h.symm ?_ (fun _ _ => rfl)).trans ?_
    · rw [paired, withNones_join, map_map]
      simp only [map_map]
    · rw [paired, withNones_join, map_map]
      congr 2
      apply map_congr_leaves
      intro w _
      rw [withNones_map, map_map]
      congr 1
      apply map_congr_leaves
      intro a _
      by_cases hq : q a = true <;> simp [keep, hq]
  rw [flattenAxes, e]
  simp only
  rw [leaves_withNones]

theorem prefix_withNones {β : Type} {sh : PT K S} {x : PT K β} (f : β → Option α) :
    IsPrefix (sh.cut isNone) (withNones (x.map f)) ↔ IsPrefix (sh.cut isNone) x := by
  induction sh using PT.ind generalizing x with
  | leaf s => 
    rw [isPrefix_iff, isPrefix_iff]
    exact ⟨fun _ => ⟨.leaf x, rfl, rfl⟩, fun _ => ⟨.leaf _, rfl, rfl⟩⟩
  | none =>
    rw [isPrefix_iff, isPrefix_iff]
    exact ⟨fun _ => ⟨.leaf x, rfl, rfl⟩, fun _ => ⟨.leaf _, rfl, rfl⟩⟩
  | node k cs ih =>
    rw [cutNone_node]
    cases x with
    | leaf a => 
      constructor
      · intro h
        have := h []
        cases hf : f a <;> simp [headAt?, get?, head, withNones, PT.map, join, orNone, hf] at this
      · intro h
        have := h []
        simp [headAt?, get?, head] at this
    | none =>
      have e : withNones ((PT.none : PT K β).map f) = .none := rfl
      rw [e, isPrefix_node, isPrefix_node]
      constructor <;> rintro ⟨_, h, _⟩ <;> cases h
    | node l xs =>
      have e : withNones ((PT.node l xs).map f) = .node l (xs.map fun y => withNones (y.map f)) := by
        simp [withNones, PT.map, mapL_eq, join, joinL_eq]
      rw [e, isPrefix_node, isPrefix_node]
      constructor
      · rintro ⟨ds, h1, h2, h3⟩
        cases h1
        refine ⟨xs, rfl, by simpa using h2, ?_⟩
        intro i d c hd hc
        rw [List.getElem?_map, Option.map_eq_some_iff] at hd
        obtain ⟨d', hd', rfl⟩ := hd
        exact (ih d' (List.mem_of_getElem? hd')).1 (h3 i _ (withNones (c.map f)) (by simp [hd']) (by simp [hc]))
      · rintro ⟨ds, h1, h2, h3⟩
        cases h1
        refine ⟨_, rfl, by simpa using h2, ?_⟩
        intro i d c hd hc
        rw [List.getElem?_map, Option.map_eq_some_iff] at hd hc
        obtain ⟨d', hd', rfl⟩ := hd
        obtain ⟨c', hc', rfl⟩ := hc
        exact (ih d' (List.mem_of_getElem? hd')).2 (h3 i _ c' (by simp [hd']) hc')

/-- An entry belongs to all positions below it. -/
theorem entryAt_unique {sh : PT K S} {π : List Nat} {e e' : Option S} (h : EntryAt sh π e) (h' : EntryAt sh π e') : e = e' := by
  have below : ∀ (t : PT K S) (ρ : List Nat) (y : PT K S), ((∃ s, t = .leaf s) ∨ t = .none) → t.get? ρ = some y → ρ = [] := by
    intro t ρ y ht hy
    cases ρ with
    | nil => rfl
    | cons i ρ => rcases ht with ⟨s, rfl⟩ | rfl <;> simp [get?] at hy
  have norm : ∀ {e : Option S}, EntryAt sh π e → ∃ σ ρ t, π = σ ++ ρ ∧ sh.get? σ = some t ∧ ((∃ s, t = .leaf s) ∨ t = .none) ∧ e = entry t := by
    rintro e ⟨σ, ρ, hπ, ⟨s, hs, rfl⟩ | ⟨hs, rfl⟩⟩
    · exact ⟨σ, ρ, _, hπ, hs, .inl ⟨s, rfl⟩, rfl⟩
    · exact ⟨σ, ρ, _, hπ, hs, .inr rfl, rfl⟩
  obtain ⟨σ, ρ, t, hπ, ht, hk, rfl⟩ := norm h
  obtain ⟨σ', ρ', t', hπ', ht', hk', rfl⟩ := norm h'
  rw [hπ] at hπ'
  rcases List.append_eq_append_iff.1 hπ' with ⟨τ, rfl, _⟩ | ⟨τ, rfl, _⟩
  · rw [get?_append, ht] at ht'
    have := below t τ t' hk ht'
    subst this
    cases ht'
    rfl
  · rw [get?_append, ht'] at ht
    have := below t' τ t hk' ht
    subst this
    cases ht
    rfl

theorem paired_entry {sh : PT K S} {u : PT K (PT K S × PT K α)} (h : u.map Prod.fst = sh.cut isNone) {π : List Nat} {p : Option S × α}
    (hp : (paired u).leafAt? π = some p) : EntryAt sh π p.1 := by
  obtain ⟨σ, ρ, y, rfl, hy, hy'⟩ := leafAt?_join.1 hp
  rw [leafAt?_map, Option.map_eq_some_iff] at hy
  obtain ⟨q, hq, rfl⟩ := hy
  rw [leafAt?_map, Option.map_eq_some_iff] at hy'
  obtain ⟨a, -, rfl⟩ := hy'
  have hs : (sh.cut isNone).leafAt? σ = some q.1 := by rw [← h, leafAt?_map, hq]; rfl
  obtain ⟨h1, h2⟩ := leafAt?_cut_isNone.1 hs
  refine ⟨σ, ρ, rfl, ?_⟩
  rcases h2 with ⟨s, h2⟩ | h2
  · exact .inl ⟨s, by rw [h1, h2], by simp [h2, entry]⟩
  · exact .inr ⟨by rw [h1, h2], by simp [h2, entry]⟩

theorem filterMap_zip (l : List (Option S × α)) (q : α → Bool) :
    (l.filterMap fun p => if q p.2 then some p.1 else Option.none).zip (l.filterMap fun p => keep q p.2) = l.filter fun p => q p.2 := by
  induction l with
  | nil => rfl
  | cons p l ih => by_cases h : q p.2 = true <;> simp [keep, h, List.filter_cons, ← ih]

/-- The tree `filter_shard` works on. -/
theorem filterShard_paired [DecidableEq K] (W : World K α S D) (s : DevOrShardings K S D) (u : PT K (PT K S × PT K α))
    (h : u.map Prod.fst = (W.shardings s).cut isNone) :
    filterShard W ((paired u).map Prod.snd) s =
      match mapE (fun p => W.constrain p.1 p.2) ((paired u).leaves.filter fun p => W.array p.2) with
      | .ok _ => .ok ((paired u).map fun p => if W.array p.2 then constrained W p else p.2)
      | .error e => .error e := by
  have hz := filterMap_zip (paired u).leaves W.array
  simp only [filterShard, partition_eq, bind, Except.bind, withShardingConstraint, map_map, flattenAxes_paired u h,
    leaves_withNones, hz]
  cases hm : mapE (fun p => W.constrain p.1 p.2) ((paired u).leaves.filter fun p => W.array p.2) with
  | error e => rfl
  | ok outs =>
    simp only
    have ho : outs = (paired u).leaves.filterMap fun p => if W.array p.2 then some (constrained W p) else Option.none := by
      revert outs
      induction (paired u).leaves with
      | nil => intro outs hm; cases hm; rfl
      | cons p l ih =>
        intro outs hm
        by_cases hq : W.array p.2 = true
        · simp only [hq, List.filter_cons, if_true, mapE, bind, Except.bind, pure, Except.pure] at hm
          cases hc : W.constrain p.1 p.2 with
          | error e => simp [hc] at hm
          | ok v =>
            rw [hc] at hm
            simp only at hm
            split at hm
            · cases hm
            · rename_i vs hvs
              cases hm
              rw [ih vs hvs]
              simp [hq, constrained, hc]
        · simp only [hq, List.filter_cons] at hm
          rw [ih outs (by simpa using hm)]
          simp [hq]
    have hu := treeUnflatten_shape ((withNones ((paired u).map fun p => if W.array p.2 then some (constrained W p) else Option.none)).map
      fun a => (PT.leaf a : PT K α))
    rw [join_map_leaf, shape_map, leaves_map, leaves_withNones, ← ho,
      shape_withNones (g := fun p => keep W.array p.2) _ _ (by
        intro p _
        by_cases hq : W.array p.2 = true <;> simp [keep, hq])] at hu
    rw [hu]
    simp only
    refine (combine_closed (paired u) [_, _] (by simp)).trans ?_
    rw [← withNones_some (paired u) fun p => if W.array p.2 then constrained W p else p.2]
    congr 2
    apply map_congr_leaves
    intro p _
    by_cases hq : W.array p.2 = true <;> simp [drop, hq]

/-- **C78**: shardings which are not a prefix of the tree are refused. -/
theorem filter_shard_not_prefix [DecidableEq K] (W : World K α S D) {x : PT K α} {s : DevOrShardings K S D}
    (h : ¬ IsPrefix ((W.shardings s).cut isNone) x) : filterShard W x s = .error .valueError := by
  simp only [filterShard, partition_eq, bind, Except.bind, withShardingConstraint, flattenAxes]
  cases hm : treeMap2 isNone (fun s y => .ok (y.map fun _ => entry s)) (W.shardings s) (withNones (x.map (keep W.array))) with
  | error e => rfl
  | ok axes =>
    obtain ⟨c, _, h1, h2, _⟩ := treeMap2_ok.1 hm
    exact absurd ((prefix_withNones _).1 (isPrefix_iff.2 ⟨c, h1, h2⟩)) h

/-- **C78**, `filter_shard`: it returns just if the shardings are a prefix of the tree (with `None` as an entry) and every array can take the
sharding found above it. Then the result has the structure of the tree; arrays are those under their shardings, and everything else is kept. -/
theorem filter_shard_ok [DecidableEq K] (W : World K α S D) (x y : PT K α) (s : DevOrShardings K S D) :
    filterShard W x s = .ok y ↔
      IsPrefix ((W.shardings s).cut isNone) x ∧ SameStructure x y ∧
        ∀ π a, x.leafAt? π = some a → (W.array a = false → y.leafAt? π = some a) ∧
          (W.array a = true → ∃ e b, EntryAt (W.shardings s) π e ∧ W.constrain e a = .ok b ∧ y.leafAt? π = some b) := by
  by_cases hp : IsPrefix ((W.shardings s).cut isNone) x
  case neg =>
    rw [filter_shard_not_prefix W hp]
    exact ⟨fun h => (nomatch h), fun h => absurd h.1 hp⟩
  obtain ⟨u, h1, h2⟩ := exists_entries hp
  have hx : x = (paired u).map Prod.snd := by rw [paired_snd, h2]
  subst hx
  rw [filterShard_paired W s u h1]
  constructor
  · intro h
    refine ⟨hp, ?_⟩
    split at h
    · rename_i outs hm
      cases h
      refine ⟨sameStructure_iff.2 (by rw [shape_map, shape_map]), ?_⟩
      intro π a ha
      rw [leafAt?_map, Option.map_eq_some_iff] at ha
      obtain ⟨p, hp', rfl⟩ := ha
      refine ⟨fun hq => by rw [leafAt?_map, hp']; simp [hq], fun hq => ?_⟩
      have hmem : p ∈ (paired u).leaves.filter fun p => W.array p.2 := by
        obtain ⟨i, hi, hall⟩ := index_of_leafAt? hp'
        have := hall _ rfl
        rw [hp'] at this
        exact List.mem_filter.2 ⟨List.mem_of_getElem? this.symm, hq⟩
      obtain ⟨i, hi⟩ := List.getElem?_of_mem hmem
      obtain ⟨b, -, hb⟩ := (mapE_ok.1 hm).2 i p hi
      exact ⟨p.1, b, paired_entry h1 hp', hb, by rw [leafAt?_map, hp']; simp [hq, constrained, hb]⟩
    · cases h
  · rintro ⟨-, hs, hall⟩
    have hc : ∀ π p, (paired u).leafAt? π = some p → W.array p.2 = true → ∃ b, W.constrain p.1 p.2 = .ok b ∧ y.leafAt? π = some b := by
      intro π p hp' hq
      obtain ⟨e, b, g1, g2, g3⟩ := (hall π p.2 (by rw [leafAt?_map, hp']; rfl)).2 hq
      rw [entryAt_unique g1 (paired_entry h1 hp')] at g2
      exact ⟨b, g2, g3⟩
    cases hm : mapE (fun p => W.constrain p.1 p.2) ((paired u).leaves.filter fun p => W.array p.2) with
    | error e =>
      obtain ⟨p, hp', he⟩ := mapE_error hm
      rw [List.mem_filter] at hp'
      obtain ⟨π, hπ⟩ := exists_path hp'.1
      obtain ⟨b, hb, -⟩ := hc π p hπ hp'.2
      rw [hb] at he
      cases he
    | ok outs =>
      simp only [Except.ok.injEq]
      apply eq_of_shape_leafAt?
      · rw [shape_map, ← sameStructure_iff.1 hs, shape_map]
      · intro π a b ha hb
        rw [leafAt?_map, Option.map_eq_some_iff] at ha
        obtain ⟨p, hp', rfl⟩ := ha
        by_cases hq : W.array p.2 = true
        · obtain ⟨v, g1, g2⟩ := hc π p hp' hq
          rw [hb] at g2
          cases g2
          simp [hq, constrained, g1]
        · have := (hall π p.2 (by rw [leafAt?_map, hp']; rfl)).1 (by simpa using hq)
          rw [hb] at this
          cases this
          simp [hq]

/-- **C78**: otherwise it raises what JAX raises for one of the arrays under its sharding. -/
theorem filter_shard_error [DecidableEq K] (W : World K α S D) {x : PT K α} {s : DevOrShardings K S D} {e : Err}
    (h : filterShard W x s = .error e) (hp : IsPrefix ((W.shardings s).cut isNone) x) :
    ∃ π a t, x.leafAt? π = some a ∧ W.array a = true ∧ EntryAt (W.shardings s) π t ∧ W.constrain t a = .error e := by
  obtain ⟨u, h1, h2⟩ := exists_entries hp
  have hx : x = (paired u).map Prod.snd := by rw [paired_snd, h2]
  subst hx
  rw [filterShard_paired W s u h1] at h
  split at h
  · cases h
  · rename_i e' hm
    cases h
    obtain ⟨p, hp', he⟩ := mapE_error hm
    rw [List.mem_filter] at hp'
    obtain ⟨π, hπ⟩ := exists_path hp'.1
    exact ⟨π, p.2, p.1, by rw [leafAt?_map, hπ]; rfl, hp'.2, paired_entry h1 hπ, he⟩

/-- **C78**: a device is the sharding of every array, whatever the tree. -/
theorem filter_shard_device [DecidableEq K] (W : World K α S D) (x : PT K α) (d : D) :
    IsPrefix ((W.shardings (.device d)).cut isNone) x ∧
      ∀ π e, EntryAt (W.shardings (.device d)) π e ↔ e = some (W.single d) := by
  refine ⟨isPrefix_iff.2 ⟨.leaf x, rfl, rfl⟩, fun π e => ⟨?_, ?_⟩⟩
  · rintro ⟨σ, ρ, -, ⟨s, hs, rfl⟩ | ⟨hs, -⟩⟩
    · cases σ with
      | nil => cases hs; rfl
      | cons i σ => simp [World.shardings, get?] at hs
    · cases σ <;> simp [World.shardings, get?] at hs
  · rintro rfl
    exact ⟨[], π, rfl, .inl ⟨_, rfl, rfl⟩⟩

/-! ## Cases -/

namespace Ex

/-- Containers. -/
inductive C where
  | tuple
  | dict (ks : List String)
deriving DecidableEq

/-- Leaves: NumPy arrays, JAX arrays, strings. -/
inductive L where
  | np (n : Int)
  | jx (n : Int) (sharding : Option Nat)
  | str (s : String)
deriving DecidableEq

def W : World C L Nat Nat where
  array | .str _ => false | _ => true
  asJax | .np n => .jx n Option.none | l => l
  valid _ := true
  tuple := .tuple
  dict := .dict
  names | .dict ks => ks | _ => []
  names_dict _ := rfl
  constrain
    | some s, .np n => .ok (.jx n (some s))
    | some s, .jx n _ => .ok (.jx n (some s))
    | _, _ => .error .valueError
  single d := 100 + d

/-- A function with a string to look at, a NumPy array to give back, and an argument by name. -/
def fn : PyFn C L
  | [.leaf (.jx n s), .leaf (.str m)], [("k", y)] => .ok (.node .tuple [.leaf (.np (n + 1)), .leaf (.jx n s), .leaf (.str m), y, .none])
  | _, _ => .error .typeError

example : filterCheckpoint W fn [.leaf (.np 3), .leaf (.str "tanh")] [("k", .leaf (.str "v"))] =
    .ok (.node .tuple [.leaf (.jx 4 Option.none), .leaf (.jx 3 Option.none), .leaf (.str "tanh"), .leaf (.str "v"), .none]) := rfl

/-- Without the wrapper this function raises, as it is given a NumPy array. -/
example : fn [.leaf (.np 3), .leaf (.str "tanh")] [("k", .leaf (.str "v"))] = .error .typeError := rfl

def x : PT C L := .node .tuple [.node .tuple [.leaf (.np 1), .leaf (.str "a")], .leaf (.jx 2 Option.none), .leaf (.str "b")]

/-- A prefix: one sharding for the first two leaves, one for the third, `None` for the last. -/
example : filterShard W x (.shardings (.node .tuple [.leaf 7, .leaf 8, .none])) =
    .ok (.node .tuple [.node .tuple [.leaf (.jx 1 (some 7)), .leaf (.str "a")], .leaf (.jx 2 (some 8)), .leaf (.str "b")]) := rfl

example : filterShard W x (.device 3) =
    .ok (.node .tuple [.node .tuple [.leaf (.jx 1 (some 103)), .leaf (.str "a")], .leaf (.jx 2 (some 103)), .leaf (.str "b")]) := rfl

/-- Not a prefix. -/
example : filterShard W x (.shardings (.node .tuple [.leaf 7, .leaf 8])) = .error .valueError := rfl

/-- A world without NumPy arrays. -/
example : ∃ W : World C Nat Nat Nat, ∀ a, W.array a = true → W.valid a = true ∧ W.asJax a = a :=
  ⟨{ array := fun n => n % 2 == 0, asJax := id, valid := fun n => n % 2 == 0, tuple := .tuple, dict := .dict,
     names := fun k => match k with | .dict ks => ks | _ => [], names_dict := fun _ => rfl, constrain := fun _ a => .ok a,
     single := id }, fun _ h => ⟨h, rfl⟩⟩

end Ex

end Remat
end Verif
