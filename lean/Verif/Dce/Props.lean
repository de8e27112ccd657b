import Verif.Dce.Model
import Verif.PyTree.Closed

/-!
# C64: which arrays were removed by the compiler

`store_dce` is the identity.  `inspect_dce` is to print, for each call of `store_dce` under the name, its argument with every array
replaced by what was last seen of it, or by `<DCE'd>` if its callback never ran.  It does so if at most the last of these calls has
arrays (`inspect_dce_partial`); if another one has, then it raises a `ValueError` after the first of these (`inspect_dce_raises`),
because the list of leaves is not cleared between entries.
-/

namespace Verif
namespace Dce

open PT Filters

variable {N K A V σ : Type} [DecidableEq N] [DecidableEq K]

/-! ### Specification -/

/-- The number of calls of `store_dce` so far. -/
def calls : List (Ev N K A V σ) → Nat
  | [] => 0
  | .store _ _ :: h => calls h + 1
  | .ran _ _ _ _ :: h => calls h

/-- The calls of `store_dce` under a name, in order, each with its number among all calls. -/
def callsOf (name : N) : List (Ev N K A V σ) → List (Nat × PT K (Lf A V σ))
  | [] => []
  | .store x n :: h => if n = name then callsOf name h ++ [(calls h, x)] else callsOf name h
  | .ran _ _ _ _ :: h => callsOf name h

/-- What was last seen of the `i`th array of a call. -/
def lastSeen (tag i : Nat) : List (Ev N K A V σ) → Shown σ
  | [] => .dced
  | .store _ _ :: h => lastSeen tag i h
  | .ran _ t j s :: h => if t = tag ∧ j = i then .alive s else lastSeen tag i h

/-- Replace the arrays in a list of leaves, the first being number `j`. -/
def relabel (seen : Nat → Shown σ) : Nat → List (Lf A V σ) → List (Lf A V σ)
  | _, [] => []
  | j, .arr _ :: l => .repr (seen j) :: relabel seen (j + 1) l
  | j, .val v :: l => .val v :: relabel seen j l
  | j, .repr s :: l => .repr s :: relabel seen j l

/-- `y` is `x` with its arrays replaced by what was seen of them. -/
def ShownAs (seen : Nat → Shown σ) (x y : PT K (Lf A V σ)) : Prop :=
  SameStructure y x ∧ y.leaves = relabel seen 0 x.leaves

/-- The tree has an array. -/
def HasArray (x : PT K (Lf A V σ)) : Prop := ∃ a, Lf.arr a ∈ x.leaves

/-! ### `store_dce` -/

def dyn (x : PT K (Lf A V σ)) : PT K (Lf A V σ) := withNones (x.map fun a => if isArray a then some a else Option.none)
def stat (x : PT K (Lf A V σ)) : PT K (Lf A V σ) := withNones (x.map fun a => if isArray a then Option.none else some a)

theorem cut_leaves (t : PT K α) : treeLeaves noLeaf t = t.leaves.map .leaf := by
  rw [treeLeaves, cut_noLeaf, leaves_map]

theorem cut_shape (t : PT K α) : treeStructure noLeaf t = t.shape := by
  rw [treeStructure, cut_noLeaf, shape_map]

theorem unflatten_self (t : PT K α) : treeUnflatten t.shape (t.leaves.map .leaf) = .ok t := by
  have := treeUnflatten_shape (t.map fun a => PT.leaf (K := K) a)
  rw [shape_map, leaves_map, join_map_leaf] at this
  exact this

theorem combine_dyn_stat (x : PT K (Lf A V σ)) : combine noLeaf [dyn x, stat x] = .ok x := by
  have := combine_closed x [fun a : Lf A V σ => if isArray a then some a else Option.none,
    fun a => if isArray a then Option.none else some a] (by simp)
  simp only [List.map_cons, List.map_nil] at this
  rw [dyn, stat, this]
  congr 1
  have e : (x.map fun a : Lf A V σ => [fun a : Lf A V σ => if isArray a then some a else Option.none,
    fun a => if isArray a then Option.none else some a].findSome? (· a)) = x.map fun a => some a := by
    apply map_congr_leaves
    intro a _
    cases h : isArray a <;> simp [h]
  rw [e, withNones_some, map_id_fun]

theorem storeDce_eq (x : PT K (Lf A V σ)) (name : N) (w : World N K A V σ) :
    storeDce true x name w = .ok (x, ⟨w.tags + 1, insert name w.tags ⟨[], (dyn x).shape, stat x⟩ w.store⟩) := by
  have hp := partition_callable_closed (K := K) (fun t : PT K (Lf A V σ) => isArrayT t) x
  simp only [storeDce, if_true, bind, Except.bind, pure, Except.pure]
  rw [hp]
  simp only
  have h1 : withNones (x.map fun a => if isArrayT (K := K) (.leaf a) = true then some a else Option.none) = dyn x := rfl
  have h2 : withNones (x.map fun a => if isArrayT (K := K) (.leaf a) = true then Option.none else some a) = stat x := rfl
  rw [h1, h2, cut_leaves, cut_shape, unflatten_self]
  simp only
  rw [combine_dyn_stat]

/-- **`store_dce` is the identity inside of jit**, and raises outside of it. -/
theorem store_dce_identity (x : PT K (Lf A V σ)) (name : N) (w : World N K A V σ) :
    (∃ w', storeDce true x name w = .ok (x, w')) ∧ storeDce false x name w = .error .runtimeError :=
  ⟨⟨_, storeDce_eq x name w⟩, rfl⟩

/-! ### One entry -/

/-- An entry stands for a call with argument `x` of whose arrays this was seen. -/
structure Rep (e : Entry K A V σ) (x : PT K (Lf A V σ)) (seen : Nat → Shown σ) : Prop where
  treedef : e.treedef = (dyn x).shape
  static : e.static = stat x
  seen : ∀ j, seen j = shownOf (getItem j e.seen)

/-- The leaves with the labels of arrays. -/
def annotate (seen : Nat → Shown σ) : Nat → List (Lf A V σ) → List (Lf A V σ × Option (Shown σ))
  | _, [] => []
  | j, a :: l => if isArray a then (a, some (seen j)) :: annotate seen (j + 1) l else (a, Option.none) :: annotate seen j l

theorem annotate_fst (seen : Nat → Shown σ) : ∀ (l : List (Lf A V σ)) (j : Nat), (annotate seen j l).map (·.1) = l
  | [], _ => rfl
  | a :: l, j => by
    simp only [annotate]
    split <;> simp [annotate_fst seen l]

theorem annotate_isArray (seen : Nat → Shown σ) : ∀ (l : List (Lf A V σ)) (j : Nat), ∀ x ∈ annotate seen j l, x.2.isSome = isArray x.1
  | [], _, x, h => by cases h
  | a :: l, j, x, h => by
    simp only [annotate] at h
    split at h
    · rename_i ha
      rcases List.mem_cons.1 h with h | h
      · subst h; simp [ha]
      · exact annotate_isArray seen l _ x h
    · rename_i ha
      rcases List.mem_cons.1 h with h | h
      · subst h; simp [ha]
      · exact annotate_isArray seen l _ x h

theorem annotate_labels (seen : Nat → Shown σ) : ∀ (l : List (Lf A V σ)) (j : Nat),
    (annotate seen j l).filterMap (fun x => x.2.map Lf.repr) =
      (List.range' j (l.filter isArray).length).map fun i => (Lf.repr (seen i) : Lf A V σ)
  | [], _ => rfl
  | a :: l, j => by
    simp only [annotate]
    cases ha : isArray a with
    | true =>
      simp only [if_true, List.filterMap_cons, Option.map_some, annotate_labels seen l, List.filter_cons, ha,
        List.length_cons, List.range'_succ, List.map_cons]
    | false =>
      simp [List.filterMap_cons, annotate_labels seen l, List.filter_cons, ha]

theorem annotate_relabel (seen : Nat → Shown σ) : ∀ (l : List (Lf A V σ)) (j : Nat),
    (annotate seen j l).map (fun x => (x.2.map Lf.repr).getD x.1) = relabel seen j l
  | [], _ => rfl
  | .arr a :: l, j => by simp [annotate, isArray, relabel, annotate_relabel seen l]
  | .val a :: l, j => by simp [annotate, isArray, relabel, annotate_relabel seen l]
  | .repr a :: l, j => by simp [annotate, isArray, relabel, annotate_relabel seen l]

theorem dyn_leaves (x : PT K (Lf A V σ)) : (dyn x).leaves.length = (x.leaves.filter isArray).length := by
  rw [dyn, leaves_withNones]
  congr 1
  induction x.leaves with
  | nil => rfl
  | cons a l ih => cases h : isArray a <;> simp [List.filterMap_cons, List.filter_cons, h, ih]

theorem dyn_leaves_shape (x : PT K (Lf A V σ)) : ((dyn x).shape).leaves.length = (x.leaves.filter isArray).length := by
  rw [← dyn_leaves, shape, leaves_map, List.length_map]

/-- What the loop adds to `new_leaves` for an entry. -/
def labels (x : PT K (Lf A V σ)) (seen : Nat → Shown σ) : List (PT K (Lf A V σ)) :=
  (List.range (x.leaves.filter isArray).length).map fun j => .leaf (.repr (seen j))

theorem entry_ok (x : PT K (Lf A V σ)) (seen : Nat → Shown σ) :
    ∃ t y, treeUnflatten (dyn x).shape (labels x seen) = .ok t ∧ combine noLeaf [t, stat x] = .ok y ∧ ShownAs seen x y := by
  obtain ⟨m, hm1, hm2⟩ := exists_fill x (annotate seen 0 x.leaves) (by
    rw [← List.length_map (f := fun a : Lf A V σ × Option (Shown σ) => a.1), annotate_fst])
  have hx : x = m.map (·.1) := by
    apply eq_of_shape_leaves
    · rw [shape_map, hm1]
    · rw [leaves_map, hm2, annotate_fst]
  have hlab : ∀ a ∈ m.leaves, a.2.isSome = isArray a.1 := by
    rw [hm2]; exact annotate_isArray seen x.leaves 0
  let T : PT K (Lf A V σ) := withNones (m.map fun a => a.2.map Lf.repr)
  refine ⟨T, m.map fun a => (a.2.map Lf.repr).getD a.1, ?_, ?_, ?_⟩
  · have h1 : (dyn x).shape = T.shape := by
      have e : dyn x = withNones (m.map fun a => if isArray a.1 then some a.1 else Option.none) := by
        unfold dyn; conv => lhs; rw [hx, map_map]
      rw [e]
      apply shape_withNones
      intro a ha
      rw [Option.isSome_map, hlab a ha]
      cases isArray a.1 <;> rfl
    have h2 : labels x seen = T.leaves.map .leaf := by
      rw [show T.leaves = m.leaves.filterMap (fun a => a.2.map Lf.repr) from leaves_withNones m _, hm2, annotate_labels, labels,
        List.range_eq_range', List.map_map]
      rfl
    rw [h1, h2, unflatten_self]
  · have e : stat x = withNones (m.map fun a => if isArray a.1 then Option.none else some a.1) := by
      unfold stat; conv => lhs; rw [hx, map_map]
    rw [e]
    have := combine_closed m [fun a : Lf A V σ × Option (Shown σ) => a.2.map Lf.repr,
      fun a => if isArray a.1 then Option.none else some a.1] (by simp)
    simp only [List.map_cons, List.map_nil] at this
    rw [this]
    congr 1
    rw [← withNones_some (m := m) (f := fun a => (a.2.map Lf.repr).getD a.1)]
    congr 1
    apply map_congr_leaves
    intro a ha
    have := hlab a ha
    obtain ⟨a, l⟩ := a
    simp only at this
    cases l with
    | none => simp only [Option.isSome_none] at this; simp [← this]
    | some s => simp
  · refine ⟨?_, ?_⟩
    · rw [sameStructure_iff, shape_map, hm1]
    · rw [leaves_map, hm2, annotate_relabel]

theorem too_many (d : Def K) (xs ys : List (PT K α)) (h : ys.length = d.leaves.length) (hx : xs ≠ []) :
    treeUnflatten d (xs ++ ys) = .error .treeError := by
  have hle : d.leaves.length ≤ (xs ++ ys).length := by rw [List.length_append, h]; omega
  obtain ⟨c, hc1, hc2⟩ := exists_fill (β := PT K α) d ((xs ++ ys).take d.leaves.length) (by rw [List.length_take]; omega)
  have hd : d.shape = d := by
    have : d.map (fun _ => ()) = d.map fun x => x := map_congr_leaves (fun _ _ => rfl)
    rw [shape, this, map_id_fun]
  have hf := fill_shape c ((xs ++ ys).drop d.leaves.length)
  rw [hc1, hd, hc2, List.take_append_drop] at hf
  simp only [treeUnflatten, bind, Except.bind, hf]
  rw [if_neg]
  intro h0
  have : ((xs ++ ys).drop d.leaves.length).length = 0 := by
    rw [List.isEmpty_iff] at h0
    rw [h0]; rfl
  rw [List.length_drop, List.length_append, h] at this
  have : xs.length = 0 := by omega
  exact hx (List.eq_nil_of_length_eq_zero this)

theorem inspectLoop_cons {e : Entry K A V σ} {x : PT K (Lf A V σ)} {seen : Nat → Shown σ} (h : Rep e x seen) (es : List (Entry K A V σ))
    (acc : List (PT K (Lf A V σ))) :
    inspectLoop (e :: es) acc =
      match treeUnflatten (dyn x).shape (acc ++ labels x seen) with
      | .error err => ([], some err)
      | .ok t => match combine noLeaf [t, stat x] with
        | .error err => ([], some err)
        | .ok tree => (tree :: (inspectLoop es (acc ++ labels x seen)).1, (inspectLoop es (acc ++ labels x seen)).2) := by
  have hl : (List.range e.treedef.leaves.length).map (fun j =>
      (PT.leaf (Lf.repr (shownOf (getItem j e.seen))) : PT K (Lf A V σ))) = labels x seen := by
    rw [h.treedef, dyn_leaves_shape, labels]
    apply List.map_congr_left
    intro j _
    rw [h.seen]
  simp only [inspectLoop, hl]
  rw [h.treedef, h.static]
  cases treeUnflatten (dyn x).shape (acc ++ labels x seen) with
  | error e => rfl
  | ok t => cases combine noLeaf [t, stat x] <;> rfl

/-! ### The loop -/

/-- The entries up to the first with an array. -/
def upto : List (PT K (Lf A V σ)) → List (PT K (Lf A V σ))
  | [] => []
  | x :: xs => if (x.leaves.filter isArray).length = 0 then x :: upto xs else [x]

/-- Positionwise relation between lists. -/
inductive All2 {X Y : Type} (R : X → Y → Prop) : List X → List Y → Prop where
  | nil : All2 R [] []
  | cons {x y xs ys} : R x y → All2 R xs ys → All2 R (x :: xs) (y :: ys)

theorem loop_eq : ∀ {es : List (Entry K A V σ)} {xs : List (PT K (Lf A V σ) × (Nat → Shown σ))},
    All2 (fun e x => Rep e x.1 x.2) es xs →
    ∃ ps err, inspectLoop es [] = (ps, err) ∧ All2 (fun x y => ShownAs x.2 x.1 y) (xs.take (upto (xs.map (·.1))).length) ps ∧
      err = if (upto (xs.map (·.1))).length = xs.length then Option.none else some .treeError
  | _, _, .nil => ⟨[], Option.none, rfl, .nil, rfl⟩
  | _, _, .cons (xs := es) (ys := xs) (x := e) (y := x) h hs => by
    obtain ⟨t, y, h1, h2, h3⟩ := entry_ok x.1 x.2
    rw [inspectLoop_cons h, List.nil_append, h1]
    simp only [h2]
    by_cases h0 : (x.1.leaves.filter isArray).length = 0
    · have hnil : labels x.1 x.2 = [] := by rw [labels, h0]; rfl
      obtain ⟨ps, err, g1, g2, g3⟩ := loop_eq hs
      refine ⟨y :: ps, err, by rw [hnil, g1], ?_, ?_⟩
      · simp only [List.map_cons, upto, h0, if_true, List.length_cons, List.take_succ_cons]
        exact .cons h3 g2
      · rw [g3]
        simp [upto, h0]
    · have hup : upto ((x :: xs).map (·.1)) = [x.1] := by simp only [List.map_cons, upto, h0, if_false]
      rw [hup]
      cases hs with
      | nil => exact ⟨[y], Option.none, rfl, .cons h3 .nil, rfl⟩
      | cons h' hs' =>
        rename_i e' x' es' xs'
        refine ⟨[y], some .treeError, ?_, .cons h3 .nil, by simp⟩
        rw [inspectLoop_cons h', too_many _ _ _ (by rw [dyn_leaves_shape, labels, List.length_map, List.length_range])]
        intro hnil
        apply h0
        have := congrArg List.length hnil
        simpa [labels] using this

/-! ### Histories -/

theorem lookup_insert {E : Type} (name name' : N) (tag : Nat) (e : E) : ∀ s : List (N × List (Nat × E)),
    lookup name' (insert name tag e s) = if name = name' then lookup name' s ++ [(tag, e)] else lookup name' s
  | [] => by
    simp only [insert, lookup]
    split <;> rfl
  | (n, es) :: rest => by
    simp only [insert]
    by_cases hn : n = name
    · rw [if_pos hn]
      simp only [lookup]
      subst hn
      split <;> simp_all
    · rw [if_neg hn]
      simp only [lookup, lookup_insert name name' tag e rest]
      by_cases hn' : n = name'
      · subst hn'
        simp [Ne.symm hn]
      · simp [hn']

theorem touch_ok {E : Type} {name : N} {tag : Nat} {f : E → E} : ∀ {s s' : List (N × List (Nat × E))}, touch name tag f s = .ok s' →
    (∃ e, (tag, e) ∈ lookup name s) ∧
    ∀ name', lookup name' s' = if name = name' then (lookup name' s).map fun e => if e.1 = tag then (e.1, f e.2) else e else lookup name' s
  | [], s', h => by cases h
  | (n, es) :: rest, s', h => by
    simp only [touch] at h
    by_cases hn : n = name
    · rw [if_pos hn] at h
      split at h
      · rename_i ha
        cases h
        subst hn
        refine ⟨?_, ?_⟩
        · obtain ⟨e, he, ht⟩ := List.any_eq_true.1 ha
          simp only [beq_iff_eq] at ht
          exact ⟨e.2, by simp only [lookup, if_true]; rw [← ht]; exact he⟩
        · intro name'
          simp only [lookup]
          split <;> rfl
      · cases h
    · rw [if_neg hn] at h
      simp only [bind, Except.bind] at h
      cases hr : touch name tag f rest with
      | error e => rw [hr] at h; cases h
      | ok rest' =>
        rw [hr] at h
        cases h
        obtain ⟨⟨e, he⟩, h2⟩ := touch_ok hr
        refine ⟨⟨e, by simp only [lookup, if_neg hn]; exact he⟩, ?_⟩
        intro name'
        simp only [lookup]
        by_cases hn' : n = name'
        · subst hn'
          simp [Ne.symm hn]
        · rw [if_neg hn', if_neg hn', h2 name']

theorem getItem_setItem {σ : Type} (i j : Nat) (v : σ) : ∀ d : List (Nat × σ),
    getItem j (setItem i v d) = if i = j then some v else getItem j d
  | [] => by simp only [setItem, getItem]
  | (k, w) :: d => by
    simp only [setItem]
    by_cases hk : k = i
    · subst hk
      simp only [if_true, getItem]
      split <;> rfl
    · rw [if_neg hk]
      simp only [getItem, getItem_setItem i j v d]
      by_cases hkj : k = j
      · subst hkj
        simp [Ne.symm hk]
      · simp [hkj]

theorem All2.snoc {X Y : Type} {R : X → Y → Prop} {xs : List X} {ys : List Y} (h : All2 R xs ys) {x : X} {y : Y} (hr : R x y) :
    All2 R (xs ++ [x]) (ys ++ [y]) := by
  induction h with
  | nil => exact .cons hr .nil
  | cons h _ ih => exact .cons h ih

theorem All2.imp {X Y : Type} {R S : X → Y → Prop} {xs : List X} {ys : List Y} (h : All2 R xs ys)
    (H : ∀ x ∈ xs, ∀ y ∈ ys, R x y → S x y) : All2 S xs ys := by
  induction h with
  | nil => exact .nil
  | cons h _ ih => exact .cons (H _ (by simp) _ (by simp) h) (ih fun x hx y hy => H x (by simp [hx]) y (by simp [hy]))

theorem All2.map_left {X X' Y : Type} {R : X' → Y → Prop} (f : X → X') {xs : List X} {ys : List Y} (h : All2 (fun x y => R (f x) y) xs ys) :
    All2 R (xs.map f) ys := by
  induction h with
  | nil => exact .nil
  | cons h _ ih => exact .cons h ih

theorem All2.map_right {X Y Y' : Type} {R : X → Y' → Prop} (f : Y → Y') {xs : List X} {ys : List Y} (h : All2 (fun x y => R x (f y)) xs ys) :
    All2 R xs (ys.map f) := by
  induction h with
  | nil => exact .nil
  | cons h _ ih => exact .cons h ih

theorem All2.length {X Y : Type} {R : X → Y → Prop} {xs : List X} {ys : List Y} (h : All2 R xs ys) : xs.length = ys.length := by
  induction h with
  | nil => rfl
  | cons _ _ ih => simp [ih]

theorem All2.get {X Y : Type} {R : X → Y → Prop} {xs : List X} {ys : List Y} (h : All2 R xs ys) {i : Nat} {x : X} (hi : xs[i]? = some x) :
    ∃ y, ys[i]? = some y ∧ R x y := by
  induction h generalizing i with
  | nil => simp at hi
  | cons h _ ih =>
    cases i with
    | zero => simp only [List.getElem?_cons_zero, Option.some.injEq] at hi; subst hi; exact ⟨_, rfl, h⟩
    | succ i => simp only [List.getElem?_cons_succ] at hi ⊢; exact ih hi

theorem All2.mem_left {X Y : Type} {R : X → Y → Prop} {xs : List X} {ys : List Y} (h : All2 R xs ys) {x : X} (hx : x ∈ xs) :
    ∃ y ∈ ys, R x y := by
  induction h with
  | nil => cases hx
  | cons h _ ih =>
    rcases List.mem_cons.1 hx with rfl | hx
    · exact ⟨_, by simp, h⟩
    · obtain ⟨y, hy, hr⟩ := ih hx
      exact ⟨y, by simp [hy], hr⟩

theorem callsOf_lt : ∀ {h : List (Ev N K A V σ)} {name : N} {c : Nat × PT K (Lf A V σ)}, c ∈ callsOf name h → c.1 < calls h
  | .store x n :: h, name, c, hc => by
    simp only [callsOf] at hc
    simp only [calls]
    split at hc
    · rcases List.mem_append.1 hc with hc | hc
      · exact Nat.lt_succ_of_lt (callsOf_lt hc)
      · simp only [List.mem_singleton] at hc
        subst hc
        exact Nat.lt_succ_self _
    · exact Nat.lt_succ_of_lt (callsOf_lt hc)
  | .ran _ _ _ _ :: h, name, c, hc => callsOf_lt (h := h) hc

theorem callsOf_name : ∀ {h : List (Ev N K A V σ)} {n1 n2 : N} {c1 c2 : Nat × PT K (Lf A V σ)}, c1 ∈ callsOf n1 h → c2 ∈ callsOf n2 h →
    c1.1 = c2.1 → n1 = n2
  | .store x n :: h, n1, n2, c1, c2, h1, h2, he => by
    simp only [callsOf] at h1 h2
    have key : ∀ {n' : N} {c : Nat × PT K (Lf A V σ)}, c ∈ (if n = n' then callsOf n' h ++ [(calls h, x)] else callsOf n' h) →
        c ∈ callsOf n' h ∨ (n = n' ∧ c.1 = calls h) := by
      intro n' c hc
      split at hc
      · rename_i hn
        rcases List.mem_append.1 hc with hc | hc
        · exact .inl hc
        · simp only [List.mem_singleton] at hc
          exact .inr ⟨hn, by rw [hc]⟩
      · exact .inl hc
    rcases key h1 with k1 | ⟨k1, k1'⟩ <;> rcases key h2 with k2 | ⟨k2, k2'⟩
    · exact callsOf_name k1 k2 he
    · exact absurd (callsOf_lt k1) (by omega)
    · exact absurd (callsOf_lt k2) (by omega)
    · rw [← k1, ← k2]
  | .ran _ _ _ _ :: h, n1, n2, c1, c2, h1, h2, he => callsOf_name (h := h) h1 h2 he

/-- The state after a history. -/
theorem exec_inv : ∀ {h : List (Ev N K A V σ)} {w : World N K A V σ}, exec h = .ok w →
    w.tags = calls h ∧ (∀ tag j, calls h ≤ tag → lastSeen tag j h = .dced) ∧
    ∀ name, All2 (fun e c => e.1 = c.1 ∧ Rep e.2 c.2 (fun j => lastSeen c.1 j h)) (lookup name w.store) (callsOf name h)
  | [], w, hw => by
    cases hw
    exact ⟨rfl, fun _ _ _ => rfl, fun _ => .nil⟩
  | .store x n :: h, w, hw => by
    simp only [exec, bind, Except.bind] at hw
    cases hh : exec h with
    | error e => rw [hh] at hw; cases hw
    | ok w0 =>
      rw [hh] at hw
      simp only [storeDce_eq, pure, Except.pure] at hw
      cases hw
      obtain ⟨i1, i2, i3⟩ := exec_inv hh
      refine ⟨by simp [calls, i1], fun tag j ht => i2 tag j (Nat.le_of_succ_le ht), ?_⟩
      intro name
      rw [lookup_insert]
      simp only [callsOf]
      by_cases hn : n = name
      · rw [if_pos hn, if_pos hn]
        refine All2.snoc (i3 name) ⟨i1, rfl, rfl, ?_⟩
        intro j
        exact i2 _ j (Nat.le_refl _)
      · rw [if_neg hn, if_neg hn]
        exact i3 name
  | .ran n tag i s :: h, w, hw => by
    simp only [exec, bind, Except.bind] at hw
    cases hh : exec h with
    | error e => rw [hh] at hw; cases hw
    | ok w0 =>
      rw [hh] at hw
      simp only [registerAlive, bind, Except.bind] at hw
      obtain ⟨i1, i2, i3⟩ := exec_inv hh
      cases ht : touch n tag (fun e : Entry K A V σ => { e with seen := setItem i s e.seen }) w0.store with
      | error e => rw [ht] at hw; cases hw
      | ok s' =>
        rw [ht] at hw
        cases hw
        obtain ⟨⟨e, he⟩, ht2⟩ := touch_ok ht
        obtain ⟨c, hc, hct, _⟩ := All2.mem_left (i3 n) he
        simp only at hct
        refine ⟨i1, ?_, ?_⟩
        · intro tag' j hle
          have := callsOf_lt hc
          simp only [calls] at hle
          simp only [lastSeen]
          rw [if_neg (by omega)]
          exact i2 tag' j hle
        · intro name
          rw [ht2]
          simp only [callsOf]
          by_cases hn : n = name
          · rw [if_pos hn]
            subst hn
            apply All2.map_left
            refine All2.imp (i3 n) ?_
            rintro e' _ c' _ ⟨h1, h2⟩
            by_cases het : e'.1 = tag
            · rw [if_pos het]
              refine ⟨h1, h2.treedef, h2.static, ?_⟩
              intro j
              simp only [lastSeen, getItem_setItem]
              by_cases hij : i = j
              · simp [hij, ← h1, het, shownOf]
              · simp only [hij, and_false, if_false]
                exact h2.seen j
            · rw [if_neg het]
              refine ⟨h1, h2.treedef, h2.static, ?_⟩
              intro j
              simp only [lastSeen]
              rw [if_neg (by rw [← h1]; exact fun hh => het hh.1.symm)]
              exact h2.seen j
          · rw [if_neg hn]
            refine All2.imp (i3 name) ?_
            rintro e' _ c' hc' ⟨h1, h2⟩
            refine ⟨h1, h2.treedef, h2.static, ?_⟩
            intro j
            simp only [lastSeen]
            rw [if_neg]
            · exact h2.seen j
            · rintro ⟨hh, _⟩
              exact hn (callsOf_name hc hc' (by rw [← hct, hh]))

/-! ### `inspect_dce` -/

theorem hasArray_iff (x : PT K (Lf A V σ)) : HasArray x ↔ (x.leaves.filter isArray).length ≠ 0 := by
  constructor
  · rintro ⟨a, ha⟩ h0
    have : Lf.arr a ∈ x.leaves.filter isArray := List.mem_filter.2 ⟨ha, rfl⟩
    rw [List.eq_nil_of_length_eq_zero h0] at this
    cases this
  · intro h
    cases hl : x.leaves.filter isArray with
    | nil => rw [hl] at h; exact absurd rfl h
    | cons a l =>
      have : a ∈ x.leaves.filter isArray := by rw [hl]; simp
      obtain ⟨h1, h2⟩ := List.mem_filter.1 this
      cases a with
      | arr a => exact ⟨a, h1⟩
      | val v => cases h2
      | repr s => cases h2

theorem upto_spec : ∀ (xs : List (PT K (Lf A V σ))),
    ((∀ i x, xs[i]? = some x → HasArray x → i + 1 = xs.length) → (upto xs).length = xs.length) ∧
    (∀ i x, xs[i]? = some x → HasArray x → (∀ j y, j < i → xs[j]? = some y → ¬ HasArray y) → (upto xs).length = i + 1)
  | [] => ⟨fun _ => rfl, fun i x h => by simp at h⟩
  | x :: xs => by
    obtain ⟨h1, h2⟩ := upto_spec xs
    simp only [upto]
    by_cases h0 : (x.leaves.filter isArray).length = 0
    · rw [if_pos h0]
      constructor
      · intro H
        simp only [List.length_cons]
        rw [h1]
        intro i y hy ha
        have := H (i + 1) y hy ha
        simpa using this
      · intro i y hi ha H
        cases i with
        | zero =>
          simp only [List.getElem?_cons_zero, Option.some.injEq] at hi
          subst hi
          exact absurd h0 ((hasArray_iff x).1 ha)
        | succ i =>
          simp only [List.length_cons]
          rw [h2 i y hi ha]
          intro j z hj hz
          exact H (j + 1) z (by omega) hz
    · rw [if_neg h0]
      constructor
      · intro H
        have := H 0 x rfl ((hasArray_iff x).2 h0)
        simpa using this
      · intro i y hi ha H
        cases i with
        | zero => rfl
        | succ i => exact absurd ((hasArray_iff x).2 h0) (H 0 x (Nat.succ_pos _) rfl)

theorem inspect_eq {h : List (Ev N K A V σ)} {w : World N K A V σ} (hw : exec h = .ok w) (name : N) :
    ∃ ps err, inspectDce false name w = .ok ((callsOf name h).length, ps, err) ∧
      ps.length = (upto ((callsOf name h).map (·.2))).length ∧
      (∀ (i : Nat) (c : Nat × PT K (Lf A V σ)), i < ps.length → (callsOf name h)[i]? = some c →
        ∃ y, ps[i]? = some y ∧ ShownAs (fun j => lastSeen c.1 j h) c.2 y) ∧
      err = if ps.length = (callsOf name h).length then Option.none else some .treeError := by
  obtain ⟨_, _, i3⟩ := exec_inv hw
  have hall := i3 name
  have hlen := hall.length
  have h1 : All2 (fun (e : Entry K A V σ) (x : PT K (Lf A V σ) × (Nat → Shown σ)) => Rep e x.1 x.2) ((lookup name w.store).map (·.2))
      ((callsOf name h).map fun c => (c.2, fun j => lastSeen c.1 j h)) := by
    apply All2.map_left
    apply All2.map_right
    exact hall.imp (fun _ _ _ _ hh => hh.2)
  obtain ⟨ps, err, g1, g2, g3⟩ := loop_eq h1
  have hm : ((callsOf name h).map fun c => (c.2, fun j => lastSeen c.1 j h)).map (·.1) = (callsOf name h).map (·.2) := by
    rw [List.map_map]; rfl
  rw [hm] at g2 g3
  rw [List.length_map] at g3
  have hup : ∀ xs : List (PT K (Lf A V σ)), (upto xs).length ≤ xs.length := by
    intro xs
    induction xs with
    | nil => exact Nat.le_refl _
    | cons x xs ih => simp only [upto]; split <;> simp [ih]
  have hpl : ps.length = (upto ((callsOf name h).map (·.2))).length := by
    have := g2.length
    rw [List.length_take, List.length_map] at this
    have hh := hup ((callsOf name h).map (·.2))
    rw [List.length_map] at hh
    omega
  refine ⟨ps, err, ?_, hpl, ?_, ?_⟩
  · simp only [inspectDce, hlen, g1]
    rfl
  · intro i c hi hc
    have := g2.get (i := i) (x := (c.2, fun j => lastSeen c.1 j h)) (by
      rw [List.getElem?_take_of_lt (by omega), List.getElem?_map, hc]; rfl)
    exact this
  · rw [hpl]; exact g3

/-- **`inspect_dce` shows every call under its name** with every array replaced by what was last seen of it, provided no call other than the
last has an array. -/
theorem inspect_dce_partial {h : List (Ev N K A V σ)} {w : World N K A V σ} (hw : exec h = .ok w) (name : N)
    (H : ∀ (i : Nat) (c : Nat × PT K (Lf A V σ)), (callsOf name h)[i]? = some c → HasArray c.2 → i + 1 = (callsOf name h).length) :
    ∃ ps, inspectDce false name w = .ok ((callsOf name h).length, ps, Option.none) ∧ ps.length = (callsOf name h).length ∧
      ∀ (i : Nat) (c : Nat × PT K (Lf A V σ)), (callsOf name h)[i]? = some c → ∃ y, ps[i]? = some y ∧ ShownAs (fun j => lastSeen c.1 j h) c.2 y := by
  obtain ⟨ps, err, h1, h2, h3, h4⟩ := inspect_eq hw name
  have hl : ps.length = (callsOf name h).length := by
    rw [h2, (upto_spec _).1, List.length_map]
    intro i x hx ha
    rw [List.getElem?_map, Option.map_eq_some_iff] at hx
    obtain ⟨c, hc, rfl⟩ := hx
    rw [List.length_map]
    exact H i c hc ha
  rw [if_pos hl] at h4
  subst h4
  refine ⟨ps, h1, hl, ?_⟩
  intro i c hc
  exact h3 i c (by rw [hl]; exact (List.getElem?_eq_some_iff.1 hc).1) hc

/-- Otherwise it shows the calls up to the first with an array and raises a `ValueError`. -/
theorem inspect_dce_raises {h : List (Ev N K A V σ)} {w : World N K A V σ} (hw : exec h = .ok w) (name : N) {i : Nat}
    {c : Nat × PT K (Lf A V σ)} (hi : (callsOf name h)[i]? = some c) (ha : HasArray c.2)
    (hfirst : ∀ (j : Nat) (d : Nat × PT K (Lf A V σ)), j < i → (callsOf name h)[j]? = some d → ¬ HasArray d.2) (hlast : i + 1 < (callsOf name h).length) :
    ∃ ps, inspectDce false name w = .ok ((callsOf name h).length, ps, some .treeError) ∧ ps.length = i + 1 ∧
      ∀ (j : Nat) (d : Nat × PT K (Lf A V σ)), j ≤ i → (callsOf name h)[j]? = some d → ∃ y, ps[j]? = some y ∧ ShownAs (fun j => lastSeen d.1 j h) d.2 y := by
  obtain ⟨ps, err, h1, h2, h3, h4⟩ := inspect_eq hw name
  have hl : ps.length = i + 1 := by
    rw [h2]
    refine (upto_spec _).2 i c.2 (by rw [List.getElem?_map, hi]; rfl) ha ?_
    intro j y hj hy
    rw [List.getElem?_map, Option.map_eq_some_iff] at hy
    obtain ⟨d, hd, rfl⟩ := hy
    exact hfirst j d hj hd
  rw [if_neg (by omega)] at h4
  subst h4
  exact ⟨ps, h1, hl, fun j d hj hd => h3 j d (by omega) hd⟩

/-- Inside of jit, `inspect_dce` raises. -/
theorem inspect_dce_jit (name : N) (w : World N K A V σ) : inspectDce true name w = .error .runtimeError := rfl

/-- A callback of a call that was made never fails. -/
theorem callback_ok {h : List (Ev N K A V σ)} {w : World N K A V σ} (hw : exec h = .ok w) {name : N} {c : Nat × PT K (Lf A V σ)}
    (hc : c ∈ callsOf name h) (i : Nat) (s : σ) : ∃ w', exec (.ran name c.1 i s :: h) = .ok w' := by
  obtain ⟨_, _, i3⟩ := exec_inv hw
  have key : ∀ (st : List (N × List (Nat × Entry K A V σ))) (f : Entry K A V σ → Entry K A V σ), (∃ e, (c.1, e) ∈ lookup name st) →
      ∃ s', touch name c.1 f st = .ok s' := by
    intro st f
    induction st with
    | nil => rintro ⟨e, he⟩; cases he
    | cons p rest ih =>
      obtain ⟨n, es⟩ := p
      rintro ⟨e, he⟩
      simp only [lookup] at he
      simp only [touch]
      by_cases hn : n = name
      · rw [if_pos hn] at he ⊢
        rw [if_pos (List.any_eq_true.2 ⟨_, he, by simp⟩)]
        exact ⟨_, rfl⟩
      · rw [if_neg hn] at he ⊢
        obtain ⟨s', hs'⟩ := ih ⟨e, he⟩
        rw [hs']
        exact ⟨_, rfl⟩
  have hex : ∃ e, (c.1, e) ∈ lookup name w.store := by
    have hall := i3 name
    generalize lookup name w.store = es at hall
    generalize callsOf name h = cs at hall hc
    induction hall with
    | nil => cases hc
    | cons hr hrest ih =>
      rename_i e c' es' cs'
      rcases List.mem_cons.1 hc with rfl | hc
      · exact ⟨e.2, by simp [← hr.1]⟩
      · obtain ⟨e, he⟩ := ih hc
        exact ⟨e, by simp [he]⟩
  obtain ⟨s', hs'⟩ := key w.store (fun e => { e with seen := setItem i s e.seen }) hex
  simp only [exec, bind, Except.bind, hw, registerAlive, hs']
  exact ⟨_, rfl⟩

/-! ### Concrete cases -/

/-- Two calls under one name, the first with an array: the second is not shown. -/
theorem inspect_dce_two_calls : ∃ (w : World Unit Unit Nat Nat Nat),
    exec [.ran () 0 0 7, .store (.leaf (.arr 1)) (), .store (.node () [.leaf (.arr 2), .leaf (.val 5)]) ()] = .ok w ∧
    inspectDce false () w = .ok (2, [.node () [.leaf (.repr (.alive 7)), .leaf (.val 5)]], some .treeError) := by
  refine ⟨_, rfl, rfl⟩

/-- The example in the documentation: one call, whose second array is removed. -/
theorem inspect_dce_doc : ∃ (w : World Unit Unit Nat Nat Nat),
    exec [.ran () 0 0 7, .store (.node () [.leaf (.arr 1), .leaf (.arr 2)]) ()] = .ok w ∧
    inspectDce false () w = .ok (1, [.node () [.leaf (.repr (.alive 7)), .leaf (.repr .dced)]], Option.none) := by
  refine ⟨_, rfl, rfl⟩

end Dce
end Verif
