import Verif.Callback.Model
import Verif.AD.Lemmas
import Verif.AD.Grad
import Verif.EvalShape.Props

/-! # C73: `filter_pure_callback` returns what the callback returns -/

namespace Verif
namespace Callback

open PT Filters

variable {K A S O : Type}

/-! ## What is claimed -/

/-- Nothing that `tree_equal` compares: `None`, or a leaf that is filtered out. -/
def Hole (q : Leaf A S O → Bool) : PT K (Leaf A S O) → Prop
  | .none => True
  | .leaf a => q a = true
  | .node _ _ => False

mutual
/-- Output and declaration agree, but for arrays: the same containers, and equal objects. -/
inductive Agree (w : World A S O) : PT K (Leaf A S O) → PT K (Leaf A S O) → Prop
  | hole {x y} : Hole Leaf.isArray x → Hole Leaf.isStruct y → Agree w x y
  | other {o o'} : w.eq o o' = true → Agree w (.leaf (.other o)) (.leaf (.other o'))
  | node {k xs ys} : AgreeL w xs ys → Agree w (.node k xs) (.node k ys)
/-- ... on lists of children. -/
inductive AgreeL (w : World A S O) : List (PT K (Leaf A S O)) → List (PT K (Leaf A S O)) → Prop
  | lnil : AgreeL w [] []
  | lcons {x y xs ys} : Agree w x y → AgreeL w xs ys → AgreeL w (x :: xs) (y :: ys)
end

/-- A leaf of the output is as a leaf of the declaration says. -/
def FitsLeaf (w : World A S O) : Leaf A S O → Leaf A S O → Prop
  | .jax a, .struct s => w.aval a = s
  | .jax a, .jax b => w.aval a = w.aval b
  | .jax a, .numpy b => w.aval a = w.aval b
  | .numpy a, .struct s => w.aval a = s
  | .numpy a, .jax b => w.aval a = w.aval b
  | .numpy a, .numpy b => w.aval a = w.aval b
  | .other o, .other o' => w.eq o o' = true
  | _, _ => False

/-- The output is as declared. -/
structure Fits (w : World A S O) (out result : PT K (Leaf A S O)) : Prop where
  same : SameStructure out result
  leaf : ∀ π a b, out.leafAt? π = some a → result.leafAt? π = some b → FitsLeaf w a b

/-- The array a leaf is. -/
def array? : Leaf A S O → Option A
  | .jax a => some a
  | .numpy a => some a
  | _ => Option.none

/-- The shape and dtype a leaf declares. -/
def declares? (w : World A S O) : Leaf A S O → Option S
  | .jax a => some (w.aval a)
  | .numpy a => some (w.aval a)
  | .struct s => some s
  | .other _ => Option.none

/-- The arrays among the leaves, from the left. -/
def arrays (t : PT K (Leaf A S O)) : List A := t.leaves.filterMap array?

/-- The shapes and dtypes that are declared, from the left. -/
def declared (w : World A S O) (t : PT K (Leaf A S O)) : List S :=
  t.leaves.filterMap (declares? w)

/-- `y` is the declaration with arrays in the places of what declares one, and everything else as it is. -/
structure Filled (result : PT K (Leaf A S O)) (as : List A) (y : PT K (Leaf A S O)) : Prop where
  same : SameStructure y result
  other : ∀ π o, result.leafAt? π = some (.other o) → y.leafAt? π = some (.other o)
  array : ∀ π l, result.leafAt? π = some l → (∀ o, l ≠ .other o) → ∃ a, y.leafAt? π = some (.jax a)
  arrays : arrays y = as

/-- The argument `y` that the callback gets for the argument `x`: a JAX array with the value of an array, or a NumPy array with
it, and everything else as it is. -/
def Given (w : World A S O) : Leaf A S O → Leaf A S O → Prop
  | .jax a, y => y = if w.givesNumpy then .numpy a else .jax a
  | .numpy a, y => y = if w.givesNumpy then .numpy (w.canon a) else .jax (w.canon a)
  | x, y => y = x

/-- The arguments that the callback gets. -/
structure GivenAll (w : World A S O) (args args' : PT K (Leaf A S O)) : Prop where
  same : SameStructure args' args
  leaf : ∀ π x y, args.leafAt? π = some x → args'.leafAt? π = some y → Given w x y

/-! ## `tree_equal` of the static parts -/

/-- What is compared. -/
def static (q : Leaf A S O → Bool) (t : PT K (Leaf A S O)) : PT K (Leaf A S O) := withNones (t.map (AD.drop q))

theorem static_node (q : Leaf A S O → Bool) (k : K) (cs : List (PT K (Leaf A S O))) :
    static q (.node k cs) = .node k (cs.map (static q)) := by
  simp only [static, withNones, PT.map, mapL_eq, join, joinL_eq, List.map_map]
  rfl

theorem static_leaf (q : Leaf A S O → Bool) (a : Leaf A S O) :
    static (K := K) q (.leaf a) = if q a then .none else .leaf a := by
  simp only [static, withNones, PT.map, join, AD.drop]
  cases q a <;> rfl

theorem static_none (q : Leaf A S O → Bool) : static (K := K) q .none = .none := rfl

theorem static_hole {q : Leaf A S O → Bool} {t : PT K (Leaf A S O)} : static q t = .none ↔ Hole q t := by
  cases t with
  | leaf a => rw [static_leaf, Hole]; cases q a <;> simp
  | none => simp [static_none, Hole]
  | node k cs => simp [static_node, Hole]

variable [DecidableEq K]

theorem treeEq_iff (w : World A S O) (t u : PT K (Leaf A S O)) : treeEq w t u = true ↔
    ∃ m : PT K (Leaf A S O × Leaf A S O), m.map Prod.fst = t ∧ m.map Prod.snd = u ∧ ∀ p ∈ m.leaves, leafEq w p.1 p.2 = true := by
  simp only [treeEq, Bool.and_eq_true, decide_eq_true_eq, List.all_eq_true]
  constructor
  · rintro ⟨h1, h2⟩
    obtain ⟨m, rfl, rfl⟩ := AD.exists_pair h1
    refine ⟨m, rfl, rfl, fun p hp => h2 p ?_⟩
    rw [leaves_map, leaves_map, List.zip_map']
    simpa using hp
  · rintro ⟨m, rfl, rfl, h⟩
    refine ⟨by rw [shape_map, shape_map], fun p hp => ?_⟩
    rw [leaves_map, leaves_map, List.zip_map'] at hp
    exact h p (by simpa using hp)

omit [DecidableEq K] in
theorem agree_pair {w : World A S O} {out result : PT K (Leaf A S O)} (h : Agree w out result) :
    ∃ m : PT K (Leaf A S O × Leaf A S O), m.map Prod.fst = static Leaf.isArray out ∧
      m.map Prod.snd = static Leaf.isStruct result ∧ ∀ p ∈ m.leaves, leafEq w p.1 p.2 = true := by
  refine Agree.rec (motive_1 := fun out result _ => ∃ m : PT K (Leaf A S O × Leaf A S O),
      m.map Prod.fst = static Leaf.isArray out ∧ m.map Prod.snd = static Leaf.isStruct result ∧
        ∀ p ∈ m.leaves, leafEq w p.1 p.2 = true)
    (motive_2 := fun xs ys _ => ∃ ms : List (PT K (Leaf A S O × Leaf A S O)),
      ms.map (PT.map Prod.fst) = xs.map (static Leaf.isArray) ∧ ms.map (PT.map Prod.snd) = ys.map (static Leaf.isStruct) ∧
        ∀ m ∈ ms, ∀ p ∈ m.leaves, leafEq w p.1 p.2 = true) ?_ ?_ ?_ ?_ ?_ h
  · intro x y hx hy
    refine ⟨.none, ?_, ?_, by simp [leaves]⟩
    · rw [static_hole.2 hx]; rfl
    · rw [static_hole.2 hy]; rfl
  · intro o o' he
    refine ⟨.leaf (.other o, .other o'), ?_, ?_, ?_⟩
    · rw [static_leaf]; rfl
    · rw [static_leaf]; rfl
    · simp [leaves, leafEq, he]
  · rintro k xs ys - ⟨ms, h1, h2, h3⟩
    refine ⟨.node k ms, ?_, ?_, ?_⟩
    · rw [PT.map, mapL_eq, h1, static_node]
    · rw [PT.map, mapL_eq, h2, static_node]
    · intro p hp
      simp only [leaves, leavesL_eq, List.mem_flatMap] at hp
      obtain ⟨m, hm, hp⟩ := hp
      exact h3 m hm p hp
  · exact ⟨[], rfl, rfl, by simp⟩
  · rintro x y xs ys - - ⟨m, h1, h2, h3⟩ ⟨ms, e1, e2, e3⟩
    refine ⟨m :: ms, by simp [h1, e1], by simp [h2, e2], ?_⟩
    intro m' hm'
    rcases List.mem_cons.1 hm' with rfl | hm'
    · exact h3
    · exact e3 m' hm'

omit [DecidableEq K] in
theorem pair_agree {w : World A S O} (m : PT K (Leaf A S O × Leaf A S O)) (out result : PT K (Leaf A S O))
    (h1 : m.map Prod.fst = static Leaf.isArray out) (h2 : m.map Prod.snd = static Leaf.isStruct result)
    (h3 : ∀ p ∈ m.leaves, leafEq w p.1 p.2 = true) : Agree w out result := by
  induction m using PT.ind generalizing out result with
  | leaf p =>
    obtain ⟨a, b⟩ := p
    have he := h3 (a, b) (by simp [leaves])
    have ho : out = .leaf a := by
      cases out with
      | leaf a' => rw [static_leaf] at h1; cases hq : a'.isArray <;> simp [hq, PT.map] at h1; rw [h1]
      | none => simp [static_none, PT.map] at h1
      | node k cs => simp [static_node, PT.map] at h1
    have hr : result = .leaf b := by
      cases result with
      | leaf a' => rw [static_leaf] at h2; cases hq : a'.isStruct <;> simp [hq, PT.map] at h2; rw [h2]
      | none => simp [static_none, PT.map] at h2
      | node k cs => simp [static_node, PT.map] at h2
    subst ho hr
    cases a <;> cases b <;> simp [leafEq] at he
    exact .other he
  | none =>
    exact .hole (static_hole.1 h1.symm) (static_hole.1 h2.symm)
  | node k ms ih =>
    cases out with
    | leaf a => rw [static_leaf] at h1; cases hq : a.isArray <;> simp [hq, PT.map] at h1
    | none => simp [static_none, PT.map] at h1
    | node k1 xs =>
      cases result with
      | leaf a => rw [static_leaf] at h2; cases hq : a.isStruct <;> simp [hq, PT.map] at h2
      | none => simp [static_none, PT.map] at h2
      | node k2 ys =>
        rw [static_node, PT.map, mapL_eq] at h1 h2
        simp only [PT.node.injEq] at h1 h2
        obtain ⟨rfl, h1⟩ := h1
        obtain ⟨rfl, h2⟩ := h2
        refine .node ?_
        have h3' : ∀ m ∈ ms, ∀ p ∈ m.leaves, leafEq w p.1 p.2 = true := by
          intro m hm p hp
          refine h3 p ?_
          simp only [leaves, leavesL_eq, List.mem_flatMap]
          exact ⟨m, hm, hp⟩
        clear h3
        induction ms generalizing xs ys with
        | nil =>
          cases xs <;> simp at h1
          cases ys <;> simp at h2
          exact .lnil
        | cons m ms ihm =>
          cases xs with
          | nil => simp at h1
          | cons x xs =>
            cases ys with
            | nil => simp at h2
            | cons y ys =>
              simp only [List.map_cons, List.cons.injEq] at h1 h2
              refine .lcons (ih m (by simp) x y h1.1 h2.1 (h3' m (by simp))) ?_
              exact ihm (fun m hm => ih m (by simp [hm])) xs ys h1.2 h2.2 fun m hm => h3' m (by simp [hm])

theorem treeEq_static (w : World A S O) (out result : PT K (Leaf A S O)) :
    treeEq w (static Leaf.isArray out) (static Leaf.isStruct result) = true ↔ Agree w out result := by
  rw [treeEq_iff]
  constructor
  · rintro ⟨m, h1, h2, h3⟩
    exact pair_agree m out result h1 h2 h3
  · exact agree_pair

/-! ## The call in one line -/

theorem partitionBy_eq (q : Leaf A S O → Bool) (x : PT K (Leaf A S O)) :
    partitionBy q x = .ok (withNones (x.map (AD.keep q)), static q x) := by
  rw [partitionBy, partition_callable_closed]
  rfl

omit [DecidableEq K] in
theorem mem_of_leafAt {α : Type} {t : PT K α} {π : List Nat} {a : α} (h : t.leafAt? π = some a) : a ∈ t.leaves := by
  induction t using PT.ind generalizing π with
  | leaf b =>
    rw [leafAt?_eq_some] at h
    cases π with
    | nil => simp [get?] at h; simp [leaves, h]
    | cons i π => simp [get?] at h
  | none =>
    rw [leafAt?_eq_some] at h
    cases π <;> simp [get?] at h
  | node k cs ih =>
    rw [leafAt?_eq_some] at h
    cases π with
    | nil => simp [get?] at h
    | cons i π =>
      simp only [get?] at h
      cases hc : cs[i]? with
      | none => simp [hc] at h
      | some c =>
        simp only [hc] at h
        simp only [leaves, leavesL_eq, List.mem_flatMap]
        exact ⟨c, List.mem_of_getElem? hc, ih c (List.mem_of_getElem? hc) (leafAt?_eq_some.2 h)⟩

omit [DecidableEq K] in
theorem exists_subst (q : Leaf A S O → Bool) (t : PT K (Leaf A S O)) (ls : List (Leaf A S O))
    (h : ls.length = (t.leaves.filter q).length) : ∃ y, AD.Subst q t ls y := by
  have key : ∀ l ls : List (Leaf A S O), ls.length = (l.filter q).length → ∃ l' : List (Leaf A S O × Leaf A S O),
      l'.map Prod.fst = l ∧ (∀ p ∈ l', q p.1 = false → p.2 = p.1) ∧ (l'.filter fun p => q p.1).map Prod.snd = ls := by
    intro l
    induction l with
    | nil =>
      intro ls h
      cases ls <;> simp at h
      exact ⟨[], rfl, by simp, rfl⟩
    | cons a l ih =>
      intro ls h
      cases hq : q a with
      | true =>
        cases ls with
        | nil => simp [hq] at h
        | cons b ls =>
          obtain ⟨l', h1, h2, h3⟩ := ih ls (by simpa [hq] using h)
          refine ⟨(a, b) :: l', by simp [h1], ?_, by simp [hq, h3]⟩
          intro p hp hf
          rcases List.mem_cons.1 hp with rfl | hp
          · simp [hq] at hf
          · exact h2 p hp hf
      | false =>
        obtain ⟨l', h1, h2, h3⟩ := ih ls (by simpa [hq] using h)
        refine ⟨(a, a) :: l', by simp [h1], ?_, by simp [hq, h3]⟩
        intro p hp hf
        rcases List.mem_cons.1 hp with rfl | hp
        · rfl
        · exact h2 p hp hf
  obtain ⟨l', h1, h2, h3⟩ := key t.leaves ls h
  obtain ⟨m, e1, e2⟩ := exists_fill t l' (by rw [← h1]; simp)
  have em : m.map Prod.fst = t := eq_of_shape_leaves (by rw [shape_map, e1]) (by rw [leaves_map, e2, h1])
  refine ⟨m.map Prod.snd, ⟨sameStructure_iff.2 (by rw [shape_map, e1]), ?_, ?_⟩⟩
  · intro π a ha hq
    rw [← em, leafAt?_map, Option.map_eq_some_iff] at ha
    obtain ⟨p, hp, rfl⟩ := ha
    have hm : p ∈ m.leaves := by
      exact mem_of_leafAt hp
    rw [leafAt?_map, hp, Option.map_some, h2 p (by rw [← e2]; exact hm) hq]
  · rw [← em, leaves_map, leaves_map, e2, List.zip_map', List.filter_map, List.map_map]
    exact h3

theorem map_inj {α β : Type} {f : α → β} (hf : ∀ a b, f a = f b → a = b) {l l' : List α} (h : l.map f = l'.map f) : l = l' :=
  (List.map_inj_right fun a b h => hf a b h).1 h

variable [DecidableEq S]

omit [DecidableEq K] [DecidableEq S] in
theorem arrays_eq (t : PT K (Leaf A S O)) : (t.leaves.filter Leaf.isArray).map asJax = (arrays t).map .jax := by
  rw [arrays]
  induction t.leaves with
  | nil => rfl
  | cons a l ih => cases a <;> simp [List.filter_cons, List.filterMap_cons, array?, Leaf.isArray, asJax, ih]

omit [DecidableEq K] [DecidableEq S] in
theorem avals_out (w : World A S O) (t : PT K (Leaf A S O)) :
    (t.leaves.filter Leaf.isArray).map (avalOf w) = ((arrays t).map w.aval).map some := by
  rw [arrays]
  induction t.leaves with
  | nil => rfl
  | cons a l ih => cases a <;> simp [List.filter_cons, List.filterMap_cons, array?, Leaf.isArray, avalOf, ih]

omit [DecidableEq K] [DecidableEq S] in
theorem avals_result (w : World A S O) (t : PT K (Leaf A S O)) :
    (t.leaves.filter Leaf.isStruct).map (avalOf w) = (declared w t).map some := by
  rw [declared]
  induction t.leaves with
  | nil => rfl
  | cons a l ih => cases a <;> simp [List.filter_cons, List.filterMap_cons, declares?, Leaf.isStruct, avalOf, ih]

omit [DecidableEq K] [DecidableEq S] in
theorem isArray_hand (w : World A S O) (a : Leaf A S O) : (hand w a).isArray = a.isArray := by
  cases a <;> simp only [hand, handArray] <;> (try split) <;> rfl

omit [DecidableEq K] [DecidableEq S] in
theorem keep_hand (w : World A S O) (t : PT K (Leaf A S O)) :
    (withNones (t.map (AD.keep Leaf.isArray))).map (hand w) = withNones ((t.map (hand w)).map (AD.keep Leaf.isArray)) := by
  induction t using PT.ind with
  | leaf a =>
    simp only [withNones, PT.map, join, AD.keep, isArray_hand]
    cases a.isArray <;> rfl
  | none => rfl
  | node k cs ih =>
    simp only [withNones, PT.map, mapL_eq, join, joinL_eq, List.map_map, PT.node.injEq, true_and]
    apply List.map_congr_left
    intro c hc
    exact ih c hc

omit [DecidableEq K] [DecidableEq S] in
theorem static_hand (w : World A S O) (t : PT K (Leaf A S O)) :
    static Leaf.isArray (t.map (hand w)) = static Leaf.isArray t := by
  induction t using PT.ind with
  | leaf a =>
    rw [PT.map, static_leaf, static_leaf, isArray_hand]
    cases a <;> rfl
  | none => rfl
  | node k cs ih =>
    rw [PT.map, mapL_eq, static_node, static_node, List.map_map]
    exact congrArg _ (List.map_congr_left ih)

omit [DecidableEq K] [DecidableEq S] in
theorem given_all {w : World A S O} {args args' : PT K (Leaf A S O)} (h : GivenAll w args args') : args' = args.map (hand w) := by
  obtain ⟨m, h1, h2⟩ := AD.exists_pair (sameStructure_iff.1 h.same)
  rw [← h1, ← h2, map_map]
  apply map_congr_leaves
  intro p hp
  obtain ⟨π, hπ⟩ := AD.exists_path hp
  have := h.leaf π p.2 p.1 (by rw [← h2, leafAt?_map, hπ]; rfl) (by rw [← h1, leafAt?_map, hπ]; rfl)
  obtain ⟨a, b⟩ := p
  cases b <;> exact this

omit [DecidableEq K] [DecidableEq S] in
/-- There are such arguments. -/
theorem given_exists (w : World A S O) (args : PT K (Leaf A S O)) : ∃ args', GivenAll w args args' := by
  refine ⟨args.map (hand w), sameStructure_iff.2 (shape_map _ _), ?_⟩
  intro π x y hx hy
  rw [leafAt?_map, hx, Option.map_some, Option.some.injEq] at hy
  subst hy
  cases x <;> rfl

omit [DecidableEq S] in
theorem inner_eq (w : World A S O) (tuple : K) (callback : Fn K A S O) (args kwargs result : PT K (Leaf A S O)) :
    inner w callback (static Leaf.isArray (.node tuple [args, kwargs])) (static Leaf.isStruct result)
        (withNones ((PT.node tuple [args, kwargs]).map (AD.keep Leaf.isArray))) =
      (callback args kwargs >>= fun out => if treeEq w (static Leaf.isArray out) (static Leaf.isStruct result) then
        pure (withNones (out.map (AD.keep Leaf.isArray))) else .error .valueError) := by
  obtain ⟨d, h1, h2, -⟩ := AD.combine_subst (AD.subst_self Leaf.isArray (PT.node tuple [args, kwargs]))
  have hd : d = withNones ((PT.node tuple [args, kwargs]).map (AD.keep Leaf.isArray)) := by
    obtain ⟨e1, e2⟩ := AD.unflatten_ok h1
    exact eq_of_shape_leaves e1 (by rw [e2, AD.leaves_keep])
  rw [hd] at h2
  have h2' : combine noLeaf [withNones ((PT.node tuple [args, kwargs]).map (AD.keep Leaf.isArray)),
      static Leaf.isArray (.node tuple [args, kwargs])] = .ok (.node tuple [args, kwargs]) := h2
  rw [inner, h2']
  simp only [bind, Except.bind, apply]
  cases callback args kwargs with
  | error e => rfl
  | ok out => simp only [partitionBy_eq]

theorem handed (w : World A S O) (tuple : K) (args kwargs args' kwargs' : PT K (Leaf A S O))
    (hg : GivenAll w args args') (hk : GivenAll w kwargs kwargs') {callback : Fn K A S O} {s : PT K (Leaf A S O)} :
    inner w callback (static Leaf.isArray (.node tuple [args, kwargs])) s
        ((withNones ((PT.node tuple [args, kwargs]).map (AD.keep Leaf.isArray))).map (hand w)) =
      inner w callback (static Leaf.isArray (.node tuple [args', kwargs'])) s
        (withNones ((PT.node tuple [args', kwargs']).map (AD.keep Leaf.isArray))) := by
  rw [keep_hand, ← static_hand w (.node tuple [args, kwargs])]
  simp only [PT.map, mapL, given_all hg, given_all hk]

/-- The call, given what the callback returns. -/
theorem call_eq (w : World A S O) (tuple : K) (callback : Fn K A S O) (args kwargs args' kwargs' result out : PT K (Leaf A S O))
    (hg : GivenAll w args args') (hk : GivenAll w kwargs kwargs') (h : callback args' kwargs' = .ok out) :
    filterPureCallback w tuple callback args kwargs result =
      (if treeEq w (static Leaf.isArray out) (static Leaf.isStruct result) then
        if (arrays out).map w.aval = declared w result then
          (treeUnflatten (withNones (result.map (AD.keep Leaf.isStruct))).shape
            (((arrays out).map Leaf.jax).map fun a => .leaf a) >>= fun d => combine noLeaf [d, static Leaf.isStruct result])
        else .error .runtimeError
      else .error .runtimeError) := by
  rw [filterPureCallback]
  simp only [partitionBy_eq, bind, Except.bind]
  rw [jaxPureCallback, handed w tuple args kwargs args' kwargs' hg hk, inner_eq, h]
  simp only [bind, Except.bind]
  cases treeEq w (static Leaf.isArray out) (static Leaf.isStruct result) with
  | false => rfl
  | true =>
    simp only [if_true, pure, Except.pure, atRuntime]
    rw [AD.leaves_keep, AD.leaves_keep, avals_out, avals_result]
    have hi : ((arrays out).map w.aval).map some = (declared w result).map some ↔ (arrays out).map w.aval = declared w result :=
      ⟨fun h => map_inj (fun a b h => Option.some.inj h) h, fun h => by rw [h]⟩
    by_cases hd : (arrays out).map w.aval = declared w result
    · rw [if_pos (hi.2 hd), if_pos hd, ← arrays_eq, List.map_map]
      rfl
    · rw [if_neg fun h => hd (hi.1 h), if_neg hd]

/-- The arrays are put in the places where one is declared. -/
theorem call_ok (w : World A S O) (tuple : K) (callback : Fn K A S O) (args kwargs args' kwargs' result out y : PT K (Leaf A S O))
    (hg : GivenAll w args args') (hk : GivenAll w kwargs kwargs') (h : callback args' kwargs' = .ok out)
    (ha : Agree w out result) (hd : (arrays out).map w.aval = declared w result)
    (hy : AD.Subst Leaf.isStruct result ((arrays out).map .jax) y) :
    filterPureCallback w tuple callback args kwargs result = .ok y := by
  rw [call_eq w tuple callback args kwargs args' kwargs' result out hg hk h, (treeEq_static w out result).2 ha]
  simp only [if_true, if_pos hd]
  obtain ⟨d, h1, h2, -⟩ := AD.combine_subst hy
  rw [h1]
  exact h2

/-! ## The theorems -/

omit [DecidableEq K] [DecidableEq S] in
theorem filled_of_subst {result y : PT K (Leaf A S O)} {as : List A}
    (h : AD.Subst Leaf.isStruct result (as.map .jax) y) : Filled result as y := by
  obtain ⟨m, h1, h2, h3, h4⟩ := h.pair
  have hj : ∀ p ∈ m.leaves, p.1.isStruct = true → ∃ a, p.2 = .jax a := by
    intro p hp hq
    have : p.2 ∈ as.map (Leaf.jax (S := S) (O := O)) := by
      rw [← h4, List.mem_filterMap]
      exact ⟨p, hp, by simp [hq]⟩
    obtain ⟨a, -, ha⟩ := List.mem_map.1 this
    exact ⟨a, ha.symm⟩
  refine ⟨h.same, fun π o ho => h.fixed π _ ho rfl, ?_, ?_⟩
  · intro π l hl hne
    have hq : l.isStruct = true := by
      cases l with
      | other o => exact absurd rfl (hne o)
      | _ => rfl
    rw [← h1, leafAt?_map, Option.map_eq_some_iff] at hl
    obtain ⟨p, hp, rfl⟩ := hl
    obtain ⟨a, ha⟩ := hj p (mem_of_leafAt hp) hq
    exact ⟨a, by rw [← h2, leafAt?_map, hp, Option.map_some, ha]⟩
  · have key : ∀ l : List (Leaf A S O × Leaf A S O), (∀ p ∈ l, p.1.isStruct = false → p.2 = p.1) →
        (∀ p ∈ l, p.1.isStruct = true → ∃ a, p.2 = .jax a) →
        ((l.map Prod.snd).filterMap array?).map Leaf.jax =
          l.filterMap fun p => if p.1.isStruct then some p.2 else Option.none := by
      intro l h5 h6
      induction l with
      | nil => rfl
      | cons p l ih =>
        have ih := ih (fun p hp => h5 p (by simp [hp])) (fun p hp => h6 p (by simp [hp]))
        cases hq : p.1.isStruct with
        | true =>
          obtain ⟨a, ha⟩ := h6 p (by simp) hq
          simp [List.filterMap_cons, array?, hq, ha, ← ih]
        | false =>
          have e := h5 p (by simp) hq
          have : ∃ o, p.1 = .other o := by
            cases h : p.1 <;> simp [h, Leaf.isStruct] at hq ⊢
          obtain ⟨o, ho⟩ := this
          rw [ho] at e
          simp [List.filterMap_cons, array?, e, hq, ← ih]
    have := key m.leaves h3 hj
    rw [h4, ← leaves_map, h2] at this
    exact map_inj (fun a b h => by cases h; rfl) this

/-- The callback is called with the arguments. The call succeeds just if the callback returns something that agrees
with the declaration, and as many arrays, with the shapes and dtypes, as were declared; anything else is a `RuntimeError`. Then
the arrays are put in the places declared. -/
theorem callback_spec (w : World A S O) (tuple : K) (callback : Fn K A S O) (args kwargs args' kwargs' result : PT K (Leaf A S O))
    (hg : GivenAll w args args') (hk : GivenAll w kwargs kwargs') :
    (∀ e, callback args' kwargs' = .error e → filterPureCallback w tuple callback args kwargs result = .error .runtimeError) ∧
    (∀ out, callback args' kwargs' = .ok out → Agree w out result → (arrays out).map w.aval = declared w result →
      ∃ y, filterPureCallback w tuple callback args kwargs result = .ok y ∧ Filled result (arrays out) y) ∧
    (∀ out, callback args' kwargs' = .ok out → ¬ (Agree w out result ∧ (arrays out).map w.aval = declared w result) →
      filterPureCallback w tuple callback args kwargs result = .error .runtimeError) := by
  refine ⟨?_, ?_, ?_⟩
  · intro e h
    rw [filterPureCallback]
    simp only [partitionBy_eq, bind, Except.bind]
    rw [jaxPureCallback, handed w tuple args kwargs args' kwargs' hg hk, inner_eq, h]
    rfl
  · intro out h ha hd
    have hl : ((arrays out).map (Leaf.jax (S := S) (O := O))).length = (result.leaves.filter Leaf.isStruct).length := by
      have := congrArg List.length (avals_result w result)
      rw [List.length_map, List.length_map, ← hd] at this
      rw [this]
      simp
    obtain ⟨y, hy⟩ := exists_subst Leaf.isStruct result _ hl
    exact ⟨y, call_ok w tuple callback args kwargs args' kwargs' result out y hg hk h ha hd hy, filled_of_subst hy⟩
  · intro out h hn
    rw [call_eq w tuple callback args kwargs args' kwargs' result out hg hk h]
    by_cases ha : Agree w out result
    · rw [if_pos ((treeEq_static w out result).2 ha), if_neg fun hd => hn ⟨ha, hd⟩]
    · rw [if_neg fun h => ha ((treeEq_static w out result).1 h)]

omit [DecidableEq K] [DecidableEq S] in
theorem fits_agree {w : World A S O} (m : PT K (Leaf A S O × Leaf A S O)) (h : ∀ p ∈ m.leaves, FitsLeaf w p.1 p.2) :
    Agree w (m.map Prod.fst) (m.map Prod.snd) := by
  induction m using PT.ind with
  | leaf p =>
    obtain ⟨a, b⟩ := p
    have := h (a, b) (by simp [leaves])
    cases a <;> cases b <;> simp only [FitsLeaf] at this
    all_goals first | exact .other this | exact .hole rfl rfl
  | none => exact .hole trivial trivial
  | node k ms ih =>
    rw [PT.map, PT.map, mapL_eq, mapL_eq]
    refine .node ?_
    have h' : ∀ m ∈ ms, ∀ p ∈ m.leaves, FitsLeaf w p.1 p.2 := by
      intro m hm p hp
      refine h p ?_
      simp only [leaves, leavesL_eq, List.mem_flatMap]
      exact ⟨m, hm, hp⟩
    clear h
    induction ms with
    | nil => exact .lnil
    | cons m ms ihm =>
      exact .lcons (ih m (by simp) (h' m (by simp))) (ihm (fun m hm => ih m (by simp [hm])) fun m hm => h' m (by simp [hm]))

/-- If the output is as declared then it is returned: the same structure, the same arrays, and for other objects the equal ones
of the declaration. -/
theorem callback_exact_partial (w : World A S O) (tuple : K) (callback : Fn K A S O)
    (args kwargs args' kwargs' result out : PT K (Leaf A S O))
    (hg : GivenAll w args args') (hk : GivenAll w kwargs kwargs') (h : callback args' kwargs' = .ok out) (hf : Fits w out result) :
    ∃ y, filterPureCallback w tuple callback args kwargs result = .ok y ∧ SameStructure y out ∧
      (∀ π a, out.leafAt? π = some (.jax a) ∨ out.leafAt? π = some (.numpy a) → y.leafAt? π = some (.jax a)) ∧
      ∀ π o, out.leafAt? π = some (.other o) →
        ∃ o', result.leafAt? π = some (.other o') ∧ y.leafAt? π = some (.other o') ∧ w.eq o o' = true := by
  obtain ⟨m, h1, h2⟩ := AD.exists_pair (sameStructure_iff.1 hf.same)
  have hl : ∀ p ∈ m.leaves, FitsLeaf w p.1 p.2 := by
    intro p hp
    obtain ⟨π, hπ⟩ := AD.exists_path hp
    exact hf.leaf π _ _ (by rw [← h1, leafAt?_map, hπ]; rfl) (by rw [← h2, leafAt?_map, hπ]; rfl)
  have hkind : ∀ p ∈ m.leaves, p.1.isArray = p.2.isStruct := by
    intro p hp
    have := hl p hp
    obtain ⟨a, b⟩ := p
    cases a <;> cases b <;> simp_all [FitsLeaf, Leaf.isArray, Leaf.isStruct]
  have hd : (arrays out).map w.aval = declared w result := by
    rw [arrays, declared, ← h1, ← h2, leaves_map, leaves_map]
    clear hkind h1 h2 hf h
    generalize m.leaves = l at hl
    induction l with
    | nil => rfl
    | cons p l ih =>
      have ih := ih fun p hp => hl p (by simp [hp])
      have := hl p (by simp)
      obtain ⟨a, b⟩ := p
      cases a <;> cases b <;> simp only [FitsLeaf] at this <;>
        simp [List.filterMap_cons, array?, declares?, ← List.filterMap_map, ih, this, -List.filterMap_map]
  let y := m.map fun p => if p.1.isArray then asJax p.1 else p.2
  have hy : AD.Subst Leaf.isStruct result ((arrays out).map .jax) y := by
    refine ⟨sameStructure_iff.2 (by rw [← h2, shape_map, shape_map]), ?_, ?_⟩
    · intro π a ha hq
      rw [← h2, leafAt?_map, Option.map_eq_some_iff] at ha
      obtain ⟨p, hp, rfl⟩ := ha
      rw [leafAt?_map, hp, Option.map_some, hkind p (mem_of_leafAt hp), hq]
      rfl
    · rw [← arrays_eq, ← h1, ← h2, leaves_map, leaves_map, leaves_map, List.zip_map', List.filter_map, List.map_map,
        List.filter_map, List.map_map]
      have : m.leaves.filter ((fun p : Leaf A S O × Leaf A S O => p.1.isStruct) ∘ fun p => (p.2, if p.1.isArray then asJax p.1 else p.2)) =
          m.leaves.filter (Leaf.isArray ∘ Prod.fst) := by
        apply List.filter_congr
        intro p hp
        exact (hkind p hp).symm
      rw [this]
      apply List.map_congr_left
      intro p hp
      have := (List.mem_filter.1 hp).2
      simp only [Function.comp] at this
      simp [this]
  refine ⟨y, call_ok w tuple callback args kwargs args' kwargs' result out y hg hk h ?_ hd hy, ?_, ?_, ?_⟩
  · rw [← h1, ← h2]
    exact fits_agree m hl
  · exact sameStructure_iff.2 (by rw [← h1, shape_map, shape_map])
  · intro π a ha
    rw [← h1, leafAt?_map, Option.map_eq_some_iff, Option.map_eq_some_iff] at ha
    rcases ha with ⟨p, hp, hpa⟩ | ⟨p, hp, hpa⟩ <;>
    · rw [leafAt?_map, hp, Option.map_some, hpa]
      rfl
  · intro π o ho
    rw [← h1, leafAt?_map, Option.map_eq_some_iff] at ho
    obtain ⟨p, hp, hpa⟩ := ho
    have := hl p (mem_of_leafAt hp)
    rw [hpa] at this
    obtain ⟨a, b⟩ := p
    cases b <;> simp only [FitsLeaf] at this
    rename_i o'
    refine ⟨o', ?_, ?_, this⟩
    · rw [← h2, leafAt?_map, hp]; rfl
    · simp only at hpa
      rw [leafAt?_map, hp, hpa]; rfl

/-- The result of a call that succeeds is always as declared. -/
theorem callback_declared (w : World A S O) (tuple : K) (callback : Fn K A S O) (args kwargs result y : PT K (Leaf A S O))
    (h : filterPureCallback w tuple callback args kwargs result = .ok y) :
    SameStructure y result ∧ (arrays y).map w.aval = declared w result ∧
      ∀ π o, result.leafAt? π = some (.other o) → y.leafAt? π = some (.other o) := by
  obtain ⟨args', hg⟩ := given_exists w args
  obtain ⟨kwargs', hk⟩ := given_exists w kwargs
  obtain ⟨s1, s2, s3⟩ := callback_spec w tuple callback args kwargs args' kwargs' result hg hk
  cases hc : callback args' kwargs' with
  | error e => rw [s1 e hc] at h; cases h
  | ok out =>
    by_cases hb : Agree w out result ∧ (arrays out).map w.aval = declared w result
    · obtain ⟨y', h1, h2⟩ := s2 out hc hb.1 hb.2
      rw [h1] at h
      cases h
      exact ⟨h2.same, by rw [h2.arrays, hb.2], h2.other⟩
    · rw [s3 out hc hb] at h
      cases h

/-! ## Not what the callback returned -/

def exWorld : World (Nat × Int) Nat String where
  aval a := a.1
  eq a b := a == b
  canon a := (min a.1 32, a.2)
  givesNumpy := false

/-- A callback that returns `(array, None)` where `(None, struct)` was declared: the call returns `(None, array)`. -/
theorem none_swapped : filterPureCallback exWorld "tuple" (fun _ _ => .ok (.node "tuple" [.leaf (.jax (3, 5)), .none]))
      (.node "tuple" []) (.node "dict" []) (.node "tuple" [.none, .leaf (.struct 3)]) =
    .ok (.node "tuple" [.none, .leaf (.jax (3, 5))]) := by
  obtain ⟨args', hg⟩ := given_exists exWorld (K := String) (.node "tuple" [])
  obtain ⟨kwargs', hk⟩ := given_exists exWorld (K := String) (.node "dict" [])
  refine call_ok exWorld "tuple" _ _ _ args' kwargs' _ (.node "tuple" [.leaf (.jax (3, 5)), .none]) _ hg hk rfl ?_ (by
    simp [arrays, declared, array?, declares?, leaves, leavesL, exWorld]) ⟨sameStructure_iff.2 rfl, ?_, ?_⟩
  · exact .node (.lcons (.hole rfl trivial) (.lcons (.hole trivial rfl) .lnil))
  · intro π a ha hq
    rw [leafAt?_eq_some] at ha
    match π with
    | [] => simp [get?] at ha
    | [0] => simp [get?] at ha
    | [1] => simp [get?] at ha; subst ha; cases hq
    | (i + 2) :: _ => simp [get?] at ha
    | 0 :: _ :: _ => simp [get?] at ha
    | 1 :: _ :: _ => simp [get?] at ha
  · simp [arrays, array?, leaves, leavesL, Leaf.isStruct]

/-- A case that meets the hypotheses: an array and an object. NumPy arrays will do. -/
example : Fits exWorld (.node "tuple" [.leaf (.numpy (3, 5)), .none, .leaf (.other "x")])
    (.node "tuple" [.leaf (.struct 3), .none, .leaf (.other "x")]) := by
  refine ⟨sameStructure_iff.2 rfl, ?_⟩
  intro π a b ha hb
  rw [leafAt?_eq_some] at ha hb
  match π with
  | [] => simp [get?] at ha
  | [0] => simp [get?] at ha hb; subst ha hb; rfl
  | [1] => simp [get?] at ha
  | [2] => simp [get?] at ha hb; subst ha hb; rfl
  | (i + 3) :: _ => simp [get?] at ha
  | 0 :: _ :: _ => simp [get?] at ha
  | 1 :: _ :: _ => simp [get?] at ha
  | 2 :: _ :: _ => simp [get?] at ha

end Callback
end Verif
