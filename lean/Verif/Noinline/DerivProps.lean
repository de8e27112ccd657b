import Verif.Noinline.Deriv
import Verif.Noinline.Props
import Verif.AD.Jvp

/-! # C80: the derivative of a noinlined function is the derivative of the function -/

namespace Verif.Noinline

open PT AD Filters

variable {K α A δ : Type}

/-- Other values for the leaves which `withNones` keeps. -/
theorem exists_put (M : PT K δ) (g : δ → Option A) (d : PT K α) (h : d.shape = (withNones (M.map g)).shape) :
    ∃ m : PT K (δ × Option α), m.map Prod.fst = M ∧ (∀ x ∈ m.leaves, x.2.isSome = (g x.1).isSome) ∧
      withNones (m.map Prod.snd) = d := by
  have hlist : ∀ (l : List δ) (ls : List α), ls.length = (l.filterMap g).length →
      ∃ l' : List (δ × Option α), l'.map Prod.fst = l ∧ (∀ x ∈ l', x.2.isSome = (g x.1).isSome) ∧ l'.filterMap Prod.snd = ls := by
    intro l
    induction l with
    | nil => intro ls h; cases ls with
      | nil => exact ⟨[], rfl, by simp, rfl⟩
      | cons => simp at h
    | cons a l ih =>
      intro ls h
      cases ha : g a with
      | none =>
        rw [List.filterMap_cons_none ha] at h
        obtain ⟨l', h1, h2, h3⟩ := ih ls h
        refine ⟨(a, Option.none) :: l', by simp [h1], ?_, by simp [h3]⟩
        intro x hx
        rcases List.mem_cons.1 hx with rfl | hx
        · simp [ha]
        · exact h2 x hx
      | some b =>
        rw [List.filterMap_cons_some ha] at h
        cases ls with
        | nil => simp at h
        | cons c ls =>
          obtain ⟨l', h1, h2, h3⟩ := ih ls (by simpa using h)
          refine ⟨(a, some c) :: l', by simp [h1], ?_, by simp [h3]⟩
          intro x hx
          rcases List.mem_cons.1 hx with rfl | hx
          · simp [ha]
          · exact h2 x hx
  obtain ⟨l', h1, h2, h3⟩ := hlist M.leaves d.leaves (by rw [← leaves_withNones]; exact length_leaves_of_shape h)
  obtain ⟨m, e1, e2⟩ := exists_fill M l' (by rw [← h1]; simp)
  have e3 : m.map Prod.fst = M := eq_of_shape_leaves (by rw [shape_map, e1]) (by rw [leaves_map, e2, h1])
  refine ⟨m, e3, by rw [e2]; exact h2, ?_⟩
  apply eq_of_shape_leaves
  · rw [h, ← e3, map_map]
    apply shape_withNones
    rw [e2]; exact h2
  · rw [leaves_withNones, e2, h3]

variable [DecidableEq K]

/-- A Python function of one argument. -/
def unary (f : PT K α → Except Err (PT K α)) : PyFn K α
  | [a], _ => f a
  | _, _ => .error .typeError

/-- The leaf, if it has a tangent. -/
def hasT (x : α × Option α) : Option α := if x.2.isSome then some x.1 else Option.none
/-- The leaf, if it has none. -/
def noT (x : α × Option α) : Option α := if x.2.isSome then Option.none else some x.1

omit [DecidableEq K] in
theorem withNones_tuple (k : K) (m : PT K (Option α)) : withNones (.node k [m]) = .node k [withNones m] := rfl

/-- `_jvp_transform` for arguments and tangents that match: `filter_jvp` of the function. -/
theorem jvpTransform_eq (J : Jax K α) (tup : K) (f : PT K α → Except Err (PT K α)) (args tArgs : PT K α)
    (hm : ∃ m, Zipped args tArgs m) :
    jvpTransform J f (.node tup [args, tArgs]) = (filterJvp J (unary f) [args] [tArgs] []).map Prod.snd := by
  obtain ⟨m, rfl, rfl⟩ := hm
  have hts : (withNones (m.map Prod.snd)).cut isNone = (m.cut isNone).map (onLeaf .none fun x => orNone x.2) := by
    rw [cutNone_withNones]
  have hspec : noneSpec (withNones (m.map Prod.snd)) = boolSpec (α := α) true (fun x : α × Option α => x.2.isNone) m := by
    rw [noneSpec, hts, boolSpec, map_map]
    apply map_congr_leaves
    intro x hx
    rcases cutNone_leaves hx with ⟨a, -, rfl⟩ | rfl
    · simp only [onLeaf_leaf]
      cases a.2 <;> rfl
    · rfl
  have hp := partition_closed isNone true (fun x : α × Option α => x.2.isNone) Prod.fst m
  have f1 : (fun x : α × Option α => if x.2.isNone = true then some x.1 else Option.none) = noT := by
    funext x; simp only [noT]; cases x.2 <;> rfl
  have f2 : (fun x : α × Option α => if x.2.isNone = true then Option.none else some x.1) = hasT := by
    funext x; simp only [hasT]; cases x.2 <;> rfl
  rw [f1, f2] at hp
  -- the tree of pairs for the leaves with a tangent
  let m2 : PT K (α × Option α) := withNones (m.map fun x => x.2.map fun t => (x.1, some t))
  have z2 : Zipped (.node J.tuple [withNones (m.map hasT)]) (.node J.tuple [withNones (m.map Prod.snd)]) (.node J.tuple [m2]) := by
    constructor
    · simp only [PT.map, mapL, m2, withNones_map]
      congr 4
      funext x; simp only [hasT]; cases x.2 <;> rfl
    · simp only [PT.map, mapL, withNones_tuple, m2]
      rw [withNones_withNones]
      congr 4
      funext x; cases x.2 <;> rfl
  have z1 : Zipped (.node J.tuple [m.map Prod.fst]) (.node J.tuple [withNones (m.map Prod.snd)]) (.node J.tuple [m]) := ⟨rfl, rfl⟩
  have ew : withTangent (.node J.tuple [m2]) = withTangent (.node J.tuple [m]) := by
    simp only [withTangent, leaves, leavesL, List.append_nil, m2, leaves_withNones, List.filterMap_filterMap]
    congr 1
    funext x; cases x.2 <;> rfl
  have et : (PT.node J.tuple [m2]).leaves.filterMap Prod.snd = (PT.node J.tuple [m]).leaves.filterMap Prod.snd := by
    simp only [leaves, leavesL, List.append_nil, m2, leaves_withNones, List.filterMap_filterMap]
    congr 1
    funext x; cases x.2 <;> rfl
  have eF : jvpArgs (toJvp f (withNones (m.map noT))) [] (.node J.tuple [m2]) = jvpArgs (unary f) [] (.node J.tuple [m]) := by
    funext ls
    have d1 : withNones ((PT.node J.tuple [m2]).map hasT) = withNones ((PT.node J.tuple [m]).map hasT) := by
      simp only [PT.map, mapL, withNones_tuple, m2]
      rw [withNones_withNones]
      congr 4
      funext x; simp only [hasT]; cases x.2 <;> rfl
    simp only [jvpArgs, jvpFun]
    change (treeUnflatten (withNones ((PT.node J.tuple [m2]).map hasT)).shape _ >>= _) =
      (treeUnflatten (withNones ((PT.node J.tuple [m]).map hasT)).shape _ >>= _)
    rw [d1]
    cases hu : treeUnflatten (withNones ((PT.node J.tuple [m]).map hasT)).shape (ls.map fun a => (.leaf a : PT K α)) with
    | error e => rfl
    | ok d =>
      obtain ⟨hs, -⟩ := unflatten_ok hu
      have hs' : d.shape = .node J.tuple [(withNones (m.map hasT)).shape] := hs
      obtain ⟨d', rfl, hd'⟩ : ∃ d', d = .node J.tuple [d'] ∧ d'.shape = (withNones (m.map hasT)).shape := by
        cases d with
        | leaf => simp [shape, PT.map] at hs'
        | none => simp [shape, PT.map] at hs'
        | node k cs =>
          match cs with
          | [] => simp [shape, PT.map, mapL] at hs'
          | [d'] =>
            simp only [shape, PT.map, mapL, PT.node.injEq, List.cons.injEq, and_true] at hs'
            exact ⟨d', by rw [hs'.1], hs'.2⟩
          | _ :: _ :: _ => simp [shape, PT.map, mapL] at hs'
      obtain ⟨m', h1, h2, h3⟩ := exists_put m hasT d' hd'
      have c1 := combine_closed (.node J.tuple [m']) [Prod.snd, fun _ => Option.none] (by simp)
      have c2 := combine_closed (.node J.tuple [m']) [Prod.snd, fun x => noT x.1] (by simp)
      have c3 := combine_closed m' [Prod.snd, fun x => noT x.1] (by simp)
      simp only [List.map_cons, List.map_nil, PT.map, mapL, withNones_tuple, h3] at c1 c2 c3
      have n1 : withNones (m'.map fun x => noT x.1) = withNones (m.map noT) := by rw [← h1, map_map]
      have n2 : withNones ((PT.node J.tuple [m2]).map noT) = .node J.tuple [withNones (m'.map fun _ => Option.none)] := by
        simp only [PT.map, mapL, withNones_tuple, m2]
        rw [withNones_withNones, ← h1, map_map]
        have : (fun x : (α × Option α) × Option α => (x.1.2.map fun t => (x.1.1, some t)).bind noT) = fun _ => Option.none := by
          funext x; cases x.1.2 <;> rfl
        rw [this]
      have n3 : withNones (m'.map fun x => [Prod.snd, fun _ => Option.none].findSome? (· x)) = d' := by
        rw [← h3]
        congr 2
        funext x
        simp only [List.findSome?_cons, List.findSome?_nil]
        cases x.2 <;> rfl
      simp only [bind, Except.bind]
      have en : (fun x : α × Option α => if x.2.isSome = true then Option.none else some x.1) = noT := rfl
      rw [en]
      have n4 : withNones ((PT.node J.tuple [m]).map noT) = .node J.tuple [withNones (m.map noT)] := rfl
      rw [n1] at c2 c3
      rw [n2, n4, c1, c2]
      simp only [n3, toJvp, unary, c3, bind, Except.bind]
  simp only [jvpTransform, hspec, hp, bind, Except.bind]
  rw [filterJvp_eq J _ _ _ _ _ z2, filterJvp_eq J _ _ _ _ _ z1, ew, et, eF]
  simp only [bind, Except.bind, pure, Except.pure]
  cases J.jvp (jvpArgs (unary f) [] (.node J.tuple [m])) (withTangent (.node J.tuple [m]))
    ((PT.node J.tuple [m]).leaves.filterMap Prod.snd) <;> rfl

/-! ### Transposition -/

omit [DecidableEq K] in
theorem cut_isUndefined (t : PT K (Inp α A)) : t.cut isUndefined = t.cut noLeaf := by
  induction t using ind with
  | leaf a => rfl
  | none => rfl
  | node k cs ih =>
    simp only [cut, isUndefined, noLeaf, Bool.false_eq_true, if_false, cutL_eq]
    congr 1
    exact List.map_congr_left ih

/-- The abstract value of a leaf that is not known. -/
def aval? : Inp α A → Option A
  | .undef s => some s
  | .val _ => Option.none

/-- The value of a leaf that is. -/
def val? : Inp α A → Option α
  | .val a => some a
  | .undef _ => Option.none

omit [DecidableEq K] in
theorem treeMap1_undefined (F : PT K (Inp α A) → Except Err (PT K δ)) (t : PT K (Inp α A)) :
    treeMap1 isUndefined F t = treeMap1 noLeaf F t := by
  simp only [treeMap1, treeLeaves, treeStructure, cut_isUndefined]

theorem partition_undefined (t : PT K (Inp α A)) :
    partition isUndefined (.leaf (.callable fun x => .ok (isUndefined x))) .none t =
      .ok (withNones (t.map fun x => (aval? x).map .undef), withNones (t.map fun x => (val? x).map .val)) := by
  have h : makeFilterTree (isUndefined : PT K (Inp α A) → Bool) = makeFilterTree noLeaf := by
    funext s x
    cases s with
    | leaf a => cases a <;> simp only [makeFilterTree, treeMap1_undefined]
    | none => rfl
    | node => rfl
  have h2 : ∀ (s : PT K (Spec K (Inp α A))) d, partition isUndefined s d t = partition noLeaf s d t := by
    intro s d
    simp only [partition_eq, Filters.filter, filterTree, h]
  rw [h2, partition_callable_closed]
  congr 4
  · funext x; cases x <;> rfl
  · funext x; cases x <;> rfl

/-- The arguments, with values for the leaves which are not known. -/
def putIn (m : PT K (Inp α A × α)) : PT K α := m.map fun x => (val? x.1).getD x.2

theorem transposedCall_eq (linT : (List α → Except Err (PT K α)) → List A → PT K α → Except Err (List α)) (tup : K)
    (f : PT K α → Except Err (PT K α)) (args : PT K (Inp α A)) (cts : PT K α) :
    transposedCall linT tup f args cts =
      transposeTransform linT (withNones (args.map aval?)) f (.node tup [withNones (args.map val?), cts]) := by
  have h1 : treeMap1 isUndefined avalOf (withNones (args.map fun x => (aval? x).map .undef) : PT K (Inp α A)) =
      .ok (withNones (args.map aval?)) := by
    rw [treeMap1_undefined, treeMap1_closed (u := withNones (args.map aval?)) (c := fun s => .leaf (.undef s))
      (g := fun s => .leaf s)]
    · rw [join_map_leaf]
    · rw [cut_noLeaf, withNones_map, withNones_map]
      congr 2
      funext x; cases x <;> rfl
    · intro x _; rfl
  have h2 : treeMap1 noLeaf valueOf (withNones (args.map fun x => (val? x).map .val) : PT K (Inp α A)) =
      .ok (withNones (args.map val?)) := by
    rw [treeMap1_closed (u := withNones (args.map val?)) (c := fun s => .leaf (.val s)) (g := fun s => .leaf s)]
    · rw [join_map_leaf]
    · rw [cut_noLeaf, withNones_map, withNones_map]
      congr 2
      funext x; cases x <;> rfl
    · intro x _; rfl
  simp only [transposedCall, partition_undefined, bind, Except.bind, h1, h2]

theorem toTranspose_eq (f : PT K α → Except Err (PT K α)) (args : PT K (Inp α A)) (m : PT K (Inp α A × α))
    (hm : m.map Prod.fst = args) :
    toTranspose f (withNones (args.map val?)) (withNones (args.map aval?))
      (m.leaves.filterMap fun x => if (aval? x.1).isSome then some x.2 else Option.none) = f (putIn m) := by
  subst hm
  let g : Inp α A × α → Option α := fun x => if (aval? x.1).isSome then some x.2 else Option.none
  have e1 : (withNones (m.map g)).shape = (withNones ((m.map Prod.fst).map aval?)).shape := by
    rw [map_map]
    apply shape_withNones
    intro x _
    simp only [g]
    cases aval? x.1 <;> rfl
  have e3 := treeUnflatten_shape ((withNones (m.map g)).map fun l => (.leaf l : PT K α))
  rw [shape_map, leaves_map, e1, leaves_withNones, join_map_leaf] at e3
  have e4 := combine_closed m [fun x => val? x.1, g] (by simp)
  have e5 : withNones (m.map fun x => [fun x => val? x.1, g].findSome? (· x)) = putIn m := by
    rw [putIn, ← withNones_some m fun x => (val? x.1).getD x.2]
    congr 2
    funext x
    simp only [List.findSome?_cons, List.findSome?_nil, g]
    cases x.1 <;> rfl
  rw [e5] at e4
  simp only [List.map_cons, List.map_nil] at e4
  simp only [toTranspose, g] at e3 e4 ⊢
  simp only [e3, bind, Except.bind]
  rw [map_map, e4]

/-- **C80**, differentiation. The call that computes primals is the same; the other one computes what `filter_jvp` of the function of the
arguments, with the transforms so far, has for tangents, and raises whenever it does. -/
theorem noinline_derivative {V A O C Q R : Type} [DecidableEq C] (w : Jit.World V A O C Q R) (tr : Transforms V O C) (st : St V A O C Q R)
    (b : Bind V O C) (jvpT tArgs : Jit.Val V O C) (J : Jax (Jit.JK C) (Jit.Leaf V O)) (hJ : tr jvpT = jvpTransform J)
    (hb : b.index < st.indexToFn.length) (hm : ∃ m, Zipped b.args tArgs m) :
    impl w tr st (jvpRule jvpT b tArgs).1 = impl w tr st b ∧
    impl w tr st (jvpRule jvpT b tArgs).2 =
      (filterJvp J (unary fun a => impl w tr st ⟨b.index, b.transforms, a⟩) [b.args] [tArgs] []).map Prod.snd := by
  obtain ⟨h1, h2⟩ := noinline_jvp w tr st b jvpT tArgs hb
  exact ⟨h1, by rw [h2, hJ, jvpTransform_eq J _ _ _ _ hm]⟩

/-- **C80**, transposition. `linT` is `jax.linear_transpose`. It is applied to a function `F` of the leaves that are not known: `f` of the
arguments with these put in. If it returns cotangents, one for each of them, then the result has them in the place of the leaves that
are not known, in order, and `None` for the others; if it raises, so does the call. -/
theorem noinline_transposed (linT : (List α → Except Err (PT K α)) → List A → PT K α → Except Err (List α)) (tup : K)
    (f : PT K α → Except Err (PT K α)) (args : PT K (Inp α A)) (cts : PT K α) :
    ∃ F : List α → Except Err (PT K α),
      (∀ m : PT K (Inp α A × α), m.map Prod.fst = args →
        F (m.leaves.filterMap fun x => if (aval? x.1).isSome then some x.2 else Option.none) = f (putIn m)) ∧
      (∀ e, linT F (args.leaves.filterMap aval?) cts = .error e → transposedCall linT tup f args cts = .error e) ∧
      (∀ gs, linT F (args.leaves.filterMap aval?) cts = .ok gs → gs.length = (args.leaves.filterMap aval?).length →
        ∃ m : PT K (Inp α A × Option α), m.map Prod.fst = args ∧ (∀ x ∈ m.leaves, x.2.isSome = (aval? x.1).isSome) ∧
          m.leaves.filterMap Prod.snd = gs ∧ transposedCall linT tup f args cts = .ok (withNones (m.map Prod.snd))) := by
  refine ⟨toTranspose f (withNones (args.map val?)) (withNones (args.map aval?)), fun m hm => toTranspose_eq f args m hm, ?_, ?_⟩
  · intro e he
    rw [transposedCall_eq]
    simp only [transposeTransform, leaves_withNones, he, bind, Except.bind]
  · intro gs hg hl
    rw [transposedCall_eq]
    simp only [transposeTransform, leaves_withNones, hg, bind, Except.bind]
    obtain ⟨t, h1, h2, h3⟩ := unflatten_leaves' (d := withNones (args.map aval?)) (ls := gs) (by rw [leaves_withNones, hl])
    obtain ⟨m, e1, e2, e3⟩ := exists_put args aval? t h1
    exact ⟨m, e1, e2, by rw [← leaves_withNones, e3, h2], by rw [h3, e3]⟩

/-- **C80**, transposition: this is what the call with one more transform evaluates. -/
theorem noinline_transposed_impl {V A O C Q R S : Type} [DecidableEq C] (w : Jit.World V A O C Q R) (tr : Transforms V O C)
    (st : St V A O C Q R) (b : Bind V O C) (transposeT cts : Jit.Val V O C) (args : PT (Jit.JK C) (Inp (Jit.Leaf V O) S))
    (linT : (List (Jit.Leaf V O) → Except Err (Jit.Val V O C)) → List S → Jit.Val V O C → Except Err (List (Jit.Leaf V O)))
    (hT : tr transposeT = transposeTransform linT (withNones (args.map aval?))) (hb : b.index < st.indexToFn.length) :
    impl w tr st (transposeRule transposeT b (withNones (args.map val?)) cts) =
      transposedCall linT .tuple (fun a => impl w tr st ⟨b.index, b.transforms, a⟩) args cts := by
  rw [noinline_transpose w tr st b transposeT _ cts hb, hT, transposedCall_eq]

/-! ### Examples -/

/-- `(2, (3, None))` where the second leaf has a tangent. -/
example : Zipped (K := Nat) (.node 0 [.leaf 2, .node 1 [.leaf 4, .none]]) (.node 0 [.none, .node 1 [.leaf 10, .none]])
    (.node 0 [.leaf (2, Option.none), .node 1 [.leaf (4, some 10), .none]]) := ⟨rfl, rfl⟩

def exUnary : PT Nat Nat → Except Err (PT Nat Nat)
  | .node 0 [.leaf a, .node 1 [.leaf b, .none]] => .ok (.node 0 [.leaf (a * b), .leaf 3])
  | _ => .error .typeError

example : jvpTransform exJax exUnary (.node 0 [.node 0 [.leaf 2, .node 1 [.leaf 4, .none]], .node 0 [.none, .node 1 [.leaf 10, .none]]]) =
    .ok (.node 0 [.leaf 10, .none]) := rfl

/-- A transposition which returns `cts` times the value of the function at `[1]`. -/
def exLinT (F : List Nat → Except Err (PT Nat Nat)) (avals : List Unit) : PT Nat Nat → Except Err (List Nat)
  | .node 0 [.leaf c, .leaf _] => do
    let r ← F (avals.map fun _ => 1)
    pure (r.leaves.take avals.length |>.map (c * ·))
  | _ => .error .typeError

example : transposedCall exLinT 0 exUnary (.node 0 [.leaf (.val 7), .node 1 [.leaf (.undef ()), .none]]) (.node 0 [.leaf 5, .leaf 0]) =
    .ok (.node 0 [.none, .node 1 [.leaf 35, .none]]) := rfl

end Verif.Noinline
