import Verif.AD.Vjp

/-! # C59: `filter_jvp` -/

namespace Verif
namespace AD

open PT Filters

variable {K α β : Type}

theorem countP_le {γ : Type} (l : List γ) (p q : γ → Bool) (h : ∀ x ∈ l, p x = true → q x = true) (he : l.countP p = l.countP q) :
    ∀ x ∈ l, q x = true → p x = true := by
  induction l with
  | nil => simp
  | cons a l ih =>
    have hle : l.countP p ≤ l.countP q := List.countP_mono_left fun x hx => h x (by simp [hx])
    simp only [List.countP_cons] at he
    intro x hx hq
    have ha := h a (by simp)
    rcases List.mem_cons.1 hx with rfl | hx
    · cases hp : p x with
      | true => rfl
      | false => simp [hp, hq] at he; omega
    · refine ih (fun y hy => h y (by simp [hy])) ?_ x hx hq
      cases hp : p a <;> cases hq' : q a <;> simp_all <;> omega

/-- Leaf or `None`. -/
def Simple (x : PT K α) : Prop := (∃ a, x = .leaf a) ∨ x = .none

theorem partition_noneSpec [DecidableEq K] (z : PT K (PT K α × PT K β)) (hz : ∀ p ∈ z.leaves, Simple p.1) :
    partition noLeaf (z.map fun p => Spec.bool p.2.isNone) .none (z.map Prod.fst).join =
      .ok ((z.map fun p => if p.2.isNone then p.1 else .none).join,
        (z.map fun p => if p.2.isNone then PT.none else p.1).join) := by
  let u : PT K (Bool × α) := (z.map fun p => p.1.map fun a => (p.2.isNone, a)).join
  have h1 : filterTree noLeaf (z.map fun p => (Spec.bool p.2.isNone : Spec K α)) (z.map Prod.fst).join = .ok (u.map Prod.fst) := by
    rw [filterTree, treeMap2_closed (u := z) (b := fun p => .leaf (.bool p.2.isNone)) (c := Prod.fst)
      (g := fun p => p.1.map fun _ => p.2.isNone) (by rw [cut_noLeaf, map_map]) rfl]
    · simp only [u, map_join, map_map]
    · intro p _
      simp only [makeFilterTree]
      rw [treeMap1_closed (u := p.1) (c := fun a => .leaf a) (g := fun _ => .leaf p.2.isNone) (cut_noLeaf p.1)]
      · have := join_map_leaf (p.1.map fun _ => p.2.isNone)
        rw [map_map] at this
        exact congrArg _ this
      · intro x _; rfl
  have h2 : (z.map Prod.fst).join = (u.map fun x => PT.leaf x.2).join := by
    simp only [u, map_join, map_map, join_join]
    congr 1
    apply map_congr_leaves
    intro p _
    exact (join_map_leaf p.1).symm
  have h3 : ∀ g : Bool × α → PT K α, (u.map g).join = (z.map fun p => (p.1.map fun a => g (p.2.isNone, a)).join).join := by
    intro g
    simp only [u, map_join, map_map, join_join]
  simp only [partition, h1, bind, Except.bind]
  rw [treeMap2_closed (u := u) (b := fun x => .leaf x.1) (c := fun x => .leaf x.2)
      (g := fun x => if x.1 then .leaf x.2 else .none) (by rw [cut_noLeaf, map_map]) h2 (by intro x _; simp only; split <;> rfl),
    treeMap2_closed (u := u) (b := fun x => .leaf x.1) (c := fun x => .leaf x.2)
      (g := fun x => if x.1 then .none else .leaf x.2) (by rw [cut_noLeaf, map_map]) h2 (by intro x _; simp only; split <;> rfl)]
  simp only [pure, Except.pure, h3]
  congr 3
  · apply map_congr_leaves
    intro p hp
    rcases hz p hp with ⟨a, h⟩ | h <;> cases hn : p.2.isNone <;> simp [h, PT.map, join]
  · apply map_congr_leaves
    intro p hp
    rcases hz p hp with ⟨a, h⟩ | h <;> cases hn : p.2.isNone <;> simp [h, PT.map, join]

/-- A tree of pairs: the leaf and its tangent, if it has one. -/
def Zipped (ps ts : PT K α) (m : PT K (α × Option α)) : Prop := m.map Prod.fst = ps ∧ withNones (m.map Prod.snd) = ts

/-- The leaves with tangents. -/
def withTangent (m : PT K (α × Option α)) : List α := m.leaves.filterMap fun x => if x.2.isSome then some x.1 else Option.none

theorem zip_cut {ps ts : PT K α} (h : ps.treeStructure isNone = ts.treeStructure isNone) :
    ∃ z : PT K (PT K α × PT K α), z.map Prod.fst = ps.cut isNone ∧ z.map Prod.snd = ts.cut isNone ∧
      ∀ p ∈ z.leaves, Simple p.1 ∧ Simple p.2 := by
  obtain ⟨z, h1, h2⟩ := exists_pair (s := ps.cut isNone) (t := ts.cut isNone) h
  refine ⟨z, h1, h2, fun p hp => ⟨?_, ?_⟩⟩
  · have : p.1 ∈ (ps.cut isNone).leaves := by rw [← h1, leaves_map]; exact List.mem_map_of_mem hp
    rcases cutNone_leaves this with ⟨a, -, h⟩ | h
    · exact .inl ⟨a, h⟩
    · exact .inr h
  · have : p.2 ∈ (ts.cut isNone).leaves := by rw [← h2, leaves_map]; exact List.mem_map_of_mem hp
    rcases cutNone_leaves this with ⟨a, -, h⟩ | h
    · exact .inl ⟨a, h⟩
    · exact .inr h

theorem leaves_join {γ : Type} (z : PT K γ) (f : γ → PT K α) : (z.map f).join.leaves = z.leaves.flatMap fun p => (f p).leaves := by
  induction z using ind with
  | leaf a => simp [PT.map, join, leaves]
  | none => rfl
  | node k cs ih =>
    simp only [PT.map, mapL_eq, join, joinL_eq, leaves, leavesL_eq, List.map_map, List.flatMap_map, List.flatMap_assoc]
    induction cs with
    | nil => rfl
    | cons c cs ih2 =>
      simp only [List.flatMap_cons]
      rw [ih2 (fun c hc => ih c (by simp [hc]))]
      congr 1
      exact ih c (by simp)

theorem length_flatMap_simple {γ : Type} (l : List γ) (f : γ → PT K α) (h : ∀ p ∈ l, Simple (f p)) :
    (l.flatMap fun p => (f p).leaves).length = l.countP fun p => !(f p).isNone := by
  induction l with
  | nil => rfl
  | cons a l ih =>
    rw [List.flatMap_cons, List.length_append, List.countP_cons, ih (fun p hp => h p (by simp [hp]))]
    rcases h a (by simp) with ⟨b, hb⟩ | hb <;> simp [hb, leaves, isNone] <;> omega

/-- The pair of a leaf and a tangent. -/
def pairUp (p : PT K α × PT K α) : PT K (α × Option α) :=
  match p.1, p.2 with
  | .leaf a, .leaf t => .leaf (a, some t)
  | .leaf a, _ => .leaf (a, Option.none)
  | _, _ => .none

variable [DecidableEq K]

/-- `_fn` for primals and tangents that match. -/
def jvpArgs (fn : PyFn K α) (kwargs : List (String × PT K α)) (m : PT K (α × Option α)) : List α → Except Err (PT K α) :=
  jvpFun fn kwargs (withNones (m.map fun x => if x.2.isSome then Option.none else some x.1))
    (withNones (m.map fun x => if x.2.isSome then some x.1 else Option.none))

theorem jvpArgs_eq (J : Jax K α) (fn : PyFn K α) (kwargs : List (String × PT K α)) (m : PT K ((α × Option α) × α))
    (primals : List (PT K α)) (h : (m.map fun x => if x.1.2.isSome then x.2 else x.1.1) = .node J.tuple primals) :
    jvpArgs fn kwargs (m.map Prod.fst) (m.leaves.filterMap fun x => if x.1.2.isSome then some x.2 else Option.none) =
      fn primals kwargs := by
  let f : (α × Option α) × α → Option α := fun x => if x.1.2.isSome then some x.2 else Option.none
  let g : (α × Option α) × α → Option α := fun x => if x.1.2.isSome then Option.none else some x.1.1
  have e1 : (withNones (m.map f)).shape =
      (withNones ((m.map Prod.fst).map fun x => if x.2.isSome then some x.1 else Option.none)).shape := by
    rw [map_map]
    apply shape_withNones
    intro p _
    simp only [f]
    cases p.1.2 <;> rfl
  have e2 : (withNones (m.map f)).leaves = m.leaves.filterMap f := leaves_withNones _ _
  have e3 := treeUnflatten_shape ((withNones (m.map f)).map fun l => (.leaf l : PT K α))
  rw [shape_map, leaves_map, e1, e2, join_map_leaf] at e3
  have e4 := combine_closed m [f, g] (by simp)
  simp only [List.map_cons, List.map_nil] at e4
  have e5 : withNones (m.map fun x => [f, g].findSome? (· x)) = .node J.tuple primals := by
    rw [← h, ← withNones_some m fun x => if x.1.2.isSome then x.2 else x.1.1]
    congr 1
    apply map_congr_leaves
    intro x _
    simp only [f, g, List.findSome?_cons, List.findSome?_nil]
    cases x.1.2 <;> rfl
  rw [e5] at e4
  simp only [jvpArgs, jvpFun, f] at e3 ⊢
  simp only [e3, bind, Except.bind]
  simp only [f, g] at e4
  rw [map_map]
  simp only [e4]

/-- `filter_jvp` when primals and tangents match. -/
theorem filterJvp_eq (J : Jax K α) (fn : PyFn K α) (primals tangents : List (PT K α)) (kwargs : List (String × PT K α))
    (m : PT K (α × Option α)) (hm : Zipped (.node J.tuple primals) (.node J.tuple tangents) m) :
    filterJvp J fn primals tangents kwargs = (do
      let r ← J.jvp (jvpArgs fn kwargs m) (withTangent m) (m.leaves.filterMap Prod.snd)
      pure (r.map Prod.fst, withNones (r.map Prod.snd))) := by
  obtain ⟨h1, h2⟩ := hm
  have hts : (PT.node J.tuple tangents).cut isNone = (m.cut isNone).map (onLeaf .none fun x => orNone x.2) := by
    rw [← h2, cutNone_withNones]
  have hst : (PT.node J.tuple primals).treeStructure isNone = (PT.node J.tuple tangents).treeStructure isNone := by
    rw [treeStructure, treeStructure, hts, ← h1, cutNone_map, shape_map, shape_map]
  have hspec : noneSpec (PT.node J.tuple tangents) = boolSpec (α := α) true (fun x : α × Option α => x.2.isNone) m := by
    rw [noneSpec, hts, boolSpec, map_map]
    apply map_congr_leaves
    intro x hx
    rcases cutNone_leaves hx with ⟨a, -, rfl⟩ | rfl
    · simp only [onLeaf_leaf]
      cases a.2 <;> rfl
    · rfl
  have hp := partition_closed noLeaf true (fun x : α × Option α => x.2.isNone) Prod.fst m
  have f1 : (fun x : α × Option α => if x.2.isNone = true then some x.1 else Option.none) =
      fun x => if x.2.isSome = true then Option.none else some x.1 := by
    funext x; cases x.2 <;> rfl
  have f2 : (fun x : α × Option α => if x.2.isNone = true then Option.none else some x.1) =
      fun x => if x.2.isSome = true then some x.1 else Option.none := by
    funext x; cases x.2 <;> rfl
  rw [f1, f2] at hp
  have hl1 : (withNones (m.map fun x => if x.2.isSome then some x.1 else Option.none)).leaves = withTangent m := leaves_withNones _ _
  have hl2 : (PT.node J.tuple tangents).leaves = m.leaves.filterMap Prod.snd := by rw [← h2, leaves_withNones]
  have hlen : (withTangent m).length = (m.leaves.filterMap Prod.snd).length := by
    rw [withTangent]
    induction m.leaves with
    | nil => rfl
    | cons x l ih => cases hx : x.2 <;> simp_all
  rw [← h1] at hst
  simp only [filterJvp, ← h1, hst, ne_eq, not_true_eq_false, if_false, hspec, hp, bind, Except.bind, hl1, hl2, hlen]
  rw [show jvpFun fn kwargs _ _ = jvpArgs fn kwargs m from rfl]
  cases J.jvp (jvpArgs fn kwargs m) (withTangent m) (m.leaves.filterMap Prod.snd) with
  | error e => rfl
  | ok r =>
    simp only [pure, Except.pure]
    have e := combine_closed r [fun a => if a.2.isSome then some a.1 else Option.none,
      fun a => if a.2.isSome then Option.none else if J.array a.1 then some a.1 else Option.none,
      fun a => if a.2.isSome then Option.none else if J.array a.1 then Option.none else some a.1] (by simp)
    simp only [List.map_cons, List.map_nil, withNones, map_map] at e
    have g1 : (fun a : α × Option α => (orNone (if a.2.isSome then some a.1 else Option.none) : PT K α)) =
        fun a => if a.2.isSome then .leaf a.1 else .none := by funext a; cases a.2 <;> rfl
    have g2 : (fun a : α × Option α => (orNone (if a.2.isSome then Option.none else if J.array a.1 then some a.1 else Option.none) : PT K α)) =
        fun a => if a.2.isSome then .none else if J.array a.1 then .leaf a.1 else .none := by
      funext a; cases a.2 <;> cases J.array a.1 <;> rfl
    have g3 : (fun a : α × Option α => (orNone (if a.2.isSome then Option.none else if J.array a.1 then Option.none else some a.1) : PT K α)) =
        fun a => if a.2.isSome then .none else if J.array a.1 then .none else .leaf a.1 := by
      funext a; cases a.2 <;> cases J.array a.1 <;> rfl
    rw [g1, g2, g3] at e
    rw [e]
    simp only []
    congr 2
    · rw [← withNones_some r Prod.fst, withNones, map_map]
      congr 1
      apply map_congr_leaves
      intro a _
      simp only [List.findSome?_cons, List.findSome?_nil]
      cases a.2 <;> cases J.array a.1 <;> rfl
    · rw [withNones, map_map]
      congr 1

/-- If primals and tangents do not match, it is an exception. -/
theorem filterJvp_mismatch (J : Jax K α) (fn : PyFn K α) (primals tangents : List (PT K α)) (kwargs : List (String × PT K α))
    (hm : ¬ ∃ m, Zipped (.node J.tuple primals) (.node J.tuple tangents) m) :
    filterJvp J fn primals tangents kwargs = .error .valueError ∨ filterJvp J fn primals tangents kwargs = .error .typeError := by
  by_cases hst : (PT.node J.tuple primals).treeStructure isNone = (PT.node J.tuple tangents).treeStructure isNone
  · right
    obtain ⟨z, h1, h2, hz⟩ := zip_cut hst
    have hps : (PT.node J.tuple primals) = (z.map Prod.fst).join := by rw [h1, join_cut]
    have hts : (PT.node J.tuple tangents) = (z.map Prod.snd).join := by rw [h2, join_cut]
    have hspec : noneSpec (PT.node J.tuple tangents) = z.map fun p => (Spec.bool p.2.isNone : Spec K α) := by
      rw [noneSpec, ← h2, map_map]
    have hp := partition_noneSpec z fun p hp => (hz p hp).1
    simp only [filterJvp, hst, ne_eq, not_true_eq_false, if_false, hspec, bind, Except.bind]
    rw [hps, hp]
    simp only []
    split
    · rfl
    · rename_i hl
      exfalso
      apply hm
      simp only [Classical.not_not] at hl
      rw [hts, leaves_join, leaves_join, length_flatMap_simple, length_flatMap_simple] at hl
      · have hle := countP_le z.leaves _ (fun p => !p.2.isNone) ?_ hl
        · refine ⟨(z.map pairUp).join, ?_, ?_⟩
          · rw [hps, map_join, map_map]
            congr 1
            apply map_congr_leaves
            intro p hp
            obtain ⟨p1, p2⟩ := p
            rcases (hz _ hp).1 with ⟨a, h⟩ | h <;> rcases (hz _ hp).2 with ⟨b, h'⟩ | h' <;> simp only at h h' <;> subst h h' <;> rfl
          · rw [hts, withNones, map_join, map_map, map_join, map_map, join_join, map_map]
            congr 1
            apply map_congr_leaves
            intro p hp
            have := hle p hp
            obtain ⟨p1, p2⟩ := p
            rcases (hz _ hp).1 with ⟨a, h⟩ | h <;> rcases (hz _ hp).2 with ⟨b, h'⟩ | h' <;> simp only at h h' <;> subst h h'
            · rfl
            · rfl
            · simp [isNone] at this
            · rfl
        · intro p _ h
          cases hn : p.2.isNone with
          | false => rfl
          | true => simp only [hn, if_true] at h; cases h
      · exact fun p hp => (hz p hp).2
      · intro p hp
        split
        · exact .inr rfl
        · exact (hz p hp).1
  · left
    simp only [filterJvp, ne_eq, hst, not_false_eq_true, if_true]
    rfl

/-- **C59**, `filter_jvp`. If it returns, then the tangents have the structure of the primals, with `None` for some leaves;
the function of the leaves with a tangent, given by `fn` with all other leaves fixed, is differentiated in the direction of the
tangents; the first result is `fn(*primals, **kwargs)` and the second has the same structure, with `None` for leaves without a tangent. -/
theorem filter_jvp {J : Jax K α} (hJ : ∀ F ls ts r, J.jvp F ls ts = .ok r → F ls = .ok (r.map Prod.fst)) {fn : PyFn K α}
    {primals tangents : List (PT K α)} {kwargs : List (String × PT K α)} {out tout : PT K α}
    (h : filterJvp J fn primals tangents kwargs = .ok (out, tout)) :
    fn primals kwargs = .ok out ∧
    ∃ m F r, Zipped (.node J.tuple primals) (.node J.tuple tangents) m ∧
      (∀ (m' : PT K ((α × Option α) × α)) primals', m'.map Prod.fst = m →
        (m'.map fun x => if x.1.2.isSome then x.2 else x.1.1) = .node J.tuple primals' →
        F (m'.leaves.filterMap fun x => if x.1.2.isSome then some x.2 else Option.none) = fn primals' kwargs) ∧
      J.jvp F (m.leaves.filterMap fun x => if x.2.isSome then some x.1 else Option.none) (m.leaves.filterMap Prod.snd) = .ok r ∧
      Zipped out tout r := by
  by_cases hm : ∃ m, Zipped (.node J.tuple primals) (.node J.tuple tangents) m
  · obtain ⟨m, hm⟩ := hm
    rw [filterJvp_eq J fn primals tangents kwargs m hm] at h
    cases hr : J.jvp (jvpArgs fn kwargs m) (withTangent m) (m.leaves.filterMap Prod.snd) with
    | error e => rw [hr] at h; cases h
    | ok r =>
      rw [hr] at h
      simp only [bind, Except.bind, pure, Except.pure, Except.ok.injEq, Prod.mk.injEq] at h
      refine ⟨?_, m, jvpArgs fn kwargs m, r, hm, ?_, hr, h⟩
      · have e := hJ _ _ _ _ hr
        have e' := jvpArgs_eq J fn kwargs (m.map fun x => (x, x.1)) primals (by
          rw [map_map, ← hm.1]
          apply map_congr_leaves
          intro x _
          simp)
        rw [map_map, leaves_map, List.filterMap_map] at e'
        have hid : (m.map fun x => ((x, x.1) : (α × Option α) × α).1) = m := map_id_fun m
        rw [hid] at e'
        rw [← e', ← h.1, ← e]
        rfl
      · rintro m' primals' rfl hp
        exact jvpArgs_eq J fn kwargs m' primals' hp
  · rcases filterJvp_mismatch J fn primals tangents kwargs hm with e | e <;> rw [e] at h <;> cases h

/-- **C59**, `filter_jvp`: if the tangents do not match the primals it raises, and otherwise it returns if `fn` does and JAX
can differentiate it, and raises the exception of `fn` if this is what JAX does. -/
theorem filter_jvp_ok {J : Jax K α} {fn : PyFn K α} {primals tangents : List (PT K α)} {kwargs : List (String × PT K α)} :
    ((¬ ∃ m, Zipped (.node J.tuple primals) (.node J.tuple tangents) m) →
      ∃ e, filterJvp J fn primals tangents kwargs = .error e) ∧
    ((∃ m, Zipped (.node J.tuple primals) (.node J.tuple tangents) m) →
      (∀ out, fn primals kwargs = .ok out →
        (∀ F ls ts out, F ls = .ok out → ts.length = ls.length → ∃ r, J.jvp F ls ts = .ok r) →
        ∃ r, filterJvp J fn primals tangents kwargs = .ok r) ∧
      (∀ e, fn primals kwargs = .error e →
        (∀ F ls ts e, F ls = .error e → ts.length = ls.length → J.jvp F ls ts = .error e) →
        filterJvp J fn primals tangents kwargs = .error e)) := by
  constructor
  · intro hm
    rcases filterJvp_mismatch J fn primals tangents kwargs hm with e | e <;> exact ⟨_, e⟩
  · rintro ⟨m, hm⟩
    rw [filterJvp_eq J fn primals tangents kwargs m hm]
    have e' := jvpArgs_eq J fn kwargs (m.map fun x => (x, x.1)) primals (by
      rw [map_map, ← hm.1]
      apply map_congr_leaves
      intro x _
      simp)
    rw [map_map, leaves_map, List.filterMap_map] at e'
    have hid : (m.map fun x => ((x, x.1) : (α × Option α) × α).1) = m := map_id_fun m
    rw [hid] at e'
    change jvpArgs fn kwargs m (withTangent m) = _ at e'
    have hlen : (m.leaves.filterMap Prod.snd).length = (withTangent m).length := by
      rw [withTangent]
      induction m.leaves with
      | nil => rfl
      | cons x l ih => cases hx : x.2 <;> simp_all
    constructor
    · intro out ho hJ
      obtain ⟨r, hr⟩ := hJ _ _ _ _ (e'.trans ho) hlen
      rw [hr]
      exact ⟨_, rfl⟩
    · intro e he hJ
      rw [hJ _ _ _ _ (e'.trans he) hlen]
      rfl

/-! ### Examples -/

example : ∀ F ls ts r, exJax.jvp F ls ts = .ok r → F ls = .ok (r.map Prod.fst) := by
  intro F ls ts r h
  simp only [exJax, bind, Except.bind, pure, Except.pure] at h
  cases hF : F ls with
  | error e => rw [hF] at h; cases h
  | ok o =>
    rw [hF] at h
    cases h
    rw [map_map]
    exact congrArg _ (map_id_fun o).symm

def exPair : PyFn Nat Nat
  | [.node 1 [.leaf a, .leaf b, .none], .leaf c], _ => .ok (.node 0 [.leaf (a + b), .leaf c, .none])
  | _, _ => .error .typeError

example : filterJvp exJax exPair [.node 1 [.leaf 2, .leaf 3, .none], .leaf 4] [.node 1 [.leaf 10, .none, .none], .none] [] =
    .ok (.node 0 [.leaf 5, .leaf 4, .none], .node 0 [.none, .leaf 10, .none]) := rfl
example : filterJvp exJax exPair [.node 1 [.leaf 2, .leaf 3, .none], .leaf 4] [.node 1 [.leaf 10, .none, .leaf 1], .none] [] =
    .error .typeError := rfl
example : Zipped (K := Nat) (.node 0 [.node 1 [.leaf 2, .leaf 3, .none], .leaf 4]) (.node 0 [.node 1 [.leaf 10, .none, .none], .none])
    (.node 0 [.node 1 [.leaf (2, some 10), .leaf (3, Option.none), .none], .leaf (4, Option.none)]) := ⟨rfl, rfl⟩

/-- The function of a cotangent that `filter_vjp` returns, at a cotangent. -/
def exPull (ct : PT Nat Nat) : Except Err (PT Nat Nat) := do
  let r ← filterVjp exJax false exPair [.node 1 [.leaf 2, .leaf 3, .none], .leaf 4]
  r.2.1 ct

example : exPull (.node 0 [.none, .leaf 7, .none]) = .ok (.node 0 [.node 1 [.leaf 2, .none, .none], .leaf 4]) := rfl
example : exPull (.node 0 [.leaf 6, .leaf 7, .none]) = .error .valueError := rfl

end AD
end Verif
