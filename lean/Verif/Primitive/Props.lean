import Verif.Primitive.Lemmas

/-!
# Primitives on arbitrary pytrees (C61)

`filter_primitive_bind` flattens its arguments, keeps what is not an array as a parameter, and rebuilds pytrees on the other side. The
theorems say that none of this is visible: a rule sees the arguments as they were given, and the caller sees what the rule returned.
-/

namespace Verif
namespace Primitive

open PT Filters

variable {K : Type} {α β γ V : Type} [DecidableEq K]

/-! ## Specification -/

/-- `is_array` implies `_is_array_like_internal`, and `tree_equal` compares structures. -/
structure Env.Lawful (E : Env K α) : Prop where
  array_dyn : ∀ a, E.array a = true → E.dyn a = true
  equal_shape : ∀ s t, E.equal s t = true → SameStructure s t

/-- What is not an array in `t`, with `None` in place of the rest. -/
def statics (E : Env K α) (t : PT K α) : PT K α := withNones (t.map fun a => if E.dyn a then Option.none else some a)

/-- Two outputs which differ in arrays only, and possibly in static parts that compare equal: `m` holds both. -/
structure Agree (E : Env K α) (oa ov : PT K α) (m : PT K (α × α)) : Prop where
  left : oa = m.map Prod.fst
  right : ov = m.map Prod.snd
  kind : ∀ p ∈ m.leaves, E.dyn p.1 = E.dyn p.2
  equal : E.equal (statics E oa) (statics E ov) = true

/-- `t` as a tree of tangents: an object for each leaf of the primals `p`, `None` for each `None`. -/
def Matches (p : PT K α) (t : PT K β) : Prop :=
  ∃ m : PT K (α × Option β), p = m.map Prod.fst ∧ t = withNones (m.map Prod.snd)

/-- What a transpose rule sees of a cotangent: a symbolic zero is `None`, or an array of zeros with `materialise_zeros`. -/
def seen (inst : V → β) (materialise : Bool) : Ct V β → Option β
  | .value b => some b
  | .zero v => if materialise then some (inst v) else Option.none

/-- What is known of an array: nothing, or its value. -/
def IsArrayArg (E : Env K α) : Arg V α → Prop
  | .value a => E.dyn a = true
  | .undefined _ => True

/-! ## Helpers -/

omit [DecidableEq K] in
theorem prepare_combine (E : Env K α) (m : PT K γ) (f : γ → α) (g : γ → β) (h : γ → β) :
    combineFlat ((m.leaves.filter fun x => E.array (f x)).map g)
      (m.leaves.map fun x => if E.array (f x) then Option.none else some (h x)) =
      .ok (m.leaves.map fun x => if E.array (f x) then g x else h x) :=
  combineFlat_split m.leaves (fun x => E.array (f x)) g h

theorem defWrapper_eq (E : Env K α) (rule : PT K α → Except Err (PT K α)) (args : PT K α) (f : α → α) (st : Option (Stored K α)) :
    defWrapper E rule ((prepare E args).1.map f) (prepare E args).2 st = (do
      let out ← rule (args.map fun a => if E.array a then f a else a)
      flatten E st out) := by
  have h := prepare_combine E args id f id
  simp only [id_eq] at h
  have hu := unflatten_leaf args fun a => if E.array a then f a else a
  simp only [defWrapper, prepare, h, hu, bind, Except.bind]

theorem finish_eq (lift : α → γ) (m : PT K (α × γ)) (q : α × γ → Bool) :
    finish lift ((m.leaves.filter q).map Prod.snd)
      ⟨(withNones (m.map fun x => if q x then some x.1 else Option.none)).shape,
        withNones (m.map fun x => if q x then Option.none else some x.1)⟩ =
      .ok (m.map fun x => if q x then x.2 else lift x.1) := by
  have h1 := unflatten_withNones m q Prod.fst Prod.snd
  have h2 : (withNones (m.map fun x => if q x then Option.none else some x.1)).map lift =
      withNones (m.map fun x => if q x then Option.none else some (lift x.1)) := by
    rw [withNones_map]
    congr 2
    funext x
    cases q x <;> rfl
  have h3 := combine_closed (K := K) m
    [fun x => if q x then some x.2 else Option.none, fun x => if q x then Option.none else some (lift x.1)] (by simp)
  simp only [finish, h1, bind, Except.bind, h2]
  simp only [List.map_cons, List.map_nil] at h3
  rw [h3]
  congr 1
  rw [← withNones_some m fun x => if q x then x.2 else lift x.1]
  congr 2
  funext x
  cases hq : q x <;> simp [hq]

/-! ## Theorems -/

/-- Called without a transformation, the implementation gets the arguments, and its result is returned. -/
theorem bind_impl (E : Env K α) (impl : PT K α → Except Err (PT K α)) (args : PT K α) :
    bindImpl E impl args = impl args := by
  have h := defWrapper_eq E impl args id Option.none
  rw [List.map_id] at h
  have e : (args.map fun a => if E.array a then id a else a) = args := by
    rw [← map_id_fun args, map_map]
    congr 1
    funext a
    simp
  rw [e] at h
  simp only [bindImpl, h, bind, Except.bind]
  cases impl args with
  | error e => rfl
  | ok out =>
    have hm : out = (out.map fun a => (a, a)).map Prod.fst := by
      rw [map_map]; exact (map_id_fun out).symm
    have hf := flatten_eq E Option.none (out.map fun a => (a, a)) Prod.fst
    rw [← hm] at hf
    simp only [hf, store, bind, Except.bind, pure, Except.pure]
    have hg := finish_eq (α := α) (γ := α) id (out.map fun a => (a, a)) fun x => E.dyn x.1
    have e1 : ((out.map fun a => (a, a)).leaves.filter fun x => E.dyn x.1).map Prod.fst =
        ((out.map fun a => (a, a)).leaves.filter fun x => E.dyn x.1).map Prod.snd := by
      apply List.map_congr_left
      intro x hx
      have := (List.mem_filter.1 hx).1
      rw [leaves_map, List.mem_map] at this
      obtain ⟨a, _, rfl⟩ := this
      rfl
    rw [e1, hg, map_map]
    congr 1
    have : (fun a : α => if E.dyn (a, a).1 then (a, a).2 else id (a, a).1) = fun a => a := by
      funext a; simp
    rw [this, map_id_fun]

/-- Under `jit`: the abstract rule gets the arguments with shapes in place of arrays, and the implementation gets the arguments. If their
results agree then the caller sees the arrays of the implementation, and for the rest what the abstract rule returned. -/
theorem bind_jit (E : Env K α) (abs : α → α) (impl abstractEval : PT K α → Except Err (PT K α)) {args oa ov : PT K α}
    {m : PT K (α × α)} (ha : abstractEval (args.map fun a => if E.array a then abs a else a) = .ok oa) (hv : impl args = .ok ov)
    (h : Agree E oa ov m) :
    bindJit E abs impl abstractEval args = .ok (m.map fun p => if E.dyn p.1 then p.2 else p.1) := by
  obtain ⟨rfl, rfl, hk, he⟩ := h
  have h1 := defWrapper_eq E abstractEval args abs Option.none
  have h2 : ∀ st, defWrapper E impl (prepare E args).1 (prepare E args).2 st = (do
      let out ← impl args
      flatten E st out) := by
    intro st
    have h := defWrapper_eq E impl args id st
    rw [List.map_id] at h
    have e : (args.map fun a => if E.array a then id a else a) = args := by
      rw [← map_id_fun args, map_map]
      congr 1
      funext a
      simp
    rwa [e] at h
  simp only [bindJit, h1, h2, ha, hv, bind, Except.bind]
  rw [flatten_eq E Option.none m Prod.fst]
  simp only [store, bind, Except.bind, pure, Except.pure]
  rw [flatten_eq E _ m Prod.snd]
  have hs : (withNones (m.map fun x => if E.dyn x.1 then some x.1 else Option.none)).shape =
      (withNones (m.map fun x => if E.dyn x.2 then some x.2 else Option.none)).shape := by
    have : (m.map fun x => if E.dyn x.2 then some x.2 else Option.none) = m.map fun x => if E.dyn x.1 then some x.2 else Option.none := by
      apply map_congr_leaves
      intro x hx
      rw [hk x hx]
    rw [this]
    apply shape_withNones
    intro x
    cases E.dyn x.1 <;> simp
  simp only [statics, map_map] at he
  have hs' := not_not_intro hs
  simp only [store, hs', if_false, he, if_true, bind, Except.bind, pure, Except.pure]
  have hf : (m.leaves.filter fun x => E.dyn x.2) = m.leaves.filter fun x => E.dyn x.1 := by
    apply List.filter_congr
    intro x hx
    exact (hk x hx).symm
  rw [hf]
  have := finish_eq (α := α) (γ := α) id m fun x => E.dyn x.1
  simpa using this

/-- If the results do not agree there is an `AssertionError`. -/
theorem bind_jit_mismatch {E : Env K α} (hE : E.Lawful) (abs : α → α) (impl abstractEval : PT K α → Except Err (PT K α))
    {args oa ov : PT K α} (ha : abstractEval (args.map fun a => if E.array a then abs a else a) = .ok oa) (hv : impl args = .ok ov)
    (h : ∀ m, ¬ Agree E oa ov m) :
    bindJit E abs impl abstractEval args = .error .assertionError := by
  have h1 := defWrapper_eq E abstractEval args abs Option.none
  have h2 : ∀ st, defWrapper E impl (prepare E args).1 (prepare E args).2 st = (do
      let out ← impl args
      flatten E st out) := by
    intro st
    have h := defWrapper_eq E impl args id st
    rw [List.map_id] at h
    have e : (args.map fun a => if E.array a then id a else a) = args := by
      rw [← map_id_fun args, map_map]
      congr 1
      funext a
      simp
    rwa [e] at h
  simp only [bindJit, h1, h2, ha, hv, bind, Except.bind]
  have fa := flatten_eq E Option.none oa (fun a => a)
  have fv := fun st => flatten_eq E st ov (fun a => a)
  rw [map_id_fun] at fa
  simp only [map_id_fun] at fv
  rw [fa]
  simp only [store, bind, Except.bind, pure, Except.pure]
  rw [fv]
  by_cases hs : (withNones (oa.map fun x => if E.dyn x then some x else Option.none)).shape =
      (withNones (ov.map fun x => if E.dyn x then some x else Option.none)).shape
  · by_cases he : E.equal (statics E oa) (statics E ov) = true
    · exfalso
      have hs2 := sameStructure_iff.1 (hE.equal_shape _ _ he)
      -- the two halves determine the structure
      have key : ∀ (s : PT K α) (t : PT K α),
          (withNones (s.map fun x => if E.dyn x then some x else Option.none)).shape =
            (withNones (t.map fun x => if E.dyn x then some x else Option.none)).shape →
          (statics E s).shape = (statics E t).shape →
          ∃ m : PT K (α × α), s = m.map Prod.fst ∧ t = m.map Prod.snd ∧ ∀ p ∈ m.leaves, E.dyn p.1 = E.dyn p.2 := by
        intro s
        induction s using ind with
        | leaf a =>
          intro t h1 h2
          cases t with
          | leaf b =>
            refine ⟨.leaf (a, b), rfl, rfl, ?_⟩
            intro p hp
            simp only [leaves, List.mem_singleton] at hp
            subst hp
            cases hb : E.dyn b <;> cases ha : E.dyn a <;>
              simp_all [withNones, statics, PT.map, orNone, join, shape]
          | none =>
            cases ha : E.dyn a <;> simp_all [withNones, statics, PT.map, orNone, join, shape]
          | node k cs =>
            cases ha : E.dyn a <;> simp_all [withNones, statics, PT.map, orNone, join, shape, mapL_eq, joinL_eq]
        | none =>
          intro t h1 h2
          cases t with
          | leaf b => cases hb : E.dyn b <;> simp_all [withNones, statics, PT.map, orNone, join, shape]
          | none => exact ⟨.none, rfl, rfl, by intro p hp; simp [leaves] at hp⟩
          | node k cs => simp_all [withNones, statics, PT.map, join, shape, mapL_eq, joinL_eq]
        | node k cs ih =>
          intro t h1 h2
          cases t with
          | leaf b => cases hb : E.dyn b <;> simp_all [withNones, statics, PT.map, orNone, join, shape, mapL_eq, joinL_eq]
          | none => simp_all [withNones, statics, PT.map, join, shape, mapL_eq, joinL_eq]
          | node l ds =>
            have e1 : k = l ∧ cs.map (fun c => (withNones (c.map fun x => if E.dyn x then some x else Option.none)).shape) =
                ds.map (fun c => (withNones (c.map fun x => if E.dyn x then some x else Option.none)).shape) := by
              simpa [withNones, PT.map, join, shape, mapL_eq, joinL_eq, Function.comp_def] using h1
            have e2 : cs.map (fun c => (statics E c).shape) = ds.map (fun c => (statics E c).shape) := by
              have : k = l ∧ cs.map (fun c => (statics E c).shape) = ds.map (fun c => (statics E c).shape) := by
                simpa [statics, withNones, PT.map, join, shape, mapL_eq, joinL_eq, Function.comp_def] using h2
              exact this.2
            obtain ⟨rfl, e1⟩ := e1
            have : ∀ (cs' ds' : List (PT K α)), (∀ c ∈ cs', c ∈ cs) →
                cs'.map (fun c => (withNones (c.map fun x => if E.dyn x then some x else Option.none)).shape) =
                ds'.map (fun c => (withNones (c.map fun x => if E.dyn x then some x else Option.none)).shape) →
                cs'.map (fun c => (statics E c).shape) = ds'.map (fun c => (statics E c).shape) →
                ∃ ms : List (PT K (α × α)), cs' = ms.map (PT.map Prod.fst) ∧ ds' = ms.map (PT.map Prod.snd) ∧
                  ∀ m ∈ ms, ∀ p ∈ m.leaves, E.dyn p.1 = E.dyn p.2 := by
              intro cs'
              induction cs' with
              | nil =>
                intro ds' _ h _
                cases ds' with
                | nil => exact ⟨[], rfl, rfl, by simp⟩
                | cons => simp at h
              | cons c cs' ihc =>
                intro ds' hm h h'
                cases ds' with
                | nil => simp at h
                | cons d ds' =>
                  simp only [List.map_cons, List.cons.injEq] at h h'
                  obtain ⟨m, m1, m2, m3⟩ := ih c (hm c (by simp)) d h.1 h'.1
                  obtain ⟨ms, n1, n2, n3⟩ := ihc ds' (fun c hc => hm c (by simp [hc])) h.2 h'.2
                  refine ⟨m :: ms, by simp [← m1, ← n1], by simp [← m2, ← n2], ?_⟩
                  intro x hx
                  rcases List.mem_cons.1 hx with rfl | hx
                  · exact m3
                  · exact n3 x hx
            obtain ⟨ms, n1, n2, n3⟩ := this cs ds (fun _ h => h) e1 e2
            refine ⟨.node k ms, by simp [PT.map, mapL_eq, ← n1], by simp [PT.map, mapL_eq, ← n2], ?_⟩
            intro p hp
            simp only [leaves, leavesL_eq, List.mem_flatMap] at hp
            obtain ⟨x, hx, hp⟩ := hp
            exact n3 x hx p hp
      obtain ⟨m, m1, m2, m3⟩ := key oa ov hs hs2
      exact h m ⟨m1, m2, m3, he⟩
    · simp only [statics] at he
      have hs' := not_not_intro hs
      simp only [store, hs', if_false, he, bind, Except.bind]
      rfl
  · simp only [store, ne_eq, hs, not_false_eq_true, if_true, bind, Except.bind]

/-- Under a derivative, or under `vmap`: the rule gets the primals, and a tangent (a batch axis) for each array which has one and `None`
for everything else. What it returns is returned. -/
theorem bind_pair (E : Env K α) (rule : PT K α → PT K β → Except Err (PT K α × PT K β)) (args : PT K (α × Option β)) :
    (∀ e, rule (args.map Prod.fst) (withNones (args.map fun x => if E.array x.1 then x.2 else Option.none)) = .error e →
      bindPair E rule args = .error e) ∧
    (∀ m : PT K (α × Option β),
      rule (args.map Prod.fst) (withNones (args.map fun x => if E.array x.1 then x.2 else Option.none)) =
        .ok (m.map Prod.fst, withNones (m.map Prod.snd)) →
      bindPair E rule args = .ok m) ∧
    (∀ p t, rule (args.map Prod.fst) (withNones (args.map fun x => if E.array x.1 then x.2 else Option.none)) = .ok (p, t) →
      ¬ Matches p t → bindPair E rule args = .error .assertionError) := by
  have h1 : combineFlat ((args.leaves.filter fun x => E.array x.1).map Prod.fst) (prepare E (args.map Prod.fst)).2.static =
      .ok (args.leaves.map Prod.fst) := by
    have := prepare_combine E args Prod.fst Prod.fst Prod.fst
    simp only [prepare, leaves_map, List.map_map]
    simp only [ite_self] at this
    exact this
  have h2 : combineFlat ((args.leaves.filter fun x => E.array x.1).map Prod.snd)
      (noneStatic (prepare E (args.map Prod.fst)).2.static) =
      .ok (args.leaves.map fun x => if E.array x.1 then x.2 else Option.none) := by
    have := prepare_combine E args Prod.fst Prod.snd fun _ => Option.none
    rw [← this]
    congr 1
    simp only [prepare, noneStatic, leaves_map, List.map_map]
    apply List.map_congr_left
    intro x _
    simp only [Function.comp]
    cases E.array x.1 <;> rfl
  have h3 := unflatten_leaf args Prod.fst
  have h4 := unflatten_obj args fun x => if E.array x.1 then x.2 else Option.none
  have hd : (prepare E (args.map Prod.fst)).2.treedef = args.shape := by simp [prepare, shape_map]
  have hb : bindPair E rule args = (do
      let out ← rule (args.map Prod.fst) (withNones (args.map fun x => if E.array x.1 then x.2 else Option.none))
      let r ← flattenLike E Option.none out.1 out.2
      finish (fun a => (a, Option.none)) (r.1.zip r.2.1) r.2.2) := by
    simp only [bindPair, pairWrapper, hd, h1, h2, h3, h4, bind, Except.bind]
    cases rule _ _ with
    | error e => rfl
    | ok out =>
      simp only [pure, Except.pure]
      cases flattenLike E Option.none out.1 out.2 <;> rfl
  refine ⟨?_, ?_, ?_⟩
  · intro e he
    rw [hb, he]; rfl
  · intro m hm
    rw [hb, hm]
    simp only [bind, Except.bind, flattenLike_eq, store, pure, Except.pure]
    rw [List.zip_map']
    have hg := finish_eq (K := K) (α := α) (γ := α × Option β) (fun a => (a, Option.none)) (m.map fun x => (x.1, x))
      fun x => dynLike E x.2
    simp only [map_map, leaves_map, List.filter_map, List.map_map, Function.comp_def] at hg
    rw [hg]
    congr 1
    have : (fun x : α × Option β => if dynLike E x then x else (x.1, Option.none)) = fun x => x := by
      funext ⟨a, t⟩
      cases t with
      | none => simp
      | some t => simp [dynLike]
    rw [this, map_id_fun]
  · intro p t hr hn
    rw [hb, hr]
    simp only [bind, Except.bind]
    rw [flattenLike_bad E Option.none p t hn]

/-- The transpose of an equation, up to what the rule returns. -/
theorem transposeEqn_eq (E : Env K α) (inst : V → β) (mat : Bool) (rule : PT K (Arg V α) → PT K β → Except Err (PT K β))
    (m : PT K (α × Arg V α)) (o : PT K (α × Ct V β)) :
    transposeEqn E inst mat rule (m.map Prod.fst) ((m.leaves.filter fun x => E.array x.1).map Prod.snd) (o.map Prod.fst)
        ((o.leaves.filter fun y => E.dyn y.1).map Prod.snd) = (do
      let out ← rule (m.map fun x => if E.array x.1 then x.2 else .value x.1)
        (withNones (o.map fun y => if E.dyn y.1 then seen inst mat y.2 else Option.none))
      let r ← flattenLike (⟨fun _ => true, Arg.dyn E, fun _ _ => true⟩ : Env K (Arg V α)) Option.none
        (m.map fun x => if E.array x.1 then x.2 else .value x.1) out
      if (m.leaves.filter fun x => E.array x.1).length ≠ r.2.1.length then throw .assertionError
      pure r.2.1) := by
  have h1 := flatten_eq E Option.none o Prod.fst
  simp only [store, bind, Except.bind, pure, Except.pure] at h1
  have h2 : treeUnflatten (withNones (o.map fun x => if E.dyn x.1 then some x.1 else Option.none)).shape
      ((((o.leaves.filter fun y => E.dyn y.1).map Prod.snd).map (prepareCt inst mat)).map obj) =
      .ok (withNones (o.map fun y => if E.dyn y.1 then seen inst mat y.2 else Option.none)) := by
    have hu := unflatten_obj (K := K) (withNones (o.map fun y => if E.dyn y.1 then some (prepareCt inst mat y.2) else Option.none))
      (fun x => x)
    rw [leaves_withNones, map_id_fun] at hu
    have e1 : (withNones (o.map fun y => if E.dyn y.1 then some (prepareCt inst mat y.2) else Option.none)).shape =
        (withNones (o.map fun x => if E.dyn x.1 then some x.1 else Option.none)).shape := by
      apply shape_withNones
      intro x
      cases E.dyn x.1 <;> simp
    have e2 : (o.leaves.filterMap fun y => if E.dyn y.1 then some (prepareCt inst mat y.2) else Option.none) =
        ((o.leaves.filter fun y => E.dyn y.1).map Prod.snd).map (prepareCt inst mat) := by
      rw [← List.filterMap_eq_filter, List.map_filterMap, List.map_filterMap]
      apply congrFun; apply congrArg
      funext x
      cases hq : E.dyn x.1 <;> simp [Option.guard, hq]
    rw [e1, e2, List.map_id'] at hu
    rw [hu]
    congr 1
    have e3 := withNones_withNones (K := K) o (fun y => if E.dyn y.1 then some (prepareCt inst mat y.2) else Option.none) (fun x => x)
    rw [map_id_fun] at e3
    rw [e3]
    congr 2
    funext y
    cases hq : E.dyn y.1 with
    | false => simp
    | true =>
      simp only [if_true, Option.bind_some]
      cases y.2 <;> rfl
  have h3 : combineFlat ((m.leaves.filter fun x => E.array x.1).map Prod.snd)
      ((prepare E (m.map Prod.fst)).2.static.map fun x => x.map (Arg.value (V := V))) =
      .ok (m.leaves.map fun x => if E.array x.1 then x.2 else .value x.1) := by
    have := prepare_combine E m Prod.fst Prod.snd fun x => (Arg.value x.1 : Arg V α)
    rw [← this]
    congr 1
    simp only [prepare, leaves_map, List.map_map]
    apply List.map_congr_left
    intro x _
    simp only [Function.comp]
    cases E.array x.1 <;> rfl
  have h4 := unflatten_leaf m fun x => if E.array x.1 then x.2 else (Arg.value x.1 : Arg V α)
  have hd : (prepare E (m.map Prod.fst)).2.treedef = m.shape := by simp [prepare, shape_map]
  simp only [transposeEqn, h1, transposeWrapper, h2, h3, hd, h4, bind, Except.bind, List.length_map]

/-- The transpose of an equation. The tree `m` has the leaves of the arguments and what is known of those which are arrays; the tree `o` has
the leaves of the output and the cotangents of those which are arrays. The rule gets the arguments, with `UndefinedPrimal`s where they are
unknown, and the cotangents of the output, `None` for symbolic zeros (unless they are materialised) and for everything that is not an array.
Its result `c` (one optional cotangent for each argument) is returned, for those arguments which are arrays. A cotangent for something
that is not an array is refused, and so is a result with another structure. -/
theorem transpose_eqn (E : Env K α) (inst : V → β) (mat : Bool) (rule : PT K (Arg V α) → PT K β → Except Err (PT K β))
    (m : PT K (α × Arg V α)) (o : PT K (α × Ct V β))
    (hm : ∀ x ∈ m.leaves, (E.array x.1 = true → IsArrayArg E x.2) ∧ (E.array x.1 = false → E.dyn x.1 = false))
    (inputs : PT K (Arg V α)) (hi : inputs = m.map fun x => if E.array x.1 then x.2 else .value x.1)
    (cts : PT K β) (hc : cts = withNones (o.map fun y => if E.dyn y.1 then seen inst mat y.2 else Option.none))
    (res : Except Err (List (Option β)))
    (hres : res = transposeEqn E inst mat rule (m.map Prod.fst) ((m.leaves.filter fun x => E.array x.1).map Prod.snd) (o.map Prod.fst)
        ((o.leaves.filter fun y => E.dyn y.1).map Prod.snd)) :
    (∀ e, rule inputs cts = .error e → res = .error e) ∧
    (∀ c : PT K ((α × Arg V α) × Option β), c.map Prod.fst = m → rule inputs cts = .ok (withNones (c.map Prod.snd)) →
      (∀ x ∈ c.leaves, E.array x.1.1 = false → x.2 = Option.none) →
      res = .ok ((c.leaves.filter fun x => E.array x.1.1).map Prod.snd)) ∧
    (∀ c : PT K ((α × Arg V α) × Option β), c.map Prod.fst = m → rule inputs cts = .ok (withNones (c.map Prod.snd)) →
      (∃ x ∈ c.leaves, E.array x.1.1 = false ∧ x.2 ≠ Option.none) → res = .error .assertionError) ∧
    (∀ t, rule inputs cts = .ok t → ¬ Matches inputs t → res = .error .assertionError) := by
  rw [transposeEqn_eq, ← hi, ← hc] at hres
  have key : ∀ c : PT K ((α × Arg V α) × Option β), c.map Prod.fst = m → rule inputs cts = .ok (withNones (c.map Prod.snd)) →
      res = (if ∃ x ∈ c.leaves, E.array x.1.1 = false ∧ x.2 ≠ Option.none then .error .assertionError
        else .ok ((c.leaves.filter fun x => E.array x.1.1).map Prod.snd)) := by
    intro c hcm hr
    subst hcm
    rw [map_map] at hi
    subst hi
    let m' : PT K (Arg V α × Option β) := c.map fun x => (if E.array x.1.1 then x.1.2 else (Arg.value x.1.1 : Arg V α), x.2)
    have e5 : (c.map fun x => if E.array x.1.1 then x.1.2 else (Arg.value x.1.1 : Arg V α)) = m'.map Prod.fst := by
      simp only [m', map_map]
    have e6 : withNones (c.map Prod.snd) = withNones (m'.map Prod.snd) := by
      simp only [m', map_map]
    have h5 := flattenLike_eq (K := K) (⟨fun _ => true, Arg.dyn E, fun _ _ => true⟩ : Env K (Arg V α)) Option.none m'
    rw [← e5, ← e6] at h5
    simp only [store, bind, Except.bind, pure, Except.pure] at h5
    rw [hres, hr]
    simp only [bind, Except.bind]
    rw [h5]
    simp only [m', leaves_map, List.filter_map, List.map_map, Function.comp_def, List.length_map, pure, Except.pure]
    have hm' : ∀ x ∈ c.leaves, if E.array x.1.1 then Arg.dyn E x.1.2 = true else E.dyn x.1.1 = false := by
      intro x hx
      have := hm x.1 (by rw [leaves_map]; exact List.mem_map_of_mem hx)
      split
      · rename_i h
        have := this.1 h
        revert this
        cases x.1.2 <;> simp [IsArrayArg, Arg.dyn]
      · rename_i h; exact this.2 (by simpa using h)
    generalize hl : c.leaves = l at hm'
    have hcount : ∀ l : List ((α × Arg V α) × Option β), (∀ x ∈ l, if E.array x.1.1 then Arg.dyn E x.1.2 = true else E.dyn x.1.1 = false) →
        (if ∃ x ∈ l, E.array x.1.1 = false ∧ x.2 ≠ Option.none then
          (l.filter fun x => E.array x.1.1).length < (l.filter fun x => dynLike (⟨fun _ => true, Arg.dyn E, fun _ _ => true⟩ : Env K (Arg V α))
            (if E.array x.1.1 then x.1.2 else Arg.value x.1.1, x.2)).length
        else (l.filter fun x => dynLike (⟨fun _ => true, Arg.dyn E, fun _ _ => true⟩ : Env K (Arg V α))
            (if E.array x.1.1 then x.1.2 else Arg.value x.1.1, x.2)) = l.filter fun x => E.array x.1.1) ∧
        (l.filter fun x => E.array x.1.1).length ≤ (l.filter fun x => dynLike (⟨fun _ => true, Arg.dyn E, fun _ _ => true⟩ : Env K (Arg V α))
            (if E.array x.1.1 then x.1.2 else Arg.value x.1.1, x.2)).length := by
      intro l hm
      induction l with
      | nil => simp
      | cons x l ih =>
        obtain ⟨i1, i2⟩ := ih (fun y hy => hm y (by simp [hy]))
        have hx := hm x (by simp)
        cases ha : E.array x.1.1 with
        | true =>
          rw [ha] at hx
          simp only [if_true] at hx
          have hdl : dynLike (⟨fun _ => true, Arg.dyn E, fun _ _ => true⟩ : Env K (Arg V α)) (x.1.2, x.2) = true := by
            simp [dynLike, hx]
          simp only [List.filter_cons, ha, if_true, hdl, List.mem_cons, List.length_cons]
          refine ⟨?_, by omega⟩
          by_cases hex : ∃ y ∈ l, E.array y.1.1 = false ∧ y.2 ≠ Option.none
          · rw [if_pos hex] at i1
            rw [if_pos (by obtain ⟨y, hy, h⟩ := hex; exact ⟨y, List.mem_cons_of_mem _ hy, h⟩)]
            omega
          · rw [if_neg hex] at i1
            rw [if_neg (by
              rintro ⟨y, hy, h⟩
              rcases List.mem_cons.1 hy with hy | hy
              · subst hy; rw [ha] at h; simp at h
              · exact hex ⟨y, hy, h⟩), i1]
        | false =>
          rw [ha] at hx
          simp only [Bool.false_eq_true, if_false] at hx
          cases hc : x.2 with
          | some c =>
            have hdl : dynLike (⟨fun _ => true, Arg.dyn E, fun _ _ => true⟩ : Env K (Arg V α)) (Arg.value x.1.1, some c) = true := by
              simp [dynLike]
            simp only [List.filter_cons, ha, Bool.false_eq_true, if_false, hc, hdl, if_true, List.mem_cons, List.length_cons]
            refine ⟨?_, by omega⟩
            rw [if_pos ⟨x, List.mem_cons_self, ha, by simp [hc]⟩]
            omega
          | none =>
            have hdl : dynLike (⟨fun _ => true, Arg.dyn E, fun _ _ => true⟩ : Env K (Arg V α)) (Arg.value x.1.1, (Option.none : Option β)) = false := by
              simp [dynLike, Arg.dyn, hx]
            simp only [List.filter_cons, ha, Bool.false_eq_true, if_false, hc, hdl, List.mem_cons]
            refine ⟨?_, i2⟩
            by_cases hex : ∃ y ∈ l, E.array y.1.1 = false ∧ y.2 ≠ Option.none
            · rw [if_pos hex] at i1
              rw [if_pos (by obtain ⟨y, hy, h⟩ := hex; exact ⟨y, List.mem_cons_of_mem _ hy, h⟩)]
              omega
            · rw [if_neg hex] at i1
              rw [if_neg (by
                rintro ⟨y, hy, h⟩
                rcases List.mem_cons.1 hy with hy | hy
                · subst hy; rw [hc] at h; simp at h
                · exact hex ⟨y, hy, h⟩), i1]
    obtain ⟨c1, -⟩ := hcount l hm'
    by_cases hex : ∃ y ∈ l, E.array y.1.1 = false ∧ y.2 ≠ Option.none
    · rw [if_pos hex] at c1
      rw [if_pos hex, if_pos (by omega)]
      rfl
    · rw [if_neg hex] at c1
      rw [if_neg hex, c1, if_neg (by simp)]
  refine ⟨?_, ?_, ?_, ?_⟩
  · intro e he
    rw [hres, he]; rfl
  · intro c h1 h2 h3
    rw [key c h1 h2, if_neg]
    rintro ⟨x, hx, ha, hn⟩
    exact hn (h3 x hx ha)
  · intro c h1 h2 h3
    rw [key c h1 h2, if_pos h3]
  · intro t ht hn
    rw [hres, ht]
    simp only [bind, Except.bind]
    rw [flattenLike_bad _ _ _ _ hn]

/-! ## A case -/

/-- Leaves: arrays, their shapes, and strings. -/
inductive Leaf where
  | array (n : Nat)
  | aval
  | str (s : String)
deriving DecidableEq, Repr

/-- The environment of the cases: static parts are compared with `==`. -/
def caseEnv : Env Nat Leaf where
  array a := match a with | .array _ => true | _ => false
  dyn a := match a with | .str _ => false | _ => true
  equal s t := decide (s = t)

theorem caseEnv_lawful : caseEnv.Lawful where
  array_dyn a h := by cases a <;> simp_all [caseEnv]
  equal_shape s t h := by
    have : s = t := by simpa [caseEnv] using h
    rw [this, sameStructure_iff]

/-- `(array 3, "x", None, array 4) ↦ (array 7, "y")` with shapes. -/
example : bindJit caseEnv (fun _ => .aval) (fun _ => .ok (.node 0 [.leaf (.array 7), .leaf (.str "y")]))
    (fun _ => .ok (.node 0 [.leaf .aval, .leaf (.str "y")]))
    (.node 0 [.leaf (.array 3), .leaf (.str "x"), .none, .leaf (.array 4)]) =
      .ok (.node 0 [.leaf (.array 7), .leaf (.str "y")]) :=
  bind_jit caseEnv _ _ _ (m := .node 0 [.leaf (.aval, .array 7), .leaf (.str "y", .str "y")]) rfl rfl
    ⟨rfl, rfl, by simp [leaves, leavesL, caseEnv], by rfl⟩

/-- The rules disagree. -/
example : bindJit caseEnv (fun _ => .aval) (fun _ => .ok (.node 0 [.leaf (.array 7), .leaf (.str "y")]))
    (fun _ => .ok (.node 0 [.leaf .aval, .leaf (.str "z")])) (.node 0 [.leaf (.array 3)]) = .error .assertionError := by
  refine bind_jit_mismatch caseEnv_lawful _ _ _ rfl rfl ?_
  intro m h
  have := h.equal
  revert this
  decide

/-- A rule which doubles: a tangent for the first array, none for the second. -/
example : bindPair caseEnv (fun _ _ => .ok (.node 0 [.leaf (.array 6), .leaf (.str "x")], .node 0 [.leaf 2, .none]))
    (.node 0 [.leaf (.array 3, some 1), .leaf (.str "x", Option.none), .leaf (.array 4, Option.none)]) =
      .ok (.node 0 [.leaf (.array 6, some 2), .leaf (.str "x", Option.none)]) :=
  (bind_pair caseEnv _ _).2.1 (.node 0 [.leaf (.array 6, some 2), .leaf (.str "x", Option.none)]) rfl

/-- The second array is unknown. -/
example : transposeEqn (V := Nat) (β := Nat) caseEnv (fun _ => 0) false (fun _ _ => .ok (.node 0 [.none, .none, .leaf 5]))
    (.node 0 [.leaf (.array 3), .leaf (.str "x"), .leaf (.array 4)]) [.value (.array 3), .undefined 1]
    (.leaf (.array 7)) [.value 1] = .ok [Option.none, some 5] :=
  (transpose_eqn (V := Nat) (β := Nat) caseEnv (fun _ => 0) false (fun _ _ => .ok (.node 0 [.none, .none, .leaf 5]))
    (.node 0 [.leaf (.array 3, .value (.array 3)), .leaf (.str "x", .undefined 0), .leaf (.array 4, .undefined 1)])
    (.leaf (.array 7, .value 1)) (by simp [leaves, leavesL, caseEnv, IsArrayArg]) _ rfl _ rfl _ rfl).2.1
    (.node 0 [.leaf ((.array 3, .value (.array 3)), Option.none), .leaf ((.str "x", .undefined 0), Option.none),
      .leaf ((.array 4, .undefined 1), some 5)]) rfl rfl (by simp [leaves, leavesL, caseEnv])

end Primitive
end Verif
