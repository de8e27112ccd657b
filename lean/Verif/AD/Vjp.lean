import Verif.AD.Grad

/-! # C59: `filter_vjp` and `filter_jvp` -/

namespace Verif
namespace AD

open PT Filters

variable {K α : Type}

theorem GradTree.child {q : α → Bool} {k : K} {cs : List (PT K α)} {gs : List (PT K α)}
    (h : GradTree q (.node k cs) (.node k gs)) {i : Nat} {c g : PT K α} (hc : cs[i]? = some c) (hg : gs[i]? = some g) :
    GradTree q c g := by
  have e1 : ∀ π, (PT.node k cs).headAt? (i :: π) = c.headAt? π := by intro π; simp [headAt?, get?, hc]
  have e2 : ∀ π, (PT.node k gs).headAt? (i :: π) = g.headAt? π := by intro π; simp [headAt?, get?, hg]
  have e3 : ∀ π, (PT.node k cs).leafAt? (i :: π) = c.leafAt? π := by intro π; simp [leafAt?, get?, hc]
  have e4 : ∀ π, (PT.node k gs).leafAt? (i :: π) = g.leafAt? π := by intro π; simp [leafAt?, get?, hg]
  have e5 : ∀ π, (PT.node k gs).get? (i :: π) = g.get? π := by intro π; simp [get?, hg]
  refine ⟨?_, ?_, ?_, ?_⟩
  · intro π k' n hx; rw [← e2]; exact h.nodes _ _ _ (by rw [e1]; exact hx)
  · intro π hx; rw [← e2]; exact h.nones _ (by rw [e1]; exact hx)
  · intro π a hx hq; rw [← e4]; exact h.diff _ a (by rw [e3]; exact hx) hq
  · intro π a hx hq; rw [← e5]; exact h.nondiff _ a (by rw [e3]; exact hx) hq

theorem GradTree.shape {q : α → Bool} {x g : PT K α} (h : GradTree q x g) :
    g.shape = (withNones (x.map (keep q))).shape := by
  induction x using ind generalizing g with
  | leaf a =>
    by_cases hq : q a = true
    · obtain ⟨b, hb⟩ := h.diff [] a rfl hq
      rw [leafAt?_eq_some] at hb
      cases g <;> simp [get?] at hb
      simp [withNones, PT.map, join, keep, hq, orNone, PT.shape]
    · simp only [Bool.not_eq_true] at hq
      have := h.nondiff [] a rfl hq
      simp only [get?, Option.some.injEq] at this
      subst this
      simp [withNones, PT.map, join, keep, hq, orNone, PT.shape]
  | none =>
    have := h.nones [] rfl
    cases g <;> simp [headAt?, get?, head] at this
    rfl
  | node k cs ih =>
    have := h.nodes [] k cs.length rfl
    cases g with
    | leaf a => simp [headAt?, get?, head] at this
    | none => simp [headAt?, get?, head] at this
    | node k' gs =>
      simp only [headAt?, get?, head, Option.map_some, Option.some.injEq, Head.node.injEq] at this
      obtain ⟨rfl, hl⟩ := this
      simp only [PT.shape, withNones, PT.map, mapL_eq, join, joinL_eq, List.map_map, PT.node.injEq, true_and]
      apply List.ext_getElem?
      intro i
      simp only [List.getElem?_map]
      cases hc : cs[i]? with
      | none =>
        rw [List.getElem?_eq_none_iff] at hc
        rw [List.getElem?_eq_none_iff.2 (by omega)]
        rfl
      | some c =>
        have hi : i < gs.length := by
          have := (List.getElem?_eq_some_iff.1 hc).1
          omega
        rw [List.getElem?_eq_getElem hi]
        simp only [Option.map_some, Option.some.injEq]
        exact ih c (List.mem_of_getElem? hc) (h.child hc (List.getElem?_eq_getElem hi))

theorem gradTree_iff {q : α → Bool} {x g : PT K α} : GradTree q x g ↔ g.shape = (withNones (x.map (keep q))).shape :=
  ⟨GradTree.shape, gradTree_of_shape⟩

variable [DecidableEq K]

/-- The output of `fn(*primals)`, without the auxiliary one. -/
def output (hasAux : Bool) (fn : PyFn K α) (primals : List (PT K α)) : Except Err (PT K α × PT K α) :=
  match fn primals [], hasAux with
  | .error e, _ => .error e
  | .ok out, false => .ok (out, .none)
  | .ok (.node _ [out, aux]), true => .ok (out, aux)
  | .ok _, true => .error .valueError

omit [DecidableEq K] in
theorem splitAux_eq (hasAux : Bool) (fn : PyFn K α) (args : List (PT K α)) :
    (do let out ← fn args []; splitAux hasAux out) = output hasAux fn args := by
  unfold output
  cases fn args [] with
  | error e => cases hasAux <;> rfl
  | ok out =>
    cases hasAux with
    | false => rfl
    | true =>
      rcases out with a | _ | ⟨k, cs⟩
      · rfl
      · rfl
      · match cs with
        | [] => rfl
        | [_] => rfl
        | [v, a] => rfl
        | _ :: _ :: _ :: _ => rfl

/-- The function of the inexact arrays which is differentiated. -/
def flatOutput (J : Jax K α) (hasAux : Bool) (fn : PyFn K α) (primals : List (PT K α)) (ls : List α) : Except Err (List α) := do
  let y ← treeUnflatten (withNones ((PT.node J.tuple primals).map (keep J.inexact))).shape (ls.map fun a => .leaf a)
  let x' ← Filters.combine noLeaf [y, withNones ((PT.node J.tuple primals).map (drop J.inexact))]
  match x' with
  | .node _ args => do
    let r ← output hasAux fn args
    pure (r.1.leaves.filter J.inexact)
  | _ => throw .typeError

theorem flatOutput_subst (J : Jax K α) (hasAux : Bool) (fn : PyFn K α) (primals : List (PT K α)) (ls : List α)
    (primals' : List (PT K α)) (h : Subst J.inexact (.node J.tuple primals) ls (.node J.tuple primals')) :
    flatOutput J hasAux fn primals ls = (output hasAux fn primals').map fun r => r.1.leaves.filter J.inexact := by
  obtain ⟨d, h1, h2, -⟩ := combine_subst h
  simp only [flatOutput, h1, bind, Except.bind, h2]
  cases output hasAux fn primals' <;> rfl

theorem filterVjp_eq (J : Jax K α) (hasAux : Bool) (fn : PyFn K α) (primals : List (PT K α)) :
    filterVjp J hasAux fn primals = (do
      let r ← output hasAux fn primals
      let p ← J.vjp (flatOutput J hasAux fn primals) ((PT.node J.tuple primals).leaves.filter J.inexact)
      pure (r.1, (fun ct => do
        if ct.shape ≠ (withNones (r.1.map (keep J.inexact))).shape then throw .valueError
        let cts ← p ct.leaves
        treeUnflatten (withNones ((PT.node J.tuple primals).map (keep J.inexact))).shape (cts.map fun a => .leaf a)), r.2)) := by
  have hall : ((PT.node J.tuple primals).leaves.filter J.inexact).all J.inexact = true := by
    rw [List.all_eq_true]
    intro a ha
    exact (List.mem_filter.1 ha).2
  obtain ⟨d, h1, h2, -⟩ := combine_subst (subst_self J.inexact (PT.node J.tuple primals))
  have hd : d = withNones ((PT.node J.tuple primals).map (keep J.inexact)) := by
    obtain ⟨e1, e2⟩ := unflatten_ok h1
    exact eq_of_shape_leaves e1 (by rw [e2, leaves_keep])
  rw [hd] at h2
  have hF : (fun ls => do
      let y ← treeUnflatten (withNones ((PT.node J.tuple primals).map (keep J.inexact))).shape (ls.map fun a => .leaf a)
      let r ← diffFun J hasAux fn (withNones ((PT.node J.tuple primals).map (drop J.inexact))) y
      pure r.1.leaves) = flatOutput J hasAux fn primals := by
    funext ls
    simp only [flatOutput, diffFun, bind, Except.bind]
    cases treeUnflatten (withNones ((PT.node J.tuple primals).map (keep J.inexact))).shape (ls.map fun a => .leaf a) with
    | error e => rfl
    | ok y =>
      simp only []
      cases Filters.combine noLeaf [y, withNones ((PT.node J.tuple primals).map (drop J.inexact))] with
      | error e => rfl
      | ok v =>
        rcases v with a | _ | ⟨k, args⟩
        · rfl
        · rfl
        · have := splitAux_eq hasAux fn args
          simp only [bind, Except.bind] at this
          simp only [← this]
          cases fn args [] with
          | error e => rfl
          | ok out =>
            simp only []
            cases splitAux hasAux out with
            | error e => rfl
            | ok oa => simp only [partitionInexact_eq, pure, Except.pure, leaves_keep]
  simp only [bind, Except.bind] at hF
  simp only [filterVjp, jaxVjp, partitionInexact_eq, bind, Except.bind, leaves_keep, hall, Bool.not_true,
    Bool.false_eq_true, if_false]
  rw [hF]
  simp only [diffFun, h2, bind, Except.bind, ← splitAux_eq]
  cases fn primals [] with
  | error e => rfl
  | ok out =>
    simp only []
    cases splitAux hasAux out with
    | error e => rfl
    | ok r =>
      simp only [partitionInexact_eq, pure, Except.pure]
      cases J.vjp (flatOutput J hasAux fn primals) ((PT.node J.tuple primals).leaves.filter J.inexact) with
      | error e => rfl
      | ok p =>
        obtain ⟨d', h1', h2', -⟩ := combine_subst (subst_self J.inexact r.1)
        have hd' : d' = withNones (r.1.map (keep J.inexact)) := by
          obtain ⟨e1, e2⟩ := unflatten_ok h1'
          exact eq_of_shape_leaves e1 (by rw [e2, leaves_keep])
        rw [hd'] at h2'
        simp only [h2']

/-- **C59**, `filter_vjp`: the output is that of `fn(*primals)`; the pullback accepts exactly the cotangents with the
structure of the output with an array for each inexact array and `None` for other leaves; it returns the cotangents, in the same way in
the structure of the tuple of primals, of the function of the inexact arrays among the primals that is `fn` with all else fixed. -/
theorem filter_vjp {J : Jax K α} {hasAux : Bool} {fn : PyFn K α} {primals : List (PT K α)} {out aux : PT K α}
    {pull : PT K α → Except Err (PT K α)} (h : filterVjp J hasAux fn primals = .ok (out, pull, aux)) :
    output hasAux fn primals = .ok (out, aux) ∧
    ∃ F p, (∀ ls primals', Subst J.inexact (.node J.tuple primals) ls (.node J.tuple primals') →
        F ls = (output hasAux fn primals').map fun r => r.1.leaves.filter J.inexact) ∧
      J.vjp F ((PT.node J.tuple primals).leaves.filter J.inexact) = .ok p ∧
      (∀ ct, ¬ GradTree J.inexact out ct → pull ct = .error .valueError) ∧
      (∀ ct e, GradTree J.inexact out ct → p ct.leaves = .error e → pull ct = .error e) ∧
      (∀ ct cts, GradTree J.inexact out ct → p ct.leaves = .ok cts →
        cts.length = ((PT.node J.tuple primals).leaves.filter J.inexact).length →
        ∃ cot, pull ct = .ok cot ∧ GradTree J.inexact (.node J.tuple primals) cot ∧ cot.leaves = cts) := by
  rw [filterVjp_eq] at h
  simp only [bind, Except.bind, pure, Except.pure] at h
  cases h1 : output hasAux fn primals with
  | error e => rw [h1] at h; cases h
  | ok r =>
    rw [h1] at h
    simp only at h
    cases h2 : J.vjp (flatOutput J hasAux fn primals) ((PT.node J.tuple primals).leaves.filter J.inexact) with
    | error e => rw [h2] at h; cases h
    | ok p =>
      rw [h2] at h
      simp only [Except.ok.injEq, Prod.mk.injEq] at h
      obtain ⟨rfl, rfl, rfl⟩ := h
      refine ⟨rfl, _, p, flatOutput_subst J hasAux fn primals, h2, ?_, ?_, ?_⟩
      · intro ct hct
        rw [gradTree_iff] at hct
        simp [hct, throw, throwThe, MonadExceptOf.throw]
      · intro ct e hct he
        simp [hct.shape, he]
      · intro ct cts hct he hl
        obtain ⟨t, e1, e2, e3⟩ := unflatten_leaves' (d := withNones ((PT.node J.tuple primals).map (keep J.inexact)))
          (ls := cts) (by rw [hl, leaves_keep])
        exact ⟨t, by simp [hct.shape, he, e3], gradTree_of_shape e1, e2⟩

/-- **C59**, `filter_vjp`: exceptions of `fn` come through, and otherwise it succeeds if JAX can differentiate. -/
theorem filter_vjp_ok {J : Jax K α} {hasAux : Bool} {fn : PyFn K α} {primals : List (PT K α)} :
    (∀ e, output hasAux fn primals = .error e → filterVjp J hasAux fn primals = .error e) ∧
    (∀ r, output hasAux fn primals = .ok r → (∀ F ls v, F ls = .ok v → ∃ p, J.vjp F ls = .ok p) →
      ∃ pull, filterVjp J hasAux fn primals = .ok (r.1, pull, r.2)) := by
  rw [filterVjp_eq]
  constructor
  · intro e he
    simp [he, bind, Except.bind]
  · intro r hr hJ
    have := flatOutput_subst J hasAux fn primals _ _ (subst_self J.inexact (PT.node J.tuple primals))
    rw [hr] at this
    obtain ⟨p, hp⟩ := hJ _ _ _ this
    simp [hr, hp, bind, Except.bind, pure, Except.pure]

end AD
end Verif
