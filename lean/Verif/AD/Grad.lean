import Verif.AD.Lemmas

/-! # C48: `filter_grad` differentiates exactly the inexact arrays of the first argument -/

namespace Verif
namespace AD

open PT Filters

variable {K α : Type}

/-- `grads` has the containers of `x`, a leaf just where `x` has a leaf that satisfies `q`, and `None` where `x` has another
leaf or `None`. -/
structure GradTree (q : α → Bool) (x grads : PT K α) : Prop where
  nodes : ∀ π k n, x.headAt? π = some (.node k n) → grads.headAt? π = some (.node k n)
  nones : ∀ π, x.headAt? π = some .none → grads.headAt? π = some .none
  diff : ∀ π a, x.leafAt? π = some a → q a = true → ∃ g, grads.leafAt? π = some g
  nondiff : ∀ π a, x.leafAt? π = some a → q a = false → grads.get? π = some .none

theorem gradTree_of_shape {q : α → Bool} {x grads : PT K α} (h : grads.shape = (withNones (x.map (keep q))).shape) :
    GradTree q x grads := by
  have hd : ∀ π, grads.shape.headAt? π = (withNones (x.map (keep q))).shape.headAt? π := by rw [h]; exact fun _ => rfl
  simp only [shape, headAt?_map] at hd
  refine ⟨?_, ?_, ?_, ?_⟩
  · intro π k n hx
    have e := (headAt?_withNones x (keep q) π).1 k n hx
    have := hd π
    rw [e] at this
    cases hg : grads.headAt? π with
    | none => simp [hg] at this
    | some o => cases o <;> simp_all
  · intro π hx
    have e := (headAt?_withNones x (keep q) π).2.1 hx
    have := hd π
    rw [e] at this
    cases hg : grads.headAt? π with
    | none => simp [hg] at this
    | some o => cases o <;> simp_all
  · intro π a ha hq
    have ha' : x.headAt? π = some (.leaf a) := by rw [headAt?, leafAt?_eq_some.1 ha]; rfl
    have e := (headAt?_withNones x (keep q) π).2.2 a ha'
    have := hd π
    rw [e] at this
    simp only [keep, hq, if_true, orNone, head, Option.map_some] at this
    cases hg : grads.get? π with
    | none => simp [headAt?, hg] at this
    | some t => cases t with
      | leaf g => exact ⟨g, leafAt?_eq_some.2 hg⟩
      | none => simp [headAt?, hg, head] at this
      | node k cs => simp [headAt?, hg, head] at this
  · intro π a ha hq
    have ha' : x.headAt? π = some (.leaf a) := by rw [headAt?, leafAt?_eq_some.1 ha]; rfl
    have e := (headAt?_withNones x (keep q) π).2.2 a ha'
    have := hd π
    rw [e] at this
    simp only [keep, hq, orNone, head, Option.map_some] at this
    cases hg : grads.get? π with
    | none => simp [headAt?, hg] at this
    | some t => cases t with
      | leaf g => simp [headAt?, hg, head] at this
      | none => rfl
      | node k cs => simp [headAt?, hg, head] at this

variable [DecidableEq K]

/-- The scalar that is differentiated: the output, or with `has_aux` the first of the pair that is the output. -/
def objective (J : Jax K α) (hasAux : Bool) (fn : PyFn K α) (rest : List (PT K α)) (kwargs : List (String × PT K α))
    (x : PT K α) : Except Err α :=
  match fn (x :: rest) kwargs, hasAux with
  | .error e, _ => .error e
  | .ok out, false => J.scalar out
  | .ok (.node k [value, _]), true => if k = J.tuple then J.scalar value else .error .typeError
  | .ok _, true => .error .typeError

theorem objective_eq (J : Jax K α) (hasAux : Bool) (fn : PyFn K α) (rest : List (PT K α)) (kwargs : List (String × PT K α))
    (x : PT K α) : objective J hasAux fn rest kwargs x =
      (do let out ← fn (x :: rest) kwargs; let value ← primary J hasAux out; J.scalar value) := by
  unfold objective
  cases fn (x :: rest) kwargs with
  | error e => cases hasAux <;> rfl
  | ok out =>
    cases hasAux with
    | false => rfl
    | true =>
      rcases out with a | _ | ⟨k, cs⟩
      · rfl
      · rfl
      · match cs with
        | [] => rfl
        | [_] => rfl
        | [v, a] =>
          simp only [primary, bind, Except.bind, if_true]
          split <;> rfl
        | _ :: _ :: _ :: _ => rfl

theorem partitionInexact_eq (J : Jax K α) (x : PT K α) :
    partitionInexact J x = .ok (withNones (x.map (keep J.inexact)), withNones (x.map (drop J.inexact))) := by
  rw [partitionInexact, partition_callable_closed]
  rfl

omit [DecidableEq K] in
theorem leaves_keep (q : α → Bool) (x : PT K α) : (withNones (x.map (keep q))).leaves = x.leaves.filter q := by
  rw [leaves_withNones]
  induction x.leaves with
  | nil => rfl
  | cons a l ih => by_cases h : q a = true <;> simp_all [keep, List.filterMap_cons, List.filter_cons]

/-- The function that JAX differentiates, on the leaves. -/
def flatObjective (J : Jax K α) (hasAux : Bool) (fn : PyFn K α) (rest : List (PT K α)) (kwargs : List (String × PT K α))
    (x : PT K α) (ls : List α) : Except Err α := do
  let y ← treeUnflatten (withNones (x.map (keep J.inexact))).shape (ls.map fun a => .leaf a)
  let x' ← Filters.combine noLeaf [y, withNones (x.map (drop J.inexact))]
  objective J hasAux fn rest kwargs x'

theorem flatObjective_subst (J : Jax K α) (hasAux : Bool) (fn : PyFn K α) (rest : List (PT K α))
    (kwargs : List (String × PT K α)) (x : PT K α) (ls : List α) (x' : PT K α) (h : Subst J.inexact x ls x') :
    flatObjective J hasAux fn rest kwargs x ls = objective J hasAux fn rest kwargs x' := by
  obtain ⟨d, h1, h2, -⟩ := combine_subst h
  simp only [flatObjective, h1, bind, Except.bind, h2]

/-- `filter_value_and_grad` in one line: value, objective, gradient, gradient tree. -/
theorem valueAndGrad_eq (J : Jax K α) (hasAux : Bool) (fn : PyFn K α) (x : PT K α) (rest : List (PT K α))
    (kwargs : List (String × PT K α)) :
    valueAndGrad J hasAux fn (x :: rest) kwargs = (do
      let out ← fn (x :: rest) kwargs
      let _ ← objective J hasAux fn rest kwargs x
      let gs ← J.grad (flatObjective J hasAux fn rest kwargs x) (x.leaves.filter J.inexact)
      let grads ← treeUnflatten (withNones (x.map (keep J.inexact))).shape (gs.map fun a => .leaf a)
      pure (out, grads)) := by
  have hall : (x.leaves.filter J.inexact).all J.inexact = true := by
    rw [List.all_eq_true]
    intro a ha
    exact (List.mem_filter.1 ha).2
  obtain ⟨d, h1, h2, -⟩ := combine_subst (subst_self J.inexact x)
  have hd : d = withNones (x.map (keep J.inexact)) := by
    obtain ⟨e1, e2⟩ := unflatten_ok h1
    exact eq_of_shape_leaves e1 (by rw [e2, leaves_keep])
  rw [hd] at h2
  have hF : ∀ ls, (do
      let y ← treeUnflatten (withNones (x.map (keep J.inexact))).shape (ls.map fun a => .leaf a)
      let out ← (do
        let x' ← Filters.combine noLeaf [y, withNones (x.map (drop J.inexact))]
        fn (x' :: rest) kwargs)
      let value ← primary J hasAux out
      J.scalar value) = flatObjective J hasAux fn rest kwargs x ls := by
    intro ls
    simp only [flatObjective, objective_eq, bind, Except.bind]
    cases treeUnflatten (withNones (x.map (keep J.inexact))).shape (ls.map fun a => .leaf a) with
    | error e => rfl
    | ok y =>
      simp only []
      cases Filters.combine noLeaf [y, withNones (x.map (drop J.inexact))] <;> rfl
  simp only [valueAndGrad, partitionInexact_eq, jaxValueAndGrad, bind, Except.bind, h2, objective_eq, leaves_keep, hall]
  simp only [bind, Except.bind] at hF
  rw [show (fun ls => _) = flatObjective J hasAux fn rest kwargs x from funext hF]
  cases fn (x :: rest) kwargs with
  | error e => rfl
  | ok out =>
    simp only [Bool.not_true, Bool.false_eq_true, if_false, pure, Except.pure]
    cases primary J hasAux out with
    | error e => rfl
    | ok v => rfl

/-- **C48**. What `filter_value_and_grad(fn)(x, *rest, **kwargs)` returns: the output of `fn` unchanged, and a tree with the
structure of `x` with gradients at exactly the inexact arrays. The gradients are, in order, those of the function of the
inexact arrays of `x` that is `fn` with all other leaves and arguments held fixed. -/
theorem value_and_grad {J : Jax K α} {hasAux : Bool} {fn : PyFn K α} {x : PT K α} {rest : List (PT K α)}
    {kwargs : List (String × PT K α)} {value grads : PT K α}
    (h : valueAndGrad J hasAux fn (x :: rest) kwargs = .ok (value, grads)) :
    fn (x :: rest) kwargs = .ok value ∧ GradTree J.inexact x grads ∧
    ∃ F : List α → Except Err α,
      (∀ ls x', Subst J.inexact x ls x' → F ls = objective J hasAux fn rest kwargs x') ∧
      J.grad F (x.leaves.filter J.inexact) = .ok grads.leaves := by
  rw [valueAndGrad_eq] at h
  simp only [bind, Except.bind, pure, Except.pure] at h
  cases h1 : fn (x :: rest) kwargs with
  | error e => rw [h1] at h; cases h
  | ok out =>
    rw [h1] at h
    simp only at h
    cases h2 : objective J hasAux fn rest kwargs x with
    | error e => rw [h2] at h; cases h
    | ok v =>
      rw [h2] at h
      simp only at h
      cases h3 : J.grad (flatObjective J hasAux fn rest kwargs x) (x.leaves.filter J.inexact) with
      | error e => rw [h3] at h; cases h
      | ok gs =>
        rw [h3] at h
        simp only at h
        cases h4 : treeUnflatten (withNones (x.map (keep J.inexact))).shape (gs.map fun a => .leaf a) with
        | error e => rw [h4] at h; cases h
        | ok t =>
          rw [h4] at h
          simp only [Except.ok.injEq, Prod.mk.injEq] at h
          obtain ⟨rfl, rfl⟩ := h
          obtain ⟨e1, e2⟩ := unflatten_ok h4
          exact ⟨rfl, gradTree_of_shape e1, _, flatObjective_subst J hasAux fn rest kwargs x, by rw [h3, e2]⟩

/-- The hypothesis on JAX: a function which succeeds at a point has a gradient there, with one array for each argument. -/
def Jax.Differentiable (J : Jax K α) : Prop :=
  ∀ (F : List α → Except Err α) ls v, F ls = .ok v → ∃ gs, J.grad F ls = .ok gs ∧ gs.length = ls.length

/-- **C48**: it fails only if `fn` raises or its output cannot be differentiated, with the same exception. -/
theorem value_and_grad_ok {J : Jax K α} (hJ : J.Differentiable) {hasAux : Bool} {fn : PyFn K α} {x : PT K α}
    {rest : List (PT K α)} {kwargs : List (String × PT K α)} :
    (∀ e, objective J hasAux fn rest kwargs x = .error e → valueAndGrad J hasAux fn (x :: rest) kwargs = .error e) ∧
    (∀ v, objective J hasAux fn rest kwargs x = .ok v →
      ∃ value grads, valueAndGrad J hasAux fn (x :: rest) kwargs = .ok (value, grads)) := by
  rw [valueAndGrad_eq]
  constructor
  · intro e he
    cases h1 : fn (x :: rest) kwargs with
    | error e' => simp [objective, h1] at he; simp [bind, Except.bind, he]
    | ok out => simp [bind, Except.bind, he]
  · intro v hv
    have hF := flatObjective_subst J hasAux fn rest kwargs x _ _ (subst_self J.inexact x)
    rw [hv] at hF
    obtain ⟨gs, h3, h4⟩ := hJ _ _ _ hF
    obtain ⟨t, -, -, h5⟩ := unflatten_leaves' (d := withNones (x.map (keep J.inexact))) (ls := gs) (by rw [h4, leaves_keep])
    cases h1 : fn (x :: rest) kwargs with
    | error e' => simp [objective, h1] at hv
    | ok out => exact ⟨out, t, by simp [bind, Except.bind, hv, h3, h5, pure, Except.pure]⟩

/-- **C48**: without a positional argument it is a `TypeError`. -/
theorem value_and_grad_no_args (J : Jax K α) (hasAux : Bool) (fn : PyFn K α) (kwargs : List (String × PT K α)) :
    valueAndGrad J hasAux fn [] kwargs = .error .typeError := rfl

/-- **C48**, `filter_grad`: the gradients alone, or with `has_aux` the pair of them and the auxiliary output. -/
theorem filter_grad {J : Jax K α} {fn : PyFn K α} {args : List (PT K α)} {kwargs : List (String × PT K α)} :
    (∀ e hasAux, valueAndGrad J hasAux fn args kwargs = .error e → filterGrad J hasAux fn args kwargs = .error e) ∧
    (∀ value grads, valueAndGrad J false fn args kwargs = .ok (value, grads) → filterGrad J false fn args kwargs = .ok grads) ∧
    (∀ value grads, valueAndGrad J true fn args kwargs = .ok (value, grads) →
      ∃ v aux, value = .node J.tuple [v, aux] ∧ filterGrad J true fn args kwargs = .ok (.node J.tuple [grads, aux])) := by
  refine ⟨?_, ?_, ?_⟩
  · intro e hasAux h
    simp [filterGrad, h, bind, Except.bind]
  · intro value grads h
    simp [filterGrad, h, bind, Except.bind, pure, Except.pure]
  · intro value grads h
    cases args with
    | nil => simp [valueAndGrad] at h
    | cons x rest =>
      have h' := h
      rw [valueAndGrad_eq] at h
      obtain ⟨h1, -⟩ := value_and_grad h'
      simp only [bind, Except.bind, h1] at h
      cases h2 : objective J true fn rest kwargs x with
      | error e => rw [h2] at h; cases h
      | ok v =>
        simp only [objective, h1] at h2
        rcases value with a | _ | ⟨k, cs⟩
        · cases h2
        · cases h2
        · match cs, h2 with
          | [], h2 => cases h2
          | [_], h2 => cases h2
          | [w, aux], h2 =>
            simp only at h2
            split at h2
            · rename_i hk
              subst hk
              exact ⟨w, aux, rfl, by simp [filterGrad, h', bind, Except.bind, pure, Except.pure]⟩
            · cases h2
          | _ :: _ :: _ :: _, h2 => cases h2

/-- **C48**: applying updates of the structure of the gradients changes no leaf that is not an inexact array. -/
theorem grads_update {q : α → Bool} {add : PT K α → PT K α → Except Err (PT K α)} {x grads out : PT K α}
    (hg : GradTree q x grads) (h : applyUpdates add x grads = .ok out) {π a} (ha : x.leafAt? π = some a) (hq : q a = false) :
    out.leafAt? π = some a := by
  obtain ⟨y, h1, h2⟩ := (applyUpdates_spec h π).1 (hg.nondiff π a ha hq)
  rw [leafAt?_eq_some] at ha ⊢
  rw [ha] at h1
  cases h1
  exact h2

/-! ### Example: the gradient of a sum of squares -/

/-- Leaves are integers, even ones are inexact arrays; `tuple` is 0. The gradient of any function is taken to be twice the
arguments. -/
def exJax : Jax Nat Nat where
  inexact a := a % 2 == 0
  array a := a % 2 == 0
  tuple := 0
  scalar
    | .leaf a => .ok a
    | _ => .error .typeError
  grad F ls := do
    let _ ← F ls
    pure (ls.map (2 * ·))
  vjp F ls := do
    let _ ← F ls
    pure fun _ => .ok ls
  jvp F ls ts := do
    let r ← F ls
    pure (r.map fun a => (a, if a % 2 == 0 then ts.head? else Option.none))

def exFn : PyFn Nat Nat := fun args _ => .ok (.leaf ((args.map fun x => x.leaves.foldl (· + ·) 0).foldl (· + ·) 0))

example : exJax.Differentiable := by
  intro F ls v h
  exact ⟨ls.map (2 * ·), by simp [exJax, h, bind, Except.bind, pure, Except.pure], by simp⟩
example : valueAndGrad exJax false exFn [.node 1 [.leaf 4, .leaf 3, .none, .leaf 6]] [] =
    .ok (.leaf 13, .node 1 [.leaf 8, .none, .none, .leaf 12]) := rfl

end AD
end Verif
