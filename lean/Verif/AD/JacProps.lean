import Verif.AD.Jac
import Verif.AD.Grad
import Mathlib.Analysis.Calculus.FDeriv.Symmetric
import Mathlib.Analysis.Calculus.FDeriv.Pi
import Mathlib.Analysis.Calculus.Deriv.Prod
import Mathlib.Data.List.OfFn
import Mathlib.Data.List.FinRange
import Mathlib.Logic.Equiv.Fin.Basic

/-! # C71: Jacobians and Hessians over pytrees -/

namespace Verif
namespace AD
namespace Jac

open PT Filters

variable {K O : Type}

/-! ## What is claimed -/

/-- A pytree whose floating-point leaves are numbered: the pytree with the numbers `v` in those places. -/
def fillIn {n : Nat} (X : PT K (Fin n ⊕ O)) (v : Fin n → ℝ) : PT K (Lf O) :=
  X.map (Sum.elim (fun i => .num (v i)) .other)

/-- The same pytree with `None` in all other places; the numbers remain. -/
def inexactPart {n : Nat} (X : PT K (Fin n ⊕ O)) : PT K (Fin n) :=
  withNones (X.map Sum.getLeft?)

/-- The floating-point leaves are numbered from the left. -/
def Numbered {n : Nat} (X : PT K (Fin n ⊕ O)) : Prop := X.leaves.filterMap Sum.getLeft? = List.finRange n

/-- `∂ f_o / ∂ x_i` at `a`. -/
noncomputable def partialD {n m : Nat} (f : (Fin n → ℝ) → Fin m → ℝ) (o : Fin m) (i : Fin n) (a : Fin n → ℝ) : ℝ :=
  deriv (fun t => f (Function.update a i t) o) (a i)

/-- A mode finds the partial derivatives of a function wherever it is differentiable. -/
def Correct (M : Mode) : Prop :=
  ∀ (n m : Nat) (f : (Fin n → ℝ) → Fin m → ℝ) (F : List ℝ → Except Err (List ℝ)),
    (∀ v, F (List.ofFn v) = .ok (List.ofFn (f v))) → ∀ a, DifferentiableAt ℝ f a → ∀ (o : Fin m) (i : Fin n),
      M F (List.ofFn a) o i = partialD f o i a

/-- A function computes `f` from the floating-point leaves of its first argument: its output is `T`, with the values of `f`
for the numbers in it. -/
def Computes (tuple : K) (hasAux : Bool) (fn : PyFn K (Lf O)) (rest : List (PT K (Lf O)))
    (kwargs : List (String × PT K (Lf O))) {n m : Nat} (X : PT K (Fin n ⊕ O)) (T : PT K (Fin m))
    (f : (Fin n → ℝ) → Fin m → ℝ) (aux : (Fin n → ℝ) → PT K (Lf O)) : Prop :=
  ∀ v, fn (fillIn X v :: rest) kwargs = .ok (if hasAux then .node tuple [T.map fun o => .num (f v o), aux v]
    else T.map fun o => .num (f v o))

/-! ## Lemmas -/

section

variable {α β : Type}

theorem unflat {n : Nat} (t : PT K (Fin n)) (ht : t.leaves = List.finRange n) (g : Fin n → PT K β) (s : PT K α)
    (hs : s.shape = t.shape) : treeUnflatten s.shape ((List.finRange n).map g) = .ok (t.map g).join := by
  have := treeUnflatten_shape (t.map g)
  rw [shape_map, leaves_map, ht] at this
  rw [hs, this]

theorem range_map {γ : Type} (n : Nat) (g : Nat → γ) : (List.range n).map g = (List.finRange n).map fun i : Fin n => g i := by
  rw [show List.range n = (List.finRange n).map (fun i : Fin n => (i : Nat)) by simp, List.map_map]
  rfl

theorem map_leaf_join (t : PT K α) (g : α → β) : (t.map fun a => (.leaf (g a) : PT K β)).join = t.map g := by
  have := join_map_leaf (t.map g)
  rwa [map_map] at this

end

theorem fill_keep {n : Nat} (X : PT K (Fin n ⊕ O)) (v : Fin n → ℝ) :
    withNones ((fillIn X v).map fun a => if isInexact (K := K) (.leaf a) then some a else Option.none) =
      (inexactPart X).map fun i => .num (v i) := by
  rw [inexactPart, withNones_map, fillIn, map_map]
  congr 1
  apply map_congr_leaves
  intro a _
  rcases a with i | o <;> simp [isInexact, Lf.isNum]

theorem fill_drop {n : Nat} (X : PT K (Fin n ⊕ O)) (v : Fin n → ℝ) :
    withNones ((fillIn X v).map fun a => if isInexact (K := K) (.leaf a) then Option.none else some a) =
      withNones (X.map fun a => Option.map Lf.other a.getRight?) := by
  rw [fillIn, map_map]
  congr 1
  apply map_congr_leaves
  intro a _
  rcases a with i | o <;> simp [isInexact, Lf.isNum]

theorem fill_combine [DecidableEq K] {n : Nat} (X : PT K (Fin n ⊕ O)) (v : Fin n → ℝ) :
    combine noLeaf [(inexactPart X).map fun i => .num (v i), withNones (X.map fun a => Option.map Lf.other a.getRight?)] =
      .ok (fillIn X v) := by
  have := combine_closed X [fun a => Option.map (fun i => (.num (v i) : Lf O)) a.getLeft?,
    fun a => Option.map Lf.other a.getRight?] (by simp)
  simp only [List.map_cons, List.map_nil] at this
  rw [inexactPart, withNones_map, this, fillIn, ← withNones_some X (Sum.elim (fun i => (.num (v i) : Lf O)) .other)]
  congr 2
  apply map_congr_leaves
  intro a _
  rcases a with i | o <;> simp [List.findSome?]

theorem inexactPart_leaves {n : Nat} {X : PT K (Fin n ⊕ O)} (hX : Numbered X) : (inexactPart X).leaves = List.finRange n := by
  rw [inexactPart, leaves_withNones, hX]

theorem split_computes {tuple : K} {hasAux : Bool} {fn : PyFn K (Lf O)} {rest : List (PT K (Lf O))}
    {kwargs : List (String × PT K (Lf O))} {n m : Nat} {X : PT K (Fin n ⊕ O)} {T : PT K (Fin m)}
    {f : (Fin n → ℝ) → Fin m → ℝ} {aux : (Fin n → ℝ) → PT K (Lf O)}
    (h : Computes tuple hasAux fn rest kwargs X T f aux) (v : Fin n → ℝ) [DecidableEq K] :
    innerFun hasAux fn (withNones (X.map fun a => Option.map Lf.other a.getRight?)) rest kwargs
        ((inexactPart X).map fun i => .num (v i)) =
      .ok (T.map fun o => .num (f v o), if hasAux then aux v else .none) := by
  rw [innerFun, fill_combine]
  simp only [bind, Except.bind, h v]
  cases hasAux <;> rfl

theorem flat_computes [DecidableEq K] {tuple : K} {hasAux : Bool} {fn : PyFn K (Lf O)} {rest : List (PT K (Lf O))}
    {kwargs : List (String × PT K (Lf O))} {n m : Nat} {X : PT K (Fin n ⊕ O)} (hX : Numbered X) {T : PT K (Fin m)}
    (hT : T.leaves = List.finRange m) {f : (Fin n → ℝ) → Fin m → ℝ} {aux : (Fin n → ℝ) → PT K (Lf O)}
    (h : Computes tuple hasAux fn rest kwargs X T f aux) (v : Fin n → ℝ) :
    flat (innerFun hasAux fn (withNones (X.map fun a => Option.map Lf.other a.getRight?)) rest kwargs)
      (inexactPart X).shape (List.ofFn v) = .ok (List.ofFn (f v)) := by
  have := unflat (inexactPart X) (inexactPart_leaves hX) (fun i => (.leaf (.num (v i)) : PT K (Lf O))) _ rfl
  rw [flat, List.ofFn_eq_map, List.map_map]
  have e : ((fun r => (.leaf (.num r) : PT K (Lf O))) ∘ v) = fun i => .leaf (.num (v i)) := rfl
  rw [e, this, map_leaf_join (inexactPart X) fun i => (.num (v i) : Lf O)]
  simp only [bind, Except.bind, split_computes h, pure, Except.pure, leaves_map, hT, List.map_map]
  rw [List.ofFn_eq_map]
  rfl

/-- The Jacobian in one line. -/
theorem jac_eq [DecidableEq K] {tuple : K} {hasAux : Bool} {fn : PyFn K (Lf O)} {rest : List (PT K (Lf O))}
    {kwargs : List (String × PT K (Lf O))} {n m : Nat} {X : PT K (Fin n ⊕ O)} (hX : Numbered X) {T : PT K (Fin m)}
    (hT : T.leaves = List.finRange m) {f : (Fin n → ℝ) → Fin m → ℝ} {aux : (Fin n → ℝ) → PT K (Lf O)}
    (h : Computes tuple hasAux fn rest kwargs X T f aux) (J : Modes) (rev : Bool) (hne : if rev then 0 < m else 0 < n)
    (a : Fin n → ℝ) (hd : DifferentiableAt ℝ f a) (hJ : Correct (if rev then J.rev else J.fwd)) :
    jac J tuple hasAux rev fn (fillIn X a :: rest) kwargs = .ok (withAux tuple hasAux
      (T.map fun o => (inexactPart X).map fun i => .num (partialD f o i a)).join (aux a)) := by
  have hl := inexactPart_leaves hX
  have hD := fun (o : Fin m) (i : Fin n) => hJ n m f _ (flat_computes hX hT h) a hd o i
  have hxs : (((inexactPart X).map fun i => (.num (a i) : Lf O)).leaves.map Lf.val) = List.ofFn a := by
    rw [leaves_map, hl, List.map_map, List.ofFn_eq_map]; rfl
  have hb : ∀ o : Fin m, treeUnflatten ((inexactPart X).map fun i => (.num (a i) : Lf O)).shape
      ((List.range ((inexactPart X).map fun i => (.num (a i) : Lf O)).leaves.length).map fun i =>
        (.leaf (.num ((if rev then J.rev else J.fwd) (flat (innerFun hasAux fn (withNones (X.map fun a =>
          Option.map Lf.other a.getRight?)) rest kwargs) ((inexactPart X).map fun i => (.num (a i) : Lf O)).shape)
          (((inexactPart X).map fun i => (.num (a i) : Lf O)).leaves.map Lf.val) o i)) : PT K (Lf O))) =
      .ok ((inexactPart X).map fun i => .num (partialD f o i a)) := by
    intro o
    rw [hxs, leaves_map, hl, List.length_map, List.length_finRange, range_map, shape_map]
    have e : (fun i : Fin n => (.leaf (.num ((if rev then J.rev else J.fwd) (flat (innerFun hasAux fn (withNones (X.map fun a =>
          Option.map Lf.other a.getRight?)) rest kwargs) (inexactPart X).shape) (List.ofFn a) o i)) : PT K (Lf O))) =
        fun i => .leaf (.num (partialD f o i a)) := by
      funext i
      rw [hD]
    rw [e]
    have := unflat (inexactPart X) hl (fun i => (.leaf (.num (partialD f o i a)) : PT K (Lf O))) _ rfl
    rw [this, map_leaf_join (inexactPart X) fun i => (.num (partialD f o i a) : Lf O)]
  have hm : mapE (fun o => treeUnflatten ((inexactPart X).map fun i => (.num (a i) : Lf O)).shape
      ((List.range ((inexactPart X).map fun i => (.num (a i) : Lf O)).leaves.length).map fun i =>
        (.leaf (.num ((if rev then J.rev else J.fwd) (flat (innerFun hasAux fn (withNones (X.map fun a =>
          Option.map Lf.other a.getRight?)) rest kwargs) ((inexactPart X).map fun i => (.num (a i) : Lf O)).shape)
          (((inexactPart X).map fun i => (.num (a i) : Lf O)).leaves.map Lf.val) o i)) : PT K (Lf O))))
      (List.range (T.map fun o => (.num (f a o) : Lf O)).leaves.length) =
      .ok ((List.finRange m).map fun o => (inexactPart X).map fun i => .num (partialD f o i a)) := by
    have hlen : (T.map fun o => (.num (f a o) : Lf O)).leaves.length = m := by rw [leaves_map, hT]; simp
    rw [hlen, show List.range m = (List.finRange m).map (fun i : Fin m => (i : Nat)) by simp]
    generalize List.finRange m = os
    induction os with
    | nil => rfl
    | cons o os ih => simp only [List.map_cons, mapE, hb, ih, bind, Except.bind, pure, Except.pure]
  have c1 : ((inexactPart X).map fun i => (.num (a i) : Lf O)).leaves.all Lf.isNum = true := by
    rw [leaves_map, List.all_eq_true]
    simp only [List.mem_map]
    rintro _ ⟨i, -, rfl⟩
    rfl
  have c2 : (rev || !((inexactPart X).map fun i => (.num (a i) : Lf O)).leaves.isEmpty) = true := by
    cases rev with
    | true => rfl
    | false =>
      rw [leaves_map, hl]
      cases n with
      | zero => exact absurd hne (by simp)
      | succ n => simp [List.finRange_succ]
  have c3 : (T.map fun o => (.num (f a o) : Lf O)).leaves.all Lf.isNum = true := by
    rw [leaves_map, List.all_eq_true]
    simp only [List.mem_map]
    rintro _ ⟨i, -, rfl⟩
    rfl
  have c4 : (!rev || !(T.map fun o => (.num (f a o) : Lf O)).leaves.isEmpty) = true := by
    cases rev with
    | false => rfl
    | true =>
      rw [leaves_map, hT]
      cases m with
      | zero => exact absurd hne (by simp)
      | succ n => simp [List.finRange_succ]
  rw [jac, partition_callable_closed, fill_keep, fill_drop]
  simp only [bind, Except.bind, jaxJac, check, c1, c2, if_true, split_computes h, c3, c4, hm]
  rw [unflat T hT _ _ (shape_map _ _)]
  simp only [pure, Except.pure, withAux]
  cases hasAux <;> rfl

/-! ## Partial derivatives -/

theorem hasDerivAt_update {n : Nat} (a : Fin n → ℝ) (i : Fin n) (t : ℝ) :
    HasDerivAt (fun t => Function.update a i t) (Pi.single i 1) t := by
  rw [hasDerivAt_pi]
  intro j
  by_cases h : j = i
  · subst h
    simpa using hasDerivAt_id' t
  · simp [Function.update_of_ne h, Pi.single_eq_of_ne h, hasDerivAt_const]

theorem partialD_eq {n m : Nat} {f : (Fin n → ℝ) → Fin m → ℝ} {a : Fin n → ℝ} (h : DifferentiableAt ℝ f a) (o : Fin m)
    (i : Fin n) : partialD f o i a = fderiv ℝ f a (Pi.single i 1) o := by
  have h1 : HasFDerivAt f (fderiv ℝ f a) (Function.update a i (a i)) := by
    rw [Function.update_eq_self]; exact h.hasFDerivAt
  have h2 := h1.comp_hasDerivAt (a i) (hasDerivAt_update a i (a i))
  exact (hasDerivAt_pi.1 h2 o).deriv

/-- A mode that is correct. -/
noncomputable def trueMode : Mode := fun F xs o i =>
  deriv (fun t => match F (xs.set i t) with
    | .ok ys => (ys[o]?).getD 0
    | .error _ => 0) ((xs[i]?).getD 0)

theorem trueMode_correct : Correct trueMode := by
  intro n m f F hF a _ o i
  unfold trueMode partialD
  have h1 : ∀ t, (List.ofFn a).set i t = List.ofFn (Function.update a i t) := by
    intro t
    apply List.ext_getElem
    · simp
    · intro k h1 h2
      simp only [List.getElem_set, List.getElem_ofFn, Function.update_apply]
      by_cases hk : (i : Nat) = k
      · subst hk; simp
      · have : ¬ (⟨k, by simpa using h2⟩ : Fin n) = i := fun e => hk (by rw [← e])
        simp [hk, this]
  have h2 : ((List.ofFn a)[(i : Nat)]?).getD 0 = a i := by simp
  rw [h2]
  congr 1
  funext t
  rw [h1, hF]
  simp

/-! ## The theorems -/

section

variable [DecidableEq K] {tuple : K} {hasAux : Bool} {fn : PyFn K (Lf O)} {rest : List (PT K (Lf O))}
    {kwargs : List (String × PT K (Lf O))} {n m : Nat} {X : PT K (Fin n ⊕ O)} {T : PT K (Fin m)}
    {f : (Fin n → ℝ) → Fin m → ℝ} {aux : (Fin n → ℝ) → PT K (Lf O)}

/-- `filter_jacfwd`: the output, each leaf of which is replaced by the first argument with the partial derivatives of that
leaf at its floating-point leaves and `None` at the others; and then the auxiliary output as it is. -/
theorem jacfwd_spec (hX : Numbered X) (hT : T.leaves = List.finRange m) (h : Computes tuple hasAux fn rest kwargs X T f aux)
    (J : Modes) (hJ : Correct J.fwd) (hn : 0 < n) (a : Fin n → ℝ) (hd : DifferentiableAt ℝ f a) :
    filterJacfwd J tuple hasAux fn (fillIn X a :: rest) kwargs = .ok (if hasAux then
      .node tuple [(T.map fun o => (inexactPart X).map fun i => .num (partialD f o i a)).join, aux a]
      else (T.map fun o => (inexactPart X).map fun i => .num (partialD f o i a)).join) :=
  jac_eq hX hT h J false hn a hd hJ

/-- `filter_jacrev` gives the same. -/
theorem jacrev_spec (hX : Numbered X) (hT : T.leaves = List.finRange m) (h : Computes tuple hasAux fn rest kwargs X T f aux)
    (J : Modes) (hJ : Correct J.rev) (hm : 0 < m) (a : Fin n → ℝ) (hd : DifferentiableAt ℝ f a) :
    filterJacrev J tuple hasAux fn (fillIn X a :: rest) kwargs = .ok (if hasAux then
      .node tuple [(T.map fun o => (inexactPart X).map fun i => .num (partialD f o i a)).join, aux a]
      else (T.map fun o => (inexactPart X).map fun i => .num (partialD f o i a)).join) :=
  jac_eq hX hT h J true hm a hd hJ

/-- In particular forward and reverse mode agree. -/
theorem jac_agree (hX : Numbered X) (hT : T.leaves = List.finRange m) (h : Computes tuple hasAux fn rest kwargs X T f aux)
    (J : Modes) (h1 : Correct J.fwd) (h2 : Correct J.rev) (hn : 0 < n) (hm : 0 < m) (a : Fin n → ℝ)
    (hd : DifferentiableAt ℝ f a) :
    filterJacfwd J tuple hasAux fn (fillIn X a :: rest) kwargs = filterJacrev J tuple hasAux fn (fillIn X a :: rest) kwargs := by
  rw [jacfwd_spec hX hT h J h1 hn a hd, jacrev_spec hX hT h J h2 hm a hd]

omit [DecidableEq K] in
/-- The places of the first argument: one below the place of an output. -/
theorem jac_entry (o : Fin m) (i : Fin n) (π ρ : List Nat) (g : Fin m → Fin n → Lf O) (ho : T.leafAt? π = some o)
    (hi : X.leafAt? ρ = some (.inl i)) :
    (T.map fun o => (inexactPart X).map fun i => g o i).join.leafAt? (π ++ ρ) = some (g o i) := by
  rw [leafAt?_eq_some, get?_join (x := (inexactPart X).map fun i => g o i) (by rw [leafAt?_map, ho]; rfl)]
  rw [← leafAt?_eq_some, leafAt?_map]
  have : (inexactPart X).leafAt? ρ = some i := by
    rw [leafAt?_eq_some, inexactPart, withNones, get?_join_nil (x := .leaf i)]
    rw [map_map, leafAt?_map, hi]
    rfl
  rw [this]
  rfl

omit [DecidableEq K] in
theorem join_index (hT : T.leaves = List.finRange m) (hX : Numbered X) :
    ((T.map fun o => (inexactPart X).map fun i => (finProdFinEquiv (o, i) : Fin (m * n))).join).leaves =
      List.finRange (m * n) := by
  have key : ∀ c : PT K (PT K (Fin (m * n))), c.join.leaves = c.leaves.flatMap leaves := by
    intro c
    induction c using PT.ind with
    | leaf a => simp [join, leaves]
    | none => simp [join, leaves]
    | node k cs ih =>
      simp only [join, joinL_eq, leaves, leavesL_eq, List.flatMap_map]
      induction cs with
      | nil => rfl
      | cons c cs ihc =>
        simp only [List.flatMap_cons, List.flatMap_append]
        rw [ih c (by simp), ihc fun c hc => ih c (by simp [hc])]
  rw [key, leaves_map, hT, List.flatMap_map]
  simp only [leaves_map, inexactPart_leaves hX]
  rw [← List.ofFn_id (m * n), List.ofFn_mul, List.flatMap_def, List.ofFn_eq_map]
  congr 1
  apply List.map_congr_left
  intro o _
  rw [List.ofFn_eq_map]
  apply List.map_congr_left
  intro i _
  apply Fin.ext
  simp [finProdFinEquiv, Nat.mul_comm, Nat.add_comm]

/-- `filter_hessian`: each leaf of the output is replaced by the first argument, in which each floating-point leaf is
replaced by the first argument with the second partial derivatives. -/
theorem hessian_spec (hX : Numbered X) (hT : T.leaves = List.finRange m) (h : Computes tuple hasAux fn rest kwargs X T f aux)
    (J : Modes) (h1 : Correct J.fwd) (h2 : Correct J.rev) (hn : 0 < n) (hm : 0 < m) (hf : ContDiff ℝ 2 f) (a : Fin n → ℝ) :
    filterHessian J tuple hasAux fn (fillIn X a :: rest) kwargs = .ok (
      let hess := (T.map fun o => ((inexactPart X).map fun i => (inexactPart X).map fun j =>
        .num (deriv (fun t => partialD f o i (Function.update a j t)) (a j))).join).join
      if hasAux then .node tuple [hess, aux a] else hess) := by
  have hdf : Differentiable ℝ f := hf.differentiable (by norm_num)
  have hd2 : Differentiable ℝ (fderiv ℝ f) := (hf.fderiv_right (m := 1) (by norm_num)).differentiable (by norm_num)
  let f' : (Fin n → ℝ) → Fin (m * n) → ℝ := fun v k => partialD f (finProdFinEquiv.symm k).1 (finProdFinEquiv.symm k).2 v
  let T' := (T.map fun o => (inexactPart X).map fun i => (finProdFinEquiv (o, i) : Fin (m * n))).join
  have hT' : ∀ g : Fin m → Fin n → PT K (Lf O), (T'.map fun k => g (finProdFinEquiv.symm k).1 (finProdFinEquiv.symm k).2) =
      (T.map fun o => (inexactPart X).map fun i => g o i).join := by
    intro g
    simp only [T']
    rw [map_join, map_map]
    simp only [map_map, Equiv.symm_apply_apply]
  have hC : Computes tuple hasAux (filterJacrev J tuple hasAux fn) rest kwargs X T' f' aux := by
    intro v
    rw [jacrev_spec hX hT h J h2 hm v (hdf v)]
    have : (T'.map fun k => (.num (f' v k) : Lf O)) =
        (T.map fun o => (inexactPart X).map fun i => (.num (partialD f o i v) : Lf O)).join := by
      simp only [T', f']
      rw [map_join, map_map]
      simp only [map_map, Equiv.symm_apply_apply]
    rw [this]
  have hd' : DifferentiableAt ℝ f' a := by
    rw [differentiableAt_pi]
    intro k
    have : (fun v => f' v k) = fun v => fderiv ℝ f v (Pi.single (finProdFinEquiv.symm k).2 1) (finProdFinEquiv.symm k).1 := by
      funext v
      exact partialD_eq (hdf v) _ _
    rw [this]
    have h3 := (hd2 a).clm_apply (differentiableAt_const (Pi.single (finProdFinEquiv.symm k).2 (1 : ℝ) : Fin n → ℝ))
    exact differentiableAt_pi.1 h3 _
  rw [filterHessian, jacfwd_spec hX (join_index hT hX) hC J h1 hn a hd']
  have e := hT' fun o i => (inexactPart X).map fun j =>
    .num (deriv (fun t => partialD f o i (Function.update a j t)) (a j))
  have e2 : (T'.map fun o => (inexactPart X).map fun i => (.num (partialD f' o i a) : Lf O)) =
      (T.map fun o => (inexactPart X).map fun i => (inexactPart X).map fun j =>
        (.num (deriv (fun t => partialD f o i (Function.update a j t)) (a j)) : Lf O)).join := e
  rw [e2, join_join, map_map]

/-- The second partial derivatives do not depend on the order: the Hessian is symmetric. -/
theorem hessian_symmetric (f : (Fin n → ℝ) → Fin m → ℝ) (hf : ContDiff ℝ 2 f) (a : Fin n → ℝ) (o : Fin m) (i j : Fin n) :
    deriv (fun t => partialD f o i (Function.update a j t)) (a j) =
      deriv (fun t => partialD f o j (Function.update a i t)) (a i) := by
  have hdf : Differentiable ℝ f := hf.differentiable (by norm_num)
  have hd2 : Differentiable ℝ (fderiv ℝ f) := (hf.fderiv_right (m := 1) (by norm_num)).differentiable (by norm_num)
  have key : ∀ i j : Fin n, deriv (fun t => partialD f o i (Function.update a j t)) (a j) =
      fderiv ℝ (fderiv ℝ f) a (Pi.single j 1) (Pi.single i 1) o := by
    intro i j
    have e : (fun t => partialD f o i (Function.update a j t)) =
        fun t => fderiv ℝ f (Function.update a j t) (Pi.single i 1) o := by
      funext t
      exact partialD_eq (hdf _) _ _
    rw [e]
    have h1 : HasFDerivAt (fderiv ℝ f) (fderiv ℝ (fderiv ℝ f) a) (Function.update a j (a j)) := by
      rw [Function.update_eq_self]; exact (hd2 a).hasFDerivAt
    have h2 := h1.comp_hasDerivAt (a j) (hasDerivAt_update a j (a j))
    have h3 := h2.clm_apply (hasDerivAt_const (a j) (Pi.single i (1 : ℝ) : Fin n → ℝ))
    have h4 := (hasDerivAt_pi.1 h3 o).deriv
    simpa [Function.comp_def] using h4
  rw [key i j, key j i]
  have := (hf.contDiffAt (x := a)).isSymmSndFDerivAt (by simp)
  rw [this]

end

/-! ## Errors -/

section

variable [DecidableEq K]

theorem isNum_iff (a : Lf O) : a.isNum = true ↔ ∃ r, a = .num r := by
  cases a with
  | num r => exact ⟨fun _ => ⟨r, rfl⟩, fun _ => rfl⟩
  | other o => exact ⟨fun h => (by cases h), fun ⟨r, h⟩ => (by cases h)⟩

/-- A call in terms of the function's output. -/
theorem jac_unfold (J : Modes) (tuple : K) (hasAux rev : Bool) (fn : PyFn K (Lf O)) (x : PT K (Lf O))
    (rest : List (PT K (Lf O))) (kwargs : List (String × PT K (Lf O))) : ∃ g d,
      d.leaves = x.leaves.filter Lf.isNum ∧ g d = (fn (x :: rest) kwargs >>= splitAux hasAux) ∧
      jac J tuple hasAux rev fn (x :: rest) kwargs =
        (jaxJac J rev g d >>= fun r => pure (withAux tuple hasAux r.1 r.2)) := by
  obtain ⟨d, h1, h2, -⟩ := combine_subst (subst_self Lf.isNum x)
  have hd : d = withNones (x.map (keep Lf.isNum)) := by
    obtain ⟨e1, e2⟩ := unflatten_ok h1
    exact eq_of_shape_leaves e1 (by rw [e2, leaves_keep])
  refine ⟨innerFun hasAux fn (withNones (x.map (drop Lf.isNum))) rest kwargs, d, by rw [hd, leaves_keep], ?_, ?_⟩
  · rw [innerFun, h2]
    rfl
  · rw [jac, partition_callable_closed]
    simp only [bind, Except.bind]
    rw [hd]
    rfl

theorem filter_all (l : List (Lf O)) : (l.filter Lf.isNum).all Lf.isNum = true := by
  rw [List.all_eq_true]
  intro a ha
  exact (List.mem_filter.1 ha).2

/-- Forward mode needs a floating-point leaf to differentiate with respect to, and the function is not called without one. -/
theorem jacfwd_no_inputs (J : Modes) (tuple : K) (hasAux : Bool) (fn : PyFn K (Lf O)) (x : PT K (Lf O))
    (rest : List (PT K (Lf O))) (kwargs : List (String × PT K (Lf O))) (hx : ∀ r, Lf.num r ∉ x.leaves) :
    filterJacfwd J tuple hasAux fn (x :: rest) kwargs = .error .valueError := by
  obtain ⟨g, d, h1, h2, h3⟩ := jac_unfold J tuple hasAux false fn x rest kwargs
  have : d.leaves = [] := by
    rw [h1, List.filter_eq_nil_iff]
    intro a ha hn
    obtain ⟨r, rfl⟩ := (isNum_iff a).1 hn
    exact hx r ha
  rw [filterJacfwd, h3]
  simp [jaxJac, this, check, bind, Except.bind]

/-- What the function raises is raised, in either mode. -/
theorem jac_raises (J : Modes) (tuple : K) (hasAux : Bool) (fn : PyFn K (Lf O)) (x : PT K (Lf O))
    (rest : List (PT K (Lf O))) (kwargs : List (String × PT K (Lf O))) (e : Err)
    (he : fn (x :: rest) kwargs = .error e) :
    filterJacrev J tuple hasAux fn (x :: rest) kwargs = .error e ∧
      ((∃ r, Lf.num r ∈ x.leaves) → filterJacfwd J tuple hasAux fn (x :: rest) kwargs = .error e) := by
  constructor
  · obtain ⟨g, d, h1, h2, h3⟩ := jac_unfold J tuple hasAux true fn x rest kwargs
    rw [filterJacrev, h3, jaxJac, h1, filter_all, h2, he]
    rfl
  · rintro ⟨r, hr⟩
    obtain ⟨g, d, h1, h2, h3⟩ := jac_unfold J tuple hasAux false fn x rest kwargs
    have hne : (x.leaves.filter Lf.isNum).isEmpty = false := by
      rw [List.isEmpty_eq_false_iff]
      exact List.ne_nil_of_mem (List.mem_filter.2 ⟨hr, rfl⟩)
    rw [filterJacfwd, h3, jaxJac, h1, filter_all, h2, he, hne]
    rfl

/-- The outputs have to be floating-point, and in reverse mode there has to be one; the filter applies to the inputs only. -/
theorem jac_outputs (J : Modes) (tuple : K) (hasAux : Bool) (fn : PyFn K (Lf O)) (x : PT K (Lf O))
    (rest : List (PT K (Lf O))) (kwargs : List (String × PT K (Lf O))) (out aux : PT K (Lf O))
    (ho : fn (x :: rest) kwargs = .ok (if hasAux then .node tuple [out, aux] else out)) :
    ((∃ o, Lf.other o ∈ out.leaves) → filterJacrev J tuple hasAux fn (x :: rest) kwargs = .error .typeError) ∧
      ((∃ o, Lf.other o ∈ out.leaves) → (∃ r, Lf.num r ∈ x.leaves) →
        filterJacfwd J tuple hasAux fn (x :: rest) kwargs = .error .typeError) ∧
      (out.leaves = [] → filterJacrev J tuple hasAux fn (x :: rest) kwargs = .error .valueError) ∧
      (out.leaves = [] → (∃ r, Lf.num r ∈ x.leaves) →
        filterJacfwd J tuple hasAux fn (x :: rest) kwargs = .ok (if hasAux then .node tuple [out, aux] else out)) := by
  have hs : (fn (x :: rest) kwargs >>= splitAux hasAux) = .ok (out, if hasAux then aux else .none) := by
    rw [ho]
    cases hasAux <;> rfl
  have hna : (∃ o, Lf.other o ∈ out.leaves) → out.leaves.all Lf.isNum = false := by
    rintro ⟨o, h⟩
    rw [List.all_eq_false]
    exact ⟨_, h, by simp [Lf.isNum]⟩
  have hne : (∃ r, Lf.num r ∈ x.leaves) → (x.leaves.filter Lf.isNum).isEmpty = false := by
    rintro ⟨r, hr⟩
    rw [List.isEmpty_eq_false_iff]
    exact List.ne_nil_of_mem (List.mem_filter.2 ⟨hr, rfl⟩)
  refine ⟨fun h => ?_, fun h hx => ?_, fun h => ?_, fun h hx => ?_⟩
  · obtain ⟨g, d, h1, h2, h3⟩ := jac_unfold J tuple hasAux true fn x rest kwargs
    rw [filterJacrev, h3, jaxJac, h1, filter_all, h2, hs]
    simp [check, bind, Except.bind, hna h]
  · obtain ⟨g, d, h1, h2, h3⟩ := jac_unfold J tuple hasAux false fn x rest kwargs
    rw [filterJacfwd, h3, jaxJac, h1, filter_all, h2, hs]
    simp [check, bind, Except.bind, hna h, hne hx]
  · obtain ⟨g, d, h1, h2, h3⟩ := jac_unfold J tuple hasAux true fn x rest kwargs
    rw [filterJacrev, h3, jaxJac, h1, filter_all, h2, hs]
    simp [check, bind, Except.bind, h]
  · obtain ⟨g, d, h1, h2, h3⟩ := jac_unfold J tuple hasAux false fn x rest kwargs
    have hu : treeUnflatten out.shape [] = .ok out := by
      have := treeUnflatten_shape (out.map fun a => (.leaf a : PT K (Lf O)))
      rwa [shape_map, leaves_map, h, List.map_nil, join_map_leaf] at this
    rw [filterJacfwd, h3, jaxJac, h1, filter_all, h2, hs]
    simp only [check, bind, Except.bind, hne hx, h, List.length_nil, List.range_zero, mapE, hu]
    cases hasAux <;> simp [withAux, pure, Except.pure]

end

/-! ## A case that meets the hypotheses -/

/-- `lambda x: {"p": x[0] * x[2], "s": x[0] + x[2]}` -/
def exFn : PyFn String (Lf Nat)
  | [.node "list" [.leaf (.num a), _, .leaf (.num b)]], _ => .ok (.node "dict" [.leaf (.num (a * b)), .leaf (.num (a + b))])
  | _, _ => .error .typeError

/-- `[x, 7, y]` -/
def exX : PT String (Fin 2 ⊕ Nat) := .node "list" [.leaf (.inl 0), .leaf (.inr 7), .leaf (.inl 1)]

def exF : (Fin 2 → ℝ) → Fin 2 → ℝ := fun v => ![v 0 * v 1, v 0 + v 1]

example : Numbered exX ∧ (PT.node "dict" [.leaf 0, .leaf 1] : PT String (Fin 2)).leaves = List.finRange 2 ∧
    Computes "tuple" false exFn [] [] exX (.node "dict" [.leaf 0, .leaf 1]) exF (fun _ => .none) ∧ ContDiff ℝ 2 exF ∧
    Correct trueMode := by
  refine ⟨by simp [Numbered, exX, leaves, leavesL, List.finRange_succ, List.filterMap_cons], by simp [leaves, leavesL, List.finRange_succ], ?_, ?_,
    trueMode_correct⟩
  · intro v
    simp [fillIn, exX, PT.map, mapL, exFn, exF]
  · rw [contDiff_pi]
    intro i
    fin_cases i
    · exact (contDiff_apply ℝ ℝ 0).mul (contDiff_apply ℝ ℝ 1)
    · exact (contDiff_apply ℝ ℝ 0).add (contDiff_apply ℝ ℝ 1)

end Jac
end AD
end Verif
