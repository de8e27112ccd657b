import Verif.TreeCheck.Model

/-! # Properties of `tree_check` -/

namespace Verif
namespace TreeCheck

/-! ### Vocabulary -/

/-- The children of an object. -/
def children (h : Heap) (x : Nat) : List Nat :=
  match h x with
  | .leaf => []
  | .node cs => cs

/-- Following the child indices `p` from `x` leads to `y`. -/
inductive Path (h : Heap) : Nat → List Nat → Nat → Prop
  | here (x) : Path h x [] x
  | step {x c y : Nat} {i : Nat} {p : List Nat} : (children h x)[i]? = some c → Path h c p y → Path h x (i :: p) y

/-- Containers which are not empty. -/
def Big (h : Heap) (x : Nat) : Prop := children h x ≠ []

/-- No non-empty container is found at two places of the tree with root `x`. -/
def Unique (h : Heap) (x : Nat) : Prop := ∀ p q y, Path h x p y → Path h x q y → Big h y → p = q

/-- Only finitely many objects, the numbers below `n`, can be reached from `x`. -/
def Finite (h : Heap) (x n : Nat) : Prop := ∀ p y, Path h x p y → y < n

/-! ### Paths -/

theorem Path.append {h : Heap} {x y z p q} (a : Path h x p y) (b : Path h y q z) : Path h x (p ++ q) z := by
  induction a with
  | here => exact b
  | step hc _ ih => exact .step hc (ih b)

theorem Path.child {h : Heap} {x y c : Nat} {p : List Nat} {i : Nat} (a : Path h x p y) (hc : (children h y)[i]? = some c) :
    Path h x (p ++ [i]) c := a.append (.step hc (.here c))

theorem flatten_some {h : Heap} {x cs} (hf : flattenOneLevel h x = .ok (some cs)) : children h x = cs ∧ x ∉ cs := by
  unfold flattenOneLevel at hf
  unfold children
  cases hx : h x with
  | leaf => simp [hx] at hf
  | node ds =>
    simp only [hx] at hf
    split at hf
    · exact absurd hf (by simp)
    · simp only [Except.ok.injEq, Option.some.injEq] at hf; subst hf
      exact ⟨rfl, by assumption⟩

theorem flatten_none {h : Heap} {x} (hf : flattenOneLevel h x = .ok none) : children h x = [] := by
  unfold flattenOneLevel at hf
  unfold children
  cases hx : h x with
  | leaf => rfl
  | node ds =>
    simp only [hx] at hf
    split at hf <;> exact absurd hf (by simp)

theorem flatten_error {h : Heap} {x e} (hf : flattenOneLevel h x = .error e) : e = .immediate x ∧ x ∈ children h x := by
  unfold flattenOneLevel at hf
  unfold children
  cases hx : h x with
  | leaf => simp [hx] at hf
  | node ds =>
    simp only [hx] at hf
    split at hf
    · simp only [Except.error.injEq] at hf; subst hf
      simp only [true_and]; assumption
    · exact absurd hf (by simp)

/-! ### Termination -/

/-- How many objects are not in `all_nodes` yet. -/
def unseen (n : Nat) (seen : Seen) : Nat := ((List.range n).filter (fun y => decide (y ∉ seen.map (·.1)))).length

theorem unseen_mono {n : Nat} {s s' : Seen} (hs : ∀ y, y ∈ s.map (·.1) → y ∈ s'.map (·.1)) : unseen n s' ≤ unseen n s := by
  unfold unseen
  rw [← List.countP_eq_length_filter, ← List.countP_eq_length_filter]
  apply List.countP_mono_left
  intro y _ hy
  simp only [decide_eq_true_eq] at hy ⊢
  exact fun hm => hy (hs y hm)

theorem filter_lt {l : List Nat} {P Q : Nat → Bool} {x : Nat} (hx : x ∈ l) (hQ : Q x = true) (hP : P x = false)
    (h : ∀ y, P y = true → Q y = true) : (l.filter P).length < (l.filter Q).length := by
  rw [← List.countP_eq_length_filter, ← List.countP_eq_length_filter]
  induction l with
  | nil => simp at hx
  | cons a l ih =>
    have hmono : l.countP P ≤ l.countP Q := List.countP_mono_left (fun y _ => h y)
    rw [List.countP_cons, List.countP_cons]
    rw [List.mem_cons] at hx
    rcases hx with rfl | hx
    · simp only [hP, hQ]; simp; omega
    · have := ih hx
      cases hpa : P a
      · simp only [Bool.false_eq_true, if_false]; split <;> omega
      · simp only [h a hpa, if_true]; omega

theorem unseen_lt {n x : Nat} {b} {s : Seen} (hx : x < n) (hn : x ∉ s.map (·.1)) : unseen n ((x, b) :: s) < unseen n s := by
  unfold unseen
  apply filter_lt (x := x) (List.mem_range.2 hx)
  · simpa using hn
  · simp
  · intro y hy
    simp only [List.map_cons, List.mem_cons, not_or, decide_eq_true_eq] at hy ⊢
    exact hy.2

theorem lookup_none_iff {s : Seen} {x : Nat} : s.lookup x = none ↔ x ∉ s.map (·.1) := by
  induction s with
  | nil => simp
  | cons a s ih =>
    obtain ⟨k, b⟩ := a
    simp only [List.lookup_cons, List.map_cons, List.mem_cons, not_or]
    by_cases hk : x = k
    · subst hk; simp
    · have : (x == k) = false := by simpa using hk
      simp [this, ih, hk]

/-- Checking only adds to `all_nodes`. -/
theorem check_mono {h : Heap} : ∀ fuel,
    (∀ x s s', check h fuel x s = some (.ok s') → ∀ y, y ∈ s.map (·.1) → y ∈ s'.map (·.1)) ∧
    (∀ cs s s', checkAll (check h fuel) cs s = some (.ok s') → ∀ y, y ∈ s.map (·.1) → y ∈ s'.map (·.1)) := by
  intro fuel
  induction fuel with
  | zero =>
    refine ⟨by intro x s s' hc; simp [check] at hc, ?_⟩
    intro cs s s' hc
    cases cs with
    | nil => simp only [checkAll, Option.some.injEq, Except.ok.injEq] at hc; subst hc; exact fun _ h => h
    | cons c cs => simp [checkAll, check] at hc
  | succ fuel ih =>
    have h1 : ∀ x s s', check h (fuel + 1) x s = some (.ok s') → ∀ y, y ∈ s.map (·.1) → y ∈ s'.map (·.1) := by
      intro x s s' hc y hy
      simp only [check] at hc
      split at hc
      · simp at hc
      · simp only [Option.some.injEq, Except.ok.injEq] at hc; subst hc; exact hy
      · simp only [Option.some.injEq, Except.ok.injEq] at hc; subst hc; exact hy
      · split at hc
        · simp at hc
        · simp at hc
        · split at hc
          · rename_i s1 hs1
            simp only [Option.some.injEq, Except.ok.injEq] at hc; subst hc
            have := ih.2 _ _ _ hs1 y (by simp only [List.map_cons, List.mem_cons]; exact .inr hy)
            simp only [List.map_cons, List.mem_cons]; exact .inr this
          · rename_i hno
            exact absurd hc (hno s')
    refine ⟨h1, ?_⟩
    intro cs
    induction cs with
    | nil =>
      intro s s' hc
      simp only [checkAll, Option.some.injEq, Except.ok.injEq] at hc; subst hc; exact fun _ h => h
    | cons c cs ih2 =>
      intro s s' hc y hy
      simp only [checkAll] at hc
      split at hc
      · rename_i s1 hs1
        exact ih2 _ _ hc y (h1 _ _ _ hs1 y hy)
      · rename_i hno
        exact absurd hc (hno s')

/-- On finitely many objects, a depth of their number plus one suffices. -/
theorem check_terminates {h : Heap} {n : Nat} : ∀ fuel,
    (∀ x s, Finite h x n → unseen n s < fuel → (check h fuel x s).isSome) ∧
    (∀ cs s, (∀ c ∈ cs, Finite h c n) → unseen n s < fuel → (checkAll (check h fuel) cs s).isSome) := by
  intro fuel
  induction fuel with
  | zero => exact ⟨fun _ _ _ h => absurd h (by omega), fun _ _ _ h => absurd h (by omega)⟩
  | succ fuel ih =>
    have h1 : ∀ x s, Finite h x n → unseen n s < fuel + 1 → (check h (fuel + 1) x s).isSome := by
      intro x s hfin hlt
      simp only [check]
      split
      · rfl
      · rfl
      · rfl
      · rename_i c cs hf
        split
        · rfl
        · rfl
        · rename_i hl
          have hx : x < n := hfin [] x (.here x)
          have hu := unseen_lt (b := true) hx (lookup_none_iff.1 hl)
          have hch := (flatten_some hf).1
          have := ih.2 (c :: cs) ((x, true) :: s) (by
            intro d hd p y hp
            rw [← hch] at hd
            obtain ⟨i, hi, hi'⟩ := List.getElem_of_mem hd
            exact hfin (i :: p) y (.step (by rw [List.getElem?_eq_getElem hi, hi']) hp)) (by omega)
          split
          · rfl
          · exact this
    refine ⟨h1, ?_⟩
    intro cs
    induction cs with
    | nil => intro s _ _; simp [checkAll]
    | cons c cs ih2 =>
      intro s hfin hlt
      have hc := h1 c s (hfin c (by simp)) hlt
      simp only [checkAll]
      split
      · rename_i s1 hs1
        have := unseen_mono (n := n) ((check_mono (h := h) (fuel + 1)).1 _ _ _ hs1)
        exact ih2 s1 (fun d hd => hfin d (List.mem_cons_of_mem _ hd)) (by omega)
      · exact hc

/-! ### Errors -/

/-- Where the objects in `all_nodes` are found, relative to the position `p` that is checked next. -/
def Known (h : Heap) (root : Nat) (p : List Nat) (s : Seen) : Prop :=
  ∀ y, y ∈ s.map (·.1) → ∃ q, Path h root q y ∧ ¬ p <+: q

/-- The objects marked as being checked contain the one that is checked next. -/
def Above (h : Heap) (x : Nat) (s : Seen) : Prop := ∀ y, s.lookup y = some true → ∃ q, q ≠ [] ∧ Path h y q x

/-- The meaning of the errors. -/
def Meaning (h : Heap) (root : Nat) : Msg → Prop
  | .immediate y => ∃ (p : List Nat) (i : Nat), Path h root p y ∧ (children h y)[i]? = some y
  | .selfReferential y => Big h y ∧ (∃ p, Path h root p y) ∧ ∃ q, q ≠ [] ∧ Path h y q y
  | .multiple y => Big h y ∧ ∃ p q, p ≠ q ∧ Path h root p y ∧ Path h root q y

/-- Checking does not change which objects are marked as being checked. -/
theorem check_marks {h : Heap} : ∀ fuel,
    (∀ x s s', check h fuel x s = some (.ok s') → ∀ y, s'.lookup y = some true ↔ s.lookup y = some true) ∧
    (∀ cs s s', checkAll (check h fuel) cs s = some (.ok s') → ∀ y, s'.lookup y = some true ↔ s.lookup y = some true) := by
  intro fuel
  induction fuel with
  | zero =>
    refine ⟨by intro x s s' hc; simp [check] at hc, ?_⟩
    intro cs s s' hc
    cases cs with
    | nil => simp only [checkAll, Option.some.injEq, Except.ok.injEq] at hc; subst hc; exact fun _ => Iff.rfl
    | cons c cs => simp [checkAll, check] at hc
  | succ fuel ih =>
    have h1 : ∀ x s s', check h (fuel + 1) x s = some (.ok s') →
        ∀ y, s'.lookup y = some true ↔ s.lookup y = some true := by
      intro x s s' hc y
      simp only [check] at hc
      split at hc
      · simp at hc
      · simp only [Option.some.injEq, Except.ok.injEq] at hc; subst hc; exact Iff.rfl
      · simp only [Option.some.injEq, Except.ok.injEq] at hc; subst hc; exact Iff.rfl
      · split at hc
        · simp at hc
        · simp at hc
        · rename_i hl
          split at hc
          · rename_i s1 hs1
            simp only [Option.some.injEq, Except.ok.injEq] at hc; subst hc
            have := ih.2 _ _ _ hs1 y
            by_cases hy : y = x
            · subst hy
              simp [List.lookup_cons, hl]
            · have hb : (y == x) = false := by simpa using hy
              simp only [List.lookup_cons, hb] at this ⊢
              exact this
          · rename_i hno
            exact absurd hc (hno s')
    refine ⟨h1, ?_⟩
    intro cs
    induction cs with
    | nil =>
      intro s s' hc
      simp only [checkAll, Option.some.injEq, Except.ok.injEq] at hc; subst hc; exact fun _ => Iff.rfl
    | cons c cs ih2 =>
      intro s s' hc y
      simp only [checkAll] at hc
      split at hc
      · rename_i s1 hs1
        exact (ih2 _ _ hc y).trans (h1 _ _ _ hs1 y)
      · rename_i hno
        exact absurd hc (hno s')

/-- Everything that checking adds to `all_nodes` can be reached from the object checked. -/
theorem check_adds {h : Heap} : ∀ fuel,
    (∀ x s s', check h fuel x s = some (.ok s') → ∀ y, y ∈ s'.map (·.1) → y ∈ s.map (·.1) ∨ ∃ q, Path h x q y) ∧
    (∀ cs s s', checkAll (check h fuel) cs s = some (.ok s') →
      ∀ y, y ∈ s'.map (·.1) → y ∈ s.map (·.1) ∨ ∃ (j : Nat) (c : Nat) (q : List Nat), cs[j]? = some c ∧ Path h c q y) := by
  intro fuel
  induction fuel with
  | zero =>
    refine ⟨by intro x s s' hc; simp [check] at hc, ?_⟩
    intro cs s s' hc
    cases cs with
    | nil => simp only [checkAll, Option.some.injEq, Except.ok.injEq] at hc; subst hc; exact fun _ h => .inl h
    | cons c cs => simp [checkAll, check] at hc
  | succ fuel ih =>
    have h1 : ∀ x s s', check h (fuel + 1) x s = some (.ok s') →
        ∀ y, y ∈ s'.map (·.1) → y ∈ s.map (·.1) ∨ ∃ q, Path h x q y := by
      intro x s s' hc y hy
      simp only [check] at hc
      split at hc
      · simp at hc
      · simp only [Option.some.injEq, Except.ok.injEq] at hc; subst hc; exact .inl hy
      · simp only [Option.some.injEq, Except.ok.injEq] at hc; subst hc; exact .inl hy
      · rename_i c cs hf
        split at hc
        · simp at hc
        · simp at hc
        · split at hc
          · rename_i s1 hs1
            simp only [Option.some.injEq, Except.ok.injEq] at hc; subst hc
            simp only [List.map_cons, List.mem_cons] at hy
            rcases hy with rfl | hy
            · exact .inr ⟨[], .here _⟩
            · rcases ih.2 _ _ _ hs1 y hy with hy | ⟨j, d, q, hj, hq⟩
              · simp only [List.map_cons, List.mem_cons] at hy
                rcases hy with rfl | hy
                · exact .inr ⟨[], .here _⟩
                · exact .inl hy
              · exact .inr ⟨j :: q, .step (by rw [(flatten_some hf).1, hj]) hq⟩
          · rename_i hno
            exact absurd hc (hno s')
    refine ⟨h1, ?_⟩
    intro cs
    induction cs with
    | nil =>
      intro s s' hc
      simp only [checkAll, Option.some.injEq, Except.ok.injEq] at hc; subst hc; exact fun _ h => .inl h
    | cons c cs ih2 =>
      intro s s' hc y hy
      simp only [checkAll] at hc
      split at hc
      · rename_i s1 hs1
        rcases ih2 _ _ hc y hy with hy | ⟨j, d, q, hj, hq⟩
        · rcases h1 _ _ _ hs1 y hy with hy | ⟨q, hq⟩
          · exact .inl hy
          · exact .inr ⟨0, c, q, rfl, hq⟩
        · exact .inr ⟨j + 1, d, q, by simpa using hj, hq⟩
      · rename_i hno
        exact absurd hc (hno s')

/-- Errors are justified. -/
theorem check_error {h : Heap} {root : Nat} : ∀ fuel,
    (∀ x p s e, Path h root p x → Known h root p s → Above h x s → check h fuel x s = some (.error e) → Meaning h root e) ∧
    (∀ x p k cs s e, Path h root p x → (children h x).drop k = cs →
      (∀ y, y ∈ s.map (·.1) → ∃ q, Path h root q y ∧ ∀ i, k ≤ i → ¬ (p ++ [i]) <+: q) →
      (∀ y, s.lookup y = some true → y = x ∨ ∃ q, q ≠ [] ∧ Path h y q x) →
      checkAll (check h fuel) cs s = some (.error e) → Meaning h root e) := by
  intro fuel
  induction fuel with
  | zero =>
    refine ⟨by intro x p s e _ _ _ hc; simp [check] at hc, ?_⟩
    intro x p k cs s e _ _ _ _ hc
    cases cs with
    | nil => simp [checkAll] at hc
    | cons c cs => simp [checkAll, check] at hc
  | succ fuel ih =>
    have h1 : ∀ x p s e, Path h root p x → Known h root p s → Above h x s →
        check h (fuel + 1) x s = some (.error e) → Meaning h root e := by
      intro x p s e hp hk ha hc
      simp only [check] at hc
      split at hc
      · rename_i e' hf
        simp only [Option.some.injEq, Except.error.injEq] at hc; subst hc
        obtain ⟨rfl, hm⟩ := flatten_error hf
        obtain ⟨i, hi, hi'⟩ := List.getElem_of_mem hm
        exact ⟨p, i, hp, by rw [List.getElem?_eq_getElem hi, hi']⟩
      · simp at hc
      · simp at hc
      · rename_i c cs hf
        have hbig : Big h x := by unfold Big; rw [(flatten_some hf).1]; simp
        split at hc
        · rename_i hl
          simp only [Option.some.injEq, Except.error.injEq] at hc; subst hc
          exact ⟨hbig, ⟨p, hp⟩, ha x hl⟩
        · rename_i hl
          simp only [Option.some.injEq, Except.error.injEq] at hc; subst hc
          have hm : x ∈ s.map (·.1) := by
            apply Decidable.byContradiction
            intro hn
            rw [lookup_none_iff.2 hn] at hl
            exact absurd hl (by simp)
          obtain ⟨q, hq, hne⟩ := hk x hm
          exact ⟨hbig, p, q, fun e => hne (e ▸ List.prefix_refl _), hp, hq⟩
        · split at hc
          · simp at hc
          · rename_i hl _ hno
            refine ih.2 x p 0 (c :: cs) ((x, true) :: s) e hp (by rw [List.drop_zero, (flatten_some hf).1]) ?_ ?_ hc
            · intro y hy
              simp only [List.map_cons, List.mem_cons] at hy
              rcases hy with rfl | hy
              · refine ⟨p, hp, ?_⟩
                intro i _ hpre
                have := hpre.length_le
                simp at this
                omega
              · obtain ⟨q, hq, hne⟩ := hk y hy
                refine ⟨q, hq, ?_⟩
                intro i _ hpre
                exact hne ((List.prefix_append p [i]).trans hpre)
            · intro y hy
              by_cases hyx : y = x
              · exact .inl hyx
              · have hb : (y == x) = false := by simpa using hyx
                simp only [List.lookup_cons, hb] at hy
                exact .inr (ha y hy)
    refine ⟨h1, ?_⟩
    intro x p k cs
    induction cs generalizing k with
    | nil => intro s e _ _ _ _ hc; simp [checkAll] at hc
    | cons c cs ih2 =>
      intro s e hp hd hk ha hc
      have hck : (children h x)[k]? = some c := by
        have := congrArg (·[0]?) hd
        simpa [List.getElem?_drop] using this
      simp only [checkAll] at hc
      split at hc
      · rename_i s1 hs1
        refine ih2 (k + 1) s1 e hp (by rw [← List.drop_drop, hd]; rfl) ?_ ?_ hc
        · intro y hy
          rcases (check_adds (h := h) (fuel + 1)).1 _ _ _ hs1 y hy with hy | ⟨q, hq⟩
          · obtain ⟨q, hq, hne⟩ := hk y hy
            exact ⟨q, hq, fun i hi => hne i (by omega)⟩
          · refine ⟨(p ++ [k]) ++ q, (hp.child hck).append hq, ?_⟩
            intro i hi hpre
            rw [List.append_assoc, List.prefix_append_right_inj] at hpre
            obtain ⟨r, hr⟩ := hpre
            simp only [List.cons_append, List.nil_append, List.cons.injEq] at hr
            omega
        · intro y hy
          exact ha y (((check_marks (h := h) (fuel + 1)).1 _ _ _ hs1 y).1 hy)
      · refine h1 c (p ++ [k]) s e (hp.child hck) ?_ ?_ hc
        · intro y hy
          obtain ⟨q, hq, hne⟩ := hk y hy
          exact ⟨q, hq, hne k (Nat.le_refl k)⟩
        · intro y hy
          rcases ha y hy with rfl | ⟨q, hq, hq'⟩
          · exact ⟨[k], by simp, .step hck (.here c)⟩
          · exact ⟨q ++ [k], by simp, hq'.child hck⟩

/-! ### Passing -/

theorem path_of_not_big {h : Heap} {x : Nat} (hx : children h x = []) {p y} (hp : Path h x p y) : y = x ∧ p = [] := by
  cases hp with
  | here => exact ⟨rfl, rfl⟩
  | step hc _ => rw [hx] at hc; simp at hc

/-- What passing means. -/
theorem check_ok {h : Heap} : ∀ fuel,
    (∀ x s s', check h fuel x s = some (.ok s') →
      (∀ p y, Path h x p y → Big h y → y ∈ s'.map (·.1) ∧ y ∉ s.map (·.1)) ∧ Unique h x) ∧
    (∀ cs s s', checkAll (check h fuel) cs s = some (.ok s') →
      (∀ (j c : Nat) p y, cs[j]? = some c → Path h c p y → Big h y → y ∈ s'.map (·.1) ∧ y ∉ s.map (·.1)) ∧
      (∀ (j j' c c' : Nat) p p' y, cs[j]? = some c → cs[j']? = some c' → Path h c p y → Path h c' p' y → Big h y →
        j = j' ∧ p = p')) := by
  intro fuel
  induction fuel with
  | zero =>
    refine ⟨by intro x s s' hc; simp [check] at hc, ?_⟩
    intro cs s s' hc
    cases cs with
    | nil => exact ⟨by simp, by simp⟩
    | cons c cs => simp [checkAll, check] at hc
  | succ fuel ih =>
    have h1 : ∀ x s s', check h (fuel + 1) x s = some (.ok s') →
        (∀ p y, Path h x p y → Big h y → y ∈ s'.map (·.1) ∧ y ∉ s.map (·.1)) ∧ Unique h x := by
      intro x s s' hc
      have small : children h x = [] → (∀ p y, Path h x p y → Big h y → y ∈ s'.map (·.1) ∧ y ∉ s.map (·.1)) ∧ Unique h x := by
        intro he
        refine ⟨?_, ?_⟩
        · intro p y hp hb
          obtain ⟨rfl, _⟩ := path_of_not_big he hp
          exact absurd he hb
        · intro p q y hp hq hb
          obtain ⟨rfl, _⟩ := path_of_not_big he hp
          exact absurd he hb
      simp only [check] at hc
      split at hc
      · simp at hc
      · rename_i hf; exact small (flatten_none hf)
      · rename_i hf; exact small (flatten_some hf).1
      · rename_i c cs hf
        split at hc
        · simp at hc
        · simp at hc
        · rename_i hl
          split at hc
          · rename_i s1 hs1
            simp only [Option.some.injEq, Except.ok.injEq] at hc; subst hc
            obtain ⟨i1, i2⟩ := ih.2 _ _ _ hs1
            have hch := (flatten_some hf).1
            have hmono := (check_mono (h := h) fuel).2 _ _ _ hs1
            refine ⟨?_, ?_⟩
            · intro p y hp hb
              cases hp with
              | here => exact ⟨by simp, lookup_none_iff.1 hl⟩
              | step hi hp' =>
                rw [hch] at hi
                obtain ⟨a, b⟩ := i1 _ _ _ _ hi hp' hb
                simp only [List.map_cons, List.mem_cons, not_or] at b
                exact ⟨by simp only [List.map_cons, List.mem_cons]; exact .inr a, b.2⟩
            · intro p q y hp hq hb
              cases hp with
              | here =>
                cases hq with
                | here => rfl
                | step hi hq' =>
                  rw [hch] at hi
                  obtain ⟨_, b⟩ := i1 _ _ _ _ hi hq' hb
                  simp at b
              | step hi hp' =>
                cases hq with
                | here =>
                  rw [hch] at hi
                  obtain ⟨_, b⟩ := i1 _ _ _ _ hi hp' hb
                  simp at b
                | step hi' hq' =>
                  rw [hch] at hi hi'
                  obtain ⟨a, b⟩ := i2 _ _ _ _ _ _ _ hi hi' hp' hq' hb
                  rw [a, b]
          · rename_i hno
            exact absurd hc (hno s')
    refine ⟨h1, ?_⟩
    intro cs
    induction cs with
    | nil => intro s s' _; exact ⟨by simp, by simp⟩
    | cons c cs ih2 =>
      intro s s' hc
      simp only [checkAll] at hc
      split at hc
      · rename_i s1 hs1
        obtain ⟨a1, a2⟩ := h1 _ _ _ hs1
        obtain ⟨b1, b2⟩ := ih2 _ _ hc
        have m1 := (check_mono (h := h) (fuel + 1)).1 _ _ _ hs1
        have m2 := (check_mono (h := h) (fuel + 1)).2 _ _ _ hc
        refine ⟨?_, ?_⟩
        · intro j d p y hj hp hb
          cases j with
          | zero =>
            simp only [List.getElem?_cons_zero, Option.some.injEq] at hj; subst hj
            obtain ⟨u, v⟩ := a1 p y hp hb
            exact ⟨m2 y u, v⟩
          | succ j =>
            obtain ⟨u, v⟩ := b1 j d p y (by simpa using hj) hp hb
            exact ⟨u, fun hm => v (m1 y hm)⟩
        · intro j j' d d' p p' y hj hj' hp hp' hb
          cases j with
          | zero =>
            simp only [List.getElem?_cons_zero, Option.some.injEq] at hj; subst hj
            cases j' with
            | zero =>
              simp only [List.getElem?_cons_zero, Option.some.injEq] at hj'; subst hj'
              exact ⟨rfl, a2 p p' y hp hp' hb⟩
            | succ j' =>
              exact absurd (a1 p y hp hb).1 (b1 j' d' p' y (by simpa using hj') hp' hb).2
          | succ j =>
            cases j' with
            | zero =>
              simp only [List.getElem?_cons_zero, Option.some.injEq] at hj'; subst hj'
              exact absurd (a1 p' y hp' hb).1 (b1 j d p y (by simpa using hj) hp hb).2
            | succ j' =>
              obtain ⟨u, v⟩ := b2 j j' d d' p p' y (by simpa using hj) (by simpa using hj') hp hp' hb
              exact ⟨by omega, v⟩
      · rename_i hno
        exact absurd hc (hno s')

/-! ### The properties -/

/-- `tree_check` terminates on every finite object graph, cyclic or not: the depth of the recursion is at most one more
than the number of objects. -/
theorem tree_check_terminates {h : Heap} {x n : Nat} (hfin : Finite h x n) {fuel : Nat} (hn : n < fuel) :
    (treeCheck h fuel x).isSome := by
  have : unseen n [] < fuel := by
    unfold unseen
    have := List.length_filter_le (fun y => decide (y ∉ ([] : Seen).map (·.1))) (List.range n)
    rw [List.length_range] at this
    omega
  have := (check_terminates (h := h) (n := n) fuel).1 x [] hfin this
  unfold treeCheck
  cases hc : check h fuel x [] with
  | none => rw [hc] at this; exact absurd this (by simp)
  | some r => cases r <;> rfl

/-- The errors say what is the case. -/
theorem tree_check_error {h : Heap} {x fuel : Nat} {e} (hc : treeCheck h fuel x = some (.error e)) : Meaning h x e := by
  unfold treeCheck at hc
  split at hc
  · simp at hc
  · rename_i e' he
    simp only [Option.some.injEq, Except.error.injEq] at hc; subst hc
    refine (check_error (h := h) (root := x) fuel).1 x [] [] e' (.here x) ?_ ?_ he
    · intro y hy; simp at hy
    · intro y hy; simp at hy
  · simp at hc

/-- In each case some non-empty container is at two places. -/
theorem Meaning.not_unique {h : Heap} {x : Nat} {e} (hm : Meaning h x e) : ¬ Unique h x := by
  intro hu
  cases e with
  | immediate y =>
    obtain ⟨p, i, hp, hi⟩ := hm
    have hb : Big h y := by intro he; rw [he] at hi; simp at hi
    have := hu p (p ++ [i]) y hp (hp.child hi) hb
    have := congrArg List.length this
    simp at this
  | selfReferential y =>
    obtain ⟨hb, ⟨p, hp⟩, q, hq, hq'⟩ := hm
    have := hu p (p ++ q) y hp (hp.append hq') hb
    have := congrArg List.length this
    simp at this
    exact hq this
  | multiple y =>
    obtain ⟨hb, p, q, hne, hp, hq⟩ := hm
    exact hne (hu p q y hp hq hb)

/-- `tree_check` passes exactly if no non-empty container can be reached along two different paths. -/
theorem tree_check_iff {h : Heap} {x n : Nat} (hfin : Finite h x n) {fuel : Nat} (hn : n < fuel) :
    treeCheck h fuel x = some (.ok ()) ↔ Unique h x := by
  have ht := tree_check_terminates hfin hn
  constructor
  · intro hc
    unfold treeCheck at hc
    split at hc
    · rename_i s hs
      exact ((check_ok (h := h) fuel).1 x [] s hs).2
    · simp at hc
    · simp at hc
  · intro hu
    cases hc : treeCheck h fuel x with
    | none => rw [hc] at ht; exact absurd ht (by simp)
    | some r =>
      cases r with
      | ok u => rfl
      | error e => exact absurd hu (tree_check_error hc).not_unique

/-- Otherwise it raises. -/
theorem tree_check_raises {h : Heap} {x n : Nat} (hfin : Finite h x n) {fuel : Nat} (hn : n < fuel) :
    (∃ e, treeCheck h fuel x = some (.error e)) ↔ ¬ Unique h x := by
  have ht := tree_check_terminates hfin hn
  rw [← tree_check_iff hfin hn]
  cases hc : treeCheck h fuel x with
  | none => rw [hc] at ht; exact absurd ht (by simp)
  | some r => cases r <;> simp

/-- Cycles are never accepted. -/
theorem tree_check_cycle {h : Heap} {x n : Nat} (hfin : Finite h x n) {fuel : Nat} (hn : n < fuel) {p q y}
    (hp : Path h x p y) (hq : Path h y q y) (hne : q ≠ []) : ∃ e, treeCheck h fuel x = some (.error e) := by
  rw [tree_check_raises hfin hn]
  intro hu
  have hb : Big h y := by
    intro he
    exact hne (path_of_not_big he hq).2
  have := hu p (p ++ q) y hp (hp.append hq) hb
  have := congrArg List.length this
  simp at this
  exact hne this

/-- Sharing leaves and empty containers is never an error: what matters are the non-empty containers. -/
theorem tree_check_shared_leaves {h : Heap} {x n : Nat} (hfin : Finite h x n) {fuel : Nat} (hn : n < fuel)
    (hshare : ∀ p q y, Path h x p y → Path h x q y → p ≠ q → h y = .leaf ∨ h y = .node []) :
    treeCheck h fuel x = some (.ok ()) := by
  rw [tree_check_iff hfin hn]
  intro p q y hp hq hb
  apply Decidable.byContradiction
  intro hne
  rcases hshare p q y hp hq hne with hy | hy <;> exact hb (by simp [children, hy])

/-! ### Examples -/

/-- `1 = leaf`, `2 = []`, `3 = [leaf, leaf, [], []]`, `0 = [3, 2]`: leaves and empty lists are shared. -/
def exGood : Heap
  | 0 => .node [3, 2]
  | 2 => .node []
  | 3 => .node [1, 1, 2, 2]
  | _ => .leaf

/-- `x = [1]; y = [x, x]` -/
def exShared : Heap
  | 0 => .node [1, 1]
  | 1 => .node [2]
  | _ => .leaf

/-- `x = []; y = []; x.append(y); y.append(x)` -/
def exCycle : Heap
  | 0 => .node [1]
  | 1 => .node [0]
  | _ => .leaf

/-- `x = []; x.append(x)` -/
def exSelf : Heap
  | 0 => .node [0]
  | _ => .leaf

theorem finite_of_children {h : Heap} {n : Nat} (hc : ∀ x, x < n → ∀ c ∈ children h x, c < n) {x : Nat} (hx : x < n) :
    Finite h x n := by
  intro p y hp
  induction hp with
  | here => exact hx
  | step hi _ ih => exact ih (hc _ hx _ (List.mem_of_getElem? hi))

theorem exGood_finite : Finite exGood 0 4 := finite_of_children (by decide) (by omega)
theorem exCycle_finite : Finite exCycle 0 2 := finite_of_children (by decide) (by omega)

example : treeCheck exGood 5 0 = some (.ok ()) := by decide
example : Unique exGood 0 := (tree_check_iff exGood_finite (fuel := 5) (by omega)).1 (by decide)
example : treeCheck exShared 4 0 = some (.error (.multiple 1)) := by decide
example : treeCheck exCycle 3 0 = some (.error (.selfReferential 0)) := by decide
example : treeCheck exSelf 3 0 = some (.error (.immediate 0)) := by decide
example : ¬ Unique exCycle 0 := (tree_check_raises exCycle_finite (fuel := 3) (by omega)).1 ⟨.selfReferential 0, by decide⟩

end TreeCheck
end Verif
