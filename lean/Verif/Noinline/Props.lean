import Verif.Noinline.Model
import Verif.Jit.Lemmas2

/-! # C45: `noinline` keeps calling the right function -/

namespace Verif
namespace Noinline

open PT Jit

variable {V A O C Q R : Type}

/-! ### Vocabulary -/

/-- The two values differ in their arrays only. -/
def SameStatic (g f : Val V O C) : Prop := g.map Leaf.static = f.map Leaf.static

/-- `F` is `fn` as a function of one argument, the tuple of its arrays, positional and keyword arguments: whatever arrays it
is given, it calls `fn` with these arrays in place of its own. -/
def IsBase (w : World V A O C Q R) (fn : Val V O C) (F : Fn V O C) : Prop :=
  ∀ g args kwargs, SameStatic g fn → F (packArgs (hashableFilter g) args kwargs) = w.apply g args kwargs

/-- The transforms applied to a function, the first one innermost. -/
def stack (tr : Transforms V O C) (ts : List (Val V O C)) (F : Fn V O C) : Fn V O C := ts.foldl (fun f t => tr t f) F

variable [DecidableEq A] [DecidableEq Q] [DecidableEq R]

/-- In the history, `noinline(fn)` made wrapper `i`. -/
def Registered (w : World V A O C Q R) (tr : Transforms V O C) (h : List (Event V O C)) (i : Nat) (fn : Val V O C) : Prop :=
  ∃ h₁ h₂, h = h₁ ++ .register fn :: h₂ ∧ (noinline w (run w tr h₁) fn).1 = .ok i

/-- In the history, a call with these transforms and arguments was compiled to program `p`. -/
def Lowered (w : World V A O C Q R) (tr : Transforms V O C) (h : List (Event V O C)) (p : Nat) (ts : List (Val V O C))
    (args : Val V O C) : Prop :=
  ∃ h₁ h₂, h = h₁ ++ .lower ts args :: h₂ ∧ (lower w (run w tr h₁) ts args).1 = .ok p

/-! ### Static parts -/

omit [DecidableEq A] [DecidableEq Q] [DecidableEq R] in
theorem partition_of_sameStatic {g f : Val V O C} (h : SameStatic g f) : (hashablePartition g).2 = (hashablePartition f).2 := by
  have h1 := congrArg shape h
  have h2 := congrArg leaves h
  rw [shape_map, shape_map] at h1
  rw [leaves_map, leaves_map] at h2
  simp only [hashablePartition, h1, h2]

omit [DecidableEq A] [DecidableEq Q] [DecidableEq R] in
/-- Static parts with the same key are static parts of values that are equal up to `==`. -/
theorem exists_with_static (w : World V A O C Q R) (t : Val V O C) (s : Static O C)
    (h : staticKey w s = staticKey w (hashablePartition t).2) :
    ∃ t', hashablePartition t' = ((hashablePartition t).1, s) ∧ EqUpTo w t' t := by
  simp only [staticKey, hashablePartition, Prod.mk.injEq] at h
  obtain ⟨h1, h2⟩ := h
  have key : ∀ (ls : List (Leaf V O)) (so : List (Option O)),
      so.map (fun o => o.map w.cls) = (ls.map Leaf.static).map (fun o => o.map w.cls) →
      ∃ ls' : List (Leaf V O), ls'.map Leaf.static = so ∧ ls'.map Leaf.dyn = ls.map Leaf.dyn ∧
        ls'.map (eqLeaf w) = ls.map (eqLeaf w) := by
    intro ls
    induction ls with
    | nil => intro so h; cases so with
      | nil => exact ⟨[], rfl, rfl, rfl⟩
      | cons _ _ => simp at h
    | cons l ls ih =>
      intro so h
      cases so with
      | nil => simp at h
      | cons o so =>
        simp only [List.map_cons, List.cons.injEq] at h
        obtain ⟨ls', e1, e2, e3⟩ := ih so h.2
        have h3 := h.1
        cases l with
        | arr v =>
          cases o with
          | none => exact ⟨.arr v :: ls', by simp [Leaf.static, e1], by simp [e2], by simp [e3]⟩
          | some o => simp [Leaf.static] at h3
        | obj o' =>
          cases o with
          | none => simp [Leaf.static] at h3
          | some o =>
            simp only [Leaf.static, Option.map_some, Option.some.injEq] at h3
            exact ⟨.obj o :: ls', by simp [Leaf.static, e1], by simp [Leaf.dyn, e2], by simp [eqLeaf, h3, e3]⟩
  obtain ⟨ls', e1, e2, e3⟩ := key t.leaves s.leaves h1
  have hlen : ls'.length = s.treedef.leaves.length := by
    have a1 := congrArg List.length e2
    have a2 := congrArg (fun d => (leaves d).length) h2
    simp only [leaves_classes, List.length_map] at a1 a2
    rw [a1, a2]; simp [shape, leaves_map]
  obtain ⟨t', h3, h4, h5⟩ := unflatten_leaves hlen
  refine ⟨t', ?_, ?_⟩
  · simp only [hashablePartition, h3, h4, e1, e2]
  · rw [EqUpTo, classes_eq_iff]
    exact ⟨by rw [h3, h2], by rw [h4, e3]⟩

omit [DecidableEq A] [DecidableEq Q] [DecidableEq R] in
theorem mapE_dynVal (d : Dyn V) : mapE valDyn (d.map (dynVal (O := O) (C := C))) = .ok d := by
  induction d with
  | nil => rfl
  | cons x d ih => cases x <;> simp only [List.map_cons, mapE, ih] <;> rfl

omit [DecidableEq A] [DecidableEq Q] [DecidableEq R] in
theorem zip_kwargs (kw : Kwargs V O C) : (kw.map Prod.fst).zip (kw.map Prod.snd) = kw := by
  induction kw with
  | nil => rfl
  | cons p kw ih => simp only [List.map_cons, List.zip_cons_cons, ih]

omit [DecidableEq A] [DecidableEq Q] [DecidableEq R] in
/-- `_impl_transform` of the static part of `fn` is `fn`. -/
theorem implTransform_base (w : World V A O C Q R) (fn : Val V O C) : IsBase w fn (implTransform w (hashablePartition fn).2) := by
  intro g args kw h
  have e := hashableCombine_partition g
  rw [partition_of_sameStatic h] at e
  simp only [packArgs, implTransform, mapE_dynVal, bind, Except.bind, zip_kwargs]
  rw [show hashableFilter g = (hashablePartition g).1 from rfl, e]

omit [DecidableEq A] [DecidableEq Q] [DecidableEq R] in
theorem applyAll_eq (tr : Transforms V O C) (ts : List (Val V O C)) (F : Fn V O C) : applyAll tr ts F = stack tr ts F := by
  induction ts generalizing F with
  | nil => rfl
  | cons t ts ih => exact ih _

/-! ### The invariant -/

/-- What holds of every reachable state. -/
structure Inv (w : World V A O C Q R) (st : St V A O C Q R) : Prop where
  fns : ∀ k i, Dict.get? st.fnToIndex k = some i → ∃ s, st.indexToFn[i]? = some s ∧ staticKey w s = k
  jits : ∀ (c : Nat) cb, st.callbacks[c]? = some cb → ∀ k as s, Dict.get? cb.cache (k, as) = some s → staticKey w s = k
  cbs : ∀ k c, Dict.get? st.callbackCache k = some c → ∃ cb : Callback A O C Q R, st.callbacks[c]? = some cb ∧ staticKey w cb.closure = k

/-- Nothing that was handed out changes. -/
structure Le (st st' : St V A O C Q R) : Prop where
  fns : ∀ (i : Nat) s, st.indexToFn[i]? = some s → st'.indexToFn[i]? = some s
  wrappers : ∀ (i : Nat) wr, st.wrappers[i]? = some wr → st'.wrappers[i]? = some wr
  programs : ∀ (i : Nat) c, st.programs[i]? = some c → st'.programs[i]? = some c
  callbacks : ∀ (i : Nat) cb, st.callbacks[i]? = some cb → ∃ cb', st'.callbacks[i]? = some cb' ∧ cb'.closure = cb.closure

omit [DecidableEq A] [DecidableEq Q] [DecidableEq R] in
theorem Le.refl (st : St V A O C Q R) : Le st st := ⟨fun _ _ h => h, fun _ _ h => h, fun _ _ h => h, fun _ cb h => ⟨cb, h, rfl⟩⟩

omit [DecidableEq A] [DecidableEq Q] [DecidableEq R] in
theorem Le.trans {a b c : St V A O C Q R} (h : Le a b) (h' : Le b c) : Le a c :=
  ⟨fun i s e => h'.fns i s (h.fns i s e), fun i s e => h'.wrappers i s (h.wrappers i s e),
   fun i s e => h'.programs i s (h.programs i s e), fun i cb e => by
    obtain ⟨cb', e1, e2⟩ := h.callbacks i cb e
    obtain ⟨cb'', e3, e4⟩ := h'.callbacks i cb' e1
    exact ⟨cb'', e3, e4.trans e2⟩⟩

omit [DecidableEq A] [DecidableEq Q] [DecidableEq R] in
theorem get_snoc_old {X : Type} {l : List X} {x y : X} {i : Nat} (h : l[i]? = some x) : (l ++ [y])[i]? = some x := by
  have : i < l.length := by
    rcases Nat.lt_or_ge i l.length with h' | h'
    · exact h'
    · rw [List.getElem?_eq_none h'] at h; cases h
  rw [List.getElem?_append_left this, h]

theorem noinline_inv {w : World V A O C Q R} {st : St V A O C Q R} (hi : Inv w st) (fn : Val V O C) :
    Inv w (noinline w st fn).2 ∧ Le st (noinline w st fn).2 ∧
    (∀ i, (noinline w st fn).1 = .ok i → Hashable w fn ∧ ∃ n s, (noinline w st fn).2.wrappers[i]? = some ⟨n, (hashablePartition fn).1⟩ ∧
      (noinline w st fn).2.indexToFn[n]? = some s ∧ staticKey w s = staticKey w (hashablePartition fn).2) := by
  simp only [noinline]
  by_cases hh : (hashablePartition fn).2.hashable w = true
  · simp only [hh, Bool.not_true, Bool.false_eq_true, if_false]
    have hH := (hashable_iff fn).1 hh
    cases hg : Dict.get? st.fnToIndex (staticKey w (hashablePartition fn).2) with
    | some n =>
      obtain ⟨s, h1, h2⟩ := hi.fns _ _ hg
      refine ⟨⟨hi.fns, hi.jits, hi.cbs⟩, ⟨fun _ _ h => h, fun _ _ h => get_snoc_old h, fun _ _ h => h, fun _ cb h => ⟨cb, h, rfl⟩⟩, ?_⟩
      intro i h
      cases h
      exact ⟨hH, n, s, by simp, h1, h2⟩
    | none =>
      refine ⟨⟨?_, hi.jits, hi.cbs⟩, ⟨fun _ _ h => get_snoc_old h, fun _ _ h => get_snoc_old h, fun _ _ h => h, fun _ cb h => ⟨cb, h, rfl⟩⟩, ?_⟩
      · intro k i h
        rw [Dict.get?_insert] at h
        split at h
        · rename_i hk
          cases h
          exact ⟨_, by simp, hk⟩
        · obtain ⟨s, h1, h2⟩ := hi.fns _ _ h
          exact ⟨s, get_snoc_old h1, h2⟩
      · intro i h
        cases h
        exact ⟨hH, st.indexToFn.length, _, by simp, by simp, rfl⟩
  · simp only [Bool.not_eq_true] at hh
    simp only [hh, Bool.not_false, if_true]
    exact ⟨hi, Le.refl st, fun i h => by cases h⟩

theorem getCallback_inv {w : World V A O C Q R} {st : St V A O C Q R} (hi : Inv w st) (s : Static O C) :
    Inv w (getCallback w st s).2 ∧ Le st (getCallback w st s).2 ∧
    ∀ c, (getCallback w st s).1 = .ok c → ∃ cb, (getCallback w st s).2.callbacks[c]? = some cb ∧ staticKey w cb.closure = staticKey w s := by
  simp only [getCallback]
  by_cases hh : s.hashable w = true
  · simp only [hh, Bool.not_true, Bool.false_eq_true, if_false]
    cases hg : Dict.get? st.callbackCache (staticKey w s) with
    | some n =>
      obtain ⟨cb, h1, h2⟩ := hi.cbs _ _ hg
      refine ⟨hi, Le.refl st, ?_⟩
      intro c h
      cases h
      exact ⟨cb, h1, h2⟩
    | none =>
      refine ⟨⟨hi.fns, ?_, ?_⟩, ⟨fun _ _ h => h, fun _ _ h => h, fun _ _ h => h, fun _ cb h => ⟨cb, get_snoc_old h, rfl⟩⟩, ?_⟩
      · intro c cb h k as s' h'
        rw [List.getElem?_append] at h
        split at h
        · exact hi.jits c cb h k as s' h'
        · rw [List.getElem?_singleton] at h
          split at h
          · cases h; simp [Dict.get?] at h'
          · cases h
      · intro k c h
        rw [Dict.get?_insert] at h
        split at h
        · rename_i hk
          cases h
          exact ⟨_, by simp; rfl, hk⟩
        · obtain ⟨cb, h1, h2⟩ := hi.cbs _ _ h
          exact ⟨cb, get_snoc_old h1, h2⟩
      · intro c h
        cases h
        exact ⟨_, by simp; rfl, rfl⟩
  · simp only [Bool.not_eq_true] at hh
    simp only [hh, Bool.not_false, if_true]
    exact ⟨hi, Le.refl st, fun i h => by cases h⟩

theorem lower_inv {w : World V A O C Q R} {st : St V A O C Q R} (hi : Inv w st) (ts : List (Val V O C)) (args : Val V O C) :
    Inv w (lower w st ts args).2 ∧ Le st (lower w st ts args).2 ∧
    ∀ p, (lower w st ts args).1 = .ok p → ∃ c cb, (lower w st ts args).2.programs[p]? = some c ∧
      (lower w st ts args).2.callbacks[c]? = some cb ∧
      staticKey w cb.closure = staticKey w (hashablePartition (packCall ts args)).2 := by
  obtain ⟨h1, h2, h3⟩ := getCallback_inv hi (hashablePartition (packCall ts args)).2
  simp only [lower]
  cases hg : getCallback w st (hashablePartition (packCall ts args)).2 with
  | mk r st' =>
    rw [hg] at h1 h2 h3
    cases r with
    | error e => exact ⟨h1, h2, fun p h => by cases h⟩
    | ok c =>
      obtain ⟨cb, h4, h5⟩ := h3 c rfl
      refine ⟨⟨h1.fns, h1.jits, h1.cbs⟩, ⟨h2.fns, h2.wrappers, fun i c h => get_snoc_old (h2.programs i c h), h2.callbacks⟩, ?_⟩
      intro p h
      cases h
      exact ⟨c, cb, by simp, h4, h5⟩

theorem lookup_inv {w : World V A O C Q R} (tr : Transforms V O C) {st : St V A O C Q R} (hi : Inv w st) (c i : Nat) (vs : List V) :
    Inv w (lookup w tr st c i vs).2 ∧ Le st (lookup w tr st c i vs).2 := by
  simp only [lookup]
  cases hc : st.callbacks[c]? with
  | none => exact ⟨hi, Le.refl st⟩
  | some cb => cases hs : st.indexToFn[i]? with
    | none => exact ⟨hi, Le.refl st⟩
    | some s =>
      simp only []
      cases hg : Dict.get? cb.cache (staticKey w s, vs.map w.aval) with
      | some s' => exact ⟨hi, Le.refl st⟩
      | none =>
        simp only []
        cases hb : callbackBody w tr cb.closure s vs with
        | error e => exact ⟨hi, Le.refl st⟩
        | ok out =>
          have hlt : c < st.callbacks.length := by
            rcases Nat.lt_or_ge c st.callbacks.length with h' | h'
            · exact h'
            · rw [List.getElem?_eq_none h'] at hc; cases hc
          refine ⟨⟨hi.fns, ?_, ?_⟩, ⟨fun _ _ h => h, fun _ _ h => h, fun _ _ h => h, ?_⟩⟩
          · intro c' cb' h k as s' h'
            rw [List.getElem?_set] at h
            split at h
            · cases h
              simp only at h'
              rw [Dict.get?_insert] at h'
              split at h'
              · rename_i hk
                cases h'
                exact (Prod.mk.inj hk).1
              · exact hi.jits c cb hc _ _ _ h'
            · exact hi.jits c' cb' h _ _ _ h'
          · intro k c' h
            obtain ⟨cb', h1, h2⟩ := hi.cbs _ _ h
            by_cases e : c = c'
            · subst e
              rw [hc] at h1
              cases h1
              exact ⟨_, List.getElem?_set_self hlt, h2⟩
            · exact ⟨cb', by rw [List.getElem?_set_ne e, h1], h2⟩
          · intro c' cb' h
            by_cases e : c = c'
            · subst e
              rw [hc] at h
              cases h
              exact ⟨_, List.getElem?_set_self hlt, rfl⟩
            · exact ⟨cb', by rw [List.getElem?_set_ne e, h], rfl⟩

theorem step_inv {w : World V A O C Q R} (tr : Transforms V O C) {st : St V A O C Q R} (hi : Inv w st) (e : Event V O C) :
    Inv w (step w tr st e) ∧ Le st (step w tr st e) := by
  cases e with
  | register fn => exact ⟨(noinline_inv hi fn).1, (noinline_inv hi fn).2.1⟩
  | lower ts args => exact ⟨(lower_inv hi ts args).1, (lower_inv hi ts args).2.1⟩
  | run p i vs =>
    simp only [step, runProgram]
    cases hp : st.programs[p]? with
    | none => exact ⟨hi, Le.refl st⟩
    | some c => exact lookup_inv tr hi c i vs
  | clear =>
    exact ⟨⟨hi.fns, hi.jits, fun k c h => by simp [step, Dict.get?] at h⟩, ⟨fun _ _ h => h, fun _ _ h => h, fun _ _ h => h, fun _ cb h => ⟨cb, h, rfl⟩⟩⟩

theorem foldl_inv {w : World V A O C Q R} (tr : Transforms V O C) (h : List (Event V O C)) {st : St V A O C Q R} (hi : Inv w st) :
    Inv w (h.foldl (step w tr) st) ∧ Le st (h.foldl (step w tr) st) := by
  induction h generalizing st with
  | nil => exact ⟨hi, Le.refl st⟩
  | cons e h ih =>
    obtain ⟨h1, h2⟩ := step_inv tr hi e
    obtain ⟨h3, h4⟩ := ih h1
    exact ⟨h3, h2.trans h4⟩

theorem run_inv (w : World V A O C Q R) (tr : Transforms V O C) (h : List (Event V O C)) : Inv w (run w tr h) := by
  refine (foldl_inv tr h ⟨?_, ?_, ?_⟩).1
  · intro k i h; simp [St.empty, Dict.get?] at h
  · intro c cb h; simp [St.empty] at h
  · intro k c h; simp [St.empty, Dict.get?] at h

theorem registered_wrapper {w : World V A O C Q R} {tr : Transforms V O C} {h : List (Event V O C)} {i : Nat} {fn : Val V O C}
    (hr : Registered w tr h i fn) : ∃ n s, (run w tr h).wrappers[i]? = some ⟨n, hashableFilter fn⟩ ∧
      (run w tr h).indexToFn[n]? = some s ∧ staticKey w s = staticKey w (hashablePartition fn).2 := by
  obtain ⟨h₁, h₂, rfl, h3⟩ := hr
  obtain ⟨i1, -, i3⟩ := noinline_inv (run_inv w tr h₁) fn
  obtain ⟨-, n, s, e1, e2, e3⟩ := i3 i h3
  obtain ⟨-, l⟩ := foldl_inv tr h₂ i1
  have : run w tr (h₁ ++ .register fn :: h₂) = h₂.foldl (step w tr) (noinline w (run w tr h₁) fn).2 := by
    simp only [run, List.foldl_append, List.foldl_cons]; rfl
  rw [this]
  exact ⟨n, s, l.wrappers _ _ e1, l.fns _ _ e2, e3⟩

theorem lowered_program {w : World V A O C Q R} {tr : Transforms V O C} {h : List (Event V O C)} {p : Nat}
    {ts : List (Val V O C)} {args : Val V O C} (hl : Lowered w tr h p ts args) :
    ∃ c cb, (run w tr h).programs[p]? = some c ∧ (run w tr h).callbacks[c]? = some cb ∧
      staticKey w cb.closure = staticKey w (hashablePartition (packCall ts args)).2 := by
  obtain ⟨h₁, h₂, rfl, h3⟩ := hl
  obtain ⟨i1, -, i3⟩ := lower_inv (run_inv w tr h₁) ts args
  obtain ⟨c, cb, e1, e2, e3⟩ := i3 p h3
  obtain ⟨-, l⟩ := foldl_inv tr h₂ i1
  have : run w tr (h₁ ++ .lower ts args :: h₂) = h₂.foldl (step w tr) (lower w (run w tr h₁) ts args).2 := by
    simp only [run, List.foldl_append, List.foldl_cons]; rfl
  rw [this]
  obtain ⟨cb', e4, e5⟩ := l.callbacks _ _ e2
  exact ⟨c, cb', l.programs _ _ e1, e4, by rw [e5, e3]⟩

/-! ### C45 -/

omit [DecidableEq A] in
/-- `noinline(fn)` succeeds just if everything in `fn` but its arrays is hashable, and is a `TypeError` otherwise. -/
theorem noinline_ok (w : World V A O C Q R) (st : St V A O C Q R) (fn : Val V O C) :
    (Hashable w fn → ∃ i, (noinline w st fn).1 = .ok i) ∧
    (¬ Hashable w fn → (noinline w st fn).1 = .error .typeError ∧ (noinline w st fn).2 = st) := by
  constructor
  · intro h
    rw [← hashable_iff] at h
    simp only [noinline, h, Bool.not_true, Bool.false_eq_true, if_false]
    cases Dict.get? st.fnToIndex (staticKey w (hashablePartition fn).2) <;> exact ⟨_, rfl⟩
  · intro h
    rw [← hashable_iff, Bool.not_eq_true] at h
    simp [noinline, h]

/-- **C45** (up to `==`), evaluation without compiling: after any history, a call of the primitive with the index of wrapper
`i` and any transforms evaluates a function `fn'` equal to the registered one, under exactly these transforms. -/
theorem noinline_stack_partial {w : World V A O C Q R} {tr : Transforms V O C} {h : List (Event V O C)} {i : Nat} {fn : Val V O C}
    (hr : Registered w tr h i fn) :
    ∃ wr fn' F, (run w tr h).wrappers[i]? = some wr ∧ wr.dynFn = hashableFilter fn ∧ EqUpTo w fn' fn ∧
      hashableFilter fn' = hashableFilter fn ∧ IsBase w fn' F ∧
      ∀ ts args, impl w tr (run w tr h) ⟨wr.index, ts, args⟩ = stack tr ts F args := by
  obtain ⟨n, s, h1, h2, h3⟩ := registered_wrapper hr
  obtain ⟨fn', e1, e2⟩ := exists_with_static w fn s h3
  refine ⟨_, fn', implTransform w s, h1, rfl, e2, congrArg Prod.fst e1, ?_, ?_⟩
  · have := implTransform_base w fn'
    rwa [e1] at this
  · intro ts args
    simp only [impl, h2, applyAll_eq]

omit [DecidableEq A] [DecidableEq Q] [DecidableEq R] in
theorem eq_of_eqUpTo {w : World V A O C Q R} (hE : w.EqExact) {t t' : Val V O C} (h : EqUpTo w t t') : t = t' := by
  refine classes_inj hE.2 ?_ t t' h
  intro a b hab
  cases a <;> cases b <;> simp [eqLeaf] at hab
  · rw [hab]
  · rw [hE.1 _ _ hab]

/-- **C45** if `==` is exact: a call of wrapper `i` calls the registered function, and under transforms it is this function
that is transformed. -/
theorem noinline_call_partial {w : World V A O C Q R} (hE : w.EqExact) {tr : Transforms V O C} {h : List (Event V O C)} {i : Nat}
    {fn : Val V O C} (hr : Registered w tr h i fn) :
    ∃ wr F, (run w tr h).wrappers[i]? = some wr ∧ IsBase w fn F ∧
      (∀ ts args, impl w tr (run w tr h) ⟨wr.index, ts, args⟩ = stack tr ts F args) ∧
      ∀ args kwargs, impl w tr (run w tr h) (wr.bind args kwargs) = w.apply fn args kwargs := by
  obtain ⟨wr, fn', F, h1, h2, h3, h4, h5, h6⟩ := noinline_stack_partial hr
  have := eq_of_eqUpTo hE h3
  subst this
  refine ⟨wr, F, h1, h5, h6, ?_⟩
  intro args kw
  rw [Wrapper.bind, h6, h2]
  exact h5 _ _ _ rfl

/-! ### The rules -/

omit [DecidableEq A] [DecidableEq Q] [DecidableEq R] in
/-- **C45**, differentiation: the primals are the same call; the tangents are the transform of the function that the call
evaluates, with the transforms it already had. -/
theorem noinline_jvp (w : World V A O C Q R) (tr : Transforms V O C) (st : St V A O C Q R) (b : Bind V O C) (jvpT tArgs : Val V O C)
    (hb : b.index < st.indexToFn.length) :
    impl w tr st (jvpRule jvpT b tArgs).1 = impl w tr st b ∧
    impl w tr st (jvpRule jvpT b tArgs).2 =
      tr jvpT (fun a => impl w tr st ⟨b.index, b.transforms, a⟩) (.node .tuple [b.args, tArgs]) := by
  refine ⟨rfl, ?_⟩
  simp only [jvpRule, impl, List.getElem?_eq_getElem hb, applyAll_eq, stack, List.foldl_append, List.foldl_cons, List.foldl_nil]

omit [DecidableEq A] [DecidableEq Q] [DecidableEq R] in
/-- **C45**, transposition. -/
theorem noinline_transpose (w : World V A O C Q R) (tr : Transforms V O C) (st : St V A O C Q R) (b : Bind V O C)
    (transposeT defined cts : Val V O C) (hb : b.index < st.indexToFn.length) :
    impl w tr st (transposeRule transposeT b defined cts) =
      tr transposeT (fun a => impl w tr st ⟨b.index, b.transforms, a⟩) (.node .tuple [defined, cts]) := by
  simp only [transposeRule, impl, List.getElem?_eq_getElem hb, applyAll_eq, stack, List.foldl_append, List.foldl_cons, List.foldl_nil]

omit [DecidableEq A] [DecidableEq Q] [DecidableEq R] in
/-- **C45**, batching, with an index that is not batched or broadcast. -/
theorem noinline_batch (w : World V A O C Q R) (tr : Transforms V O C) (st : St V A O C Q R) (b : Bind V O C)
    (batchT args : Val V O C) (indices : Option (List Nat)) (hi : ∀ l, indices = some l → l ≠ [] ∧ ∀ n ∈ l, n = b.index)
    (hb : b.index < st.indexToFn.length) :
    ∃ b', batchRule batchT b indices args = .ok b' ∧
      impl w tr st b' = tr batchT (fun a => impl w tr st ⟨b.index, b.transforms, a⟩) args := by
  have key : impl w tr st ⟨b.index, b.transforms ++ [batchT], args⟩ =
      tr batchT (fun a => impl w tr st ⟨b.index, b.transforms, a⟩) args := by
    simp only [impl, List.getElem?_eq_getElem hb, applyAll_eq, stack, List.foldl_append, List.foldl_cons, List.foldl_nil]
  cases indices with
  | none => exact ⟨_, rfl, key⟩
  | some l =>
    obtain ⟨h1, h2⟩ := hi l rfl
    cases l with
    | nil => exact absurd rfl h1
    | cons n l =>
      have := h2 n List.mem_cons_self
      subst this
      exact ⟨_, rfl, key⟩

omit [DecidableEq A] [DecidableEq Q] [DecidableEq R] in
/-- Different indices batched together: the first one is used for all, as the comment in the code (267-270) warns. -/
theorem noinline_batch_mixed (batchT : Val V O C) (b : Bind V O C) (i : Nat) (is : List Nat) (args : Val V O C) :
    ∃ b', batchRule batchT b (some (i :: is)) args = .ok b' ∧ b'.index = i := ⟨_, rfl, rfl⟩

/-! ### Compiled calls -/

omit [DecidableEq A] [DecidableEq Q] [DecidableEq R] in
theorem refill_spec (ls : List (Leaf V O)) :
    refill (ls.map Leaf.static) (ls.filterMap Leaf.arr?) = .ok (ls.map (fun l => (.leaf l : Val V O C))) := by
  induction ls with
  | nil => rfl
  | cons l ls ih =>
    cases l with
    | arr v => simp only [List.map_cons, Leaf.static, List.filterMap_cons, Leaf.arr?, refill, ih]; rfl
    | obj o => simp only [List.map_cons, Leaf.static, List.filterMap_cons, Leaf.arr?, refill, ih]; rfl

omit [DecidableEq A] [DecidableEq Q] [DecidableEq R] in
theorem arrays_eq (t : Val V O C) : arrays t = (hashablePartition t).1.filterMap id := by
  simp only [arrays, hashablePartition, List.filterMap_map]
  congr 1

omit [DecidableEq A] [DecidableEq Q] [DecidableEq R] in
/-- Filling the arrays of `t` into its own static part gives `t` back. -/
theorem refill_unflatten (t : Val V O C) :
    (do let flat ← refill (hashablePartition t).2.leaves (arrays t); treeUnflatten (hashablePartition t).2.treedef flat) = .ok t := by
  simp only [hashablePartition, arrays, refill_spec, bind, Except.bind]
  have := treeUnflatten_shape (t.map fun l => (.leaf l : Val V O C))
  rwa [shape_map, leaves_map, join_map_leaf] at this

/-- **C45** (up to `==`), compiled calls: run with the index of wrapper `i` and the arrays of a call with transforms `ts₁` and
arguments `args₁` that differ from those it was compiled for in arrays only, a program evaluates a function equal to the
one registered for wrapper `i`, under transforms and with arguments equal to `ts₁` and `args₁`. In particular `fn` may be any
registered function, whatever was registered, run or cleared in between. -/
theorem noinline_compiled_partial {w : World V A O C Q R} {tr : Transforms V O C} {h : List (Event V O C)} {i p : Nat}
    {fn : Val V O C} {ts : List (Val V O C)} {args : Val V O C} (hr : Registered w tr h i fn) (hl : Lowered w tr h p ts args)
    {ts₁ : List (Val V O C)} {args₁ : Val V O C} (hs : SameStatic (packCall ts₁ args₁) (packCall ts args)) :
    ∃ wr fn' F ts' args', (run w tr h).wrappers[i]? = some wr ∧ wr.dynFn = hashableFilter fn ∧ EqUpTo w fn' fn ∧ IsBase w fn' F ∧
      ArgsEqUpTo w ts' ts₁ ∧ EqUpTo w args' args₁ ∧
      (runProgram w tr (run w tr h) p wr.index (arrays (packCall ts₁ args₁))).1 = stack tr ts' F args' := by
  obtain ⟨n, s, h1, h2, h3⟩ := registered_wrapper hr
  obtain ⟨c, cb, g1, g2, g3⟩ := lowered_program hl
  rw [← partition_of_sameStatic hs] at g3
  obtain ⟨t', e1, e2⟩ := exists_with_static w _ _ g3
  obtain ⟨cs, rfl, hcs⟩ := classes_tuple e2
  obtain ⟨hlen, hpt⟩ := hcs
  match cs, hlen with
  | [a, b], _ =>
    have ha := hpt 0 a _ rfl rfl
    have hb := hpt 1 b _ rfl rfl
    obtain ⟨ts', rfl, hts⟩ := classes_tuple ha
    have body : ∀ s', callbackBody w tr cb.closure s' (arrays (packCall ts₁ args₁)) = stack tr ts' (implTransform w s') b := by
      intro s'
      have r := refill_unflatten (packCall ts' b)
      have e3 : (hashablePartition (packCall ts' b)) = ((hashablePartition (packCall ts₁ args₁)).1, cb.closure) := e1
      have e4 : arrays (packCall ts' b) = arrays (packCall ts₁ args₁) := by rw [arrays_eq, arrays_eq, e3]
      rw [e3, e4] at r
      simp only [bind, Except.bind] at r
      simp only [callbackBody, bind, Except.bind]
      cases hf : refill cb.closure.leaves (arrays (packCall ts₁ args₁)) with
      | error e => rw [hf] at r; cases r
      | ok flat =>
        rw [hf] at r
        simp only at r ⊢
        rw [r]
        simp only [packCall, unpackCall, applyAll_eq]
    have base : ∀ s', staticKey w s' = staticKey w (hashablePartition fn).2 →
        ∃ fn', EqUpTo w fn' fn ∧ IsBase w fn' (implTransform w s') := by
      intro s' hs'
      obtain ⟨fn', e1, e2⟩ := exists_with_static w fn s' hs'
      refine ⟨fn', e2, ?_⟩
      have := implTransform_base w fn'
      rwa [e1] at this
    simp only [runProgram, g1, lookup, g2]
    cases hg : Dict.get? cb.cache (staticKey w s, (arrays (packCall ts₁ args₁)).map w.aval) with
    | some s' =>
      have := (run_inv w tr h).jits c cb g2 _ _ _ hg
      obtain ⟨fn', f1, f2⟩ := base s' (this.trans h3)
      exact ⟨_, fn', _, ts', b, h1, rfl, f1, f2, hts, hb, by simp only [h2, hg]; exact body s'⟩
    | none =>
      obtain ⟨fn', f1, f2⟩ := base s h3
      refine ⟨_, fn', _, ts', b, h1, rfl, f1, f2, hts, hb, ?_⟩
      simp only [h2, hg]
      cases hbody : callbackBody w tr cb.closure s (arrays (packCall ts₁ args₁)) with
      | ok out => rw [← body s, hbody]
      | error e => rw [← body s, hbody]
  | [], hl => simp at hl
  | [_], hl => simp at hl
  | _ :: _ :: _ :: _, hl => simp at hl

/-- **C45** for compiled calls if `==` is exact: the registered function is called, with the arguments of this call. -/
theorem noinline_compiled_call_partial {w : World V A O C Q R} (hE : w.EqExact) {tr : Transforms V O C} {h : List (Event V O C)}
    {i p : Nat} {fn fn₀ : Val V O C} {args₀ : List (Val V O C)} {kwargs₀ : Kwargs V O C} (hr : Registered w tr h i fn)
    (hl : Lowered w tr h p [] (packArgs (hashableFilter fn₀) args₀ kwargs₀))
    {args : List (Val V O C)} {kwargs : Kwargs V O C}
    (hs : SameStatic (packArgs (hashableFilter fn) args kwargs) (packArgs (hashableFilter fn₀) args₀ kwargs₀)) :
    ∃ wr, (run w tr h).wrappers[i]? = some wr ∧
      (runProgram w tr (run w tr h) p wr.index (arrays (packArgs wr.dynFn args kwargs))).1 = w.apply fn args kwargs := by
  have hs' : SameStatic (packCall [] (packArgs (hashableFilter fn) args kwargs))
      (packCall [] (packArgs (hashableFilter fn₀) args₀ kwargs₀)) := by
    simp only [SameStatic, packCall, PT.map, mapL_eq, List.map_cons, List.map_nil] at hs ⊢
    rw [hs]
  obtain ⟨wr, fn', F, ts', args', h1, h2, h3, h4, h5, h6, h7⟩ := noinline_compiled_partial hr hl hs'
  have e := eq_of_eqUpTo hE h3
  subst e
  have e := eq_of_eqUpTo hE h6
  subst e
  have e : ts' = [] := List.length_eq_zero_iff.1 h5.1
  subst e
  refine ⟨wr, h1, ?_⟩
  rw [h2]
  have e : arrays (packCall [] (packArgs (hashableFilter fn') args kwargs)) = arrays (packArgs (hashableFilter fn') args kwargs) := by
    simp only [arrays, packCall, leaves, leavesL, List.nil_append, List.append_nil]
  rw [e] at h7
  rw [h7]
  exact h4 _ _ _ rfl

/-! ### The claim fails for equal static parts -/

/-- A world where the static objects `false` and `true` are equal under `==` (as `1` and `True` are), and calling an object
returns it. -/
def coarse : World Nat Unit Bool Unit Unit Unit where
  aval _ := ()
  cls _ := ()
  ccls _ := ()
  hashable _ := true
  chashable _ := true
  apply f _ _ := .ok f
  bind _ args kw := .ok (args, kw)

/-- C45 fails if different functions are equal under `==`: of two registered functions, such as `Partial(f, 1)` and
`Partial(f, True)`, calls of the second evaluate the first. -/
theorem noinline_equal_static :
    ∃ (h : List (Event Nat Bool Unit)) (fn : Val Nat Bool Unit) (wr : Wrapper Nat),
      Registered coarse (fun _ f => f) h 1 fn ∧ (run coarse (fun _ f => f) h).wrappers[1]? = some wr ∧
      impl coarse (fun _ f => f) (run coarse (fun _ f => f) h) (wr.bind [] []) ≠ coarse.apply fn [] [] := by
  refine ⟨[.register (.leaf (.obj false)), .register (.leaf (.obj true))], .leaf (.obj true), ⟨0, [Option.none]⟩,
    ⟨[.register (.leaf (.obj false))], [], rfl, rfl⟩, rfl, ?_⟩
  have : impl coarse (fun _ f => f) (run coarse (fun _ f => f) [.register (.leaf (.obj false)), .register (.leaf (.obj true))])
      (Wrapper.bind ⟨0, [Option.none]⟩ [] []) = .ok (.leaf (.obj false)) := rfl
  rw [this]
  simp [coarse]

/-! ### A case meeting the hypotheses -/

/-- A world in which `==` is exact and calling an object returns the object with its arguments. -/
def exact : World Nat Unit Nat Unit Nat Unit where
  aval _ := ()
  cls o := o
  ccls c := c
  hashable _ := true
  chashable _ := true
  apply f args _ := .ok (.node .tuple (f :: args))
  bind _ args kw := .ok (args, kw)

example : exact.EqExact := ⟨fun _ _ h => h, fun _ _ h => h⟩

/-- Two functions with an array each, one compiled call, run with either of them. -/
def exFn (o v : Nat) : Val Nat Nat Unit := .node .tuple [.leaf (.obj o), .leaf (.arr v)]
def exHist : List (Event Nat Nat Unit) :=
  [.register (exFn 1 10), .lower [] (packArgs [Option.none, some 10] [.leaf (.arr 5)] []), .run 0 0 [10, 5],
   .register (exFn 2 20), .clear, .run 0 1 [20, 6]]

example : Registered exact (fun _ f => f) exHist 1 (exFn 2 20) :=
  ⟨[.register (exFn 1 10), .lower [] (packArgs [Option.none, some 10] [.leaf (.arr 5)] []), .run 0 0 [10, 5]], _, rfl, rfl⟩
example : Lowered exact (fun _ f => f) exHist 0 [] (packArgs (hashableFilter (exFn 1 10)) [.leaf (.arr 5)] []) :=
  ⟨[.register (exFn 1 10)], _, rfl, rfl⟩
example : SameStatic (O := Nat) (C := Unit) (packArgs (hashableFilter (exFn 2 20)) [.leaf (.arr 7)] [])
    (packArgs (hashableFilter (exFn 1 10)) [.leaf (.arr 5)] []) := rfl
example : (runProgram exact (fun _ f => f) (run exact (fun _ f => f) exHist) 0 1 [20, 7]).1 =
    .ok (.node .tuple [exFn 2 20, .leaf (.arr 7)]) := rfl

end Noinline
end Verif
