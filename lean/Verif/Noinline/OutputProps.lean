import Verif.Noinline.Output
import Verif.Noinline.Props
import Mathlib.Data.List.Perm.Subperm

/-! # C100: what compiled calls of noinlined functions return -/

namespace Verif
namespace Noinline
namespace Output

open PT Jit

variable {V A O C Q R : Type}

/-! ### Vocabulary -/

/-- An abstract value of the call: that of each array without its weak type, and every object as it is. -/
def absLeaf (w : World V A O C Q R) (E : Env V A O C) : Leaf V O → Leaf A O
  | .arr v => .arr (E.strong (w.aval v))
  | .obj o => .obj o

/-- What abstract evaluation sees of a value. -/
def absVal (w : World V A O C Q R) (E : Env V A O C) (t : Val V O C) : Val A O C := t.map (absLeaf w E)

/-- Weak types dropped. -/
def strongVal (E : Env V A O C) (t : Val A O C) : Val A O C :=
  t.map fun l => match l with
    | .arr a => .arr (E.strong a)
    | .obj o => .obj o

/-- Equal under `==` where the arrays are abstract values. -/
def AbsEq (w : World V A O C Q R) (t t' : Val A O C) : Prop :=
  classes w.ccls (fun l => match l with | .arr a => Leaf.arr a | .obj o => .obj (w.cls o)) t =
    classes w.ccls (fun l => match l with | .arr a => Leaf.arr a | .obj o => .obj (w.cls o)) t'

/-- The call `(f, ts, args)` can be hashed apart from its arrays. -/
def EvalHashable (w : World V A O C Q R) (f : Val V O C) (ts : List (Val V O C)) (args : Val V O C) : Prop :=
  Hashable w f ∧ (∀ t ∈ ts, Hashable w t) ∧ Hashable w args

/-- Two calls which the cache cannot tell apart. -/
def EvalEq (w : World V A O C Q R) (E : Env V A O C) (f f' : Val V O C) (ts ts' : List (Val V O C)) (args args' : Val V O C) : Prop :=
  AbsEq w (absVal w E (.node .tuple [f, .node .tuple ts, args])) (absVal w E (.node .tuple [f', .node .tuple ts', args']))

/-! ### Keys -/

/-- The world in which arrays are abstract values. -/
def absWorld (w : World V A O C Q R) : World A A O C Q R :=
  ⟨id, w.cls, w.ccls, w.hashable, w.chashable, fun _ _ _ => .error .typeError, fun _ _ _ => .error .typeError⟩

theorem absLeaf_eq (w : World V A O C Q R) (E : Env V A O C) : shapedLeaf w E = absLeaf w E := by
  funext l; cases l <;> rfl

theorem shaped_eq (w : World V A O C Q R) (E : Env V A O C) (t : Val V O C) : shaped w E t = absVal w E t := by
  simp only [shaped, absVal, absLeaf_eq]

theorem strongVal_eq (E : Env V A O C) (t : Val A O C) : t.map (toShaped E) = strongVal E t := by
  unfold strongVal; congr 1

theorem absEq_iff (w : World V A O C Q R) (t t' : Val A O C) : AbsEq w t t' ↔ EqUpTo (absWorld w) t t' := by
  have : eqLeaf (absWorld w) = (fun l : Leaf A O => match l with | .arr a => Leaf.arr a | .obj o => .obj (w.cls o)) := by
    funext l; cases l <;> rfl
  simp only [AbsEq, EqUpTo, this]; rfl

theorem partition_inj {t t' : Val V O C} (h : hashablePartition t = hashablePartition t') : t = t' := by
  have h1 := hashableCombine_partition t
  rw [h, hashableCombine_partition t'] at h1
  cases h1; rfl

/-- The key of a value. -/
def keyOf (w : World V A O C Q R) (t : Val A O C) : AKey A Q R := ((hashablePartition t).1, staticKey w (hashablePartition t).2)

theorem keyOf_eq_iff (w : World V A O C Q R) (t t' : Val A O C) : keyOf w t = keyOf w t' ↔ AbsEq w t t' := by
  rw [absEq_iff]
  constructor
  · intro h
    simp only [keyOf, Prod.mk.injEq] at h
    obtain ⟨h1, h2⟩ := h
    obtain ⟨t'', e1, e2⟩ := exists_with_static (absWorld w) t' (hashablePartition t).2 h2
    rw [← h1] at e1
    rwa [partition_inj e1] at e2
  · intro h
    have h' := (classes_eq_iff _ _ _ _).1 h
    obtain ⟨h1, h2⟩ := h'
    have e1 : t.leaves.map Leaf.dyn = t'.leaves.map Leaf.dyn := by
      have := congrArg (List.map Leaf.dyn) h2
      simp only [List.map_map] at this
      have e : (Leaf.dyn ∘ eqLeaf (absWorld w) : Leaf A O → Option A) = Leaf.dyn := by funext l; cases l <;> rfl
      rwa [e] at this
    have e2 : (t.leaves.map Leaf.static).map (fun o => o.map w.cls) = (t'.leaves.map Leaf.static).map (fun o => o.map w.cls) := by
      have := congrArg (List.map Leaf.static) h2
      simp only [List.map_map] at this ⊢
      have e : (Leaf.static ∘ eqLeaf (absWorld w) : Leaf A O → Option Q) = (fun o => Option.map w.cls o) ∘ Leaf.static := by
        funext l; cases l <;> rfl
      rwa [e] at this
    simp only [keyOf, hashablePartition, staticKey, e1, e2, Prod.mk.injEq, true_and]
    exact h1

/-- Evaluating a call directly. -/
theorem evalShape_eq (w : World V A O C Q R) (E : Env V A O C) (f : Val V O C) (ts : List (Val V O C)) (args : Val V O C) :
    evalShape E (hashablePartition (shaped w E (packAbs f ts args))).1 (hashablePartition (shaped w E (packAbs f ts args))).2 =
      stack E.atr (ts.map (absVal w E)) (E.afn (absVal w E f)) (absVal w E args) := by
  simp only [evalShape, hashableCombine_partition, bind, Except.bind]
  simp only [shaped_eq, absVal, packAbs, PT.map, mapL_eq, List.map_cons, List.map_nil, unpackAbs, applyAll_eq]
  rfl

theorem hashable_shaped (w : World V A O C Q R) (E : Env V A O C) (f : Val V O C) (ts : List (Val V O C)) (args : Val V O C) :
    (hashablePartition (shaped w E (packAbs f ts args))).2.hashable w = true ↔ EvalHashable w f ts args := by
  have e : (hashablePartition (shaped w E (packAbs f ts args))).2 = (hashablePartition (packAbs f ts args)).2 := by
    simp only [hashablePartition, shaped, shape_map, leaves_map, List.map_map]
    have : (Leaf.static ∘ shapedLeaf w E : Leaf V O → Option O) = Leaf.static := by funext l; cases l <;> rfl
    rw [this]
  rw [e, hashable_iff, packAbs, hashable_node]
  simp only [List.mem_cons, List.not_mem_nil, or_false, forall_eq_or_imp, forall_eq, hashable_node, reduceCtorEq, false_implies,
    implies_true, true_and, EvalHashable]

variable [DecidableEq A] [DecidableEq Q] [DecidableEq R]

/-! ### The cache -/

/-- Every entry of the cache was evaluated for a call with its key. -/
def AInv (w : World V A O C Q R) (E : Env V A O C) (st : ASt A O C Q R) : Prop :=
  ∀ e ∈ st.cache, ∃ f ts args, e.1 = keyOf w (absVal w E (packAbs f ts args)) ∧
    stack E.atr (ts.map (absVal w E)) (E.afn (absVal w E f)) (absVal w E args) = .ok e.2

/-- The three ways an abstract evaluation goes. -/
theorem abstractEval_cases (w : World V A O C Q R) (E : Env V A O C) (st : ASt A O C Q R) (f : Val V O C) (ts : List (Val V O C))
    (args : Val V O C) :
    (¬ EvalHashable w f ts args ∧ abstractEval w E st f ts args = (.error .typeError, st)) ∨
    (EvalHashable w f ts args ∧ ∃ out, st.cache.find? (fun e => decide (e.1 = keyOf w (absVal w E (packAbs f ts args)))) =
        some (keyOf w (absVal w E (packAbs f ts args)), out) ∧
      abstractEval w E st f ts args = (.ok (strongVal E out), { st with
        cache := (keyOf w (absVal w E (packAbs f ts args)), out) ::
          st.cache.filter (fun e => decide (e.1 ≠ keyOf w (absVal w E (packAbs f ts args)))) })) ∨
    (EvalHashable w f ts args ∧ (∀ e ∈ st.cache, e.1 ≠ keyOf w (absVal w E (packAbs f ts args))) ∧
      ((∃ out, stack E.atr (ts.map (absVal w E)) (E.afn (absVal w E f)) (absVal w E args) = .ok out ∧
        abstractEval w E st f ts args = (.ok (strongVal E out),
          ⟨((keyOf w (absVal w E (packAbs f ts args)), out) :: st.cache).take 128, st.evals + 1⟩)) ∨
      (∃ e, stack E.atr (ts.map (absVal w E)) (E.afn (absVal w E f)) (absVal w E args) = .error e ∧
        abstractEval w E st f ts args = (.error e, { st with evals := st.evals + 1 })))) := by
  have hk : ((hashablePartition (shaped w E (packAbs f ts args))).1,
      staticKey w (hashablePartition (shaped w E (packAbs f ts args))).2) = keyOf w (absVal w E (packAbs f ts args)) := by
    rw [shaped_eq]; rfl
  by_cases hh : EvalHashable w f ts args
  · right
    have hh' := (hashable_shaped w E f ts args).2 hh
    simp only [abstractEval, hh', Bool.not_true, Bool.false_eq_true, if_false, cached, hk, evalShape_eq]
    cases hg : st.cache.find? (fun e => decide (e.1 = keyOf w (absVal w E (packAbs f ts args)))) with
    | some e =>
      left
      have h1 := List.find?_some hg
      simp only [decide_eq_true_eq] at h1
      obtain ⟨k, out⟩ := e
      simp only at h1
      subst h1
      refine ⟨hh, out, rfl, ?_⟩
      simp only [Except.map, strongVal_eq]
    | none =>
      right
      refine ⟨hh, ?_, ?_⟩
      · intro e he
        have := List.find?_eq_none.1 hg e he
        simpa using this
      · cases hs : stack E.atr (ts.map (absVal w E)) (E.afn (absVal w E f)) (absVal w E args) with
        | ok out => left; exact ⟨out, rfl, by simp only [Except.map, strongVal_eq]⟩
        | error e => right; exact ⟨e, rfl, by simp only [Except.map]⟩
  · left
    refine ⟨hh, ?_⟩
    have hh' : (hashablePartition (shaped w E (packAbs f ts args))).2.hashable w = false := by
      rw [← Bool.not_eq_true, hashable_shaped]; exact hh
    simp only [abstractEval, hh', Bool.not_false, if_true]

theorem astep_inv {w : World V A O C Q R} {E : Env V A O C} {st : ASt A O C Q R} (hi : AInv w E st) (e : AEvent V O C) :
    AInv w E (astep w E st e) := by
  cases e with
  | clear => intro e he; cases he
  | eval f ts args =>
    simp only [astep]
    rcases abstractEval_cases w E st f ts args with ⟨-, h⟩ | ⟨-, out, hf, h⟩ | ⟨-, hn, ⟨out, hs, h⟩ | ⟨e, hs, h⟩⟩
    · rw [h]; exact hi
    · rw [h]
      intro e he
      rcases List.mem_cons.1 he with rfl | he
      · exact hi _ (List.mem_of_find?_eq_some hf)
      · exact hi _ (List.mem_filter.1 he).1
    · rw [h]
      intro e he
      rcases List.mem_cons.1 (List.mem_of_mem_take he) with rfl | he
      · exact ⟨f, ts, args, rfl, hs⟩
      · exact hi _ he
    · rw [h]; exact hi

theorem foldl_ainv {w : World V A O C Q R} {E : Env V A O C} (h : List (AEvent V O C)) {st : ASt A O C Q R} (hi : AInv w E st) :
    AInv w E (h.foldl (astep w E) st) := by
  induction h generalizing st with
  | nil => exact hi
  | cons e h ih => exact ih (astep_inv hi e)

theorem arun_inv (w : World V A O C Q R) (E : Env V A O C) (h : List (AEvent V O C)) : AInv w E (arun w E h) :=
  foldl_ainv h (by intro e he; cases he)

omit [DecidableEq A] [DecidableEq Q] [DecidableEq R] in
theorem evalEq_iff (w : World V A O C Q R) (E : Env V A O C) (f f' : Val V O C) (ts ts' : List (Val V O C)) (args args' : Val V O C) :
    EvalEq w E f f' ts ts' args args' ↔
      keyOf w (absVal w E (packAbs f ts args)) = keyOf w (absVal w E (packAbs f' ts' args')) := (keyOf_eq_iff w _ _).symm

/-- **C100**, abstract evaluation: after any history, a call that cannot be hashed is a `TypeError`; otherwise the output announced
is that of evaluating a call equal up to `==`, without weak types, and an error is that of evaluating the call itself. -/
theorem announced (w : World V A O C Q R) (E : Env V A O C) (h : List (AEvent V O C)) (f : Val V O C) (ts : List (Val V O C))
    (args : Val V O C) :
    (¬ EvalHashable w f ts args → (abstractEval w E (arun w E h) f ts args).1 = .error .typeError) ∧
    (EvalHashable w f ts args → ∀ e, (abstractEval w E (arun w E h) f ts args).1 = .error e →
      stack E.atr (ts.map (absVal w E)) (E.afn (absVal w E f)) (absVal w E args) = .error e) ∧
    (∀ D, (abstractEval w E (arun w E h) f ts args).1 = .ok D → EvalHashable w f ts args ∧
      ∃ f' ts' args' out, EvalEq w E f' f ts' ts args' args ∧
        stack E.atr (ts'.map (absVal w E)) (E.afn (absVal w E f')) (absVal w E args') = .ok out ∧ D = strongVal E out) := by
  rcases abstractEval_cases w E (arun w E h) f ts args with ⟨hh, h⟩ | ⟨hh, out, hf, h⟩ | ⟨hh, hn, ⟨out, hs, h⟩ | ⟨e, hs, h⟩⟩ <;>
    rw [h]
  · exact ⟨fun _ => rfl, fun h' => absurd h' hh, fun D h' => by cases h'⟩
  · refine ⟨fun h' => absurd hh h', fun _ e h' => by (cases h'), fun D h' => ?_⟩
    cases h'
    obtain ⟨f', ts', args', e1, e2⟩ := arun_inv w E _ _ (List.mem_of_find?_eq_some hf)
    exact ⟨hh, f', ts', args', out, (evalEq_iff ..).2 e1.symm, e2, rfl⟩
  · refine ⟨fun h' => absurd hh h', fun _ e h' => by (cases h'), fun D h' => ?_⟩
    cases h'
    exact ⟨hh, f, ts, args, out, (evalEq_iff ..).2 rfl, hs, rfl⟩
  · refine ⟨fun h' => absurd hh h', fun _ e' h' => ?_, fun D h' => by cases h'⟩
    cases h'
    exact hs

/-- **C100**, abstract evaluation if `==` is exact: the output announced is that of evaluating the call. -/
theorem announced_exact_partial {w : World V A O C Q R} (hE : w.EqExact) (E : Env V A O C) (h : List (AEvent V O C)) (f : Val V O C)
    (ts : List (Val V O C)) (args : Val V O C) (hh : EvalHashable w f ts args) :
    (abstractEval w E (arun w E h) f ts args).1 =
      (stack E.atr (ts.map (absVal w E)) (E.afn (absVal w E f)) (absVal w E args)).map (strongVal E) := by
  obtain ⟨-, h2, h3⟩ := announced w E h f ts args
  cases hr : (abstractEval w E (arun w E h) f ts args).1 with
  | error e => rw [h2 hh e hr]; rfl
  | ok D =>
    obtain ⟨-, f', ts', args', out, e1, e2, rfl⟩ := h3 D hr
    have hE' : (absWorld w).EqExact := hE
    have e3 := eq_of_eqUpTo hE' ((absEq_iff w _ _).1 e1)
    simp only [absVal, PT.map, mapL_eq, List.map_cons, List.map_nil, PT.node.injEq, List.cons.injEq, and_true, true_and] at e3
    obtain ⟨a1, a2, a3⟩ := e3
    have a2' : ts'.map (absVal w E) = ts.map (absVal w E) := a2
    rw [show absVal w E f' = absVal w E f from a1, a2', show absVal w E args' = absVal w E args from a3] at e2
    rw [e2]; rfl

/-- The cache never holds more than 128 entries. -/
theorem cache_bounded (w : World V A O C Q R) (E : Env V A O C) (h : List (AEvent V O C)) : (arun w E h).cache.length ≤ 128 := by
  have key : ∀ (h : List (AEvent V O C)) (st : ASt A O C Q R), st.cache.length ≤ 128 → (h.foldl (astep w E) st).cache.length ≤ 128 := by
    intro h
    induction h with
    | nil => intro st hs; exact hs
    | cons e h ih =>
      intro st hs
      refine ih _ ?_
      cases e with
      | clear => exact Nat.zero_le _
      | eval f ts args =>
        simp only [astep]
        rcases abstractEval_cases w E st f ts args with ⟨-, h⟩ | ⟨-, out, hf, h⟩ | ⟨-, hn, ⟨out, hs', h⟩ | ⟨e, hs', h⟩⟩ <;> rw [h]
        · exact hs
        · have hm := List.mem_of_find?_eq_some hf
          have : (st.cache.filter (fun e => decide (e.1 ≠ keyOf w (absVal w E (packAbs f ts args))))).length < st.cache.length := by
            refine List.length_filter_lt_length_iff_exists.2 ⟨_, hm, by simp⟩
          simp only [List.length_cons]; omega
        · exact List.length_take_le _ _
        · exact hs
  exact key h _ (Nat.zero_le _)

/-- What is known of the cache since the call with key `k` was evaluated to `out`: the keys used since then are at the front. -/
def Recent (ks : List (AKey A Q R)) (k : AKey A Q R) (out : Val A O C) (st : ASt A O C Q R) : Prop :=
  ∃ front rest, st.cache = front ++ rest ∧ (front.map Prod.fst).Nodup ∧ (∀ e ∈ front, e.1 ∈ ks) ∧ (k, out) ∈ front

omit [DecidableEq A] [DecidableEq Q] [DecidableEq R] in
theorem nodup_unique {X Y : Type} {l : List (X × Y)} (h : (l.map Prod.fst).Nodup) {k : X} {a b : Y} (ha : (k, a) ∈ l) (hb : (k, b) ∈ l) : a = b := by
  induction l with
  | nil => cases ha
  | cons e l ih =>
    simp only [List.map_cons, List.nodup_cons] at h
    rcases List.mem_cons.1 ha with rfl | ha' <;> rcases List.mem_cons.1 hb with hb' | hb'
    · cases hb'; rfl
    · exact absurd (List.mem_map.2 ⟨_, hb', rfl⟩) h.1
    · subst hb'; exact absurd (List.mem_map.2 ⟨_, ha', rfl⟩) h.1
    · exact ih h.2 ha' hb'

omit [DecidableEq A] [DecidableEq Q] [DecidableEq R] in
theorem length_front {ks : List (AKey A Q R)} {front : List (AKey A Q R × Val A O C)} (h1 : (front.map Prod.fst).Nodup)
    (h2 : ∀ e ∈ front, e.1 ∈ ks) : front.length ≤ ks.length := by
  have : front.map Prod.fst ⊆ ks := by
    intro x hx
    obtain ⟨e, he, rfl⟩ := List.mem_map.1 hx
    exact h2 e he
  simpa using (List.subperm_of_subset h1 this).length_le

theorem recent_find {ks : List (AKey A Q R)} {k : AKey A Q R} {out : Val A O C} {st : ASt A O C Q R} (h : Recent ks k out st) :
    st.cache.find? (fun e => decide (e.1 = k)) = some (k, out) := by
  obtain ⟨front, rest, e, h1, -, h3⟩ := h
  rw [e, List.find?_append]
  cases hf : front.find? (fun e => decide (e.1 = k)) with
  | none =>
    have := List.find?_eq_none.1 hf _ h3
    simp at this
  | some e' =>
    obtain ⟨k', out'⟩ := e'
    have a1 := List.find?_some hf
    simp only [decide_eq_true_eq] at a1
    subst a1
    rw [nodup_unique h1 h3 (List.mem_of_find?_eq_some hf)]; rfl

theorem recent_step {w : World V A O C Q R} {E : Env V A O C} {ks : List (AKey A Q R)} {k : AKey A Q R} {out : Val A O C}
    {st : ASt A O C Q R} (hks : ks.length ≤ 128) (h : Recent ks k out st) (f : Val V O C) (ts : List (Val V O C)) (args : Val V O C)
    (hk : keyOf w (absVal w E (packAbs f ts args)) ∈ ks) : Recent ks k out (abstractEval w E st f ts args).2 := by
  have hfind := recent_find h
  rcases abstractEval_cases w E st f ts args with ⟨-, h'⟩ | ⟨-, out', hf, h'⟩ | ⟨-, hn, ⟨out', hs', h'⟩ | ⟨e, hs', h'⟩⟩ <;> rw [h']
  · exact h
  · obtain ⟨front, rest, e, h1, h2, h3⟩ := h
    generalize hk' : keyOf w (absVal w E (packAbs f ts args)) = k' at *
    refine ⟨(k', out') :: front.filter (fun e => decide (e.1 ≠ k')), rest.filter (fun e => decide (e.1 ≠ k')), ?_, ?_, ?_, ?_⟩
    · simp only [e, List.filter_append, List.cons_append]
    · simp only [List.map_cons, List.nodup_cons]
      constructor
      · intro hm
        obtain ⟨e', he', a⟩ := List.mem_map.1 hm
        have := (List.mem_filter.1 he').2
        simp only [decide_eq_true_eq] at this
        exact this a
      · exact (List.filter_sublist.map Prod.fst).nodup h1
    · intro e' he'
      rcases List.mem_cons.1 he' with rfl | he'
      · exact hk
      · exact h2 _ (List.mem_filter.1 he').1
    · by_cases hkk : k = k'
      · subst hkk
        rw [hfind] at hf
        cases hf
        exact List.mem_cons_self
      · exact List.mem_cons_of_mem _ (List.mem_filter.2 ⟨h3, by simpa using hkk⟩)
  · obtain ⟨front, rest, e, h1, h2, h3⟩ := h
    generalize hk' : keyOf w (absVal w E (packAbs f ts args)) = k' at *
    have n1 : (((k', out') :: front).map Prod.fst).Nodup := by
      simp only [List.map_cons, List.nodup_cons]
      refine ⟨?_, h1⟩
      intro hm
      obtain ⟨e', he', a⟩ := List.mem_map.1 hm
      exact hn e' (by rw [e]; exact List.mem_append_left _ he') a
    have n2 : ∀ e ∈ (k', out') :: front, e.1 ∈ ks := by
      intro e' he'
      rcases List.mem_cons.1 he' with rfl | he'
      · exact hk
      · exact h2 _ he'
    have n3 := length_front n1 n2
    refine ⟨(k', out') :: front, rest.take (128 - ((k', out') :: front).length), ?_, n1, n2, List.mem_cons_of_mem _ h3⟩
    simp only [e]
    rw [← List.cons_append, List.take_append, List.take_of_length_le (by omega)]
  · exact h

/-- **C100**: a call whose output was announced before is not evaluated again, if the caches were not cleared since then and at most
128 different calls, itself included, were evaluated since then; it is announced the same output. -/
theorem announced_once (w : World V A O C Q R) (E : Env V A O C) (h₁ h₂ : List (AEvent V O C)) (f : Val V O C) (ts : List (Val V O C))
    (args : Val V O C) (D : Val A O C) (hD : (abstractEval w E (arun w E h₁) f ts args).1 = .ok D)
    (calls : List (Val V O C × List (Val V O C) × Val V O C)) (hc : calls.length ≤ 128)
    (h₂c : ∀ e ∈ AEvent.eval f ts args :: h₂, ∃ f₁ ts₁ args₁, e = .eval f₁ ts₁ args₁ ∧
      ∃ c ∈ calls, EvalEq w E f₁ c.1 ts₁ c.2.1 args₁ c.2.2)
    (f' : Val V O C) (ts' : List (Val V O C)) (args' : Val V O C) (he : EvalEq w E f' f ts' ts args' args)
    (hh : EvalHashable w f' ts' args') :
    (abstractEval w E (arun w E (h₁ ++ .eval f ts args :: h₂)) f' ts' args').1 = .ok D ∧
    (abstractEval w E (arun w E (h₁ ++ .eval f ts args :: h₂)) f' ts' args').2.evals = (arun w E (h₁ ++ .eval f ts args :: h₂)).evals := by
  let ks := calls.map fun c => keyOf w (absVal w E (packAbs c.1 c.2.1 c.2.2))
  have hks : ks.length ≤ 128 := by simpa [ks] using hc
  have hev : ∀ f₁ ts₁ args₁, AEvent.eval f₁ ts₁ args₁ ∈ AEvent.eval f ts args :: h₂ → keyOf w (absVal w E (packAbs f₁ ts₁ args₁)) ∈ ks := by
    intro f₁ ts₁ args₁ hm
    obtain ⟨f₂, ts₂, args₂, e, c, hcc, heq⟩ := h₂c _ hm
    cases e
    exact List.mem_map.2 ⟨c, hcc, ((evalEq_iff ..).1 heq).symm⟩
  have hk0 := hev f ts args List.mem_cons_self
  obtain ⟨out, hout, hr⟩ : ∃ out, D = strongVal E out ∧
      Recent ks (keyOf w (absVal w E (packAbs f ts args))) out (abstractEval w E (arun w E h₁) f ts args).2 := by
    rcases abstractEval_cases w E (arun w E h₁) f ts args with ⟨-, h'⟩ | ⟨-, out', hf, h'⟩ | ⟨-, hn, ⟨out', hs', h'⟩ | ⟨e, hs', h'⟩⟩ <;>
      rw [h'] at hD ⊢
    · cases hD
    · cases hD
      exact ⟨out', rfl, [(_, out')], _, rfl, by simp, by simpa using hk0, by simp⟩
    · cases hD
      refine ⟨out', rfl, [(_, out')], (arun w E h₁).cache.take 127, ?_, by simp, by simpa using hk0, by simp⟩
      simp only [List.take_succ_cons, List.singleton_append]
    · cases hD
  have hev₂ : ∀ e ∈ h₂, ∃ f₁ ts₁ args₁, e = .eval f₁ ts₁ args₁ := by
    intro e hm
    obtain ⟨f₁, ts₁, args₁, e, -⟩ := h₂c e (List.mem_cons_of_mem _ hm)
    exact ⟨f₁, ts₁, args₁, e⟩
  have key : ∀ (h : List (AEvent V O C)) (st : ASt A O C Q R), (∀ e ∈ h, e ∈ h₂) →
      Recent ks (keyOf w (absVal w E (packAbs f ts args))) out st →
      Recent ks (keyOf w (absVal w E (packAbs f ts args))) out (h.foldl (astep w E) st) := by
    intro h
    induction h with
    | nil => intro st _ hs; exact hs
    | cons e h ih =>
      intro st hm hs
      refine ih _ (fun e he => hm e (List.mem_cons_of_mem _ he)) ?_
      have he := hm e List.mem_cons_self
      obtain ⟨f₁, ts₁, args₁, rfl⟩ := hev₂ e he
      exact recent_step hks hs f₁ ts₁ args₁ (hev _ _ _ (List.mem_cons_of_mem _ he))
  have hfin := key h₂ _ (fun _ he => he) hr
  have hrun : arun w E (h₁ ++ .eval f ts args :: h₂) = h₂.foldl (astep w E) (abstractEval w E (arun w E h₁) f ts args).2 := by
    simp only [arun, List.foldl_append, List.foldl_cons]; rfl
  rw [hrun]
  have hfd := recent_find hfin
  rw [← (evalEq_iff ..).1 he] at hfd
  rcases abstractEval_cases w E (h₂.foldl (astep w E) (abstractEval w E (arun w E h₁) f ts args).2) f' ts' args' with
    ⟨hh', -⟩ | ⟨-, out', hf, h'⟩ | ⟨-, hn, -⟩
  · exact absurd hh hh'
  · rw [h']
    rw [hfd] at hf
    cases hf
    exact ⟨by rw [hout], rfl⟩
  · exact absurd rfl (hn _ (List.mem_of_find?_eq_some hfd))

/-! ### What comes out of a compiled call -/

/-- `v` is what `jax.jit` returns for a leaf. -/
def OutLeaf (E : Env V A O C) (l : Leaf V O) (v : V) : Prop := l = .arr v ∨ ∃ o, l = .obj o ∧ E.number o = some v

omit [DecidableEq A] [DecidableEq Q] [DecidableEq R] in
theorem mapE_jitOut (E : Env V A O C) (ls : List (Leaf V O)) (vs : List V) :
    mapE (jitOut E) ls = .ok vs ↔ List.Forall₂ (OutLeaf E) ls vs := by
  induction ls generalizing vs with
  | nil =>
    constructor
    · intro h; cases h; exact .nil
    · intro h; cases h; rfl
  | cons l ls ih =>
    have hl : ∀ v, jitOut E l = .ok v ↔ OutLeaf E l v := by
      intro v
      cases l with
      | arr u => simp [jitOut, OutLeaf]
      | obj o =>
        simp only [jitOut, OutLeaf, reduceCtorEq, Leaf.obj.injEq, false_or, exists_eq_left']
        cases E.number o <;> simp
    simp only [mapE, bind, Except.bind, pure, Except.pure]
    constructor
    · intro h
      cases h1 : jitOut E l with
      | error e => rw [h1] at h; cases h
      | ok v =>
        rw [h1] at h
        cases h2 : mapE (jitOut E) ls with
        | error e => rw [h2] at h; cases h
        | ok us =>
          rw [h2] at h
          cases h
          exact .cons ((hl v).1 h1) ((ih us).1 h2)
    · intro h
      cases h with
      | cons h1 h2 => rw [(hl _).2 h1, (ih _).2 h2]

omit [DecidableEq A] [DecidableEq Q] [DecidableEq R] in
/-- Filling in as many arrays as were announced gives the value with the announced static part and these arrays. -/
theorem fillOut_spec (D : Val A O C) (vs : List V) (h : vs.length = (arrays D).length) :
    ∃ r, fillOut D vs = .ok r ∧ r.map Leaf.static = D.map Leaf.static ∧ arrays r = vs := by
  have key : ∀ (ls : List (Leaf A O)) (vs : List V), vs.length = (ls.filterMap Leaf.arr?).length →
      ∃ ls' : List (Leaf V O), ls'.map Leaf.static = ls.map Leaf.static ∧ ls'.filterMap Leaf.arr? = vs := by
    intro ls
    induction ls with
    | nil => intro vs h; cases vs with
      | nil => exact ⟨[], rfl, rfl⟩
      | cons => simp at h
    | cons l ls ih =>
      intro vs h
      cases l with
      | arr a =>
        cases vs with
        | nil => simp [Leaf.arr?] at h
        | cons v vs =>
          obtain ⟨ls', e1, e2⟩ := ih vs (by simpa [Leaf.arr?] using h)
          exact ⟨.arr v :: ls', by simp [Leaf.static, e1], by simp [Leaf.arr?, e2]⟩
      | obj o =>
        obtain ⟨ls', e1, e2⟩ := ih vs h
        exact ⟨.obj o :: ls', by simp [Leaf.static, e1], e2⟩
  obtain ⟨ls', e1, e2⟩ := key D.leaves vs h
  have hlen : ls'.length = D.leaves.length := by
    have := congrArg List.length e1; simpa using this
  obtain ⟨r, r1, r2⟩ := exists_fill D.shape ls' (by rw [hlen, shape, leaves_map, List.length_map])
  have hsh : r.shape = D.shape := by
    rw [r1]; simp only [shape, map_map]
  refine ⟨r, ?_, ?_, ?_⟩
  · have hp : (hashablePartition D).2 = (hashablePartition r).2 := by
      simp only [hashablePartition, hsh, r2, e1]
    have := refill_unflatten r
    rw [← hp] at this
    rw [← this, show vs = arrays r by rw [arrays, r2, e2]]
    rfl
  · apply eq_of_shape_leaves
    · rw [shape_map, shape_map, hsh]
    · rw [leaves_map, leaves_map, r2, e1]
  · rw [arrays, r2, e2]

omit [DecidableEq Q] [DecidableEq R] in
/-- **C100**, the output of a compiled call: it succeeds just if every leaf of what the function returns is an array or a number and
these have, in order, shapes and dtypes of the announced arrays; then it returns these arrays in the announced structure with the
announced static leaves. All else is a `RuntimeError`. -/
theorem finish_iff (w : World V A O C Q R) (E : Env V A O C) (D : Val A O C) (r : Except Err (Val V O C)) :
    (∀ res, finish w E D r = .ok res ↔ ∃ out vs, r = .ok out ∧ List.Forall₂ (OutLeaf E) out.leaves vs ∧
      vs.map (fun v => E.strong (w.aval v)) = arrays D ∧ res.map Leaf.static = D.map Leaf.static ∧ arrays res = vs) ∧
    (∀ e, finish w E D r = .error e → e = .runtimeError) := by
  cases r with
  | error e =>
    simp only [finish]
    exact ⟨fun res => ⟨fun h => (by cases h), fun ⟨_, _, h, _⟩ => (by cases h)⟩, fun e h => (by cases h; rfl)⟩
  | ok out =>
    simp only [finish]
    cases hm : mapE (jitOut E) out.leaves with
    | error e =>
      refine ⟨fun res => ⟨fun h => (by cases h), ?_⟩, fun e h => (by cases h; rfl)⟩
      rintro ⟨out', vs, ho, h1, -⟩
      cases ho
      rw [(mapE_jitOut E _ _).2 h1] at hm
      cases hm
    | ok vs =>
      simp only [← arrays_eq]
      have hm' := (mapE_jitOut E _ _).1 hm
      by_cases ha : vs.map (fun v => E.strong (w.aval v)) = arrays D
      · simp only [ha, if_true]
        obtain ⟨q, q1, q2, q3⟩ := fillOut_spec D vs (by rw [← ha, List.length_map])
        rw [q1]
        refine ⟨fun res => ⟨?_, ?_⟩, fun e h => by cases h⟩
        · intro h; cases h
          exact ⟨out, vs, rfl, hm', ha, q2, q3⟩
        · rintro ⟨out', vs', ho, h1, -, h3, h4⟩
          cases ho
          rw [(mapE_jitOut E _ _).2 h1] at hm
          cases hm
          have : SameStatic res q := h3.trans q2.symm
          have hp := partition_of_sameStatic this
          have := refill_unflatten res
          rw [hp, h4, ← q3, refill_unflatten q] at this
          exact this
      · simp only [ha, if_false]
        refine ⟨fun res => ⟨fun h => (by cases h), ?_⟩, fun e h => (by cases h; rfl)⟩
        rintro ⟨out', vs', ho, h1, h2, -⟩
        cases ho
        rw [(mapE_jitOut E _ _).2 h1] at hm
        cases hm
        exact absurd h2 ha

omit [DecidableEq A] [DecidableEq Q] [DecidableEq R] in
theorem arrays_absVal (w : World V A O C Q R) (E : Env V A O C) (t : Val V O C) :
    arrays (absVal w E t) = (arrays t).map fun v => E.strong (w.aval v) := by
  simp only [arrays, absVal, leaves_map]
  generalize t.leaves = ls
  induction ls with
  | nil => rfl
  | cons l ls ih =>
    cases l with
    | arr v => simp [absLeaf, Leaf.arr?, ih]
    | obj o => exact ih

omit [DecidableEq A] [DecidableEq Q] [DecidableEq R] in
theorem static_absVal (w : World V A O C Q R) (E : Env V A O C) (t : Val V O C) :
    (absVal w E t).map Leaf.static = t.map Leaf.static := by
  simp only [absVal, map_map]
  congr 1
  funext l; cases l <;> rfl

omit [DecidableEq A] [DecidableEq Q] [DecidableEq R] in
theorem length_arrays_lt {t : Val V O C} (h : ∃ o, Leaf.obj o ∈ t.leaves) : (arrays t).length < t.leaves.length := by
  obtain ⟨o, ho⟩ := h
  simp only [arrays]
  generalize t.leaves = ls at ho
  induction ls with
  | nil => cases ho
  | cons l ls ih =>
    have hle := List.length_filterMap_le (Leaf.arr? (V := V) (O := O)) ls
    rcases List.mem_cons.1 ho with rfl | ho
    · simp only [List.filterMap_cons, Leaf.arr?, List.length_cons]; omega
    · have := ih ho
      cases l <;> simp only [List.filterMap_cons, Leaf.arr?, List.length_cons] <;> omega

omit [DecidableEq Q] [DecidableEq R] in
/-- If the output announced is that of the function: made of arrays only it is returned unchanged; if something in it is no array
(and not `None`), the call is a `RuntimeError`, even though abstract evaluation and the uncompiled call allow it. -/
theorem finish_consistent (w : World V A O C Q R) (E : Env V A O C) (out : Val V O C) :
    ((∀ l ∈ out.leaves, ∃ v, l = .arr v) → finish w E (absVal w E out) (.ok out) = .ok out) ∧
    ((∃ o, Leaf.obj o ∈ out.leaves) → finish w E (absVal w E out) (.ok out) = .error .runtimeError) := by
  constructor
  · intro h
    refine ((finish_iff w E _ _).1 out).2 ⟨out, arrays out, rfl, ?_, (arrays_absVal w E out).symm, (static_absVal w E out).symm, rfl⟩
    simp only [arrays]
    generalize out.leaves = ls at h
    induction ls with
    | nil => exact .nil
    | cons l ls ih =>
      obtain ⟨v, rfl⟩ := h _ List.mem_cons_self
      exact .cons (.inl rfl) (ih fun l hl => h l (List.mem_cons_of_mem _ hl))
  · intro h
    cases hf : finish w E (absVal w E out) (.ok out) with
    | error e => rw [(finish_iff w E _ _).2 e hf]
    | ok res =>
      obtain ⟨out', vs, ho, h1, h2, -⟩ := ((finish_iff w E _ _).1 res).1 hf
      cases ho
      have l1 := h1.length_eq
      have l2 := congrArg List.length h2
      rw [arrays_absVal, List.length_map, List.length_map] at l2
      have := length_arrays_lt h
      omega

/-- If `==` is exact, the callback of a compiled call computes what the call without compilation computes. -/
theorem runProgram_eq_impl {w : World V A O C Q R} (hE : w.EqExact) {tr : Transforms V O C} {h : List (Event V O C)} {i p : Nat}
    {fn : Val V O C} {ts : List (Val V O C)} {args : Val V O C} (hr : Registered w tr h i fn) (hl : Lowered w tr h p ts args)
    {ts₁ : List (Val V O C)} {args₁ : Val V O C} (hs : SameStatic (packCall ts₁ args₁) (packCall ts args)) :
    ∃ wr, (run w tr h).wrappers[i]? = some wr ∧
      (runProgram w tr (run w tr h) p wr.index (arrays (packCall ts₁ args₁))).1 = impl w tr (run w tr h) ⟨wr.index, ts₁, args₁⟩ := by
  obtain ⟨n, s, h1, h2, h3⟩ := registered_wrapper hr
  obtain ⟨c, cb, g1, g2, g3⟩ := lowered_program hl
  rw [← partition_of_sameStatic hs] at g3
  obtain ⟨t', e1, e2⟩ := exists_with_static w _ _ g3
  have e3 := eq_of_eqUpTo hE e2
  subst e3
  have hcl : cb.closure = (hashablePartition (packCall ts₁ args₁)).2 := (congrArg Prod.snd e1).symm
  have body : ∀ s', callbackBody w tr cb.closure s' (arrays (packCall ts₁ args₁)) = applyAll tr ts₁ (implTransform w s') args₁ := by
    intro s'
    have r := refill_unflatten (packCall ts₁ args₁)
    rw [← hcl] at r
    simp only [bind, Except.bind] at r
    simp only [callbackBody, bind, Except.bind]
    cases hf : refill cb.closure.leaves (arrays (packCall ts₁ args₁)) with
    | error e => rw [hf] at r; cases r
    | ok flat =>
      rw [hf] at r
      simp only at r ⊢
      rw [r]
      simp only [packCall, unpackCall]
  refine ⟨_, h1, ?_⟩
  simp only [runProgram, g1, lookup, g2, h2, impl]
  cases hg : Dict.get? cb.cache (staticKey w s, (arrays (packCall ts₁ args₁)).map w.aval) with
  | some s' =>
    have hk := (run_inv w tr h).jits c cb g2 _ _ _ hg
    obtain ⟨f1, a1, a2⟩ := exists_with_static w fn s h3
    obtain ⟨f2, b1, b2⟩ := exists_with_static w fn s' (hk.trans h3)
    have c1 := eq_of_eqUpTo hE a2
    have c2 := eq_of_eqUpTo hE b2
    rw [c1] at a1
    rw [c2, a1] at b1
    have : s' = s := (congrArg Prod.snd b1).symm
    subst this
    exact body s'
  | none =>
    simp only []
    rw [← body s]
    cases callbackBody w tr cb.closure s (arrays (packCall ts₁ args₁)) <;> rfl

/-- **C100**, all together, if `==` is exact. A call of wrapper `i` with transforms `ts₁` and arguments `args₁` is run in a program
compiled for a call `ts`, `args` that differs in arrays only, and whose output was announced after any history of abstract
evaluations by an `abstract_fn` that agrees with the function on this call. If the function returns arrays only, the compiled call
returns them; if something in its output is no array, the compiled call is a `RuntimeError`, and so it is if the function
raises. -/
theorem compiled_output_partial {w : World V A O C Q R} (hE : w.EqExact) (E : Env V A O C) {tr : Transforms V O C}
    {h : List (Event V O C)} {ha : List (AEvent V O C)} {i p : Nat} {fn f : Val V O C} {ts : List (Val V O C)} {args : Val V O C}
    {D : Val A O C} (hr : Registered w tr h i fn) (hl : Lowered w tr h p ts args)
    (hD : (abstractEval w E (arun w E ha) f ts args).1 = .ok D)
    {ts₁ : List (Val V O C)} {args₁ : Val V O C} (hs : SameStatic (packCall ts₁ args₁) (packCall ts args)) :
    ∃ wr, (run w tr h).wrappers[i]? = some wr ∧
      (∀ out a, impl w tr (run w tr h) ⟨wr.index, ts₁, args₁⟩ = .ok out →
        stack E.atr (ts.map (absVal w E)) (E.afn (absVal w E f)) (absVal w E args) = .ok a → strongVal E a = absVal w E out →
        ((∀ l ∈ out.leaves, ∃ v, l = .arr v) →
          (compiledCall w E tr (run w tr h) D p wr.index (arrays (packCall ts₁ args₁))).1 = .ok out) ∧
        ((∃ o, Leaf.obj o ∈ out.leaves) →
          (compiledCall w E tr (run w tr h) D p wr.index (arrays (packCall ts₁ args₁))).1 = .error .runtimeError)) ∧
      (∀ e, impl w tr (run w tr h) ⟨wr.index, ts₁, args₁⟩ = .error e →
        (compiledCall w E tr (run w tr h) D p wr.index (arrays (packCall ts₁ args₁))).1 = .error .runtimeError) := by
  obtain ⟨wr, h1, h2⟩ := runProgram_eq_impl hE hr hl hs
  refine ⟨wr, h1, fun out a ho hst hsv => ?_, fun e he => ?_⟩
  · have hh := ((announced w E ha f ts args).2.2 D hD).1
    have hx := announced_exact_partial hE E ha f ts args hh
    rw [hD, hst] at hx
    simp only [Except.map, Except.ok.injEq] at hx
    rw [hsv] at hx
    simp only [compiledCall, h2, ho, hx]
    exact finish_consistent w E out
  · simp only [compiledCall, h2, he, finish]

/-! ### Where it fails, and cases meeting the hypotheses -/

/-- Arrays are pairs of a shape and a value, abstract values a shape and whether the type is weak. The function `0` returns its
first argument, `1` returns it with a string. -/
def exW : World (Nat × Nat) (Nat × Bool) Nat Unit Nat Unit where
  aval v := (v.1, v.2 = 0)
  cls o := o
  ccls c := c
  hashable o := o ≠ 99
  chashable _ := true
  apply f args _ :=
    match f, args with
    | .node .tuple (.leaf (.obj 0) :: _), a :: _ => .ok a
    | .node .tuple (.leaf (.obj 1) :: _), a :: _ => .ok (.node .tuple [a, .leaf (.obj 7)])
    | _, _ => .error .typeError
  bind _ args kw := .ok (args, kw)

/-- The default `abstract_fn` of the two functions. -/
def exE : Env (Nat × Nat) (Nat × Bool) Nat Unit where
  strong a := (a.1, false)
  afn f t :=
    match f, t with
    | .node .tuple (.leaf (.obj 0) :: _), .node .tuple [_, .node .tuple (a :: _), _] => .ok a
    | .node .tuple (.leaf (.obj 1) :: _), .node .tuple [_, .node .tuple (a :: _), _] => .ok (.node .tuple [a, .leaf (.obj 7)])
    | _, _ => .error .typeError
  atr _ f := f
  number o := if o = 5 then some (0, 5) else Option.none

theorem exW_exact : exW.EqExact := ⟨fun _ _ h => h, fun _ _ h => h⟩

/-- The function `o` with an array. -/
def exFn (o : Nat) (v : Nat × Nat) : Val (Nat × Nat) Nat Unit := .node .tuple [.leaf (.obj o), .leaf (.arr v)]

/-- `(dynamic_fn, args, kwargs)` -/
def exArgs (v a : Nat × Nat) : Val (Nat × Nat) Nat Unit := packArgs [Option.none, some v] [.leaf (.arr a)] []

def exHist (o : Nat) : List (Event (Nat × Nat) Nat Unit) :=
  [.register (exFn o (3, 1)), .lower [] (exArgs (3, 1) (4, 0)), .run 0 0 [(3, 1), (4, 2)], .clear]

theorem ex_registered (o : Nat) (ho : o = 0 ∨ o = 1) : Registered exW (fun _ f => f) (exHist o) 0 (exFn o (3, 1)) := by
  refine ⟨[], _, rfl, ?_⟩
  rcases ho with rfl | rfl <;> rfl

theorem ex_lowered (o : Nat) (ho : o = 0 ∨ o = 1) :
    Lowered exW (fun _ f => f) (exHist o) 0 [] (exArgs (3, 1) (4, 0)) := by
  refine ⟨[.register (exFn o (3, 1))], _, rfl, ?_⟩
  rcases ho with rfl | rfl <;> rfl

/-- C100 fails for functions whose output holds something that is not an array: the function returns its argument with a string,
the same is announced, but the compiled call is a `RuntimeError`. -/
theorem compiled_nonarray :
    exW.EqExact ∧ ∃ (h : List (Event (Nat × Nat) Nat Unit)) (D : Val (Nat × Bool) Nat Unit) (out : Val (Nat × Nat) Nat Unit),
      Registered exW (fun _ f => f) h 0 (exFn 1 (3, 1)) ∧ Lowered exW (fun _ f => f) h 0 [] (exArgs (3, 1) (4, 0)) ∧
      (abstractEval exW exE (arun exW exE []) (exFn 1 (3, 1)) [] (exArgs (3, 1) (4, 0))).1 = .ok D ∧
      impl exW (fun _ f => f) (run exW (fun _ f => f) h) ⟨0, [], exArgs (3, 1) (4, 9)⟩ = .ok out ∧ D = absVal exW exE out ∧
      (compiledCall exW exE (fun _ f => f) (run exW (fun _ f => f) h) D 0 0 (arrays (packCall [] (exArgs (3, 1) (4, 9))))).1 =
        .error .runtimeError :=
  ⟨exW_exact, exHist 1, .node .tuple [.leaf (.arr (4, false)), .leaf (.obj 7)], .node .tuple [.leaf (.arr (4, 9)), .leaf (.obj 7)],
    ex_registered 1 (.inr rfl), ex_lowered 1 (.inr rfl), rfl, rfl, rfl, rfl⟩

example : (compiledCall exW exE (fun _ f => f) (run exW (fun _ f => f) (exHist 0)) (.leaf (.arr (4, false))) 0 0
    (arrays (packCall [] (exArgs (3, 1) (4, 9))))).1 = .ok (.leaf (.arr (4, 9))) := rfl
example : (abstractEval exW exE (arun exW exE [.eval (exFn 0 (3, 1)) [] (exArgs (3, 1) (4, 0))]) (exFn 0 (3, 0)) []
    (exArgs (3, 0) (4, 7))).1 = .ok (.leaf (.arr (4, false))) := rfl
example : EvalHashable exW (exFn 0 (3, 1)) [] (exArgs (3, 1) (4, 0)) :=
  (hashable_shaped exW exE _ _ _).1 rfl
example : ¬ EvalHashable exW (exFn 99 (3, 1)) [] (exArgs (3, 1) (4, 0)) := by
  rw [← hashable_shaped exW exE]; decide
/-- Calls which differ in values and weak types of arrays are not told apart. -/
example : EvalEq exW exE (exFn 0 (3, 1)) (exFn 0 (3, 0)) [] [] (exArgs (3, 1) (4, 0)) (exArgs (3, 0) (4, 7)) := rfl
/-- A number in the output becomes an array, if an array is announced. -/
example : finish exW exE (.leaf (.arr (0, false))) (.ok (.leaf (.obj 5))) = .ok (.leaf (.arr (0, 5))) := rfl

end Output
end Noinline
end Verif
