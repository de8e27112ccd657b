import Verif.State.Spec
import Verif.PyTree.SpecLemmas

namespace Verif
namespace State

variable {K V S : Type} [DecidableEq K] [DecidableEq S]

theorem deref_ok {h : Heap K V} {a : Nat} {d : Dict K V} : deref h a = .ok d ↔ h[a]? = some (some d) := by
  unfold deref; split <;> simp_all

theorem deref_err {h : Heap K V} {a : Nat} (hh : h[a]? = some none) : deref h a = .error .valueError := by
  simp [deref, hh]

theorem setDict_ok {conv : V → V} {struct : V → S} {h : Heap K V} {a : Nat} {item : Item K} {v : V} {d' : Dict K V} :
    setDict conv struct h a item v = .ok d' ↔
      ∃ m d old, item = .index m ∧ h[a]? = some (some d) ∧ d.get? m = some old ∧ struct old = struct (conv v) ∧
        d' = d.insert m (conv v) := by
  simp only [setDict, bind, Except.bind]
  constructor
  · intro hh
    split at hh
    · contradiction
    · rename_i d hd
      split at hh
      · contradiction
      · rename_i m
        split at hh
        · contradiction
        · rename_i old ho
          split at hh
          · rename_i hs
            exact ⟨m, d, old, rfl, deref_ok.1 hd, ho, hs, by simpa using hh.symm⟩
          · contradiction
  · rintro ⟨m, d, old, rfl, hd, ho, hs, rfl⟩
    rw [deref_ok.2 hd]
    simp [ho, hs]

theorem mapM_ok {α β : Type} {f : α → Except Err β} {l : List α} {r : List β} (h : l.mapM f = .ok r) :
    l.map f = r.map Except.ok := by
  induction l generalizing r with
  | nil => simp [pure, Except.pure] at h; subst h; rfl
  | cons x l ih =>
    simp only [List.mapM_cons, bind, Except.bind] at h
    cases hx : f x with
    | error e => simp [hx] at h
    | ok y =>
      simp only [hx] at h
      cases hl : l.mapM f with
      | error e => simp [hl] at h
      | ok ys =>
        simp [hl, pure, Except.pure] at h
        subst h
        simp [hx, ih hl]

theorem get?_ofList_assoc (d : Dict K V) (ms : List K) (pairs : List (K × V))
    (hp : ms.map (fun k => match d.get? k with
      | some v => Except.ok (k, v)
      | none => .error Err.keyError) = pairs.map Except.ok) (d0 : Dict K V) (k : K)
    : (Dict.update d0 pairs).get? k = if k ∈ ms then d.get? k else d0.get? k := by
  induction ms generalizing pairs d0 with
  | nil =>
    cases pairs with
    | nil => simp [Dict.update]
    | cons => simp at hp
  | cons m ms ih =>
    cases pairs with
    | nil => simp at hp
    | cons p pairs =>
      simp only [List.map_cons, List.cons.injEq] at hp
      obtain ⟨h1, h2⟩ := hp
      have h3 : ∃ v, d.get? m = some v ∧ p = (m, v) := by
        split at h1
        · rename_i v hv; simp at h1; exact ⟨v, hv, h1.symm⟩
        · simp at h1
      obtain ⟨v, hv, rfl⟩ := h3
      have h4 : Dict.update d0 ((m, v) :: pairs) = Dict.update (d0.insert m v) pairs := rfl
      rw [h4, ih pairs h2 (d0.insert m v), Dict.get?_insert]
      by_cases hkm : m = k
      · subst hkm; simp [hv]
      · have : ¬ k = m := fun h => hkm h.symm
        simp [hkm, this]

theorem substateDict_ok {d d' : Dict K V} {ms : List K} (h : substateDict d ms = .ok d') :
    (Dict.keys d').Nodup ∧ ∀ k, d'.get? k = if k ∈ ms then d.get? k else none := by
  simp only [substateDict, bind, Except.bind] at h
  split at h
  · contradiction
  · rename_i pairs hp
    simp [pure, Except.pure] at h
    subst h
    refine ⟨Dict.nodup_ofList _, ?_⟩
    intro k
    exact get?_ofList_assoc d ms pairs (mapM_ok hp) [] k

theorem updateLoop_ok {d d' : Dict K V} {l : List (K × V)} (h : updateLoop d l = .ok d') :
    d' = Dict.update d l ∧ Dict.keys d' = Dict.keys d := by
  induction l generalizing d with
  | nil => simp [updateLoop] at h; subst h; simp [Dict.update]
  | cons p l ih =>
    obtain ⟨k, v⟩ := p
    simp only [updateLoop] at h
    split at h
    · rename_i hk
      obtain ⟨h1, h2⟩ := ih h
      exact ⟨h1, by rw [h2, Dict.keys_insert_of_mem d k v hk]⟩
    · contradiction

theorem updateDict_ok {h : Heap K V} {a : Nat} {arg : Arg} {d' : Dict K V} (hh : updateDict h a arg = .ok d') :
    ∃ b d e, arg = .state b ∧ h[a]? = some (some d) ∧ h[b]? = some (some e) ∧ d' = Dict.update d e ∧
      Dict.keys d' = Dict.keys d := by
  simp only [updateDict, bind, Except.bind] at hh
  split at hh
  · contradiction
  · rename_i d hd
    split at hh
    · contradiction
    · rename_i b
      split at hh
      · contradiction
      · rename_i e he
        obtain ⟨h1, h2⟩ := updateLoop_ok hh
        exact ⟨b, d, e, rfl, deref_ok.1 hd, deref_ok.1 he, h1, h2⟩

/-- What a step does to the heap. -/
inductive StepShape (conv : V → V) (struct : V → S) (h : Heap K V) (op : Op K V) : Heap K V → Out K V → Prop where
  | same {out} : (∀ a, out ≠ .state a) → StepShape conv struct h op h out
  | fresh {d} : (∀ a item v, op ≠ .set a item v) → (∀ a arg, op ≠ .update a arg) →
      StepShape conv struct h op (h ++ [some d]) (.state h.length)
  | consume {a d} : a < h.length → ((∃ item v, op = .set a item v) ∨ ∃ arg, op = .update a arg) →
      StepShape conv struct h op ((h ++ [some d]).set a none) (.state h.length)

theorem step_shape (conv : V → V) (struct : V → S) (h : Heap K V) (op : Op K V) :
    StepShape conv struct h op (step conv struct h op).1 (step conv struct h op).2 := by
  cases op with
  | create l => exact .fresh (by simp) (by simp)
  | get a item =>
    refine .same ?_
    simp only [step]
    cases get h a item <;> simp [Out.ofExcept]
  | flatten a =>
    refine .same ?_
    simp only [step]
    cases flatten h a <;> simp [Out.ofExcept]
  | set a item v =>
    simp only [step, set]
    cases hs : setDict conv struct h a item v with
    | error e => exact .same (by simp [Out.ofExcept])
    | ok d' =>
      obtain ⟨m, d, old, rfl, hd, -⟩ := setDict_ok.1 hs
      exact .consume (List.getElem?_eq_some_iff.1 hd).1 (Or.inl ⟨_, _, rfl⟩)
  | substate a ms =>
    simp only [step, substate]
    split
    · exact .same (by simp [Out.ofExcept])
    · exact .fresh (by simp) (by simp)
  | update a arg =>
    simp only [step, update]
    cases hs : updateDict h a arg with
    | error e => exact .same (by simp [Out.ofExcept])
    | ok d' =>
      obtain ⟨b, d, e, rfl, hd, -⟩ := updateDict_ok hs
      exact .consume (List.getElem?_eq_some_iff.1 hd).1 (Or.inr ⟨_, rfl⟩)
  | unflatten ks vs =>
    simp only [step, unflatten]
    split
    · exact .fresh (by simp) (by simp)
    · exact .same (by simp [Out.ofExcept])

/-- Running one more operation. -/
theorem run_snoc (conv : V → V) (struct : V → S) (ops : List (Op K V)) (op : Op K V) :
    run conv struct (ops ++ [op]) =
      ((step conv struct (run conv struct ops).1 op).1,
        (op, (step conv struct (run conv struct ops).1 op).2) :: (run conv struct ops).2) := by
  simp [run, List.foldl_append]

/-- Induction over programs, adding operations at the end. -/
theorem run_ind (conv : V → V) (struct : V → S) (P : Heap K V → Log K V → Prop) (h0 : P [] [])
    (hs : ∀ h log op, P h log → P (step conv struct h op).1 ((op, (step conv struct h op).2) :: log))
    (ops : List (Op K V)) : P (run conv struct ops).1 (run conv struct ops).2 := by
  rw [← List.reverse_reverse ops]
  induction ops.reverse with
  | nil => exact h0
  | cons op l ih =>
    rw [List.reverse_cons, run_snoc]
    exact hs _ _ _ ih

/-- The link between the heap and the log. -/
structure Inv (conv : V → V) (h : Heap K V) (log : Log K V) : Prop where
  bound : ∀ op a, (op, Out.state a) ∈ log → a < h.length
  all : ∀ a, a < h.length → Created log a
  consumed : ∀ a, h[a]? = some none ↔ Consumed log a
  live : ∀ a d, h[a]? = some (some d) → (Dict.keys d).Nodup ∧ ∀ k, d.get? k = valueOf conv log a k

theorem valueOf_other (conv : V → V) {log : Log K V} {op : Op K V} {out : Out K V} {a : Nat} {k : K}
    (h : out ≠ .state a) : valueOf conv ((op, out) :: log) a k = valueOf conv log a k := by
  cases out <;> simp [valueOf]
  rename_i a'
  intro h'
  subst h'
  exact absurd rfl h

theorem consumed_cons {log : Log K V} {op : Op K V} {out : Out K V} {a : Nat} :
    Consumed ((op, out) :: log) a ↔ Consumed log a ∨
      (∃ a', out = .state a') ∧ ((∃ item v, op = .set a item v) ∨ ∃ arg, op = .update a arg) := by
  constructor
  · rintro ⟨a', ⟨item, v, hm⟩ | ⟨arg, hm⟩⟩
    · simp only [List.mem_cons, Prod.mk.injEq] at hm
      rcases hm with ⟨rfl, rfl⟩ | hm
      · exact Or.inr ⟨⟨_, rfl⟩, Or.inl ⟨_, _, rfl⟩⟩
      · exact Or.inl ⟨a', Or.inl ⟨item, v, hm⟩⟩
    · simp only [List.mem_cons, Prod.mk.injEq] at hm
      rcases hm with ⟨rfl, rfl⟩ | hm
      · exact Or.inr ⟨⟨_, rfl⟩, Or.inr ⟨_, rfl⟩⟩
      · exact Or.inl ⟨a', Or.inr ⟨arg, hm⟩⟩
  · rintro (⟨a', ⟨item, v, hm⟩ | ⟨arg, hm⟩⟩ | ⟨⟨a', rfl⟩, ⟨item, v, rfl⟩ | ⟨arg, rfl⟩⟩)
    · exact ⟨a', Or.inl ⟨item, v, List.mem_cons_of_mem _ hm⟩⟩
    · exact ⟨a', Or.inr ⟨arg, List.mem_cons_of_mem _ hm⟩⟩
    · exact ⟨a', Or.inl ⟨item, v, List.mem_cons_self⟩⟩
    · exact ⟨a', Or.inr ⟨arg, List.mem_cons_self⟩⟩

theorem inv_step (conv : V → V) (struct : V → S) {h : Heap K V} {log : Log K V} (hi : Inv conv h log) (op : Op K V) :
    Inv conv (step conv struct h op).1 ((op, (step conv struct h op).2) :: log) := by
  have hsh := step_shape conv struct h op
  have hval : ∀ a d, (step conv struct h op).2 = .state a → (step conv struct h op).1[a]? = some (some d) →
      (Dict.keys d).Nodup ∧ ∀ k, d.get? k = valueOf conv ((op, (step conv struct h op).2) :: log) a k := by
    intro a d ho hd
    rw [ho]
    cases op with
    | create l =>
      simp only [step] at ho hd
      obtain rfl : h.length = a := by simpa using ho
      obtain rfl : Dict.ofList l = d := by simpa [alloc] using hd
      exact ⟨Dict.nodup_ofList _, fun k => by simp [valueOf]⟩
    | get a' item =>
      simp only [step] at ho
      cases hg : get h a' item <;> simp [hg, Out.ofExcept] at ho
    | flatten a' =>
      simp only [step] at ho
      cases hg : flatten h a' <;> simp [hg, Out.ofExcept] at ho
    | set a' item v =>
      simp only [step, set] at ho hd
      cases hs : setDict conv struct h a' item v with
      | error e => simp [hs, Out.ofExcept] at ho
      | ok d' =>
        simp only [hs, Out.ofExcept] at ho hd
        obtain rfl : h.length = a := by simpa using ho
        obtain ⟨m, d0, old, rfl, hd0, hm, -, rfl⟩ := setDict_ok.1 hs
        have hlt := (List.getElem?_eq_some_iff.1 hd0).1
        obtain rfl : d0.insert m (conv v) = d := by
          have hne : a' ≠ h.length := by omega
          simpa [alloc, setCell, List.getElem?_set, hne] using hd
        obtain ⟨hn, hv⟩ := hi.live a' d0 hd0
        refine ⟨Dict.nodup_insert _ m (conv v) hn, ?_⟩
        intro k
        rw [Dict.get?_insert]
        simp only [valueOf, if_true]
        by_cases hk : m = k
        · subst hk; simp
        · have : ¬ k = m := fun h => hk h.symm
          simp [hk, this, hv]
    | substate a' ms =>
      simp only [step, substate] at ho hd
      split at ho
      · simp [Out.ofExcept] at ho
      · rename_i d' hs
        simp only [hs, Out.ofExcept] at ho hd
        obtain rfl : h.length = a := by simpa using ho
        obtain rfl : d' = d := by simpa [alloc] using hd
        simp only [bind, Except.bind] at hs
        split at hs
        · contradiction
        · rename_i d0 hd0
          obtain ⟨hn, hv⟩ := hi.live a' d0 (deref_ok.1 hd0)
          obtain ⟨h1, h2⟩ := substateDict_ok hs
          refine ⟨h1, ?_⟩
          intro k
          simp only [valueOf, if_true]
          rw [h2 k, hv k]
    | update a' arg =>
      simp only [step, update] at ho hd
      cases hs : updateDict h a' arg with
      | error e => simp [hs, Out.ofExcept] at ho
      | ok d' =>
        simp only [hs, Out.ofExcept] at ho hd
        obtain rfl : h.length = a := by simpa using ho
        obtain ⟨b, d0, e, rfl, hd0, he, rfl, hk⟩ := updateDict_ok hs
        have hlt := (List.getElem?_eq_some_iff.1 hd0).1
        obtain rfl : Dict.update d0 e = d := by
          have hne : a' ≠ h.length := by omega
          simpa [alloc, setCell, List.getElem?_set, hne] using hd
        obtain ⟨hn, hv⟩ := hi.live a' d0 hd0
        obtain ⟨hn', hv'⟩ := hi.live b e he
        refine ⟨Dict.nodup_update _ e hn, ?_⟩
        intro k
        simp only [valueOf, if_true]
        rw [Dict.get?_update d0 e hn' k, hv', hv]
    | unflatten ks vs =>
      simp only [step, unflatten] at ho hd
      split at ho
      · rename_i hl
        simp only [hl, if_true, Out.ofExcept] at hd ho
        obtain rfl : h.length = a := by simpa using ho
        obtain rfl : Dict.ofList (ks.zip vs) = d := by simpa [alloc] using hd
        exact ⟨Dict.nodup_ofList _, fun k => by simp [valueOf]⟩
      · simp [Out.ofExcept] at ho
  generalize ho : (step conv struct h op).2 = out at *
  generalize hh : (step conv struct h op).1 = h' at *
  cases hsh with
  | same hne =>
    have hmem : ∀ op' a, (op', Out.state a) ∈ (op, out) :: log ↔ (op', Out.state a) ∈ log := by
      intro op' a
      simp only [List.mem_cons, Prod.mk.injEq]
      constructor
      · rintro (⟨-, h1⟩ | h1)
        · exact absurd h1.symm (hne a)
        · exact h1
      · exact Or.inr
    have hcon : ∀ a, Consumed ((op, out) :: log) a ↔ Consumed log a := by
      intro a
      rw [consumed_cons]
      constructor
      · rintro (h1 | ⟨⟨a', h1⟩, -⟩)
        · exact h1
        · exact absurd h1 (hne a')
      · exact Or.inl
    refine ⟨fun op' a hm => hi.bound op' a ((hmem _ _).1 hm), ?_, ?_, ?_⟩
    · intro a ha
      obtain ⟨op', hm⟩ := hi.all a ha
      exact ⟨op', (hmem _ _).2 hm⟩
    · intro a; rw [hcon]; exact hi.consumed a
    · intro a d hd
      obtain ⟨h1, h2⟩ := hi.live a d hd
      exact ⟨h1, fun k => by rw [h2, valueOf_other conv (hne a)]⟩
  | @fresh d hs hu =>
    have hcon : ∀ a, Consumed ((op, Out.state h.length) :: log) a ↔ Consumed log a := by
      intro a
      rw [consumed_cons]
      constructor
      · rintro (h1 | ⟨-, ⟨i, v, h1⟩ | ⟨g, h1⟩⟩)
        · exact h1
        · exact absurd h1 (hs _ _ _)
        · exact absurd h1 (hu _ _)
      · exact Or.inl
    refine ⟨?_, ?_, ?_, ?_⟩
    · intro op' a hm
      simp only [List.mem_cons, Prod.mk.injEq, Out.state.injEq] at hm
      rcases hm with ⟨-, rfl⟩ | hm
      · simp
      · have := hi.bound _ _ hm; simp; omega
    · intro a ha
      simp at ha
      by_cases h1 : a = h.length
      · subst h1; exact ⟨op, List.mem_cons_self⟩
      · obtain ⟨op', hm⟩ := hi.all a (by omega)
        exact ⟨op', List.mem_cons_of_mem _ hm⟩
    · intro a
      rw [hcon, ← hi.consumed a]
      by_cases h1 : a < h.length
      · rw [List.getElem?_append_left h1]
      · rw [List.getElem?_append_right (by omega), List.getElem?_eq_none (by omega : h.length ≤ a)]
        by_cases h2 : a - h.length = 0
        · simp [h2]
        · rw [List.getElem?_eq_none (by simp; omega)]
    · intro a d' hd
      by_cases h1 : a = h.length
      · subst h1; exact hval _ d' rfl hd
      · have hlt : a < h.length := by
          have := (List.getElem?_eq_some_iff.1 hd).1
          simp at this; omega
        rw [List.getElem?_append_left hlt] at hd
        obtain ⟨h3, h4⟩ := hi.live a d' hd
        exact ⟨h3, fun k => by rw [h4, valueOf_other conv (by simp; omega)]⟩
  | @consume a0 d hlt hop =>
    have hcon : ∀ a, Consumed ((op, Out.state h.length) :: log) a ↔ Consumed log a ∨ a = a0 := by
      intro a
      rw [consumed_cons]
      constructor
      · rintro (h1 | ⟨-, h1⟩)
        · exact Or.inl h1
        · right
          rcases hop with ⟨i, v, rfl⟩ | ⟨g, rfl⟩
          · simp at h1; exact h1.symm
          · simp at h1; exact h1.symm
      · rintro (h1 | rfl)
        · exact Or.inl h1
        · exact Or.inr ⟨⟨_, rfl⟩, hop⟩
    have hlen : ((h ++ [some d]).set a0 none).length = h.length + 1 := by simp
    refine ⟨?_, ?_, ?_, ?_⟩
    · intro op' a hm
      simp only [List.mem_cons, Prod.mk.injEq, Out.state.injEq] at hm
      rcases hm with ⟨-, rfl⟩ | hm
      · simp
      · have := hi.bound _ _ hm; simp; omega
    · intro a ha
      rw [hlen] at ha
      by_cases h1 : a = h.length
      · subst h1; exact ⟨op, List.mem_cons_self⟩
      · obtain ⟨op', hm⟩ := hi.all a (by omega)
        exact ⟨op', List.mem_cons_of_mem _ hm⟩
    · intro a
      rw [hcon, ← hi.consumed a, List.getElem?_set]
      by_cases h0 : a0 = a
      · subst h0
        simp
        omega
      · have h0' : ¬ a = a0 := fun h => h0 h.symm
        simp only [h0, if_false, h0', or_false]
        by_cases h1 : a < h.length
        · rw [List.getElem?_append_left h1]
        · rw [List.getElem?_append_right (by omega), List.getElem?_eq_none (by omega : h.length ≤ a)]
          by_cases h2 : a - h.length = 0
          · simp [h2]
          · rw [List.getElem?_eq_none (by simp; omega)]
    · intro a d' hd
      by_cases h1 : a = h.length
      · subst h1; exact hval _ d' rfl hd
      · have hne : ¬ a0 = a := by
          rintro rfl
          rw [List.getElem?_set_self (by simp; omega)] at hd
          simp at hd
        have hlt' : a < h.length := by
          have := (List.getElem?_eq_some_iff.1 hd).1
          rw [hlen] at this; omega
        rw [List.getElem?_set_ne hne, List.getElem?_append_left hlt'] at hd
        obtain ⟨h3, h4⟩ := hi.live a d' hd
        exact ⟨h3, fun k => by rw [h4, valueOf_other conv (by simp; omega)]⟩

theorem inv_run (conv : V → V) (struct : V → S) (ops : List (Op K V)) :
    Inv conv (run conv struct ops).1 (run conv struct ops).2 := by
  refine run_ind conv struct (Inv conv) ?_ (fun h log op hi => inv_step conv struct hi op) ops
  refine ⟨by simp, by simp, ?_, by simp⟩
  intro a
  simp [Consumed]

end State
end Verif
