import Verif.State.Lemmas

/-!
# Theorems about `State` (C12-C15)
-/

namespace Verif
namespace State

variable {K V S : Type} [DecidableEq K] [DecidableEq S]

/-! ### C12: a `State` behaves as a persistent map -/

/-- After any program whatsoever, looking up an index in a `State` object which has not been used up returns the
value most recently set along the chain of objects it came from, and raises `KeyError` if there is none. -/
theorem state_get_latest (conv : V → V) (struct : V → S) (ops : List (Op K V)) (a : Nat) (k : K)
    (hc : Created (run conv struct ops).2 a) (hl : ¬ Consumed (run conv struct ops).2 a) :
    get (run conv struct ops).1 a (.index k) =
      match valueOf conv (run conv struct ops).2 a k with
      | some v => .ok v
      | none => .error .keyError := by
  have hi := inv_run conv struct ops
  obtain ⟨op, hm⟩ := hc
  have hlt := hi.bound _ _ hm
  have h1 : (run conv struct ops).1[a]? ≠ some none := fun h => hl ((hi.consumed a).1 h)
  cases hx : (run conv struct ops).1[a]? with
  | none => rw [List.getElem?_eq_none_iff] at hx; omega
  | some x =>
    cases x with
    | none => exact absurd hx h1
    | some d =>
      rw [← (hi.live a d hx).2 k]
      simp only [get, deref_ok.2 hx, bind, Except.bind]
      cases d.get? k <;> rfl

/-- An operation never changes what another object holds: every object is as before, except that the object on which
a `set` or `update` succeeded becomes unusable. -/
theorem state_frame (conv : V → V) (struct : V → S) (h : Heap K V) (op : Op K V) (b : Nat) (hb : b < h.length) :
    (step conv struct h op).1[b]? = h[b]? ∨
      ((step conv struct h op).1[b]? = some none ∧ (∃ a', (step conv struct h op).2 = .state a') ∧
        ((∃ item v, op = .set b item v) ∨ ∃ arg, op = .update b arg)) := by
  have hsh := step_shape conv struct h op
  generalize (step conv struct h op).1 = h' at *
  generalize (step conv struct h op).2 = out at *
  cases hsh with
  | same => exact Or.inl rfl
  | fresh => exact Or.inl (List.getElem?_append_left hb)
  | @consume a d ha hop =>
    by_cases hab : a = b
    · subst hab
      exact Or.inr ⟨by rw [List.getElem?_set_self (by simp; omega)], ⟨_, rfl⟩, hop⟩
    · exact Or.inl (by rw [List.getElem?_set_ne hab, List.getElem?_append_left hb])

/-- Flattening a usable `State` and unflattening the result gives an independent usable copy: same value for every
index, and the original is untouched. -/
theorem state_clone (conv : V → V) (struct : V → S) (ops : List (Op K V)) (a : Nat)
    (hc : Created (run conv struct ops).2 a) (hl : ¬ Consumed (run conv struct ops).2 a) :
    ∃ vs ks h' b, flatten (run conv struct ops).1 a = .ok (vs, ks) ∧
      unflatten (run conv struct ops).1 ks vs = (h', .ok b) ∧ b ≠ a ∧
      flatten h' b = .ok (vs, ks) ∧ flatten h' a = .ok (vs, ks) ∧
      ∀ item, get h' b item = get (run conv struct ops).1 a item ∧ get h' a item = get (run conv struct ops).1 a item := by
  have hi := inv_run conv struct ops
  obtain ⟨op, hm⟩ := hc
  have hlt := hi.bound _ _ hm
  generalize hh : (run conv struct ops).1 = h at *
  have h1 : h[a]? ≠ some none := fun h => hl ((hi.consumed a).1 h)
  cases hx : h[a]? with
  | none => rw [List.getElem?_eq_none_iff] at hx; omega
  | some x =>
    cases x with
    | none => exact absurd hx h1
    | some d =>
      have hn := (hi.live a d hx).1
      have hz : (d.map (·.1)).zip (d.map (·.2)) = d := by
        have : ∀ l : List (K × V), (l.map (·.1)).zip (l.map (·.2)) = l := by
          intro l
          induction l with
          | nil => rfl
          | cons p l ih => simp [ih]
        exact this d
      have hof : Dict.ofList d = d := Dict.ofList_of_nodup d hn
      refine ⟨d.map (·.2), d.map (·.1), h ++ [some d], h.length, ?_, ?_, ?_, ?_, ?_, ?_⟩
      · simp [flatten, deref_ok.2 hx, bind, Except.bind, pure, Except.pure]
      · simp [unflatten, alloc, hz, hof]
      · omega
      · have : deref (h ++ [some d]) h.length = .ok d := deref_ok.2 (by simp)
        simp [flatten, this, bind, Except.bind, pure, Except.pure]
      · have : deref (h ++ [some d]) a = .ok d := deref_ok.2 (by rw [List.getElem?_append_left hlt, hx])
        simp [flatten, this, bind, Except.bind, pure, Except.pure]
      · intro item
        have e1 : deref (h ++ [some d]) h.length = .ok d := deref_ok.2 (by simp)
        have e2 : deref (h ++ [some d]) a = .ok d := deref_ok.2 (by rw [List.getElem?_append_left hlt, hx])
        have e3 := deref_ok.2 hx
        exact ⟨by simp only [get, e1, e3], by simp only [get, e2, e3]⟩

/-- Transformations replace the leaves of a `State`: unflattening with as many other values as there were gives an independent copy in which the index of
every value holds the new one, and nothing else changes; with more or fewer values it raises. -/
theorem state_leaves (conv : V → V) (struct : V → S) (ops : List (Op K V)) (a : Nat) (vs vs' : List V) (ks : List K)
    (hf : flatten (run conv struct ops).1 a = .ok (vs, ks)) :
    (vs'.length ≠ vs.length → unflatten (run conv struct ops).1 ks vs' = ((run conv struct ops).1, .error .assertionError)) ∧
    (vs'.length = vs.length → ∃ h' b, unflatten (run conv struct ops).1 ks vs' = (h', .ok b) ∧ b ≠ a ∧ flatten h' b = .ok (vs', ks) ∧
      flatten h' a = .ok (vs, ks) ∧
      ∀ (i : Nat) k, ks[i]? = some k → ∃ v v', vs[i]? = some v ∧ vs'[i]? = some v' ∧ get (run conv struct ops).1 a (.index k) = .ok v ∧
        get h' a (.index k) = .ok v ∧ get h' b (.index k) = .ok v') := by
  have hi := inv_run conv struct ops
  generalize hh : (run conv struct ops).1 = h at *
  cases hd : deref h a with
  | error e => simp [flatten, hd, bind, Except.bind] at hf
  | ok d =>
    simp only [flatten, hd, bind, Except.bind, pure, Except.pure, Except.ok.injEq, Prod.mk.injEq] at hf
    obtain ⟨rfl, rfl⟩ := hf
    have hx := deref_ok.1 hd
    have hlt : a < h.length := (List.getElem?_eq_some_iff.1 hx).1
    have hn := (hi.live a d hx).1
    constructor
    · intro hl
      have : (d.map (·.1)).length ≠ vs'.length := by simpa [eq_comm] using hl
      simp only [unflatten, this, if_false]
    · intro hl
      have hl' : (d.map (·.1)).length = vs'.length := by simpa [eq_comm] using hl
      have hk : ((d.map (·.1)).zip vs').map Prod.fst = d.map (·.1) := List.map_fst_zip (by omega)
      have hv : ((d.map (·.1)).zip vs').map Prod.snd = vs' := List.map_snd_zip (by omega)
      have hn' : (Dict.keys ((d.map (·.1)).zip vs')).Nodup := by
        have : Dict.keys ((d.map (·.1)).zip vs') = d.map (·.1) := hk
        rw [this]; exact hn
      have hof := Dict.ofList_of_nodup _ hn'
      have e1 : deref (h ++ [some ((d.map (·.1)).zip vs')]) h.length = .ok ((d.map (·.1)).zip vs') := deref_ok.2 (by simp)
      have e2 : deref (h ++ [some ((d.map (·.1)).zip vs')]) a = .ok d := deref_ok.2 (by rw [List.getElem?_append_left hlt, hx])
      refine ⟨h ++ [some ((d.map (·.1)).zip vs')], h.length, ?_, by omega, ?_, ?_, ?_⟩
      · simp only [unflatten, hl', if_true, hof, alloc]
      · simp only [flatten, e1, bind, Except.bind, pure, Except.pure, hk, hv]
      · simp only [flatten, e2, bind, Except.bind, pure, Except.pure]
      · intro i k hik
        rw [List.getElem?_map, Option.map_eq_some_iff] at hik
        obtain ⟨p, hp, rfl⟩ := hik
        have hlt' : i < vs'.length := by
          have := (List.getElem?_eq_some_iff.1 hp).1
          simp at hl; omega
        have g1 : d.get? p.1 = some p.2 := Dict.get?_of_mem d hn (List.mem_of_getElem? hp)
        have g2 : Dict.get? ((d.map (·.1)).zip vs') p.1 = some vs'[i] := by
          refine Dict.get?_of_mem _ hn' (List.mem_of_getElem? (i := i) ?_)
          simp [List.getElem?_zip_eq_some, hp, List.getElem?_eq_getElem hlt']
        refine ⟨p.2, vs'[i], by rw [List.getElem?_map, hp]; rfl, List.getElem?_eq_getElem hlt', ?_, ?_, ?_⟩
        · simp only [get, hd, g1, bind, Except.bind]
        · simp only [get, e2, g1, bind, Except.bind]
        · simp only [get, e1, g2, bind, Except.bind]

/-- When each operation succeeds: `set` needs a usable object, an index it holds, and a value of the same structure. -/
theorem set_succeeds_iff (conv : V → V) (struct : V → S) (h : Heap K V) (a : Nat) (item : Item K) (v : V) :
    (∃ b, (set conv struct h a item v).2 = .ok b) ↔
      ∃ k old, item = .index k ∧ get h a (.index k) = .ok old ∧ struct old = struct (conv v) := by
  constructor
  · rintro ⟨b, hb⟩
    simp only [set] at hb
    split at hb
    · contradiction
    · rename_i d hd
      obtain ⟨m, d, old, rfl, h1, h2, h3, -⟩ := setDict_ok.1 hd
      exact ⟨m, old, rfl, by simp [get, deref_ok.2 h1, h2, bind, Except.bind], h3⟩
  · rintro ⟨k, old, rfl, hg, hs⟩
    simp only [get, bind, Except.bind] at hg
    split at hg
    · contradiction
    · rename_i d hd
      split at hg
      · rename_i v' hv
        obtain rfl : v' = old := by simpa using hg
        refine ⟨h.length, ?_⟩
        simp only [set]
        rw [setDict_ok.2 ⟨k, d, v', rfl, deref_ok.1 hd, hv, hs, rfl⟩]
      · contradiction

/-! ### C13: using an old `State` always raises -/

/-- Once a `State` object has been used up, every operation on it raises an error and changes nothing, however much
later it is and whatever happened in between. -/
theorem state_stale (conv : V → V) (struct : V → S) (ops ops' : List (Op K V)) (a : Nat)
    (hc : Consumed (run conv struct ops).2 a) (op : Op K V) (ht : op.target = some a) :
    step conv struct (run conv struct (ops ++ ops')).1 op = ((run conv struct (ops ++ ops')).1, .error .valueError) := by
  have mono : Consumed (run conv struct (ops ++ ops')).2 a := by
    rw [← List.reverse_reverse ops']
    induction ops'.reverse with
    | nil => simpa using hc
    | cons o l ih =>
      rw [List.reverse_cons, ← List.append_assoc, run_snoc]
      exact consumed_cons.2 (Or.inl ih)
  have hi := inv_run conv struct (ops ++ ops')
  generalize (run conv struct (ops ++ ops')).1 = h at *
  have hd := deref_err ((hi.consumed a).2 mono)
  cases op with
  | create | unflatten => simp [Op.target] at ht
  | get a' item =>
    obtain rfl : a' = a := by simpa [Op.target] using ht
    simp [step, get, hd, bind, Except.bind, Out.ofExcept]
  | set a' item v =>
    obtain rfl : a' = a := by simpa [Op.target] using ht
    simp [step, set, setDict, hd, bind, Except.bind, Out.ofExcept]
  | substate a' ms =>
    obtain rfl : a' = a := by simpa [Op.target] using ht
    simp [step, substate, hd, bind, Except.bind, Out.ofExcept]
  | update a' arg =>
    obtain rfl : a' = a := by simpa [Op.target] using ht
    simp [step, update, updateDict, hd, bind, Except.bind, Out.ofExcept]
  | flatten a' =>
    obtain rfl : a' = a := by simpa [Op.target] using ht
    simp [step, flatten, hd, bind, Except.bind, Out.ofExcept]

/-- Passing a used up `State` as the argument of `update` raises too. -/
theorem state_stale_argument (conv : V → V) (struct : V → S) (ops : List (Op K V)) (a b : Nat)
    (hc : Consumed (run conv struct ops).2 b) :
    ∃ e, step conv struct (run conv struct ops).1 (.update a (.state b)) = ((run conv struct ops).1, .error e) := by
  have hi := inv_run conv struct ops
  have hd := deref_err ((hi.consumed b).2 hc)
  simp only [step, update, updateDict, bind, Except.bind]
  cases deref (run conv struct ops).1 a with
  | error e => exact ⟨e, rfl⟩
  | ok d => exact ⟨.attributeError, by simp [hd, Out.ofExcept]⟩

/-- An operation which raises changes nothing: in particular a rejected `set` or `update` does not use up its object. -/
theorem state_error_changes_nothing (conv : V → V) (struct : V → S) (h : Heap K V) (op : Op K V) (e : Err)
    (he : (step conv struct h op).2 = .error e) : (step conv struct h op).1 = h := by
  have hsh := step_shape conv struct h op
  generalize (step conv struct h op).1 = h' at *
  generalize (step conv struct h op).2 = out at *
  cases hsh with
  | same => rfl
  | fresh => simp at he
  | consume => simp at he

/-- A successful `set` or `update` does use up its object. -/
theorem state_used_up (conv : V → V) (struct : V → S) (h : Heap K V) (op : Op K V) (a b : Nat)
    (ho : (step conv struct h op).2 = .state b) (hop : (∃ item v, op = .set a item v) ∨ ∃ arg, op = .update a arg) :
    ∀ op' : Op K V, op'.target = some a →
      (step conv struct (step conv struct h op).1 op').2 = .error .valueError := by
  have hsh := step_shape conv struct h op
  generalize (step conv struct h op).1 = h' at *
  generalize (step conv struct h op).2 = out at *
  cases hsh with
  | same hne => exact absurd ho (hne b)
  | fresh h1 h2 =>
    rcases hop with ⟨i, v, rfl⟩ | ⟨g, rfl⟩
    · exact absurd rfl (h1 _ _ _)
    · exact absurd rfl (h2 _ _)
  | @consume a' d hlt hop' =>
    have haa : a' = a := by
      rcases hop with ⟨i, v, rfl⟩ | ⟨g, rfl⟩ <;> simpa [eq_comm] using hop'
    subst haa
    intro op' ht
    have hd : deref ((h ++ [some d]).set a' none) a' = .error .valueError :=
      deref_err (List.getElem?_set_self (by simp; omega))
    cases op' with
    | create | unflatten => simp [Op.target] at ht
    | get a item =>
      obtain rfl : a = a' := by simpa [Op.target] using ht
      simp [step, get, hd, bind, Except.bind, Out.ofExcept]
    | set a item v =>
      obtain rfl : a = a' := by simpa [Op.target] using ht
      simp [step, set, setDict, hd, bind, Except.bind, Out.ofExcept]
    | substate a ms =>
      obtain rfl : a = a' := by simpa [Op.target] using ht
      simp [step, substate, hd, bind, Except.bind, Out.ofExcept]
    | update a arg =>
      obtain rfl : a = a' := by simpa [Op.target] using ht
      simp [step, update, updateDict, hd, bind, Except.bind, Out.ofExcept]
    | flatten a =>
      obtain rfl : a = a' := by simpa [Op.target] using ht
      simp [step, flatten, hd, bind, Except.bind, Out.ofExcept]

/-! ### C14: the structure of a `State` never changes -/

/-- Setting values never changes the tree structure of a `State`, nor the structure of the value of any index. -/
theorem state_structure_constant (conv : V → V) (struct : V → S) (ops : List (Op K V)) (l : List (K × V)) (a : Nat)
    (hb : BySets (run conv struct ops).2 l a) (hl : ¬ Consumed (run conv struct ops).2 a) :
    ∃ vs ks, flatten (run conv struct ops).1 a = .ok (vs, ks) ∧ ks = (Dict.ofList l).map (·.1) ∧
      vs.map struct = (Dict.ofList l).map (fun p => struct p.2) := by
  let P : Heap K V → Log K V → Prop := fun h log => Inv conv h log ∧ ∀ a, BySets log l a → a < h.length ∧
    ∀ d, h[a]? = some (some d) → Dict.keys d = Dict.keys (Dict.ofList l) ∧
      ∀ k, (d.get? k).map struct = ((Dict.ofList l).get? k).map struct
  have hP : P (run conv struct ops).1 (run conv struct ops).2 := by
    refine run_ind conv struct P ?_ ?_ ops
    · refine ⟨inv_run conv struct [], ?_⟩
      intro a hb
      exfalso
      induction hb with
      | create h => simp at h
      | set _ h _ => simp at h
    · rintro h log op ⟨hi, hP⟩
      refine ⟨inv_step conv struct hi op, ?_⟩
      have hfr := state_frame conv struct h op
      have hsh := step_shape conv struct h op
      have hout : ∀ a, (step conv struct h op).2 = .state a → a = h.length ∧ (step conv struct h op).1.length = h.length + 1 := by
        intro a ha
        generalize (step conv struct h op).1 = h' at *
        generalize (step conv struct h op).2 = out at *
        cases hsh with
        | same hne => exact absurd ha (hne a)
        | fresh => simp at ha; simp [ha]
        | consume => simp at ha; simp [ha]
      have hlen : h.length ≤ (step conv struct h op).1.length := by
        generalize (step conv struct h op).1 = h' at *
        generalize (step conv struct h op).2 = out at *
        cases hsh <;> simp
      have old : ∀ a, a < h.length → BySets ((op, (step conv struct h op).2) :: log) l a → BySets log l a := by
        intro a ha hb
        induction hb with
        | create hm =>
          simp only [List.mem_cons, Prod.mk.injEq] at hm
          rcases hm with ⟨-, hm⟩ | hm
          · have := (hout _ hm.symm).1; omega
          · exact .create hm
        | set hb hm ih =>
          simp only [List.mem_cons, Prod.mk.injEq] at hm
          rcases hm with ⟨-, hm⟩ | hm
          · have := (hout _ hm.symm).1; omega
          · rename_i a1 item v a2
            by_cases h1 : a1 < h.length
            · exact .set (ih h1) hm
            · exfalso
              have hcns : Consumed log a1 := ⟨_, Or.inl ⟨_, _, hm⟩⟩
              have := (hi.consumed a1).2 hcns
              have := (List.getElem?_eq_some_iff.1 this).1
              omega
      intro a hb
      by_cases ha : a < h.length
      · obtain ⟨h1, h2⟩ := hP a (old a ha hb)
        refine ⟨by omega, ?_⟩
        intro d hd
        rcases hfr a ha with h3 | ⟨h3, -⟩
        · exact h2 d (by rw [← h3, hd])
        · rw [h3] at hd; simp at hd
      · cases hb with
        | create hm =>
          simp only [List.mem_cons, Prod.mk.injEq] at hm
          rcases hm with ⟨rfl, hm⟩ | hm
          · obtain ⟨rfl, h2⟩ := hout _ hm.symm
            refine ⟨by omega, ?_⟩
            intro d hd
            obtain rfl : Dict.ofList l = d := by simpa [step, alloc] using hd
            exact ⟨rfl, fun k => rfl⟩
          · exact absurd (hi.bound _ _ hm) ha
        | @set a1 item v _ hb1 hm =>
          simp only [List.mem_cons, Prod.mk.injEq] at hm
          rcases hm with ⟨rfl, hm⟩ | hm
          · obtain ⟨rfl, h2⟩ := hout _ hm.symm
            refine ⟨by omega, ?_⟩
            intro d hd
            simp only [step, set] at hm hd
            cases hs : setDict conv struct h a1 item v with
            | error e => simp [hs, Out.ofExcept] at hm
            | ok d' =>
              obtain ⟨m, d0, ov, rfl, hd0, hm0, hst, rfl⟩ := setDict_ok.1 hs
              have hlt := (List.getElem?_eq_some_iff.1 hd0).1
              obtain rfl : d0.insert m (conv v) = d := by
                have hne : a1 ≠ h.length := by omega
                simpa [hs, alloc, setCell, List.getElem?_set, hne] using hd
              obtain ⟨-, h4⟩ := hP a1 (old a1 hlt hb1)
              obtain ⟨h5, h6⟩ := h4 d0 hd0
              have hmem : m ∈ d0.keys := (Dict.get?_isSome_iff d0 m).1 (by rw [hm0]; rfl)
              refine ⟨by rw [Dict.keys_insert_of_mem d0 m _ hmem, h5], ?_⟩
              intro k
              rw [Dict.get?_insert]
              by_cases hk : m = k
              · subst hk
                rw [← h6 m, hm0]
                simp [hst]
              · simp [hk, h6 k]
          · exact absurd (hi.bound _ _ hm) ha
  obtain ⟨hi, hP⟩ := hP
  obtain ⟨hlt, hd⟩ := hP a hb
  generalize (run conv struct ops).1 = h at *
  have h1 : h[a]? ≠ some none := fun h => hl ((hi.consumed a).1 h)
  cases hx : h[a]? with
  | none => rw [List.getElem?_eq_none_iff] at hx; omega
  | some x =>
    cases x with
    | none => exact absurd hx h1
    | some d =>
      obtain ⟨h2, h3⟩ := hd d hx
      have hn := (hi.live a d hx).1
      refine ⟨d.map (·.2), d.map (·.1), by simp [flatten, deref_ok.2 hx, bind, Except.bind, pure, Except.pure], ?_, ?_⟩
      · exact h2
      have key : ∀ (d e : Dict K V), (Dict.keys d).Nodup → Dict.keys d = Dict.keys e →
          (∀ k, (d.get? k).map struct = (e.get? k).map struct) → (List.map (·.2) d).map struct = e.map (fun p => struct p.2) := by
        intro d
        induction d with
        | nil =>
          intro e _ hk _
          cases e with
          | nil => rfl
          | cons => simp [Dict.keys] at hk
        | cons p d ih =>
          intro e hn hk hg
          cases e with
          | nil => simp [Dict.keys] at hk
          | cons q e =>
            obtain ⟨k, v⟩ := p
            obtain ⟨k', v'⟩ := q
            simp only [Dict.keys, List.map_cons, List.cons.injEq, List.nodup_cons] at hk hn
            obtain ⟨rfl, hk⟩ := hk
            have h0 := hg k
            simp only [Dict.get?, if_true, Option.map_some, Option.some.injEq] at h0
            simp only [List.map_cons, h0]
            congr 1
            refine ih e hn.2 hk ?_
            intro k1
            by_cases hkk : k = k1
            · subst hkk
              have e1 : Dict.get? d k = none := (Dict.get?_eq_none_iff d k).2 hn.1
              have e2 : Dict.get? e k = none := (Dict.get?_eq_none_iff e k).2 (by
                have : Dict.keys e = Dict.keys d := hk.symm
                rw [this]; exact hn.1)
              rw [e1, e2]
            · have := hg k1
              simpa [Dict.get?, hkk] using this
      exact key d (Dict.ofList l) hn h2 h3

/-- A `set` with a value of another structure is rejected. -/
theorem state_set_rejects (conv : V → V) (struct : V → S) (h : Heap K V) (a : Nat) (k : K) (v old : V)
    (hg : get h a (.index k) = .ok old) (hs : struct old ≠ struct (conv v)) :
    set conv struct h a (.index k) v = (h, .error .valueError) := by
  simp only [get, bind, Except.bind] at hg
  split at hg
  · contradiction
  · rename_i d hd
    split at hg
    · rename_i v' hv
      obtain rfl : v' = old := by simpa using hg
      simp [set, setDict, hd, hv, hs, bind, Except.bind]
    · contradiction

/-- A live object refuses indices which it does not hold with `KeyError`, for `get` and `set`, and keys which are not a `StateIndex` with
`ValueError`. -/
theorem state_foreign (conv : V → V) (struct : V → S) {h : Heap K V} {a : Nat} {d : Dict K V} (hd : h[a]? = some (some d)) (v : V) :
    (∀ k, k ∉ Dict.keys d → get h a (.index k) = .error .keyError ∧
      set conv struct h a (.index k) v = (h, .error .keyError)) ∧
    get h a .other = .error .valueError ∧ set conv struct h a .other v = (h, .error .valueError) := by
  have hd' := deref_ok.2 hd
  refine ⟨fun k hk => ?_, by simp [get, hd', bind, Except.bind], by simp [set, setDict, hd', bind, Except.bind]⟩
  have := (Dict.get?_eq_none_iff d k).2 hk
  exact ⟨by simp [get, hd', this, bind, Except.bind], by simp [set, setDict, hd', this, bind, Except.bind]⟩

/-- `update` keeps the indices of the object and their order. -/
theorem state_update_keys (h h' : Heap K V) (a b : Nat) (arg : Arg) (hu : update h a arg = (h', .ok b)) :
    ∃ vs vs' ks, flatten h a = .ok (vs, ks) ∧ flatten h' b = .ok (vs', ks) := by
  simp only [update] at hu
  split at hu
  · simp at hu
  · rename_i d' hd'
    obtain ⟨b', d, e, rfl, hd, he, rfl, hk⟩ := updateDict_ok hd'
    have hlt := (List.getElem?_eq_some_iff.1 hd).1
    simp only [Prod.mk.injEq, Except.ok.injEq] at hu
    obtain ⟨rfl, rfl⟩ := hu
    refine ⟨d.map (·.2), (Dict.update d e).map (·.2), d.map (·.1), ?_, ?_⟩
    · simp [flatten, deref_ok.2 hd, bind, Except.bind, pure, Except.pure]
    · have hne : a ≠ h.length := by omega
      have : deref (setCell (alloc h (Dict.update d e)) a none) h.length = .ok (Dict.update d e) :=
        deref_ok.2 (by simp [alloc, setCell, List.getElem?_set, hne])
      simp only [flatten, this, bind, Except.bind, pure, Except.pure, Except.ok.injEq, Prod.mk.injEq, true_and]
      exact hk

/-- Unlike `set`, `update` does not compare structures: it can change the structure of a value. -/
theorem state_update_unchecked :
    ∃ (h h' : Heap Nat (List Nat)) (a b c : Nat), update h a (.state b) = (h', .ok c) ∧
      (get h a (.index 0)).map List.length = .ok 1 ∧ (get h' c (.index 0)).map List.length = .ok 2 := by
  refine ⟨[some [(0, [7])], some [(0, [7, 8])]], [none, some [(0, [7, 8])], some [(0, [7, 8])]], 0, 1, 2, ?_, ?_, ?_⟩ <;> decide

/-- `update` refuses, with `ValueError`, what is not a `State`, and a `State` with an index which the object does not have. Of a live object and a
live argument it refuses nothing else. -/
theorem state_update_refuses {h : Heap K V} {a : Nat} {d : Dict K V} (hd : h[a]? = some (some d)) :
    update h a .other = (h, .error .valueError) ∧
      ∀ b e, h[b]? = some (some e) →
        ((∃ k ∈ Dict.keys e, k ∉ Dict.keys d) → update h a (.state b) = (h, .error .valueError)) ∧
        ((∀ k ∈ Dict.keys e, k ∈ Dict.keys d) → ∃ h' c, update h a (.state b) = (h', .ok c)) := by
  have hd' := deref_ok.2 hd
  refine ⟨by simp [update, updateDict, hd', bind, Except.bind], fun b e he => ?_⟩
  have he' := deref_ok.2 he
  have key : ∀ (l : List (K × V)) (d : Dict K V), ((∃ k ∈ Dict.keys l, k ∉ Dict.keys d) → updateLoop d l = .error .valueError) ∧
      ((∀ k ∈ Dict.keys l, k ∈ Dict.keys d) → ∃ d', updateLoop d l = .ok d') := by
    intro l
    induction l with
    | nil => exact fun d => ⟨fun ⟨k, hk, _⟩ => by simp [Dict.keys] at hk, fun _ => ⟨d, rfl⟩⟩
    | cons p l ih =>
      intro d
      by_cases hp : p.1 ∈ Dict.keys d
      · have hi := ih (d.insert p.1 p.2)
        rw [Dict.keys_insert_of_mem d p.1 p.2 hp] at hi
        refine ⟨fun ⟨k, hk, hn⟩ => ?_, fun hall => ?_⟩
        · rw [updateLoop, if_pos hp]
          refine hi.1 ⟨k, ?_, hn⟩
          rcases List.mem_cons.1 (show k ∈ p.1 :: Dict.keys l from hk) with rfl | hk
          · exact absurd hp hn
          · exact hk
        · rw [updateLoop, if_pos hp]
          exact hi.2 fun k hk => hall k (List.mem_cons_of_mem _ hk)
      · refine ⟨fun _ => by rw [updateLoop, if_neg hp], fun hall => absurd (hall p.1 (List.mem_cons_self ..)) hp⟩
  refine ⟨fun hx => ?_, fun hx => ?_⟩
  · simp [update, updateDict, hd', he', bind, Except.bind, (key e d).1 hx]
  · obtain ⟨d', h'⟩ := (key e d).2 hx
    simp [update, updateDict, hd', he', bind, Except.bind, h']

/-! ### C15: `make_with_state` -/

section Make
variable {α C : Type}

theorem length_relabel (n : Nat) (ls : List (MLeaf α V)) : (relabel n ls).length = ls.length := by
  induction ls generalizing n with
  | nil => rfl
  | cons x ls ih => cases x <;> simp [relabel, ih]

theorem relabel_getElem (n : Nat) (ls : List (MLeaf α V)) (i : Nat) :
    (relabel n ls)[i]? = (ls[i]?).map (fun l => match l with
      | .idx _ init => .idx (.int (n + rank ls i)) init
      | .val x => .val x) := by
  induction ls generalizing n i with
  | nil => simp [relabel]
  | cons x ls ih =>
    cases i with
    | zero => cases x <;> simp [relabel, rank]
    | succ i =>
      cases x with
      | val x => simp [relabel, ih, rank, MLeaf.isIdx]
      | idx m init =>
        simp only [relabel, List.getElem?_cons_succ, ih, rank, List.take_succ_cons, List.countP_cons, MLeaf.isIdx, if_true]
        congr 1
        funext l
        cases l with
        | val => rfl
        | idx m init => simp; omega

/-- The dictionary made from relabelled leaves. -/
theorem initLoop_relabel (conv : V → V) (n : Nat) (ls : List (MLeaf α V)) (d : Dict Marker V)
    (hd : ∀ j, n ≤ j → Marker.int j ∉ d.keys) (hls : ∀ m, MLeaf.idx m none ∉ ls) :
    ∃ e, initLoop conv d (relabel n ls) = .ok (d ++ e) ∧
      Dict.keys e = (List.range' n (ls.countP MLeaf.isIdx)).map .int ∧
      ∀ i m v, ls[i]? = some (.idx m (some v)) → Dict.get? e (.int (n + rank ls i)) = some (conv v) := by
  induction ls generalizing n d with
  | nil => exact ⟨[], by simp [initLoop, relabel], by simp [Dict.keys], by simp⟩
  | cons x ls ih =>
    have hls' : ∀ m, MLeaf.idx m none ∉ ls := fun m hm => hls m (List.mem_cons_of_mem _ hm)
    cases x with
    | val x =>
      obtain ⟨e, h1, h2, h3⟩ := ih n d hd hls'
      refine ⟨e, by simpa [initLoop, relabel] using h1, by simpa [MLeaf.isIdx] using h2, ?_⟩
      intro i m v hi
      cases i with
      | zero => simp at hi
      | succ i => simpa [rank, MLeaf.isIdx] using h3 i m v (by simpa using hi)
    | idx m init =>
      cases init with
      | none => exact absurd List.mem_cons_self (hls m)
      | some v =>
        have hnot := hd n (Nat.le_refl n)
        have hins : d.insert (.int n) (conv v) = d ++ [(.int n, conv v)] := Dict.insert_of_not_mem d _ _ hnot
        obtain ⟨e, h1, h2, h3⟩ := ih (n + 1) (d.insert (.int n) (conv v)) (by
          intro j hj hm
          rw [Dict.mem_keys_insert] at hm
          rcases hm with hm | hm
          · simp at hm; omega
          · exact hd j (by omega) hm) hls'
        refine ⟨(.int n, conv v) :: e, ?_, ?_, ?_⟩
        · simp only [initLoop, relabel]
          rw [h1, hins]
          simp
        · have hc : (MLeaf.idx m (some v) :: ls).countP MLeaf.isIdx = ls.countP MLeaf.isIdx + 1 := by
            rw [List.countP_cons]; rfl
          rw [hc, List.range'_succ, List.map_cons, ← h2]
          rfl
        · intro i m' v' hi
          cases i with
          | zero =>
            simp at hi
            simp [rank, Dict.get?, hi.2]
          | succ i =>
            have := h3 i m' v' (by simpa using hi)
            have hr : n + rank (MLeaf.idx m (some v) :: ls) (i + 1) = n + 1 + rank ls i := by
              simp only [rank, List.take_succ_cons, List.countP_cons, MLeaf.isIdx, if_true]; omega
            rw [hr]
            have hne : ¬ (Marker.int n = Marker.int (n + 1 + rank ls i)) := by simp; omega
            simp only [Dict.get?, hne, if_false]
            exact this

theorem unflatten_relabel (model : PT C (MLeaf α V)) :
    ∃ c : PT C (MLeaf α V), PT.treeUnflatten model.shape ((relabel 0 model.leaves).map .leaf) = .ok c ∧
      c.shape = model.shape ∧ c.leaves = relabel 0 model.leaves := by
  obtain ⟨c, h1, h2⟩ := PT.exists_fill model (relabel 0 model.leaves) (length_relabel _ _)
  refine ⟨c, ?_, h1, h2⟩
  have := PT.treeUnflatten_shape (c.map PT.leaf)
  rw [PT.shape_map, PT.leaves_map, h1, h2] at this
  rw [this, PT.join_map_leaf]

/-- `make_with_state` on any model with initial values: the structure of the model and its ordinary leaves are
unchanged, the `StateIndex`es are numbered from the left and hold no initial value any more, and the state holds the
initial value of each under its number, and nothing else. -/
theorem make_with_state_spec (conv : V → V) (model : PT C (MLeaf α V))
    (hinit : ∀ m, MLeaf.idx m none ∉ model.leaves) :
    ∃ model' d, makeWithState conv model = .ok (model', d) ∧ model'.shape = model.shape ∧
      (∀ (i : Nat) x, model.leaves[i]? = some (.val x) → model'.leaves[i]? = some (.val x)) ∧
      (∀ (i : Nat) m v, model.leaves[i]? = some (.idx m (some v)) →
        model'.leaves[i]? = some (.idx (.int (rank model.leaves i)) none) ∧
        Dict.get? d (.int (rank model.leaves i)) = some (conv v)) ∧
      Dict.keys d = (List.range (model.leaves.countP MLeaf.isIdx)).map .int := by
  obtain ⟨c, h1, h2, h3⟩ := unflatten_relabel model
  obtain ⟨e, h4, h5, h6⟩ := initLoop_relabel conv 0 model.leaves [] (by simp [Dict.keys]) hinit
  refine ⟨deleteInit c, e, ?_, ?_, ?_, ?_, ?_⟩
  · simp only [List.nil_append] at h4
    simp only [makeWithState, h1, stateOf, h3, h4, bind, Except.bind, pure, Except.pure]
  · rw [deleteInit, PT.shape_map, h2]
  · intro i x hx
    rw [deleteInit, PT.leaves_map, h3, List.getElem?_map, relabel_getElem, hx]
    rfl
  · intro i m v hx
    refine ⟨?_, by simpa using h6 i m v hx⟩
    rw [deleteInit, PT.leaves_map, h3, List.getElem?_map, relabel_getElem, hx]
    simp
  · rw [h5, List.range_eq_range']

/-- `make_with_state` raises if some `StateIndex` no longer has its initial value. -/
theorem make_with_state_no_init (conv : V → V) (model : PT C (MLeaf α V)) (m : Marker)
    (hm : MLeaf.idx m none ∈ model.leaves) : makeWithState conv model = .error .valueError := by
  obtain ⟨c, h1, h2, h3⟩ := unflatten_relabel model
  have key : ∀ (n : Nat) (ls : List (MLeaf α V)) (d : Dict Marker V), MLeaf.idx m none ∈ ls →
      initLoop conv d (relabel n ls) = .error .valueError := by
    intro n ls
    induction ls generalizing n with
    | nil => simp
    | cons x ls ih =>
      intro d hm
      cases x with
      | val x => simp at hm; simpa [relabel, initLoop] using ih n d hm
      | idx m' init =>
        cases init with
        | none => simp [relabel, initLoop]
        | some v => simp at hm; simpa [relabel, initLoop] using ih (n + 1) _ hm
  simp only [makeWithState, h1, stateOf, h3, key 0 model.leaves [] hm, bind, Except.bind]

/-- Two models with their `StateIndex`es in the same places (and otherwise arbitrary leaves) give states with the same
keys, and each model's indices look up the other's state in the corresponding place. -/
theorem make_with_state_interchangeable (conv : V → V) (model₁ model₂ : PT C (MLeaf α V))
    (h₁ : ∀ m, MLeaf.idx m none ∉ model₁.leaves) (h₂ : ∀ m, MLeaf.idx m none ∉ model₂.leaves)
    (hsame : model₁.leaves.map MLeaf.isIdx = model₂.leaves.map MLeaf.isIdx) :
    ∃ m₁ d₁ m₂ d₂, makeWithState conv model₁ = .ok (m₁, d₁) ∧ makeWithState conv model₂ = .ok (m₂, d₂) ∧
      Dict.keys d₁ = Dict.keys d₂ ∧
      ∀ (i : Nat) mk v, model₁.leaves[i]? = some (.idx mk (some v)) →
        ∃ mk', m₂.leaves[i]? = some (.idx mk' none) ∧ Dict.get? d₁ mk' = some (conv v) := by
  obtain ⟨m₁, d₁, e1, -, -, a1, k1⟩ := make_with_state_spec conv model₁ h₁
  obtain ⟨m₂, d₂, e2, -, -, a2, k2⟩ := make_with_state_spec conv model₂ h₂
  have hcount : ∀ (l l' : List (MLeaf α V)), l.map MLeaf.isIdx = l'.map MLeaf.isIdx →
      l.countP MLeaf.isIdx = l'.countP MLeaf.isIdx := by
    intro l l' h
    have e : ∀ l : List (MLeaf α V), l.countP MLeaf.isIdx = (l.map MLeaf.isIdx).countP id := by
      intro l; rw [List.countP_map]; rfl
    rw [e, e, h]
  refine ⟨m₁, d₁, m₂, d₂, e1, e2, by rw [k1, k2, hcount _ _ hsame], ?_⟩
  intro i mk v hi
  have hr : rank model₁.leaves i = rank model₂.leaves i := by
    refine hcount _ _ ?_
    rw [List.map_take, List.map_take, hsame]
  have hx : (model₁.leaves.map MLeaf.isIdx)[i]? = some true := by simp [hi, MLeaf.isIdx]
  rw [hsame, List.getElem?_map] at hx
  cases hy : model₂.leaves[i]? with
  | none => simp [hy] at hx
  | some y =>
    cases y with
    | val x => simp [hy, MLeaf.isIdx] at hx
    | idx mk2 init =>
      cases init with
      | none => exact absurd (List.mem_of_getElem? hy) (h₂ mk2)
      | some v2 =>
        refine ⟨_, (a2 i mk2 v2 hy).1, ?_⟩
        rw [← hr]
        exact (a1 i mk v hi).2

/-- `make_with_state` numbers occurrences, not objects: a `StateIndex` that is found in two places of the model, as that
of a stateful layer used twice, is given two numbers, so that each place has a state of its own. -/
theorem make_with_state_unties (conv : V → V) (model : PT C (MLeaf α V))
    (hinit : ∀ m, MLeaf.idx m none ∉ model.leaves) (i j : Nat) (m : Marker) (v : V) (hij : i ≠ j)
    (hi : model.leaves[i]? = some (.idx m (some v))) (hj : model.leaves[j]? = some (.idx m (some v))) :
    ∃ model' d mi mj, makeWithState conv model = .ok (model', d) ∧
      model'.leaves[i]? = some (.idx mi none) ∧ model'.leaves[j]? = some (.idx mj none) ∧ mi ≠ mj ∧
      Dict.get? d mi = some (conv v) ∧ Dict.get? d mj = some (conv v) := by
  obtain ⟨model', d, e, -, -, a, -⟩ := make_with_state_spec conv model hinit
  refine ⟨model', d, _, _, e, (a i m v hi).1, (a j m v hj).1, ?_, (a i m v hi).2, (a j m v hj).2⟩
  have key : ∀ (ls : List (MLeaf α V)) (a b : Nat) (m : Marker) (x : Option V), a < b →
      ls[a]? = some (.idx m x) → rank ls a < rank ls b := by
    intro ls a b m x hab ha
    have h1 : (ls.take (a + 1)).countP MLeaf.isIdx ≤ (ls.take b).countP MLeaf.isIdx :=
      (List.take_sublist_take_left (by omega)).countP_le
    have h2 : (ls.take (a + 1)).countP MLeaf.isIdx = (ls.take a).countP MLeaf.isIdx + 1 := by
      rw [List.take_add_one, ha]
      simp [MLeaf.isIdx]
    simp only [rank]
    omega
  intro h
  injection h with h
  rcases Nat.lt_or_gt_of_ne hij with hlt | hlt
  · have := key _ _ _ _ _ hlt hi
    omega
  · have := key _ _ _ _ _ hlt hj
    omega

/-- `State(model)` goes by the markers instead: indices with one marker share one entry, which is the initial value of
the last of them. -/
theorem state_of_shared (conv : V → V) (model : PT C (MLeaf α V))
    (hinit : ∀ m, MLeaf.idx m none ∉ model.leaves) :
    ∃ d, stateOf conv model = .ok d ∧
      (∀ m, m ∈ Dict.keys d ↔ ∃ v, MLeaf.idx m (some v) ∈ model.leaves) ∧
      (∀ (i : Nat) m v, model.leaves[i]? = some (.idx m (some v)) →
        (∀ (j : Nat) v', i < j → model.leaves[j]? ≠ some (.idx m (some v'))) →
        Dict.get? d m = some (conv v)) := by
  have key : ∀ (ls : List (MLeaf α V)) (d : Dict Marker V), (∀ m, MLeaf.idx m none ∉ ls) →
      ∃ e, initLoop conv d ls = .ok e ∧
        (∀ m, m ∈ Dict.keys e ↔ m ∈ Dict.keys d ∨ ∃ v, MLeaf.idx m (some v) ∈ ls) ∧
        (∀ m, (∀ v, MLeaf.idx m (some v) ∉ ls) → Dict.get? e m = Dict.get? d m) ∧
        (∀ (i : Nat) m v, ls[i]? = some (.idx m (some v)) →
          (∀ (j : Nat) v', i < j → ls[j]? ≠ some (.idx m (some v'))) → Dict.get? e m = some (conv v)) := by
    intro ls
    induction ls with
    | nil => intro d _; exact ⟨d, rfl, by simp, by simp, by simp⟩
    | cons x ls ih =>
      intro d h
      have h' : ∀ m, MLeaf.idx m none ∉ ls := fun m hm => h m (List.mem_cons_of_mem _ hm)
      match x, h with
      | .val x, _ =>
        obtain ⟨e, h1, h2, h3, h4⟩ := ih d h'
        refine ⟨e, h1, ?_, ?_, ?_⟩
        · intro m; rw [h2]; simp
        · intro m hm; exact h3 m (fun v hv => hm v (List.mem_cons_of_mem _ hv))
        · intro i m v hi hl
          cases i with
          | zero => simp at hi
          | succ i => exact h4 i m v (by simpa using hi) (fun j v' hj => by simpa using hl (j + 1) v' (by omega))
      | .idx m0 none, h => exact absurd List.mem_cons_self (h m0)
      | .idx m0 (some v0), _ =>
        obtain ⟨e, h1, h2, h3, h4⟩ := ih (d.insert m0 (conv v0)) h'
        refine ⟨e, h1, ?_, ?_, ?_⟩
        · intro m
          rw [h2, Dict.mem_keys_insert]
          constructor
          · rintro ((rfl | h) | ⟨v, hv⟩)
            · exact Or.inr ⟨v0, List.mem_cons_self⟩
            · exact Or.inl h
            · exact Or.inr ⟨v, List.mem_cons_of_mem _ hv⟩
          · rintro (h | ⟨v, hv⟩)
            · exact Or.inl (Or.inr h)
            · rcases List.mem_cons.1 hv with hv | hv
              · injection hv with hm _; exact Or.inl (Or.inl hm)
              · exact Or.inr ⟨v, hv⟩
        · intro m hm
          rw [h3 m (fun v hv => hm v (List.mem_cons_of_mem _ hv))]
          have hne : m ≠ m0 := fun hh => hm v0 (hh ▸ List.mem_cons_self)
          rw [Dict.get?_insert, if_neg (fun hh => hne hh.symm)]
        · intro i m v hi hl
          cases i with
          | zero =>
            simp at hi
            obtain ⟨rfl, rfl⟩ := hi
            rw [h3 m0, Dict.get?_insert, if_pos rfl]
            intro v' hv'
            obtain ⟨j, hj⟩ := List.getElem?_of_mem hv'
            exact hl (j + 1) v' (by omega) (by simpa using hj)
          | succ i => exact h4 i m v (by simpa using hi) (fun j v' hj => by simpa using hl (j + 1) v' (by omega))
  obtain ⟨e, h1, h2, -, h4⟩ := key model.leaves [] hinit
  exact ⟨e, h1, fun m => by rw [h2]; simp [Dict.keys], h4⟩

end Make

/-! ### Examples -/

section Examples

/-- Create a state, set index 1, take a clone, set again, look up in all. -/
def exOps : List (Op Nat Nat) :=
  [.create [(1, 10), (2, 20)], .set 0 (.index 1) 11, .flatten 1, .unflatten [1, 2] [11, 20], .set 1 (.index 1) 12,
   .substate 3 [1], .set 4 (.index 1) 13, .update 3 (.state 5)]

def exRun := run (fun v => v + 100) (fun _ => ()) exOps

-- state 2 (the clone) still has its value, 3 was used up by `update`, and 6 has the updated value
example : get exRun.1 2 (.index 1) = .ok 11 := by decide
example : get exRun.1 3 (.index 1) = .error .valueError := by decide
example : get exRun.1 6 (.index 1) = .ok 113 := by decide
example : Created exRun.2 6 := ⟨.update 3 (.state 5), List.mem_cons_self⟩
example : ¬ Consumed exRun.2 6 :=
  fun h => absurd ((inv_run (fun v => v + 100) (fun _ => ()) exOps).consumed 6 |>.2 h) (by decide)
example : Consumed exRun.2 3 := ⟨6, Or.inr ⟨.state 5, List.mem_cons_self⟩⟩
example : BySets (run (fun v => v + 100) (fun _ => ()) [Op.create [(1, 10), (2, 20)], .set 0 (.index 1) 11]).2 [(1, 10), (2, 20)] 1 :=
  .set (.create (List.mem_cons_of_mem _ List.mem_cons_self)) List.mem_cons_self
example : valueOf (fun v => v + 100) exRun.2 6 2 = some 20 := by decide

/-- A model with one parameter and two indices. -/
def exModel : PT Unit (MLeaf Nat Nat) :=
  .node () [.leaf (.idx (.obj 5) (some 7)), .leaf (.val 3), .none, .leaf (.idx (.obj 4) (some 9))]

example : ∀ m, MLeaf.idx m none ∉ exModel.leaves := by
  intro m; simp [exModel, PT.leaves, PT.leavesL]

/-- A `State` with two indices, whose leaves are replaced. -/
example : flatten (run id (fun _ : Nat => ()) [.create [(5, 7), (6, 8)]]).1 0 = .ok ([7, 8], [5, 6]) := by decide

/-- A model that uses one stateful layer twice: one state for both with `State(model)`, two with `make_with_state`. -/
def exTied : PT Unit (MLeaf Nat Nat) := .node () [.leaf (.idx (.obj 5) (some 7)), .leaf (.idx (.obj 5) (some 7))]

example : stateOf id exTied = .ok [(.obj 5, 7)] := by decide
example : ((makeWithState id exTied).map (·.2)) = .ok [(.int 0, 7), (.int 1, 7)] := by decide
example : ((makeWithState id exModel).map (·.2)) = .ok [(.int 0, 7), (.int 1, 9)] := by decide

end Examples

end State
end Verif
