import Verif.MaxTraces.Model

/-! # C46: `assert_max_traces` counts exactly -/

namespace Verif.MaxTraces

variable {S : Type}

/-! ### Specification -/

/-- The number of calls of `assert_max_traces`. -/
def wraps (es : List (Event S)) : Nat := es.countP (fun e => match e with | .wrap _ => true | _ => false)

/-- For each wrapper, in order of creation: the number of the call of `assert_max_traces` it stems from, and the
`max_traces` of that call. -/
def owners (es : List (Event S)) : List (Nat × Option Nat) :=
  (es.foldl (fun (o : Nat × List (Nat × Option Nat)) e => match e with
    | .wrap m => (o.1 + 1, o.2 ++ [(o.1, m)])
    | .clone i => (o.1, o.2 ++ (o.2[i]?).toList)
    | .call _ _ => o) (0, [])).2

/-- Is this a call of a wrapper that stems from the `t`-th call of `assert_max_traces`? -/
def isCallOn (os : List (Nat × Option Nat)) (t : Nat) : Event S → Bool
  | .call i _ => (os[i]?).map (·.1) == some t
  | _ => false

/-- The number of calls of such wrappers. -/
def calls (es : List (Event S)) (t : Nat) : Nat := es.countP (isCallOn (owners es) t)

/-- Only wrappers that exist are copied or called. -/
def WF (es : List (Event S)) : Prop :=
  ∀ es₁ e es₂, es = es₁ ++ e :: es₂ → match e with
    | .wrap _ => True
    | .clone i => i < (owners es₁).length
    | .call i _ => i < (owners es₁).length

/-- An earlier call of such a wrapper went through, and passed `s` as argument `n`. -/
def Accepted (eqS : S → S → Bool) (es : List (Event S)) (t : Nat) (n : String) (s : S) : Prop :=
  ∃ es₁ i as es₂, es = es₁ ++ .call i (.ok as) :: es₂ ∧ ((owners es₁)[i]?).map (·.1) = some t ∧
    (step eqS (run eqS es₁) (.call i (.ok as))).2 = .ran ∧ (n, s) ∈ as

/-! ### Lemmas -/

theorem snoc_ind {α : Type} {P : List α → Prop} (h0 : P []) (h1 : ∀ l a, P l → P (l ++ [a])) (l : List α) : P l := by
  have : ∀ l : List α, P l.reverse := by
    intro l
    induction l with
    | nil => exact h0
    | cons a l ih => rw [List.reverse_cons]; exact h1 _ _ ih
  simpa using this l.reverse

/-- The state of the fold in `owners`. -/
def ow (es : List (Event S)) : Nat × List (Nat × Option Nat) :=
  es.foldl (fun (o : Nat × List (Nat × Option Nat)) e => match e with
    | .wrap m => (o.1 + 1, o.2 ++ [(o.1, m)])
    | .clone i => (o.1, o.2 ++ (o.2[i]?).toList)
    | .call _ _ => o) (0, [])

theorem ow_fst (es : List (Event S)) : (ow es).1 = wraps es := by
  induction es using snoc_ind with
  | h0 => rfl
  | h1 es e ih =>
    have : ∀ e, wraps (es ++ [e]) = wraps es + wraps [e] := fun e => List.countP_append ..
    rw [this, ← ih]
    cases e <;> simp [ow, wraps]

theorem owners_wrap (es : List (Event S)) (m : Option Nat) : owners (es ++ [.wrap m]) = owners es ++ [(wraps es, m)] := by
  rw [← ow_fst]; simp [owners, ow]

theorem owners_clone (es : List (Event S)) (i : Nat) : owners (es ++ [.clone i]) = owners es ++ ((owners es)[i]?).toList := by
  simp [owners]

theorem owners_call (es : List (Event S)) (i : Nat) (as : Bound S) : owners (es ++ [.call i as]) = owners es := by
  simp [owners]

theorem owners_prefix (es fs : List (Event S)) : owners es <+: owners (es ++ fs) := by
  induction fs using snoc_ind with
  | h0 => simp
  | h1 fs e ih =>
    rw [← List.append_assoc]
    refine ih.trans ?_
    cases e with
    | wrap m => rw [owners_wrap]; exact List.prefix_append _ _
    | clone i => rw [owners_clone]; exact List.prefix_append _ _
    | call i as => rw [owners_call]; exact List.prefix_refl _

theorem WF.init {es : List (Event S)} {e : Event S} (h : WF (es ++ [e])) : WF es := by
  intro es₁ e' es₂ he
  exact h es₁ e' (es₂ ++ [e]) (by rw [he]; simp)

theorem WF.last_call {es : List (Event S)} {i : Nat} {as : Bound S} (h : WF (es ++ [.call i as])) : i < (owners es).length :=
  h es _ [] rfl

theorem WF.last_clone {es : List (Event S)} {i : Nat} (h : WF (es ++ [.clone i])) : i < (owners es).length :=
  h es _ [] rfl

theorem getElem?_prefix {α : Type} {l l' : List α} (h : l <+: l') {i : Nat} (hi : i < l.length) : l'[i]? = l[i]? := by
  obtain ⟨m, rfl⟩ := h
  rw [List.getElem?_append_left hi]

/-- A well-formed call refers to a wrapper created before it. -/
theorem WF.call_lt {es : List (Event S)} (h : WF es) {i : Nat} {as : Bound S} (hm : .call i as ∈ es) : i < (owners es).length := by
  obtain ⟨es₁, es₂, rfl⟩ := List.append_of_mem hm
  have h1 : i < (owners es₁).length := h es₁ _ es₂ rfl
  have h2 := (owners_prefix es₁ (.call i as :: es₂)).length_le
  omega

theorem calls_snoc {es : List (Event S)} {e : Event S} (h : WF (es ++ [e])) (t : Nat) :
    calls (es ++ [e]) t = calls es t + if isCallOn (owners es) t e then 1 else 0 := by
  have h0 := h.init
  have hp := owners_prefix es [e]
  unfold calls
  rw [List.countP_append]
  congr 1
  · refine List.countP_congr (fun e' he' => ?_)
    cases e' with
    | wrap m => simp [isCallOn]
    | clone i => simp [isCallOn]
    | call i as => simp only [isCallOn]; rw [getElem?_prefix hp (h0.call_lt he')]
  · rw [List.countP_singleton]
    cases e with
    | wrap m => simp [isCallOn]
    | clone i => simp [isCallOn]
    | call i as => rw [owners_call]

theorem isCallOn_ge {es : List (Event S)} : ∀ p ∈ owners es, p.1 < wraps es := by
  induction es using snoc_ind with
  | h0 => simp [owners]
  | h1 es e ih =>
    have hw : wraps es ≤ wraps (es ++ [e]) := by unfold wraps; rw [List.countP_append]; omega
    intro p hp
    cases e with
    | wrap m =>
      rw [owners_wrap, List.mem_append] at hp
      have : wraps (es ++ [Event.wrap m]) = wraps es + 1 := by simp [wraps]
      rcases hp with hp | hp
      · have := ih p hp; omega
      · simp only [List.mem_singleton] at hp; subst hp; simp only; omega
    | clone i =>
      rw [owners_clone, List.mem_append] at hp
      rcases hp with hp | hp
      · have := ih p hp; omega
      · rw [Option.mem_toList] at hp
        have := ih p (List.mem_of_getElem? hp); omega
    | call i as => rw [owners_call] at hp; have := ih p hp; omega

theorem get?_insert' {V K : Type} [DecidableEq K] (d : Dict K V) (k k' : K) (v : V) :
    (d.insert k v).get? k' = if k' = k then some v else d.get? k' := by
  rw [Dict.get?_insert]
  by_cases h : k' = k
  · rw [if_pos h, if_pos h.symm]
  · rw [if_neg h, if_neg (fun e => h e.symm)]

theorem mem_record (seen : Dict String (List S)) (as : List (String × S)) (n : String) (s : S) :
    s ∈ ((record seen as).get? n).getD [] ↔ s ∈ (seen.get? n).getD [] ∨ (n, s) ∈ as := by
  induction as generalizing seen with
  | nil => simp [record]
  | cons p rest ih =>
    obtain ⟨n', s'⟩ := p
    simp only [record]
    rw [ih, get?_insert']
    by_cases h : n = n'
    · subst h
      simp only [if_true, Option.getD_some, List.mem_append, List.mem_cons, List.not_mem_nil, false_or, Prod.mk.injEq, true_and, or_assoc]
    · rw [if_neg h]
      simp only [List.mem_cons, Prod.mk.injEq, h, false_and, false_or]

theorem Accepted.snoc {eqS : S → S → Bool} {es : List (Event S)} {e : Event S} {t n s} (h : Accepted eqS es t n s) :
    Accepted eqS (es ++ [e]) t n s := by
  obtain ⟨es₁, i, as, es₂, rfl, h1, h2, h3⟩ := h
  exact ⟨es₁, i, as, es₂ ++ [e], by simp, h1, h2, h3⟩

theorem accepted_snoc {eqS : S → S → Bool} {es : List (Event S)} {e : Event S} {t n s} :
    Accepted eqS (es ++ [e]) t n s ↔ Accepted eqS es t n s ∨
      ∃ i as, e = .call i (.ok as) ∧ ((owners es)[i]?).map (·.1) = some t ∧
        (step eqS (run eqS es) e).2 = .ran ∧ (n, s) ∈ as := by
  constructor
  · rintro ⟨es₁, i, as, es₂, h, h1, h2, h3⟩
    rcases List.eq_nil_or_concat es₂ with rfl | ⟨es₃, e', rfl⟩
    · obtain ⟨rfl, he⟩ := List.append_inj' h rfl
      cases he
      exact .inr ⟨i, as, rfl, h1, h2, h3⟩
    · rw [List.concat_eq_append, ← List.cons_append, ← List.append_assoc] at h
      obtain ⟨rfl, -⟩ := List.append_inj' h rfl
      exact .inl ⟨es₁, i, as, es₃, rfl, h1, h2, h3⟩
  · rintro (h | ⟨i, as, rfl, h1, h2, h3⟩)
    · exact h.snoc
    · exact ⟨es, i, as, [], rfl, h1, h2, h3⟩

/-- The invariant. -/
structure Inv (eqS : S → S → Bool) (es : List (Event S)) (w : World S) : Prop where
  wrappers : w.wrappers = (owners es).map (fun p => ⟨p.2, p.1⟩)
  keys : w.traces.keys = List.range (wraps es)
  traces : ∀ t, t < wraps es → w.traces.get? t = some (calls es t)
  seen : ∀ t, t < wraps es → ∃ d, w.seen.get? t = some d ∧ ∀ n s, s ∈ (d.get? n).getD [] ↔ Accepted eqS es t n s

theorem inv_length {eqS : S → S → Bool} {es : List (Event S)} {w : World S} (h : Inv eqS es w) : w.traces.length = wraps es := by
  have := congrArg List.length h.keys
  simpa [Dict.keys] using this

theorem run_snoc (eqS : S → S → Bool) (es : List (Event S)) (e : Event S) :
    run eqS (es ++ [e]) = (step eqS (run eqS es) e).1 := by simp [run]

theorem wraps_snoc (es : List (Event S)) (e : Event S) : wraps (es ++ [e]) = wraps es + wraps [e] := List.countP_append ..

/-- What a call does, in terms of the history. -/
theorem step_call {eqS : S → S → Bool} {es : List (Event S)} (hi : Inv eqS es (run eqS es)) {i t : Nat} {m : Option Nat}
    (ho : (owners es)[i]? = some (t, m)) (args : Bound S) :
    ∃ d, (run eqS es).seen.get? t = some d ∧ (∀ n s, s ∈ (d.get? n).getD [] ↔ Accepted eqS es t n s) ∧
      step eqS (run eqS es) (.call i args) =
        let w' := { run eqS es with traces := (run eqS es).traces.insert t (calls es t + 1) }
        match args with
        | .error e => (w', .raised e)
        | .ok as => if exceeded m (calls es t + 1) then (w', .tooMany (blame eqS d as))
          else ({ w' with seen := (run eqS es).seen.insert t (record d as) }, .ran) := by
  have ht := isCallOn_ge _ (List.mem_of_getElem? ho)
  obtain ⟨d, hd, hd'⟩ := hi.seen t ht
  refine ⟨d, hd, hd', ?_⟩
  have hw : (run eqS es).wrappers[i]? = some ⟨m, t⟩ := by rw [hi.wrappers, List.getElem?_map, ho]; rfl
  simp only [step, hw, enter, hi.traces t ht, hd]
  cases args <;> rfl

theorem inv {eqS : S → S → Bool} (es : List (Event S)) (h : WF es) : Inv eqS es (run eqS es) := by
  induction es using snoc_ind with
  | h0 => exact ⟨rfl, rfl, nofun, nofun⟩
  | h1 es e ih =>
    have hi := ih h.init
    have hlen := inv_length hi
    rw [run_snoc]
    cases e with
    | wrap m =>
      have hws : wraps (es ++ [Event.wrap m]) = wraps es + 1 := by simp [wraps]
      have hnot : wraps es ∉ (run eqS es).traces.keys := by rw [hi.keys]; simp
      have hc : ∀ t, calls (es ++ [.wrap m]) t = calls es t := by
        intro t; rw [calls_snoc h]; simp [isCallOn]
      have hnew : calls es (wraps es) = 0 := by
        unfold calls
        rw [List.countP_eq_zero]
        intro e he
        cases e with
        | wrap m => simp [isCallOn]
        | clone i => simp [isCallOn]
        | call i as =>
          simp only [isCallOn]
          have hlt := h.init.call_lt he
          have := isCallOn_ge _ (List.getElem_mem hlt)
          rw [List.getElem?_eq_getElem hlt]
          simp only [Option.map_some, beq_iff_eq, Option.some.injEq]
          omega
      have hna : ∀ n s, ¬ Accepted eqS (es ++ [.wrap m]) (wraps es) n s := by
        intro n s hacc
        rw [accepted_snoc] at hacc
        rcases hacc with ⟨es₁, i, as, es₂, rfl, h1, h2, h3⟩ | ⟨i, as, he, -⟩
        · have hlt : i < (owners es₁).length := h.init es₁ _ es₂ rfl
          rw [List.getElem?_eq_getElem hlt] at h1
          simp only [Option.map_some, Option.some.injEq] at h1
          have := isCallOn_ge _ (List.getElem_mem hlt)
          have hle : wraps es₁ ≤ wraps (es₁ ++ Event.call i (.ok as) :: es₂) := by unfold wraps; rw [List.countP_append]; omega
          omega
        · cases he
      simp only [step, hlen]
      refine ⟨?_, ?_, ?_, ?_⟩
      · rw [owners_wrap, hi.wrappers]; simp
      · rw [Dict.keys_insert_of_not_mem _ _ _ hnot, hi.keys, hws, List.range_succ]
      · intro t ht
        rw [get?_insert', hc]
        by_cases hte : t = wraps es
        · subst hte; rw [if_pos rfl, hnew]
        · rw [if_neg hte]; exact hi.traces t (by omega)
      · intro t ht
        rw [get?_insert']
        by_cases hte : t = wraps es
        · subst hte
          refine ⟨[], by rw [if_pos rfl], fun n s => ?_⟩
          simp only [Dict.get?, Option.getD_none, List.not_mem_nil, false_iff]
          exact hna n s
        · obtain ⟨d, hd, hd'⟩ := hi.seen t (by omega)
          refine ⟨d, by rw [if_neg hte]; exact hd, fun n s => ?_⟩
          rw [hd', accepted_snoc]
          constructor
          · exact .inl
          · rintro (hh | ⟨i, as, he, -⟩)
            · exact hh
            · cases he
    | clone i =>
      have hlt := h.last_clone
      have hw : (run eqS es).wrappers[i]? = some ⟨(owners es)[i].2, (owners es)[i].1⟩ := by
        rw [hi.wrappers, List.getElem?_map, List.getElem?_eq_getElem hlt]; rfl
      have hws : wraps (es ++ [Event.clone i]) = wraps es := by simp [wraps]
      have hc : ∀ t, calls (es ++ [.clone i]) t = calls es t := by
        intro t; rw [calls_snoc h]; simp [isCallOn]
      simp only [step, hw]
      refine ⟨?_, ?_, ?_, ?_⟩
      · rw [owners_clone, hi.wrappers, List.getElem?_eq_getElem hlt]; simp
      · rw [hws]; exact hi.keys
      · intro t ht; rw [hc]; exact hi.traces t (by omega)
      · intro t ht
        obtain ⟨d, hd, hd'⟩ := hi.seen t (by omega)
        refine ⟨d, hd, fun n s => ?_⟩
        rw [hd', accepted_snoc]
        constructor
        · exact .inl
        · rintro (hh | ⟨i, as, he, -⟩)
          · exact hh
          · cases he
    | call i args =>
      have hlt := h.last_call
      have ho : (owners es)[i]? = some ((owners es)[i].1, (owners es)[i].2) := by rw [List.getElem?_eq_getElem hlt]
      generalize (owners es)[i].1 = t at ho
      generalize (owners es)[i].2 = m at ho
      have htl := isCallOn_ge _ (List.mem_of_getElem? ho)
      simp only at htl
      obtain ⟨d, hd, hd', hstep⟩ := step_call hi ho args
      have hws : wraps (es ++ [Event.call i args]) = wraps es := by simp [wraps]
      have hc : ∀ t', calls (es ++ [.call i args]) t' = calls es t' + if t' = t then 1 else 0 := by
        intro t'
        rw [calls_snoc h]
        simp only [isCallOn, ho, Option.map_some, beq_iff_eq, Option.some.injEq]
        by_cases e : t' = t
        · simp [e]
        · rw [if_neg (fun h => e h.symm), if_neg e]
      have htr : ∀ t', t' < wraps es → ((run eqS es).traces.insert t (calls es t + 1)).get? t' =
          some (calls (es ++ [.call i args]) t') := by
        intro t' ht'
        rw [get?_insert', hc]
        by_cases e : t' = t
        · subst e; simp
        · rw [if_neg e, if_neg e]; exact hi.traces t' ht'
      have hks : ((run eqS es).traces.insert t (calls es t + 1)).keys = List.range (wraps es) := by
        rw [Dict.keys_insert_of_mem _ _ _ (by rw [hi.keys]; simpa using htl), hi.keys]
      have hwr : (run eqS es).wrappers = (owners (es ++ [.call i args])).map (fun p => ⟨p.2, p.1⟩) := by
        rw [owners_call]; exact hi.wrappers
      have hsame : (step eqS (run eqS es) (.call i args)).2 ≠ .ran → ∀ t', t' < wraps es →
          ∃ d, (run eqS es).seen.get? t' = some d ∧ ∀ n s, s ∈ (d.get? n).getD [] ↔ Accepted eqS (es ++ [.call i args]) t' n s := by
        intro hne t' ht'
        obtain ⟨d, hd, hd'⟩ := hi.seen t' ht'
        refine ⟨d, hd, fun n s => ?_⟩
        rw [hd', accepted_snoc]
        constructor
        · exact .inl
        · rintro (hh | ⟨i', as, he, -, hr, -⟩)
          · exact hh
          · exact absurd hr hne
      cases args with
      | error e =>
        simp only at hstep
        rw [hstep] at hsame ⊢
        exact ⟨hwr, hws ▸ hks, hws ▸ htr, hws ▸ hsame (by simp)⟩
      | ok as =>
        simp only at hstep
        by_cases hb : exceeded m (calls es t + 1) = true
        · rw [if_pos hb] at hstep
          rw [hstep] at hsame ⊢
          exact ⟨hwr, hws ▸ hks, hws ▸ htr, hws ▸ hsame (by simp)⟩
        · rw [if_neg hb] at hstep
          rw [hstep]
          refine ⟨hwr, hws ▸ hks, hws ▸ htr, ?_⟩
          rw [hws]
          intro t' ht'
          simp only
          rw [get?_insert']
          by_cases e : t' = t
          · subst e
            refine ⟨record d as, by rw [if_pos rfl], fun n s => ?_⟩
            rw [mem_record, hd', accepted_snoc]
            refine or_congr Iff.rfl ?_
            constructor
            · intro hm
              exact ⟨i, as, rfl, by rw [ho]; rfl, by rw [hstep], hm⟩
            · rintro ⟨i', as', he, -, -, hm⟩
              cases he
              exact hm
          · obtain ⟨d2, hd2, hd2'⟩ := hi.seen t' ht'
            refine ⟨d2, by rw [if_neg e]; exact hd2, fun n s => ?_⟩
            rw [hd2', accepted_snoc]
            constructor
            · exact .inl
            · rintro (hh | ⟨i', as', he, ho', -, -⟩)
              · exact hh
              · cases he
                rw [ho] at ho'
                simp only [Option.map_some, Option.some.injEq] at ho'
                exact absurd ho'.symm e

theorem blame_some {eqS : S → S → Bool} {d : Dict String (List S)} {as : List (String × S)} {n : String}
    (h : blame eqS d as = some n) : ∃ s, (n, s) ∈ as ∧ ∀ s' ∈ (d.get? n).getD [], eqS s s' = false := by
  induction as with
  | nil => cases h
  | cons p rest ih =>
    obtain ⟨n', s'⟩ := p
    simp only [blame] at h
    split at h
    · obtain ⟨s, h1, h2⟩ := ih h
      exact ⟨s, by simp [h1], h2⟩
    · rename_i hb
      cases h
      refine ⟨s', by simp, fun x hx => ?_⟩
      by_cases he : eqS s' x = true
      · exact absurd (List.any_eq_true.2 ⟨x, hx, he⟩) hb
      · simpa using he

theorem blame_none {eqS : S → S → Bool} {d : Dict String (List S)} {as : List (String × S)} (h : blame eqS d as = none) :
    ∀ n s, (n, s) ∈ as → ∃ s' ∈ (d.get? n).getD [], eqS s s' = true := by
  induction as with
  | nil => simp
  | cons p rest ih =>
    obtain ⟨n', s'⟩ := p
    simp only [blame] at h
    split at h
    · rename_i hb
      intro n s hm
      rcases List.mem_cons.1 hm with hm | hm
      · cases hm
        simpa using hb
      · exact ih h n s hm
    · cases h

/-! ### Properties -/

/-- The innermost object that `get_num_traces` finds. -/
def Callable.target : Callable → Option Nat
  | .wrapper i => some i
  | .wraps f => f.target
  | .plain => none

/-- **C46**: `get_num_traces` is the number of calls so far of all wrappers that stem from the same call of
`assert_max_traces`, whatever came of these calls; on other callables it raises `ValueError`. -/
theorem num_traces {eqS : S → S → Bool} {es : List (Event S)} (h : WF es) (f : Callable) :
    (f.target = none → getNumTraces (run eqS es) f = .error .valueError) ∧
    ∀ i t m, f.target = some i → (owners es)[i]? = some (t, m) → getNumTraces (run eqS es) f = .ok (calls es t) := by
  have hi := inv (eqS := eqS) es h
  constructor
  · intro hf
    have : getNumTraces? (run eqS es) f = none := by
      induction f with
      | wrapper i => simp [Callable.target] at hf
      | wraps f ih => exact ih hf
      | plain => rfl
    simp [getNumTraces, this]
  · intro i t m hf ho
    have ht := isCallOn_ge _ (List.mem_of_getElem? ho)
    have : getNumTraces? (run eqS es) f = some (calls es t) := by
      induction f with
      | wrapper j =>
        simp only [Callable.target, Option.some.injEq] at hf
        subst hf
        simp only [getNumTraces?]
        rw [hi.wrappers, List.getElem?_map, ho]
        exact hi.traces t ht
      | wraps f ih => exact ih hf
      | plain => cases hf
    simp [getNumTraces, this]

/-- **C46**: a call whose arguments fit the signature runs the function if fewer than `max_traces` calls came before (over
all copies of the wrapper, failed ones included), and raises `RuntimeError` otherwise. -/
theorem max_traces_call {eqS : S → S → Bool} {es : List (Event S)} (h : WF es) {i t : Nat} {m : Option Nat}
    (ho : (owners es)[i]? = some (t, m)) (as : List (String × S)) :
    (m = none → (step eqS (run eqS es) (.call i (.ok as))).2 = .ran) ∧
    ∀ n, m = some n →
      (calls es t < n → (step eqS (run eqS es) (.call i (.ok as))).2 = .ran) ∧
      (n ≤ calls es t → ∃ b, (step eqS (run eqS es) (.call i (.ok as))).2 = .tooMany b) := by
  obtain ⟨d, hd, hd', hstep⟩ := step_call (inv (eqS := eqS) es h) ho (.ok as)
  rw [hstep]
  constructor
  · rintro rfl; rfl
  · rintro n rfl
    constructor
    · intro hlt
      simp only
      rw [if_neg (by simp [exceeded]; omega)]
    · intro hle
      refine ⟨blame eqS d as, ?_⟩
      simp only
      rw [if_pos (by simp [exceeded]; omega)]

/-- **C46**: arguments that do not fit the signature raise; such a call counts as well (see `num_traces`). -/
theorem max_traces_bad_args {eqS : S → S → Bool} {es : List (Event S)} (h : WF es) {i t : Nat} {m : Option Nat}
    (ho : (owners es)[i]? = some (t, m)) (e : Err) : (step eqS (run eqS es) (.call i (.error e))).2 = .raised e := by
  obtain ⟨d, hd, hd', hstep⟩ := step_call (inv (eqS := eqS) es h) ho (.error e)
  rw [hstep]

/-- **C46**: the argument blamed is unlike that argument in every call that went through; if none is blamed, each argument is
like the same argument in some call that went through. -/
theorem max_traces_blame {eqS : S → S → Bool} {es : List (Event S)} (h : WF es) {i t : Nat} {m : Option Nat}
    (ho : (owners es)[i]? = some (t, m)) (as : List (String × S)) :
    (∀ n, (step eqS (run eqS es) (.call i (.ok as))).2 = .tooMany (some n) →
      ∃ s, (n, s) ∈ as ∧ ∀ s', Accepted eqS es t n s' → eqS s s' = false) ∧
    ((step eqS (run eqS es) (.call i (.ok as))).2 = .tooMany none →
      ∀ n s, (n, s) ∈ as → ∃ s', Accepted eqS es t n s' ∧ eqS s s' = true) := by
  obtain ⟨d, hd, hd', hstep⟩ := step_call (inv (eqS := eqS) es h) ho (.ok as)
  rw [hstep]
  constructor
  · intro n hn
    simp only at hn
    split at hn
    · simp only [Outcome.tooMany.injEq] at hn
      obtain ⟨s, h1, h2⟩ := blame_some hn
      exact ⟨s, h1, fun s' hs' => h2 s' ((hd' n s').2 hs')⟩
    · cases hn
  · intro hn n s hm
    simp only at hn
    split at hn
    · simp only [Outcome.tooMany.injEq] at hn
      obtain ⟨s', h1, h2⟩ := blame_none hn n s hm
      exact ⟨s', (hd' n s').1 h1, h2⟩
    · cases hn

/-! ### Example -/

/-- Two separately wrapped functions, one of them copied; `Nat` for structs. -/
def exEvents : List (Event Nat) :=
  [.wrap (some 2), .clone 0, .wrap (some 1), .call 0 (.ok [("x", 1)]), .call 1 (.error .typeError), .call 2 (.ok [("x", 5)]),
    .call 1 (.ok [("x", 7)])]

example : (owners exEvents) = [(0, some 2), (0, some 2), (1, some 1)] := rfl
example : calls exEvents 0 = 3 ∧ calls exEvents 1 = 1 := ⟨rfl, rfl⟩
example : WF exEvents := by
  intro es₁ e es₂ h
  have hl : es₁.length < 7 := by
    have := congrArg List.length h
    simp [exEvents] at this
    omega
  have h1 : es₁ = exEvents.take es₁.length := by rw [h]; simp
  have h2 : exEvents[es₁.length]? = some e := by rw [h]; simp
  rw [h1]
  generalize es₁.length = k at hl h2
  have : k = 0 ∨ k = 1 ∨ k = 2 ∨ k = 3 ∨ k = 4 ∨ k = 5 ∨ k = 6 := by omega
  rcases this with rfl | rfl | rfl | rfl | rfl | rfl | rfl <;> (simp [exEvents] at h2; subst h2; simp [exEvents, owners])
example : (step (· == ·) (run (· == ·) (exEvents.take 6)) (.call 1 (.ok [("x", 7)]))).2 = .tooMany (some "x") := by rfl

end Verif.MaxTraces
