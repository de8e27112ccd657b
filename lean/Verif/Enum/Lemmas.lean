import Verif.Enum.Spec

/-! # Lemmas about enumerations -/

namespace Verif
namespace Enum

variable {N M : Type} [DecidableEq N]

/-! ### C3 -/

theorem mem_dropHead {x y : Nat} {l : List Nat} (h : y ∈ dropHead x l) : y ∈ l := by
  unfold dropHead at h
  split at h
  · exact List.mem_of_mem_tail h
  · exact h

theorem mem_of_dropHead {x y : Nat} {l : List Nat} (h : y ∈ l) : y = x ∨ y ∈ dropHead x l := by
  unfold dropHead
  split
  · rename_i hh
    cases l with
    | nil => simp at h
    | cons a l =>
      simp at hh; subst hh
      simpa using h
  · exact .inr h

theorem c3_mem : ∀ (fuel : Nat) (ls : List (List Nat)) (l : List Nat), c3 fuel ls = some l →
    ∀ y, y ∈ l ↔ ∃ q ∈ ls, y ∈ q := by
  intro fuel
  induction fuel with
  | zero =>
    intro ls l h y
    simp only [c3] at h
    split at h
    · rename_i hh
      simp at h; subst h
      simp only [List.all_eq_true, List.isEmpty_iff] at hh
      simp only [List.not_mem_nil, false_iff, not_exists, not_and]
      intro q hq; rw [hh q hq]; simp
    · exact absurd h (by simp)
  | succ fuel ih =>
    intro ls l h y
    simp only [c3] at h
    split at h
    · rename_i hh
      simp at h; subst h
      simp only [List.all_eq_true, List.isEmpty_iff] at hh
      simp only [List.not_mem_nil, false_iff, not_exists, not_and]
      intro q hq; rw [hh q hq]; simp
    · cases hn : nextHead ls with
      | none => rw [hn] at h; exact absurd h (by simp)
      | some x =>
        rw [hn] at h
        simp only [Option.map_eq_some_iff] at h
        obtain ⟨l', hl', rfl⟩ := h
        have ih' := ih _ _ hl' y
        rw [List.mem_cons, ih']
        have hx : ∃ q ∈ ls, x ∈ q := by
          have := List.mem_of_find?_eq_some hn
          rw [List.mem_filterMap] at this
          obtain ⟨q, hq, hq'⟩ := this
          exact ⟨q, hq, List.mem_of_mem_head? hq'⟩
        constructor
        · rintro (rfl | ⟨q, hq, hy⟩)
          · exact hx
          · rw [List.mem_map] at hq
            obtain ⟨q', hq', rfl⟩ := hq
            exact ⟨q', hq', mem_dropHead hy⟩
        · rintro ⟨q, hq, hy⟩
          rcases mem_of_dropHead (x := x) hy with h | h
          · exact .inl h
          · exact .inr ⟨_, List.mem_map.2 ⟨q, hq, rfl⟩, h⟩

/-! ### Tables -/

/-- Items are numbered from zero in the order of insertion, with one message each. -/
def Good (t : Tab N M) : Prop := (Dict.keys t.items).Nodup ∧ t.items.map (·.2) = List.range t.msgs.length

/-- The message of a name. -/
def msgOf (t : Tab N M) (n : N) : Option M := (t.items.get? n).bind (fun i => t.msgs[i]?)

theorem good_nil : Good (⟨[], []⟩ : Tab N M) := by simp [Good, Dict.keys]

theorem Good.lt {t : Tab N M} (h : Good t) {n i} (hi : t.items.get? n = some i) : i < t.msgs.length := by
  have := Dict.mem_of_get? _ hi
  have : i ∈ t.items.map (·.2) := List.mem_map.2 ⟨_, this, rfl⟩
  rw [h.2] at this
  exact List.mem_range.1 this

theorem Good.length {t : Tab N M} (h : Good t) : t.items.length = t.msgs.length := by
  have := congrArg List.length h.2
  simpa using this

theorem Good.inj {t : Tab N M} (h : Good t) {n m i} (hn : t.items.get? n = some i) (hm : t.items.get? m = some i) :
    n = m := by
  have hn' := Dict.mem_of_get? _ hn
  have hm' := Dict.mem_of_get? _ hm
  obtain ⟨a, ha, ha'⟩ := List.getElem_of_mem hn'
  obtain ⟨b, hb, hb'⟩ := List.getElem_of_mem hm'
  have key : ∀ (j : Nat) (hj : j < t.items.length), (t.items[j]).2 = j := by
    intro j hj
    have : (t.items.map (·.2))[j]? = (List.range t.msgs.length)[j]? := by rw [h.2]
    rw [List.getElem?_map, List.getElem?_eq_getElem hj, List.getElem?_range (h.length ▸ hj)] at this
    simpa using this
  have e1 := key a ha
  have e2 := key b hb
  rw [ha'] at e1; rw [hb'] at e2
  simp at e1 e2
  have : a = b := by rw [← e1, ← e2]
  subst this
  rw [ha'] at hb'
  simpa using hb'

theorem Good.surj {t : Tab N M} (h : Good t) {i} (hi : i < t.msgs.length) : ∃ n, t.items.get? n = some i := by
  have : i ∈ t.items.map (·.2) := by rw [h.2]; exact List.mem_range.2 hi
  rw [List.mem_map] at this
  obtain ⟨p, hp, rfl⟩ := this
  exact ⟨p.1, Dict.get?_of_mem _ h.1 hp⟩

theorem Good.msgOf_isSome {t : Tab N M} (h : Good t) (n : N) : (msgOf t n).isSome = (t.items.get? n).isSome := by
  unfold msgOf
  cases hn : t.items.get? n with
  | none => rfl
  | some i => simp [List.getElem?_eq_getElem (h.lt hn)]

theorem store_get? (t : Tab N M) (n : N) (m : M) (n' : N) :
    (store t n m).1.items.get? n' = if n = n' then some (store t n m).2 else t.items.get? n' := by
  unfold store
  cases h : t.items.get? n with
  | none => simp only [Dict.get?_insert]
  | some i =>
    simp only
    split
    · rename_i e; subst e; exact h
    · rfl

theorem store_mono (t : Tab N M) (n : N) (m : M) {n' : N} {i : Nat} (h : t.items.get? n' = some i) :
    (store t n m).1.items.get? n' = some i := by
  rw [store_get?]
  split
  · rename_i e; subst e; simp [store, h]
  · exact h

theorem good_store {t : Tab N M} (h : Good t) (n : N) (m : M) : Good (store t n m).1 := by
  unfold store
  cases hn : t.items.get? n with
  | none =>
    have hk := (Dict.get?_eq_none_iff _ _).1 hn
    refine ⟨Dict.nodup_insert _ _ _ h.1, ?_⟩
    simp only [Dict.insert_of_not_mem _ _ _ hk, List.map_append, h.2, List.length_append]
    simp [List.range_succ]
  | some i => exact ⟨h.1, by simpa using h.2⟩

theorem msgOf_store {t : Tab N M} (h : Good t) (n : N) (m : M) (n' : N) :
    msgOf (store t n m).1 n' = if n = n' then some m else msgOf t n' := by
  unfold msgOf
  rw [store_get?]
  unfold store
  cases hn : t.items.get? n with
  | none =>
    simp only
    split
    · simp
    · cases hn' : t.items.get? n' with
      | none => rfl
      | some j =>
        simp only [Option.bind_some]
        rw [List.getElem?_append_left (h.lt hn')]
  | some i =>
    simp only
    split
    · simp [List.getElem?_set, h.lt hn]
    · rename_i hne
      cases hn' : t.items.get? n' with
      | none => rfl
      | some j =>
        simp only [Option.bind_some]
        have : i ≠ j := by rintro rfl; exact hne (h.inj hn hn')
        rw [List.getElem?_set_ne this]

theorem mem_keys_store (t : Tab N M) (n : N) (m : M) (n' : N) :
    n' ∈ Dict.keys (store t n m).1.items ↔ n' = n ∨ n' ∈ Dict.keys t.items := by
  rw [← Dict.get?_isSome_iff, ← Dict.get?_isSome_iff, store_get?]
  split
  · rename_i e; simp [e]
  · rename_i e; simp [Ne.symm e]

theorem addOwn_spec {t : Tab N M} (h : Good t) (own : List (N × M)) (hown : (Dict.keys own).Nodup) :
    Good (addOwn t own) ∧
    (∀ n i, t.items.get? n = some i → (addOwn t own).items.get? n = some i) ∧
    (∀ n, msgOf (addOwn t own) n = (Dict.get? own n).or (msgOf t n)) := by
  induction own generalizing t with
  | nil => exact ⟨h, fun _ _ h => h, fun n => by simp [addOwn, Dict.get?]⟩
  | cons p own ih =>
    obtain ⟨a, m⟩ := p
    simp only [Dict.keys, List.map_cons, List.nodup_cons] at hown
    obtain ⟨g, mono, ms⟩ := ih (good_store h a m) hown.2
    refine ⟨g, fun n i hi => mono n i (store_mono t a m hi), fun n => ?_⟩
    have := ms n
    simp only [addOwn, List.foldl_cons] at *
    rw [this, msgOf_store h]
    simp only [Dict.get?]
    by_cases e : a = n
    · subst e
      rw [(Dict.get?_eq_none_iff own a).2 hown.1]
      simp
    · simp [e]

/-- Copying part of the items of a base. -/
theorem copyItems_spec (bmsgs : List M) : ∀ (l : List (N × Nat)) (t : Tab N M) (off : List Nat),
    Good t → (Dict.keys l).Nodup → (l.map (·.2)).Nodup → (∀ p ∈ l, p.2 < bmsgs.length ∧ p.2 < off.length) →
    ∃ t' off', copyItems bmsgs l t off = .ok (t', off') ∧ Good t' ∧
      (∀ n i, t.items.get? n = some i → t'.items.get? n = some i) ∧
      (∀ n, msgOf t' n = match Dict.get? l n with | some i => bmsgs[i]? | none => msgOf t n) ∧
      off'.length = off.length ∧
      (∀ (i : Nat), i ∉ l.map (·.2) → off'[i]? = off[i]?) ∧
      (∀ n (i : Nat), (n, i) ∈ l → ∃ v, off'[i]? = some v ∧ t'.items.get? n = some v) := by
  intro l
  induction l with
  | nil =>
    intro t off g _ _ _
    exact ⟨t, off, rfl, g, fun _ _ h => h, fun n => by simp [Dict.get?], rfl, fun _ _ => rfl, by simp⟩
  | cons p l ih =>
    intro t off g hk hi hb
    obtain ⟨a, j⟩ := p
    simp only [Dict.keys, List.map_cons, List.nodup_cons] at hk hi
    have hj := hb (a, j) (by simp)
    obtain ⟨t', off', e, g', mono, ms, len, oth, this⟩ :=
      ih (store t a bmsgs[j]).1 (off.set j (store t a bmsgs[j]).2) (good_store g _ _) hk.2 hi.2
        (fun p hp => by have := hb p (List.mem_cons_of_mem _ hp); simpa using this)
    refine ⟨t', off', ?_, g', ?_, ?_, ?_, ?_, ?_⟩
    · simp only [copyItems, List.getElem?_eq_getElem hj.1]
      exact e
    · exact fun n i h => mono n i (store_mono _ _ _ h)
    · intro n
      rw [ms n, msgOf_store g]
      simp only [Dict.get?]
      by_cases ean : a = n
      · subst ean
        rw [(Dict.get?_eq_none_iff l a).2 hk.1]
        simp [List.getElem?_eq_getElem hj.1]
      · simp [ean]
    · simpa using len
    · intro i hni
      simp only [List.map_cons, List.mem_cons, not_or] at hni
      rw [oth i hni.2, List.getElem?_set_ne (Ne.symm hni.1)]
    · intro n i hm
      simp only [List.mem_cons, Prod.mk.injEq] at hm
      rcases hm with ⟨rfl, rfl⟩ | hm
      · refine ⟨(store t n bmsgs[i]).2, ?_, ?_⟩
        · rw [oth i hi.1]; simp [List.getElem?_set, hj.2]
        · apply mono; rw [store_get?]; simp
      · exact this n i hm

/-! ### Bases -/

/-- The message which class `b` gives to a name. -/
def msgIn (env : List (Cls N M)) (n : N) (b : Nat) : Option M := (env[b]?).bind (fun k => msgOf k.tab n)

/-- What holds after processing the bases `bs`, in that order. -/
structure Built (env : List (Cls N M)) (bs : List Nat) (s : Building N M) : Prop where
  good : Good s.1
  keys : Dict.keys s.2 = bs
  msgs : ∀ n, msgOf s.1 n = bs.reverse.findSome? (msgIn env n)
  offs : ∀ b off base, s.2.get? b = some off → env[b]? = some base →
    ∀ n (i : Nat), base.tab.items.get? n = some i → ∃ v, off[i]? = some v ∧ s.1.items.get? n = some v

theorem addBase_spec {env : List (Cls N M)} {bs : List Nat} {s : Building N M} (h : Built env bs s)
    (b : Nat) (base : Cls N M) (hb : env[b]? = some base) (hg : Good base.tab) :
    ∃ s', addBase env s b = .ok s' ∧ Built env (if b ∈ bs then bs else bs ++ [b]) s' := by
  unfold addBase
  by_cases hm : b ∈ Dict.keys s.2
  · refine ⟨s, by rw [if_pos hm], ?_⟩
    rw [if_pos (h.keys ▸ hm)]; exact h
  · rw [if_neg hm, hb]
    rw [if_neg (h.keys ▸ hm)]
    obtain ⟨t', off', e, g', mono, ms, len, _, this⟩ := copyItems_spec base.tab.msgs base.tab.items s.1
      (List.replicate base.tab.items.length 0) h.good hg.1 (hg.2 ▸ List.nodup_range) (by
        intro p hp
        have : p.2 ∈ base.tab.items.map (·.2) := List.mem_map.2 ⟨p, hp, rfl⟩
        rw [hg.2] at this
        have := List.mem_range.1 this
        simp [hg.length, this])
    refine ⟨(t', s.2.insert b off'), by simp only [e], g', ?_, ?_, ?_⟩
    · simp only [Dict.keys_insert_of_not_mem _ _ _ hm, h.keys]
    · intro n
      rw [ms n, List.reverse_append]
      simp only [List.reverse_cons, List.reverse_nil, List.nil_append, List.cons_append, List.findSome?_cons]
      rw [← h.msgs n]
      simp only [msgIn, hb, Option.bind_some, msgOf]
      cases hn : base.tab.items.get? n with
      | none => rfl
      | some i => simp [List.getElem?_eq_getElem (hg.lt hn)]
    · intro b' off base' hoff hb' n i hi
      simp only [Dict.get?_insert] at hoff
      split at hoff
      · rename_i eb; subst eb
        rw [hb] at hb'
        cases hb'; cases hoff
        exact this n i (Dict.mem_of_get? _ hi)
      · obtain ⟨v, hv, hv'⟩ := h.offs b' off base' hoff hb' n i hi
        exact ⟨v, hv, mono n v hv'⟩

/-- Adding the first occurrences of `l` to `bs`. -/
def addAll (bs l : List Nat) : List Nat := l.foldl (fun bs b => if b ∈ bs then bs else bs ++ [b]) bs

theorem addBases_spec {env : List (Cls N M)} (l : List Nat) : ∀ {bs : List Nat} {s : Building N M}, Built env bs s →
    (∀ b ∈ l, ∃ base, env[b]? = some base ∧ Good base.tab) →
    ∃ s', foldE (addBase env) s l = .ok s' ∧ Built env (addAll bs l) s' := by
  induction l with
  | nil => intro bs s h _; exact ⟨s, rfl, h⟩
  | cons b l ih =>
    intro bs s h hl
    obtain ⟨base, hb, hg⟩ := hl b (by simp)
    obtain ⟨s1, e1, h1⟩ := addBase_spec h b base hb hg
    obtain ⟨s2, e2, h2⟩ := ih h1 (fun b hb => hl b (List.mem_cons_of_mem _ hb))
    exact ⟨s2, by simp only [foldE, e1, e2], h2⟩

theorem addAll_firsts (l : List Nat) : ∀ bs, addAll bs l = bs ++ (firsts l).filter (· ∉ bs) := by
  induction l with
  | nil => intro bs; simp [addAll, firsts]
  | cons b l ih =>
    intro bs
    simp only [addAll, List.foldl_cons, firsts]
    by_cases h : b ∈ bs
    · rw [if_pos h, List.filter_cons_of_neg (by simpa using h), List.filter_filter]
      have := ih bs
      simp only [addAll] at this
      rw [this]
      congr 2
      funext x
      by_cases hx : x = b <;> simp [hx, h]
    · rw [if_neg h, List.filter_cons_of_pos (by simpa using h), List.filter_filter]
      have := ih (bs ++ [b])
      simp only [addAll] at this
      rw [this, List.append_assoc]
      simp only [List.cons_append, List.nil_append, List.mem_append, List.mem_singleton]
      congr 3
      funext x
      by_cases hx : x = b <;> by_cases hx2 : x ∈ bs <;> simp [hx, hx2]

theorem addAll_nil (l : List Nat) : addAll [] l = firsts l := by
  rw [addAll_firsts]; simp

theorem mem_firsts (l : List Nat) (x : Nat) : x ∈ firsts l ↔ x ∈ l := by
  induction l with
  | nil => simp [firsts]
  | cons a l ih =>
    simp only [firsts, List.mem_cons, List.mem_filter, ih]
    by_cases h : x = a <;> simp [h]

/-! ### Hierarchies -/

theorem foldE_append {S X : Type} (f : S → X → Except Err S) (l1 l2 : List X) (s : S) :
    foldE f s (l1 ++ l2) = match foldE f s l1 with | .error e => .error e | .ok s => foldE f s l2 := by
  induction l1 generalizing s with
  | nil => rfl
  | cons x l1 ih =>
    simp only [List.cons_append, foldE]
    cases f s x with
    | error e => rfl
    | ok s => exact ih s

theorem build_aux (magic reserved : N → Bool) (decls : List (Decl N M)) : ∀ (env0 env : List (Cls N M)),
    foldE (fun env d => create magic reserved env d.1 d.2) env0 decls = .ok env →
    env.length = env0.length + decls.length ∧ env.take env0.length = env0 ∧
    ∀ c d, decls[c]? = some d → ∃ k, env[env0.length + c]? = some k ∧
      newClass magic reserved (env.take (env0.length + c)) d.1 d.2 = .ok k := by
  induction decls with
  | nil => intro env0 env h; simp only [foldE, Except.ok.injEq] at h; subst h; simp
  | cons d decls ih =>
    intro env0 env h
    simp only [foldE] at h
    split at h
    · exact absurd h (by simp)
    · rename_i s hs
      simp only [create] at hs
      split at hs
      · exact absurd hs (by simp)
      · rename_i k hk
        simp only [Except.ok.injEq] at hs; subst hs
        obtain ⟨hl, ht, hc⟩ := ih _ _ h
        simp only [List.length_append, List.length_cons, List.length_nil] at hl ht hc
        have ht0 : env.take env0.length = env0 := by
          have := congrArg (List.take env0.length) ht
          rw [List.take_take, List.take_append_of_le_length (Nat.le_refl _), List.take_length] at this
          rwa [Nat.min_eq_left (by omega)] at this
        refine ⟨by simp only [List.length_cons]; omega, ht0, ?_⟩
        intro c d' hd
        cases c with
        | zero =>
          simp at hd; subst hd
          refine ⟨k, ?_, by simpa [ht0] using hk⟩
          have := congrArg (fun l => l[env0.length]?) ht
          simp only [List.getElem?_take] at this
          simpa using this
        | succ c =>
          simp at hd
          obtain ⟨k', h1, h2⟩ := hc c d' hd
          refine ⟨k', ?_, ?_⟩
          · rw [← h1]; congr 1; omega
          · rw [← h2]; congr 2; omega

theorem build_spec {magic reserved : N → Bool} {decls : List (Decl N M)} {env : List (Cls N M)}
    (h : build magic reserved decls = .ok env) :
    env.length = decls.length ∧ ∀ c d, decls[c]? = some d → ∃ k, env[c]? = some k ∧
      newClass magic reserved (env.take c) d.1 d.2 = .ok k := by
  obtain ⟨h1, _, h3⟩ := build_aux magic reserved decls [] env h
  simp only [List.length_nil, Nat.zero_add] at h1 h3
  exact ⟨h1, h3⟩

/-! ### Declarations -/

theorem get?_ofList (l : List (N × M)) (n : N) :
    (Dict.ofList l).get? n = (l.reverse.find? (fun p => decide (p.1 = n))).map (·.2) := by
  have key : ∀ (l : List (N × M)) (d : Dict N M),
      (l.foldl (fun d p => Dict.insert d p.1 p.2) d).get? n =
        ((l.reverse.find? (fun p => decide (p.1 = n))).map (·.2)).or (d.get? n) := by
    intro l
    induction l with
    | nil => intro d; simp
    | cons p l ih =>
      intro d
      rw [List.foldl_cons, ih, Dict.get?_insert, List.reverse_cons, List.find?_append]
      cases hf : l.reverse.find? (fun p => decide (p.1 = n)) with
      | some x => simp
      | none =>
        by_cases e : p.1 = n <;> simp [e]
  have := key l []
  simpa [Dict.ofList, Dict.get?] using this

theorem get?_filter_key (l : List (N × M)) (f : N → Bool) (n : N) :
    Dict.get? (l.filter (fun p => f p.1)) n = if f n then Dict.get? l n else none := by
  induction l with
  | nil => simp [Dict.get?]
  | cons p l ih =>
    obtain ⟨a, b⟩ := p
    rw [List.filter_cons]
    by_cases e : a = n
    · subst e
      by_cases hf : f a = true
      · simp [hf, Dict.get?]
      · simp only [hf, Dict.get?, Bool.false_eq_true, if_false] at ih ⊢
        exact ih
    · by_cases hf : f a = true
      · simp [hf, Dict.get?, e, ih]
      · simp [hf, Dict.get?, e, ih]

theorem nodup_filter (l : List (N × M)) (f : N × M → Bool) (h : (Dict.keys l).Nodup) :
    (Dict.keys (l.filter f)).Nodup :=
  List.Sublist.nodup (List.Sublist.map _ List.filter_sublist) h

/-- The public facts about a class in a hierarchy. -/
structure Facts (magic : N → Bool) (decls : List (Decl N M)) (env : List (Cls N M)) (c : Nat) (k : Cls N M) : Prop where
  good : Good k.tab
  mro : ∀ d, d ∈ k.mro ↔ Ancestor decls c d
  offk : ∀ d, d ∈ Dict.keys k.offsets ↔ Ancestor decls c d ∧ d ≠ c
  offs : ∀ b off base, k.offsets.get? b = some off → env[b]? = some base →
    ∀ n (i : Nat), base.tab.items.get? n = some i → ∃ v, off[i]? = some v ∧ k.tab.items.get? n = some v
  msgs : ∀ n, msgOf k.tab n =
    (declared magic decls c n).or ((Dict.keys k.offsets).reverse.findSome? (msgIn env n))
  order : ∀ bases own, decls[c]? = some (bases, own) → Dict.keys k.offsets = firsts (mros env bases).flatten

theorem ancestor_le {magic reserved : N → Bool} {decls : List (Decl N M)} {env : List (Cls N M)}
    (h : build magic reserved decls = .ok env) {c d : Nat} (ha : Ancestor decls c d) : d ≤ c := by
  induction ha with
  | refl => exact Nat.le_refl _
  | @step c b d bases own hc hb _ ih =>
    obtain ⟨k, hk, hn⟩ := (build_spec h).2 c _ hc
    have : b < c := by
      unfold newClass at hn
      split at hn
      · exact absurd hn (by simp)
      · rename_i hh
        simp only [List.any_eq_true, decide_eq_true_eq, not_exists, not_and, Nat.not_le] at hh
        have := hh b hb
        rw [List.length_take] at this
        omega
    omega

theorem facts {magic reserved : N → Bool} {decls : List (Decl N M)} {env : List (Cls N M)}
    (h : build magic reserved decls = .ok env) : ∀ (c : Nat) (k : Cls N M), env[c]? = some k →
    Facts magic decls env c k := by
  intro c
  induction c using Nat.strongRecOn with
  | ind c ih =>
    intro k hk
    obtain ⟨hlen, hall⟩ := build_spec h
    have hcl : c < decls.length := by
      rw [← hlen]; exact (List.getElem?_eq_some_iff.1 hk).1
    obtain ⟨k', hk', hn⟩ := hall c _ (List.getElem?_eq_getElem hcl)
    rw [hk] at hk'; cases hk'
    generalize hd : decls[c] = dc at hn
    obtain ⟨bases, own⟩ := dc
    have hdc : decls[c]? = some (bases, own) := by rw [List.getElem?_eq_getElem hcl, hd]
    have htl : (env.take c).length = c := by rw [List.length_take]; omega
    unfold newClass at hn
    simp only [htl] at hn
    split at hn
    · exact absurd hn (by simp)
    rename_i hbs
    have hbs : ∀ b ∈ bases, b < c := by
      simp only [List.any_eq_true, decide_eq_true_eq, not_exists, not_and, Nat.not_le] at hbs
      exact hbs
    split at hn
    · exact absurd hn (by simp)
    split at hn
    · exact absurd hn (by simp)
    rename_i rest hrest
    have hmros : mros (env.take c) bases = mros env bases := by
      unfold mros
      apply List.map_congr_left
      intro b hb
      rw [List.getElem?_take_of_lt (hbs b hb)]
    have hget : ∀ b ∈ bases, ∃ kb, env[b]? = some kb := by
      intro b hb
      have : b < env.length := by have := hbs b hb; omega
      exact ⟨env[b], List.getElem?_eq_getElem this⟩
    have hmem : ∀ d, d ∈ (mros env bases).flatten ↔ ∃ b ∈ bases, Ancestor decls b d := by
      intro d
      simp only [mros, List.mem_flatten, List.mem_map]
      constructor
      · rintro ⟨l, ⟨b, hb, rfl⟩, hdl⟩
        obtain ⟨kb, hkb⟩ := hget b hb
        simp only [hkb] at hdl
        exact ⟨b, hb, ((ih b (hbs b hb) kb hkb).mro d).1 hdl⟩
      · rintro ⟨b, hb, ha⟩
        obtain ⟨kb, hkb⟩ := hget b hb
        refine ⟨_, ⟨b, hb, rfl⟩, ?_⟩
        simp only [hkb]
        exact ((ih b (hbs b hb) kb hkb).mro d).2 ha
    have hanc : ∀ d, Ancestor decls c d ↔ d = c ∨ ∃ b ∈ bases, Ancestor decls b d := by
      intro d
      constructor
      · intro ha
        cases ha with
        | refl => exact .inl rfl
        | step hc hb ha =>
          rw [hdc] at hc; cases hc
          exact .inr ⟨_, hb, ha⟩
      · rintro (rfl | ⟨b, hb, ha⟩)
        · exact .refl _
        · exact .step hdc hb ha
    have hlt : ∀ b ∈ bases, ∀ d, Ancestor decls b d → d < c := by
      intro b hb d ha
      have := ancestor_le h ha
      have := hbs b hb
      omega
    have hgood : ∀ b ∈ (mros (env.take c) bases).flatten, ∃ base, (env.take c)[b]? = some base ∧ Good base.tab := by
      intro d hdm
      rw [hmros, hmem] at hdm
      obtain ⟨b, hb, ha⟩ := hdm
      have hdc := hlt b hb d ha
      have : d < env.length := by omega
      refine ⟨env[d], ?_, (ih d hdc _ (List.getElem?_eq_getElem this)).good⟩
      rw [List.getElem?_take_of_lt hdc, List.getElem?_eq_getElem this]
    have hinit : Built (env.take c) [] ((⟨[], []⟩, []) : Building N M) :=
      ⟨good_nil, rfl, fun n => rfl, by intro b off base hh; simp [Dict.get?] at hh⟩
    obtain ⟨s, hs, hB⟩ := addBases_spec (env := env.take c) _ hinit hgood
    rw [hs] at hn
    simp only [Except.ok.injEq] at hn
    rw [addAll_nil, hmros] at hB
    obtain ⟨g, mono, ms⟩ := addOwn_spec hB.good ((Dict.ofList own).filter (fun p => !magic p.1))
      (nodup_filter _ _ (Dict.nodup_ofList own))
    have hdecl : ∀ n, Dict.get? ((Dict.ofList own).filter (fun p => !magic p.1)) n = declared magic decls c n := by
      intro n
      rw [get?_filter_key _ (fun n => !magic n), get?_ofList]
      unfold declared
      rw [hdc]
      cases magic n <;> simp
    have hoffk : ∀ d, d ∈ Dict.keys s.2 ↔ Ancestor decls c d ∧ d ≠ c := by
      intro d
      rw [hB.keys, mem_firsts, hmem, hanc]
      constructor
      · rintro ⟨b, hb, ha⟩
        exact ⟨.inr ⟨b, hb, ha⟩, Nat.ne_of_lt (hlt b hb d ha)⟩
      · rintro ⟨h1 | h1, h2⟩
        · exact absurd h1 h2
        · exact h1
    have hcong : ∀ n, (Dict.keys s.2).reverse.findSome? (msgIn (env.take c) n) =
        (Dict.keys s.2).reverse.findSome? (msgIn env n) := by
      intro n
      have : ∀ l : List Nat, (∀ d ∈ l, d < c) → l.findSome? (msgIn (env.take c) n) = l.findSome? (msgIn env n) := by
        intro l hl
        induction l with
        | nil => rfl
        | cons a l ihl =>
          rw [List.findSome?_cons, List.findSome?_cons, ihl (fun d hd => hl d (List.mem_cons_of_mem _ hd))]
          simp only [msgIn, List.getElem?_take_of_lt (hl a (by simp))]
      apply this
      intro d hd
      rw [List.mem_reverse, hoffk] at hd
      have := ancestor_le h hd.1
      have := hd.2
      omega
    subst hn
    refine ⟨g, ?_, hoffk, ?_, ?_, ?_⟩
    · intro d
      rw [List.mem_cons, hanc, c3_mem _ _ _ hrest, hmros]
      constructor
      · rintro (rfl | ⟨q, hq, hdq⟩)
        · exact .inl rfl
        · rw [List.mem_append] at hq
          rcases hq with hq | hq
          · exact .inr ((hmem d).1 (List.mem_flatten.2 ⟨q, hq, hdq⟩))
          · simp at hq; subst hq
            exact .inr ⟨d, hdq, .refl d⟩
      · rintro (rfl | hh)
        · exact .inl rfl
        · right
          have := (hmem d).2 hh
          rw [List.mem_flatten] at this
          obtain ⟨q, hq, hdq⟩ := this
          exact ⟨q, List.mem_append_left _ hq, hdq⟩
    · intro b off base hoff hb n i hi
      have hbm : b ∈ Dict.keys s.2 := by
        rw [← Dict.get?_isSome_iff]
        simp only at hoff
        simp [hoff]
      rw [hoffk] at hbm
      have hbc : b < c := by have := ancestor_le h hbm.1; have := hbm.2; omega
      obtain ⟨v, hv, hv'⟩ := hB.offs b off base hoff (by rw [List.getElem?_take_of_lt hbc]; exact hb) n i hi
      exact ⟨v, hv, mono n v hv'⟩
    · intro n
      rw [ms n, hdecl, hB.msgs n, ← hB.keys, hcong]
    · intro bases' own' h'
      rw [hdc] at h'; cases h'
      exact hB.keys

end Enum
end Verif
