import Verif.Module.Single

/-! # C34 for abstract methods: `__abstractmethods__` holds the names whose lookup gives an abstract object -/

namespace Verif.Module

open Enum (c3 nextHead dropHead)

variable {N : Type} [DecidableEq N] {magic abstractName : N → Bool}

theorem nextHead_spec {ls : List (List Nat)} {x : Nat} (h : nextHead ls = some x) : ∀ l ∈ ls, x ∉ l.tail := by
  have := List.find?_some h
  simpa using this

theorem dropHead_sublist (x : Nat) (l : List Nat) : ∃ p, l = p ++ dropHead x l ∧ (p = [] ∨ p = [x]) := by
  unfold dropHead
  split
  · rename_i h
    cases l with
    | nil => simp at h
    | cons a l => simp at h; subst h; exact ⟨[a], rfl, .inr rfl⟩
  · exact ⟨[], rfl, .inl rfl⟩

theorem c3_sublist {fuel : Nat} {ls : List (List Nat)} {l : List Nat} (h : c3 fuel ls = some l) :
    ∀ q ∈ ls, q.Sublist l := by
  induction fuel generalizing ls l with
  | zero =>
    simp only [c3] at h
    split at h
    · rename_i hh
      intro q hq
      simp only [List.all_eq_true, List.isEmpty_iff] at hh
      rw [hh q hq]; exact List.nil_sublist _
    · cases h
  | succ fuel ih =>
    simp only [c3] at h
    split at h
    · rename_i hh
      intro q hq
      simp only [List.all_eq_true, List.isEmpty_iff] at hh
      rw [hh q hq]; exact List.nil_sublist _
    · cases hn : nextHead ls with
      | none => rw [hn] at h; cases h
      | some x =>
        rw [hn] at h
        simp only [Option.map_eq_some_iff] at h
        obtain ⟨l', hl', rfl⟩ := h
        intro q hq
        have := ih hl' (dropHead x q) (List.mem_map.2 ⟨q, hq, rfl⟩)
        obtain ⟨p, hp, h | h⟩ := dropHead_sublist x q
        · rw [hp, h]; exact this.cons x
        · rw [hp, h]; exact this.cons_cons x

theorem c3_nodup {fuel : Nat} {ls : List (List Nat)} {l : List Nat} (hn : ∀ q ∈ ls, q.Nodup) (h : c3 fuel ls = some l) :
    l.Nodup := by
  induction fuel generalizing ls l with
  | zero =>
    simp only [c3] at h
    split at h
    · cases h; exact List.nodup_nil
    · cases h
  | succ fuel ih =>
    simp only [c3] at h
    split at h
    · cases h; exact List.nodup_nil
    · cases hx : nextHead ls with
      | none => rw [hx] at h; cases h
      | some x =>
        rw [hx] at h
        simp only [Option.map_eq_some_iff] at h
        obtain ⟨l', hl', rfl⟩ := h
        rw [List.nodup_cons]
        constructor
        · rw [Enum.c3_mem _ _ _ hl']
          rintro ⟨q', hq', hxq⟩
          obtain ⟨q, hq, rfl⟩ := List.mem_map.1 hq'
          have hsp := nextHead_spec hx q hq
          unfold dropHead at hxq
          split at hxq
          · exact hsp hxq
          · rename_i hh
            cases q with
            | nil => simp at hxq
            | cons a q =>
              simp only [List.mem_cons] at hxq
              rcases hxq with rfl | hxq
              · simp at hh
              · exact hsp hxq
        · refine ih ?_ hl'
          intro q' hq'
          obtain ⟨q, hq, rfl⟩ := List.mem_map.1 hq'
          obtain ⟨p, hp, -⟩ := dropHead_sublist x q
          have := hn q hq
          rw [hp] at this
          exact (List.nodup_append.1 this).2.1

/-- Method resolution orders have no repetitions if lists of bases have none, which Python checks. -/
theorem mro_nodup {w : World N} (h : Built magic abstractName w) (hb : ∀ c ∈ w, c.bases.Nodup) {i : Nat} {c : Cls N}
    (hi : w[i]? = some c) : c.mro.Nodup := by
  induction h generalizing i c with
  | root name =>
    cases i with
    | zero => simp at hi; subst hi; simp [moduleCls]
    | succ i => simp at hi
  | @step w d c' hw hd hc ih =>
    have hb' : ∀ c ∈ w, c.bases.Nodup := fun c hc => hb c (by simp [hc])
    rcases built_append hi with ⟨hlt, hi'⟩ | ⟨rfl, rfl⟩
    · exact ih hb' hi'
    · obtain ⟨rest, h1, h2, h3, -, h4⟩ := newClass_mro hc
      rw [h1, List.nodup_cons]
      constructor
      · intro hm
        rw [Enum.c3_mem _ _ _ h4] at hm
        obtain ⟨q, hq, hjq⟩ := hm
        rw [List.mem_append] at hq
        rcases hq with hq | hq
        · obtain ⟨b, hbm, rfl⟩ := List.mem_map.1 hq
          have := mroOf_le hw _ hjq
          have := h3 b hbm
          omega
        · simp at hq; subst hq
          have := h3 _ hjq
          omega
      · refine c3_nodup ?_ h4
        intro q hq
        rw [List.mem_append] at hq
        rcases hq with hq | hq
        · obtain ⟨b, hbm, rfl⟩ := List.mem_map.1 hq
          unfold mroOf
          cases hwb : w[b]? with
          | none => simp
          | some cb => exact ih hb' hwb
        · simp at hq; subst hq
          rw [← h2]
          exact hb c (by simp)

theorem built_head {w : World N} (h : Built magic abstractName w) {i : Nat} {c : Cls N} (hi : w[i]? = some c) :
    c.mro.head? = some i := by
  induction h generalizing i c with
  | root name =>
    cases i with
    | zero => simp at hi; subst hi; simp [moduleCls]
    | succ i => simp at hi
  | @step w d c' hw hd hc ih =>
    rcases built_append hi with ⟨hlt, hi'⟩ | ⟨rfl, rfl⟩
    · exact ih hi'
    · obtain ⟨rest, h1, -⟩ := newClass_mro hc
      rw [h1]; rfl

/-- The class found by a lookup is in the list and binds the name. -/
theorem lookup_mem {w : World N} {l : List Nat} {k : N} {j : Nat} {a : Attr} (h : lookup w l k = some (j, a)) :
    j ∈ l ∧ ∃ c, w[j]? = some c ∧ c.body.dict.get? k = some a := by
  induction l with
  | nil => cases h
  | cons i l ih =>
    simp only [lookup] at h
    split at h
    · obtain ⟨h1, h2⟩ := ih h; exact ⟨List.mem_cons_of_mem _ h1, h2⟩
    · rename_i c hc
      split at h
      · rename_i a' ha'; cases h; exact ⟨by simp, c, hc, ha'⟩
      · obtain ⟨h1, h2⟩ := ih h; exact ⟨List.mem_cons_of_mem _ h1, h2⟩

theorem lookup_isSome {w : World N} {l : List Nat} {k : N} {j : Nat} {c : Cls N} {a : Attr} (hj : j ∈ l)
    (hc : w[j]? = some c) (ha : c.body.dict.get? k = some a) : ∃ r, lookup w l k = some r := by
  induction l with
  | nil => simp at hj
  | cons i l ih =>
    simp only [lookup]
    by_cases hij : i = j
    · subst hij; rw [hc]; simp only [ha]; exact ⟨_, rfl⟩
    · have := ih ((List.mem_cons.1 hj).resolve_left (Ne.symm hij))
      split
      · exact this
      · split
        · exact ⟨_, rfl⟩
        · exact this

/-- A sublist of a list without repetitions that contains the class found finds the same one. -/
theorem lookup_sublist {w : World N} {q l : List Nat} (hs : q.Sublist l) (hn : l.Nodup) {k : N} {j : Nat} {a : Attr}
    (h : lookup w l k = some (j, a)) (hj : j ∈ q) : lookup w q k = some (j, a) := by
  induction hs with
  | slnil => simp at hj
  | @cons q l i hs ih =>
    simp only [List.nodup_cons] at hn
    simp only [lookup] at h
    split at h
    · exact ih hn.2 h hj
    · split at h
      · cases h; exact absurd (hs.subset hj) hn.1
      · exact ih hn.2 h hj
  | @cons_cons q l i hs ih =>
    simp only [List.nodup_cons] at hn
    simp only [lookup] at h ⊢
    have hji : j ∈ l → j ∈ q := by
      intro hjl
      rcases List.mem_cons.1 hj with rfl | hj
      · exact absurd hjl hn.1
      · exact hj
    split at h
    · rename_i hw
      exact ih hn.2 h (hji (lookup_mem h).1)
    · rename_i c hc
      split at h
      · cases h; rfl
      · rename_i hnone
        exact ih hn.2 h (hji (lookup_mem h).1)

/-- A function or another object (a property, say) marked abstract. -/
def Marked (a : Attr) : Prop := a = .func true ∨ a = .other true

theorem isAbstract_iff {a : Attr} : a.isAbstract = true ↔ Marked a := by
  cases a with
  | func b => cases b <;> simp [Attr.isAbstract, Marked]
  | other b => cases b <;> simp [Attr.isAbstract, Marked]
  | field => simp [Attr.isAbstract, Marked]

/-- Classes that are not modules bind no abstract objects (they are no `abc` classes). -/
def PlainConcrete (w : World N) : Prop :=
  ∀ c ∈ w, c.kind ≠ .module → ∀ (k : N) (a : Attr), c.body.dict.get? k = some a → ¬ Marked a

/-- Bodies are dictionaries, and no base is listed twice. -/
def BodiesWF (w : World N) : Prop := ∀ c ∈ w, (Dict.keys c.body.dict).Nodup ∧ c.bases.Nodup

theorem lookNew_eq {w : World N} {c : Cls N} {rest : List Nat} (hm : c.mro = w.length :: rest)
    (hlt : ∀ j ∈ rest, j < w.length) (k : N) : lookNew w c.body.dict rest k = lookup (w ++ [c]) c.mro k := by
  rw [hm]
  simp only [lookNew, lookup]
  rw [List.getElem?_append_right (by omega)]
  simp only [Nat.sub_self, List.getElem?_cons_zero]
  rw [lookup_append hlt]

theorem mem_filter_keys {d : Dict N Attr} (hd : (Dict.keys d).Nodup) {n : N} :
    n ∈ Dict.keys (d.filter fun p => p.2.isAbstract) ↔ ∃ a, d.get? n = some a ∧ a.isAbstract = true := by
  simp only [Dict.keys, List.mem_map, List.mem_filter]
  constructor
  · rintro ⟨⟨m, a⟩, ⟨h1, h2⟩, rfl⟩
    exact ⟨a, Dict.get?_of_mem d hd h1, h2⟩
  · rintro ⟨a, h1, h2⟩
    exact ⟨(n, a), ⟨Dict.mem_of_get? d h1, h2⟩, rfl⟩

theorem abstract_methods_aux {w : World N} (h : Built magic abstractName w) (hp : PlainConcrete w) (hb : BodiesWF w)
    {i : Nat} {c : Cls N} (hi : w[i]? = some c) (hk : c.kind = .module) (n : N) :
    n ∈ c.abstractMethods ↔ ∃ j a, lookup w c.mro n = some (j, a) ∧ a.isAbstract = true := by
  induction h generalizing i c with
  | root name =>
    cases i with
    | zero => simp at hi; subst hi; simp [moduleCls, lookup, Dict.get?]
    | succ i => simp at hi
  | @step w d c' hw hd hc ih =>
    have hp' : PlainConcrete w := fun c hc => hp c (by simp [hc])
    have hb' : BodiesWF w := fun c hc => hb c (by simp [hc])
    rcases built_append hi with ⟨hlt, hi'⟩ | ⟨rfl, rfl⟩
    · rw [lookup_append fun j hj => by have := (built_lt hw hi').2 j hj; omega]
      exact ih hp' hb' hi' hk
    · obtain ⟨rest, h1, h2, h3, h5, h4⟩ := newClass_mro hc
      have hdk : d.kind = .module := by rw [← h5]; exact hk
      obtain ⟨rest', s, body, h4', -, -, hceq, -⟩ := newClass_module hc hdk
      rw [h4] at h4'
      cases h4'
      have hlt : ∀ j ∈ rest, j < w.length := by
        intro j hj
        rw [Enum.c3_mem _ _ _ h4] at hj
        obtain ⟨q, hq, hjq⟩ := hj
        rw [List.mem_append] at hq
        rcases hq with hq | hq
        · obtain ⟨b, hbm, rfl⟩ := List.mem_map.1 hq
          have := mroOf_le hw _ hjq
          have := h3 b hbm
          omega
        · simp at hq; subst hq; exact h3 _ hjq
      have hbody : c.body = body := by rw [hceq]
      have ham : c.abstractMethods = abstractMethods w c.bases c.body.dict (lookup (w ++ [c]) c.mro) := by
        have : lookup (w ++ [c]) c.mro = lookNew w c.body.dict rest := by
          funext k; exact (lookNew_eq h1 hlt k).symm
        rw [this, hbody, h2]
        rw [hceq]
      have hdict := (hb c (by simp)).1
      have hmnd : c.mro.Nodup := mro_nodup (Built.step hw hd hc) (fun c hc => (hb c hc).2) hi
      rw [ham, abstractMethods, List.mem_append, mem_filter_keys hdict, List.mem_filter]
      have hfirst : ∀ a, c.body.dict.get? n = some a → lookup (w ++ [c]) c.mro n = some (w.length, a) := by
        intro a ha
        rw [← lookNew_eq h1 hlt n]
        simp [lookNew, ha]
      constructor
      · rintro (⟨a, ha, hab⟩ | ⟨-, h⟩)
        · exact ⟨_, a, hfirst a ha, hab⟩
        · split at h
          · rename_i j a hl; exact ⟨j, a, hl, h⟩
          · cases h
      · rintro ⟨j, a, hl, hab⟩
        obtain ⟨hj, cj, hcj, haj⟩ := lookup_mem hl
        by_cases hjw : j = w.length
        · left
          subst hjw
          rw [List.getElem?_append_right (by omega)] at hcj
          simp at hcj
          subst hcj
          exact ⟨a, haj, hab⟩
        · right
          refine ⟨?_, by rw [hl]; exact hab⟩
          have hjr : j ∈ rest := by rw [h1] at hj; exact (List.mem_cons.1 hj).resolve_left hjw
          have hjlt := hlt j hjr
          have hcj' : w[j]? = some cj := by rwa [List.getElem?_append_left hjlt] at hcj
          have hjk : cj.kind = .module := by
            by_cases hjk : cj.kind = .module
            · exact hjk
            · have := hp cj (by simp [List.mem_of_getElem? hcj']) hjk n a haj
              exact absurd (isAbstract_iff.1 hab) this
          obtain ⟨b, hbm, hor⟩ := built_ancestor (Built.step hw hd hc) hi (j := j) (by rw [h1]; simp [hjr]) hjw
          have hbm' : b ∈ d.bases := by rw [← h2]; exact hbm
          have hblt := h3 b hbm'
          obtain ⟨cb, hcb⟩ : ∃ cb, w[b]? = some cb := ⟨w[b], List.getElem?_eq_getElem hblt⟩
          have hjb : j ∈ cb.mro := by
            rcases hor with rfl | hor
            · have : cb.mro.head? = some j := by
                clear hl
                exact built_head hw hcb
              cases hm : cb.mro with
              | nil => rw [hm] at this; simp at this
              | cons x l => rw [hm] at this; simp at this; simp [this]
            · rw [mroOf_append hblt, mroOf_some hcb] at hor; exact hor
          have hcbk : cb.kind = .module := by
            by_cases hcbk : cb.kind = .module
            · exact hcbk
            · exact absurd hjk (nonmodule_ancestor hw hcb hcbk hjb hcj')
          have hsub : cb.mro.Sublist c.mro := by
            rw [h1]
            refine (c3_sublist h4 cb.mro ?_).cons _
            rw [List.mem_append]
            exact .inl (List.mem_map.2 ⟨b, hbm', mroOf_some hcb⟩)
          have hlb := lookup_sublist hsub hmnd hl hjb
          rw [lookup_append fun x hx => by have := (built_lt hw hcb).2 x hx; omega] at hlb
          rw [List.mem_flatMap]
          refine ⟨b, hbm, ?_⟩
          rw [hcb]
          exact (ih hp' hb' hcb hcbk).2 ⟨j, a, hlb, hab⟩

/-- **C34**, methods: a name is an abstract method of a class exactly if looking it up on the class finds an object
marked abstract. -/
theorem abstract_methods {w : World N} (h : Built magic abstractName w) (hp : PlainConcrete w) (hb : BodiesWF w)
    {i : Nat} {c : Cls N} (hi : w[i]? = some c) (hk : c.kind = .module) (n : N) :
    n ∈ c.abstractMethods ↔ ∃ j a, lookup w c.mro n = some (j, a) ∧ Marked a := by
  simp only [abstract_methods_aux h hp hb hi hk, isAbstract_iff]

/-- **C34**, everything together: a class can be instantiated exactly if it is not marked as abstract, every abstract
attribute is provided, and every name that is found on the class is found not to be abstract. -/
theorem instantiable_iff {β : Type} {w : World N} {d : ClassDef N} {c : Cls N} (x : β)
    (hw : Built magic abstractName w) (hp : PlainConcrete w) (hb : BodiesWF (w ++ [c])) (hd : d.body.WF)
    (hk : d.kind = .module) (h : newClass magic abstractName w d = .ok c) :
    instantiate c (.ok x) = .ok x ↔ c.forceAbstract = false ∧ AllProvided (d.body :: c.mro.tail.map (layerOf w)) ∧
      ∀ n j a, lookup (w ++ [c]) c.mro n = some (j, a) → ¬ Marked a := by
  obtain ⟨rest, h1, h2, h3, h5, h4⟩ := newClass_mro h
  have hck : c.kind = .module := by rw [h5, hk]
  have hpc : PlainConcrete (w ++ [c]) := by
    intro c' hc' hk'
    rw [List.mem_append] at hc'
    rcases hc' with hc' | hc'
    · exact hp c' hc' hk'
    · simp at hc'; subst hc'; exact absurd hck hk'
  have hm := abstract_methods (Built.step hw hd h) hpc hb (i := w.length) (c := c)
    (by rw [List.getElem?_append_right (by omega)]; simp) hck
  rw [← abstract_attributes hw hd hk h, instantiate_iff]
  simp only [Cls.isAbstract, Bool.or_eq_false_iff, decide_eq_false_iff_not, Nat.not_lt, Nat.le_zero,
    List.length_eq_zero_iff, and_true]
  have hmeth : c.abstractMethods = [] ↔
      ∀ n j a, lookup (w ++ [c]) c.mro n = some (j, a) → ¬ Marked a := by
    constructor
    · intro he n j a hl hab
      have := (hm n).2 ⟨j, a, hl, hab⟩
      rw [he] at this; simp at this
    · intro ha
      rw [List.eq_nil_iff_forall_not_mem]
      intro n hn
      obtain ⟨j, a, hl, hab⟩ := (hm n).1 hn
      exact ha n j a hl hab
  rw [← hmeth]
  constructor
  · rintro ⟨⟨⟨h1, h2⟩, h3⟩, h4⟩; exact ⟨h1, ⟨h3, h4⟩, h2⟩
  · rintro ⟨h1, ⟨h3, h4⟩, h2⟩; exact ⟨⟨⟨h1, h2⟩, h3⟩, h4⟩

/-- The hypotheses can be met: of the four classes of `Ex.good` the two in the middle have abstract methods or attributes,
the last one none. -/
example : Built Ex.mag Ex.absName (Ex.world Ex.good) ∧ PlainConcrete (Ex.world Ex.good) ∧ BodiesWF (Ex.world Ex.good) ∧
    (Ex.world Ex.good).map Cls.abstractMethods = [[], [1, 2], [2], []] ∧
    (Ex.world Ex.good).map Cls.abstractVars = [[], [5], [5], []] := by
  refine ⟨built_of_build (name := 30) (ds := Ex.good) ?_ rfl, ?_, ?_, rfl, rfl⟩
  · simp [Ex.good, Ex.cls, Layer.WF, Dict.keys]
  · have : ∀ c ∈ Ex.world Ex.good, c.kind = .module := by decide
    intro c hc hk
    exact absurd (this c hc) hk
  · unfold BodiesWF
    decide

end Verif.Module
