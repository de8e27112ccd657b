import Verif.Module.Abstract
import Verif.Enum.Lemmas

/-! # C33: strict modules; C34 for classes created by class statements -/

namespace Verif.Module

open Enum (c3)

variable {N : Type} [DecidableEq N] {magic abstractName : N → Bool}

/-! ### What a class statement produces -/

theorem newClass_module {w : World N} {d : ClassDef N} {c : Cls N} (h : newClass magic abstractName w d = .ok c)
    (hk : d.kind = .module) :
    ∃ (rest : List Nat) (s : Abs N) (body : Layer N),
      c3 ((d.bases.map (mroOf w) ++ [d.bases]).flatten.length) (d.bases.map (mroOf w) ++ [d.bases]) = some rest ∧
      abstractScan (d.body :: rest.map (layerOf w)) = .ok s ∧ dataclassBody d.body = .ok body ∧
      c = ⟨.module, d.name, d.bases, w.length :: rest, body,
            abstractMethods w d.bases body.dict (lookNew w body.dict rest), s.1, s.2,
            collectFields w rest d.body.ann, d.customInit, dataclassInit w d.customInit rest,
            (d.strict.getD {}).forceAbstract, d.strict.isSome⟩ ∧
      (∀ b ∈ d.bases, b < w.length) ∧
      ∀ cfg, d.strict = some cfg → checkStrict magic abstractName w cfg c = .ok () := by
  simp only [newClass] at h
  split at h
  · cases h
  · rename_i hb
    have hb' : ∀ b ∈ d.bases, b < w.length := by
      intro b hm
      simp only [List.any_eq_true, decide_eq_true_eq, not_exists, not_and, Nat.not_le] at hb
      exact hb b hm
    split at h
    · cases h
    rename_i hbm
    split at h
    · cases h
    · rename_i rest hrest
      rw [if_neg (by simp [hk])] at h
      simp only [bind, Except.bind, pure, Except.pure] at h
      split at h
      · cases h
      · rename_i s hs
        split at h
        · cases h
        · rename_i body hbody
          refine ⟨rest, s, body, hrest, hs, hbody, ?_⟩
          cases hst : d.strict with
          | none =>
            rw [hst] at h
            simp only at h
            cases h
            exact ⟨rfl, hb', fun cfg h => nomatch h⟩
          | some cfg =>
            rw [hst] at h
            simp only at h
            split at h
            · cases h
            · rename_i hc
              cases h
              exact ⟨rfl, hb', fun cfg' h => by cases h; exact hc⟩

theorem newClass_kind {w : World N} {d : ClassDef N} {c : Cls N} (h : newClass magic abstractName w d = .ok c) :
    d.kind = .module ↔ ∃ b ∈ d.bases, ∃ cb, w[b]? = some cb ∧ cb.kind = .module := by
  simp only [newClass] at h
  split at h
  · cases h
  · split at h
    · cases h
    · rename_i hbm
      simp only [ne_eq, Classical.not_not] at hbm
      rw [← decide_eq_true_iff (p := d.kind = .module), ← hbm, hasModuleBase, List.any_eq_true]
      constructor
      · rintro ⟨b, hb, h⟩
        refine ⟨b, hb, ?_⟩
        split at h
        · rename_i cb hcb; exact ⟨cb, hcb, by simpa using h⟩
        · cases h
      · rintro ⟨b, hb, cb, hcb, h⟩
        exact ⟨b, hb, by rw [hcb]; simpa using h⟩

theorem newClass_other {w : World N} {d : ClassDef N} {c : Cls N} (h : newClass magic abstractName w d = .ok c)
    (hk : d.kind ≠ .module) :
    ∃ rest : List Nat,
      c3 ((d.bases.map (mroOf w) ++ [d.bases]).flatten.length) (d.bases.map (mroOf w) ++ [d.bases]) = some rest ∧
      (∀ b ∈ d.bases, b < w.length) ∧
      c = ⟨d.kind, d.name, d.bases, w.length :: rest, d.body, [], [], [], [], d.customInit, false, false, false⟩ := by
  simp only [newClass] at h
  split at h
  · cases h
  · rename_i hb
    have hb' : ∀ b ∈ d.bases, b < w.length := by
      intro b hm
      simp only [List.any_eq_true, decide_eq_true_eq, not_exists, not_and, Nat.not_le] at hb
      exact hb b hm
    split at h
    · cases h
    rename_i hbm
    split at h
    · cases h
    · rename_i rest hrest
      cases h
      exact ⟨rest, hrest, hb', rfl⟩

omit [DecidableEq N] in
theorem dataclassBody_ann [DecidableEq N] {l b : Layer N} (h : dataclassBody l = .ok b) :
    b.ann = l.ann ∧ b.dict = l.dict.filter (fun p => p.2 ≠ .field) := by
  simp only [dataclassBody] at h
  split at h
  · cases h
  · cases h; exact ⟨rfl, rfl⟩

/-- The class tables that class statements lead to. -/
inductive Built (magic abstractName : N → Bool) : World N → Prop where
  | root (name : N) : Built magic abstractName [moduleCls name]
  | step {w : World N} {d : ClassDef N} {c : Cls N} : Built magic abstractName w → d.body.WF →
      newClass magic abstractName w d = .ok c → Built magic abstractName (w ++ [c])

theorem built_of_build {name : N} {ds : List (ClassDef N)} (hd : ∀ d ∈ ds, d.body.WF) {w : World N}
    (h : build magic abstractName [moduleCls name] ds = .ok w) : Built magic abstractName w := by
  suffices ∀ (w₀ w : World N) (ds : List (ClassDef N)), (∀ d ∈ ds, d.body.WF) → Built magic abstractName w₀ →
      build magic abstractName w₀ ds = .ok w → Built magic abstractName w from
    this _ _ _ hd (.root name) h
  intro w₀ w ds
  induction ds generalizing w₀ with
  | nil => intro _ h₀ h; simp only [build] at h; cases h; exact h₀
  | cons d ds ih =>
    intro hd h₀ h
    simp only [build, bind, Except.bind] at h
    split at h
    · cases h
    · rename_i c hc
      exact ih _ (fun x hx => hd x (List.mem_cons_of_mem _ hx)) (.step h₀ (hd d (by simp)) hc) h

theorem built_wf {w : World N} (h : Built magic abstractName w) : ∀ c ∈ w, c.body.WF := by
  induction h with
  | root name => intro c hc; simp at hc; subst hc; simp [moduleCls, Layer.WF, Dict.keys]
  | @step w d c hw hd hc ih =>
    intro x hx
    rw [List.mem_append] at hx
    rcases hx with hx | hx
    · exact ih x hx
    · simp at hx
      subst hx
      by_cases hk : d.kind = .module
      · obtain ⟨rest, s, body, -, -, hb, rfl, -⟩ := newClass_module hc hk
        unfold Layer.WF at *
        rw [(dataclassBody_ann hb).1]; exact hd
      · obtain ⟨rest, -, -, rfl⟩ := newClass_other hc hk
        exact hd

theorem layerOf_wf {w : World N} (h : ∀ c ∈ w, c.body.WF) (i : Nat) : (layerOf w i).WF := by
  unfold layerOf
  cases hi : w[i]? with
  | none => simp [Layer.WF, Dict.keys]
  | some c => exact h c (List.mem_of_getElem? hi)

/-! ### C34 -/

/-- **C34**: the abstract attributes of a new class are all provided exactly if each `AbstractVar` and
`AbstractClassVar` declared along the method resolution order (the class itself first) is provided by an earlier class. -/
theorem abstract_attributes {w : World N} {d : ClassDef N} {c : Cls N} (hw : Built magic abstractName w)
    (hd : d.body.WF) (hk : d.kind = .module) (h : newClass magic abstractName w d = .ok c) :
    (c.abstractVars = [] ∧ c.abstractClassVars = []) ↔ AllProvided (d.body :: c.mro.tail.map (layerOf w)) := by
  obtain ⟨rest, s, body, -, hs, -, rfl, -⟩ := newClass_module h hk
  dsimp only [List.tail_cons]
  have hwf : ∀ l ∈ d.body :: rest.map (layerOf w), l.WF := by
    intro l hl
    rw [List.mem_cons] at hl
    rcases hl with rfl | hl
    · exact hd
    · obtain ⟨i, _, rfl⟩ := List.mem_map.1 hl
      exact layerOf_wf (built_wf hw) i
  have hn := abstractScan_ok hwf hs
  constructor
  · rintro ⟨h1, h2⟩ p l n hp
    exact (hn n).2.1 ⟨by simp [h1], by simp [h2]⟩ p l hp
  · intro ha
    have : ∀ n, n ∉ s.1 ∧ n ∉ s.2 := fun n => (hn n).2.2 fun p l hp => ha p l n hp
    exact ⟨List.eq_nil_iff_forall_not_mem.2 fun n => (this n).1, List.eq_nil_iff_forall_not_mem.2 fun n => (this n).2⟩

omit [DecidableEq N] in
/-- Calling a class gives an instance exactly if it is not abstract and initialisation succeeds. -/
theorem instantiate_iff {β : Type} {c : Cls N} {init : Except Err β} {x : β} :
    instantiate c init = .ok x ↔ c.isAbstract = false ∧ init = .ok x := by
  simp only [instantiate, Cls.isAbstract]
  cases c.forceAbstract with
  | true => simp
  | false =>
    by_cases h1 : c.abstractClassVars.length > 0
    · simp [h1]
    · by_cases h2 : c.abstractMethods.length > 0
      · simp [h1, h2]
      · by_cases h3 : c.abstractVars.length > 0
        · cases init <;> simp [h1, h2, h3, bind, Except.bind]
        · cases init <;> simp [h1, h2, h3, bind, Except.bind, pure, Except.pure]

omit [DecidableEq N] in
/-- Abstract classes raise `TypeError`, unless `__init__` raised something before. -/
theorem instantiate_abstract {β : Type} {c : Cls N} {x : β} (h : c.isAbstract = true) :
    instantiate c (.ok x) = .error .typeError := by
  simp only [Cls.isAbstract] at h
  simp only [instantiate]
  cases hf : c.forceAbstract with
  | true => rfl
  | false =>
    by_cases h1 : c.abstractClassVars.length > 0
    · simp [h1]
    · by_cases h2 : c.abstractMethods.length > 0
      · simp [h1, h2]
      · by_cases h3 : c.abstractVars.length > 0
        · simp [h1, h2, h3, bind, Except.bind]
        · simp [hf, h1, h2, h3] at h

/-- **C34**: an instance of a class exists only if all abstract attributes are provided ... -/
theorem instance_provided {β : Type} {w : World N} {d : ClassDef N} {c : Cls N} {init : Except Err β} {x : β}
    (hw : Built magic abstractName w) (hd : d.body.WF) (hk : d.kind = .module)
    (h : newClass magic abstractName w d = .ok c) (hi : instantiate c init = .ok x) :
    AllProvided (d.body :: c.mro.tail.map (layerOf w)) := by
  rw [← abstract_attributes hw hd hk h]
  have := (instantiate_iff.1 hi).1
  simp only [Cls.isAbstract, Bool.or_eq_false_iff, decide_eq_false_iff_not, Nat.not_lt, Nat.le_zero,
    List.length_eq_zero_iff] at this
  exact ⟨this.1.2, this.2⟩

/-- ... and otherwise calling the class raises `TypeError`. -/
theorem missing_attribute_raises {β : Type} {w : World N} {d : ClassDef N} {c : Cls N} {x : β}
    (hw : Built magic abstractName w) (hd : d.body.WF) (hk : d.kind = .module)
    (h : newClass magic abstractName w d = .ok c) (ha : ¬ AllProvided (d.body :: c.mro.tail.map (layerOf w))) :
    instantiate c (.ok x) = .error .typeError := by
  apply instantiate_abstract
  rw [← abstract_attributes hw hd hk h] at ha
  cases hc : c.isAbstract with
  | true => rfl
  | false =>
    exfalso
    apply ha
    simp only [Cls.isAbstract, Bool.or_eq_false_iff, decide_eq_false_iff_not, Nat.not_lt, Nat.le_zero,
      List.length_eq_zero_iff] at hc
    exact ⟨hc.1.2, hc.2⟩

/-- **C34**: a class without abstract methods, not marked as abstract, that provides everything can be instantiated. -/
theorem provided_instance {β : Type} {w : World N} {d : ClassDef N} {c : Cls N} {x : β}
    (hw : Built magic abstractName w) (hd : d.body.WF) (hk : d.kind = .module)
    (h : newClass magic abstractName w d = .ok c) (ha : AllProvided (d.body :: c.mro.tail.map (layerOf w)))
    (hf : c.forceAbstract = false) (hm : c.abstractMethods = []) : instantiate c (.ok x) = .ok x := by
  rw [← abstract_attributes hw hd hk h] at ha
  rw [instantiate_iff]
  simp [Cls.isAbstract, hf, hm, ha.1, ha.2]

/-- **C34**: a class that gives a value to an attribute it declares abstract is refused. -/
theorem abstract_with_value {w : World N} {d : ClassDef N} (hd : d.body.WF) (hk : d.kind = .module) {n : N}
    (ha : d.body.DeclaresVar n ∨ d.body.DeclaresClassVar n) (hv : n ∈ d.body.dict.keys) (c : Cls N) :
    newClass magic abstractName w d ≠ .ok c := by
  intro h
  obtain ⟨rest, s, body, -, hs, -⟩ := newClass_module h hk
  obtain ⟨t, -, ht⟩ := abstractScan_cons hs
  exact (layerStep_ok hd ht n).2.2 ha (.inl (.inl hv))

/-! ### C33 -/

theorem allOk_iff {l : List (Except Err Unit)} : allOk l = .ok () ↔ ∀ e ∈ l, e = .ok () := by
  induction l with
  | nil => simp [allOk]
  | cons e l ih =>
    cases e with
    | error e => simp [allOk]
    | ok u => simp [allOk, ih]

/-- A hierarchy of strict modules with the default configuration; `typing.Generic` and the like may be mixed in. -/
inductive StrictBuilt (magic abstractName : N → Bool) : World N → Prop where
  | root (name : N) : StrictBuilt magic abstractName [moduleCls name]
  | step {w : World N} {d : ClassDef N} {c : Cls N} : StrictBuilt magic abstractName w → d.body.WF →
      (d.kind = .module ∧ d.strict = some {}) ∨ (d.kind = .special ∧ d.body.dict = []) →
      newClass magic abstractName w d = .ok c → StrictBuilt magic abstractName (w ++ [c])

theorem StrictBuilt.built {w : World N} (h : StrictBuilt magic abstractName w) : Built magic abstractName w := by
  induction h with
  | root name => exact .root name
  | step _ hd _ hc ih => exact .step ih hd hc

theorem built_length {w : World N} (h : Built magic abstractName w) : 0 < w.length := by
  induction h with
  | root => simp
  | step => simp

theorem newClass_mro {w : World N} {d : ClassDef N} {c : Cls N} (h : newClass magic abstractName w d = .ok c) :
    ∃ rest, c.mro = w.length :: rest ∧ c.bases = d.bases ∧ (∀ b ∈ d.bases, b < w.length) ∧ c.kind = d.kind ∧
      c3 ((d.bases.map (mroOf w) ++ [d.bases]).flatten.length) (d.bases.map (mroOf w) ++ [d.bases]) = some rest := by
  by_cases hk : d.kind = .module
  · obtain ⟨rest, s, body, h1, -, -, rfl, h2, -⟩ := newClass_module h hk
    exact ⟨rest, rfl, rfl, h2, hk.symm, h1⟩
  · obtain ⟨rest, h1, h2, rfl⟩ := newClass_other h hk
    exact ⟨rest, rfl, rfl, h2, rfl, h1⟩

/-- Bases and the method resolution order consist of classes created before. -/
theorem built_lt {w : World N} (h : Built magic abstractName w) {i : Nat} {c : Cls N} (hi : w[i]? = some c) :
    (∀ b ∈ c.bases, b < i) ∧ ∀ j ∈ c.mro, j ≤ i := by
  induction h generalizing i c with
  | root name =>
    cases i with
    | zero => simp at hi; subst hi; simp [moduleCls]
    | succ i => simp at hi
  | @step w d c' hw hd hc ih =>
    obtain ⟨rest, h1, h2, h3, -, h4⟩ := newClass_mro hc
    by_cases hlt : i < w.length
    · rw [List.getElem?_append_left hlt] at hi
      exact ih hi
    · rw [List.getElem?_append_right (by omega)] at hi
      have hi0 : i - w.length = 0 := by
        cases hx : i - w.length with
        | zero => rfl
        | succ k => rw [hx] at hi; simp at hi
      rw [hi0] at hi
      simp at hi
      subst hi
      have hiw : i = w.length := by omega
      subst hiw
      refine ⟨by rw [h2]; exact h3, ?_⟩
      intro j hj
      rw [h1, List.mem_cons] at hj
      rcases hj with rfl | hj
      · omega
      · rw [Enum.c3_mem _ _ _ h4] at hj
        obtain ⟨q, hq, hjq⟩ := hj
        rw [List.mem_append] at hq
        rcases hq with hq | hq
        · obtain ⟨b, hb, rfl⟩ := List.mem_map.1 hq
          unfold mroOf at hjq
          cases hwb : w[b]? with
          | none => rw [hwb] at hjq; simp at hjq
          | some cb =>
            rw [hwb] at hjq
            have := (ih hwb).2 j hjq
            have := h3 b hb
            omega
        · simp at hq
          subst hq
          have := h3 j hjq
          omega

theorem lookup_append {w : World N} {c : Cls N} {m : List Nat} (h : ∀ j ∈ m, j < w.length) (k : N) :
    lookup (w ++ [c]) m k = lookup w m k := by
  induction m with
  | nil => rfl
  | cons j m ih =>
    have hj : j < w.length := h j (by simp)
    simp only [lookup, List.getElem?_append_left hj, ih fun x hx => h x (List.mem_cons_of_mem _ hx)]

theorem mroOf_append {w : World N} {c : Cls N} {b : Nat} (h : b < w.length) : mroOf (w ++ [c]) b = mroOf w b := by
  simp only [mroOf, List.getElem?_append_left h]

theorem mroOf_le {w : World N} (h : Built magic abstractName w) {b : Nat} : ∀ j ∈ mroOf w b, j ≤ b := by
  intro j hj
  unfold mroOf at hj
  cases hwb : w[b]? with
  | none => rw [hwb] at hj; simp at hj
  | some cb => rw [hwb] at hj; exact (built_lt h hwb).2 j hj

/-- What the checks have established for a class of a strict hierarchy. -/
theorem strict_checked {w : World N} (h : StrictBuilt magic abstractName w) {i : Nat} {c : Cls N}
    (hi : w[i]? = some c) (h0 : i ≠ 0) (hk : c.kind = .module) :
    (∀ b ∈ c.bases, ∀ base, w[b]? = some base → b ≠ 0 → base.kind ≠ .special → base.isStrict = true ∧
        base.isAbstract = true ∧
        (numFields base.fields > 0 ∨ base.dataclassInit = false →
          numFields c.fields = numFields base.fields ∧ c.customInit = false)) ∧
    (abstractName c.name = true ↔ c.isAbstract = true) ∧
    (∀ k, c.body.dict.get? k = some (.func false) → magic k = false → ∀ b ∈ c.bases, ∀ j a,
        lookup w (mroOf w b) k = some (j, a) → a = .func true) := by
  induction h generalizing i c with
  | root name =>
    cases i with
    | zero => exact absurd rfl h0
    | succ i => simp at hi
  | @step w d c' hw hd hkind hc ih =>
    have hbw := hw.built
    obtain ⟨rest, h1, h2, h3, h5, h4⟩ := newClass_mro hc
    by_cases hlt : i < w.length
    · rw [List.getElem?_append_left hlt] at hi
      obtain ⟨ih1, ih2, ih3⟩ := ih hi h0 hk
      refine ⟨?_, ih2, ?_⟩
      · intro b hb base hbase
        have : b < w.length := by have := (built_lt hbw hi).1 b hb; omega
        rw [List.getElem?_append_left this] at hbase
        exact ih1 b hb base hbase
      · intro k hk' hm b hb j a hl
        have hb' : b < w.length := by have := (built_lt hbw hi).1 b hb; omega
        rw [mroOf_append hb', lookup_append (fun j hj => by have := mroOf_le hbw j hj; omega)] at hl
        exact ih3 k hk' hm b hb j a hl
    · rw [List.getElem?_append_right (by omega)] at hi
      have hi0 : i - w.length = 0 := by
        cases hx : i - w.length with
        | zero => rfl
        | succ k => rw [hx] at hi; simp at hi
      rw [hi0] at hi
      simp at hi
      subst hi
      have hdk : d.kind = .module ∧ d.strict = some {} := by
        rcases hkind with h | h
        · exact h
        · rw [hk, h.1] at h5; cases h5
      obtain ⟨rest', s, body, -, -, -, hceq, -, hchk⟩ := newClass_module hc hdk.1
      have hs := hchk _ hdk.2
      simp only [checkStrict, bind, Except.bind] at hs
      split at hs
      · cases hs
      · rename_i u hu
        split at hs
        · cases hs
        · rename_i u' hu'
          refine ⟨?_, ?_, ?_⟩
          · intro b hb base hbase hb0 hbs
            have hlt' := h3 b (by rw [← h2]; exact hb)
            rw [List.getElem?_append_left hlt'] at hbase
            have := allOk_iff.1 hu _ (List.mem_map.2 ⟨b, hb, rfl⟩)
            simp only [checkBase, if_neg hb0, hbase, if_neg hbs] at this
            split at this
            · cases this
            · split at this
              · cases this
              · rename_i hst
                split at this
                · cases this
                · rename_i hab
                  refine ⟨by simpa using hst, by simpa using hab, ?_⟩
                  intro hf
                  rw [if_pos (by simpa using hf)] at this
                  split at this
                  · cases this
                  · rename_i hnf
                    split at this
                    · cases this
                    · rename_i hci
                      exact ⟨Classical.not_not.1 hnf, by simpa using hci⟩
          · simp only [checkName, Bool.false_eq_true, if_false] at hu'
            cases hab : c'.isAbstract with
            | true =>
              rw [hab] at hu'
              cases han : abstractName c'.name with
              | true => simp
              | false => rw [han] at hu'; simp at hu'
            | false =>
              rw [hab] at hu'
              cases han : abstractName c'.name with
              | true => rw [han] at hu'; simp at hu'
              | false => simp
          · intro k hk' hm b hb j a hl
            have hb' := h3 b (by rw [← h2]; exact hb)
            rw [mroOf_append hb', lookup_append (fun j hj => by have := mroOf_le hbw j hj; omega)] at hl
            simp only [checkMethods] at hs
            have := allOk_iff.1 hs (checkOverride w {} k b) (by
              rw [List.mem_flatMap]
              refine ⟨(k, .func false), Dict.mem_of_get? _ hk', ?_⟩
              simp only [hm, Bool.false_eq_true, if_false]
              exact List.mem_map.2 ⟨b, hb, rfl⟩)
            simp only [checkOverride, hl] at this
            cases a with
            | func ab => cases ab with
              | true => rfl
              | false => simp at this
            | other ab => simp at this
            | field => simp at this

theorem built_append {w : World N} {c c' : Cls N} {i : Nat} (hi : (w ++ [c'])[i]? = some c) :
    (i < w.length ∧ w[i]? = some c) ∨ (i = w.length ∧ c = c') := by
  by_cases hlt : i < w.length
  · rw [List.getElem?_append_left hlt] at hi
    exact .inl ⟨hlt, hi⟩
  · rw [List.getElem?_append_right (by omega)] at hi
    cases hx : i - w.length with
    | zero => rw [hx] at hi; simp at hi; exact .inr ⟨by omega, hi.symm⟩
    | succ k => rw [hx] at hi; simp at hi

theorem mroOf_some {w : World N} {i : Nat} {c : Cls N} (h : w[i]? = some c) : mroOf w i = c.mro := by
  simp [mroOf, h]

/-- Ancestors of a class: those of its bases. -/
theorem built_ancestor {w : World N} (h : Built magic abstractName w) {i j : Nat} {c : Cls N} (hi : w[i]? = some c)
    (hj : j ∈ c.mro) (hne : j ≠ i) : ∃ b ∈ c.bases, j = b ∨ j ∈ mroOf w b := by
  induction h generalizing i c with
  | root name =>
    cases i with
    | zero => simp at hi; subst hi; simp [moduleCls] at hj; exact absurd hj hne
    | succ i => simp at hi
  | @step w d c' hw hd hc ih =>
    rcases built_append hi with ⟨hlt, hi⟩ | ⟨rfl, rfl⟩
    · obtain ⟨b, hb, h⟩ := ih hi hj hne
      have : b < w.length := by have := (built_lt hw hi).1 b hb; omega
      exact ⟨b, hb, by rw [mroOf_append this]; exact h⟩
    · obtain ⟨rest, h1, h2, h3, -, h4⟩ := newClass_mro hc
      rw [h1, List.mem_cons] at hj
      have hj := hj.resolve_left hne
      rw [Enum.c3_mem _ _ _ h4] at hj
      obtain ⟨q, hq, hjq⟩ := hj
      rw [List.mem_append] at hq
      rcases hq with hq | hq
      · obtain ⟨b, hb, rfl⟩ := List.mem_map.1 hq
        exact ⟨b, by rw [h2]; exact hb, .inr (by rw [mroOf_append (h3 b hb)]; exact hjq)⟩
      · simp at hq; subst hq
        exact ⟨j, by rw [h2]; exact hjq, .inl rfl⟩

/-- Classes that are not modules have no modules among their ancestors. -/
theorem built_kind {w : World N} (h : Built magic abstractName w) {i : Nat} {c : Cls N} (hi : w[i]? = some c) :
    c.kind = .module ↔ i = 0 ∨ ∃ b ∈ c.bases, ∃ cb, w[b]? = some cb ∧ cb.kind = .module := by
  induction h generalizing i c with
  | root name =>
    cases i with
    | zero => simp at hi; subst hi; simp [moduleCls]
    | succ i => simp at hi
  | @step w d c' hw hd hc ih =>
    have hext : ∀ {bs : List Nat}, (∀ b ∈ bs, b < w.length) →
        ((∃ b ∈ bs, ∃ cb, (w ++ [c'])[b]? = some cb ∧ cb.kind = .module) ↔
          ∃ b ∈ bs, ∃ cb, w[b]? = some cb ∧ cb.kind = .module) := by
      intro bs hbs
      constructor
      · rintro ⟨b, hb, cb, h, hk⟩
        rw [List.getElem?_append_left (hbs b hb)] at h
        exact ⟨b, hb, cb, h, hk⟩
      · rintro ⟨b, hb, cb, h, hk⟩
        exact ⟨b, hb, cb, by rw [List.getElem?_append_left (hbs b hb)]; exact h, hk⟩
    rcases built_append hi with ⟨hlt, hi⟩ | ⟨rfl, rfl⟩
    · rw [hext fun b hb => by have := (built_lt hw hi).1 b hb; omega]
      exact ih hi
    · obtain ⟨rest, h1, h2, h3, h5, h4⟩ := newClass_mro hc
      rw [h2, hext h3, h5, newClass_kind hc]
      constructor
      · exact .inr
      · rintro (h | h)
        · have := built_length hw; omega
        · exact h

/-- **C33**, concrete means final: every proper ancestor of a class of a strict hierarchy (other than `equinox.Module`
itself, and special forms such as `typing.Generic`) is abstract. -/
theorem strict_concrete_final {w : World N} (h : StrictBuilt magic abstractName w) {i j : Nat} {c a : Cls N}
    (hi : w[i]? = some c) (hj : j ∈ c.mro) (hne : j ≠ i) (h0 : j ≠ 0) (ha : w[j]? = some a) (hk : a.kind = .module) :
    a.isAbstract = true := by
  have hb := h.built
  induction i using Nat.strongRecOn generalizing c with
  | _ i ih =>
    have hc0 : i ≠ 0 := by
      intro h0'; subst h0'
      have := (built_lt hb hi).2 j hj
      omega
    obtain ⟨b, hbm, hor⟩ := built_ancestor hb hi hj hne
    have hlt := (built_lt hb hi).1 b hbm
    have hbl : b < w.length := by
      have : i < w.length := (List.getElem?_eq_some_iff.1 hi).1
      omega
    obtain ⟨cb, hcb⟩ : ∃ cb, w[b]? = some cb := ⟨w[b], List.getElem?_eq_getElem hbl⟩
    by_cases hjb : j = b
    · subst hjb
      rw [hcb] at ha; cases ha
      have hck : c.kind = .module := (built_kind hb hi).2 (.inr ⟨j, hbm, a, hcb, hk⟩)
      exact ((strict_checked h hi hc0 hck).1 j hbm a hcb h0 (by rw [hk]; simp)).2.1
    · have hj' : j ∈ cb.mro := by
        have := hor.resolve_left hjb
        rwa [mroOf_some hcb] at this
      exact ih b hlt hcb hj' hjb

/-- **C33**, names: a class of a strict hierarchy is abstract exactly if its name says so. -/
theorem strict_name {w : World N} (h : StrictBuilt magic abstractName w) {i : Nat} {c : Cls N} (hi : w[i]? = some c)
    (h0 : i ≠ 0) (hk : c.kind = .module) : abstractName c.name = true ↔ c.isAbstract = true :=
  (strict_checked h hi h0 hk).2.1

/-- **C33**: if a base has fields or a custom `__init__`, a strict module adds no fields and no `__init__`. -/
theorem strict_fields {w : World N} (h : StrictBuilt magic abstractName w) {i b : Nat} {c base : Cls N}
    (hi : w[i]? = some c) (hbm : b ∈ c.bases) (hb : w[b]? = some base) (h0 : b ≠ 0) (hk : base.kind = .module)
    (hf : numFields base.fields > 0 ∨ base.dataclassInit = false) :
    numFields c.fields = numFields base.fields ∧ c.customInit = false := by
  have hc0 : i ≠ 0 := by have := (built_lt h.built hi).1 b hbm; omega
  have hck : c.kind = .module := (built_kind h.built hi).2 (.inr ⟨b, hbm, base, hb, hk⟩)
  exact ((strict_checked h hi hc0 hck).1 b hbm base hb h0 (by rw [hk]; simp)).2.2 hf

/-- **C33**, what the check on methods guarantees in general: if a class of a strict hierarchy defines a concrete method,
then looking the name up on any of its bases finds an abstract method or nothing. -/
theorem strict_override {w : World N} (h : StrictBuilt magic abstractName w) {i : Nat} {c : Cls N} (hi : w[i]? = some c)
    (h0 : i ≠ 0) (hk : c.kind = .module) {k : N} (hd : c.body.dict.get? k = some (.func false)) (hm : magic k = false)
    {b j : Nat} (hb : b ∈ c.bases) {a : Attr} (hl : lookup w (mroOf w b) k = some (j, a)) : a = .func true :=
  (strict_checked h hi h0 hk).2.2 k hd hm b hb j a hl

end Verif.Module
