import Verif.Module.Methods

/-! # C33: the fields and the `__init__` of a strict module are found in a single class -/

namespace Verif.Module

open Enum (c3)

variable {N : Type} [DecidableEq N] {magic abstractName : N → Bool}

theorem mro_base {w : World N} (h : Built magic abstractName w) {i : Nat} {c : Cls N} (hi : w[i]? = some c) {b : Nat}
    (hb : b ∈ c.bases) {cb : Cls N} (hcb : w[b]? = some cb) : cb.mro.Sublist c.mro := by
  induction h generalizing i c with
  | root name =>
    cases i with
    | zero => simp at hi; subst hi; simp [moduleCls] at hb
    | succ i => simp at hi
  | @step w d c' hw hd hc ih =>
    rcases built_append hi with ⟨hlt, hi'⟩ | ⟨rfl, rfl⟩
    · have hlt' : b < w.length := by have := (built_lt hw hi').1 b hb; omega
      rw [List.getElem?_append_left hlt'] at hcb
      exact ih hi' hb hcb
    · obtain ⟨rest, h1, h2, h3, h5, h4⟩ := newClass_mro hc
      have hbm : b ∈ d.bases := by rw [← h2]; exact hb
      have hlt := h3 b hbm
      rw [List.getElem?_append_left hlt] at hcb
      rw [h1]
      refine (c3_sublist h4 cb.mro ?_).cons _
      rw [List.mem_append]
      exact .inl (List.mem_map.2 ⟨b, hbm, mroOf_some hcb⟩)

/-- Ancestors of ancestors are ancestors. -/
theorem mro_trans {w : World N} (h : Built magic abstractName w) {i : Nat} {c : Cls N} (hi : w[i]? = some c) {j : Nat}
    (hj : j ∈ c.mro) {cj : Cls N} (hcj : w[j]? = some cj) {m : Nat} (hm : m ∈ cj.mro) : m ∈ c.mro := by
  induction i using Nat.strongRecOn generalizing c with
  | _ i ih =>
    by_cases hji : j = i
    · subst hji; rw [hi] at hcj; cases hcj; exact hm
    · obtain ⟨b, hb, hor⟩ := built_ancestor h hi hj hji
      have hlt := (built_lt h hi).1 b hb
      have hbl : b < w.length := by
        have : i < w.length := (List.getElem?_eq_some_iff.1 hi).1
        omega
      obtain ⟨cb, hcb⟩ : ∃ cb, w[b]? = some cb := ⟨w[b], List.getElem?_eq_getElem hbl⟩
      refine (mro_base h hi hb hcb).subset ?_
      by_cases hjb : j = b
      · subst hjb; rw [hcb] at hcj; cases hcj; exact hm
      · have := hor.resolve_left hjb
        rw [mroOf_some hcb] at this
        exact ih b hlt hcb this

/-- Class `j` is a module that annotates `n` as a field. -/
def DeclaresField (w : World N) (j : Nat) (n : N) : Prop :=
  ∃ c, w[j]? = some c ∧ c.kind = .module ∧ (n, Ann.plain) ∈ c.body.ann

/-- Nothing is annotated `ClassVar`. -/
def NoClassVar (w : World N) : Prop := ∀ c ∈ w, ∀ p ∈ c.body.ann, p.2 ≠ .classVar

theorem mem_insert {V : Type} {d : Dict N V} {k : N} {v : V} {p : N × V} (h : p ∈ d.insert k v) : p ∈ d ∨ p = (k, v) := by
  induction d with
  | nil => simp [Dict.insert] at h; exact .inr h
  | cons q d ih =>
    obtain ⟨k', v'⟩ := q
    simp only [Dict.insert] at h
    split at h
    · rename_i hk
      rcases List.mem_cons.1 h with h | h
      · subst h; right; first | rfl | (rw [hk]) | (subst hk; rfl)
      · exact .inl (List.mem_cons_of_mem _ h)
    · rcases List.mem_cons.1 h with h | h
      · subst h; exact .inl (by simp)
      · rcases ih h with h | h
        · exact .inl (List.mem_cons_of_mem _ h)
        · exact .inr h

theorem mem_update {V : Type} {d e : Dict N V} {p : N × V} (h : p ∈ d.update e) : p ∈ d ∨ p ∈ e := by
  unfold Dict.update at h
  induction e generalizing d with
  | nil => exact .inl h
  | cons q e ih =>
    rw [List.foldl_cons] at h
    rcases ih h with h | h
    · rcases mem_insert h with h | h
      · exact .inl h
      · subst h; exact .inr (by simp)
    · exact .inr (List.mem_cons_of_mem _ h)

omit [DecidableEq N] in
theorem nodup_length {l m : List N} (h : l.Nodup) (hs : l ⊆ m) : l.length ≤ m.length := by
  induction l generalizing m with
  | nil => simp
  | cons a l ih =>
    rw [List.nodup_cons] at h
    obtain ⟨s, t, rfl⟩ := List.append_of_mem (hs (List.mem_cons_self))
    have : l.length ≤ (s ++ t).length := by
      refine ih h.2 fun x hx => ?_
      have hxm := hs (List.mem_cons_of_mem a hx)
      simp only [List.mem_append, List.mem_cons] at hxm ⊢
      rcases hxm with h' | rfl | h'
      · exact .inl h'
      · exact absurd hx h.1
      · exact .inr h'
    simp only [List.length_append, List.length_cons] at this ⊢
    omega

/-- What is said about the fields collected so far: no name twice, all of them fields, and the names are those in `P`. -/
def Collected (d : Dict N Bool) (P : N → Prop) : Prop :=
  (Dict.keys d).Nodup ∧ (∀ p ∈ d, p.2 = true) ∧ ∀ n, n ∈ Dict.keys d ↔ P n

theorem collected_ann {ann : Dict N Ann} (hc : ∀ p ∈ ann, p.2 ≠ Ann.classVar) {d : Dict N Bool} {P : N → Prop}
    (hd : Collected d P) :
    Collected (ann.foldl (fun (d : Dict N Bool) p => match p.2 with
      | .plain => d.insert p.1 true
      | .classVar => d.insert p.1 false
      | _ => d) d) (fun n => P n ∨ (n, Ann.plain) ∈ ann) := by
  induction ann generalizing d P with
  | nil => simpa [Collected] using hd
  | cons q ann ih =>
    obtain ⟨k, a⟩ := q
    have hc' : ∀ p ∈ ann, p.2 ≠ Ann.classVar := fun p hp => hc p (List.mem_cons_of_mem _ hp)
    have hka := hc (k, a) (by simp)
    simp only [List.foldl_cons]
    by_cases hpl : a = .plain
    · subst hpl
      have hd' : Collected (Dict.insert d k true) (fun n => P n ∨ n = k) := by
        refine ⟨Dict.nodup_insert _ _ _ hd.1, ?_, ?_⟩
        · intro p hp
          rcases mem_insert hp with hp | rfl
          · exact hd.2.1 p hp
          · rfl
        · intro n
          rw [Dict.mem_keys_insert, hd.2.2]
          exact Or.comm
      have := ih hc' hd'
      refine ⟨this.1, this.2.1, fun n => ?_⟩
      rw [this.2.2 n]
      simp only [List.mem_cons, Prod.mk.injEq, and_true]
      exact or_assoc
    · have hstep : (match a with
          | .plain => Dict.insert d k true
          | .classVar => Dict.insert d k false
          | _ => d) = d := by
        cases a with
        | plain => exact absurd rfl hpl
        | classVar => exact absurd rfl hka
        | _ => rfl
      simp only [hstep]
      have := ih hc' hd
      refine ⟨this.1, this.2.1, fun n => ?_⟩
      rw [this.2.2 n]
      simp only [List.mem_cons, Prod.mk.injEq]
      constructor
      · rintro (h | h)
        · exact .inl h
        · exact .inr (.inr h)
      · rintro (h | ⟨-, h⟩ | h)
        · exact .inl h
        · exact absurd h.symm hpl
        · exact .inr h

theorem collected_bases {w : World N} {l : List Nat} {Q : Nat → N → Prop}
    (hl : ∀ j ∈ l, ∃ c, w[j]? = some c ∧ Collected c.fields (Q j)) {d : Dict N Bool} {P : N → Prop}
    (hd : Collected d P) :
    Collected (l.foldl (fun (d : Dict N Bool) c => match w[c]? with | some cls => d.update cls.fields | none => d) d)
      (fun n => P n ∨ ∃ j ∈ l, Q j n) := by
  induction l generalizing d P with
  | nil => simpa [Collected] using hd
  | cons j l ih =>
    obtain ⟨c, hc, hq⟩ := hl j (by simp)
    simp only [List.foldl_cons, hc]
    have hd' : Collected (Dict.update d c.fields) (fun n => P n ∨ Q j n) := by
      refine ⟨Dict.nodup_update _ _ hd.1, ?_, ?_⟩
      · intro p hp
        rcases mem_update hp with hp | hp
        · exact hd.2.1 p hp
        · exact hq.2.1 p hp
      · intro n
        rw [Dict.mem_keys_update, hd.2.2, hq.2.2]
    have := ih (fun j hj => hl j (List.mem_cons_of_mem _ hj)) hd'
    refine ⟨this.1, this.2.1, fun n => ?_⟩
    rw [this.2.2 n]
    simp only [List.mem_cons, exists_eq_or_imp]
    exact or_assoc

theorem declaresField_append {w : World N} {c : Cls N} {j : Nat} (hj : j < w.length) (n : N) :
    DeclaresField (w ++ [c]) j n ↔ DeclaresField w j n := by
  unfold DeclaresField
  rw [List.getElem?_append_left hj]

/-- The fields of a class are the names annotated as fields by the modules among its ancestors. -/
theorem field_names {w : World N} (h : Built magic abstractName w) (hv : NoClassVar w) {i : Nat} {c : Cls N}
    (hi : w[i]? = some c) : Collected c.fields (fun n => ∃ j ∈ c.mro, DeclaresField w j n) := by
  induction h generalizing i c with
  | root name =>
    cases i with
    | zero =>
      simp at hi; subst hi
      refine ⟨by simp [moduleCls, Dict.keys], by simp [moduleCls], fun n => ?_⟩
      simp only [moduleCls, Dict.keys, List.map_nil, List.not_mem_nil, false_iff]
      rintro ⟨j, hj, c, hc, -, hn⟩
      simp at hj
      subst hj
      simp at hc
      subst hc
      simp at hn
    | succ i => simp at hi
  | @step w d c' hw hd hc ih =>
    have hv' : NoClassVar w := fun c hc => hv c (by simp [hc])
    rcases built_append hi with ⟨hlt, hi'⟩ | ⟨rfl, rfl⟩
    · obtain ⟨k1, k2, k3⟩ := ih hv' hi'
      refine ⟨k1, k2, fun n => ?_⟩
      rw [k3 n]
      constructor
      · rintro ⟨j, hj, hdj⟩
        have := (built_lt hw hi').2 j hj
        exact ⟨j, hj, (declaresField_append (by omega) n).2 hdj⟩
      · rintro ⟨j, hj, hdj⟩
        have := (built_lt hw hi').2 j hj
        exact ⟨j, hj, (declaresField_append (by omega) n).1 hdj⟩
    · have hB := Built.step hw hd hc
      obtain ⟨rest, h1, h2, h3, h5, h4⟩ := newClass_mro hc
      have hlt : ∀ j ∈ rest, j < w.length := by
        intro j hj
        rw [Enum.c3_mem _ _ _ h4] at hj
        obtain ⟨q, hq, hjq⟩ := hj
        rw [List.mem_append] at hq
        rcases hq with hq | hq
        · obtain ⟨b, hbm, rfl⟩ := List.mem_map.1 hq
          have := mroOf_le hw _ hjq
          have := h3 b hbm
          omega
        · simp at hq; subst hq; exact h3 _ hjq
      by_cases hk : d.kind = .module
      · obtain ⟨rest', s, body, h4', -, hbody, hceq, -⟩ := newClass_module hc hk
        rw [h4] at h4'
        cases h4'
        have hann : c.body.ann = d.body.ann := by rw [hceq]; exact (dataclassBody_ann hbody).1
        have hck : c.kind = .module := by rw [h5, hk]
        have hf : c.fields = collectFields w rest d.body.ann := by rw [hceq]
        rw [hf, collectFields]
        have hbase := collected_bases (w := w) (l := rest.reverse) (d := []) (P := fun _ => False)
          (Q := fun j n => ∃ m ∈ mroOf w j, DeclaresField w m n) (by
            intro j hj
            have hj' := hlt j (by simpa using hj)
            refine ⟨w[j], List.getElem?_eq_getElem hj', ?_⟩
            have := ih hv' (List.getElem?_eq_getElem hj')
            rwa [mroOf_some (List.getElem?_eq_getElem hj')])
          ⟨by simp [Dict.keys], by simp, by simp [Dict.keys]⟩
        have hcv : ∀ p ∈ d.body.ann, p.2 ≠ Ann.classVar := by
          rw [← hann]; exact hv c (by simp)
        have := collected_ann hcv hbase
        refine ⟨this.1, this.2.1, fun n => ?_⟩
        refine (this.2.2 n).trans ?_
        constructor
        · rintro ((hF | ⟨j, hj, m, hm, hdm⟩) | hn)
          · exact hF.elim
          · have hj' : j ∈ rest := by simpa using hj
            have hjl := hlt j hj'
            have hcj := List.getElem?_eq_getElem hjl
            rw [mroOf_some hcj] at hm
            have hml := (built_lt hw hcj).2 m hm
            refine ⟨m, ?_, (declaresField_append (by omega) n).2 hdm⟩
            refine mro_trans hB hi (j := j) (by rw [h1]; simp [hj']) ?_ hm
            rw [List.getElem?_append_left hjl]; exact hcj
          · exact ⟨w.length, by rw [h1]; simp, c, hi, hck, by rw [hann]; exact hn⟩
        · rintro ⟨j, hj, hdj⟩
          rw [h1] at hj
          rcases List.mem_cons.1 hj with rfl | hj
          · obtain ⟨c', hc', -, hn⟩ := hdj
            rw [hi] at hc'; cases hc'
            right; rw [← hann]; exact hn
          · left; right
            have hjl := hlt j hj
            have hcj := List.getElem?_eq_getElem hjl
            refine ⟨j, by simpa using hj, j, ?_, (declaresField_append hjl n).1 hdj⟩
            rw [mroOf_some hcj]
            have := built_head hw hcj
            exact List.mem_of_mem_head? this
      · obtain ⟨rest', -, -, hceq⟩ := newClass_other hc hk
        have hck : c.kind ≠ .module := by rw [h5]; exact hk
        have hf : c.fields = [] := by rw [hceq]
        rw [hf]
        refine ⟨by simp [Dict.keys], by simp, fun n => ?_⟩
        simp only [Dict.keys, List.map_nil, List.not_mem_nil, false_iff]
        rintro ⟨j, hj, cj, hcj, hjk, -⟩
        exact nonmodule_ancestor hB hi hck hj hcj hjk

/-- Under single inheritance a module has a custom `__init__` exactly if one of its ancestors defines one. -/
theorem custom_init {w : World N} (h : Built magic abstractName w) (hs : SingleInheritance w) {i : Nat} {c : Cls N}
    (hi : w[i]? = some c) (hk : c.kind = .module) :
    c.dataclassInit = false ↔ ∃ j ∈ c.mro, ∃ cj, w[j]? = some cj ∧ cj.customInit = true := by
  induction h generalizing i c with
  | root name =>
    cases i with
    | zero =>
      simp at hi; subst hi
      simp [moduleCls]
    | succ i => simp at hi
  | @step w d c' hw hd hc ih =>
    rcases built_append hi with ⟨hlt, hi'⟩ | ⟨rfl, rfl⟩
    · rw [ih hs.init hi' hk]
      constructor
      · rintro ⟨j, hj, cj, hcj, hcu⟩
        have := (built_lt hw hi').2 j hj
        exact ⟨j, hj, cj, by rw [List.getElem?_append_left (by omega)]; exact hcj, hcu⟩
      · rintro ⟨j, hj, cj, hcj, hcu⟩
        have := (built_lt hw hi').2 j hj
        exact ⟨j, hj, cj, by rwa [List.getElem?_append_left (by omega)] at hcj, hcu⟩
    · have hB := Built.step hw hd hc
      obtain ⟨b, hb⟩ := hs _ _ hi (by have := built_length hw; omega)
      obtain ⟨rest, h1, h2, h3, h5, h4⟩ := newClass_mro hc
      have hdk : d.kind = .module := by rw [← h5]; exact hk
      obtain ⟨rest', s, body, h4', -, hbody, hceq, -⟩ := newClass_module hc hdk
      rw [h4] at h4'
      cases h4'
      have hm := (single_mro hB hs hi).2.2 b hb
      have hbl : b < w.length := h3 b (by rw [← h2, hb]; simp)
      have hcb := List.getElem?_eq_getElem hbl
      rw [mroOf_append hbl, mroOf_some hcb] at hm
      have hrest : rest = w[b].mro := by rw [h1] at hm; exact (List.cons.inj hm).2
      have hbk : w[b].kind = .module := by
        obtain ⟨b', hb', cb', hcb', hk'⟩ := (newClass_kind hc).1 hdk
        rw [← h2, hb] at hb'
        simp at hb'
        subst hb'
        rw [hcb] at hcb'; cases hcb'; exact hk'
      have hdi : c.dataclassInit = if c.customInit then false else w[b].dataclassInit := by
        have hh := built_head hw hcb
        have : c.dataclassInit = dataclassInit w c.customInit rest := by rw [hceq]
        rw [this, dataclassInit, hrest]
        cases hmb : w[b].mro with
        | nil => rw [hmb] at hh; simp at hh
        | cons x l =>
          rw [hmb] at hh; simp at hh; subst hh
          simp only [dataclassInit.go, hcb, hbk, if_pos]
      rw [hdi]
      have hib := ih hs.init hcb hbk
      constructor
      · intro h
        cases hcu : c.customInit with
        | true => exact ⟨w.length, by rw [h1]; simp, c, hi, hcu⟩
        | false =>
          rw [hcu] at h
          obtain ⟨j, hj, cj, hcj, hcu⟩ := hib.1 (by simpa using h)
          have := (built_lt hw hcb).2 j hj
          exact ⟨j, by rw [h1, hrest]; simp [hj], cj, by rw [List.getElem?_append_left (by omega)]; exact hcj, hcu⟩
      · rintro ⟨j, hj, cj, hcj, hcu⟩
        rw [h1, hrest] at hj
        rcases List.mem_cons.1 hj with rfl | hj
        · rw [hi] at hcj; cases hcj; simp [hcu]
        · have := (built_lt hw hcb).2 j hj
          rw [hib.2 ⟨j, hj, cj, by rwa [List.getElem?_append_left (by omega)] at hcj, hcu⟩]
          simp

theorem numFields_keys {d : Dict N Bool} {P : N → Prop} (h : Collected d P) : numFields d = (Dict.keys d).length := by
  rw [numFields, List.filter_eq_self.2 h.2.1, Dict.keys, List.length_map]

/-- **C33**, initialisation (the part of the configuration that is not about methods): in a strict hierarchy with single
inheritance and without `ClassVar`s, if an ancestor (other than `equinox.Module`) declares a field or defines `__init__`,
then the class defines no `__init__` and declares no field that the ancestor does not have. -/
theorem strict_init_once_partial {w : World N} (h : StrictBuilt magic abstractName w) (hs : SingleInheritance w)
    (hv : NoClassVar w) {i j : Nat} {c a : Cls N} (hi : w[i]? = some c) (hj : j ∈ c.mro) (hne : j ≠ i) (h0 : j ≠ 0)
    (ha : w[j]? = some a) (hk : a.kind = .module)
    (hdecl : a.customInit = true ∨ ∃ n, DeclaresField w j n) :
    c.customInit = false ∧ ∀ n, DeclaresField w i n → ∃ m ∈ a.mro, DeclaresField w m n := by
  have hB := h.built
  -- every class strictly below `j` has the fields of `j`
  suffices ∀ i c, w[i]? = some c → j ∈ c.mro → (j ≠ i → c.customInit = false) ∧
      ∀ n, (∃ m ∈ c.mro, DeclaresField w m n) → ∃ m ∈ a.mro, DeclaresField w m n by
    obtain ⟨k1, k2⟩ := this i c hi hj
    exact ⟨k1 hne, fun n hn => k2 n ⟨i, List.mem_of_mem_head? (built_head hB hi), hn⟩⟩
  intro i
  induction i using Nat.strongRecOn with
  | _ i ih =>
    intro c hi hj
    by_cases hji : j = i
    · subst hji
      rw [hi] at ha; cases ha
      exact ⟨fun h => absurd rfl h, fun n hn => hn⟩
    · obtain ⟨b, hb, hor⟩ := built_ancestor hB hi hj hji
      have hlt := (built_lt hB hi).1 b hb
      have hbl : b < w.length := by
        have : i < w.length := (List.getElem?_eq_some_iff.1 hi).1
        omega
      obtain ⟨cb, hcb⟩ : ∃ cb, w[b]? = some cb := ⟨w[b], List.getElem?_eq_getElem hbl⟩
      have hjb : j ∈ cb.mro := by
        rcases hor with rfl | hor
        · exact List.mem_of_mem_head? (built_head hB hcb)
        · rwa [mroOf_some hcb] at hor
      have hbk : cb.kind = .module := by
        by_cases hbk : cb.kind = .module
        · exact hbk
        · exact absurd hk (nonmodule_ancestor hB hcb hbk hjb ha)
      have hb0 : b ≠ 0 := by
        intro hb0; subst hb0
        have := (built_lt hB hcb).2 j hjb
        omega
      have hfb := field_names hB hv hcb
      have hfc := field_names hB hv hi
      have hf : numFields cb.fields > 0 ∨ cb.dataclassInit = false := by
        rcases hdecl with hd | ⟨n, hn⟩
        · exact .inr ((custom_init hB hs hcb hbk).2 ⟨j, hjb, a, ha, hd⟩)
        · left
          rw [numFields_keys hfb]
          exact List.length_pos_of_mem ((hfb.2.2 n).2 ⟨j, hjb, hn⟩)
      obtain ⟨g1, g2⟩ := strict_fields h hi hb hcb hb0 hbk hf
      refine ⟨fun _ => g2, fun n hn => (ih b hlt cb hcb hjb).2 n ?_⟩
      rw [numFields_keys hfb, numFields_keys hfc] at g1
      have hsub : ∀ n, n ∈ Dict.keys cb.fields → n ∈ Dict.keys c.fields := by
        intro n hn
        obtain ⟨m, hm, hdm⟩ := (hfb.2.2 n).1 hn
        exact (hfc.2.2 n).2 ⟨m, (mro_base hB hi hb hcb).subset hm, hdm⟩
      have hn' := (hfc.2.2 n).2 hn
      refine (hfb.2.2 n).1 ?_
      by_cases hmem : n ∈ Dict.keys cb.fields
      · exact hmem
      · exfalso
        have hnd : (n :: Dict.keys cb.fields).Nodup := List.nodup_cons.2 ⟨hmem, hfb.1⟩
        have hss : (n :: Dict.keys cb.fields) ⊆ Dict.keys c.fields := by
          intro x hx
          rcases List.mem_cons.1 hx with rfl | hx
          · exact hn'
          · exact hsub x hx
        have := nodup_length hnd hss
        simp only [List.length_cons] at this
        omega

/-- The custom `__init__` of a base is not inherited when a base before it has none: class 3 inherits from 1, without
`__init__`, and from 2, with one, and gets the generated one. This is accepted by `strict=True`. -/
theorem strict_init_two_bases :
    ∃ w, StrictBuilt Ex.mag Ex.absName w ∧ mroOf w 3 = [3, 1, 2, 0] ∧ w.map Cls.customInit = [false, false, true, false] ∧
      w.map Cls.dataclassInit = [true, true, false, true] := by
  refine ⟨Ex.world [Ex.cls 10 [0] [(1, .func true)],
    { Ex.cls 11 [0] [(1, .func true)] with customInit := true }, Ex.cls 20 [1, 2] [(1, .func false)]],
    strictBuilt_of_build (name := 30) (ds := [Ex.cls 10 [0] [(1, .func true)],
    { Ex.cls 11 [0] [(1, .func true)] with customInit := true }, Ex.cls 20 [1, 2] [(1, .func false)]]) ?_ rfl, rfl, rfl, rfl⟩
  simp [Ex.cls, Layer.WF, Dict.keys]

/-- The hypotheses can be met: class 1 declares a field, class 2 below it an abstract method's implementation. -/
example : ∃ w, StrictBuilt Ex.mag Ex.absName w ∧ NoClassVar w ∧ mroOf w 2 = [2, 1, 0] ∧ DeclaresField w 1 5 ∧
    w.map (fun c => c.bases) = [[], [0], [1]] := by
  refine ⟨Ex.world [Ex.cls 10 [0] [(1, .func true)] [(5, .plain)], Ex.cls 20 [1] [(1, .func false)]],
    strictBuilt_of_build (name := 30) (ds := [Ex.cls 10 [0] [(1, .func true)] [(5, .plain)],
      Ex.cls 20 [1] [(1, .func false)]]) ?_ rfl, ?_, rfl, ⟨_, rfl, rfl, by decide⟩, rfl⟩
  · simp [Ex.cls, Layer.WF, Dict.keys]
  · unfold NoClassVar; decide

end Verif.Module
