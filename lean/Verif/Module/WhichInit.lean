import Verif.Module.InitOnce

/-!
# Which `__init__` a module has (`equinox/_module.py:216-252, 291-294`)

`dataclass(init=has_dataclass_init)` puts a generated `__init__` into the class if `has_dataclass_init`, which is not the case if the class
has one of its own; otherwise `cls.__init__` is found along the method resolution order.
-/

namespace Verif.Module

open Enum (c3)

variable {N : Type} [DecidableEq N] {magic abstractName : N → Bool}

/-- What `cls.__init__` is: written by the user in class `j`, generated by `dataclass` for class `j`, or `object.__init__`. -/
inductive InitIs where
  | user (j : Nat)
  | generated (j : Nat)
  | object
deriving DecidableEq

/-- `"__init__"` in the `__dict__` of class `j`, once it has been created. -/
def initIn (w : World N) (j : Nat) : Option InitIs :=
  match w[j]? with
  | none => none
  | some c =>
    if c.customInit then some (.user j)
    else if c.kind = .module && c.dataclassInit then some (.generated j)
    else none

/-- `cls.__init__`, looked up along a method resolution order. -/
def initOf (w : World N) : List Nat → InitIs
  | [] => .object
  | j :: js => match initIn w j with
    | some f => f
    | none => initOf w js

/-! ### Specification -/

/-- Class `j` is written with an `__init__`. -/
def WritesInit (w : World N) (j : Nat) : Prop := ∃ c, w[j]? = some c ∧ c.customInit = true

/-- Single inheritance among modules: besides `equinox.Module`, a class has at most one module as a base. Other bases are not restricted. -/
def OneModuleBase (w : World N) : Prop :=
  ∀ (i : Nat) (c : Cls N), w[i]? = some c → ∃ b, ∀ b' ∈ c.bases, ∀ cb, w[b']? = some cb → cb.kind = .module → b' = 0 ∨ b' = b

/-- Only modules are written with an `__init__`. -/
def PlainNoInit (w : World N) : Prop := ∀ c ∈ w, c.customInit = true → c.kind = .module

/-! ### Lemmas -/

theorem first_split {α : Type} {P : α → Prop} {l : List α} (h : ∃ x ∈ l, P x) :
    ∃ pre x post, l = pre ++ x :: post ∧ P x ∧ ∀ y ∈ pre, ¬ P y := by
  induction l with
  | nil => obtain ⟨x, hx, -⟩ := h; simp at hx
  | cons a l ih =>
    by_cases ha : P a
    · exact ⟨[], a, l, rfl, ha, by simp⟩
    · obtain ⟨x, hx, hp⟩ := h
      rcases List.mem_cons.1 hx with rfl | hx
      · exact absurd hp ha
      · obtain ⟨pre, y, post, rfl, hy, hpre⟩ := ih ⟨x, hx, hp⟩
        refine ⟨a :: pre, y, post, rfl, hy, ?_⟩
        intro z hz
        rcases List.mem_cons.1 hz with rfl | hz
        · exact ha
        · exact hpre z hz

omit [DecidableEq N] in
theorem OneModuleBase.init {w : World N} {c : Cls N} (h : OneModuleBase (w ++ [c])) : OneModuleBase w := by
  intro i ci hi
  have hl : i < w.length := (List.getElem?_eq_some_iff.1 hi).1
  obtain ⟨b, hb⟩ := h i ci (by rw [List.getElem?_append_left hl]; exact hi)
  refine ⟨b, fun b' hb' cb hcb => hb b' hb' cb ?_⟩
  have hl : b' < w.length := (List.getElem?_eq_some_iff.1 hcb).1
  rw [List.getElem?_append_left hl]; exact hcb

/-- Every module has `equinox.Module` as an ancestor. -/
theorem module_root {w : World N} (h : Built magic abstractName w) {i : Nat} {c : Cls N} (hi : w[i]? = some c)
    (hk : c.kind = .module) : 0 ∈ c.mro := by
  induction i using Nat.strongRecOn generalizing c with
  | _ i ih =>
    rcases (built_kind h hi).1 hk with rfl | ⟨b, hb, cb, hcb, hbk⟩
    · exact List.mem_of_mem_head? (built_head h hi)
    · exact (mro_base h hi hb hcb).subset (ih b ((built_lt h hi).1 b hb) hcb hbk)

/-- The method resolution order of an ancestor is part of that of the class, in the same order. -/
theorem mro_ancestor {w : World N} (h : Built magic abstractName w) {i : Nat} {c : Cls N} (hi : w[i]? = some c) {j : Nat}
    (hj : j ∈ c.mro) {cj : Cls N} (hcj : w[j]? = some cj) : cj.mro.Sublist c.mro := by
  induction i using Nat.strongRecOn generalizing c with
  | _ i ih =>
    by_cases hji : j = i
    · subst hji; rw [hi] at hcj; cases hcj; exact List.Sublist.refl _
    · obtain ⟨b, hb, hor⟩ := built_ancestor h hi hj hji
      have hlt := (built_lt h hi).1 b hb
      have hbl : b < w.length := by
        have : i < w.length := (List.getElem?_eq_some_iff.1 hi).1
        omega
      have hcb := List.getElem?_eq_getElem hbl
      have hjb : j ∈ w[b].mro := by
        rcases hor with rfl | hor
        · exact List.mem_of_mem_head? (built_head h hcb)
        · rwa [mroOf_some hcb] at hor
      exact (ih b hlt hcb hjb).trans (mro_base h hi hb hcb)

/-- Under single inheritance among modules, of two ancestors that are modules one is an ancestor of the other. -/
theorem modules_chain {w : World N} (h : Built magic abstractName w) (h1 : OneModuleBase w) {i : Nat} {c : Cls N}
    (hi : w[i]? = some c) (hk : c.kind = .module) {j k : Nat} (hj : j ∈ c.mro) (hkm : k ∈ c.mro) {cj ck : Cls N}
    (hcj : w[j]? = some cj) (hck : w[k]? = some ck) (hjk : cj.kind = .module) (hkk : ck.kind = .module) :
    j ∈ ck.mro ∨ k ∈ cj.mro := by
  induction i using Nat.strongRecOn generalizing c with
  | _ i ih =>
    by_cases hji : j = i
    · subst hji; rw [hi] at hcj; cases hcj; exact .inr hkm
    by_cases hki : k = i
    · subst hki; rw [hi] at hck; cases hck; exact .inl hj
    obtain ⟨b, hb⟩ := h1 i c hi
    have step : ∀ m ∈ c.mro, ∀ cm : Cls N, w[m]? = some cm → cm.kind = .module → m ≠ i →
        m = 0 ∨ (∃ cb : Cls N, w[b]? = some cb ∧ cb.kind = .module ∧ m ∈ cb.mro ∧ b < i) := by
      intro m hm cm hcm hmk hmi
      obtain ⟨b', hb', hor⟩ := built_ancestor h hi hm hmi
      have hlt := (built_lt h hi).1 b' hb'
      have hbl : b' < w.length := by
        have : i < w.length := (List.getElem?_eq_some_iff.1 hi).1
        omega
      have hcb := List.getElem?_eq_getElem hbl
      have hmb : m ∈ w[b'].mro := by
        rcases hor with rfl | hor
        · exact List.mem_of_mem_head? (built_head h hcb)
        · rwa [mroOf_some hcb] at hor
      have hbk : w[b'].kind = .module := by
        by_cases hbk : w[b'].kind = .module
        · exact hbk
        · exact absurd hmk (nonmodule_ancestor h hcb hbk hmb hcm)
      rcases hb b' hb' _ hcb hbk with h0 | rfl
      · left
        have := (built_lt h hcb).2 m hmb
        omega
      · exact .inr ⟨_, hcb, hbk, hmb, hlt⟩
    rcases step j hj cj hcj hjk hji with rfl | ⟨cb, hcb, hbk, hjb, hlt⟩
    · exact .inl (module_root h hck hkk)
    rcases step k hkm ck hck hkk hki with rfl | ⟨cb', hcb', -, hkb, -⟩
    · exact .inr (module_root h hcj hjk)
    rw [hcb] at hcb'; cases hcb'
    exact ih b hlt hcb hbk hjb hkb

/-- What comes later in the method resolution order is an ancestor of what comes before. -/
theorem modules_later {w : World N} (h : Built magic abstractName w) (hn : ∀ c ∈ w, c.bases.Nodup) (h1 : OneModuleBase w) {i : Nat}
    {c : Cls N} (hi : w[i]? = some c) (hk : c.kind = .module) {pre post : List Nat} {k j : Nat} (hm : c.mro = pre ++ k :: post)
    (hj : j ∈ post) {cj ck : Cls N} (hcj : w[j]? = some cj) (hck : w[k]? = some ck) (hjk : cj.kind = .module)
    (hkk : ck.kind = .module) : j ∈ ck.mro := by
  rcases modules_chain h h1 hi hk (j := j) (k := k) (by rw [hm]; simp [hj]) (by rw [hm]; simp) hcj hck hjk hkk with h' | h'
  · exact h'
  · exfalso
    have hnd := mro_nodup h hn hi
    have hsub := mro_ancestor h hi (j := j) (by rw [hm]; simp [hj]) hcj
    have hhead := built_head h hcj
    cases hmj : cj.mro with
    | nil => rw [hmj] at hhead; simp at hhead
    | cons x l =>
      rw [hmj] at hhead h' hsub
      simp at hhead; subst hhead
      rw [hm] at hnd hsub
      have hne : k ≠ x := by
        intro he; subst he
        rw [List.nodup_append] at hnd
        exact (List.nodup_cons.1 hnd.2.1).1 hj
      have hkl : k ∈ l := by
        rcases List.mem_cons.1 h' with he | he
        · exact absurd he hne
        · exact he
      -- `[x, k]` is in order, and so is `[k, x]`
      have s1 : [x, k].Sublist (pre ++ k :: post) := ((List.singleton_sublist.2 hkl).cons_cons x).trans hsub
      obtain ⟨p, q, hpq⟩ := List.append_of_mem hj
      subst hpq
      have hx : x ∉ pre ∧ k ∉ pre ∧ k ∉ p ++ x :: q ∧ x ∉ p ∧ x ∉ q := by
        simp only [List.nodup_append, List.nodup_cons, List.mem_append, List.mem_cons, not_or] at hnd ⊢
        obtain ⟨a1, ⟨a2, a3, a4, a5⟩, a6⟩ := hnd
        exact ⟨fun hx => a6 x hx x (by simp) rfl, fun hx => a6 k hx k (by simp) rfl, a2, fun hx => a5 x hx x (by simp) rfl, a4.1⟩
      have : ∀ (L : List Nat), x ∉ L → [x, k].Sublist (L ++ k :: (p ++ x :: q)) → False := by
        intro L
        induction L with
        | nil =>
          intro _ hs
          rw [List.nil_append] at hs
          cases hs with
          | cons _ hs =>
            have hmem : k ∈ p ++ x :: q := hs.subset (by simp)
            exact hx.2.2.1 hmem
          | cons_cons _ _ => exact hne rfl
        | cons a L ih =>
          intro hL hs
          simp only [List.mem_cons, not_or] at hL
          cases hs with
          | cons _ hs => exact ih hL.2 hs
          | cons_cons _ _ => exact hL.1 rfl
      exact this pre hx.1 s1

omit [DecidableEq N] in
theorem go_first {w : World N} {pre post : List Nat} {m : Nat} {cm : Cls N} (hm : w[m]? = some cm) (hk : cm.kind = .module)
    (hpre : ∀ k ∈ pre, ∃ ck, w[k]? = some ck ∧ ck.kind ≠ .module ∧ definesInit w ck.mro = false) :
    dataclassInit.go w (pre ++ m :: post) = cm.dataclassInit := by
  induction pre with
  | nil => simp [dataclassInit.go, hm, hk]
  | cons k pre ih =>
    obtain ⟨ck, hck, hkk, hd⟩ := hpre k (by simp)
    simp [dataclassInit.go, hck, hkk, hd]
    exact ih fun x hx => hpre x (List.mem_cons_of_mem _ hx)

/-- `_has_dataclass_init`: no ancestor is written with an `__init__`. -/
theorem flag_iff {w : World N} (h : Built magic abstractName w) (hn : ∀ c ∈ w, c.bases.Nodup) (h1 : OneModuleBase w)
    (hp : PlainNoInit w) {i : Nat} {c : Cls N} (hi : w[i]? = some c) (hk : c.kind = .module) :
    c.dataclassInit = false ↔ ∃ j ∈ c.mro, WritesInit w j := by
  induction h generalizing i c with
  | root name =>
    cases i with
    | zero => simp at hi; subst hi; simp [moduleCls, WritesInit]
    | succ i => simp at hi
  | @step w d c' hw hd hc ih =>
    have hn' : ∀ c ∈ w, c.bases.Nodup := fun x hx => hn x (by simp [hx])
    have hp' : PlainNoInit w := fun x hx => hp x (by simp [hx])
    have hext : ∀ l : List Nat, (∀ j ∈ l, j < w.length) →
        ((∃ j ∈ l, WritesInit (w ++ [c']) j) ↔ ∃ j ∈ l, WritesInit w j) := by
      intro l hl
      constructor
      · rintro ⟨j, hj, cj, hcj, hcu⟩
        exact ⟨j, hj, cj, by rwa [List.getElem?_append_left (hl j hj)] at hcj, hcu⟩
      · rintro ⟨j, hj, cj, hcj, hcu⟩
        exact ⟨j, hj, cj, by rw [List.getElem?_append_left (hl j hj)]; exact hcj, hcu⟩
    rcases built_append hi with ⟨hlt, hi'⟩ | ⟨rfl, rfl⟩
    · rw [ih hn' h1.init hp' hi' hk, hext _ fun j hj => by have := (built_lt hw hi').2 j hj; omega]
    · have hB := Built.step hw hd hc
      obtain ⟨rest, e1, e2, e3, e5, e4⟩ := newClass_mro hc
      have hdk : d.kind = .module := by rw [← e5]; exact hk
      obtain ⟨rest', s, body, e4', -, -, hceq, -⟩ := newClass_module hc hdk
      rw [e4] at e4'; cases e4'
      have hflag : c.dataclassInit = dataclassInit w c.customInit rest := by rw [hceq]
      have hrl : ∀ j ∈ rest, j < w.length := by
        intro j hj
        have h2 := (built_lt hB hi).2 j (by rw [e1]; simp [hj])
        have hnd := mro_nodup hB hn hi
        rw [e1, List.nodup_cons] at hnd
        have : j ≠ w.length := fun he => hnd.1 (he ▸ hj)
        omega
      have h0 : 0 ∈ rest := by
        have := module_root hB hi hk
        rw [e1] at this
        rcases List.mem_cons.1 this with h | h
        · have := built_length hw; omega
        · exact h
      rw [hflag, dataclassInit]
      cases hcu : c.customInit with
      | true =>
        simp only [if_true, true_iff]
        exact ⟨w.length, by rw [e1]; simp, c, hi, hcu⟩
      | false =>
        simp only [Bool.false_eq_true, if_false]
        -- the first module
        obtain ⟨pre, m, post, hr, ⟨cm, hcm, hmk⟩, hpre⟩ := first_split (l := rest)
          (P := fun j => ∃ cj : Cls N, w[j]? = some cj ∧ cj.kind = .module) (by
            have hc0 := List.getElem?_eq_getElem (built_length hw)
            exact ⟨0, h0, _, hc0, (built_kind hw hc0).2 (.inl rfl)⟩)
        have hplain : ∀ k ∈ pre, ∃ ck, w[k]? = some ck ∧ ck.kind ≠ .module ∧ definesInit w ck.mro = false := by
          intro k hkp
          have hkl := hrl k (by rw [hr]; simp [hkp])
          have hck := List.getElem?_eq_getElem hkl
          have hkk : w[k].kind ≠ .module := fun he => hpre k hkp ⟨_, hck, he⟩
          refine ⟨_, hck, hkk, ?_⟩
          simp only [definesInit, List.any_eq_false]
          intro x hx
          have hxl : x < w.length := by have := (built_lt hw hck).2 x hx; omega
          have hcx := List.getElem?_eq_getElem hxl
          have := nonmodule_ancestor hw hck hkk hx hcx
          rw [hcx]
          simp only [Bool.not_eq_true]
          cases hcux : w[x].customInit with
          | false => rfl
          | true => exact absurd (hp' _ (List.getElem_mem hxl) hcux) this
        rw [hr, go_first hcm hmk hplain, ih hn' h1.init hp' hcm hmk]
        have hml : m < w.length := hrl m (by rw [hr]; simp)
        have hcm' : (w ++ [c])[m]? = some cm := by rw [List.getElem?_append_left hml]; exact hcm
        constructor
        · rintro ⟨j, hj, hw'⟩
          refine ⟨j, mro_trans hB hi (j := m) (by rw [e1, hr]; simp) hcm' hj, ?_⟩
          obtain ⟨cj, hcj, hcuj⟩ := hw'
          have : j < w.length := (List.getElem?_eq_some_iff.1 hcj).1
          exact ⟨cj, by rw [List.getElem?_append_left this]; exact hcj, hcuj⟩
        · rintro ⟨j, hj, cj, hcj, hcuj⟩
          rw [e1, hr] at hj
          have hjm : cj.kind = .module := hp cj (List.mem_of_getElem? hcj) hcuj
          rcases List.mem_cons.1 hj with rfl | hj
          · rw [hi] at hcj; cases hcj; rw [hcu] at hcuj; simp at hcuj
          have hjl : j < w.length := hrl j (by rw [hr]; exact hj)
          have hcj' := hcj
          rw [List.getElem?_append_left hjl] at hcj'
          refine ⟨j, ?_, cj, hcj', hcuj⟩
          rcases List.mem_append.1 hj with hj | hj
          · exact absurd ⟨cj, hcj', hjm⟩ (hpre j hj)
          rcases List.mem_cons.1 hj with rfl | hj
          · exact List.mem_of_mem_head? (built_head hw hcm)
          · exact modules_later hB hn h1 hi hk (pre := w.length :: pre) (by rw [e1, hr]; rfl) hj hcj hcm' hjm hmk

/-! ### Theorems -/

/-- **C83** (partial): if modules inherit from at most one other module, and only modules are written with an `__init__`, then `cls.__init__`
is the one written in the nearest class of the method resolution order that has one; and if there is none, it is the one generated for `cls`
itself. In particular `dataclass` never generates an `__init__` in place of one that is inherited. -/
theorem init_inherited_partial {w : World N} (h : Built magic abstractName w) (hn : ∀ c ∈ w, c.bases.Nodup) (h1 : OneModuleBase w)
    (hp : PlainNoInit w) {i : Nat} {c : Cls N} (hi : w[i]? = some c) (hk : c.kind = .module) :
    (∀ pre j post, c.mro = pre ++ j :: post → WritesInit w j → (∀ k ∈ pre, ¬ WritesInit w k) → initOf w c.mro = .user j) ∧
    ((∀ j ∈ c.mro, ¬ WritesInit w j) → initOf w c.mro = .generated i) := by
  constructor
  · intro pre j post hm hj hpre
    have key : ∀ k ∈ pre, initIn w k = none := by
      intro k hkp
      cases hck : w[k]? with
      | none => simp [initIn, hck]
      | some ck =>
        have hcu : ck.customInit = false := by
          cases hcu : ck.customInit with
          | false => rfl
          | true => exact absurd ⟨ck, hck, hcu⟩ (hpre k hkp)
        by_cases hkk : ck.kind = .module
        · have hf : ck.dataclassInit = false := by
            rw [flag_iff h hn h1 hp hck hkk]
            obtain ⟨p, q, rfl⟩ := List.append_of_mem hkp
            obtain ⟨cj, hcj, hcuj⟩ := hj
            refine ⟨j, ?_, cj, hcj, hcuj⟩
            exact modules_later h hn h1 hi hk (pre := p) (post := q ++ j :: post) (by rw [hm]; simp) (by simp) hcj hck
              (hp cj (List.mem_of_getElem? hcj) hcuj) hkk
          simp [initIn, hck, hcu, hf]
        · simp [initIn, hck, hcu, hkk]
    have hjj : initIn w j = some (.user j) := by
      obtain ⟨cj, hcj, hcuj⟩ := hj
      simp [initIn, hcj, hcuj]
    rw [hm]
    clear hm hpre
    induction pre with
    | nil => simp [initOf, hjj]
    | cons k pre ih =>
      simp only [List.cons_append, initOf, key k (by simp)]
      exact ih fun x hx => key x (List.mem_cons_of_mem _ hx)
  · intro hno
    have hhead := built_head h hi
    have hf : c.dataclassInit = true := by
      cases hf : c.dataclassInit with
      | true => rfl
      | false =>
        obtain ⟨j, hj, hw⟩ := (flag_iff h hn h1 hp hi hk).1 hf
        exact absurd hw (hno j hj)
    have hcu : c.customInit = false := by
      cases hcu : c.customInit with
      | false => rfl
      | true => exact absurd ⟨c, hi, hcu⟩ (hno i (List.mem_of_mem_head? hhead))
    cases hmro : c.mro with
    | nil => rw [hmro] at hhead; simp at hhead
    | cons x l =>
      rw [hmro] at hhead; simp at hhead; subst hhead
      simp [initOf, initIn, hi, hcu, hk, hf]

/-- **C83**: whatever the bases are, a class written with an `__init__` has this one. -/
theorem init_own {w : World N} (h : Built magic abstractName w) {i : Nat} {c : Cls N} (hi : w[i]? = some c)
    (hc : c.customInit = true) : initOf w c.mro = .user i := by
  have hhead := built_head h hi
  cases hmro : c.mro with
  | nil => rw [hmro] at hhead; simp at hhead
  | cons x l =>
    rw [hmro] at hhead; simp at hhead; subst hhead
    simp [initOf, initIn, hi, hc]

namespace Ex

/-- `A` has an `__init__`, `B(A)` a field; `X` is a module, `C(X, A)`, and `D(B, C)`. -/
def diamond : List (ClassDef Nat) :=
  [{ cls 20 [0] [] with customInit := true, strict := none }, { cls 21 [1] [] [(5, .plain)] with strict := none },
    { cls 22 [0] [] with strict := none }, { cls 23 [3, 1] [] with strict := none }, { cls 24 [2, 4] [] with strict := none }]

/-- `Q` is no module and has an `__init__`, `P(Q)`; `R(Module, Q)` and `D(P, R)`. -/
def mixins : List (ClassDef Nat) :=
  [⟨.plain, 20, [], ⟨[], []⟩, true, none⟩, ⟨.plain, 21, [1], ⟨[], []⟩, false, none⟩,
    { cls 22 [0, 1] [] [(5, .plain)] with strict := none }, { cls 23 [2, 3] [] [(6, .plain)] with strict := none }]

/-- A module with an `__init__`, one below it with a field and a mixin, and one more; and a module apart. -/
def chain : List (ClassDef Nat) :=
  [{ cls 20 [0] [] with customInit := true, strict := none }, ⟨.plain, 21, [], ⟨[], []⟩, false, none⟩,
    { cls 22 [2, 1] [] [(5, .plain)] with strict := none }, { cls 23 [3, 0] [] with strict := none },
    { cls 24 [0] [] [(5, .plain)] with strict := none }]

end Ex

omit [DecidableEq N] in
theorem oneModuleBase_of {w : World N}
    (h : ∀ c ∈ w, ∃ b ∈ List.range w.length, ∀ b' ∈ c.bases, w[b']?.map Cls.kind = some .module → b' = 0 ∨ b' = b) : OneModuleBase w := by
  intro i c hi
  obtain ⟨b, -, hb⟩ := h c (List.mem_of_getElem? hi)
  exact ⟨b, fun b' hb' cb hcb hk => hb b' hb' (by rw [hcb, Option.map_some, hk])⟩

/-- The claim fails with several bases: `D` inherits the `__init__` that was generated for `C`, which does not set the field of `D`, although the
module before it was made for the `__init__` written in `A`. -/
theorem init_diamond :
    ∃ w, Built Ex.mag Ex.absName w ∧ (∀ c ∈ w, c.bases.Nodup) ∧ PlainNoInit w ∧ mroOf w 5 = [5, 2, 4, 3, 1, 0] ∧
      w.map Cls.customInit = [false, true, false, false, false, false] ∧
      initOf w (mroOf w 2) = .user 1 ∧ initOf w (mroOf w 4) = .generated 4 ∧ initOf w (mroOf w 5) = .generated 4 ∧
      (w[5]?.map Cls.fields) = some [(5, true)] ∧ (w[4]?.map Cls.fields) = some [] :=
  ⟨Ex.world Ex.diamond, built_of_build (name := 30) (ds := Ex.diamond) (by simp [Ex.diamond, Ex.cls, Layer.WF, Dict.keys]) rfl,
    by decide, by unfold PlainNoInit; decide, rfl, rfl, rfl, rfl, rfl, rfl, rfl⟩

/-- The claim fails if other classes have an `__init__`: `D` inherits the `__init__` generated for `R`, which does not set the field of `D`. -/
theorem init_mixins :
    ∃ w, Built Ex.mag Ex.absName w ∧ (∀ c ∈ w, c.bases.Nodup) ∧ OneModuleBase w ∧ mroOf w 4 = [4, 2, 3, 0, 1] ∧
      w.map Cls.customInit = [false, true, false, false, false] ∧ initOf w (mroOf w 4) = .generated 3 ∧
      (w[4]?.map fun c => Dict.keys c.fields) = some [5, 6] ∧ (w[3]?.map fun c => Dict.keys c.fields) = some [5] := by
  exact ⟨Ex.world Ex.mixins, built_of_build (name := 30) (ds := Ex.mixins) (by simp [Ex.mixins, Ex.cls, Layer.WF, Dict.keys]) rfl,
    by decide, oneModuleBase_of (by decide), rfl, rfl, rfl, rfl, rfl⟩

example : ∃ w, Built Ex.mag Ex.absName w ∧ (∀ c ∈ w, c.bases.Nodup) ∧ OneModuleBase w ∧ PlainNoInit w ∧
    mroOf w 4 = [4, 3, 2, 1, 0] ∧ initOf w (mroOf w 4) = .user 1 ∧ initOf w (mroOf w 5) = .generated 5 := by
  exact ⟨Ex.world Ex.chain, built_of_build (name := 30) (ds := Ex.chain) (by simp [Ex.chain, Ex.cls, Layer.WF, Dict.keys]) rfl,
    by decide, oneModuleBase_of (by decide), by unfold PlainNoInit; decide, rfl, rfl, rfl⟩

end Verif.Module
