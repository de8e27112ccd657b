import Verif.Module.Strict

/-! # C33: at most one concrete implementation of a method -/

namespace Verif.Module

open Enum (c3 nextHead dropHead)

variable {N : Type} [DecidableEq N] {magic abstractName : N → Bool}

theorem c3_one {l : List Nat} (hn : l.Nodup) {fuel : Nat} (hf : l.length ≤ fuel) : c3 fuel [l, []] = some l := by
  induction l generalizing fuel with
  | nil => cases fuel <;> simp [c3]
  | cons a l ih =>
    cases fuel with
    | zero => simp at hf
    | succ fuel =>
      simp only [List.nodup_cons] at hn
      have h1 : nextHead [a :: l, []] = some a := by
        simp [nextHead, hn.1]
      simp only [c3, h1]
      simp [dropHead, ih hn.2 (by simpa using hf)]

theorem c3_single {b : Nat} {l : List Nat} (hn : (b :: l).Nodup) {fuel : Nat} (hf : l.length + 1 ≤ fuel) :
    c3 fuel [b :: l, [b]] = some (b :: l) := by
  cases fuel with
  | zero => omega
  | succ fuel =>
    simp only [List.nodup_cons] at hn
    have h1 : nextHead [b :: l, [b]] = some b := by
      simp [nextHead, hn.1]
    simp only [c3, h1]
    simp [dropHead, c3_one hn.2 (by omega : l.length ≤ fuel)]

/-- Every class but `equinox.Module` has exactly one base. -/
def SingleInheritance (w : World N) : Prop := ∀ (i : Nat) (c : Cls N), w[i]? = some c → i ≠ 0 → ∃ b, c.bases = [b]

theorem SingleInheritance.init {w : World N} {c : Cls N} (h : SingleInheritance (w ++ [c])) : SingleInheritance w := by
  intro i c' hi h0
  have hlt : i < w.length := (List.getElem?_eq_some_iff.1 hi).1
  exact h i c' (by rw [List.getElem?_append_left hlt]; exact hi) h0

theorem single_mro {w : World N} (h : Built magic abstractName w) (hs : SingleInheritance w) {i : Nat} {c : Cls N}
    (hi : w[i]? = some c) :
    c.mro.Nodup ∧ c.mro.head? = some i ∧ ∀ b, c.bases = [b] → c.mro = i :: mroOf w b := by
  induction h generalizing i c with
  | root name =>
    cases i with
    | zero => simp at hi; subst hi; simp [moduleCls]
    | succ i => simp at hi
  | @step w d c' hw hd hc ih =>
    rcases built_append hi with ⟨hlt, hi'⟩ | ⟨rfl, rfl⟩
    · obtain ⟨h1, h2, h3⟩ := ih hs.init hi'
      refine ⟨h1, h2, fun b hb => ?_⟩
      have : b < w.length := by have := (built_lt hw hi').1 b (by simp [hb]); omega
      rw [mroOf_append this]
      exact h3 b hb
    · obtain ⟨rest, h1, h2, h3, -, h4⟩ := newClass_mro hc
      obtain ⟨b, hb⟩ := hs _ _ hi (by have := built_length hw; omega)
      rw [hb] at h2
      rw [← h2] at h3 h4
      have hlt := h3 b (by simp)
      obtain ⟨cb, hcb⟩ : ∃ cb, w[b]? = some cb := ⟨w[b], List.getElem?_eq_getElem hlt⟩
      obtain ⟨k1, k2, -⟩ := ih hs.init hcb
      have hmro : ∃ l, cb.mro = b :: l := by
        cases hm : cb.mro with
        | nil => rw [hm] at k2; simp at k2
        | cons a l => rw [hm] at k2; simp at k2; exact ⟨l, by rw [k2]⟩
      obtain ⟨l, hl⟩ := hmro
      rw [hl] at k1
      simp only [List.map_cons, List.map_nil, mroOf_some hcb, hl, List.singleton_append] at h4
      rw [c3_single k1 (by simp)] at h4
      cases h4
      have hle : ∀ j ∈ b :: l, j ≤ b := by
        have := (built_lt hw hcb).2
        rwa [hl] at this
      refine ⟨?_, by rw [h1]; rfl, ?_⟩
      · rw [h1, List.nodup_cons]
        refine ⟨fun hm => ?_, k1⟩
        have := hle _ hm
        omega
      · intro b' hb'
        rw [hb] at hb'
        cases hb'
        rw [h1, mroOf_append hlt, mroOf_some hcb, hl]

/-- No class re-declares a concrete method of an ancestor as abstract, or hides it behind an object that is not a plain
function (a property, a class attribute, a function wrapped by a transformation). The code does not check this. -/
def NoShadowing (w : World N) : Prop :=
  ∀ (i : Nat) (c : Cls N) (b : Nat) (k : N) (a : Attr), w[i]? = some c → b ∈ c.bases → c.body.dict.get? k = some a →
    a ≠ .func false → ∀ j, lookup w (mroOf w b) k ≠ some (j, .func false)

theorem strict_special {w : World N} (h : StrictBuilt magic abstractName w) {i : Nat} {c : Cls N} (hi : w[i]? = some c)
    (hk : c.kind ≠ .module) : c.body.dict = [] := by
  induction h generalizing i c with
  | root name =>
    cases i with
    | zero => simp at hi; subst hi; simp [moduleCls]
    | succ i => simp at hi
  | @step w d c' hw hd hkind hc ih =>
    rcases built_append hi with ⟨hlt, hi'⟩ | ⟨rfl, rfl⟩
    · exact ih hi' hk
    · obtain ⟨rest, h1, h2, h3, h5, h4⟩ := newClass_mro hc
      have hdk : d.kind ≠ .module := by rw [← h5]; exact hk
      obtain ⟨rest', -, -, hceq⟩ := newClass_other hc hdk
      rw [hceq]
      rcases hkind with h | h
      · exact absurd h.1 hdk
      · exact h.2

theorem nonmodule_ancestor {w : World N} (hb : Built magic abstractName w) {i p : Nat} {c cp : Cls N}
    (hi : w[i]? = some c) (hk : c.kind ≠ .module) (hp : p ∈ c.mro) (hcp : w[p]? = some cp) : cp.kind ≠ .module := by
  induction i using Nat.strongRecOn generalizing c with
  | _ i ih =>
    by_cases hpi : p = i
    · subst hpi; rw [hi] at hcp; cases hcp; exact hk
    · obtain ⟨b, hbm, hor⟩ := built_ancestor hb hi hp hpi
      have hlt := (built_lt hb hi).1 b hbm
      have hbl : b < w.length := by
        have : i < w.length := (List.getElem?_eq_some_iff.1 hi).1
        omega
      obtain ⟨cb, hcb⟩ : ∃ cb, w[b]? = some cb := ⟨w[b], List.getElem?_eq_getElem hbl⟩
      have hbk : cb.kind ≠ .module := fun h => hk ((built_kind hb hi).2 (.inr ⟨b, hbm, cb, hcb, h⟩))
      rcases hor with rfl | hor
      · rw [hcb] at hcp; cases hcp; exact hbk
      · exact ih b hlt hcb hbk (by rwa [mroOf_some hcb] at hor)

theorem special_empty {w : World N} (h : StrictBuilt magic abstractName w) {i p : Nat} {c cp : Cls N}
    (hi : w[i]? = some c) (hk : c.kind ≠ .module) (hp : p ∈ c.mro) (hcp : w[p]? = some cp) {k : N} {a : Attr}
    (hd : cp.body.dict.get? k = some a) : False := by
  rw [strict_special h hcp (nonmodule_ancestor h.built hi hk hp hcp)] at hd
  cases hd

/-- **C33**, one implementation: in a strict hierarchy with single inheritance and without shadowing, looking up a method
(not magic) that some ancestor implements finds that implementation; so there is at most one. Partial: false without the
two hypotheses (`strict_two_inherited`, `strict_reabstract`) and for magic methods (`strict_magic`). -/
theorem strict_single_impl_partial {w : World N} (h : StrictBuilt magic abstractName w) (hs : SingleInheritance w)
    (hns : NoShadowing w) {k : N} (hm : magic k = false) {i p : Nat} {c cp : Cls N} (hi : w[i]? = some c)
    (hp : p ∈ c.mro) (hcp : w[p]? = some cp) (hd : cp.body.dict.get? k = some (.func false)) :
    lookup w c.mro k = some (p, .func false) := by
  have hb := h.built
  induction i using Nat.strongRecOn generalizing c with
  | _ i ih =>
    by_cases h0 : i = 0
    · subst h0
      have := (built_lt hb hi).2 p hp
      have hp0 : p = 0 := by omega
      subst hp0
      rw [hi] at hcp; cases hcp
      obtain ⟨-, h2, -⟩ := single_mro hb hs hi
      cases hmro : cp.mro with
      | nil => rw [hmro] at hp; simp at hp
      | cons a l =>
        rw [hmro] at h2; simp at h2; subst h2
        simp [lookup, hi, hd]
    · obtain ⟨b, hbase⟩ := hs i c hi h0
      obtain ⟨h1, h2, h3⟩ := single_mro hb hs hi
      have hmro := h3 b hbase
      have hlt := (built_lt hb hi).1 b (by simp [hbase])
      have hbl : b < w.length := by
        have : i < w.length := (List.getElem?_eq_some_iff.1 hi).1
        omega
      obtain ⟨cb, hcb⟩ : ∃ cb, w[b]? = some cb := ⟨w[b], List.getElem?_eq_getElem hbl⟩
      rw [hmro]
      simp only [lookup, hi]
      by_cases hpi : p = i
      · subst hpi
        rw [hi] at hcp; cases hcp
        simp [hd]
      · have hpb : p ∈ cb.mro := by
          rw [hmro, List.mem_cons, mroOf_some hcb] at hp
          exact hp.resolve_left hpi
        have hlook := ih b hlt hcb hpb
        rw [mroOf_some hcb]
        cases hown : c.body.dict.get? k with
        | none => exact hlook
        | some a =>
          exfalso
          have hlook' : lookup w (mroOf w b) k = some (p, .func false) := by rw [mroOf_some hcb]; exact hlook
          by_cases ha : a = .func false
          · subst ha
            have hck : c.kind = .module := by
              by_cases hbk : cb.kind = .module
              · exact (built_kind hb hi).2 (.inr ⟨b, by simp [hbase], cb, hcb, hbk⟩)
              · exfalso
                -- a special form has no body, so the implementation is on a module, and its subclass would be one
                exact special_empty h hcb hbk hpb hcp hd
            have := strict_override h hi h0 hck hown hm (b := b) (by simp [hbase]) hlook'
            cases this
          · exact hns i c b k a hi (by simp [hbase]) hown ha p hlook'

/-- Hence at most one ancestor implements a method. -/
theorem strict_unique_impl_partial {w : World N} (h : StrictBuilt magic abstractName w) (hs : SingleInheritance w)
    (hns : NoShadowing w) {k : N} (hm : magic k = false) {i p q : Nat} {c cp cq : Cls N} (hi : w[i]? = some c)
    (hp : p ∈ c.mro) (hcp : w[p]? = some cp) (hd : cp.body.dict.get? k = some (.func false))
    (hq : q ∈ c.mro) (hcq : w[q]? = some cq) (hd' : cq.body.dict.get? k = some (.func false)) : p = q := by
  have h1 := strict_single_impl_partial h hs hns hm hi hp hcp hd
  have h2 := strict_single_impl_partial h hs hns hm hi hq hcq hd'
  rw [h1] at h2
  cases h2
  rfl

/-! ### Where the claim fails -/

namespace Ex

/-- Names: 0-9 are attributes (9 is magic), 10-19 abstract class names, 20-29 others. -/
def mag (n : Nat) : Bool := n == 9
def absName (n : Nat) : Bool := decide (10 ≤ n ∧ n < 20)

def cls (name : Nat) (bases : List Nat) (dict : Dict Nat Attr) (ann : Dict Nat Ann := []) : ClassDef Nat :=
  ⟨.module, name, bases, ⟨dict, ann⟩, false, some {}⟩

/-- The table after some class statements. -/
def world (ds : List (ClassDef Nat)) : World Nat :=
  match build mag absName [moduleCls 30] ds with
  | .ok w => w
  | .error _ => []

/-- Two unrelated abstract classes implement method 1; a third class inherits from both. -/
def twoInherited : List (ClassDef Nat) :=
  [cls 10 [0] [(1, .func false), (2, .func true)], cls 11 [0] [(1, .func false), (3, .func true)],
    cls 20 [1, 2] [(2, .func false), (3, .func false)]]

/-- Method 1 is implemented, declared abstract again, and implemented again. -/
def reabstract : List (ClassDef Nat) :=
  [cls 10 [0] [(1, .func false), (2, .func true)], cls 11 [1] [(1, .func true)],
    cls 20 [2] [(1, .func false), (2, .func false)]]

/-- The magic method 9 is implemented twice. -/
def magicTwice : List (ClassDef Nat) :=
  [cls 10 [0] [(9, .func false), (2, .func true)], cls 20 [1] [(9, .func false), (2, .func false)]]

/-- A hierarchy as the theorem wants it: method 1 is declared, implemented in a subclass, and method 2 in a third class. -/
def good : List (ClassDef Nat) :=
  [cls 10 [0] [(1, .func true), (2, .func true)] [(5, .abstractVar)], cls 11 [1] [(1, .func false)],
    cls 20 [2] [(2, .func false), (5, .field)] [(5, .plain)]]

end Ex

/-- The class `i` of the table defines a concrete method `k`. -/
def Implements (w : World N) (i : Nat) (k : N) : Prop :=
  ∃ c, w[i]? = some c ∧ c.body.dict.get? k = some (.func false)

theorem strictBuilt_of_build {name : N} {ds : List (ClassDef N)}
    (hd : ∀ d ∈ ds, d.body.WF ∧ d.kind = .module ∧ d.strict = some {}) {w : World N}
    (h : build magic abstractName [moduleCls name] ds = .ok w) : StrictBuilt magic abstractName w := by
  suffices ∀ (w₀ w : World N) (ds : List (ClassDef N)), (∀ d ∈ ds, d.body.WF ∧ d.kind = .module ∧ d.strict = some {}) →
      StrictBuilt magic abstractName w₀ → build magic abstractName w₀ ds = .ok w → StrictBuilt magic abstractName w from
    this _ _ _ hd (.root name) h
  intro w₀ w ds
  induction ds generalizing w₀ with
  | nil => intro _ h₀ h; simp only [build] at h; cases h; exact h₀
  | cons d ds ih =>
    intro hd h₀ h
    simp only [build, bind, Except.bind] at h
    split at h
    · cases h
    · rename_i c hc
      exact ih _ (fun x hx => hd x (List.mem_cons_of_mem _ hx))
        (.step h₀ (hd d (by simp)).1 (.inl (hd d (by simp)).2) hc) h

/-- With multiple inheritance a class of a strict hierarchy can inherit two implementations of one method. -/
theorem strict_two_inherited :
    ∃ w, StrictBuilt Ex.mag Ex.absName w ∧ mroOf w 3 = [3, 1, 2, 0] ∧ Implements w 1 1 ∧ Implements w 2 1 := by
  refine ⟨Ex.world Ex.twoInherited, strictBuilt_of_build (name := 30) (ds := Ex.twoInherited) ?_ rfl, rfl, ⟨_, rfl, rfl⟩, ⟨_, rfl, rfl⟩⟩
  simp [Ex.twoInherited, Ex.cls, Layer.WF, Dict.keys]

/-- Also with single inheritance a concrete method can be overridden: an intermediate class declares it abstract again. -/
theorem strict_reabstract :
    ∃ w, StrictBuilt Ex.mag Ex.absName w ∧ mroOf w 3 = [3, 2, 1, 0] ∧ Implements w 1 1 ∧ Implements w 3 1 := by
  refine ⟨Ex.world Ex.reabstract, strictBuilt_of_build (name := 30) (ds := Ex.reabstract) ?_ rfl, rfl, ⟨_, rfl, rfl⟩, ⟨_, rfl, rfl⟩⟩
  simp [Ex.reabstract, Ex.cls, Layer.WF, Dict.keys]

/-- Magic methods such as `__call__` are not checked. -/
theorem strict_magic :
    ∃ w, StrictBuilt Ex.mag Ex.absName w ∧ mroOf w 2 = [2, 1, 0] ∧ Implements w 1 9 ∧ Implements w 2 9 := by
  refine ⟨Ex.world Ex.magicTwice, strictBuilt_of_build (name := 30) (ds := Ex.magicTwice) ?_ rfl, rfl, ⟨_, rfl, rfl⟩, ⟨_, rfl, rfl⟩⟩
  simp [Ex.magicTwice, Ex.cls, Layer.WF, Dict.keys]

/-- The hypotheses can be met: class 3 is concrete, inherits method 1 and provides the abstract attribute 5. -/
example : StrictBuilt Ex.mag Ex.absName (Ex.world Ex.good) ∧ SingleInheritance (Ex.world Ex.good) ∧
    NoShadowing (Ex.world Ex.good) ∧ mroOf (Ex.world Ex.good) 3 = [3, 2, 1, 0] ∧ Implements (Ex.world Ex.good) 2 1 ∧
    ((Ex.world Ex.good).map Cls.isAbstract) = [false, true, true, false] := by
  have hw : ∀ (i : Nat) (c : Cls Nat), (Ex.world Ex.good)[i]? = some c → i = 0 ∧ c.bases = [] ∨
      (i = 1 ∧ c.bases = [0] ∨ i = 2 ∧ c.bases = [1] ∨
        i = 3 ∧ c.bases = [2] ∧ c.body.dict = [(2, .func false)]) := by
    intro i c hi
    rcases i with _ | _ | _ | _ | i
    · cases hi; exact .inl ⟨rfl, rfl⟩
    · cases hi; exact .inr (.inl ⟨rfl, rfl⟩)
    · cases hi; exact .inr (.inr (.inl ⟨rfl, rfl⟩))
    · cases hi; exact .inr (.inr (.inr ⟨rfl, rfl, rfl⟩))
    · have : (Ex.world Ex.good).length = 4 := rfl
      have := (List.getElem?_eq_some_iff.1 hi).1
      omega
  refine ⟨strictBuilt_of_build (name := 30) (ds := Ex.good) ?_ rfl, ?_, ?_, rfl, ⟨_, rfl, rfl⟩, rfl⟩
  · simp [Ex.good, Ex.cls, Layer.WF, Dict.keys]
  · intro i c hi h0
    rcases hw i c hi with h | h | h | h
    · exact absurd h.1 h0
    · exact ⟨_, h.2⟩
    · exact ⟨_, h.2⟩
    · exact ⟨_, h.2.1⟩
  · intro i c b k a hi hb hg ha j hl
    rcases hw i c hi with h | ⟨rfl, h⟩ | ⟨rfl, h⟩ | ⟨rfl, h, h'⟩
    · rw [h.2] at hb; simp at hb
    · rw [h] at hb; simp at hb; subst hb
      cases hl
    · rw [h] at hb; simp at hb; subst hb
      have : lookup (Ex.world Ex.good) (mroOf (Ex.world Ex.good) 1) k =
        if 1 = k then some (1, .func true) else if 2 = k then some (1, .func true) else none := by
        by_cases h1 : 1 = k
        · subst h1; rfl
        · by_cases h2 : 2 = k
          · subst h2; rfl
          · rw [if_neg h1, if_neg h2]
            show (match (if 1 = k then some (Attr.func true) else if 2 = k then some (Attr.func true) else none) with
              | some a => some (1, a)
              | none => none) = none
            rw [if_neg h1, if_neg h2]
      rw [this] at hl
      split at hl
      · cases hl
      · split at hl
        · cases hl
        · cases hl
    · rw [h'] at hg
      simp only [Dict.get?] at hg
      split at hg
      · cases hg; exact ha rfl
      · cases hg

end Verif.Module
