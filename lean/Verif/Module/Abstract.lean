import Verif.Module.Class

/-! # C34: abstract attributes must be provided -/

namespace Verif.Module

variable {N : Type} [DecidableEq N]

/-! ### Specification -/

/-- The class says that instances have an attribute `n`, to be provided by a subclass. -/
def Layer.DeclaresVar (l : Layer N) (n : N) : Prop := l.ann.get? n = some .abstractVar

/-- The class says that subclasses have a class attribute `n`. -/
def Layer.DeclaresClassVar (l : Layer N) (n : N) : Prop := l.ann.get? n = some .abstractClassVar

/-- The class provides a class attribute `n`: it binds the name, or annotates it with `ClassVar`. -/
def Layer.ProvidesClassVar (l : Layer N) (n : N) : Prop := n ∈ l.dict.keys ∨ l.ann.get? n = some .classVar

/-- The class provides an attribute `n`: a field, a property, or a class attribute. -/
def Layer.ProvidesVar (l : Layer N) (n : N) : Prop := l.ProvidesClassVar n ∨ l.ann.get? n = some .plain

/-- Every abstract attribute declared by some class of the method resolution order is provided by a class before it. -/
def AllProvided (layers : List (Layer N)) : Prop :=
  ∀ (p : Nat) (l : Layer N) (n : N), layers[p]? = some l →
    (l.DeclaresVar n → ∃ (q : Nat) (l' : Layer N), q < p ∧ layers[q]? = some l' ∧ l'.ProvidesVar n) ∧
    (l.DeclaresClassVar n → ∃ (q : Nat) (l' : Layer N), q < p ∧ layers[q]? = some l' ∧ l'.ProvidesClassVar n)

/-- Annotations are a dictionary. -/
def Layer.WF (l : Layer N) : Prop := (Dict.keys l.ann).Nodup

/-! ### The computation -/

omit [DecidableEq N] in
theorem mem_discard [DecidableEq N] {s : List N} {n m : N} : m ∈ discard s n ↔ m ∈ s ∧ m ≠ n := by
  simp [discard]

theorem mem_add {s : List N} {n m : N} : m ∈ add s n ↔ m ∈ s ∨ m = n := by
  unfold add
  split
  · rename_i h
    constructor
    · exact .inl
    · rintro (h' | rfl)
      · exact h'
      · exact h
  · simp

theorem mem_foldl_discard {ks s : List N} {m : N} : m ∈ ks.foldl discard s ↔ m ∈ s ∧ m ∉ ks := by
  induction ks generalizing s with
  | nil => simp
  | cons k ks ih =>
    simp only [List.foldl_cons, ih, mem_discard, List.mem_cons, not_or]
    constructor
    · rintro ⟨⟨h1, h2⟩, h3⟩; exact ⟨h1, h2, h3⟩
    · rintro ⟨h1, h2, h3⟩; exact ⟨⟨h1, h2⟩, h3⟩

/-- What one annotation does to the two sets, for the name annotated. -/
def annEffect (a : Ann) (s : Prop × Prop) : Prop × Prop :=
  match a with
  | .abstractVar => (s.1 ∨ ¬ s.2, s.2)
  | .abstractClassVar => (False, True)
  | .classVar => (False, False)
  | .plain => (False, s.2)
  | _ => s

theorem annStep_ok {dict : Dict N Attr} {s s' : Abs N} {p : N × Ann} (h : annStep dict s p = .ok s') :
    (∀ m, m ≠ p.1 → (m ∈ s'.1 ↔ m ∈ s.1) ∧ (m ∈ s'.2 ↔ m ∈ s.2)) ∧
    (p.1 ∈ s'.1 ↔ (annEffect p.2 (p.1 ∈ s.1, p.1 ∈ s.2)).1) ∧
    (p.1 ∈ s'.2 ↔ (annEffect p.2 (p.1 ∈ s.1, p.1 ∈ s.2)).2) ∧
    (p.2 = .abstractVar ∨ p.2 = .abstractClassVar → p.1 ∉ dict.keys) ∧ p.2 ≠ .malformed ∧ p.2 ≠ .stringified := by
  obtain ⟨n, a⟩ := p
  cases a <;> simp only [annStep, processAnnotation, bind, Except.bind, if_true, if_false, Bool.false_eq_true] at h
  · split at h
    · cases h
    · rename_i hd
      split at h
      · rename_i hs
        cases h
        simp [annEffect, hs, hd]
      · rename_i hs
        cases h
        refine ⟨fun m hm => ⟨by simp [mem_add, hm], Iff.rfl⟩, ?_, ?_, ?_⟩
        · simp [mem_add, annEffect, hs]
        · simp [annEffect]
        · simp [hd]
  · split at h
    · cases h
    · rename_i hd
      cases h
      refine ⟨fun m hm => ⟨by simp [mem_discard, hm], by simp [mem_add, hm]⟩, ?_, ?_, ?_⟩
      · simp [mem_discard, annEffect]
      · simp [mem_add, annEffect]
      · simp [hd]
  · cases h
    refine ⟨fun m hm => ⟨by simp [mem_discard, hm], by simp [mem_discard, hm]⟩, ?_, ?_, ?_⟩ <;>
      simp [mem_discard, annEffect]
  · cases h
    refine ⟨fun m hm => ⟨by simp [mem_discard, hm], Iff.rfl⟩, ?_, ?_, ?_⟩ <;> simp [mem_discard, annEffect]
  · cases h
  · cases h

theorem annLoop_ok {dict : Dict N Attr} {ann : Dict N Ann} (hw : (Dict.keys ann).Nodup) {s s' : Abs N}
    (h : annLoop dict s ann = .ok s') (n : N) :
    (match ann.get? n with
      | some a => (n ∈ s'.1 ↔ (annEffect a (n ∈ s.1, n ∈ s.2)).1) ∧ (n ∈ s'.2 ↔ (annEffect a (n ∈ s.1, n ∈ s.2)).2) ∧
          (a = .abstractVar ∨ a = .abstractClassVar → n ∉ dict.keys) ∧ a ≠ .malformed ∧ a ≠ .stringified
      | none => (n ∈ s'.1 ↔ n ∈ s.1) ∧ (n ∈ s'.2 ↔ n ∈ s.2)) := by
  induction ann generalizing s with
  | nil => simp only [annLoop] at h; cases h; exact ⟨Iff.rfl, Iff.rfl⟩
  | cons p ps ih =>
    simp only [annLoop, bind, Except.bind] at h
    split at h
    · cases h
    · rename_i t ht
      have hp := annStep_ok ht
      simp only [Dict.keys, List.map_cons, List.nodup_cons] at hw
      have ih' := ih hw.2 h
      simp only [Dict.get?]
      by_cases hn : p.1 = n
      · subst hn
        have hg : Dict.get? ps p.1 = none := (Dict.get?_eq_none_iff _ _).2 hw.1
        rw [hg] at ih'
        simp only [if_true]
        exact ⟨ih'.1.trans hp.2.1, ih'.2.trans hp.2.2.1, hp.2.2.2⟩
      · have h1 := hp.1 n (Ne.symm hn)
        rw [if_neg hn]
        cases hg : Dict.get? ps n with
        | none => rw [hg] at ih'; exact ⟨ih'.1.trans h1.1, ih'.2.trans h1.2⟩
        | some a =>
          rw [hg] at ih'
          dsimp only at ih' ⊢
          rw [propext h1.1, propext h1.2] at ih'
          exact ih'

/-- What one class does to the two sets. -/
theorem layerStep_ok {l : Layer N} (hw : l.WF) {s s' : Abs N} (h : layerStep l s = .ok s') (n : N) :
    (n ∈ s'.2 ↔ l.DeclaresClassVar n ∨ (n ∈ s.2 ∧ ¬ l.ProvidesClassVar n)) ∧
    (n ∈ s'.1 ↔ (l.DeclaresVar n ∧ (n ∈ s.1 ∨ n ∉ s.2)) ∨ (n ∈ s.1 ∧ ¬ l.ProvidesVar n ∧ ¬ l.DeclaresClassVar n)) ∧
    (l.DeclaresVar n ∨ l.DeclaresClassVar n → ¬ l.ProvidesVar n) := by
  simp only [layerStep, bind, Except.bind, pure, Except.pure] at h
  split at h
  · cases h
  · rename_i t ht
    have ha := annLoop_ok hw ht n
    cases h
    simp only [mem_foldl_discard]
    unfold Layer.DeclaresVar Layer.DeclaresClassVar Layer.ProvidesVar Layer.ProvidesClassVar
    cases hg : l.ann.get? n with
    | none =>
      rw [hg] at ha
      dsimp only at ha
      rw [ha.1, ha.2]
      simp only [reduceCtorEq, false_and, or_false, false_or, not_false_eq_true, and_true, false_imp_iff, and_self]
    | some a =>
      rw [hg] at ha
      obtain ⟨h1, h2, h3, h4, h5⟩ := ha
      rw [h1, h2]
      by_cases hd : n ∈ l.dict.keys <;> by_cases hs1 : n ∈ s.1 <;> by_cases hs2 : n ∈ s.2 <;>
        cases a <;> simp_all [annEffect]

theorem abstractScan_cons {l : Layer N} {ls : List (Layer N)} {s' : Abs N} (h : abstractScan (l :: ls) = .ok s') :
    ∃ s, abstractScan ls = .ok s ∧ layerStep l s = .ok s' := by
  simp only [abstractScan, bind, Except.bind] at h
  split at h
  · cases h
  · rename_i s hs; exact ⟨s, hs, h⟩

/-- `AllProvided` for one name. -/
def ProvidedAt (n : N) (layers : List (Layer N)) : Prop :=
  ∀ (p : Nat) (l : Layer N), layers[p]? = some l →
    (l.DeclaresVar n → ∃ (q : Nat) (l' : Layer N), q < p ∧ layers[q]? = some l' ∧ l'.ProvidesVar n) ∧
    (l.DeclaresClassVar n → ∃ (q : Nat) (l' : Layer N), q < p ∧ layers[q]? = some l' ∧ l'.ProvidesClassVar n)

/-- As `ProvidedAt`, for the class variables alone. -/
def ClassVarsProvidedAt (n : N) (layers : List (Layer N)) : Prop :=
  ∀ (p : Nat) (l : Layer N), layers[p]? = some l →
    (l.DeclaresClassVar n → ∃ (q : Nat) (l' : Layer N), q < p ∧ layers[q]? = some l' ∧ l'.ProvidesClassVar n)

omit [DecidableEq N] in
theorem exists_cons_iff {ls : List (Layer N)} {l : Layer N} {p : Nat} {P : Layer N → Prop} :
    (∃ (q : Nat) (l' : Layer N), q < p + 1 ∧ (l :: ls)[q]? = some l' ∧ P l') ↔
      P l ∨ ∃ (q : Nat) (l' : Layer N), q < p ∧ ls[q]? = some l' ∧ P l' := by
  constructor
  · rintro ⟨q, l', hq, hl, h⟩
    cases q with
    | zero => simp at hl; subst hl; exact .inl h
    | succ q => exact .inr ⟨q, l', by omega, by simpa using hl, h⟩
  · rintro (h | ⟨q, l', hq, hl, h⟩)
    · exact ⟨0, l, by omega, by simp, h⟩
    · exact ⟨q + 1, l', by omega, by simpa using hl, h⟩

theorem classVars_cons {n : N} {l : Layer N} {ls : List (Layer N)} :
    ClassVarsProvidedAt n (l :: ls) ↔
      ¬ l.DeclaresClassVar n ∧ (l.ProvidesClassVar n ∨ ClassVarsProvidedAt n ls) := by
  constructor
  · intro h
    constructor
    · intro hd
      obtain ⟨q, _, hq, _⟩ := h 0 l (by simp) hd
      omega
    · by_cases hp : l.ProvidesClassVar n
      · exact .inl hp
      · right
        intro p l' hl hd
        have := h (p + 1) l' (by simpa using hl) hd
        exact (exists_cons_iff.1 this).resolve_left hp
  · rintro ⟨h1, h2⟩ p l' hl hd
    cases p with
    | zero => simp at hl; subst hl; exact absurd hd h1
    | succ p =>
      rw [exists_cons_iff]
      rcases h2 with h2 | h2
      · exact .inl h2
      · exact .inr (h2 p l' (by simpa using hl) hd)

theorem provided_cons {n : N} {l : Layer N} {ls : List (Layer N)} :
    ProvidedAt n (l :: ls) ↔ ¬ l.DeclaresVar n ∧ ¬ l.DeclaresClassVar n ∧
      (l.ProvidesClassVar n ∨ (l.ProvidesVar n ∧ ClassVarsProvidedAt n ls) ∨ ProvidedAt n ls) := by
  constructor
  · intro h
    refine ⟨?_, ?_, ?_⟩
    · intro hd
      obtain ⟨q, _, hq, _⟩ := (h 0 l (by simp)).1 hd
      omega
    · intro hd
      obtain ⟨q, _, hq, _⟩ := (h 0 l (by simp)).2 hd
      omega
    · by_cases hp : l.ProvidesClassVar n
      · exact .inl hp
      · right
        by_cases hv : l.ProvidesVar n
        · left
          refine ⟨hv, fun p l' hl hd => ?_⟩
          exact (exists_cons_iff.1 ((h (p + 1) l' (by simpa using hl)).2 hd)).resolve_left hp
        · right
          intro p l' hl
          have := h (p + 1) l' (by simpa using hl)
          exact ⟨fun hd => (exists_cons_iff.1 (this.1 hd)).resolve_left hv,
            fun hd => (exists_cons_iff.1 (this.2 hd)).resolve_left hp⟩
  · rintro ⟨h1, h2, h3⟩ p l' hl
    cases p with
    | zero => simp at hl; subst hl; exact ⟨fun h => absurd h h1, fun h => absurd h h2⟩
    | succ p =>
      have hl' : ls[p]? = some l' := by simpa using hl
      simp only [exists_cons_iff]
      rcases h3 with h3 | ⟨h3, h4⟩ | h3
      · exact ⟨fun _ => .inl (.inl h3), fun _ => .inl h3⟩
      · exact ⟨fun _ => .inl h3, fun hd => .inr (h4 p l' hl' hd)⟩
      · exact ⟨fun hd => .inr ((h3 p l' hl').1 hd), fun hd => .inr ((h3 p l' hl').2 hd)⟩

theorem provided_classVars {n : N} {ls : List (Layer N)} (h : ProvidedAt n ls) : ClassVarsProvidedAt n ls :=
  fun p l hl hd => (h p l hl).2 hd

/-- The two sets, name by name. -/
theorem abstractScan_ok {ls : List (Layer N)} (hw : ∀ l ∈ ls, l.WF) {s : Abs N} (h : abstractScan ls = .ok s) (n : N) :
    (n ∉ s.2 ↔ ClassVarsProvidedAt n ls) ∧ (n ∉ s.1 ∧ n ∉ s.2 ↔ ProvidedAt n ls) := by
  induction ls generalizing s with
  | nil =>
    simp only [abstractScan] at h
    cases h
    simp only [List.not_mem_nil, not_false_eq_true, and_self, true_iff]
    exact ⟨fun p l hl => by simp at hl, fun p l hl => by simp at hl⟩
  | cons l ls ih =>
    obtain ⟨t, ht, hs⟩ := abstractScan_cons h
    obtain ⟨ih1, ih2⟩ := ih (fun x hx => hw x (List.mem_cons_of_mem _ hx)) ht
    obtain ⟨h1, h2, h3⟩ := layerStep_ok (hw l (by simp)) hs n
    rw [classVars_cons, provided_cons, ← ih1, ← ih2, h1, h2]
    have hpv : l.ProvidesClassVar n → l.ProvidesVar n := .inl
    have hdd : l.DeclaresVar n → ¬ l.DeclaresClassVar n := by
      intro a b; unfold Layer.DeclaresVar Layer.DeclaresClassVar at *; rw [a] at b; cases b
    generalize l.ProvidesClassVar n = A at *
    generalize l.ProvidesVar n = B at *
    generalize l.DeclaresVar n = C at *
    generalize l.DeclaresClassVar n = D at *
    generalize (n ∈ t.1) = E at *
    generalize (n ∈ t.2) = F at *
    by_cases hA : A <;> by_cases hB : B <;> by_cases hC : C <;> by_cases hD : D <;> by_cases hE : E <;> by_cases hF : F <;>
      simp_all

end Verif.Module
