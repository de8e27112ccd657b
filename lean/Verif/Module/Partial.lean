import Verif.Basic
import Verif.Dict

/-!
# `Partial` and `BoundMethod` (`equinox/_module.py:1032-1055`, `1146-1185`)

A callable takes positional arguments and keyword arguments, in the order in which they are passed.
-/

namespace Verif.Module

/-- A Python callable. -/
abbrev Callable (V : Type) := List V → Dict String V → Except Err V

/-- `Partial`: its three fields (1157-1159). -/
structure Partial (V : Type) where
  func : Callable V
  args : List V
  keywords : Dict String V

variable {V : Type}

/-- `Partial(func, *args, **kwargs)` (1161-1170). The metaclass' `__call__(cls, *args, **kwargs)` (501) receives the
keywords first, so one called `cls` is refused by Python; `self` and `func` are positional only. -/
def Partial.mk' (func : Callable V) (args : List V) (kwargs : Dict String V) : Except Err (Partial V) :=
  if "cls" ∈ kwargs.keys then .error .typeError else .ok ⟨func, args, kwargs⟩

/-- `func(*args, **l, **k)`: Python refuses keywords that are given twice. -/
def callStar (func : Callable V) (args : List V) (l k : Dict String V) : Except Err V :=
  if k.keys.any (fun n => n ∈ l.keys) then .error .typeError else func args (l ++ k)

/-- `Partial.__call__` (1172-1185). `self` can be passed by keyword, but is given already. -/
def Partial.call (p : Partial V) : Callable V := fun args kwargs =>
  if "self" ∈ kwargs.keys then .error .typeError
  else callStar p.func (p.args ++ args) kwargs p.keywords

/-- `BoundMethod.__call__` (1041-1043). -/
def boundCall (func : Callable V) (self : V) : Callable V := fun args kwargs =>
  if "self" ∈ kwargs.keys then .error .typeError else func (self :: args) kwargs

/-- The keywords have no name in common. -/
def DisjointKeys (l k : Dict String V) : Prop := ∀ n ∈ k.keys, n ∉ l.keys

theorem any_iff (l k : Dict String V) : k.keys.any (fun n => n ∈ l.keys) = false ↔ DisjointKeys l k := by
  simp [DisjointKeys]

/-- **C37**: anything can be partially applied, except that no keyword may be called `cls`. -/
theorem partial_made (f : Callable V) (a : List V) (k : Dict String V) :
    ("cls" ∉ k.keys → ∃ p, Partial.mk' f a k = .ok p ∧ p.func = f ∧ p.args = a ∧ p.keywords = k) ∧
    ("cls" ∈ k.keys → Partial.mk' f a k = .error .typeError) :=
  ⟨fun h => ⟨_, if_neg h, rfl, rfl, rfl⟩, fun h => if_pos h⟩

/-- **C37**: the stored arguments come first, then those of the call; keywords of both are passed. -/
theorem partial_call {f : Callable V} {a : List V} {k : Dict String V} {p : Partial V} (hp : Partial.mk' f a k = .ok p)
    (b : List V) {l : Dict String V} (hself : "self" ∉ l.keys) (hd : DisjointKeys l k) :
    p.call b l = f (a ++ b) (l ++ k) := by
  simp only [Partial.mk'] at hp
  split at hp
  · cases hp
  · cases hp
    simp only [Partial.call, if_neg hself, callStar, (any_iff l k).2 hd]
    simp

/-- **C37**: every keyword reaches the function with the value it was given. -/
theorem partial_keywords {k l : Dict String V} (hd : DisjointKeys l k) (n : String) :
    (n ∈ k.keys → Dict.get? (l ++ k) n = k.get? n) ∧ (n ∈ l.keys → Dict.get? (l ++ k) n = l.get? n) := by
  have happ : ∀ l : Dict String V, Dict.get? (l ++ k) n = (l.get? n).or (k.get? n) := by
    intro l
    induction l with
    | nil => simp [Dict.get?]
    | cons q l ih =>
      simp only [List.cons_append, Dict.get?]
      split
      · simp
      · exact ih
  rw [happ]
  constructor
  · intro h
    rw [(Dict.get?_eq_none_iff l n).2 (hd n h)]; simp
  · intro h
    have := (Dict.get?_isSome_iff l n).2 h
    cases hg : l.get? n with
    | none => rw [hg] at this; cases this
    | some v => simp

/-- **C37**: a keyword given both times raises `TypeError`, and the function is not called. -/
theorem partial_duplicate {f : Callable V} {a : List V} {k : Dict String V} {p : Partial V} (hp : Partial.mk' f a k = .ok p)
    (b : List V) {l : Dict String V} {n : String} (hk : n ∈ k.keys) (hl : n ∈ l.keys) : p.call b l = .error .typeError := by
  simp only [Partial.mk'] at hp
  split at hp
  · cases hp
  · cases hp
    have hany : k.keys.any (fun n => n ∈ l.keys) = true := List.any_eq_true.2 ⟨n, hk, by simpa using hl⟩
    simp only [Partial.call, callStar, hany]
    simp

/-- **C37**: a `Partial` of a `Partial` is the `Partial` with both lists of arguments. -/
theorem partial_nested {f : Callable V} {a a' : List V} {k k' : Dict String V} {p q : Partial V}
    (hp : Partial.mk' f a k = .ok p) (hq : Partial.mk' p.call a' k' = .ok q) (hself : "self" ∉ k'.keys)
    (hd : DisjointKeys k' k) :
    ∃ r, Partial.mk' f (a ++ a') (k' ++ k) = .ok r ∧ ∀ b l, q.call b l = r.call b l := by
  simp only [Partial.mk'] at hp hq
  split at hp
  · cases hp
  · split at hq
    · cases hq
    · rename_i hc hc'
      cases hp; cases hq
      refine ⟨⟨f, a ++ a', k' ++ k⟩, ?_, ?_⟩
      · rw [Partial.mk', if_neg]
        simp only [Dict.keys, List.map_append, List.mem_append] at hc hc' ⊢
        rintro (h | h)
        · exact hc' h
        · exact hc h
      · intro b l
        simp only [Partial.call]
        by_cases hs : "self" ∈ l.keys
        · rw [if_pos hs, if_pos hs]
        · rw [if_neg hs, if_neg hs]
          simp only [callStar]
          have hkeys : ∀ x y : Dict String V, Dict.keys (x ++ y) = x.keys ++ y.keys := fun x y => by simp [Dict.keys]
          by_cases h1 : k'.keys.any (fun n => n ∈ l.keys) = true
          · rw [if_pos h1, if_pos]
            rw [hkeys, List.any_append, h1]; rfl
          · have h1' : k'.keys.any (fun n => n ∈ l.keys) = false := by simpa using h1
            rw [if_neg h1]
            have hs' : "self" ∉ Dict.keys (l ++ k') := by
              rw [hkeys]; simp only [List.mem_append]; rintro (h | h)
              · exact hs h
              · exact hself h
            simp only [Partial.call, callStar]
            rw [if_neg hs']
            by_cases h2 : k.keys.any (fun n => n ∈ l.keys) = true
            · rw [if_pos, if_pos]
              · rw [hkeys, List.any_append, h2, Bool.or_true]
              · obtain ⟨n, hn, hnl⟩ := List.any_eq_true.1 h2
                refine List.any_eq_true.2 ⟨n, hn, ?_⟩
                rw [hkeys]; simp only [decide_eq_true_eq] at hnl ⊢
                exact List.mem_append_left _ hnl
            · have h2' : k.keys.any (fun n => n ∈ l.keys) = false := by simpa using h2
              rw [if_neg, if_neg]
              · simp [List.append_assoc]
              · rw [hkeys, List.any_append, h1', h2']; simp
              · intro hany
                obtain ⟨n, hn, hnl⟩ := List.any_eq_true.1 hany
                rw [hkeys] at hnl
                simp only [decide_eq_true_eq, List.mem_append] at hnl
                rcases hnl with h | h
                · exact h2 (List.any_eq_true.2 ⟨n, hn, by simpa using h⟩)
                · exact hd n hn h

/-- Nesting with a keyword in common raises on every call. -/
theorem partial_nested_duplicate {f : Callable V} {a a' : List V} {k k' : Dict String V} {p q : Partial V}
    (hp : Partial.mk' f a k = .ok p) (hq : Partial.mk' p.call a' k' = .ok q) {n : String} (hk : n ∈ k.keys) (hk' : n ∈ k'.keys)
    (b : List V) (l : Dict String V) : q.call b l = .error .typeError := by
  have hq' : q = ⟨p.call, a', k'⟩ := by
    simp only [Partial.mk'] at hq
    split at hq
    · cases hq
    · cases hq; rfl
  subst hq'
  simp only [Partial.call]
  split
  · rfl
  · simp only [callStar]
    split
    · rfl
    · exact partial_duplicate hp _ hk (by simp only [Dict.keys, List.map_append, List.mem_append]; exact .inr hk')

/-- **C37**: bound methods pass their instance first. -/
theorem bound_call (f : Callable V) (s : V) (b : List V) {l : Dict String V} (h : "self" ∉ l.keys) :
    boundCall f s b l = f (s :: b) l := by
  simp only [boundCall, if_neg h]

/-- So a bound method is a `Partial` that holds the instance. -/
theorem bound_eq_partial (f : Callable V) (s : V) : ∃ p, Partial.mk' f [s] [] = .ok p ∧ ∀ b l, boundCall f s b l = p.call b l := by
  refine ⟨⟨f, [s], []⟩, by simp [Partial.mk', Dict.keys], ?_⟩
  intro b l
  simp only [boundCall, Partial.call, callStar]
  split
  · rfl
  · simp [Dict.keys]

/-- The hypotheses can be met. -/
example :
    let f : Callable Nat := fun a k => .ok (a.foldl (fun s x => 10 * s + x) 0 + 1000 * (k.foldl (fun s x => 10 * s + x.2) 0))
    ∃ p q, Partial.mk' f [1] [("x", 2)] = .ok p ∧ Partial.mk' p.call [3] [("y", 4)] = .ok q ∧
      q.call [5] [("z", 6)] = .ok 642135 ∧ q.call [5] [("x", 6)] = .error .typeError :=
  ⟨_, _, rfl, rfl, rfl, rfl⟩

end Verif.Module
