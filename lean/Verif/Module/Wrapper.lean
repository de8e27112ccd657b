import Verif.Module.InstanceProps

/-!
# `module_update_wrapper` (`equinox/_module.py:1063-1143`)

The temporary change of the class of the copy is not modelled: in between, only the assignments below happen, and the
class is restored whatever they raise. That the new instance's `__setattr__` accepts these names is `field_names =
_wrapper_field_names` (771). The names are assumed not to be properties of the class.
-/

namespace Verif.Module

variable {N C V : Type} [DecidableEq N]

/-- The loop over `_wrapper_field_names` (1134-1140). -/
def copyWrapped (look : N → Option V) : List N → Dict N V → Dict N V
  | [], d => d
  | n :: ns, d =>
    match look n with
    | none => copyWrapped look ns d
    | some v => copyWrapped look ns (d.insert n v)

/-- `module_update_wrapper`: `hasWrapped` says that `__wrapped__` is a property of the class, `look` is `getattr` on the
wrapped object. Copies of the children are described by `module_round_trip`. -/
def updateWrapper (info : Info N C V) (hasWrapped : C → Bool) (look : N → Option V) (c : C) (d : Dict N V) :
    Except Err (Dict N V) :=
  if hasWrapped c then
    .ok (copyWrapped look info.wrapper (unflattenModule (flattenModule info c d).2 (flattenModule info c d).1))
  else .error .valueError

theorem copyWrapped_get (look : N → Option V) (ns : List N) (d : Dict N V) (n : N) :
    (copyWrapped look ns d).get? n = if n ∈ ns then (look n).or (d.get? n) else d.get? n := by
  induction ns generalizing d with
  | nil => simp [copyWrapped]
  | cons m ns ih =>
    simp only [copyWrapped]
    cases hm : look m with
    | none =>
      simp only [ih]
      by_cases hmn : n = m
      · subst hmn; simp [hm]
      · simp [hmn]
    | some v =>
      simp only [ih, Dict.get?_insert]
      by_cases hmn : n = m
      · subst hmn; simp [hm]
      · simp [hmn, Ne.symm hmn]

/-- **C58**: the copy has the metadata of the wrapped object where that has some, and otherwise looks like the original. -/
theorem update_wrapper_attrs {info : Info N C V} (hok : info.OK) {hasWrapped : C → Bool} {look : N → Option V} {c : C}
    {d r : Dict N V} (hd : ∀ n v, d.get? n = some v → IsDyn info c n ∨ IsStat info c n ∨ n ∈ info.wrapper)
    (h : updateWrapper info hasWrapped look c d = .ok r) (n : N) :
    getattr info c r n = if n ∈ info.wrapper then (look n).or (getattr info c d n) else getattr info c d n := by
  simp only [updateWrapper] at h
  split at h
  · cases h
    have h1 := (unflatten_flatten hok (c := c) hd).1 n
    rw [← h1]
    unfold getattr
    simp only [copyWrapped_get]
    by_cases hw : n ∈ info.wrapper
    · simp only [if_pos hw]
      cases look n <;> simp
    · simp only [if_neg hw]
  · cases h

/-- **C58**: the copy has the same children and the same static values: only wrapper names change. -/
theorem update_wrapper_children {info : Info N C V} (hok : info.OK) (hdis : info.Disjoint) {hasWrapped : C → Bool}
    {look : N → Option V} {c : C} {d r : Dict N V} (h : updateWrapper info hasWrapped look c d = .ok r) :
    (flattenModule info c r).1 = (flattenModule info c d).1 ∧
    (flattenModule info c r).2.dynamicNames = (flattenModule info c d).2.dynamicNames ∧
    (flattenModule info c r).2.staticNames = (flattenModule info c d).2.staticNames ∧
    (flattenModule info c r).2.staticValues = (flattenModule info c d).2.staticValues := by
  simp only [updateWrapper] at h
  split at h
  · cases h
    have h1 := flatten_unflatten hok hdis (c := c) (d := d) (vs := (flattenModule info c d).1) rfl
    have h2 : flattenFields (copyWrapped look info.wrapper (unflattenModule (flattenModule info c d).2 (flattenModule info c d).1))
        (info.fields c) = flattenFields (unflattenModule (flattenModule info c d).2 (flattenModule info c d).1) (info.fields c) := by
      have := hdis c
      revert this
      generalize info.fields c = fs
      intro hfs
      induction fs with
      | nil => rfl
      | cons f fs ih =>
        have ih := ih (fun g hg => hfs g (List.mem_cons_of_mem _ hg))
        simp only [flattenFields, copyWrapped_get, if_neg (hfs f (by simp)), ih]
    have h3 := congrArg (fun p => (p.1, p.2.dynamicNames, p.2.staticNames, p.2.staticValues)) h1
    simp only [flattenModule] at h3 h2 ⊢
    rw [h2]
    simp only [Prod.mk.injEq] at h3
    exact h3
  · cases h

/-- **C58**: a class without a property `__wrapped__` is refused, any other is accepted. -/
theorem update_wrapper_ok_iff (info : Info N C V) (hasWrapped : C → Bool) (look : N → Option V) (c : C) (d : Dict N V) :
    ((∃ r, updateWrapper info hasWrapped look c d = .ok r) ↔ hasWrapped c = true) ∧
    (hasWrapped c = false → updateWrapper info hasWrapped look c d = .error .valueError) := by
  unfold updateWrapper
  cases hasWrapped c <;> simp

/-- **C58**: wrapping twice is the same as wrapping by what the second wrapped object has, then the first. -/
theorem update_wrapper_twice {info : Info N C V} (hok : info.OK) {hasWrapped : C → Bool} {look look' : N → Option V} {c : C}
    {d r s : Dict N V} (hd : ∀ n v, d.get? n = some v → IsDyn info c n ∨ IsStat info c n ∨ n ∈ info.wrapper)
    (h : updateWrapper info hasWrapped look c d = .ok r) (h' : updateWrapper info hasWrapped look' c r = .ok s) (n : N) :
    getattr info c s n = if n ∈ info.wrapper then (look' n).or ((look n).or (getattr info c d n)) else getattr info c d n := by
  have hr : ∀ n v, r.get? n = some v → IsDyn info c n ∨ IsStat info c n ∨ n ∈ info.wrapper := by
    intro m v hm
    by_cases hw : m ∈ info.wrapper
    · exact .inr (.inr hw)
    · have h1 := (unflatten_flatten hok (c := c) hd).2 m hw
      simp only [updateWrapper] at h
      split at h
      · cases h
        rw [copyWrapped_get, if_neg hw, h1] at hm
        exact hd m v hm
      · cases h
  rw [update_wrapper_attrs hok hr h', update_wrapper_attrs hok hd h]
  by_cases hw : n ∈ info.wrapper <;> simp [hw]

/-- The hypotheses can be met: a wrapper with one field (name 0); the wrapped object has name 10 but not 11. -/
example :
    let info : Info Nat Unit Nat := ⟨fun _ => [⟨0, false⟩], [10, 11], fun _ n => if n = 11 then some 7 else none⟩
    info.OK ∧ info.Disjoint ∧
    updateWrapper info (fun _ => true) (fun n => if n = 10 then some 99 else none) () [(0, 5)] = .ok [(0, 5), (11, 7), (10, 99)] := by
  refine ⟨⟨fun _ => by simp, by simp⟩, ?_, rfl⟩
  intro c f hf
  simp only [List.mem_cons, List.not_mem_nil, or_false] at hf
  subst hf
  simp

end Verif.Module
