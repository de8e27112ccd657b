import Verif.AD.Model
import Verif.PyTree.Closed
import Verif.PyTree.Maps

/-! # Lemmas about taking arguments apart and putting them together again -/

namespace Verif
namespace AD

open PT Filters

variable {K α β γ : Type}

theorem unflatten_leaves' {d : PT K β} {ls : List α} (h : ls.length = d.leaves.length) :
    ∃ t : PT K α, t.shape = d.shape ∧ t.leaves = ls ∧ treeUnflatten d.shape (ls.map fun a => .leaf a) = .ok t := by
  obtain ⟨t, h1, h2⟩ := exists_fill d ls h
  refine ⟨t, h1, h2, ?_⟩
  have := treeUnflatten_shape (t.map fun l => (.leaf l : PT K α))
  rwa [shape_map, leaves_map, h1, h2, join_map_leaf] at this

theorem unflatten_ok {d : PT K β} {ls : List α} {t : PT K α}
    (h : treeUnflatten d.shape (ls.map fun a => .leaf a) = .ok t) : t.shape = d.shape ∧ t.leaves = ls := by
  obtain ⟨c, h1, h2, rfl⟩ := treeUnflatten_ok h
  have hl : ls.length = d.leaves.length := by
    have e1 := length_leaves_of_shape h1
    rw [h2] at e1
    simpa [shape, leaves_map] using e1
  obtain ⟨t, e1, e2, e3⟩ := unflatten_leaves' hl
  rw [h] at e3
  cases e3
  exact ⟨e1, e2⟩

/-- Two trees of the same structure as one tree of pairs. -/
theorem exists_pair {s : PT K α} {t : PT K β} (h : s.shape = t.shape) :
    ∃ m : PT K (α × β), m.map Prod.fst = s ∧ m.map Prod.snd = t := by
  have hl := length_leaves_of_shape h
  obtain ⟨m, h1, h2⟩ := exists_fill s (s.leaves.zip t.leaves) (by simp [hl])
  refine ⟨m, eq_of_shape_leaves (by rw [shape_map, h1]) ?_, eq_of_shape_leaves (by rw [shape_map, h1, h]) ?_⟩
  · rw [leaves_map, h2, List.map_fst_zip (by omega)]
  · rw [leaves_map, h2, List.map_snd_zip (by omega)]

theorem exists_path {t : PT K α} {a : α} (h : a ∈ t.leaves) : ∃ π, t.leafAt? π = some a := by
  induction t using ind with
  | leaf b => simp only [leaves, List.mem_singleton] at h; subst h; exact ⟨[], rfl⟩
  | none => simp [leaves] at h
  | node k cs ih =>
    simp only [leaves, leavesL_eq, List.mem_flatMap] at h
    obtain ⟨c, hc, ha⟩ := h
    obtain ⟨π, hπ⟩ := ih c hc ha
    obtain ⟨i, hi, rfl⟩ := List.getElem_of_mem hc
    refine ⟨i :: π, ?_⟩
    rw [leafAt?_eq_some] at hπ ⊢
    simpa [get?, List.getElem?_eq_getElem hi] using hπ

/-- A leaf if it satisfies `q`. -/
def keep (q : α → Bool) (a : α) : Option α := if q a then some a else Option.none

/-- A leaf if it does not satisfy `q`. -/
def drop (q : α → Bool) (a : α) : Option α := if q a then Option.none else some a

/-- `x'` is `x` with the leaves that satisfy `q` replaced by `ls`, in order. -/
structure Subst (q : α → Bool) (x : PT K α) (ls : List α) (x' : PT K α) : Prop where
  same : SameStructure x' x
  fixed : ∀ π a, x.leafAt? π = some a → q a = false → x'.leafAt? π = some a
  moved : ((x.leaves.zip x'.leaves).filter fun p => q p.1).map Prod.snd = ls

theorem subst_self (q : α → Bool) (x : PT K α) : Subst q x (x.leaves.filter q) x := by
  refine ⟨sameStructure_iff.2 rfl, fun π a h _ => h, ?_⟩
  induction x.leaves with
  | nil => rfl
  | cons a l ih => by_cases h : q a = true <;> simp_all [List.filter_cons]

theorem Subst.pair {q : α → Bool} {x x' : PT K α} {ls : List α} (h : Subst q x ls x') :
    ∃ m : PT K (α × α), m.map Prod.fst = x ∧ m.map Prod.snd = x' ∧ (∀ p ∈ m.leaves, q p.1 = false → p.2 = p.1) ∧
      (m.leaves.filterMap fun p => if q p.1 then some p.2 else Option.none) = ls := by
  obtain ⟨m, h1, h2⟩ := exists_pair (sameStructure_iff.1 h.same).symm
  refine ⟨m, h1, h2, ?_, ?_⟩
  · intro p hp hq
    obtain ⟨π, hπ⟩ := exists_path hp
    have := h.fixed π p.1 (by rw [← h1, leafAt?_map, hπ]; rfl) hq
    rw [← h2, leafAt?_map, hπ] at this
    simpa using this
  · rw [← h.moved, ← h1, ← h2, leaves_map, leaves_map]
    induction m.leaves with
    | nil => rfl
    | cons p l ih => by_cases hq : q p.1 = true <;> simp_all [List.filterMap_cons, List.filter_cons]

/-- Leaves put back in place of the ones that satisfy `q`. -/
theorem combine_subst [DecidableEq K] {q : α → Bool} {x x' : PT K α} {ls : List α} (h : Subst q x ls x') :
    ∃ d, treeUnflatten (withNones (x.map (keep q))).shape (ls.map fun a => .leaf a) = .ok d ∧
      combine noLeaf [d, withNones (x.map (drop q))] = .ok x' ∧
      combine noLeaf [withNones (x.map (drop q)), d] = .ok x' := by
  obtain ⟨m, rfl, rfl, h3, h4⟩ := h.pair
  let f : α × α → Option α := fun p => if q p.1 then some p.2 else Option.none
  let g : α × α → Option α := fun p => drop q p.1
  have e1 : (withNones (m.map f)).shape = (withNones ((m.map Prod.fst).map (keep q))).shape := by
    rw [map_map]
    apply shape_withNones
    intro p _
    simp only [f, keep, Function.comp]
    cases q p.1 <;> rfl
  have e2 : (withNones (m.map f)).leaves = ls := by rw [leaves_withNones]; exact h4
  have e3 := treeUnflatten_shape ((withNones (m.map f)).map fun l => (.leaf l : PT K α))
  rw [shape_map, leaves_map, e1, e2, join_map_leaf] at e3
  refine ⟨withNones (m.map f), e3, ?_, ?_⟩
  · have := combine_closed m [f, g] (by simp)
    simp only [List.map_cons, List.map_nil] at this
    rw [map_map]
    refine this.trans ?_
    rw [show m.map Prod.snd = withNones (m.map fun p => some p.2) from (withNones_some m _).symm]
    congr 2
    apply map_congr_leaves
    intro p hp
    by_cases hq : q p.1 = true
    · simp [f, hq]
    · simp only [Bool.not_eq_true] at hq
      simp [f, g, drop, hq, h3 p hp hq]
  · have := combine_closed m [g, f] (by simp)
    simp only [List.map_cons, List.map_nil] at this
    rw [map_map]
    refine this.trans ?_
    rw [show m.map Prod.snd = withNones (m.map fun p => some p.2) from (withNones_some m _).symm]
    congr 2
    apply map_congr_leaves
    intro p hp
    by_cases hq : q p.1 = true
    · simp [f, g, drop, hq]
    · simp only [Bool.not_eq_true] at hq
      simp [g, drop, hq, h3 p hp hq]

/-- Heads of a tree with `None` at some leaves. -/
theorem headAt?_withNones (m : PT K β) (f : β → Option α) (π : List Nat) :
    (∀ k n, m.headAt? π = some (.node k n) → (withNones (m.map f)).headAt? π = some (.node k n)) ∧
    (m.headAt? π = some .none → (withNones (m.map f)).headAt? π = some .none) ∧
    (∀ b, m.headAt? π = some (.leaf b) → (withNones (m.map f)).headAt? π = some ((orNone (f b) : PT K α).head)) := by
  induction m using ind generalizing π with
  | leaf b =>
    cases π with
    | nil => exact ⟨nofun, nofun, fun b h => by cases h; rfl⟩
    | cons i π => exact ⟨fun _ _ h => by simp [headAt?, get?] at h, fun h => by simp [headAt?, get?] at h, fun _ h => by simp [headAt?, get?] at h⟩
  | none =>
    cases π with
    | nil => exact ⟨nofun, fun _ => rfl, nofun⟩
    | cons i π => exact ⟨fun _ _ h => by simp [headAt?, get?] at h, fun h => by simp [headAt?, get?] at h, fun _ h => by simp [headAt?, get?] at h⟩
  | node k cs ih =>
    cases π with
    | nil =>
      refine ⟨fun k' n h => ?_, nofun, nofun⟩
      simp only [headAt?, get?, Option.map_some, head, Option.some.injEq, Head.node.injEq] at h
      simp only [headAt?, get?, withNones, PT.map, mapL_eq, join, joinL_eq, Option.map_some, head, List.length_map]
      rw [h.1, h.2]
    | cons i π =>
      have e : (withNones ((PT.node k cs).map f)).headAt? (i :: π) = (cs[i]?).bind fun c => (withNones (c.map f)).headAt? π := by
        simp only [headAt?, withNones, PT.map, mapL_eq, join, joinL_eq, get?, List.getElem?_map, Option.map_map]
        cases cs[i]? <;> rfl
      have e' : (PT.node k cs).headAt? (i :: π) = (cs[i]?).bind fun c => c.headAt? π := by
        simp only [headAt?, get?]
        cases cs[i]? <;> rfl
      rw [e, e']
      cases hc : cs[i]? with
      | none => exact ⟨nofun, nofun, nofun⟩
      | some c => exact ih c (List.mem_of_getElem? hc) π

end AD
end Verif
