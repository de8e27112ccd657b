import Verif.TreeAt.Props

/-!
# C06: which errors `tree_at` raises (`equinox/_tree.py`, 58-261)

No code is modelled here. The theorems say which exception the checks of `tree_at` raise, where what `where`, `replace` and `replace_fn` do
themselves does not raise before.
-/

namespace Verif.TreeAt.ErrorKinds

open Verif.TreeAt PT

variable {K α : Type}

/-- A leaf that `tree_at` has wrapped before it called `where` again. -/
def Wrapped (x : Obj K α) : Prop := ∃ j c, x = .leaf (.wrap j c)

theorem unwrap_bad : ∀ l : List (Obj K α), (∃ x ∈ l, ¬ Wrapped x) → PT.mapE removeWrapper l = .error .typeError
  | [], h => by simp at h
  | x :: l, h => by
    rcases hx : removeWrapper x with e | c
    · have : e = .typeError := by
        unfold removeWrapper at hx
        split at hx <;> simp_all
      simp [PT.mapE, hx, bind, Except.bind, this]
    · have hw : Wrapped x := by
        unfold removeWrapper at hx
        split at hx
        · exact ⟨_, _, rfl⟩
        · simp at hx
      obtain ⟨y, hy, hn⟩ := h
      rcases List.mem_cons.1 hy with rfl | hy
      · exact absurd hw hn
      · simp [PT.mapE, hx, bind, Except.bind, unwrap_bad l ⟨y, hy, hn⟩]

theorem unwrap_good : ∀ cs : List (Id × PT (Id × K) (Raw α)),
    PT.mapE removeWrapper (cs.map fun p => (.leaf (.wrap p.1 p.2) : Obj K α)) = .ok (cs.map Prod.snd)
  | [] => rfl
  | p :: cs => by simp [PT.mapE, removeWrapper, unwrap_good cs, bind, Except.bind, pure, Except.pure]

theorem wrapped_list : ∀ l : List (Obj K α), (∀ x ∈ l, Wrapped x) → ∃ cs : List (Id × PT (Id × K) (Raw α)), l = cs.map fun p => .leaf (.wrap p.1 p.2)
  | [], _ => ⟨[], rfl⟩
  | x :: l, h => by
    obtain ⟨j, c, rfl⟩ := h x (by simp)
    obtain ⟨cs, rfl⟩ := wrapped_list l fun y hy => h y (by simp [hy])
    exact ⟨(j, c) :: cs, rfl⟩

variable [DecidableEq K]

/-- **C06**: `where` gives back something with a leaf that it was not given, as it computes with the leaves: `TypeError`. -/
theorem foreign_leaf (env : Env K α) (wh : Obj K α → Except Err (Obj K α)) (isLeaf : Obj K α → Bool) (t : PT K (Val α)) (repl : Repl K α)
    {r1 r2 : Obj K α} (h1 : wh (plain (seen1 env t)) = .ok r1) (h2 : wh (seen2 env isLeaf t) = .ok r2)
    (h : ∃ x ∈ r2.treeLeaves PT.noLeaf, ¬ Wrapped x) : treeAt env wh isLeaf t repl = .error .typeError := by
  simp [treeAt, checkWhere, h1, h2, unwrap_bad _ h, bind, Except.bind]

/-- **C06**: `where` gives back structures that differ between its two calls, or other objects in the second one, as it depends on the values of
the leaves: `ValueError`. -/
theorem different_results (env : Env K α) (wh : Obj K α → Except Err (Obj K α)) (isLeaf : Obj K α → Bool) (t : PT K (Val α))
    (repl : Repl K α) {r1 r2 : Obj K α} (h1 : wh (plain (seen1 env t)) = .ok r1) (h2 : wh (seen2 env isLeaf t) = .ok r2)
    (cs : List (Id × PT (Id × K) (Raw α))) (hw : r2.treeLeaves PT.noLeaf = cs.map fun p => .leaf (.wrap p.1 p.2))
    (h : retag Prod.snd (r1.treeStructure isLeaf) ≠ retag Prod.snd (r2.treeStructure PT.noLeaf) ∨
      (r1.treeLeaves isLeaf).map idOf ≠ cs.map fun p => idOf (plain p.2)) :
    treeAt env wh isLeaf t repl = .error .valueError := by
  have h' : structureOf isLeaf r1 ≠ structureOf PT.noLeaf r2 ∨
      (r1.treeLeaves isLeaf).map idOf ≠ (cs.map Prod.snd).map fun c => idOf (plain c) := by
    rw [List.map_map]; exact h
  simp only [treeAt, checkWhere, h1, h2, hw, unwrap_good, bind, Except.bind, if_pos h']

/-- **C06**: nothing else is an error of the check: it passes exactly if all leaves of the second result are wrapped and the two results have the same
structure and the same objects. -/
theorem check_iff (isLeaf : Obj K α → Bool) (r1 r2 : Obj K α) :
    checkWhere isLeaf r1 r2 = .ok () ↔ ∃ cs : List (Id × PT (Id × K) (Raw α)), r2.treeLeaves PT.noLeaf = cs.map (fun p => .leaf (.wrap p.1 p.2)) ∧
      retag Prod.snd (r1.treeStructure isLeaf) = retag Prod.snd (r2.treeStructure PT.noLeaf) ∧
      (r1.treeLeaves isLeaf).map idOf = cs.map fun p => idOf (plain p.2) := by
  constructor
  · intro hok
    have hw : ∀ x ∈ r2.treeLeaves PT.noLeaf, Wrapped x := fun x hx => Classical.byContradiction fun hn => by
      simp [checkWhere, unwrap_bad _ ⟨x, hx, hn⟩, bind, Except.bind] at hok
    obtain ⟨cs, hcs⟩ := wrapped_list _ hw
    refine ⟨cs, hcs, ?_⟩
    simp only [checkWhere, hcs, unwrap_good, bind, Except.bind] at hok
    split at hok
    · cases hok
    · rename_i h
      rw [List.map_map] at h
      exact ⟨Classical.byContradiction fun hn => h (Or.inl hn), Classical.byContradiction fun hn => h (Or.inr hn)⟩
  · rintro ⟨cs, hcs, e1, e2⟩
    simp only [checkWhere, hcs, unwrap_good, bind, Except.bind]
    rw [if_neg]
    rw [List.map_map]
    exact fun h => h.elim (fun h => h e1) fun h => h e2

omit [DecidableEq K] in
/-- **C06**: a selected node that the replacement comes across never, or more than once, raises `ValueError`, unless the replacement raises. -/
theorem node_not_once (env : Env K α) (t2 : Obj K α) (ids : List Id) (fns : List (Fn K α)) {out : PT K (Raw α)}
    (ho : omap (fun x => decide (idOf x ∈ ids)) (makeReplacement ids fns) t2 = .ok out)
    (i : Id) (hi : i ∈ ids) (h : ((t2.treeLeaves fun x => decide (idOf x ∈ ids)).countP fun x => decide (idOf x = i)) ≠ 1) :
    replaceNodes env t2 ids fns = .error .valueError := by
  have : ids.any (fun i => count ids t2 i ≠ 1) = true := List.any_eq_true.2 ⟨i, hi, decide_eq_true h⟩
  simp only [replaceNodes, ho, bind, Except.bind]
  rw [if_pos this]

/-! ### Concrete cases -/

/-- A `where` that gives back a number of its own. -/
example : ∃ x ∈ (PT.leaf (.plain (.obj 1 1)) : Obj String Nat).treeLeaves PT.noLeaf, ¬ Wrapped x :=
  ⟨.leaf (.plain (.obj 1 1)), List.mem_singleton.2 rfl, fun ⟨_, _, h⟩ => by cases h⟩

/-- A `where` that selects a tuple at first and then the leaf in it. -/
example : ∃ r1 r2, selectOne [0] (plain (seen1 exEnv exTree)) = .ok r1 ∧ selectOne [0, 1] (seen2 exEnv noLeaf exTree) = .ok r2 ∧
    (∃ cs : List (Id × PT (Id × String) (Raw Nat)), r2.treeLeaves PT.noLeaf = cs.map (fun p => .leaf (.wrap p.1 p.2))) ∧
    retag Prod.snd (r1.treeStructure noLeaf) ≠ retag Prod.snd (r2.treeStructure PT.noLeaf) :=
  ⟨_, _, rfl, rfl, ⟨[(_, _)], rfl⟩, fun h => by cases h⟩

/-- Nested nodes: the inner one is not come across. -/
example : ∃ out, omap (fun x => decide (idOf x ∈ [Id.made 2 [0], Id.made 2 [0, 1]]))
      (makeReplacement [Id.made 2 [0], Id.made 2 [0, 1]] [fun _ => .ok .none, fun _ => .ok .none]) (seen2 exEnv noLeaf exTree) = .ok out ∧
    (((seen2 exEnv noLeaf exTree).treeLeaves fun x => decide (idOf x ∈ [Id.made 2 [0], Id.made 2 [0, 1]])).countP
      fun x => decide (idOf x = Id.made 2 [0, 1])) = 0 :=
  ⟨_, rfl, rfl⟩

end Verif.TreeAt.ErrorKinds
