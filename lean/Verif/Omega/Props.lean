import Verif.Omega.Model
import Verif.PyTree.Maps

/-! # C52: arithmetic with `ω` acts leaf by leaf -/

namespace Verif
namespace Omega

open PT

variable {K α C : Type} [DecidableEq K] [DecidableEq C]

/-- The two `is_leaf` have the same bytecode, or both have none. -/
def SameCode (f g : Option (IsLeaf K α C)) : Prop := f.bind (·.code) = g.bind (·.code)

theorem structure_eq (s t : PT K α) : s.treeStructure noLeaf = t.treeStructure noLeaf ↔ SameStructure s t := by
  rw [sameStructure_iff, treeStructure, treeStructure, cut_noLeaf, cut_noLeaf, shape_map, shape_map]

/-- Where the operators stop going down: at what `is_leaf` accepts; without `is_leaf`, at leaves only. -/
def stops (f : Option (IsLeaf K α C)) (x : PT K α) : Bool := f.any (fun g => g.fn x)

omit [DecidableEq K] [DecidableEq C] in
theorem pred_eq : (pred : Option (IsLeaf K α C) → PT K α → Bool) = stops := by
  funext f x
  cases f <;> rfl

/-- The method on two `ω`, as a case distinction. -/
theorem binary_omega (op : PT K α → PT K α → Except Err (PT K α)) (w v : Omega K α C) :
    (¬ SameStructure w.val v.val → binary op w (.omega v) = .error .valueError) ∧
    (¬ SameCode w.isLeaf v.isLeaf → binary op w (.omega v) = .error .valueError) ∧
    (SameStructure w.val v.val → SameCode w.isLeaf v.isLeaf → binary op w (.omega v) =
      (treeMap2 (stops w.isLeaf) op w.val v.val).map (fun x => ⟨x, w.isLeaf⟩)) := by
  refine ⟨?_, ?_, ?_⟩
  · intro h
    rw [← structure_eq] at h
    simp only [binary]
    rw [if_pos h]
  · intro h
    simp only [binary]
    by_cases h' : w.val.treeStructure noLeaf = v.val.treeStructure noLeaf
    · rw [if_neg (by simpa using h'), if_pos (by simpa [equalCode, SameCode] using h)]
    · rw [if_pos h']
  · intro h h'
    rw [← structure_eq] at h
    simp only [binary]
    rw [if_neg (by simpa using h), if_neg (by simpa [equalCode, SameCode] using h')]
    rw [pred_eq]
    cases treeMap2 (stops w.isLeaf) op w.val v.val <;> rfl

/-- **C52**, two wrapped trees: different structures or `is_leaf` with different bytecode raise `ValueError`. -/
theorem omega_checks (op : PT K α → PT K α → Except Err (PT K α)) (w v : Omega K α C)
    (h : ¬ SameStructure w.val v.val ∨ ¬ SameCode w.isLeaf v.isLeaf) : binary op w (.omega v) = .error .valueError := by
  rcases h with h | h
  · exact (binary_omega op w v).1 h
  · exact (binary_omega op w v).2.1 h

/-- **C52**, two wrapped trees: otherwise the operator is applied to corresponding leaves, the containers are kept, and only
the operator can raise. -/
theorem omega_binary (op : PT K α → PT K α → Except Err (PT K α)) (w v : Omega K α C) (h : SameStructure w.val v.val)
    (h' : SameCode w.isLeaf v.isLeaf) :
    (∃ out, binary op w (.omega v) = .ok out ∧ out.isLeaf = w.isLeaf ∧ Maps2 (stops w.isLeaf) op w.val v.val out.val) ∨
    (∃ e π x y, binary op w (.omega v) = .error e ∧ IsCutLeaf (stops w.isLeaf) w.val π x ∧ v.val.get? π = some y ∧
      op x y = .error e) := by
  rw [(binary_omega op w v).2.2 h h']
  cases hr : treeMap2 (stops w.isLeaf) op w.val v.val with
  | ok t => exact .inl ⟨⟨t, w.isLeaf⟩, rfl, rfl, treeMap2_maps hr⟩
  | error e =>
    obtain ⟨π, x, y, h1, h2, h3⟩ := treeMap2_error (sameStructure_iff.1 h) hr
    exact .inr ⟨e, π, x, y, rfl, h1, h2, h3⟩

omit [DecidableEq K] [DecidableEq C] in
/-- `call`, indexing and the unary operators act on each leaf, keep the containers, and only `fn` can raise. -/
theorem omega_call (fn : PT K α → Except Err (PT K α)) (w : Omega K α C) :
    (∃ out, call fn w = .ok out ∧ out.isLeaf = w.isLeaf ∧ Maps1 (stops w.isLeaf) fn w.val out.val) ∨
    (∃ e π x, call fn w = .error e ∧ IsCutLeaf (stops w.isLeaf) w.val π x ∧ fn x = .error e) := by
  unfold call
  rw [pred_eq]
  cases hr : treeMap1 (stops w.isLeaf) fn w.val with
  | ok t => exact .inl ⟨⟨t, w.isLeaf⟩, rfl, rfl, treeMap1_maps hr⟩
  | error e =>
    obtain ⟨π, x, h1, h2⟩ := treeMap1_error hr
    exact .inr ⟨e, π, x, rfl, h1, h2⟩

theorem binary_scalar (op : PT K α → PT K α → Except Err (PT K α)) (w : Omega K α C) (x : α) :
    binary op w (.scalar x) = call (fun y => op y (.leaf x)) w := rfl

/-- The operator a method applies. -/
theorem lookup_fwd (o : Op) : table.lookup (.fwd o) = some (o, false) := by cases o <;> rfl

/-- **C52**, `w o x` for a scalar or an array `x`: `leaf o x` at each leaf. -/
theorem omega_scalar_right (sem : Op → PT K α → PT K α → Except Err (PT K α)) (o : Op) (w : Omega K α C) (x : α) :
    (∃ out, exprLeft sem o w (.scalar x) = .ok out ∧ out.isLeaf = w.isLeaf ∧
      Maps1 (stops w.isLeaf) (fun y => sem o y (.leaf x)) w.val out.val) ∨
    (∃ e π y, exprLeft sem o w (.scalar x) = .error e ∧ IsCutLeaf (stops w.isLeaf) w.val π y ∧ sem o y (.leaf x) = .error e) := by
  simp only [exprLeft, method, lookup_fwd, Bool.false_eq_true, if_false, binary_scalar]
  exact omega_call _ w

/-- **C52**, `w o v` for two wrapped trees: `leaf o leaf'` at each leaf. -/
theorem omega_expr (sem : Op → PT K α → PT K α → Except Err (PT K α)) (o : Op) (w v : Omega K α C)
    (h : SameStructure w.val v.val) (h' : SameCode w.isLeaf v.isLeaf) :
    (∃ out, exprLeft sem o w (.omega v) = .ok out ∧ out.isLeaf = w.isLeaf ∧ Maps2 (stops w.isLeaf) (sem o) w.val v.val out.val) ∨
    (∃ e π x y, exprLeft sem o w (.omega v) = .error e ∧ IsCutLeaf (stops w.isLeaf) w.val π x ∧ v.val.get? π = some y ∧
      sem o x y = .error e) := by
  simp only [exprLeft, method, lookup_fwd, Bool.false_eq_true, if_false]
  exact omega_binary _ w v h h'

/-- The comparison which swaps its arguments; `none` for arithmetic. -/
def mirror : Op → Option Op
  | .lt => some .gt
  | .le => some .ge
  | .gt => some .lt
  | .ge => some .le
  | .eq => some .eq
  | .ne => some .ne
  | _ => none

/-- **C52**, `x o w` for a scalar `x`: `x o leaf` at each leaf, in this order; a comparison is the mirrored comparison
`leaf o' x`, as Python prescribes. -/
theorem omega_scalar_left (sem : Op → PT K α → PT K α → Except Err (PT K α)) (o : Op) (x : α) (w : Omega K α C) :
    ∃ f : PT K α → Except Err (PT K α),
      (mirror o = Option.none → ∀ y, f y = sem o (.leaf x) y) ∧ (∀ o', mirror o = some o' → ∀ y, f y = sem o' y (.leaf x)) ∧
      ((∃ out, exprRight sem o x w = .ok out ∧ out.isLeaf = w.isLeaf ∧ Maps1 (stops w.isLeaf) f w.val out.val) ∨
       (∃ e π y, exprRight sem o x w = .error e ∧ IsCutLeaf (stops w.isLeaf) w.val π y ∧ f y = .error e)) := by
  cases o
  case lt => exact ⟨fun y => sem .gt y (.leaf x), nofun, fun _ h _ => by cases h; rfl, omega_call _ w⟩
  case le => exact ⟨fun y => sem .ge y (.leaf x), nofun, fun _ h _ => by cases h; rfl, omega_call _ w⟩
  case gt => exact ⟨fun y => sem .lt y (.leaf x), nofun, fun _ h _ => by cases h; rfl, omega_call _ w⟩
  case ge => exact ⟨fun y => sem .le y (.leaf x), nofun, fun _ h _ => by cases h; rfl, omega_call _ w⟩
  case eq => exact ⟨fun y => sem .eq y (.leaf x), nofun, fun _ h _ => by cases h; rfl, omega_call _ w⟩
  case ne => exact ⟨fun y => sem .ne y (.leaf x), nofun, fun _ h _ => by cases h; rfl, omega_call _ w⟩
  all_goals exact ⟨fun y => sem _ (.leaf x) y, fun _ _ => rfl, nofun, omega_call _ w⟩

/-- **C52**: any other object on the right raises `RuntimeError`. -/
theorem omega_unknown (sem : Op → PT K α → PT K α → Except Err (PT K α)) (o : Op) (w : Omega K α C) :
    exprLeft sem o w .unknown = .error .runtimeError := by
  simp only [exprLeft, method, lookup_fwd, binary]

omit [DecidableEq K] [DecidableEq C] in
/-- **C52**: wrapping, mapping the identity, and unwrapping gives the tree back. -/
theorem omega_value (v : PT K α) : ∃ out, call (fun x => .ok x) (wrap v : Omega K α C) = .ok out ∧ out.val = v ∧ out.isLeaf = Option.none := by
  rcases omega_call (fun x => .ok x) (wrap v : Omega K α C) with ⟨out, h1, h2, h3⟩ | ⟨e, π, x, h1, h2, h3⟩
  · refine ⟨out, h1, maps1_unique h3 ⟨?_, ?_⟩, h2⟩
    · intro π x hx
      exact ⟨x, rfl, hx.1⟩
    · intro π hs
      have := skeleton_heads (p := stops (wrap v : Omega K α C).isLeaf) (o := v.cut (stops (wrap v : Omega K α C).isLeaf)) rfl hs
      rwa [join_cut] at this
  · cases h3

/-- **C52**, `w.at[item].op(other)`: as for the operators. -/
theorem omega_at {I : Type} (op : PT K α → I → PT K α → Except Err (PT K α)) (item : I) (w : Omega K α C) (o : Other K α C) :
    atOp op item w o = binary (fun x y => op x item y) w o := by
  cases o <;> rfl

/-- `_equal_code` cannot tell a callable without `__code__` (such as a `functools.partial`) from `None`, as its docstring
admits: trees with different `is_leaf` are then accepted. -/
theorem omega_code_blind : ∃ (w v : Omega String Nat Nat) (out : Omega String Nat Nat), w.isLeaf.isSome ∧ v.isLeaf.isNone ∧
    binary (fun x _ => .ok x) w (.omega v) = .ok out :=
  ⟨⟨.node "list" [.leaf 1], some ⟨Option.none, fun _ => true⟩⟩, ⟨.node "list" [.leaf 2], Option.none⟩, _, rfl, rfl, rfl⟩

/-! ### Examples -/

/-- A meaning of the operators on numbers: addition and subtraction. -/
def exSem : Op → PT String Int → PT String Int → Except Err (PT String Int)
  | .add, .leaf x, .leaf y => .ok (.leaf (x + y))
  | .sub, .leaf x, .leaf y => .ok (.leaf (x - y))
  | _, _, _ => .error .typeError

def exW : Omega String Int Nat := wrap (.node "tuple" [.leaf 10, .node "dict:a" [.leaf 20], .none])

example : SameStructure exW.val exW.val ∧ SameCode exW.isLeaf exW.isLeaf := ⟨sameStructure_iff.2 rfl, rfl⟩
example : (exprRight exSem .sub 1 exW).toOption.map (·.val) = some (.node "tuple" [.leaf (-9), .node "dict:a" [.leaf (-19)], .none]) := rfl
example : (exprLeft exSem .sub exW (.scalar 1)).toOption.map (·.val) = some (.node "tuple" [.leaf 9, .node "dict:a" [.leaf 19], .none]) := rfl
example : (exprLeft exSem .add exW (.omega exW)).toOption.map (·.val) = some (.node "tuple" [.leaf 20, .node "dict:a" [.leaf 40], .none]) := rfl

end Omega
end Verif
