import Verif.Module.Class
import Verif.Module.Init

/-!
# The model against the tests: `tests/test_abstract.py`, `tests/test_module.py`

These are tests, not proofs.
-/

namespace Verif
namespace Conform
namespace Modules

open Module

def magic (n : String) : Bool := "__".toList.isPrefixOf n.toList && "__".toList.isSuffixOf n.toList
def abstractName (n : String) : Bool := "Abstract".toList.isPrefixOf n.toList || "_Abstract".toList.isPrefixOf n.toList

/-- `class name(bases, strict=strict): ...` -/
def cls (name : String) (bases : List Nat) (dict : Dict String Attr := []) (ann : Dict String Ann := [])
    (strict : Option StrictConfig := none) (customInit : Bool := false) : ClassDef String :=
  ⟨.module, name, bases, ⟨dict, ann⟩, customInit, strict⟩

def world (ds : List (ClassDef String)) : Except Err (Module.World String) := build magic abstractName [moduleCls "Module"] ds

/-- `__abstractvars__` and `__abstractclassvars__` of the last class. -/
def abstracts (ds : List (ClassDef String)) : Except Err (List String × List String) := do
  match (← world ds).getLast? with
  | some c => pure (c.abstractVars, c.abstractClassVars)
  | none => throw .keyError

/-- Whether the last class can be instantiated. -/
def callable (ds : List (ClassDef String)) : Except Err Unit := do
  match (← world ds).getLast? with
  | some c => instantiate c (.ok ())
  | none => throw .keyError

/-- Whether all the statements run. -/
def runs (ds : List (ClassDef String)) : Except Err Unit := do
  let _ ← world ds

/-! ## `tests/test_abstract.py` -/

/-- `test_abstract_method` -/
example : callable [cls "A" [0] [("x", .func true)]] = .error .typeError ∧
    callable [cls "A" [0] [("x", .func true)], cls "B" [1]] = .error .typeError := ⟨rfl, rfl⟩

/-- `test_abstract_attribute_stringified` -/
example : runs [cls "A" [0] [] [("x", .stringified)]] = .error .notImplemented := rfl

/-- `test_abstract_attribute` -/
def A := cls "A" [0] [] [("x", .abstractVar)]

example : abstracts [A] = .ok (["x"], []) ∧ callable [A] = .error .typeError := ⟨rfl, rfl⟩

def B := cls "B" [1] [] [("y", .plain)]
example : abstracts [A, B] = .ok (["x"], []) ∧ callable [A, B] = .error .typeError := ⟨rfl, rfl⟩

def C := cls "C" [1] [] [("x", .plain), ("y", .plain)]
example : abstracts [A, C] = .ok ([], []) ∧ callable [A, C] = .ok () := ⟨rfl, rfl⟩

/-- The order of the fields of `D` is that of its body. -/
def D := cls "D" [1] [] [("y", .plain), ("x", .plain)]
example : abstracts [A, D] = .ok ([], []) ∧ (world [A, D]).map (fun w => w.map (·.fields)) =
    .ok [[], [], [("y", true), ("x", true)]] := ⟨rfl, rfl⟩

def E := cls "E" [1] [("x", .other false)] [("y", .plain)]
example : abstracts [A, E] = .ok ([], []) ∧ callable [A, E] = .ok () := ⟨rfl, rfl⟩

example : runs [cls "F" [0] [] [("x", .malformed)]] = .error .typeError := rfl

example : abstracts [A, cls "G" [1] [] [("x", .abstractVar)]] = .ok (["x"], []) ∧
    abstracts [A, cls "H" [1] [] [("x", .abstractClassVar)]] = .ok ([], ["x"]) ∧
    abstracts [A, cls "I" [1] [] [("x", .plain)]] = .ok ([], []) ∧
    runs [cls "J" [0] [("x", .other false)] [("x", .abstractVar)]] = .error .typeError ∧
    abstracts [A, cls "K" [1] [("x", .other false), ("y", .other false)] [("y", .plain)]] = .ok ([], []) ∧
    callable [A, cls "K" [1] [("x", .other false), ("y", .other false)] [("y", .plain)]] = .ok () ∧
    abstracts [A, cls "L" [1] [("x", .other false)]] = .ok ([], []) ∧
    callable [A, cls "L" [1] [("x", .other false)]] = .ok () := ⟨rfl, rfl, rfl, rfl, rfl, rfl, rfl, rfl⟩

/-- `test_abstract_class_attribute` -/
def A' := cls "A" [0] [] [("x", .abstractClassVar)]

example : abstracts [A'] = .ok ([], ["x"]) ∧ callable [A'] = .error .typeError ∧
    abstracts [A', B] = .ok ([], ["x"]) ∧ callable [A', B] = .error .typeError ∧
    runs [cls "C" [0] [] [("x", .malformed)]] = .error .typeError ∧
    abstracts [A', cls "D" [1] [] [("x", .abstractClassVar)]] = .ok ([], ["x"]) ∧
    abstracts [A', cls "E" [1] [] [("x", .classVar)]] = .ok ([], []) ∧
    runs [cls "F" [0] [("x", .other false)] [("x", .abstractClassVar)]] = .error .typeError ∧
    abstracts [A', cls "G" [1] [("x", .other false), ("y", .other false)] [("y", .plain)]] = .ok ([], []) ∧
    abstracts [A', cls "H" [1] [("x", .other false)]] = .ok ([], []) ∧
    abstracts [A', cls "I" [1] [] [("x", .abstractVar)]] = .ok ([], ["x"]) :=
  ⟨rfl, rfl, rfl, rfl, rfl, rfl, rfl, rfl, rfl, rfl, rfl⟩

/-- `test_abstract_multiple_inheritance` -/
example : callable [A, cls "B" [0] [] [("x", .plain)], cls "C" [2, 1]] = .ok () := rfl

/-! ## Strict modules (`tests/test_module.py`) -/

def strict : Option StrictConfig := some {}
def force : Option StrictConfig := some { forceAbstract := true }

/-- `test_strict_noerrors` -/
example : runs [cls "Abstract" [0] [("foo", .func true)] [] strict, cls "Concrete1" [1] [("foo", .func false)] [] strict,
    cls "Concrete2" [1] [("foo", .func false)], cls "Concrete3" [3] [("foo", .func false)],
    cls "Abstract1" [0] [("foo", .func true)] [("bar", .abstractVar)] strict,
    cls "Abstract2" [0] [("foo", .func true)] [("bar", .abstractClassVar)] strict,
    cls "Abstract3" [0] [("foo", .func true)] [("bar", .plain)] strict] = .ok () := rfl

/-- `test_strict_non_module_base` -/
example : runs [⟨.plain, "NotAModule", [], ⟨[], []⟩, false, none⟩, cls "MyModule" [1, 0] [] [] strict] = .error .typeError ∧
    runs [cls "NotAStrictModule" [0], cls "MyModule2" [1, 0] [] [] strict] = .error .typeError := ⟨rfl, rfl⟩

/-- `test_strict_concrete_is_final` -/
example : runs [cls "Concrete" [0] [] [] strict, cls "Concrete2" [1] [] [] strict] = .error .typeError := rfl

/-- `test_strict_init`: the abstract class, and the class that inherits from it. -/
def strictInit (superInit subInit flag : Bool) : List (ClassDef String) :=
  [cls "Abstract" [0] (if flag then [] else [("foo", .func true)]) (if superInit then [] else [("x", .plain)])
    (some { forceAbstract := flag }) superInit,
   cls "Concrete1" [1] [("foo", .func false)] (if subInit then [] else [("y", .plain)]) strict subInit]

example : ∀ a b f, runs ((strictInit a b f).take 1) = .ok () ∧ runs (strictInit a b f) = .error .typeError := by
  intro a b f; cases a <;> cases b <;> cases f <;> exact ⟨rfl, rfl⟩

/-- `test_strict_init_in_abstract` -/
example : callable [cls "AbstractA" [0] [("foo", .func true)] [("a", .plain), ("b", .plain)] none true,
    cls "ConcreteB" [1] [("foo", .func false)]] = .ok () := rfl

/-- `test_strict_init_transitive` -/
example : runs [cls "AbstractA" [0] [] [("x", .plain)] force, cls "AbstractB" [1] [] [] force] = .ok () ∧
    runs [cls "AbstractA" [0] [] [("x", .plain)] force, cls "AbstractB" [1] [] [] force,
      cls "C" [2] [] [("y", .plain)] strict] = .error .typeError := ⟨rfl, rfl⟩

/-- `test_strict_abstract_name` -/
example : runs [cls "Abstract" [0] [] [] force, cls "_Abstract" [0] [] [] force] = .ok () ∧
    runs [cls "NotAbstract" [0] [] [] force] = .error .typeError := ⟨rfl, rfl⟩

/-- `test_strict_method_reoverride` -/
def reoverride : List (ClassDef String) := [cls "AbstractA" [0] [("foo", .func true)] [] strict,
  cls "AbstractB" [1] [("foo", .func false), ("bar", .func true)] [] strict]
def nonMethods : List (ClassDef String) := [cls "AbstractD" [0] [("foo", .other false)] [] force, cls "AbstractD2" [1] [] [] force]

example : runs reoverride = .ok () ∧
    runs (reoverride ++ [cls "C" [2] [("foo", .func false), ("bar", .func false)] [] strict]) = .error .typeError ∧
    runs nonMethods = .ok () ∧ runs (nonMethods ++ [cls "E" [1] [("foo", .func false)] [] strict]) = .error .typeError ∧
    runs (nonMethods ++ [cls "E2" [2] [("foo", .func false)] [] strict]) = .error .typeError := ⟨rfl, rfl, rfl, rfl, rfl⟩

/-- `test_strict_default` -/
def defaults : List (ClassDef String) := [cls "AbstractA" [0] [("foo", .func false)] [] force,
  cls "AbstractB" [1] [("foo", .func false)] [] (some { forceAbstract := true, allowMethodOverride := true })]

example : runs defaults = .ok () ∧ runs (defaults ++ [cls "C1" [2] [("foo", .func false)] [] strict]) = .error .typeError ∧
    runs (defaults ++ [cls "C2" [2] [("foo", .func false)] [] (some { allowMethodOverride := true })]) = .ok () := ⟨rfl, rfl, rfl⟩

/-! ## Initialisation (`tests/test_module.py`) -/

open Init

/-- Assign, and let what is raised propagate. -/
def assign (n : String) (v : Int) (k : Prog String Int) : Prog String Int :=
  .set n v fun | .ok _ => k | .error e => .raise e

/-- A class with these fields, all without converter. -/
def fields (ns : List String) (checks : List (Prog String Int) := []) : Init.Cls String Int :=
  ⟨ns.map fun n => ⟨n, none⟩, fun _ => none, fun v => v == 999, checks⟩

/-- The fields of what was constructed. -/
def made (r : Except Err (Inst String Int)) : Except Err (Dict String Int) := r.map (·.dict)

/-- `test_module_not_enough_attributes` -/
example : made (construct (fields ["weight"]) (.custom .done)) = .error .valueError := rfl

/-- `test_module_too_many_attributes` -/
example : made (construct (fields ["weight"]) (.custom (assign "weight" 1 (assign "something_else" 1 .done)))) =
    .error .attributeError := rfl

/-- `test_module_setattr_after_init` -/
example : (do let m ← construct (fields ["weight"]) (.generated (fun n => if n = "weight" then some 1 else none) .done)
              made (Init.setattr (fields ["weight"]) m "asdf" 1)) = .error .frozenInstance := rfl

/-- `test_wrong_attribute` -/
example : made (construct (fields ["weight"]) (.custom (assign "not_weight" 1 .done))) = .error .attributeError := rfl

/-- `test_inheritance`: `MyModule7(value4=1, value7=2)` -/
example : made (construct (fields ["weight4", "weight7"]) (.custom (assign "weight7" 2 (assign "weight4" 1 .done)))) =
    .ok [("weight7", 2), ("weight4", 1)] := rfl

/-- `test_inheritance`: `MyModule5(value4=1, weight5=2)`, which does not assign `weight5` with `super().__init__` alone. -/
example : made (construct (fields ["weight4", "weight5"]) (.custom (assign "weight4" 1 .done))) = .error .valueError := rfl

/-- `test_method_assignment` -/
example : made (construct (fields ["foo", "x"]) (.custom (assign "foo" 999 (assign "x" 1 .done)))) = .error .valueError := rfl

/-- `test_converter`: generated, own `__init__`, and `__post_init__`, which sees the value before conversion. -/
def converted : Init.Cls String Int := ⟨[⟨"field", some fun v => .ok (v + 100)⟩], fun _ => none, fun _ => false, []⟩
def expect (n : String) (v : Int) (k : Prog String Int) : Prog String Int :=
  .get n fun | .ok u => if u = v then k else .raise .assertionError | .error e => .raise e

example : made (construct converted (.generated (fun _ => some 1) .done)) = .ok [("field", 101)] ∧
    made (construct converted (.custom (assign "field" 1 (expect "field" 1 .done)))) = .ok [("field", 101)] ∧
    made (construct converted (.generated (fun _ => some 1) (expect "field" 1 .done))) = .ok [("field", 101)] := ⟨rfl, rfl, rfl⟩

/-- `test_check_init`: `A.__check_init__` raises for `a >= 0`. -/
def checkA : Prog String Int := .get "a" fun | .ok v => if v ≥ 0 then .raise .runtimeError else .done | .error e => .raise e

example : made (construct (fields ["a"] [checkA]) (.generated (fun _ => some (-1)) .done)) = .ok [("a", -1)] ∧
    made (construct (fields ["a"] [checkA]) (.generated (fun _ => some 1) .done)) = .error .runtimeError ∧
    made (construct (fields ["a"] [.done, checkA]) (.generated (fun _ => some 1) .done)) = .error .runtimeError := ⟨rfl, rfl, rfl⟩

/-- `test_check_init_order` -/
example : made (construct (fields [] [.done, .raise .valueError, .raise .typeError]) (.generated (fun _ => none) .done)) =
    .error .valueError := rfl

/-- `test_check_init_no_assignment` -/
example : made (construct (fields ["x"] [assign "x" 4 .done]) (.generated (fun _ => some 1) .done)) = .error .frozenInstance := rfl

/-- `test_init_fields` -/
example : made (construct (fields ["x"]) (.generated (fun _ => none) .done)) = .error .valueError ∧
    made (construct (fields ["x"]) (.generated (fun _ => none) (assign "x" 1 .done))) = .ok [("x", 1)] := ⟨rfl, rfl⟩

/-- `test_init_as_abstract` -/
example : made (construct (N := String) (V := Int) ⟨[⟨"foo", none⟩], fun n => if n = "foo" then some (.property fun _ => .ok 1) else none,
    fun _ => false, []⟩ (.generated (fun _ => none) .done)) = .ok [] := rfl

end Modules
end Conform
end Verif
