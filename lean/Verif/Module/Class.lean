import Verif.Enum.Model

/-!
# Class creation: `equinox/_better_abstract.py` and `_ActualModuleMeta.__new__` of `equinox/_module.py`

Classes are numbered in the order in which they are created; class 0 is `equinox.Module` itself. Method resolution
orders leave out `object`. `N` is the type of names (of attributes and classes); `magic` says which names begin and
end with two underscores, and `abstractName` which begin with `Abstract` or `_Abstract`.

Simplifications. Only what the checks look at is kept of the class body: which names it binds and whether to a function,
annotations by what `_process_annotation` makes of them, and whether there is an `__init__`. Non-module bases are no
dataclasses and no `abc` classes. Attributes of metaclasses (`mro`, `register`) are not found by lookups. Python is at
least 3.10, where `dataclass` recomputes `__abstractmethods__`. Other errors of `dataclass` (order of defaults, mutable
defaults) do not occur.
-/

namespace Verif.Module

open Enum (c3)

/-- What the class body binds a name to. -/
inductive Attr where
  /-- a function; `true` if marked `abc.abstractmethod` -/
  | func (abstract : Bool)
  /-- any other object; `true` for e.g. an abstract property -/
  | other (abstract : Bool)
  /-- `dataclasses.field()` or `eqx.field()` without default -/
  | field
deriving DecidableEq

/-- `getattr(v, "__isabstractmethod__", False)`. -/
def Attr.isAbstract : Attr → Bool
  | .func a => a
  | .other a => a
  | .field => false

/-- Annotations, as told apart by `_process_annotation` (`_better_abstract.py:137-170`). -/
inductive Ann where
  /-- `AbstractVar[...]` -/
  | abstractVar
  /-- `AbstractClassVar[...]` -/
  | abstractClassVar
  /-- `ClassVar[...]`, also as a string -/
  | classVar
  /-- any other annotation -/
  | plain
  /-- `AbstractVar` or `AbstractClassVar` without or with several arguments -/
  | malformed
  /-- a string beginning with `AbstractVar[` or `AbstractClassVar[` -/
  | stringified
deriving DecidableEq

/-- `_process_annotation` (`_better_abstract.py:137-170`): `(is_abstract, is_class)`. -/
def processAnnotation : Ann → Except Err (Bool × Bool)
  | .abstractVar => .ok (true, false)
  | .abstractClassVar => .ok (true, true)
  | .classVar => .ok (false, true)
  | .plain => .ok (false, false)
  | .malformed => .error .typeError
  | .stringified => .error .notImplemented

/-- `__dict__` and `__annotations__` of one class. -/
structure Layer (N : Type) where
  dict : Dict N Attr
  ann : Dict N Ann

section
variable {N : Type} [DecidableEq N]

/-- `set.discard` and `set.add`. -/
def discard (s : List N) (n : N) : List N := s.filter (fun m => m ≠ n)
def add (s : List N) (n : N) : List N := if n ∈ s then s else s ++ [n]

/-- `abstract_vars` and `abstract_class_vars`. -/
abbrev Abs (N : Type) := List N × List N

/-- One annotation (`_better_abstract.py:189-211`). -/
def annStep (dict : Dict N Attr) (s : Abs N) (p : N × Ann) : Except Err (Abs N) := do
  let r ← processAnnotation p.2
  if r.1 then
    if p.1 ∈ dict.keys then .error .typeError
    else if r.2 then .ok (discard s.1 p.1, add s.2 p.1)
    else if p.1 ∈ s.2 then .ok s else .ok (add s.1 p.1, s.2)
  else if r.2 then .ok (discard s.1 p.1, discard s.2 p.1)
  else .ok (discard s.1 p.1, s.2)

def annLoop (dict : Dict N Attr) : Abs N → List (N × Ann) → Except Err (Abs N)
  | s, [] => .ok s
  | s, p :: ps => do
    let s' ← annStep dict s p
    annLoop dict s' ps

/-- One class of the method resolution order (`_better_abstract.py:188-214`). -/
def layerStep (l : Layer N) (s : Abs N) : Except Err (Abs N) := do
  let s' ← annLoop l.dict s l.ann
  pure (l.dict.keys.foldl discard s'.1, l.dict.keys.foldl discard s'.2)

/-- `for kls in reversed(cls.__mro__)` (`_better_abstract.py:185-217`). -/
def abstractScan : List (Layer N) → Except Err (Abs N)
  | [] => .ok ([], [])
  | l :: ls => do
    let s ← abstractScan ls
    layerStep l s

/-! ### The class table -/

/-- `StrictConfig` (`_module.py:137-153`). -/
structure StrictConfig where
  forceAbstract : Bool := false
  allowAbstractName : Bool := false
  allowMethodOverride : Bool := false

/-- Kinds of class: modules, `typing.Generic` and other special forms (`_module.py:601-612`), and any other class. -/
inductive Kind where
  | module
  | special
  | plain
deriving DecidableEq

/-- A class statement. `strict` is `none` for `strict=False`. -/
structure ClassDef (N : Type) where
  kind : Kind
  name : N
  bases : List Nat
  body : Layer N
  customInit : Bool
  strict : Option StrictConfig

/-- A class. -/
structure Cls (N : Type) where
  kind : Kind
  name : N
  bases : List Nat
  mro : List Nat
  body : Layer N
  abstractMethods : List N
  abstractVars : List N
  abstractClassVars : List N
  /-- `__dataclass_fields__`: `true` for fields, `false` for class variables -/
  fields : Dict N Bool
  customInit : Bool
  /-- `_has_dataclass_init` -/
  dataclassInit : Bool
  /-- `_is_force_abstract` -/
  forceAbstract : Bool
  /-- `_is_strict` -/
  isStrict : Bool

abbrev World (N : Type) := List (Cls N)

/-- Class 0, `equinox.Module`. -/
def moduleCls (name : N) : Cls N :=
  ⟨.module, name, [], [0], ⟨[], []⟩, [], [], [], [], false, true, false, false⟩

/-- Look up an attribute along a method resolution order: the class it is found on and the attribute. -/
def lookup (w : World N) : List Nat → N → Option (Nat × Attr)
  | [], _ => none
  | c :: cs, k =>
    match w[c]? with
    | none => lookup w cs k
    | some cls => match cls.body.dict.get? k with
      | some a => some (c, a)
      | none => lookup w cs k

/-- `_is_abstract` (`_module.py:646-652`). -/
def Cls.isAbstract (c : Cls N) : Bool :=
  c.forceAbstract || decide (c.abstractMethods.length > 0) || decide (c.abstractVars.length > 0) ||
    decide (c.abstractClassVars.length > 0)

def mroOf (w : World N) (b : Nat) : List Nat := match w[b]? with | some c => c.mro | none => []

def layerOf (w : World N) (b : Nat) : Layer N := match w[b]? with | some c => c.body | none => ⟨[], []⟩

/-- `__abstractmethods__`: abstract attributes of the body, and names abstract in a base whose value in the new class is
still abstract. `look` looks up in the new class. -/
def abstractMethods (w : World N) (bases : List Nat) (dict : Dict N Attr) (look : N → Option (Nat × Attr)) : List N :=
  Dict.keys (dict.filter fun p => p.2.isAbstract) ++
    (bases.flatMap fun b => match w[b]? with | some c => c.abstractMethods | none => []).filter fun n =>
      match look n with | some (_, a) => a.isAbstract | none => false

/-- Some class of the list defines `__init__`. -/
def definesInit (w : World N) (cs : List Nat) : Bool :=
  cs.any fun c => match w[c]? with | some cls => cls.customInit | none => false

/-- `_module.py:236-252`: `mro` is the method resolution order without the class itself. -/
def dataclassInit (w : World N) (customInit : Bool) (mro : List Nat) : Bool :=
  if customInit then false else go mro
where
  go : List Nat → Bool
    | [] => true
    | c :: cs => match w[c]? with
      | none => go cs
      | some cls =>
        if cls.kind = .module then cls.dataclassInit
        else if definesInit w cls.mro then false
        else go cs

/-- The fields `dataclasses.dataclass` collects: those of the bases from the far end of the method resolution order, then
those annotated in the body, where abstract annotations have been taken out (`_better_abstract.py:239-253`). -/
def collectFields (w : World N) (rest : List Nat) (ann : Dict N Ann) : Dict N Bool :=
  let inherited := rest.reverse.foldl (fun (d : Dict N Bool) c => match w[c]? with | some cls => d.update cls.fields | none => d) []
  ann.foldl (fun (d : Dict N Bool) p => match p.2 with
    | .plain => d.insert p.1 true
    | .classVar => d.insert p.1 false
    | _ => d) inherited

/-- `len(dataclasses.fields(cls))`. -/
def numFields (d : Dict N Bool) : Nat := (d.filter (·.2)).length

/-- What `dataclasses.dataclass` (`_better_abstract.py:238-256`) leaves of the body: `field()`s without default are removed,
those of class variables too; one without annotation is an error. -/
def dataclassBody (l : Layer N) : Except Err (Layer N) :=
  if l.dict.any (fun p => p.2 = .field && !(l.ann.get? p.1 = some .plain) && !(l.ann.get? p.1 = some .classVar)) then
    .error .typeError
  else .ok ⟨l.dict.filter (fun p => p.2 ≠ .field), l.ann⟩

/-- `for base in bases` (`_module.py:353-414`). `cls` is the class being created. -/
def checkBase (w : World N) (cls : Cls N) (b : Nat) : Except Err Unit :=
  if b = 0 then .ok ()
  else match w[b]? with
    | none => .error .nameError
    | some base =>
      if base.kind = .special then .ok ()
      else if ¬ 0 ∈ base.mro then .error .typeError
      else if ¬ base.isStrict then .error .typeError
      else if ¬ base.isAbstract then .error .typeError
      else if numFields base.fields > 0 ∨ ¬ base.dataclassInit then
        if numFields cls.fields ≠ numFields base.fields then .error .typeError
        else if cls.customInit then .error .typeError
        else .ok ()
      else .ok ()

/-- `_module.py:415-457`. -/
def checkName (abstractName : N → Bool) (cfg : StrictConfig) (cls : Cls N) : Except Err Unit :=
  if cfg.allowAbstractName then .ok ()
  else if cls.isAbstract then
    if abstractName cls.name then .ok () else .error .typeError
  else if abstractName cls.name then .error .typeError else .ok ()

/-- The check of one method against one base (`_module.py:463-482`). -/
def checkOverride (w : World N) (cfg : StrictConfig) (k : N) (b : Nat) : Except Err Unit :=
  match lookup w (mroOf w b) k with
  | none => .ok ()
  | some (_, .func abs) => if !cfg.allowMethodOverride && !abs then .error .typeError else .ok ()
  | some (_, _) => .error .typeError

/-- Run checks in order; the first that fails raises. -/
def allOk : List (Except Err Unit) → Except Err Unit
  | [] => .ok ()
  | .ok _ :: l => allOk l
  | .error e :: _ => .error e

/-- `for k, v in cls.__dict__.items()` (`_module.py:458-482`): functions under names that are not magic are methods. -/
def checkMethods (magic : N → Bool) (w : World N) (cfg : StrictConfig) (cls : Cls N) : Except Err Unit :=
  allOk (cls.body.dict.flatMap fun p => match p.2 with
    | .func false => if magic p.1 then [] else cls.bases.map (checkOverride w cfg p.1)
    | _ => [])

/-- The checks of `strict=True` (`_module.py:352-482`). -/
def checkStrict (magic abstractName : N → Bool) (w : World N) (cfg : StrictConfig) (cls : Cls N) : Except Err Unit := do
  allOk (cls.bases.map (checkBase w cls))
  checkName abstractName cfg cls
  checkMethods magic w cfg cls

/-- Look up in the class about to be created. -/
def lookNew (w : World N) (dict : Dict N Attr) (rest : List Nat) (k : N) : Option (Nat × Attr) :=
  match dict.get? k with
  | some a => some (w.length, a)
  | none => lookup w rest k

/-- Some base is a module; then the metaclass makes the new class a module. -/
def hasModuleBase (w : World N) (bases : List Nat) : Bool :=
  bases.any fun b => match w[b]? with | some c => decide (c.kind = .module) | none => false

/-- `class ...` : a plain or special class, or `_ActualModuleMeta.__new__` (`_module.py:181-491`). -/
def newClass (magic abstractName : N → Bool) (w : World N) (d : ClassDef N) : Except Err (Cls N) :=
  if d.bases.any (fun b => decide (w.length ≤ b)) then .error .nameError
  else if hasModuleBase w d.bases ≠ decide (d.kind = .module) then .error .typeError
  else
    let ms := d.bases.map (mroOf w)
    match c3 ((ms ++ [d.bases]).flatten.length) (ms ++ [d.bases]) with
    | none => .error .typeError
    | some rest =>
      if d.kind ≠ .module then
        .ok ⟨d.kind, d.name, d.bases, w.length :: rest, d.body, [], [], [], [], d.customInit, false, false, false⟩
      else do
        let s ← abstractScan (d.body :: rest.map (layerOf w))
        let body ← dataclassBody d.body
        let cls : Cls N :=
          ⟨.module, d.name, d.bases, w.length :: rest, body,
            abstractMethods w d.bases body.dict (lookNew w body.dict rest), s.1, s.2,
            collectFields w rest d.body.ann, d.customInit, dataclassInit w d.customInit rest,
            (d.strict.getD {}).forceAbstract, d.strict.isSome⟩
        match d.strict with
        | none => pure cls
        | some cfg => do
          checkStrict magic abstractName w cfg cls
          pure cls

/-- Run class statements one after the other. -/
def build (magic abstractName : N → Bool) : World N → List (ClassDef N) → Except Err (World N)
  | w, [] => .ok w
  | w, d :: ds => do
    let c ← newClass magic abstractName w d
    build magic abstractName (w ++ [c]) ds

/-- What calling a class does before and after `__init__` (`_module.py:501-515`, `_better_abstract.py:219-234`,
`object.__new__`): abstract classes raise. `init` is what creating and initialising the object yields otherwise. The
temporary subclass of `_make_initable` binds no names that matter, and so has the same abstract attributes. -/
def instantiate {β : Type} (c : Cls N) (init : Except Err β) : Except Err β :=
  if c.forceAbstract then .error .typeError
  else if c.abstractClassVars.length > 0 then .error .typeError
  else if c.abstractMethods.length > 0 then .error .typeError
  else do
    let self ← init
    if c.abstractVars.length > 0 then .error .typeError else pure self

end

end Verif.Module
