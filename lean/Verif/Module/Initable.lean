/-!
# The class a module has while it is being made (`equinox/_module.py:501-569, 664-668, 755-834, 901-917, 1111-1143`)

Modules are immutable, except while their `__init__` runs. For that time the instance belongs to another class, `_InitableModule`, a
subclass of the class that was called whose `__setattr__` allows the fields to be assigned; afterwards the class of the instance is set
to the class that was called. These temporary classes are kept in an `lru_cache` of 128 entries.

The model is a transition system. An event is something Python does: assigning or deleting `__init__` or `__post_init__` of a class,
`equinox.clear_caches()`, the beginning and the end of a call of a class, an assignment to an attribute of an instance, flattening and
unflattening an instance (`tree_map`, `tree_at`, going through `jit`), and `module_update_wrapper`. The body of an `__init__` is whatever
happens between the beginning and the end of the call; other modules may be made in it, so that these calls are on a stack.

Simplified:
* Classes are numbers; their method resolution orders and fields are given once and for all. Functions are compared by identity, as
  functions are, and are hashable. A class without an `__init__` along its method resolution order uses that of `object`.
* The converters, the checks of 519-557 and `__check_init__` are `Verif.Module.Init`; here `finish` and `fail` say whether they succeed.
  An exception in `__check_init__` comes after the class has been set (559): `failCheck`.
* Copying an instance keeps all its attributes (`Verif.Module.InstanceProps`); the values are not looked at. That a bound method of the
  instance itself cannot be assigned is `Verif.Module.Init`.
* `module_update_wrapper` is one step, on an instance that is not being made, as its calls in the library are; the copy it first makes is `copy`.
-/

namespace Verif.Module.Initable

/-- What is known about classes from their creation on. -/
structure Hier (N F : Type) where
  mro : Nat → List Nat
  fields : Nat → List N
  /-- `_wrapper_field_names` (655-661) -/
  wrapperNames : List N
  /-- `object.__init__` -/
  objectInit : F

/-- The class of an instance: one that was written by the user, or the temporary one with this number. -/
inductive ClassRef where
  | user (c : Nat)
  | temp (k : Nat)
deriving DecidableEq

/-- A class made by `_make_initable` (776-831): what it inherits from, the `__init__` it was given (824), and the names its `__setattr__`
accepts (771-774). -/
structure Temp (N F : Type) where
  base : Nat
  init : F
  allowed : List N

/-- The arguments of `_make_initable`, which are the key of the cache (760-763). -/
structure Key (F : Type) where
  cls : Nat
  init : Option F
  post : Option F
  wraps : Bool
deriving DecidableEq

structure Obj (N V : Type) where
  cls : ClassRef
  dict : N → Option V

structure State (N F V : Type) where
  /-- `"__init__"` in the `__dict__` of each class -/
  init : Nat → Option F
  post : Nat → Option F
  temps : List (Temp N F)
  /-- most recently used first -/
  cache : List (Key F × Nat)
  objs : List (Obj N V)
  /-- the instances whose `__init__` is running and the classes that were called, innermost first -/
  stack : List (Nat × Nat)

inductive Event (N F V : Type) where
  | setInit (c : Nat) (f : Option F)
  | setPost (c : Nat) (f : Option F)
  | clear
  | start (c : Nat)
  | finish
  | fail
  | failCheck
  | setattr (o : Nat) (n : N) (v : V)
  | callPost (o : Nat)
  | copy (o : Nat)
  | updateWrapper (o : Nat) (look : N → Option V)

/-- What can be seen of an event. -/
inductive Out (F : Type) where
  | done
  /-- this `__init__` is called with instance `o` -/
  | init (o : Nat) (f : F)
  /-- this `__post_init__` is called -/
  | post (f : F)
  | frozenInstanceError
  | attributeError
  /-- the event does not make sense: no such instance, no running `__init__` -/
  | stuck
deriving DecidableEq

variable {N F V : Type} [DecidableEq N] [DecidableEq F]

/-- An attribute of a class: the first class along the method resolution order that has it. -/
def lookup (own : Nat → Option F) : List Nat → Option F
  | [] => none
  | c :: cs => match own c with
    | some f => some f
    | none => lookup own cs

/-- `cls.__init__` -/
def initOf (H : Hier N F) (s : State N F V) (c : Nat) : F := (lookup s.init (H.mro c)).getD H.objectInit

/-- `getattr(cls, "__post_init__", None)` -/
def postOf (H : Hier N F) (s : State N F V) (c : Nat) : Option F := lookup s.post (H.mro c)

/-- `maxsize` (760) -/
def cap : Nat := 128

/-- The body of `_make_initable` (764-831): `cls.__init__` is looked up again; the arguments `init` and `post_init` are deleted. -/
def make (H : Hier N F) (s : State N F V) (k : Key F) : Temp N F :=
  { base := k.cls, init := initOf H s k.cls, allowed := if k.wraps then H.wrapperNames else H.fields k.cls }

/-- The entry of a key in the cache. -/
def find (k : Key F) : List (Key F × Nat) → Option Nat
  | [] => none
  | e :: es => if e.1 = k then some e.2 else find k es

/-- `_make_initable` with its cache (760): a hit moves the entry to the front, a miss makes a class and drops the least recently used
entry if there are more than 128. -/
def makeInitable (H : Hier N F) (s : State N F V) (k : Key F) : Nat × State N F V :=
  match find k s.cache with
  | some t => (t, { s with cache := (k, t) :: s.cache.filter (fun e => e.1 ≠ k) })
  | none => (s.temps.length, { s with temps := s.temps ++ [make H s k], cache := ((k, s.temps.length) :: s.cache).take cap })

/-- `_make_initable_wrapper` (755-757) -/
def keyOf (H : Hier N F) (s : State N F V) (c : Nat) : Key F :=
  { cls := c, init := some (initOf H s c), post := postOf H s c, wraps := false }

/-- The key used by `module_update_wrapper` (1124). -/
def wrapKey (c : Nat) : Key F := { cls := c, init := none, post := none, wraps := true }

/-- Change the instance with this number. -/
def modify (s : State N F V) (o : Nat) (g : Obj N V → Obj N V) : State N F V := { s with objs := s.objs.modify o g }

/-- `_ActualModuleMeta.__call__` up to the call of `__init__` (512-514): the instance is made by `object.__new__(initable_cls)`, and
`initable_cls.__init__` is the attribute set at 824. -/
def start (H : Hier N F) (s : State N F V) (c : Nat) : State N F V × Out F :=
  let r := makeInitable H s (keyOf H s c)
  match r.2.temps[r.1]? with
  | none => (s, .stuck)
  | some t => ({ r.2 with objs := r.2.objs ++ [⟨.temp r.1, fun _ => none⟩], stack := (r.2.objs.length, c) :: r.2.stack },
      .init r.2.objs.length t.init)

/-- `self.name = value`. In a temporary class this is the `__setattr__` of 779-818; any other module class is a frozen dataclass. -/
def setattr (s : State N F V) (o : Nat) (n : N) (v : V) : State N F V × Out F :=
  match s.objs[o]? with
  | none => (s, .stuck)
  | some x => match x.cls with
    | .user _ => (s, .frozenInstanceError)
    | .temp k => match s.temps[k]? with
      | none => (s, .stuck)
      | some t =>
        if n ∈ t.allowed then (modify s o fun x => { x with dict := fun m => if m = n then some v else x.dict m }, .done)
        else (s, .attributeError)

/-- The class whose attributes an instance has, apart from what the temporary class itself defines. -/
def baseOf (s : State N F V) : ClassRef → Option Nat
  | .user c => some c
  | .temp k => s.temps[k]?.map (·.base)

/-- `self.__post_init__()`, the last line of a generated `__init__`. The temporary class does not have one of its own. -/
def callPost (H : Hier N F) (s : State N F V) (o : Nat) : State N F V × Out F :=
  match s.objs[o]?.bind (fun x => baseOf s x.cls) with
  | none => (s, .stuck)
  | some c => match postOf H s c with
    | none => (s, .attributeError)
    | some f => (s, .post f)

/-- `jtu.tree_unflatten(*jtu.tree_flatten(x))`: `_unflatten_module` (901-917) is registered for each class, including the temporary ones
(484-489), with that class. -/
def copy (s : State N F V) (o : Nat) : State N F V × Out F :=
  match s.objs[o]? with
  | none => (s, .stuck)
  | some x => ({ s with objs := s.objs ++ [x] }, .done)

/-- `setattr` for each wrapper field the wrapped object has (1133-1140). -/
def assignAll (look : N → Option V) : List N → (N → Option V) → (N → Option V)
  | [], d => d
  | n :: ns, d => match look n with
    | none => assignAll look ns d
    | some v => assignAll look ns (fun m => if m = n then some v else d m)

/-- `_module_update_wrapper(…, inplace=True)` (1114, 1124-1142): the class is exchanged, the attributes are set, the class is put back. -/
def updateWrapper (H : Hier N F) (s : State N F V) (o : Nat) (look : N → Option V) : State N F V × Out F :=
  match s.objs[o]? with
  | none => (s, .stuck)
  | some x => match x.cls with
    | .temp _ => (s, .stuck)
    | .user c =>
      let r := makeInitable H s (wrapKey c)
      match r.2.temps[r.1]? with
      | none => (s, .stuck)
      | some t => (modify r.2 o fun x => { cls := .user c, dict := assignAll look (H.wrapperNames.filter (· ∈ t.allowed)) x.dict }, .done)

/-- One event. -/
def step (H : Hier N F) (s : State N F V) : Event N F V → State N F V × Out F
  | .setInit c f => ({ s with init := fun d => if d = c then f else s.init d }, .done)
  | .setPost c f => ({ s with post := fun d => if d = c then f else s.post d }, .done)
  | .clear => ({ s with cache := [] }, .done)
  | .start c => start H s c
  | .finish => match s.stack with
    | [] => (s, .stuck)
    | (o, c) :: rest => (modify { s with stack := rest } o fun x => { x with cls := .user c }, .done)
  | .fail => match s.stack with
    | [] => (s, .stuck)
    | _ :: rest => ({ s with stack := rest }, .done)
  | .failCheck => match s.stack with
    | [] => (s, .stuck)
    | (o, c) :: rest => (modify { s with stack := rest } o fun x => { x with cls := .user c }, .done)
  | .setattr o n v => setattr s o n v
  | .callPost o => callPost H s o
  | .copy o => copy s o
  | .updateWrapper o look => updateWrapper H s o look

/-- All of these events, in order. -/
def run (H : Hier N F) : State N F V → List (Event N F V) → State N F V
  | s, [] => s
  | s, e :: es => run H (step H s e).1 es

/-- Before anything has happened: only the classes are there, with the attributes they were written with. -/
def initial (init post : Nat → Option F) : State N F V :=
  { init := init, post := post, temps := [], cache := [], objs := [], stack := [] }

end Verif.Module.Initable
