import Verif.Enum.Lemmas

/-!
# Class statements with any bases, and their warnings (`equinox/_enum.py`)

`Verif/Enum/Model` takes all bases to be enumerations and leaves out `Enumeration` and `object`. Here classes are numbered in
the order in which they are created, with `object` as number 0 and `Enumeration` as number 1; a class is an enumeration if its
metaclass is `_EnumerationMeta`, which is so if one of its bases is one. Other classes have no metaclass of their own.
-/

namespace Verif
namespace Enum
namespace Bases

variable {N M : Type} [DecidableEq N] [DecidableEq M]

/-- A class. `cls.mro` is its whole method resolution order; the tables of ordinary classes are empty. -/
structure PCls (N M : Type) where
  cls : Cls N M
  /-- Its metaclass is `_EnumerationMeta`. -/
  enum : Bool
  /-- The names in its `__dict__`. -/
  names : List N

/-- `object` and `Enumeration` (lines 226-373); the names `promote` and `where` are the parameter `reserved`. -/
def start : List (PCls N M) := [⟨⟨[0], ⟨[], []⟩, []⟩, false, []⟩, ⟨⟨[1, 0], ⟨[], []⟩, []⟩, true, []⟩]

/-- `message != existing_message` for a name that is there (lines 37-39). -/
def differs (t : Tab N M) (name : N) (msg : M) : Bool :=
  match t.items.get? name with
  | none => false
  | some i => decide (t.msgs[i]? ≠ some msg)

/-- The names for which `_store` has warned, after storing another one (lines 38-43). -/
def warn (ws : List N) (t : Tab N M) (name : N) (msg : M) : List N := if differs t name msg then ws ++ [name] else ws

/-- The loop over the items of a base class (lines 88-94) with its warnings. -/
def copyItems (bmsgs : List M) : List (N × Nat) → Tab N M → List Nat → List N → Except Err (Tab N M × List Nat × List N)
  | [], t, off, ws => .ok (t, off, ws)
  | (name, i) :: l, t, off, ws =>
    match bmsgs[i]? with
    | none => .error .indexError
    | some msg =>
      copyItems bmsgs l (store t name msg).1 (off.set i (store t name msg).2) (warn ws t name msg)

/-- The table and the offsets of the class that is being created, and the names warned about. -/
abbrev Making (N M : Type) := Building N M × List N

/-- The body of the loop over base classes (lines 82-95). -/
def addBase (env : List (PCls N M)) (s : Making N M) (b : Nat) : Except Err (Making N M) :=
  match env[b]? with
  | none => .error .keyError
  | some base =>
    if 1 ∉ base.cls.mro then .error .valueError
    else if b ∈ s.1.2.keys then .ok s
    else
      match copyItems base.cls.tab.msgs base.cls.tab.items s.1.1 (List.replicate base.cls.tab.items.length 0) s.2 with
      | .error e => .error e
      | .ok r => .ok ((r.1, s.1.2.insert b r.2.1), r.2.2)

/-- The items declared in the class body (lines 96-98). -/
def addOwn (t : Tab N M) (ws : List N) : List (N × M) → Tab N M × List N
  | [] => (t, ws)
  | p :: own => addOwn (store t p.1 p.2).1 (warn ws t p.1 p.2) own

/-- `original_base.__mro__[:-2]` (line 81) of every base, one after the other. -/
def visited (env : List (PCls N M)) (bases : List Nat) : List Nat :=
  ((mros (env.map (·.cls)) bases).map (fun l => l.take (l.length - 2))).flatten

/-- The base of a class statement without bases is `object`. -/
def basesOf (bases : List Nat) : List Nat := if bases.isEmpty then [0] else bases

/-- The metaclass of a class with these bases is `_EnumerationMeta`. -/
def isEnum (env : List (PCls N M)) (bases : List Nat) : Bool :=
  bases.any (fun b => match env[b]? with | some k => k.enum | none => false)

/-- Python's `type.__new__`: the method resolution order, if it exists. -/
def linearize (env : List (PCls N M)) (bases : List Nat) : Option (List Nat) :=
  c3 ((mros (env.map (·.cls)) bases ++ [bases]).flatten.length) (mros (env.map (·.cls)) bases ++ [bases])

/-- `_EnumerationMeta.__new__` (lines 49-114): the new class and the names warned about. `internal` are the three names of
lines 50-52. -/
def newEnum (magic reserved internal : N → Bool) (env : List (PCls N M)) (bases : List Nat) (own : List (N × M)) :
    Except Err (PCls N M × List N) :=
  if (Dict.ofList own).any (fun p => internal p.1) then .error .assertionError
  else if (Dict.ofList own).any (fun p => reserved p.1) then .error .valueError
  else
    match linearize env bases with
    | none => .error .typeError
    | some rest =>
      match foldE (addBase env) ((⟨[], []⟩, []), []) (visited env bases) with
      | .error e => .error e
      | .ok s =>
        let r := addOwn s.1.1 s.2 ((Dict.ofList own).filter (fun p => !magic p.1))
        .ok (⟨⟨env.length :: rest, r.1, s.1.2⟩, true, (Dict.keys (Dict.ofList own)).filter magic⟩, r.2)

/-- An ordinary class. -/
def newPlain (env : List (PCls N M)) (bases : List Nat) (own : List (N × M)) : Except Err (PCls N M × List N) :=
  match linearize env bases with
  | none => .error .typeError
  | some rest => .ok (⟨⟨env.length :: rest, ⟨[], []⟩, []⟩, false, Dict.keys (Dict.ofList own)⟩, [])

/-- A class statement. Naming a base which does not exist raises (as a `NameError`). -/
def newClass (magic reserved internal : N → Bool) (env : List (PCls N M)) (bases : List Nat) (own : List (N × M)) :
    Except Err (PCls N M × List N) :=
  if bases.any (fun b => decide (env.length ≤ b)) then .error .keyError
  else if isEnum env bases then newEnum magic reserved internal env bases own
  else newPlain env (basesOf bases) own

/-- A class statement in a module. -/
def create (magic reserved internal : N → Bool) (env : List (PCls N M)) (d : Decl N M) : Except Err (List (PCls N M)) :=
  match newClass magic reserved internal env d.1 d.2 with
  | .error e => .error e
  | .ok k => .ok (env ++ [k.1])

/-- A sequence of class statements. -/
def build (magic reserved internal : N → Bool) (decls : List (Decl N M)) : Except Err (List (PCls N M)) :=
  foldE (create magic reserved internal) start decls

/-- What `cls.name` is. -/
inductive Found where
  /-- what ordinary lookup finds in the `__dict__` of a class -/
  | attr (cls : Nat)
  /-- an item, by `__getattr__` -/
  | item (i : Item)
deriving DecidableEq, Repr

/-- `cls.name` for an enumeration (lines 116-120): ordinary lookup along the method resolution order comes first.
`shadowed` are the names that `object`, `type` and `Enumeration` have. -/
def getattr (shadowed : N → Bool) (env : List (PCls N M)) (c : Nat) (name : N) : Except Err Found :=
  match env[c]? with
  | none => .error .keyError
  | some k =>
    match k.cls.mro.find? (fun d => match env[d]? with | some kd => decide (name ∈ kd.names) | none => false) with
    | some d => .ok (.attr d)
    | none => (Enum.getattr shadowed (env.map (·.cls)) c name).map .item

end Bases
end Enum
end Verif
