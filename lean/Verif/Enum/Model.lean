import Verif.Basic
import Verif.Dict

/-!
# `equinox/_enum.py`

Enumeration classes are numbered in the order in which they are created. Method resolution orders leave out
`Enumeration` and `object` at the end, and so do lists of bases (`class A(Enumeration)` has no bases here). All
bases are enumerations (see DESIGN.md). Values of items are the
concrete integers; `N` is the type of names and `M` of messages.
-/

namespace Verif
namespace Enum

variable {N M : Type} [DecidableEq N]

/-! ### Python's method resolution order -/

/-- Heads of the lists which are in no tail are candidates; the first one is next. -/
def nextHead (ls : List (List Nat)) : Option Nat :=
  (ls.filterMap List.head?).find? (fun x => ls.all (fun l => x ∉ l.tail))

/-- Remove a class from the heads. -/
def dropHead (x : Nat) (l : List Nat) : List Nat := if l.head? = some x then l.tail else l

/-- The merge step of C3 linearisation; the first argument bounds the number of steps. -/
def c3 : Nat → List (List Nat) → Option (List Nat)
  | 0, ls => if ls.all List.isEmpty then some [] else none
  | fuel + 1, ls =>
    if ls.all List.isEmpty then some []
    else match nextHead ls with
      | none => none
      | some x => (c3 fuel (ls.map (dropHead x))).map (x :: ·)

/-! ### Creating classes -/

/-- The attributes `_name_to_item` (only the value of each item) and `_index_to_message`. -/
structure Tab (N M : Type) where
  items : Dict N Nat
  msgs : List M

/-- An enumeration class. -/
structure Cls (N M : Type) where
  mro : List Nat
  tab : Tab N M
  /-- `_base_offsets` -/
  offsets : Dict Nat (List Nat)

/-- `_store` (lines 22-45). The warning for incompatible duplicates is not modelled. -/
def store (t : Tab N M) (name : N) (msg : M) : Tab N M × Nat :=
  match t.items.get? name with
  | none => (⟨t.items.insert name t.msgs.length, t.msgs ++ [msg]⟩, t.msgs.length)
  | some i => (⟨t.items, t.msgs.set i msg⟩, i)

/-- The loop over the items of a base class (lines 88-94). -/
def copyItems (bmsgs : List M) : List (N × Nat) → Tab N M → List Nat → Except Err (Tab N M × List Nat)
  | [], t, off => .ok (t, off)
  | (name, i) :: l, t, off =>
    match bmsgs[i]? with
    | none => .error .indexError
    | some msg => let r := store t name msg; copyItems bmsgs l r.1 (off.set i r.2)

/-- What is built while a class is created: its table and its `_base_offsets`. -/
abbrev Building (N M : Type) := Tab N M × Dict Nat (List Nat)

/-- The body of the loop over base classes (lines 86-95). -/
def addBase (env : List (Cls N M)) (s : Building N M) (b : Nat) : Except Err (Building N M) :=
  if b ∈ s.2.keys then .ok s
  else match env[b]? with
    | none => .error .keyError
    | some base =>
      match copyItems base.tab.msgs base.tab.items s.1 (List.replicate base.tab.items.length 0) with
      | .error e => .error e
      | .ok r => .ok (r.1, s.2.insert b r.2)

/-- A loop which may raise. -/
def foldE {S X : Type} (f : S → X → Except Err S) : S → List X → Except Err S
  | s, [] => .ok s
  | s, x :: l => match f s x with
    | .error e => .error e
    | .ok s => foldE f s l

/-- The method resolution order of each base. -/
def mros (env : List (Cls N M)) (bases : List Nat) : List (List Nat) :=
  bases.map (fun b => match env[b]? with | some c => c.mro | none => [])

/-- The items declared in the class body (lines 96-98). -/
def addOwn (t : Tab N M) (own : List (N × M)) : Tab N M := own.foldl (fun t p => (store t p.1 p.2).1) t

/-- `_EnumerationMeta.__new__` (lines 49-114): the new class. `own` is the class body as a dictionary. -/
def newClass (magic reserved : N → Bool) (env : List (Cls N M)) (bases : List Nat) (own : List (N × M)) :
    Except Err (Cls N M) :=
  if bases.any (fun b => decide (env.length ≤ b)) then .error .keyError
  else if (Dict.ofList own).any (fun p => reserved p.1) then .error .valueError
  else
    match c3 ((mros env bases ++ [bases]).flatten.length) (mros env bases ++ [bases]) with
    | none => .error .typeError
    | some rest =>
      match foldE (addBase env) (⟨[], []⟩, []) (mros env bases).flatten with
      | .error e => .error e
      | .ok s => .ok ⟨env.length :: rest, addOwn s.1 ((Dict.ofList own).filter (fun p => !magic p.1)), s.2⟩

/-- A class statement. Naming a base which does not exist raises (as a `NameError`). -/
def create (magic reserved : N → Bool) (env : List (Cls N M)) (bases : List Nat) (own : List (N × M)) :
    Except Err (List (Cls N M)) :=
  match newClass magic reserved env bases own with
  | .error e => .error e
  | .ok k => .ok (env ++ [k])

/-- The bases and the body of a class statement. -/
abbrev Decl (N M : Type) := List Nat × List (N × M)

/-- A sequence of class statements. -/
def build (magic reserved : N → Bool) (decls : List (Decl N M)) : Except Err (List (Cls N M)) :=
  foldE (fun env d => create magic reserved env d.1 d.2) [] decls

/-! ### Items -/

/-- An `EnumerationItem` (lines 142-146). -/
structure Item where
  value : Nat
  cls : Nat
deriving DecidableEq, Repr

/-- `cls.name` (lines 116-120). `shadowed` are the names which ordinary attribute lookup finds first, so that
`__getattr__` is not called. -/
def getattr (shadowed : N → Bool) (env : List (Cls N M)) (c : Nat) (name : N) : Except Err Item :=
  if shadowed name then .error .attributeError
  else match (env[c]?).bind (fun k => k.tab.items.get? name) with
    | none => .error .attributeError
    | some i => .ok ⟨i, c⟩

/-- `cls[item]` (lines 122-133). -/
def message (env : List (Cls N M)) (c : Nat) (item : Item) : Except Err M :=
  if item.cls ≠ c then .error .valueError
  else match (env[c]?).bind (fun k => k.tab.msgs[item.value]?) with
    | none => .error .indexError
    | some m => .ok m

/-- `len(cls)` (lines 135-136). -/
def len (env : List (Cls N M)) (c : Nat) : Nat :=
  match env[c]? with
  | some k => k.tab.items.length
  | none => 0

/-- `item == other` (lines 153-160). -/
def itemEq (a b : Item) : Except Err Bool := if a.cls = b.cls then .ok (a.value == b.value) else .error .valueError

/-- `item != other` (lines 162-169). -/
def itemNe (a b : Item) : Except Err Bool := if a.cls = b.cls then .ok (a.value != b.value) else .error .valueError

/-- `issubclass(c, d)`. -/
def isSubclass (env : List (Cls N M)) (c d : Nat) : Bool :=
  match env[c]? with
  | some k => decide (d ∈ k.mro)
  | none => false

/-- `cls.promote(item)` (lines 293-332). -/
def promote (env : List (Cls N M)) (c : Nat) (item : Item) : Except Err Item :=
  if isSubclass env c item.cls = false ∨ item.cls = c then .error .valueError
  else match (env[c]?).bind (fun k => k.offsets.get? item.cls) with
    | none => .error .keyError
    | some off => match off[item.value]? with
      | none => .error .indexError
      | some v => .ok ⟨v, c⟩

/-- `cls.where(pred, a, b)` (lines 335-373); `pred` is `none` when it is not a scalar boolean. -/
def enumWhere (c : Nat) (pred : Option Bool) (a b : Item) : Except Err Item :=
  match pred with
  | none => .error .valueError
  | some pred =>
    if a.cls = c ∧ b.cls = c then .ok ⟨if pred then a.value else b.value, c⟩ else .error .valueError

end Enum
end Verif
