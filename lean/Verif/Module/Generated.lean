import Verif.Module.Init

/-!
# C101: what the `__init__` that is generated for a module takes and does

`eqx.field` (`equinox/_module.py`, 53-128), the decoration of the class with `dataclass(eq=False, repr=False, frozen=True, init=True)` (292),
and `_ActualModuleMeta.__call__` (501-567) when `_has_dataclass_init[cls]`; the part of `__call__` after `__init__` is
`Verif.Module.Init.construct`.

Of `dataclasses` (Python's, not in /repo) this has what its documentation says of `field`, of the errors for defaults, of the signature and of
the body of `__init__`. A `default_factory` is represented by what it returns or raises at this call. Passing arguments is Python's: positional
ones first. Not modelled: `InitVar`s, warnings (see `Verif/Module/Warnings`), abstract classes (see `Verif/Module/Strict`), and
`default_factory` for a class variable (an error).
-/

namespace Verif.Module.Generated

open Init (Cls Field Inst Prog)

/-! ### `eqx.field` -/

/-- Keys of the metadata of a field. -/
inductive Key where
  | converter
  | static
  | other (k : String)
deriving DecidableEq

/-- Values in the metadata of a field. -/
inductive Meta (V : Type) where
  | conv (g : V → Except Err V)
  | bool (b : Bool)
  | obj (v : V)

/-- The default of a field: `default`, `default_factory` (what it returns or raises), or neither. -/
inductive Default (V : Type) where
  | missing
  | value (v : V)
  | factory (r : Except Err V)

/-- Keyword arguments of `eqx.field`; `init` and `kw_only` are those of `dataclasses.field`, with its defaults when left out. -/
structure FieldArgs (V : Type) where
  converter : Option (V → Except Err V) := none
  static : Bool := false
  metadata : Option (Dict Key (Meta V)) := none
  default : Option V := none
  factory : Option (Except Err V) := none
  init : Bool := true
  kwOnly : Bool := false

/-- A field as `dataclasses.field` makes it. -/
structure DField (V : Type) where
  metadata : Dict Key (Meta V)
  default : Default V
  init : Bool
  kwOnly : Bool

variable {N V : Type} [DecidableEq N]

/-- `dataclasses.field(metadata=..., **kwargs)`: not both kinds of default. -/
def dcField (m : Dict Key (Meta V)) (a : FieldArgs V) : Except Err (DField V) :=
  match a.default, a.factory with
  | some _, some _ => .error .valueError
  | some v, none => .ok ⟨m, .value v, a.init, a.kwOnly⟩
  | none, some r => .ok ⟨m, .factory r, a.init, a.kwOnly⟩
  | none, none => .ok ⟨m, .missing, a.init, a.kwOnly⟩

/-- `metadata["converter"] = converter` unless it is the sentinel (124-125). -/
def putConverter (a : FieldArgs V) (m : Dict Key (Meta V)) : Dict Key (Meta V) :=
  match a.converter with
  | some g => m.insert .converter (.conv g)
  | none => m

/-- `metadata["static"] = True` if `static` (126-127). -/
def putStatic (a : FieldArgs V) (m : Dict Key (Meta V)) : Dict Key (Meta V) :=
  if a.static then m.insert .static (.bool true) else m

/-- `eqx.field` (53-128). -/
def field (a : FieldArgs V) : Except Err (DField V) :=
  let m := a.metadata.getD []
  if (m.get? .converter).isSome then .error .valueError
  else if (m.get? .static).isSome then .error .valueError
  else dcField (putStatic a (putConverter a m)) a

/-! ### The class -/

/-- A field of a class: what of it matters for `__init__`. -/
structure Decl (N V : Type) where
  name : N
  default : Default V
  init : Bool
  kwOnly : Bool
  converter : Option (V → Except Err V)

/-- There is a default. -/
def Default.has : Default V → Bool
  | .missing => false
  | .value _ => true
  | .factory _ => true

/-- `metadata["converter"]`, if there. -/
def DField.conv (f : DField V) : Option (V → Except Err V) :=
  match f.metadata.get? .converter with
  | some (.conv g) => some g
  | _ => none

/-- `name: annotation = field(...)` in the class body. -/
def DField.decl (n : N) (f : DField V) : Decl N V := ⟨n, f.default, f.init, f.kwOnly, f.conv⟩

/-- `dataclasses`: `f.default` may not be unhashable. -/
def defaultsOk (unhashable : V → Bool) : List (Decl N V) → Bool
  | [] => true
  | d :: ds => match d.default with
    | .value v => !unhashable v && defaultsOk unhashable ds
    | _ => defaultsOk unhashable ds

/-- Parameters that can be passed by position: fields with `init`, not `kw_only`. -/
def positional (ds : List (Decl N V)) : List (Decl N V) := ds.filter fun d => d.init && !d.kwOnly

/-- Parameters behind the `*`. -/
def keywordOnly (ds : List (Decl N V)) : List (Decl N V) := ds.filter fun d => d.init && d.kwOnly

/-- `_init_fn`: no parameter without default behind one with default. `seen`: there was one with default. -/
def orderOk (seen : Bool) : List (Decl N V) → Bool
  | [] => true
  | d :: ds => if d.default.has then orderOk true ds else !seen && orderOk seen ds

/-- What `dataclass(init=True)` refuses of the fields (292). The check of defaults comes first. -/
def define (unhashable : V → Bool) (ds : List (Decl N V)) : Except Err (List (Decl N V)) :=
  if defaultsOk unhashable ds then
    if orderOk false (positional ds) then .ok ds else .error .typeError
  else .error .valueError

/-! ### Calls -/

/-- Positional arguments are bound to parameters in order; more than there are parameters: `none`. -/
def bindPos : List (Decl N V) → List V → Option (Dict N V)
  | _, [] => some []
  | [], _ :: _ => none
  | d :: ds, v :: vs => (bindPos ds vs).map ((d.name, v) :: ·)

/-- Keyword arguments: each must be a parameter that is not bound yet. -/
def bindKw (params : List N) : Dict N V → Dict N V → Option (Dict N V)
  | b, [] => some b
  | b, (n, v) :: kw =>
    if n ∈ params && (b.get? n).isNone then bindKw params (b ++ [(n, v)]) kw else none

/-- Python's passing of arguments to `__init__`: `TypeError` if that cannot be done, or if a parameter without default is left. -/
def bindArgs (ds : List (Decl N V)) (args : List V) (kwargs : Dict N V) : Except Err (Dict N V) :=
  match bindPos (positional ds) args with
  | none => .error .typeError
  | some b =>
    match bindKw ((positional ds ++ keywordOnly ds).map (·.name)) b kwargs with
    | none => .error .typeError
    | some b =>
      if (positional ds ++ keywordOnly ds).all fun d => d.default.has || (b.get? d.name).isSome then .ok b
      else .error .typeError

/-- `_field_init` of `dataclasses`: the value that `__init__` assigns to a field, if it assigns one. A plain default of a field with
`init=False` is left on the class. -/
def fieldInit (b : Dict N V) (d : Decl N V) : Except Err (Option V) :=
  match d.init, d.default with
  | true, .missing => .ok (b.get? d.name)
  | true, .value v => match b.get? d.name with
    | some u => .ok (some u)
    | none => .ok (some v)
  | true, .factory r => match b.get? d.name with
    | some u => .ok (some u)
    | none => r.map some
  | false, .missing => .ok none
  | false, .value _ => .ok none
  | false, .factory r => r.map some

/-- The values that the body of `__init__` assigns, field by field. -/
def assigned (b : Dict N V) : List (Decl N V) → Except Err (Dict N V)
  | [] => .ok []
  | d :: ds => do
    let v ← fieldInit b d
    let r ← assigned b ds
    match v with
    | some v => .ok ((d.name, v) :: r)
    | none => .ok r

/-- A module class with generated `__init__`. -/
structure GCls (N V : Type) where
  decls : List (Decl N V)
  /-- what names are bound to on the class -/
  attrs : N → Option (Init.ClassAttr N V)
  boundToSelf : V → Bool
  checks : List (Prog N V)
  /-- `__post_init__` -/
  post : Prog N V
  /-- `jtu.tree_leaves` of a value returns (it raises `ValueError` if there is a dictionary whose keys cannot be sorted) -/
  flattens : V → Bool
  /-- the name `cls` -/
  clsName : N

/-- The class as `Verif.Module.Init` has it. -/
def GCls.cls (c : GCls N V) : Cls N V := ⟨c.decls.map fun d => ⟨d.name, d.converter⟩, c.attrs, c.boundToSelf, c.checks⟩

/-- Calling the class (501-567). The keyword `cls` is the first parameter of `__call__` itself. Then all arguments are flattened to look for
JAX-transformed functions (507), the arguments are passed to `__init__`, and its body runs. -/
def call (c : GCls N V) (args : List V) (kwargs : Dict N V) : Except Err (Inst N V) :=
  if c.clsName ∈ kwargs.keys then .error .typeError
  else if (args ++ kwargs.map (·.2)).all c.flattens then do
    let b ← bindArgs c.decls args kwargs
    let r ← assigned b c.decls
    Init.construct c.cls (.generated r.get? c.post)
  else .error .valueError

end Verif.Module.Generated
