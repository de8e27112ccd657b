import Verif.Module.GeneratedProps

/-!
# C106: the signature of a module is what it can be called with

`_ActualModuleMeta.__signature__` (`equinox/_module.py`, 493-498), which `inspect.signature(cls)` returns, and the way of the arguments of
`cls(...)` through `_ActualModuleMeta.__call__` (501, 514) to `__init__`.

Of Python (not in /repo) this has how a call passes arguments to the parameters of a function (`initialize_locals` of CPython's `ceval.c`),
and what `inspect.Signature` checks when it is made from parameters. `inspect.signature(__init__)` is taken to list the parameters of
`__init__`, and `Signature.bind` to do what a call of a function with these parameters does, as their documentation says. `__init__` is a
function (not a `staticmethod` or a callable object). Of the errors only the type is modelled.
-/

namespace Verif.Module.Signature

/-- `inspect._ParameterKind`. -/
inductive Kind where
  | posOnly
  | posOrKw
  | varPos
  | kwOnly
  | varKw
deriving DecidableEq

/-- Its values. -/
def Kind.rank : Kind → Nat
  | .posOnly => 0
  | .posOrKw => 1
  | .varPos => 2
  | .kwOnly => 3
  | .varKw => 4

/-- `inspect.Parameter`. -/
structure Param (N V : Type) where
  name : N
  kind : Kind
  default : Option V

/-- What the body finds a parameter bound to: an object, the tuple of `*args`, or the dictionary of `**kwargs`. -/
inductive Held (N V : Type) where
  | one (v : V)
  | tuple (vs : List V)
  | dict (kw : Dict N V)

variable {N V : Type} [DecidableEq N]

/-- Can be passed by position. -/
def Param.pos (p : Param N V) : Bool :=
  match p.kind with
  | .posOnly => true
  | .posOrKw => true
  | _ => false

/-- Can be passed by keyword. -/
def Param.named (p : Param N V) : Bool :=
  match p.kind with
  | .posOrKw => true
  | .kwOnly => true
  | _ => false

/-! ### Calls of functions -/

/-- The names that keywords can have. -/
def keywords (ps : List (Param N V)) : List N := (ps.filter Param.named).map (·.name)

/-- There is a `*args`. -/
def hasVarPos (ps : List (Param N V)) : Bool := ps.any fun p => p.kind == .varPos

/-- There is a `**kwargs`. -/
def hasVarKw (ps : List (Param N V)) : Bool := ps.any fun p => p.kind == .varKw

/-- Keyword arguments one by one: to the parameter of that name, which must not be bound yet, or else into the dictionary of `**kwargs`. -/
def passKw (names : List N) (star : Bool) : Dict N V → Dict N V → Dict N V → Except Err (Dict N V × Dict N V)
  | loc, extra, [] => .ok (loc, extra)
  | loc, extra, (n, v) :: kw =>
    if names.contains n then
      if (loc.get? n).isSome then .error .typeError else passKw names star (loc ++ [(n, v)]) extra kw
    else if star then passKw names star loc (extra ++ [(n, v)]) kw
    else .error .typeError

/-- What one parameter is bound to in the end: defaults, and `TypeError` for what is missing. -/
def heldBy (loc : Dict N V) (rest : List V) (extra : Dict N V) (p : Param N V) : Except Err (Held N V) :=
  match p.kind with
  | .varPos => .ok (.tuple rest)
  | .varKw => .ok (.dict extra)
  | _ =>
    match loc.get? p.name with
    | some v => .ok (.one v)
    | none =>
      match p.default with
      | some v => .ok (.one v)
      | none => .error .typeError

/-- The same for all parameters. -/
def fill (loc : Dict N V) (rest : List V) (extra : Dict N V) : List (Param N V) → Except Err (List (N × Held N V))
  | [] => .ok []
  | p :: ps => do
    let h ← heldBy loc rest extra p
    let b ← fill loc rest extra ps
    .ok ((p.name, h) :: b)

/-- Passing arguments to a function with the parameters `ps`: positional ones to the parameters in order, the rest into `*args`; then keywords;
then defaults. -/
def bind (ps : List (Param N V)) (args : List V) (kwargs : Dict N V) : Except Err (List (N × Held N V)) :=
  let front := ps.filter Param.pos
  let loc := (front.map (·.name)).zip args
  let rest := args.drop front.length
  match passKw (keywords ps) (hasVarKw ps) loc [] kwargs with
  | .error e => .error e
  | .ok (loc, extra) =>
    if rest.isEmpty || hasVarPos ps then fill loc rest extra ps else .error .typeError

/-! ### Signatures -/

/-- `inspect.Signature.__init__`: kinds in order, no parameter without default behind one with default, names different.
`top`, `seen`, `names`: the largest kind, whether there was a default, and the names so far. -/
def checkParams (top : Nat) (seen : Bool) (names : List N) : List (Param N V) → Bool
  | [] => true
  | p :: ps =>
    let bad := decide (p.kind.rank < top) || (p.pos && p.default.isNone && seen) || names.contains p.name
    !bad && checkParams (max top p.kind.rank) (seen || (p.pos && p.default.isSome)) (p.name :: names) ps

/-- `Signature.replace(parameters=...)`, which makes a new signature. -/
def mkSignature (ps : List (Param N V)) : Except Err (List (Param N V)) :=
  if checkParams 0 false [] ps then .ok ps else .error .valueError

/-- `__signature__` (494-498), `init` being the parameters of `cls.__init__`: all of them but the first. -/
def signature (init : List (Param N V)) : Except Err (List (Param N V)) := mkSignature (init.drop 1)

/-- `cls(*args, **kwargs)` up to the body of `__init__`: `__call__(cls, *args, **kwargs)` (501), whose own first parameter has the name
`clsName`; then `super().__call__(*args, **kwargs)` (514), which calls `__init__` with the new instance in front. -/
def enter (clsName : N) (init : List (Param N V)) (self : V) (args : List V) (kwargs : Dict N V) : Except Err (List (N × Held N V)) :=
  if kwargs.keys.contains clsName then .error .typeError else bind init (self :: args) kwargs

/-! ### The parameters of the generated `__init__` -/

/-- The default of a parameter; for a `default_factory` this is a placeholder. -/
def dflt (placeholder : V) : Generated.Default V → Option V
  | .missing => none
  | .value v => some v
  | .factory _ => some placeholder

/-- A field as a parameter. -/
def fieldParam (placeholder : V) (d : Generated.Decl N V) : Param N V :=
  ⟨d.name, if d.kwOnly then .kwOnly else .posOrKw, dflt placeholder d.default⟩

/-- `_init_fn` of `dataclasses`: `self`, the positional fields, the others behind `*`. -/
def generatedParams (selfName : N) (placeholder : V) (ds : List (Generated.Decl N V)) : List (Param N V) :=
  ⟨selfName, .posOrKw, none⟩ :: ((Generated.positional ds ++ Generated.keywordOnly ds).map (fieldParam placeholder))

end Verif.Module.Signature
