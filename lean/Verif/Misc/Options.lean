import Verif.Module.ForwardProps

/-!
# C109: options can be given in advance, and are checked

The functions of equinox that make wrappers, when they are called with options and perhaps without the function (`@filter_jit(donate="all")`):
`filter_jit` (`equinox/_jit.py`, 316-415), `filter_vmap` (`equinox/_vmap_pmap.py`, 215-223, 336-360), `filter_pmap` (542-551, 635-684),
`filter_value_and_grad` (`equinox/_ad.py`, 151-153, 177-190), `filter_grad` (229, 274-279), `filter_checkpoint` (1150-1155, 1173-1182),
`assert_max_traces` (`equinox/debug/_max_traces.py`, 99, 153-155), `filter_primitive_transpose` (`equinox/internal/_primitive.py`, 191, 204-207); with
`deprecated_0_10` (`equinox/_deprecate.py`).

Of Python (not in /repo) this has calls of functions (`Verif/Module/Signature`) and `functools.partial`: calling one calls the function, with the
keywords of the call on top of those kept. What the wrappers do with the options is elsewhere (C27-C31, C46, C48, C61, C78).
-/

namespace Verif.Misc.Options

open Verif.Module.Signature

/-- Python objects: the sentinel, `None`, bools, strings, the tuple `(0,)`, all others. -/
inductive Val (O : Type) where
  | sentinel
  | none
  | bool (b : Bool)
  | str (s : String)
  | zeroTuple
  | obj (o : O)
deriving DecidableEq

/-- What depends on the objects: the default `if_array(0)`, what `inspect.signature` raises if it does, and which objects cannot be hashed. -/
structure World (O : Type) where
  ifArray : O
  signature : Val O → Option Err
  unhashable : O → Bool

/-- The functions. -/
inductive Maker where
  | jit
  | vmap
  | pmap
  | valueAndGrad
  | grad
  | checkpoint
  | maxTraces
  | transpose
deriving DecidableEq

variable {O : Type}

/-- Keyword arguments. -/
abbrev Kw (O : Type) := Dict String (Val O)

/-- The name of the first parameter. -/
def first : Maker → String
  | .maxTraces => "fn"
  | .transpose => "rule"
  | _ => "fun"

/-- The keyword-only parameters and their defaults. -/
def named (w : World O) : Maker → List (String × Option (Val O))
  | .jit => [("donate", some (.str "none"))]
  | .vmap => [("in_axes", some (.obj w.ifArray)), ("out_axes", some (.obj w.ifArray)), ("axis_name", some .none), ("axis_size", some .none)]
  | .pmap => [("in_axes", some (.obj w.ifArray)), ("out_axes", some (.obj w.ifArray)), ("axis_name", some .none), ("axis_size", some .none),
      ("donate", some (.str "none"))]
  | .valueAndGrad => [("has_aux", some (.bool false))]
  | .grad => [("has_aux", some (.bool false))]
  | .checkpoint => [("prevent_cse", some (.bool true)), ("policy", some .none)]
  | .maxTraces => [("max_traces", Option.none)]
  | .transpose => [("materialise_zeros", some (.bool false))]

/-- There is a `**jitkwargs`. -/
def star : Maker → Bool
  | .jit => true
  | .vmap => true
  | .pmap => true
  | .valueAndGrad => true
  | .grad => true
  | _ => false

/-- The parameters. -/
def params (w : World O) (m : Maker) : List (Param String (Val O)) :=
  ⟨first m, .posOrKw, some .sentinel⟩ :: ((named w m).map (fun d => ⟨d.1, .kwOnly, d.2⟩) ++
    (if star m then [⟨"**", .varKw, Option.none⟩] else []))

/-- What is returned: a `functools.partial` of the function with some keywords, or the wrapper. -/
inductive Made (O : Type) where
  | part (kw : Kw O)
  | jit (f : Val O) (filterWarning donateFirst donateRest : Bool) (jitkwargs : Kw O)
  | vmap (f : Val O) (axes : Kw O) (vmapkwargs : Kw O)
  | pmap (f : Val O) (axes : Kw O) (filterWarning : Bool) (pmapkwargs : Kw O) (deprecationWarning : Bool)
  | valueAndGrad (f : Val O) (hasAux : Option (Val O)) (gradkwargs : Kw O)
  | grad (f : Val O) (hasAux : Option (Val O)) (gradkwargs : Kw O)
  | other (f : Val O) (options : Kw O)

/-- `deprecated_0_10(kwargs, name)`, for several names. -/
def deprecated (kw : Kw O) : List String → Except Err Unit
  | [] => .ok ()
  | n :: ns => if kw.keys.contains n then .error .valueError else deprecated kw ns

/-- The names that `filter_jit`, `filter_vmap` and `filter_pmap` once took. -/
def oldNames : List String := ["default", "fn", "args", "kwargs", "out"]

/-- `filter_jit` (391-415): `filter_warning`, `donate_first`, `donate_rest`. -/
def jitDonate : Option (Val O) → Except Err (Bool × Bool × Bool)
  | some (.str s) =>
    if s = "all" then .ok (true, true, true)
    else if s = "all-except-first" then .ok (true, false, true)
    else if s = "warn" then .ok (false, true, true)
    else if s = "warn-except-first" then .ok (false, false, true)
    else if s = "none" then .ok (false, false, false)
    else .error .valueError
  | _ => .error .valueError

/-- `filter_jit` (377-415) -/
def makeJit (w : World O) (f : Val O) (opts extra : Kw O) : Except Err (Made O) := do
  deprecated extra oldNames
  if ["static_argnums", "static_argnames", "donate_argnums"].any (fun n => extra.keys.contains n) then .error .valueError
  else
    match w.signature f with
    | some e => .error e
    | Option.none =>
      let (s, a, b) ← jitDonate (opts.get? "donate")
      .ok (.jit f s a b extra)

/-- `filter_vmap` (346-360) -/
def makeVmap (f : Val O) (opts extra : Kw O) : Except Err (Made O) := do
  deprecated extra oldNames
  .ok (.vmap f opts extra)

/-- `filter_pmap` (659-670): the new value of `donate`, and whether there is a warning. Looking for an object in a set hashes it. -/
def pmapDonate (w : World O) : Option (Val O) → Except Err (String × Bool)
  | some (.str s) =>
    let (s, w) := if s = "arrays" then ("all", true) else (s, false)
    if ["all", "warn", "none"].contains s then .ok (s, w) else .error .valueError
  | some (.obj o) => if w.unhashable o then .error .typeError else .error .valueError
  | _ => .error .valueError

/-- `filter_pmap` (646-684) -/
def makePmap (w : World O) (f : Val O) (opts extra : Kw O) : Except Err (Made O) := do
  deprecated extra oldNames
  if ["static_broadcasted_argnums", "donate_argnums"].any (fun n => extra.keys.contains n) then .error .valueError
  else
    let (d, dep) ← pmapDonate w (opts.get? "donate")
    .ok (.pmap f (opts.filter fun e => e.1 != "donate") (d == "all")
      (if d = "none" then extra else extra.insert "donate_argnums" .zeroTuple) dep)

/-- `filter_value_and_grad` (180-190): the keywords for `jax.value_and_grad`; `argnums` is taken out. -/
def gradKwargs (extra : Kw O) : Except Err (Kw O) := do
  deprecated extra ["arg", "filter_spec"]
  match extra.get? "argnums" with
  | Option.none => .ok extra
  | some .none => .ok (extra.filter fun e => e.1 != "argnums")
  | some _ => .error .valueError

/-- What happens if there is a function. `filter_grad` (277) calls `filter_value_and_grad` with all of its options. -/
def make (w : World O) (m : Maker) (f : Val O) (opts extra : Kw O) : Except Err (Made O) :=
  match m with
  | .jit => makeJit w f opts extra
  | .vmap => makeVmap f opts extra
  | .pmap => makePmap w f opts extra
  | .valueAndGrad => do .ok (.valueAndGrad f (opts.get? "has_aux") (← gradKwargs extra))
  | .grad => do .ok (.grad f (opts.get? "has_aux") (← gradKwargs extra))
  | _ => .ok (.other f opts)

/-- The keyword-only arguments among the bindings. -/
def onesOf : List (String × Held String (Val O)) → Kw O
  | [] => []
  | (n, .one v) :: b => (n, v) :: onesOf b
  | _ :: b => onesOf b

/-- The dictionary of `**jitkwargs` among the bindings. -/
def dictOf : List (String × Held String (Val O)) → Kw O
  | [] => []
  | (_, .dict d) :: _ => d
  | _ :: b => dictOf b

/-- The bodies: `if fun is sentinel: return ft.partial(...)`, with all of the options. -/
def body (w : World O) (m : Maker) : List (String × Held String (Val O)) → Except Err (Made O)
  | (_, .one .sentinel) :: b => .ok (.part (onesOf b ++ dictOf b))
  | (_, .one f) :: b => make w m f (onesOf b) (dictOf b)
  | _ => .error .assertionError

/-- A call of one of the functions. -/
def call (w : World O) (m : Maker) (args : List (Val O)) (kwargs : Kw O) : Except Err (Made O) := do
  body w m (← bind (params w m) args kwargs)

/-- A call of a `functools.partial` of it that keeps the keywords `held`. -/
def callPartial (w : World O) (m : Maker) (held : Kw O) (args : List (Val O)) (kwargs : Kw O) : Except Err (Made O) :=
  call w m args (held.update kwargs)

/-- `m(**os[0])(**os[1])...(*args, **kwargs)`. If a wrapper is made before the end, then it is called with what follows; that is not modelled. -/
def chain (w : World O) (m : Maker) (held : Kw O) : List (Kw O) → List (Val O) → Kw O → Except Err (Made O)
  | [], args, kwargs => callPartial w m held args kwargs
  | o :: os, args, kwargs => do
    match ← callPartial w m held [] o with
    | .part held => chain w m held os args kwargs
    | _ => .error .assertionError

end Verif.Misc.Options
