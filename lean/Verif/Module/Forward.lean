import Verif.Module.SignatureProps

/-!
# C108: wrapped functions take the arguments of the function

How the arguments of a call get from a wrapper of equinox to the function that it wraps:

* `_JitWrapper.__call__` (`equinox/_jit.py`, 207-209) with `_call` (230, 243-245), `_preprocess` (73-75), `_bind` (66-70) and `fun_wrapped` (50-55);
  `_JitWrapper.lower` (217-218);
* `_ValueAndGradWrapper.__call__` (`equinox/_ad.py`, 60-81), `_GradWrapper.__call__` (97-98), `_Jac.__call__` (427-432),
  `filter_custom_jvp.__call__` (826-828, 783-785), `filter_custom_vjp.__call__` (1097-1114), `_CheckpointWrapper.__call__` (1205-1219);
* `_MakeJaxpr.__call__` (`equinox/_make_jaxpr.py`, 32-39), `_AssertMaxTraces.__call__` (`equinox/debug/_max_traces.py`, 49-52, 86),
  `_NoInlineWrapper.__call__` (`equinox/internal/_noinline.py`, 357-364, 456-458), `_Closure.__call__`
  (`equinox/internal/_closure_to_pytree.py`, 82-88), `BoundMethod.__call__` (`equinox/_module.py`, 1041-1043);
* which of them have a `__wrapped__`, that `inspect.signature` follows (`_jit.py`, 204; `_ad.py`, 57, 94, 1202; `_make_jaxpr.py`, 29;
  `_max_traces.py`, 46; `_noinline.py`, 354).

Only how arguments are passed on is modelled here: taking arrays out of the arguments and putting (traced) ones back is the identity (C01), and
the number of traces is not counted. Of Python (not in /repo) this has, besides calls of functions (`Verif/Module/Signature`),
`inspect.Signature.bind` with the properties `args` and `kwargs` of `inspect.BoundArguments`. For a parameter in front of `/` with a default and a
keyword of the same name, older versions of `Signature.bind` raise where the call does not; this has the documented behaviour. What is called
`args` and `kwargs` here has other names in some of the functions; these names cannot be passed as keywords, so they play no role.
-/

namespace Verif.Module.Forward

open Verif.Module.Signature

/-! ### `inspect.Signature.bind` -/

section
variable {N V : Type} [DecidableEq N]

/-- What `BoundArguments.arguments` has for a parameter: nothing if no argument was passed. -/
def given (loc : Dict N V) (rest : List V) (extra : Dict N V) (p : Param N V) : Except Err (Option (Held N V)) :=
  match p.kind with
  | .varPos => .ok (if rest.isEmpty then none else some (.tuple rest))
  | .varKw => .ok (if extra.isEmpty then none else some (.dict extra))
  | _ =>
    match loc.get? p.name with
    | some v => .ok (some (.one v))
    | none => if p.default.isSome then .ok none else .error .typeError

/-- The same for all parameters. -/
def collect (loc : Dict N V) (rest : List V) (extra : Dict N V) : List (Param N V) → Except Err (List (Param N V × Option (Held N V)))
  | [] => .ok []
  | p :: ps => do
    let h ← given loc rest extra p
    let b ← collect loc rest extra ps
    .ok ((p, h) :: b)

/-- `Signature.bind`. -/
def sigBind (ps : List (Param N V)) (args : List V) (kwargs : Dict N V) : Except Err (List (Param N V × Option (Held N V))) :=
  let front := ps.filter Param.pos
  let loc := (front.map (·.name)).zip args
  let rest := args.drop front.length
  match passKw (keywords ps) (hasVarKw ps) loc [] kwargs with
  | .error e => .error e
  | .ok (loc, extra) =>
    if rest.isEmpty || hasVarPos ps then collect loc rest extra ps else .error .typeError

/-- `BoundArguments.args`: up to the first parameter that is missing or keyword-only. -/
def boundArgs : List (Param N V × Option (Held N V)) → List V
  | [] => []
  | (p, o) :: l =>
    match p.kind, o with
    | .kwOnly, _ => []
    | .varKw, _ => []
    | _, none => []
    | _, some (.one v) => v :: boundArgs l
    | _, some (.tuple vs) => vs ++ boundArgs l
    | _, some (.dict _) => []

/-- The assignments of `BoundArguments.kwargs`; `started` is its `kwargs_started`. (`*args` is never bound behind a missing parameter.) -/
def kwItems : Bool → List (Param N V × Option (Held N V)) → Dict N V
  | _, [] => []
  | true, (p, o) :: l =>
    match o with
    | some (.one v) => (p.name, v) :: kwItems true l
    | some (.dict d) => d ++ kwItems true l
    | _ => kwItems true l
  | false, (p, o) :: l =>
    match p.kind, o with
    | .kwOnly, some (.one v) => (p.name, v) :: kwItems true l
    | .kwOnly, _ => kwItems true l
    | .varKw, some (.dict d) => d ++ kwItems true l
    | .varKw, _ => kwItems true l
    | _, none => kwItems true l
    | _, some _ => kwItems false l

/-- `_bind` (`_jit.py`, 66-70). -/
def bound (ps : List (Param N V)) (args : List V) (kwargs : Dict N V) : Except Err (List V × Dict N V) := do
  let l ← sigBind ps args kwargs
  .ok (boundArgs l, Dict.ofList (kwItems false l))

end

/-! ### Functions that pass their arguments on -/

variable {V : Type}

/-- `def g(n1, ..., nk, *args, **kwargs)`, or with a `/` behind `nk`. -/
def fwdParams (names : List String) (slash : Bool) : List (Param String V) :=
  names.map (fun n => ⟨n, if slash then .posOnly else .posOrKw, none⟩) ++ [⟨"args", .varPos, none⟩, ⟨"kwargs", .varKw, none⟩]

/-- The objects in a list of bindings. -/
def ones : List (String × Held String V) → List V
  | [] => []
  | (_, .one v) :: b => v :: ones b
  | _ :: b => ones b

/-- What such a function finds when it is called: its first parameters, `args` and `kwargs`. -/
def forward (names : List String) (slash : Bool) (args : List V) (kwargs : Dict String V) : Except Err (List V × List V × Dict String V) := do
  let b ← bind (fwdParams names slash) args kwargs
  match b.drop names.length with
  | [(_, .tuple a), (_, .dict k)] => .ok (ones (b.take names.length), a, k)
  | _ => .error .assertionError

/-! ### Wrappers -/

/-- The wrappers. -/
inductive Wrapper where
  | jit
  | valueAndGrad
  | grad
  | jac
  | customJvp
  | customVjp
  | checkpoint
  | makeJaxpr
  | maxTraces
  | noinline
  | closure
deriving DecidableEq

/-- `inspect.signature` of a function with these parameters in these wrappers, the outermost first: `__wrapped__` is followed, otherwise it is
that of `__call__`. The `__wrapped__` of a noinlined function is `abstract_fn`. -/
def sigOf (ps : List (Param String V)) : List Wrapper → List (Param String V)
  | [] => ps
  | .jac :: _ => fwdParams ["x"] true
  | .customJvp :: _ => fwdParams [] false
  | .customVjp :: _ => fwdParams ["vjp_arg"] true
  | .closure :: _ => fwdParams [] false
  | .noinline :: _ => fwdParams ["__dynamic_fn"] false
  | _ :: ws => sigOf ps ws

/-- `_ValueAndGradWrapper.__call__` (60-81) up to the function: `__call__(self, *args, **kwargs)`; `x, *args = args`;
`fun_value_and_grad(_diff_x, _nondiff_x, *_args, **_kwargs)`; `self._fun(_x, *_args, **_kwargs)`. -/
def valueAndGradStep (self : V) (args : List V) (kwargs : Dict String V) : Except Err (List V × Dict String V) := do
  let (_, args, kwargs) ← forward ["self"] false (self :: args) kwargs
  match args with
  | [] => .error .typeError
  | x :: args =>
    let (_, args, kwargs) ← forward ["_diff_x", "_nondiff_x"] false (x :: x :: args) kwargs
    .ok (x :: args, kwargs)

/-- One wrapper: what it calls its function with. `self` is the wrapper, `sig` the signature of its function. -/
def step (self : V) (sig : List (Param String V)) (w : Wrapper) (args : List V) (kwargs : Dict String V) : Except Err (List V × Dict String V) :=
  match w with
  | .jit => do
    let (_, args, kwargs) ← forward ["self"] true (self :: args) kwargs
    bound sig args kwargs
  | .valueAndGrad => valueAndGradStep self args kwargs
  | .grad => do
    let (_, args, kwargs) ← forward ["self"] true (self :: args) kwargs
    valueAndGradStep self args kwargs
  | .jac => do
    let (own, args, kwargs) ← forward ["self", "x"] true (self :: args) kwargs
    .ok (own.drop 1 ++ args, kwargs)
  | .customVjp => do
    let (own, args, kwargs) ← forward ["self", "vjp_arg"] true (self :: args) kwargs
    .ok (own.drop 1 ++ args, kwargs)
  | .maxTraces => do
    let (_, args, kwargs) ← forward ["self"] false (self :: args) kwargs
    let _ ← sigBind sig args kwargs
    .ok (args, kwargs)
  | .noinline => do
    let (_, args, kwargs) ← forward ["self"] false (self :: args) kwargs
    let (_, args, kwargs) ← forward ["__dynamic_fn"] false (self :: args) kwargs
    .ok (args, kwargs)
  | .customJvp => do
    let (_, args, kwargs) ← forward ["self"] false (self :: args) kwargs
    .ok (args, kwargs)
  | .checkpoint => do
    let (_, args, kwargs) ← forward ["self"] false (self :: args) kwargs
    .ok (args, kwargs)
  | .makeJaxpr => do
    let (_, args, kwargs) ← forward ["self"] false (self :: args) kwargs
    .ok (args, kwargs)
  | .closure => do
    let (_, args, kwargs) ← forward ["self"] false (self :: args) kwargs
    .ok (args, kwargs)

/-- A call of a function with the parameters `ps` in some wrappers, the outermost first: how its parameters are bound. -/
def enter (self : V) (ps : List (Param String V)) : List Wrapper → List V → Dict String V → Except Err (List (String × Held String V))
  | [], args, kwargs => bind ps args kwargs
  | w :: ws, args, kwargs => do
    let (args, kwargs) ← step self (sigOf ps ws) w args kwargs
    enter self ps ws args kwargs

/-- A method of a module (`BoundMethod.__call__`, 1041-1043): `self.__func__(self.__self__, *args, **kwargs)`. -/
def method (self : V) (ps : List (Param String V)) (obj : V) (args : List V) (kwargs : Dict String V) :
    Except Err (List (String × Held String V)) := do
  let (_, args, kwargs) ← forward ["self"] false (self :: args) kwargs
  bind ps (obj :: args) kwargs

/-- `filter_jit(f).lower(*args, **kwargs)`, up to `f`: `lower(self, /, *args, **kwargs)` (217) is a method of a module, so it is called through a
`BoundMethod`. -/
def lower (self : V) (ps : List (Param String V)) (args : List V) (kwargs : Dict String V) : Except Err (List (String × Held String V)) := do
  let (_, args, kwargs) ← forward ["self"] false (self :: args) kwargs
  let (_, args, kwargs) ← forward ["self"] true (self :: args) kwargs
  let (args, kwargs) ← bound ps args kwargs
  bind ps args kwargs

end Verif.Module.Forward
