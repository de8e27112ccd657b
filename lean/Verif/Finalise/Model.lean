import Verif.Basic

/-!
# Finalisation of jaxprs (`equinox/internal/_finalise_jaxpr.py`)

A jaxpr is a list of equations; parameters of equations may be jaxprs again. `finalise_jaxpr` runs `finalise_eval_jaxpr` under
`jax.make_jaxpr`: the values are tracers (variables of the new jaxpr) or concrete, every `bind` adds an equation, and a concrete
operand becomes a literal (if it is `small`: JAX does so with scalars) or a new constant.

Simplified: all primitives have a list of results; binding a call-like primitive with a function made of a jaxpr gives an equation with
this jaxpr (retracing it by JAX changes names of variables only); constants are not merged. The trace of an `impl` rule is a
parameter, namely the jaxpr of what it does.
-/

namespace Verif
namespace Finalise

variable {V P O : Type}

/-- An operand of an equation: a variable or a literal. -/
inductive Atom (V : Type) where
  | var (n : Nat)
  | lit (v : V)

mutual
/-- Equations and then the output. -/
inductive Body (V P O : Type) where
  | done (outs : List (Atom V))
  | eqn (p : P) (ps : Params V P O) (ins : List (Atom V)) (outs : List Nat) (rest : Body V P O)
/-- Parameters of an equation; a value may be a tuple (exactly of type `tuple`). -/
inductive Params (V P O : Type) where
  | nil
  | one (key : String) (v : Val V P O) (rest : Params V P O)
  | tuple (key : String) (vs : Vals V P O) (rest : Params V P O)
/-- The elements of a tuple. -/
inductive Vals (V P O : Type) where
  | nil
  | cons (v : Val V P O) (rest : Vals V P O)
/-- A value: a jaxpr (with variables for constants, arguments, and equations), a closed jaxpr (with constants), or anything else. -/
inductive Val (V P O : Type) where
  | opened (cvs ivs : List Nat) (b : Body V P O)
  | closed (cvs ivs : List Nat) (b : Body V P O) (cs : List V)
  | other (o : O)
end

/-- `jax.extend.core.ClosedJaxpr` -/
structure Closed (V P O : Type) where
  cvs : List Nat
  ivs : List Nat
  body : Body V P O
  consts : List V

/-! ## What a jaxpr means -/

/-- A dictionary from variables. -/
abbrev Env (α : Type) := Nat → Option α

def Env.empty {α : Type} : Env α := fun _ => none

/-- `_safe_map(write, ...)` (30-35, 87-92); lengths are compared separately. -/
def Env.write {α : Type} (env : Env α) : List Nat → List α → Env α
  | k :: ks, v :: vs => Env.write (fun x => if x = k then some v else env x) ks vs
  | _, _ => env

/-- `read` (84-85) for concrete values. -/
def readVal (env : Env V) : Atom V → Except Err V
  | .lit v => .ok v
  | .var n => match env n with
    | some v => .ok v
    | none => .error .keyError

/-- `f` on all elements. -/
def mapAll {α β : Type} (f : α → Except Err β) : List α → Except Err (List β)
  | [] => .ok []
  | x :: xs => do
    let y ← f x
    let ys ← mapAll f xs
    pure (y :: ys)

/-- What a primitive can do with a parameter: call a jaxpr (with constants, if it is not closed). -/
inductive DVal (V O : Type) where
  | opened (nconsts : Nat) (f : List V → List V → Except Err (List V))
  | closed (f : List V → Except Err (List V))
  | other (o : O)

inductive DParam (V O : Type) where
  | one (v : DVal V O)
  | tuple (vs : List (DVal V O))

/-- What `bind` means for a primitive, given what its parameters mean. -/
abbrev Sem (V P O : Type) := P → List (String × DParam V O) → List V → Except Err (List V)

/-- Evaluate, given how. -/
def runWith (cvs ivs : List Nat) (cs xs : List V) (f : Env V → Except Err (List V)) : Except Err (List V) :=
  if cvs.length ≠ cs.length then .error .assertionError
  else if ivs.length ≠ xs.length then .error .assertionError
  else f ((Env.empty.write cvs cs).write ivs xs)

mutual
/-- `jax.core.eval_jaxpr` -/
def evalBody (sem : Sem V P O) : Body V P O → Env V → Except Err (List V)
  | .done outs, env => mapAll (readVal env) outs
  | .eqn p ps ins outs rest, env => do
    let xs ← mapAll (readVal env) ins
    let ys ← sem p (denParams sem ps) xs
    if outs.length ≠ ys.length then throw .assertionError
    evalBody sem rest (env.write outs ys)
def denParams (sem : Sem V P O) : Params V P O → List (String × DParam V O)
  | .nil => []
  | .one k v rest => (k, .one (denVal sem v)) :: denParams sem rest
  | .tuple k vs rest => (k, .tuple (denVals sem vs)) :: denParams sem rest
def denVals (sem : Sem V P O) : Vals V P O → List (DVal V O)
  | .nil => []
  | .cons v rest => denVal sem v :: denVals sem rest
def denVal (sem : Sem V P O) : Val V P O → DVal V O
  | .opened cvs ivs b => .opened cvs.length fun cs xs => runWith cvs ivs cs xs (evalBody sem b)
  | .closed cvs ivs b cs => .closed fun xs => runWith cvs ivs cs xs (evalBody sem b)
  | .other o => .other o
end

/-- `jax.core.jaxpr_as_fun` -/
def Closed.run (sem : Sem V P O) (j : Closed V P O) (xs : List V) : Except Err (List V) :=
  runWith j.cvs j.ivs j.consts xs (evalBody sem j.body)

/-! ## Finalisation -/

/-- The entries of `primitive_finalisations` (72-76, 183-220): `register_impl_finalisation`, `custom_jvp_call_p`, `stop_gradient_p`. -/
inductive Rule where
  | impl
  | jvp
  | stop
deriving DecidableEq

/-- The table; which concrete values become literals; and what `impl` does, given (finalised) parameters and the number of arguments. -/
structure Table (V P O : Type) where
  rule : P → Option Rule
  small : V → Bool
  impl : P → Params V P O → Nat → Except Err (Closed V P O)

/-- A value while tracing: a tracer, or a concrete one. -/
inductive Opnd (V : Type) where
  | tr (n : Nat)
  | conc (v : V)

/-- `read` (84-85) -/
def readOp (env : Env (Opnd V)) : Atom V → Except Err (Opnd V)
  | .lit v => .ok (.conc v)
  | .var n => match env n with
    | some o => .ok o
    | none => .error .keyError

/-- The operands of a new equation: their atoms, new constants, and the next variable. -/
structure Placed (V : Type) where
  atoms : List (Atom V)
  consts : List (Nat × V)
  next : Nat

/-- Tracing: use values as operands. -/
def place (small : V → Bool) : List (Opnd V) → Nat → Placed V
  | [], n => ⟨[], [], n⟩
  | .tr k :: os, n => let r := place small os n; ⟨.var k :: r.atoms, r.consts, r.next⟩
  | .conc v :: os, n =>
    if small v then let r := place small os n; ⟨.lit v :: r.atoms, r.consts, r.next⟩
    else let r := place small os (n + 1); ⟨.var n :: r.atoms, (n, v) :: r.consts, r.next⟩

/-- `len` new variables. -/
def fresh (n : Nat) : Nat → List Nat
  | 0 => []
  | len + 1 => n :: fresh (n + 1) len

/-- What tracing gives: equations and output, and constants. -/
structure Res (V P O : Type) where
  body : Body V P O
  consts : List (Nat × V)

/-- Tracing: `bind` adds an equation; `k` does the rest, for the given results. -/
def bind (small : V → Bool) (p : P) (ps : Params V P O) (os : List (Opnd V)) (len n : Nat)
    (k : List (Opnd V) → Nat → Except Err (Res V P O)) : Except Err (Res V P O) := do
  let a := place small os n
  let vars := fresh a.next len
  let r ← k (vars.map .tr) (a.next + len)
  pure ⟨.eqn p ps a.atoms vars r.body, a.consts ++ r.consts⟩

/-- Tracing: evaluate a jaxpr (`fun.call_wrapped` or the body of an `impl`); `k` does the rest. -/
def inline (small : V → Bool) : Body V P O → Env (Opnd V) → Nat → (List (Opnd V) → Nat → Except Err (Res V P O)) →
    Except Err (Res V P O)
  | .done outs, env, n, k => do
    let os ← mapAll (readOp env) outs
    k os n
  | .eqn p ps ins outs rest, env, n, k => do
    let os ← mapAll (readOp env) ins
    bind small p ps os outs.length n fun vs n => inline small rest (env.write outs vs) n k

/-- `inline` for a closed jaxpr. -/
def inlineClosed (small : V → Bool) (j : Closed V P O) (os : List (Opnd V)) (n : Nat)
    (k : List (Opnd V) → Nat → Except Err (Res V P O)) : Except Err (Res V P O) :=
  if j.cvs.length ≠ j.consts.length then .error .assertionError
  else if j.ivs.length ≠ os.length then .error .assertionError
  else inline small j.body ((Env.empty.write j.cvs (j.consts.map .conc)).write j.ivs os) n k

/-- `custom_jvp_call`: its function comes from the parameter `call_jaxpr`. -/
def callJaxpr : Params V P O → Except Err (Closed V P O)
  | .nil => .error .keyError
  | .one k v rest =>
    if k = "call_jaxpr" then match v with
      | .closed cvs ivs b cs => .ok ⟨cvs, ivs, b, cs⟩
      | _ => .error .attributeError
    else callJaxpr rest
  | .tuple k _ rest => if k = "call_jaxpr" then .error .attributeError else callJaxpr rest

/-- `_safe_map(write, eqn.outvars, ans)` (101-104), then the rest. -/
def andWrite {α β : Type} (outs : List Nat) (env : Env α) (f : Env α → Nat → Except Err β) (os : List α) (n : Nat) : Except Err β :=
  if outs.length ≠ os.length then .error .assertionError else f (env.write outs os) n

mutual
/-- The loop of `finalise_eval_jaxpr` (93-104), under `make_jaxpr`. -/
def finBody (T : Table V P O) : Body V P O → Env (Opnd V) → Nat → Except Err (Res V P O)
  | .done outs, env, n => do
    let os ← mapAll (readOp env) outs
    let a := place T.small os n
    pure ⟨.done a.atoms, a.consts⟩
  | .eqn p ps ins outs rest, env, n => do
    let ps ← finParams T ps
    match T.rule p with
    | none => do
      let os ← mapAll (readOp env) ins
      bind T.small p ps os outs.length n (andWrite outs env (finBody T rest))
    | some .impl => do
      let os ← mapAll (readOp env) ins
      let j ← T.impl p ps os.length
      inlineClosed T.small j os n (andWrite outs env (finBody T rest))
    | some .jvp => do
      let j ← callJaxpr ps
      let os ← mapAll (readOp env) ins
      inlineClosed T.small j os n (andWrite outs env (finBody T rest))
    | some .stop => do
      let os ← mapAll (readOp env) ins
      if os.length ≠ 1 then throw .typeError
      andWrite outs env (finBody T rest) os n
/-- `_finalise_jaxprs_in_params` (53-61) -/
def finParams (T : Table V P O) : Params V P O → Except Err (Params V P O)
  | .nil => .ok .nil
  | .one k v rest => do
    let v ← finVal T v
    let rest ← finParams T rest
    pure (.one k v rest)
  | .tuple k vs rest => do
    let vs ← finVals T vs
    let rest ← finParams T rest
    pure (.tuple k vs rest)
/-- Line 59. -/
def finVals (T : Table V P O) : Vals V P O → Except Err (Vals V P O)
  | .nil => .ok .nil
  | .cons v rest => do
    let v ← finVal T v
    let rest ← finVals T rest
    pure (.cons v rest)
/-- `_maybe_finalise_jaxpr` (38-50), with `finalise_jaxpr` (113-119) in both cases. -/
def finVal (T : Table V P O) : Val V P O → Except Err (Val V P O)
  | .other o => .ok (.other o)
  | .opened cvs ivs b =>
    match cvs with
    | [] => do
      let r ← finBody T b (Env.empty.write ivs ((fresh 0 ivs.length).map .tr)) ivs.length
      pure (.opened (r.consts.map Prod.fst) (fresh 0 ivs.length) r.body)
    | cv :: cvs => .ok (.opened (cv :: cvs) ivs b)
  | .closed cvs ivs b cs =>
    if cvs.length ≠ cs.length then .error .assertionError
    else do
      let r ← finBody T b ((Env.empty.write cvs (cs.map .conc)).write ivs ((fresh 0 ivs.length).map .tr)) ivs.length
      pure (.closed (r.consts.map Prod.fst) (fresh 0 ivs.length) r.body (r.consts.map Prod.snd))
end

/-- `finalise_jaxpr` (113-119) -/
def finaliseJaxpr (T : Table V P O) (j : Closed V P O) : Except Err (Closed V P O) :=
  if j.cvs.length ≠ j.consts.length then .error .assertionError
  else do
    let r ← finBody T j.body ((Env.empty.write j.cvs (j.consts.map .conc)).write j.ivs ((fresh 0 j.ivs.length).map .tr)) j.ivs.length
    pure ⟨r.consts.map Prod.fst, fresh 0 j.ivs.length, r.body, r.consts.map Prod.snd⟩

/-- `finalise_eval_jaxpr` (79-105) on concrete values, as in `finalise_fn` (122-134): the loop. -/
def finEval (sem : Sem V P O) (T : Table V P O) : Body V P O → Env V → Except Err (List V)
  | .done outs, env => mapAll (readVal env) outs
  | .eqn p ps ins outs rest, env => do
    let ps ← finParams T ps
    match T.rule p with
    | none => do
      let xs ← mapAll (readVal env) ins
      let ys ← sem p (denParams sem ps) xs
      andWrite outs env (fun env _ => finEval sem T rest env) ys 0
    | some .impl => do
      let xs ← mapAll (readVal env) ins
      let j ← T.impl p ps xs.length
      let ys ← j.run sem xs
      andWrite outs env (fun env _ => finEval sem T rest env) ys 0
    | some .jvp => do
      let j ← callJaxpr ps
      let xs ← mapAll (readVal env) ins
      let ys ← j.run sem xs
      andWrite outs env (fun env _ => finEval sem T rest env) ys 0
    | some .stop => do
      let xs ← mapAll (readVal env) ins
      if xs.length ≠ 1 then throw .typeError
      andWrite outs env (fun env _ => finEval sem T rest env) xs 0

/-- `finalise_jaxpr_as_fn` (108-110) -/
def finaliseAsFn (sem : Sem V P O) (T : Table V P O) (j : Closed V P O) (xs : List V) : Except Err (List V) :=
  runWith j.cvs j.ivs j.consts xs (finEval sem T j.body)

end Finalise
end Verif
