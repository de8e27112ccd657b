import Verif.Jit.Model
import Verif.PyTree.Spec
/-! # Vocabulary for the properties of `filter_jit` -/

namespace Verif.Jit

open PT

variable {V A O C Q R J : Type}

/-- What tracing sees of a leaf: the abstract value of an array, or a static object. -/
def absLeaf (w : World V A O C Q R) : Leaf V O → Leaf A O
  | .arr v => .arr (w.aval v)
  | .obj o => .obj o

/-- What tracing sees of a value. -/
def abs (w : World V A O C Q R) (t : Val V O C) : PT (JK C) (Leaf A O) := t.map (absLeaf w)

/-- What tracing sees of keyword arguments. -/
def absKw (w : World V A O C Q R) (kw : Kwargs V O C) : List (String × PT (JK C) (Leaf A O)) :=
  kw.map fun p => (p.1, abs w p.2)

/-- Functions can be traced: structure, static leaves and abstract values of the output depend only on
structure, static leaves and abstract values of function and arguments. -/
def World.Traceable (w : World V A O C Q R) : Prop :=
  ∀ f f' args args' kw kw' o o', abs w f = abs w f' → args.map (abs w) = args'.map (abs w) →
    absKw w kw = absKw w kw' → w.apply f args kw = .ok o → w.apply f' args' kw' = .ok o' →
    abs w o = abs w o'

/-- `inspect.Signature.bind` rearranges arguments in the way a call does, and rejects what a call
rejects. -/
def World.LawfulBind (w : World V A O C Q R) : Prop :=
  (∀ f args kw b, w.bind f args kw = .ok b → w.apply f b.1 b.2 = w.apply f args kw) ∧
  (∀ f args kw e, w.bind f args kw = .error e → w.apply f args kw = .error e)

/-- `==` never identifies two different objects. -/
def World.EqExact (w : World V A O C Q R) : Prop :=
  (∀ o o', w.cls o = w.cls o' → o = o') ∧ (∀ c c', w.ccls c = w.ccls c' → c = c')

/-- A leaf up to `==`. -/
def eqLeaf (w : World V A O C Q R) : Leaf V O → Leaf V Q
  | .arr v => .arr v
  | .obj o => .obj (w.cls o)

/-- The same arrays at the same places, all else equal under `==`. -/
def EqUpTo (w : World V A O C Q R) (t t' : Val V O C) : Prop :=
  classes w.ccls (eqLeaf w) t = classes w.ccls (eqLeaf w) t'

/-- As many arguments, equal up to `==`. -/
def ArgsEqUpTo (w : World V A O C Q R) (args args' : List (Val V O C)) : Prop :=
  args.length = args'.length ∧
    ∀ (i : Nat) a a', args[i]? = some a → args'[i]? = some a' → EqUpTo w a a'

/-- The same names, with values equal up to `==`. -/
def KwEqUpTo (w : World V A O C Q R) (kw kw' : Kwargs V O C) : Prop :=
  kw.map Prod.fst = kw'.map Prod.fst ∧ ArgsEqUpTo w (kw.map Prod.snd) (kw'.map Prod.snd)

/-- Everything in a value that is not an array can be hashed. -/
def Hashable (w : World V A O C Q R) (t : Val V O C) : Prop :=
  (∀ π o, t.leafAt? π = some (.obj o) → w.hashable o = true) ∧
  (∀ π c n, t.headAt? π = some (.node (.other c) n) → w.chashable c = true)

/-- Function and arguments are hashable apart from their arrays. -/
def CallHashable (w : World V A O C Q R) (fn : Val V O C) (args : List (Val V O C)) (kw : Kwargs V O C) :
    Prop :=
  Hashable w fn ∧ (∀ a ∈ args, Hashable w a) ∧ ∀ p ∈ kw, Hashable w p.2

/-- The functions that `filter_jit` accepted, in order. -/
def decorated : List (Event V O C J) → List (Val V O C)
  | [] => []
  | .decorate fn k d :: h =>
    if d.isSome ∧ ∀ x ∈ k.jitkwargs, x.1 ∉ ["static_argnums", "static_argnames", "donate_argnums"]
    then fn :: decorated h else decorated h
  | _ :: h => decorated h

/-- The array a leaf is. -/
def Leaf.arr? : Leaf V O → Option V
  | .arr v => some v
  | .obj _ => Option.none

/-- The arrays in a value, in order. -/
def arrays (t : Val V O C) : List V := t.leaves.filterMap Leaf.arr?

end Verif.Jit
