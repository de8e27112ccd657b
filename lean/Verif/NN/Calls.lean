import Verif.Basic
/-!
# C120: which layers a `Sequential` can call

`equinox/nn/_sequential.py`: `StatefulLayer.is_stateful` (21-38), `Sequential.is_stateful` (61-64),
`Sequential.__call__` (74-109), with the signatures of `__call__` of all layers of `equinox.nn` and
Python's rules for passing arguments.

Only the passing of keys and states is modelled here, and what comes back: one value or a pair. What
layers compute is in the other files of this directory; shapes are taken to fit, and `BatchNorm` to be
inside of a `vmap` with its axis name.
-/

namespace Verif.NN.Calls

/-! ## Python's calls -/

/-- Names of parameters. -/
inductive Param where
  | x | state | key | inference | deterministic | query | keyInput | value | mask | processHeads | input | hidden
  deriving DecidableEq

/-- A signature without `self`: parameters before the `*`, parameters after it; each with whether it
has a default. -/
structure Sig where
  pos : List (Param × Bool)
  kwonly : List (Param × Bool)

/-- A call: the number of positional arguments, and the names of the keyword arguments. -/
structure Args where
  npos : Nat
  kws : List Param

/-- Passing arguments; every way in which this can fail is a `TypeError`. -/
def Sig.accepts (s : Sig) (a : Args) : Bool :=
  -- no more positional arguments than parameters
  decide (a.npos ≤ s.pos.length) &&
  -- every keyword names a parameter which has not got a value yet
  a.kws.all (fun k => (s.pos.drop a.npos).any (fun p => decide (p.1 = k)) || s.kwonly.any (fun p => decide (p.1 = k))) &&
  -- what is left has a default
  ((s.pos.drop a.npos) ++ s.kwonly).all (fun p => p.2 || a.kws.any (fun k => decide (k = p.1)))

/-- Python's rules in a few cases: a missing argument, one given twice, an unknown one, too many. -/
theorem accepts_cases : (⟨[(.x, false)], [(.key, false)]⟩ : Sig).accepts ⟨1, []⟩ = false ∧
    (⟨[(.x, false), (.state, false)], []⟩ : Sig).accepts ⟨1, []⟩ = false ∧
    (⟨[(.x, false), (.state, true)], []⟩ : Sig).accepts ⟨2, [.state]⟩ = false ∧
    (⟨[(.x, false)], []⟩ : Sig).accepts ⟨1, [.key]⟩ = false ∧
    (⟨[(.x, false)], [(.key, true)]⟩ : Sig).accepts ⟨2, []⟩ = false ∧
    (⟨[(.x, false)], [(.key, false)]⟩ : Sig).accepts ⟨1, [.key]⟩ = true := ⟨rfl, rfl, rfl, rfl, rfl, rfl⟩

/-! ## The layers -/

/-- The classes of layers, and plain functions. -/
inductive Cls where
  | linear | identity | conv | convTranspose | pool | avgPool | maxPool | adaptivePool | mlp | lambda
  | embedding | rope | weightNorm
  | layerNorm | groupNorm | rmsNorm
  | batchNorm | spectralNorm
  /-- with whether it is active: `p` is not zero and `inference` is false -/
  | dropout (active : Bool)
  | prelu
  | attention | gru | lstm
  /-- a plain function of one argument, such as `jax.nn.relu` -/
  | function
  deriving DecidableEq

/-- `(self, x, *, key=None)` -/
def plain : Sig := ⟨[(.x, false)], [(.key, true)]⟩

/-- The signatures of `__call__`: `_linear.py:68,118`, `_conv.py:211,583`,
`_pool.py:118,190,238,285,333,380,428,506`, `_mlp.py:129`, `_sequential.py:153`, `_embedding.py:86,196`,
`_weight_norm.py:99`, `_normalisation.py:110,243,362`, `_batch_norm.py:111`, `_spectral_norm.py:114`,
`_dropout.py:58`, `_activations.py:35`, `_attention.py:239`, `_rnn.py:85,181`. -/
def sig : Cls → Sig
  | .linear | .identity | .conv | .convTranspose | .pool | .avgPool | .maxPool | .adaptivePool | .mlp | .lambda => plain
  | .embedding | .rope | .weightNorm => plain
  | .layerNorm | .groupNorm | .rmsNorm => ⟨[(.x, false), (.state, true)], [(.key, true)]⟩
  | .batchNorm | .spectralNorm => ⟨[(.x, false), (.state, false)], [(.key, true), (.inference, true)]⟩
  | .dropout _ => ⟨[(.x, false)], [(.key, true), (.inference, true), (.deterministic, true)]⟩
  | .prelu => ⟨[(.x, false)], []⟩
  | .attention => ⟨[(.query, false), (.keyInput, false), (.value, false), (.mask, true)],
      [(.key, true), (.inference, true), (.deterministic, true), (.processHeads, true)]⟩
  | .gru | .lstm => ⟨[(.input, false), (.hidden, false)], [(.key, true)]⟩
  | .function => ⟨[(.x, false)], []⟩

/-- `isinstance(layer, StatefulLayer)`, for layers that are not a `Sequential`; their `is_stateful` is
the default, which returns True (21-38). -/
def statefulLayer : Cls → Bool
  | .batchNorm | .spectralNorm => true
  | _ => false

/-- What is passed as `state`: nothing, the sentinel, or a state. -/
inductive St where
  | missing | sentinel | given
  deriving DecidableEq

/-- What a call returns: a value, or a value with a state. -/
inductive Ret where
  | bare
  | pair (s : St)
  deriving DecidableEq

/-- Whether an argument is there. -/
def kwState : St → List Param
  | .missing => []
  | _ => [.state]

/-- The bodies, as far as keys and states go: `BatchNorm` and `SpectralNorm` use their state, the
other normalisation layers hand it back if there is one (`state is sentinel`), an active `Dropout` asks
for a key (`_dropout.py:84-93`). `key` says whether a key that is not None was passed. -/
def body : Cls → St → Bool → Except Err Ret
  | .batchNorm, .given, _ => .ok (.pair .given)
  | .batchNorm, _, _ => .error .attributeError
  | .spectralNorm, .given, _ => .ok (.pair .given)
  | .spectralNorm, _, _ => .error .attributeError
  | .layerNorm, .given, _ | .groupNorm, .given, _ | .rmsNorm, .given, _ => .ok (.pair .given)
  | .dropout true, _, false => .error .runtimeError
  | _, _, _ => .ok .bare

/-- Call a layer as `layer(x, key=key)` or `layer(x, state=state, key=key)`. -/
def callLeaf (c : Cls) (s : St) (key : Bool) : Except Err Ret :=
  if (sig c).accepts ⟨1, kwState s ++ [.key]⟩ then body c s key else .error .typeError

/-- Layers and `Sequential`s of layers. -/
inductive Tree where
  | leaf (c : Cls)
  | seq (ls : List Tree)

mutual
/-- `isinstance(x, StatefulLayer) and x.is_stateful()` with `Sequential.is_stateful` (61-64). -/
def isStateful : Tree → Bool
  | .leaf c => statefulLayer c
  | .seq ls => anyStateful ls
/-- `any(...)` -/
def anyStateful : List Tree → Bool
  | [] => false
  | t :: ts => isStateful t || anyStateful ts
end

/-- `(self, x, state=sentinel, *, key=None)` (75-81). -/
def seqSig : Sig := ⟨[(.x, false), (.state, true)], [(.key, true)]⟩

/-- The default of `state`. -/
def orSentinel : St → St
  | .missing => .sentinel
  | s => s

/-- `if state is sentinel: return x else: return x, state` (106-109). -/
def finish : St → Ret
  | .given => .pair .given
  | _ => .bare

/-- `x, state = ...` (103): a single value cannot be unpacked. -/
def unpack : Ret → Except Err St
  | .bare => .error .typeError
  | .pair s => .ok s

mutual
/-- Call a layer or a `Sequential`. -/
def callTree : Tree → St → Bool → Except Err Ret
  | .leaf c, s, k => callLeaf c s k
  | .seq ls, s, k =>
    if seqSig.accepts ⟨1, kwState s ++ [.key]⟩ then do
      let s' ← loop ls (orSentinel s) k
      pure (finish s')
    else .error .typeError
/-- The loop of `Sequential.__call__` (101-105). Without a key every layer gets `key=None`, otherwise
every layer gets a key (97-100). That a layer which is not stateful returned a pair would not be
noticed here: the pair would be the next `x`; this is a `TypeError` in the model. -/
def loop : List Tree → St → Bool → Except Err St
  | [], s, _ => .ok s
  | t :: ts, s, k =>
    if isStateful t then do
      let r ← callTree t s k
      let s' ← unpack r
      loop ts s' k
    else do
      let r ← callTree t .missing k
      if r = .bare then loop ts s k else .error .typeError
end

/-! ## Specification -/

mutual
/-- All layers in a tree, in the order in which they are called. -/
def leaves : Tree → List Cls
  | .leaf c => [c]
  | .seq ls => leavesL ls
def leavesL : List Tree → List Cls
  | [] => []
  | t :: ts => leaves t ++ leavesL ts
end

/-- What is wrong with a layer inside a `Sequential`, if anything. -/
def Fault (state key : Bool) : Cls → Option Err
  -- no parameter `key`
  | .prelu | .function => some .typeError
  -- more than one input
  | .attention | .gru | .lstm => some .typeError
  | .batchNorm | .spectralNorm => if state then none else some .attributeError
  | .dropout true => if key then none else some .runtimeError
  | _ => none

/-- The first thing that is wrong. -/
def firstFault (state key : Bool) : List Cls → Option Err
  | [] => none
  | c :: cs => match Fault state key c with
    | some e => some e
    | none => firstFault state key cs

/-- What a call of a `Sequential` comes to. -/
def Outcome (state key : Bool) (cs : List Cls) : Except Err Ret :=
  match firstFault state key cs with
  | some e => .error e
  | none => .ok (if state then .pair .given else .bare)

/-! ## Proofs -/

theorem firstFault_append (s k : Bool) (as bs : List Cls) :
    firstFault s k (as ++ bs) = match firstFault s k as with
      | some e => some e
      | none => firstFault s k bs := by
  induction as with
  | nil => rfl
  | cons a as ih =>
    simp only [List.cons_append, firstFault]
    cases Fault s k a with
    | some e => rfl
    | none => simpa using ih

/-- The state of the loop as a Boolean. -/
def isGiven : St → Bool
  | .given => true
  | _ => false

theorem leaf_stateful (c : Cls) (s : St) (k : Bool) (h : statefulLayer c = true) (hs : s ≠ .missing) :
    callLeaf c s k = match Fault (isGiven s) k c with
      | some e => .error e
      | none => .ok (.pair .given) := by
  cases c <;> simp [statefulLayer] at h <;> cases s <;> first | exact absurd rfl hs | rfl

theorem leaf_stateless (c : Cls) (g k : Bool) (h : statefulLayer c = false) :
    callLeaf c .missing k = match Fault g k c with
      | some e => .error e
      | none => .ok .bare := by
  cases c <;> simp [statefulLayer] at h <;> try rfl
  case dropout a => cases a <;> cases k <;> rfl

/-- A stateful layer is somewhere inside. -/
theorem stateless_fault (g k : Bool) (cs : List Cls) (h : ∀ c ∈ cs, statefulLayer c = false) :
    firstFault g k cs = firstFault false k cs := by
  induction cs with
  | nil => rfl
  | cons c cs ih =>
    have h1 : Fault g k c = Fault false k c := by
      have := h c (by simp)
      cases c <;> first | rfl | (simp [statefulLayer] at this; done) | (rename_i a; cases a <;> rfl)
    simp only [firstFault, h1, ih fun d hd => h d (by simp [hd])]

theorem stateful_fault (k : Bool) (cs : List Cls) (h : ∃ c ∈ cs, statefulLayer c = true) :
    firstFault false k cs ≠ none := by
  induction cs with
  | nil => simp at h
  | cons c cs ih =>
    simp only [firstFault]
    cases hf : Fault false k c with
    | some e => simp
    | none =>
      have hc : statefulLayer c = false := by cases c <;> first | rfl | simp [Fault] at hf
      obtain ⟨d, hd, hd'⟩ := h
      rcases List.mem_cons.1 hd with rfl | hd
      · simp [hc] at hd'
      · exact ih ⟨d, hd, hd'⟩

mutual
theorem isStateful_iff : ∀ t : Tree, isStateful t = true ↔ ∃ c ∈ leaves t, statefulLayer c = true
  | .leaf c => by simp [isStateful, leaves]
  | .seq ls => by simpa [isStateful, leaves] using anyStateful_iff ls
theorem anyStateful_iff : ∀ ts : List Tree, anyStateful ts = true ↔ ∃ c ∈ leavesL ts, statefulLayer c = true
  | [] => by simp [anyStateful, leavesL]
  | t :: ts => by
    rw [anyStateful, Bool.or_eq_true, isStateful_iff t, anyStateful_iff ts, leavesL]
    constructor
    · rintro (⟨c, hc, h⟩ | ⟨c, hc, h⟩)
      · exact ⟨c, List.mem_append_left _ hc, h⟩
      · exact ⟨c, List.mem_append_right _ hc, h⟩
    · rintro ⟨c, hc, h⟩
      rcases List.mem_append.1 hc with hc | hc
      · exact Or.inl ⟨c, hc, h⟩
      · exact Or.inr ⟨c, hc, h⟩
end

theorem not_stateful {t : Tree} (h : isStateful t = false) : ∀ c ∈ leaves t, statefulLayer c = false := by
  intro c hc
  cases h' : statefulLayer c with
  | false => rfl
  | true => rw [(isStateful_iff t).2 ⟨c, hc, h'⟩] at h; simp at h

theorem seq_accepts (s : St) : seqSig.accepts ⟨1, kwState s ++ [.key]⟩ = true := by cases s <;> rfl

mutual
theorem tree_stateful : ∀ (t : Tree) (s : St) (k : Bool), isStateful t = true → s ≠ .missing →
    callTree t s k = match firstFault (isGiven s) k (leaves t) with
      | some e => .error e
      | none => .ok (.pair .given)
  | .leaf c, s, k, h, hs => by
    rw [callTree, leaf_stateful c s k h hs, leaves]
    simp only [firstFault]
    cases Fault (isGiven s) k c <;> rfl
  | .seq ls, s, k, h, hs => by
    have hl := loop_spec ls (orSentinel s) k (by cases s <;> simp [orSentinel])
    have hg : isGiven (orSentinel s) = isGiven s := by cases s <;> rfl
    have hso : orSentinel s = s := by cases s <;> first | rfl | exact absurd rfl hs
    rw [callTree, if_pos (seq_accepts s), hl, hg, leaves, hso]
    cases hf : firstFault (isGiven s) k (leavesL ls) with
    | some e => rfl
    | none =>
      cases s with
      | missing => exact absurd rfl hs
      | given => rfl
      | sentinel => exact absurd hf (stateful_fault k _ ((anyStateful_iff ls).1 (by simpa [isStateful] using h)))
theorem tree_stateless : ∀ (t : Tree) (g k : Bool), isStateful t = false →
    callTree t .missing k = match firstFault g k (leaves t) with
      | some e => .error e
      | none => .ok .bare
  | .leaf c, g, k, h => by
    rw [callTree, leaf_stateless c g k h, leaves]
    simp only [firstFault]
    cases Fault g k c <;> rfl
  | .seq ls, g, k, h => by
    have hl := loop_spec ls .sentinel k (by simp)
    rw [callTree, if_pos (seq_accepts .missing), orSentinel, hl, stateless_fault g k _ (not_stateful h), leaves]
    simp only [isGiven]
    cases firstFault false k (leavesL ls) <;> rfl
theorem loop_spec : ∀ (ts : List Tree) (s : St) (k : Bool), s ≠ .missing →
    loop ts s k = match firstFault (isGiven s) k (leavesL ts) with
      | some e => .error e
      | none => .ok s
  | [], s, k, _ => by simp [loop, leavesL, firstFault]
  | t :: ts, s, k, hs => by
    have ih := loop_spec ts s k hs
    rw [loop, leavesL, firstFault_append]
    by_cases h : isStateful t = true
    · rw [if_pos h, tree_stateful t s k h hs]
      cases hf : firstFault (isGiven s) k (leaves t) with
      | some e => rfl
      | none =>
        cases s with
        | missing => exact absurd rfl hs
        | given => simpa [bind, Except.bind, unpack] using ih
        | sentinel => exact absurd hf (stateful_fault k _ ((isStateful_iff t).1 h))
    · have h : isStateful t = false := by simpa using h
      rw [if_neg (by simp [h]), tree_stateless t (isGiven s) k h]
      cases hf : firstFault (isGiven s) k (leaves t) with
      | some e => rfl
      | none => simpa [bind, Except.bind] using ih
end

/-- **What a call of a Sequential comes to.** `Sequential(layers)(x, state, key=key)`, nested to any
depth: the first layer, in order, that cannot be called like this raises; if there is none the call
succeeds and returns a pair exactly if a state was given. Layers that cannot be called are `PReLU`, plain
functions, layers with several inputs, stateful layers without a state, and an active `Dropout` without a
key. -/
theorem sequential_outcome (ls : List Tree) (state key : Bool) :
    callTree (.seq ls) (if state then .given else .missing) key = Outcome state key (leavesL ls) := by
  have hl := loop_spec ls (orSentinel (if state then .given else .missing)) key (by cases state <;> simp [orSentinel])
  rw [callTree, if_pos (seq_accepts _), hl]
  cases state with
  | true =>
    simp only [if_true, orSentinel, isGiven, Outcome]
    cases firstFault true key (leavesL ls) <;> rfl
  | false =>
    simp only [Bool.false_eq_true, if_false, orSentinel, isGiven, Outcome]
    cases firstFault false key (leavesL ls) <;> rfl

/-- Layers from one array to one array, as documented. -/
def OneToOne : Cls → Prop
  | .attention | .gru | .lstm | .function => False
  | _ => True

theorem firstFault_none (state key : Bool) (cs : List Cls) (h : ∀ c ∈ cs, Fault state key c = none) :
    firstFault state key cs = none := by
  induction cs with
  | nil => rfl
  | cons c cs ih => simp [firstFault, h c (by simp), ih fun d hd => h d (by simp [hd])]

/-- **Every layer from one array to one array can be put into a Sequential**, except `PReLU`: given a
key and a state, the call succeeds. What is missing for the full claim is `PReLU` (`prelu_refused`). -/
theorem sequential_composes_partial (ls : List Tree) (h : ∀ c ∈ leavesL ls, OneToOne c) (hp : .prelu ∉ leavesL ls) :
    callTree (.seq ls) .given true = .ok (.pair .given) := by
  have h1 := sequential_outcome ls true true
  have h2 : firstFault true true (leavesL ls) = none := by
    refine firstFault_none _ _ _ fun c hc => ?_
    have h3 := h c hc
    have h4 : c ≠ .prelu := fun h => hp (h ▸ hc)
    cases c <;> first | rfl | exact h3.elim | exact absurd rfl h4 | (rename_i a; cases a <;> rfl)
  simpa [Outcome, h2] using h1

/-- **A Sequential with a PReLU in it cannot be called**, with whatever arguments: `PReLU.__call__` has
no parameter `key` (`_activations.py:35`). Wrapped in a `Lambda` it can. -/
theorem prelu_refused (ls : List Tree) (h : .prelu ∈ leavesL ls) (state key : Bool) :
    ∃ e, callTree (.seq ls) (if state then .given else .missing) key = .error e := by
  rw [sequential_outcome, Outcome]
  have : ∀ cs : List Cls, .prelu ∈ cs → ∃ e, firstFault state key cs = some e := by
    intro cs
    induction cs with
    | nil => simp
    | cons c cs ih =>
      intro hc
      simp only [firstFault]
      cases hf : Fault state key c with
      | some e => exact ⟨e, rfl⟩
      | none =>
        rcases List.mem_cons.1 hc with rfl | hc
        · simp [Fault] at hf
        · exact ih hc
  obtain ⟨e, he⟩ := this _ h
  exact ⟨e, by rw [he]⟩

/-- **The normalisation layers can be exchanged for each other** in a call with a state: each takes
`norm(x, state)`, by position or by name, with or without a key, and returns a pair. -/
theorem norms_interchange (c : Cls) (h : c ∈ [Cls.layerNorm, .groupNorm, .rmsNorm, .batchNorm]) (key : Bool) :
    (sig c).accepts ⟨2, []⟩ = true ∧ (sig c).accepts ⟨2, [.key]⟩ = true ∧ (sig c).accepts ⟨1, [.state]⟩ = true ∧
    callLeaf c .given key = .ok (.pair .given) := by
  simp only [List.mem_cons, List.not_mem_nil, or_false] at h
  rcases h with rfl | rfl | rfl | rfl <;> exact ⟨rfl, rfl, rfl, rfl⟩

/-- The hypotheses can be met: a nested model with every kind of layer. -/
example : callTree (.seq [.leaf .conv, .leaf .batchNorm, .leaf .lambda, .seq [.leaf (.dropout true), .leaf .layerNorm],
    .seq [.leaf .spectralNorm], .leaf .mlp]) .given true = .ok (.pair .given) := by
  refine sequential_composes_partial _ ?_ ?_
  · simp [leavesL, leaves, OneToOne]
  · simp [leavesL, leaves]

example : callTree (.seq [.leaf .linear, .leaf .prelu]) .missing true = .error .typeError := by
  have := sequential_outcome [.leaf .linear, .leaf .prelu] false true
  simpa [Outcome, leavesL, leaves, firstFault, Fault] using this

end Verif.NN.Calls
