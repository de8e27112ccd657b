import Verif.NN.MlpModel

/-! # C96: random keys when layers are made and called

The constructors of `Linear` (`nn/_linear.py`, 50-61), `MLP` (`nn/_mlp.py`, 89-108), `GRUCell` and `LSTMCell` (`nn/_rnn.py`,
65-78 and 165-174), `Conv` and `ConvTranspose` (`nn/_conv.py`, 153-174 and 494-513), `MultiheadAttention`
(`nn/_attention.py`, 186-223), `Embedding` (`nn/_embedding.py`, 55-69), `SpectralNorm` (`nn/_spectral_norm.py`, 98-109), with
`default_init` (`nn/_misc.py`, 33-43); and what `Dropout`, `MultiheadAttention` and `Sequential` do with the key they are
called with (`nn/_dropout.py`, 86-97; `nn/_attention.py`, 333-343; `nn/_sequential.py`, 97-105).

A random number generator gives independent numbers if each key is used only once: either for drawing numbers or for
splitting it into further keys. Keys are terms here, and every use is recorded. -/

namespace Verif.NN.Keys

open Verif.NN.Mlp (Size lim)

/-! ### Model -/

/-- Keys: those the user has, and `jrandom.split(key, n)[i]`. -/
inductive Key where
  | given (n : Nat)
  | sub (key : Key) (n i : Nat)
deriving DecidableEq, Repr

/-- Uses of a key. -/
inductive Use where
  | draw (key : Key)
  | split (key : Key) (n : Nat)

/-- The key used. -/
def Use.key : Use → Key
  | .draw k => k
  | .split k _ => k

/-- A computation that may raise and uses keys. -/
def Init (α : Type) : Type := Except Err (α × List Use)

variable {α β : Type}

def Init.pure (a : α) : Init α := Except.ok (a, [])

def Init.bind (x : Init α) (f : α → Init β) : Init β :=
  match x with
  | .error e => .error e
  | .ok (a, u) =>
    match f a with
    | .error e => .error e
    | .ok (b, u') => .ok (b, u ++ u')

instance : Monad Init where
  pure := Init.pure
  bind := Init.bind

def raise (e : Err) : Init α := Except.error e

/-- `jrandom.split(key, n)` -/
def split (key : Key) (n : Nat) : Init (List Key) := Except.ok ((List.range n).map (key.sub n), [.split key n])

/-- An array of random numbers: uniform in `[-lim, lim]`, or normal. -/
structure Draw where
  key : Key
  shape : List Nat
  lim : Option ℝ

/-- A parameter: one draw, or one each for the real and imaginary parts. -/
inductive Param where
  | real (d : Draw)
  | complex (re im : Draw)

/-- `jrandom.uniform(key, shape, dtype, minval=-lim, maxval=lim)` -/
def uniform (key : Key) (shape : List Nat) (l : ℝ) : Init Draw := Except.ok (⟨key, shape, some l⟩, [.draw key])

/-- `jrandom.normal(key, shape)` -/
def normal (key : Key) (shape : List Nat) : Init Draw := Except.ok (⟨key, shape, none⟩, [.draw key])

/-- Unpacking the keys: `a, b = keys`. -/
def two : List Key → Init (Key × Key)
  | [a, b] => pure (a, b)
  | _ => raise .valueError

/-- `a, b, c = keys` -/
def three : List Key → Init (Key × Key × Key)
  | [a, b, c] => pure (a, b, c)
  | _ => raise .valueError

/-- `a, b, c, d = keys` -/
def four : List Key → Init (Key × Key × Key × Key)
  | [a, b, c, d] => pure (a, b, c, d)
  | _ => raise .valueError

/-- `keys[i]` -/
def nth (keys : List Key) (i : Nat) : Init Key :=
  match keys[i]? with
  | some k => pure k
  | none => raise .indexError

/-- `default_init` (`nn/_misc.py`, 33-43) -/
def defaultInit (cplx : Bool) (key : Key) (shape : List Nat) (l : ℝ) : Init Param :=
  if cplx then do
    let ks ← split key 2 >>= two
    let re ← uniform ks.1 shape l
    let im ← uniform ks.2 shape l
    pure (.complex re im)
  else do
    let d ← uniform key shape l
    pure (.real d)

/-- `default_init(...) if use_bias else None` -/
def ifBias (useBias : Bool) (x : Init Param) : Init (List Param) :=
  if useBias then do
    let p ← x
    pure [p]
  else pure []

/-- `Linear.__init__` -/
noncomputable def linear (cplx : Bool) (inF outF : Size) (useBias : Bool) (key : Key) : Init (List Param) := do
  let ks ← split key 2 >>= two
  let w ← defaultInit cplx ks.1 [outF.count, inF.count] (lim inF.count)
  let b ← ifBias useBias (defaultInit cplx ks.2 [outF.count] (lim inF.count))
  pure (w :: b)

/-- The layers in the middle of an `MLP` (`_mlp.py`, 100-105), for `i` in a list. -/
noncomputable def middle (cplx : Bool) (width : Nat) (useBias : Bool) (keys : List Key) : List Nat → Init (List Param)
  | [] => pure []
  | i :: is => do
    let k ← nth keys (i + 1)
    let l ← linear cplx (.num width) (.num width) useBias k
    let ls ← middle cplx width useBias keys is
    pure (l ++ ls)

/-- `MLP.__init__` -/
noncomputable def mlp (cplx : Bool) (inSize outSize : Size) (width depth : Nat) (useBias useFinalBias : Bool) (key : Key) :
    Init (List Param) := do
  let keys ← split key (depth + 1)
  if depth = 0 then do
    let k ← nth keys 0
    linear cplx inSize outSize useFinalBias k
  else do
    let k ← nth keys 0
    let first ← linear cplx inSize (.num width) useBias k
    let mid ← middle cplx width useBias keys (List.range (depth - 1))
    let k' ← nth keys (keys.length - 1)
    let last ← linear cplx (.num width) outSize useFinalBias k'
    pure (first ++ mid ++ last)

/-- `math.sqrt(1 / hidden_size)` -/
noncomputable def rnnLim (hidden : Nat) : Init ℝ :=
  if hidden = 0 then raise .zeroDivision else pure (Real.sqrt (1 / hidden))

/-- `GRUCell.__init__` -/
noncomputable def gru (cplx : Bool) (input hidden : Nat) (useBias : Bool) (key : Key) : Init (List Param) := do
  let ks ← split key 4 >>= four
  let l ← rnnLim hidden
  let ih ← defaultInit cplx ks.1 [3 * hidden, input] l
  let hh ← defaultInit cplx ks.2.1 [3 * hidden, hidden] l
  if useBias then do
    let b ← defaultInit cplx ks.2.2.1 [3 * hidden] l
    let bn ← defaultInit cplx ks.2.2.2 [hidden] l
    pure [ih, hh, b, bn]
  else pure [ih, hh]

/-- `LSTMCell.__init__` -/
noncomputable def lstm (cplx : Bool) (input hidden : Nat) (useBias : Bool) (key : Key) : Init (List Param) := do
  let ks ← split key 3 >>= three
  let l ← rnnLim hidden
  let ih ← defaultInit cplx ks.1 [4 * hidden, input] l
  let hh ← defaultInit cplx ks.2.1 [4 * hidden, hidden] l
  let b ← ifBias useBias (defaultInit cplx ks.2.2 [4 * hidden] l)
  pure (ih :: hh :: b)

/-- `1 / math.sqrt(grouped_in_channels * math.prod(kernel_size))` -/
noncomputable def convLim (n : Nat) : Init ℝ := if n = 0 then raise .zeroDivision else pure (1 / Real.sqrt n)

/-- `in_channels % groups` and `in_channels // groups` need `groups` not to be zero. -/
def groupsCheck (check : Bool) (inC groups : Nat) : Init Unit :=
  if groups = 0 then raise .zeroDivision
  else if check && inC % groups ≠ 0 then raise .valueError
  else pure ()

/-- What `Conv.__init__` and `ConvTranspose.__init__` have in common, from `wkey, bkey = ...` on. `kernel` has an entry for
each dimension. -/
noncomputable def convParams (cplx : Bool) (inC outC groups : Nat) (kernel : List Nat) (useBias : Bool) (ks : Key × Key) :
    Init (List Param) := do
  let l ← convLim (inC / groups * kernel.prod)
  let w ← defaultInit cplx ks.1 ([outC, inC / groups] ++ kernel) l
  let b ← ifBias useBias (defaultInit cplx ks.2 (outC :: List.replicate kernel.length 1) l)
  pure (w :: b)

/-- `Conv.__init__` -/
noncomputable def conv (cplx : Bool) (inC outC groups : Nat) (kernel : List Nat) (useBias : Bool) (key : Key) :
    Init (List Param) := do
  groupsCheck true inC groups
  let ks ← split key 2 >>= two
  convParams cplx inC outC groups kernel useBias ks

/-- `ConvTranspose.__init__`, where `output_padding` is below `stride`. -/
noncomputable def convTranspose (cplx : Bool) (inC outC groups : Nat) (kernel : List Nat) (useBias : Bool) (key : Key) :
    Init (List Param) := do
  let ks ← split key 2 >>= two
  groupsCheck false inC groups
  convParams cplx inC outC groups kernel useBias ks

/-- The arguments of `MultiheadAttention.__init__`. -/
structure MhaArgs where
  heads : Nat
  query : Nat
  key : Option Nat
  value : Option Nat
  output : Option Nat
  qk : Option Nat
  vo : Option Nat
  queryBias : Bool
  keyBias : Bool
  valueBias : Bool
  outputBias : Bool

/-- `query_size // num_heads if size is None else size` -/
def perHead (a : MhaArgs) : Option Nat → Init Nat
  | some n => pure n
  | none => if a.heads = 0 then raise .zeroDivision else pure (a.query / a.heads)

/-- `MultiheadAttention.__init__` -/
noncomputable def mha (cplx : Bool) (a : MhaArgs) (key : Key) : Init (List Param) := do
  let ks ← split key 4 >>= four
  let qk ← perHead a a.qk
  let vo ← perHead a a.vo
  let q ← linear cplx (.num a.query) (.num (a.heads * qk)) a.queryBias ks.1
  let k ← linear cplx (.num (a.key.getD a.query)) (.num (a.heads * qk)) a.keyBias ks.2.1
  let v ← linear cplx (.num (a.value.getD a.query)) (.num (a.heads * vo)) a.valueBias ks.2.2.1
  let o ← linear cplx (.num (a.heads * vo)) (.num (a.output.getD a.query)) a.outputBias ks.2.2.2
  pure (q ++ k ++ v ++ o)

/-- `Embedding.__init__` without `weight` -/
def embedding (num size : Nat) (key : Key) : Init (List Param) := do
  let d ← normal key [num, size]
  pure [.real d]

/-- `SpectralNorm.__init__` for a weight of this shape: the first vectors. -/
def spectral (shape : List Nat) (key : Key) : Init (List Param) :=
  match shape with
  | u :: a :: rest => do
    let ks ← split key 2 >>= two
    let u0 ← normal ks.1 [u]
    let v0 ← normal ks.2 [(a :: rest).prod]
    pure [.real u0, .real v0]
  | _ => raise .valueError

/-- The layers with their arguments. -/
inductive Desc where
  | linear (inF outF : Size) (useBias : Bool)
  | mlp (inSize outSize : Size) (width depth : Nat) (useBias useFinalBias : Bool)
  | gru (input hidden : Nat) (useBias : Bool)
  | lstm (input hidden : Nat) (useBias : Bool)
  | conv (inC outC groups : Nat) (kernel : List Nat) (useBias : Bool)
  | convTranspose (inC outC groups : Nat) (kernel : List Nat) (useBias : Bool)
  | mha (a : MhaArgs)
  | embedding (num size : Nat)
  | spectral (shape : List Nat)

/-- Making a layer; `cplx` says whether `dtype` is complex. -/
noncomputable def make (cplx : Bool) : Desc → Key → Init (List Param)
  | .linear i o b, k => linear cplx i o b k
  | .mlp i o w d b f, k => mlp cplx i o w d b f k
  | .gru i h b, k => gru cplx i h b k
  | .lstm i h b, k => lstm cplx i h b k
  | .conv i o g ks b, k => conv cplx i o g ks b k
  | .convTranspose i o g ks b, k => convTranspose cplx i o g ks b k
  | .mha a, k => mha cplx a k
  | .embedding n s, k => embedding n s k
  | .spectral s, k => spectral s k

/-- Layers as far as they use the key that they are called with. -/
inductive Called where
  /-- most layers ignore it -/
  | ignores
  /-- `Dropout`, and whether it is active: not in inference, and `p` is not the number 0 -/
  | dropout (active : Bool)
  /-- `MultiheadAttention`, its heads, and its dropout -/
  | mha (heads : Nat) (active : Bool)
  | seq (layers : List Called)

/-- `jrandom.bernoulli(key, q, x.shape)` or nothing; a `RuntimeError` without a key (`_dropout.py`, 86-97). -/
def dropoutCall (active : Bool) : Option Key → Init Unit
  | some k => if active then Except.ok ((), [.draw k]) else pure ()
  | none => if active then raise .runtimeError else pure ()

/-- The attention heads, with their keys (`vmap` over heads). -/
def headsCall (active : Bool) : List (Option Key) → Init Unit
  | [] => pure ()
  | k :: ks => do
    dropoutCall active k
    headsCall active ks

/-- `None if key is None else split(key, n)`, for each of the `n`. -/
def keysFor (n : Nat) : Option Key → Init (List (Option Key))
  | none => pure (List.replicate n none)
  | some k => do
    let ks ← split k n
    pure (ks.map some)

mutual
/-- Calling a layer with a key. -/
def runCall : Called → Option Key → Init Unit
  | .ignores, _ => pure ()
  | .dropout active, k => dropoutCall active k
  | .mha heads active, k => do
    let ks ← keysFor heads k
    headsCall active ks
  | .seq ls, k => do
    let ks ← keysFor ls.length k
    runCalls ls ks
/-- `for layer, key in zip(layers, keys)` -/
def runCalls : List Called → List (Option Key) → Init Unit
  | l :: ls, k :: ks => do
    runCall l k
    runCalls ls ks
  | _, _ => pure ()
end

/-! ### Specification -/

/-- A key made from another one. -/
inductive Below (k : Key) : Key → Prop where
  | refl : Below k k
  | sub {k' : Key} (n i : Nat) : Below k k' → Below k (k'.sub n i)

/-- Each key is used at most once, and only keys made from `k` are. -/
def Once (k : Key) (us : List Use) : Prop := (us.map Use.key).Nodup ∧ ∀ u ∈ us, Below k u.key

/-- The keys with which the numbers of a parameter were drawn. -/
def Param.keys : Param → List Key
  | .real d => [d.key]
  | .complex re im => [re.key, im.key]

/-- The shape of a parameter, and the bound on its entries unless they are normal: for complex ones both parts are drawn. -/
def Fits (cplx : Bool) (p : Param) (e : List Nat × Option ℝ) : Prop :=
  match p with
  | .real d => (d.shape, d.lim) = e ∧ (cplx = false ∨ e.2 = none)
  | .complex re im => (re.shape, re.lim) = e ∧ (im.shape, im.lim) = e ∧ cplx = true

/-- Bound of a parameter of which every output sums `fan` many terms. -/
noncomputable def bound (fan : Nat) : Option ℝ := some (if fan = 0 then 1 else 1 / Real.sqrt fan)

/-- Parameters of a dense layer. -/
noncomputable def dense (i o : Nat) (bias : Bool) : List (List Nat × Option ℝ) :=
  ([o, i], bound i) :: (if bias then [([o], bound i)] else [])

/-- Parameters of a convolution. -/
noncomputable def convolution (i o : Nat) (kernel : List Nat) (bias : Bool) : List (List Nat × Option ℝ) :=
  (o :: i :: kernel, bound (i * kernel.prod)) ::
    (if bias then [(o :: kernel.map (fun _ => 1), bound (i * kernel.prod))] else [])

/-- The number of entries of a vector, or the string `"scalar"`. -/
def entries : Size → Nat
  | .scalar => 1
  | .num n => n

/-- The parameters that layers are documented to have. -/
noncomputable def expected : Desc → List (List Nat × Option ℝ)
  | .linear i o b => dense (entries i) (entries o) b
  | .mlp i o w 0 _ f => dense (entries i) (entries o) f
  | .mlp i o w (d + 1) b f =>
    dense (entries i) w b ++ (List.replicate d (dense w w b)).flatten ++ dense w (entries o) f
  | .gru i h b =>
    [([3 * h, i], bound h), ([3 * h, h], bound h)] ++ (if b then [([3 * h], bound h), ([h], bound h)] else [])
  | .lstm i h b => [([4 * h, i], bound h), ([4 * h, h], bound h)] ++ (if b then [([4 * h], bound h)] else [])
  | .conv i o g ks b => convolution (i / g) o ks b
  | .convTranspose i o g ks b => convolution (i / g) o ks b
  | .mha a =>
    dense a.query (a.heads * a.qk.getD (a.query / a.heads)) a.queryBias ++
    dense (a.key.getD a.query) (a.heads * a.qk.getD (a.query / a.heads)) a.keyBias ++
    dense (a.value.getD a.query) (a.heads * a.vo.getD (a.query / a.heads)) a.valueBias ++
    dense (a.heads * a.vo.getD (a.query / a.heads)) (a.output.getD a.query) a.outputBias
  | .embedding n e => [([n, e], none)]
  | .spectral s => [([s.headD 0], none), ([s.tail.prod], none)]

/-- What is raised for which arguments. -/
def wrong : Desc → Option Err
  | .gru _ h _ => if h = 0 then some .zeroDivision else none
  | .lstm _ h _ => if h = 0 then some .zeroDivision else none
  | .conv i _ g ks _ =>
    if g = 0 then some .zeroDivision
    else if ¬ g ∣ i then some .valueError
    else if i = 0 ∨ 0 ∈ ks then some .zeroDivision
    else none
  | .convTranspose i _ g ks _ => if g = 0 ∨ i < g ∨ 0 ∈ ks then some .zeroDivision else none
  | .mha a => if a.heads = 0 ∧ (a.qk = none ∨ a.vo = none) then some .zeroDivision else none
  | .spectral s => if s.length < 2 then some .valueError else none
  | _ => none

mutual
/-- The number of dropout masks needed: one for each active dropout, and for each head of an attention layer. -/
def masks : Called → Nat
  | .ignores => 0
  | .dropout active => if active then 1 else 0
  | .mha heads active => if active then heads else 0
  | .seq ls => masksAll ls
def masksAll : List Called → Nat
  | [] => 0
  | l :: ls => masks l + masksAll ls
end

/-! ### Proofs -/

/-- Keys used are distinct and satisfy `S`, if nothing is raised. -/
def Within (S : Key → Prop) (x : Init α) : Prop := ∀ a us, x = Except.ok (a, us) → (us.map Use.key).Nodup ∧ ∀ u ∈ us, S u.key

theorem within_pure (S : Key → Prop) (a : α) : Within S (pure a : Init α) := by
  intro b us h
  cases h
  simp

theorem within_raise (S : Key → Prop) (e : Err) : Within S (raise e : Init α) := by
  intro b us h
  cases h

theorem Within.mono {S T : Key → Prop} {x : Init α} (h : Within S x) (hs : ∀ k, S k → T k) : Within T x :=
  fun a us he => ⟨(h a us he).1, fun u hu => hs _ ((h a us he).2 u hu)⟩

theorem bind_ok {x : Init α} {f : α → Init β} {b : β} {us : List Use} (h : (x >>= f : Init β) = Except.ok (b, us)) :
    ∃ a u1 u2, x = Except.ok (a, u1) ∧ f a = Except.ok (b, u2) ∧ us = u1 ++ u2 := by
  change Init.bind x f = _ at h
  unfold Init.bind at h
  match x, h with
  | .error e, h => cases h
  | .ok (a, u), h =>
    dsimp only at h
    match hf : f a, h with
    | .error e, h => cases h
    | .ok (b', u'), h => cases h; exact ⟨a, u, u', rfl, hf, rfl⟩

/-- Disjoint uses one after the other. -/
theorem within_bind {S T : Key → Prop} {x : Init α} {f : α → Init β} (hx : Within S x)
    (hf : ∀ a us, x = Except.ok (a, us) → Within T (f a)) (hd : ∀ k, S k → T k → False) :
    Within (fun k => S k ∨ T k) (x >>= f : Init β) := by
  intro b us h
  obtain ⟨a, u1, u2, h1, h2, rfl⟩ := bind_ok h
  obtain ⟨n1, s1⟩ := hx a u1 h1
  obtain ⟨n2, s2⟩ := hf a u1 h1 b u2 h2
  refine ⟨?_, ?_⟩
  · rw [List.map_append, List.nodup_append]
    refine ⟨n1, n2, ?_⟩
    intro k hk k' hk' he
    subst he
    obtain ⟨u, hu, rfl⟩ := List.mem_map.1 hk
    obtain ⟨u', hu', he⟩ := List.mem_map.1 hk'
    exact hd _ (s1 u hu) (he ▸ s2 u' hu')
  · intro u hu
    rcases List.mem_append.1 hu with hu | hu
    · exact .inl (s1 u hu)
    · exact .inr (s2 u hu)

/-- Followed by something that uses no keys. -/
theorem within_then {S : Key → Prop} {x : Init α} {f : α → Init β} (hx : Within S x)
    (hf : ∀ a us, x = Except.ok (a, us) → Within (fun _ => False) (f a)) : Within S (x >>= f : Init β) :=
  (within_bind hx hf (fun _ _ h => h)).mono (by intro k hk; rcases hk with hk | hk; exacts [hk, hk.elim])

/-- After something that uses no keys. -/
theorem within_after {S : Key → Prop} {x : Init α} {f : α → Init β} (hx : Within (fun _ => False) x)
    (hf : ∀ a us, x = Except.ok (a, us) → Within S (f a)) : Within S (x >>= f : Init β) :=
  (within_bind hx hf (fun _ h _ => h)).mono (by intro k hk; rcases hk with hk | hk; exacts [hk.elim, hk])

theorem below_trans {a b c : Key} (h : Below a b) (h' : Below b c) : Below a c := by
  induction h' with
  | refl => exact h
  | sub n i _ ih => exact .sub n i ih

theorem depth_le {a b : Key} (h : Below a b) : sizeOf a ≤ sizeOf b := by
  induction h with
  | refl => exact Nat.le_refl _
  | sub n i _ ih => simp only [Key.sub.sizeOf_spec]; omega

theorem not_below_sub (k : Key) (n i : Nat) {k' : Key} (h : Below (k.sub n i) k') : k' ≠ k := by
  rintro rfl
  have := depth_le h
  simp only [Key.sub.sizeOf_spec] at this
  omega

/-- Two keys above the same key are comparable. -/
theorem below_comparable {a b c : Key} (h : Below a c) (h' : Below b c) : Below a b ∨ Below b a := by
  induction h with
  | refl => exact .inr h'
  | @sub c' n i h ih =>
    cases h' with
    | refl => exact .inl (.sub n i h)
    | sub _ _ h' => exact ih h'

theorem sub_disjoint {k : Key} {n i j : Nat} (h : i ≠ j) {c : Key} (h1 : Below (k.sub n i) c) (h2 : Below (k.sub n j) c) : False := by
  have key : ∀ {i j : Nat}, i ≠ j → Below (k.sub n i) (k.sub n j) → False := by
    intro i j hij hb
    cases hb with
    | refl => exact hij rfl
    | sub _ _ hb => exact not_below_sub k n i hb rfl
  rcases below_comparable h1 h2 with hb | hb
  · exact key h hb
  · exact key h.symm hb

/-- The keys below some of the keys that `k` was split into. -/
def Subs (k : Key) (n : Nat) (l : List Nat) (c : Key) : Prop := ∃ i ∈ l, Below (k.sub n i) c

theorem subs_below {k : Key} {n : Nat} {l : List Nat} {c : Key} (h : Subs k n l c) : Below k c := by
  obtain ⟨i, -, hb⟩ := h
  exact below_trans (.sub n i .refl) hb

theorem subs_ne {k : Key} {n : Nat} {l : List Nat} {c : Key} (h : Subs k n l c) : c ≠ k := by
  obtain ⟨i, -, hb⟩ := h
  exact not_below_sub k n i hb

theorem subs_disjoint {k : Key} {n : Nat} {l l' : List Nat} (hd : ∀ i ∈ l, i ∉ l') {c : Key} (h : Subs k n l c)
    (h' : Subs k n l' c) : False := by
  obtain ⟨i, hi, hb⟩ := h
  obtain ⟨j, hj, hb'⟩ := h'
  refine sub_disjoint (fun he : i = j => ?_) hb hb'
  subst he
  exact hd i hi hj

theorem within_split (k : Key) (n : Nat) : Within (fun c => c = k) (split k n) := by
  intro a us h
  cases h
  simp [Use.key]

theorem within_uniform (k : Key) (s : List Nat) (l : ℝ) : Within (Below k) (uniform k s l) := by
  intro a us h
  cases h
  simp [Use.key, Below.refl]

theorem within_normal (k : Key) (s : List Nat) : Within (Below k) (normal k s) := by
  intro a us h
  cases h
  simp [Use.key, Below.refl]

/-- Splitting a key and then using what it was split into. -/
theorem within_split_bind {k : Key} {n : Nat} {f : List Key → Init β}
    (hf : Within (Subs k n (List.range n)) (f ((List.range n).map (k.sub n)))) : Within (Below k) (split k n >>= f : Init β) := by
  refine (within_bind (within_split k n) (T := Subs k n (List.range n)) ?_ ?_).mono ?_
  · intro a us h
    cases h
    exact hf
  · intro c h1 h2
    exact subs_ne h2 h1
  · rintro c (rfl | h)
    · exact .refl
    · exact subs_below h

theorem within_sub {k : Key} {n i : Nat} {x : Init α} (h : Within (Below (k.sub n i)) x) : Within (Subs k n [i]) x :=
  h.mono fun _ hc => ⟨i, by simp, hc⟩

/-- Uses of some of the keys, then of others. -/
theorem within_subs_bind {k : Key} {n : Nat} {l l' : List Nat} {x : Init α} {f : α → Init β} (hx : Within (Subs k n l) x)
    (hf : ∀ a us, x = Except.ok (a, us) → Within (Subs k n l') (f a)) (hd : ∀ i ∈ l, i ∉ l') :
    Within (Subs k n (l ++ l')) (x >>= f : Init β) :=
  (within_bind hx hf (fun _ => subs_disjoint hd)).mono (by
    rintro c (⟨i, hi, hb⟩ | ⟨i, hi, hb⟩)
    · exact ⟨i, List.mem_append.2 (.inl hi), hb⟩
    · exact ⟨i, List.mem_append.2 (.inr hi), hb⟩)

theorem subs_mono {k : Key} {n : Nat} {l l' : List Nat} {x : Init α} (h : Within (Subs k n l) x) (hs : l ⊆ l') :
    Within (Subs k n l') x := h.mono fun _ ⟨i, hi, hb⟩ => ⟨i, hs hi, hb⟩

theorem pure_bind' (a : α) (f : α → Init β) : (pure a >>= f : Init β) = f a := by
  change Init.bind (Init.pure a) f = _
  unfold Init.bind Init.pure
  dsimp only
  match f a with
  | .error e => rfl
  | .ok (b, u) => rfl

theorem raise_bind (e : Err) (f : α → Init β) : (raise e >>= f : Init β) = raise e := rfl

theorem bind_assoc' {γ : Type} (x : Init α) (f : α → Init β) (g : β → Init γ) :
    ((x >>= f) >>= g : Init γ) = x >>= fun a => f a >>= g := by
  change Init.bind (Init.bind x f) g = Init.bind x fun a => Init.bind (f a) g
  unfold Init.bind
  match x with
  | .error e => rfl
  | .ok (a, u) =>
    dsimp only
    match f a with
    | .error e => rfl
    | .ok (b, u') =>
      dsimp only
      match g b with
      | .error e => rfl
      | .ok (c, u'') => simp only [List.append_assoc]; rfl

theorem two_split (k : Key) : two ((List.range 2).map (k.sub 2)) = pure (k.sub 2 0, k.sub 2 1) := rfl
theorem three_split (k : Key) : three ((List.range 3).map (k.sub 3)) = pure (k.sub 3 0, k.sub 3 1, k.sub 3 2) := rfl
theorem four_split (k : Key) : four ((List.range 4).map (k.sub 4)) = pure (k.sub 4 0, k.sub 4 1, k.sub 4 2, k.sub 4 3) := rfl

theorem nth_split (k : Key) {n i : Nat} (h : i < n) : nth ((List.range n).map (k.sub n)) i = pure (k.sub n i) := by
  unfold nth
  rw [List.getElem?_map, List.getElem?_range h]
  rfl

theorem within_defaultInit (c : Bool) (k : Key) (s : List Nat) (l : ℝ) : Within (Below k) (defaultInit c k s l) := by
  unfold defaultInit
  split
  · rw [bind_assoc']
    refine within_split_bind ?_
    rw [two_split, pure_bind']
    refine subs_mono (l := [0] ++ [1]) ?_ (by decide)
    refine within_subs_bind (within_sub (within_uniform _ _ _)) (fun a us _ => ?_) (by decide)
    refine within_then (within_sub (within_uniform _ _ _)) (fun a us _ => within_pure _ _)
  · exact within_then (within_uniform _ _ _) (fun a us _ => within_pure _ _)

theorem within_ifBias {S : Key → Prop} (b : Bool) {x : Init Param} (h : Within S x) : Within S (ifBias b x) := by
  unfold ifBias
  split
  · exact within_then h (fun a us _ => within_pure _ _)
  · exact within_pure _ _

theorem within_linear (c : Bool) (i o : Size) (b : Bool) (k : Key) : Within (Below k) (linear c i o b k) := by
  unfold linear
  rw [bind_assoc']
  refine within_split_bind ?_
  rw [two_split, pure_bind']
  refine subs_mono (l := [0] ++ [1]) ?_ (by decide)
  refine within_subs_bind (within_sub (within_defaultInit _ _ _ _)) (fun a us _ => ?_) (by decide)
  exact within_then (within_ifBias _ (within_sub (within_defaultInit _ _ _ _))) (fun a us _ => within_pure _ _)

theorem within_middle (c : Bool) (width : Nat) (b : Bool) (k : Key) (n : Nat) (is : List Nat) (hn : is.Nodup)
    (hi : ∀ i ∈ is, i + 1 < n) :
    Within (Subs k n (is.map (· + 1))) (middle c width b ((List.range n).map (k.sub n)) is) := by
  induction is with
  | nil => exact within_pure _ _
  | cons i is ih =>
    rw [List.nodup_cons] at hn
    rw [middle, nth_split k (hi i (by simp)), pure_bind', List.map_cons]
    refine subs_mono (l := [i + 1] ++ is.map (· + 1)) ?_ (by simp)
    refine within_subs_bind (within_sub (within_linear _ _ _ _ _)) (fun a us _ => ?_) ?_
    · exact within_then (ih hn.2 fun i hi' => hi i (List.mem_cons_of_mem _ hi')) (fun a us _ => within_pure _ _)
    · intro j hj hj'
      simp only [List.mem_singleton] at hj
      subst hj
      obtain ⟨i', hi', he⟩ := List.mem_map.1 hj'
      have : i' = i := by omega
      exact hn.1 (this ▸ hi')

theorem within_mlp (c : Bool) (i o : Size) (width depth : Nat) (b f : Bool) (k : Key) :
    Within (Below k) (mlp c i o width depth b f k) := by
  unfold mlp
  refine within_split_bind ?_
  split
  · rw [nth_split k (by omega), pure_bind']
    exact subs_mono (within_sub (within_linear _ _ _ _ _)) (by simp)
  · rename_i hd
    rw [nth_split k (by omega), pure_bind']
    refine subs_mono (l := [0] ++ ((List.range (depth - 1)).map (· + 1) ++ [depth])) ?_ ?_
    · refine within_subs_bind (within_sub (within_linear _ _ _ _ _)) (fun a us _ => ?_) ?_
      · refine within_subs_bind (within_middle _ _ _ _ _ _ List.nodup_range ?_) (fun a us _ => ?_) ?_
        · intro i hi
          rw [List.mem_range] at hi
          omega
        · rw [List.length_map, List.length_range, nth_split k (by omega), pure_bind']
          exact within_then (within_sub (within_linear _ _ _ _ _)) (fun a us _ => within_pure _ _)
        · intro j hj
          obtain ⟨i', hi', rfl⟩ := List.mem_map.1 hj
          rw [List.mem_range] at hi'
          simp only [List.mem_singleton]
          omega
      · intro j hj
        simp only [List.mem_singleton] at hj
        subst hj
        simp only [List.mem_append, List.mem_map, List.mem_range, List.mem_singleton]
        omega
    · intro j hj
      simp only [List.mem_append, List.mem_map, List.mem_range, List.mem_singleton] at hj ⊢
      omega

theorem rnnLim_none (S : Key → Prop) (h : Nat) : Within S (rnnLim h) := by
  unfold rnnLim
  split
  · exact within_raise _ _
  · exact within_pure _ _

theorem convLim_none (S : Key → Prop) (h : Nat) : Within S (convLim h) := by
  unfold convLim
  split
  · exact within_raise _ _
  · exact within_pure _ _

theorem within_gru (c : Bool) (i h : Nat) (b : Bool) (k : Key) : Within (Below k) (gru c i h b k) := by
  unfold gru
  rw [bind_assoc']
  refine within_split_bind ?_
  rw [four_split, pure_bind']
  refine within_after (rnnLim_none _ _) (fun l us _ => ?_)
  refine subs_mono (l := [0] ++ ([1] ++ ([2] ++ [3]))) ?_ (by decide)
  refine within_subs_bind (within_sub (within_defaultInit _ _ _ _)) (fun a us _ => ?_) (by decide)
  refine within_subs_bind (within_sub (within_defaultInit _ _ _ _)) (fun a us _ => ?_) (by decide)
  split
  · refine within_subs_bind (within_sub (within_defaultInit _ _ _ _)) (fun a us _ => ?_) (by decide)
    exact within_then (within_sub (within_defaultInit _ _ _ _)) (fun a us _ => within_pure _ _)
  · exact within_pure _ _

theorem within_lstm (c : Bool) (i h : Nat) (b : Bool) (k : Key) : Within (Below k) (lstm c i h b k) := by
  unfold lstm
  rw [bind_assoc']
  refine within_split_bind ?_
  rw [three_split, pure_bind']
  refine within_after (rnnLim_none _ _) (fun l us _ => ?_)
  refine subs_mono (l := [0] ++ ([1] ++ [2])) ?_ (by decide)
  refine within_subs_bind (within_sub (within_defaultInit _ _ _ _)) (fun a us _ => ?_) (by decide)
  refine within_subs_bind (within_sub (within_defaultInit _ _ _ _)) (fun a us _ => ?_) (by decide)
  exact within_then (within_ifBias _ (within_sub (within_defaultInit _ _ _ _))) (fun a us _ => within_pure _ _)

theorem within_convParams (c : Bool) (i o g : Nat) (ks : List Nat) (b : Bool) (k : Key) :
    Within (Subs k 2 (List.range 2)) (convParams c i o g ks b (k.sub 2 0, k.sub 2 1)) := by
  unfold convParams
  refine within_after (convLim_none _ _) (fun l us _ => ?_)
  refine subs_mono (l := [0] ++ [1]) ?_ (by decide)
  refine within_subs_bind (within_sub (within_defaultInit _ _ _ _)) (fun a us _ => ?_) (by decide)
  exact within_then (within_ifBias _ (within_sub (within_defaultInit _ _ _ _))) (fun a us _ => within_pure _ _)

theorem groupsCheck_none (S : Key → Prop) (c : Bool) (i g : Nat) : Within S (groupsCheck c i g) := by
  unfold groupsCheck
  split
  · exact within_raise _ _
  · split
    · exact within_raise _ _
    · exact within_pure _ _

theorem within_conv (c : Bool) (i o g : Nat) (ks : List Nat) (b : Bool) (k : Key) : Within (Below k) (conv c i o g ks b k) := by
  unfold conv
  refine within_after (groupsCheck_none _ _ _ _) (fun _ us _ => ?_)
  rw [bind_assoc']
  refine within_split_bind ?_
  rw [two_split, pure_bind']
  exact within_convParams _ _ _ _ _ _ _

theorem within_convTranspose (c : Bool) (i o g : Nat) (ks : List Nat) (b : Bool) (k : Key) :
    Within (Below k) (convTranspose c i o g ks b k) := by
  unfold convTranspose
  rw [bind_assoc']
  refine within_split_bind ?_
  rw [two_split, pure_bind']
  refine within_after (groupsCheck_none _ _ _ _) (fun _ us _ => ?_)
  exact within_convParams _ _ _ _ _ _ _

theorem perHead_none (S : Key → Prop) (a : MhaArgs) (o : Option Nat) : Within S (perHead a o) := by
  unfold perHead
  split
  · exact within_pure _ _
  · split
    · exact within_raise _ _
    · exact within_pure _ _

theorem within_mha (c : Bool) (a : MhaArgs) (k : Key) : Within (Below k) (mha c a k) := by
  unfold mha
  rw [bind_assoc']
  refine within_split_bind ?_
  rw [four_split, pure_bind']
  refine within_after (perHead_none _ _ _) (fun _ us _ => ?_)
  refine within_after (perHead_none _ _ _) (fun _ us _ => ?_)
  refine subs_mono (l := [0] ++ ([1] ++ ([2] ++ [3]))) ?_ (by decide)
  refine within_subs_bind (within_sub (within_linear _ _ _ _ _)) (fun a us _ => ?_) (by decide)
  refine within_subs_bind (within_sub (within_linear _ _ _ _ _)) (fun a us _ => ?_) (by decide)
  refine within_subs_bind (within_sub (within_linear _ _ _ _ _)) (fun a us _ => ?_) (by decide)
  exact within_then (within_sub (within_linear _ _ _ _ _)) (fun a us _ => within_pure _ _)

theorem within_spectral (s : List Nat) (k : Key) : Within (Below k) (spectral s k) := by
  unfold spectral
  split
  · rw [bind_assoc']
    refine within_split_bind ?_
    rw [two_split, pure_bind']
    refine subs_mono (l := [0] ++ [1]) ?_ (by decide)
    refine within_subs_bind (within_sub (within_normal _ _)) (fun a us _ => ?_) (by decide)
    exact within_then (within_sub (within_normal _ _)) (fun a us _ => within_pure _ _)
  · exact within_raise _ _

theorem within_make (c : Bool) (d : Desc) (k : Key) : Within (Below k) (make c d k) := by
  cases d with
  | linear => exact within_linear _ _ _ _ _
  | mlp => exact within_mlp _ _ _ _ _ _ _ _
  | gru => exact within_gru _ _ _ _ _
  | lstm => exact within_lstm _ _ _ _ _
  | conv => exact within_conv _ _ _ _ _ _ _
  | convTranspose => exact within_convTranspose _ _ _ _ _ _ _
  | mha => exact within_mha _ _ _
  | embedding => exact within_then (within_normal _ _) (fun a us _ => within_pure _ _)
  | spectral => exact within_spectral _ _

theorem within_dropoutCall (b : Bool) (k : Key) : Within (Below k) (dropoutCall b (some k)) := by
  unfold dropoutCall
  cases b
  · exact within_pure _ _
  · intro a us h
    cases h
    simp [Use.key, Below.refl]

theorem dropoutCall_none (S : Key → Prop) (b : Bool) : Within S (dropoutCall b none) := by
  unfold dropoutCall
  cases b
  · exact within_pure _ _
  · exact within_raise _ _

theorem within_heads (b : Bool) (k : Key) (n : Nat) (is : List Nat) (hn : is.Nodup) :
    Within (Subs k n is) (headsCall b ((is.map (k.sub n)).map some)) := by
  induction is with
  | nil => exact within_pure _ _
  | cons i is ih =>
    rw [List.nodup_cons] at hn
    rw [List.map_cons, List.map_cons, headsCall]
    refine within_subs_bind (l := [i]) (within_sub (within_dropoutCall _ _)) (fun a us _ => ih hn.2) ?_
    intro j hj
    simp only [List.mem_singleton] at hj
    subst hj
    exact hn.1

theorem heads_none (S : Key → Prop) (b : Bool) (n : Nat) : Within S (headsCall b (List.replicate n none)) := by
  induction n with
  | zero => exact within_pure _ _
  | succ n ih =>
    rw [List.replicate_succ, headsCall]
    exact within_after (dropoutCall_none _ _) (fun a us _ => ih)

mutual
theorem within_runCall : (l : Called) → ∀ (k : Key), Within (Below k) (runCall l (some k)) ∧
    ∀ S : Key → Prop, Within S (runCall l none)
  | .ignores => fun k => ⟨within_pure _ _, fun S => within_pure _ _⟩
  | .dropout b => fun k => ⟨within_dropoutCall _ _, fun S => dropoutCall_none _ _⟩
  | .mha n b => by
    intro k
    refine ⟨?_, fun S => ?_⟩
    · rw [runCall, keysFor, bind_assoc']
      refine within_split_bind ?_
      rw [pure_bind']
      exact within_heads _ _ _ _ List.nodup_range
    · rw [runCall, keysFor, pure_bind']
      exact heads_none _ _ _
  | .seq ls => by
    intro k
    refine ⟨?_, fun S => ?_⟩
    · rw [runCall, keysFor, bind_assoc']
      refine within_split_bind ?_
      rw [pure_bind']
      exact (within_runCalls ls k ls.length).1 _ List.nodup_range
    · rw [runCall, keysFor, pure_bind']
      exact (within_runCalls ls k ls.length).2 S _
theorem within_runCalls : (ls : List Called) → ∀ (k : Key) (n : Nat), (∀ is : List Nat, is.Nodup →
      Within (Subs k n is) (runCalls ls ((is.map (k.sub n)).map some))) ∧
      ∀ (S : Key → Prop) (m : Nat), Within S (runCalls ls (List.replicate m none))
  | [] => by
    intro k n
    refine ⟨fun is _ => ?_, fun S m => ?_⟩
    · unfold runCalls; exact within_pure _ _
    · unfold runCalls; exact within_pure _ _
  | l :: ls => by
    intro k n
    refine ⟨fun is hn => ?_, fun S m => ?_⟩
    · cases is with
      | nil => unfold runCalls; exact within_pure _ _
      | cons i is =>
        rw [List.nodup_cons] at hn
        rw [List.map_cons, List.map_cons, runCalls]
        refine within_subs_bind (l := [i]) (within_sub (within_runCall l _).1)
          (fun a us _ => (within_runCalls ls k n).1 is hn.2) ?_
        intro j hj
        simp only [List.mem_singleton] at hj
        subst hj
        exact hn.1
    · cases m with
      | zero => unfold runCalls; exact within_pure _ _
      | succ m =>
        rw [List.replicate_succ, runCalls]
        exact within_after ((within_runCall l k).2 _) (fun a us _ => (within_runCalls ls k n).2 S m)
end

/-- The keys that numbers were drawn with. -/
def drawn (us : List Use) : List Key := us.flatMap fun
  | .draw k => [k]
  | .split _ _ => []

theorem drawn_append (us us' : List Use) : drawn (us ++ us') = drawn us ++ drawn us' := List.flatMap_append

theorem drawn_sublist (us : List Use) : List.Sublist (drawn us) (us.map Use.key) := by
  induction us with
  | nil => exact .slnil
  | cons u us ih =>
    cases u with
    | draw k => exact ih.cons_cons k
    | split k n => exact ih.cons k

/-- Nothing is raised, and what is returned is related to the keys that numbers were drawn with. -/
def Good (x : Init α) (P : α → List Key → Prop) : Prop := ∃ a us, x = Except.ok (a, us) ∧ P a (drawn us)

theorem good_pure {a : α} {P : α → List Key → Prop} (h : P a []) : Good (pure a : Init α) P := ⟨a, [], rfl, h⟩

theorem good_bind {x : Init α} {f : α → Init β} {P : α → List Key → Prop} {Q : β → List Key → Prop} (hx : Good x P)
    (hf : ∀ a ks, P a ks → Good (f a) fun b ks' => Q b (ks ++ ks')) : Good (x >>= f : Init β) Q := by
  obtain ⟨a, us, rfl, hp⟩ := hx
  obtain ⟨b, us', hb, hq⟩ := hf a _ hp
  refine ⟨b, us ++ us', ?_, ?_⟩
  · change Init.bind _ _ = _
    unfold Init.bind
    dsimp only
    rw [hb]
  · rw [drawn_append]
    exact hq

theorem good_mono {x : Init α} {P Q : α → List Key → Prop} (h : Good x P) (hpq : ∀ a ks, P a ks → Q a ks) : Good x Q := by
  obtain ⟨a, us, he, hp⟩ := h
  exact ⟨a, us, he, hpq _ _ hp⟩

theorem good_split {k : Key} {n : Nat} {f : List Key → Init β} {Q : β → List Key → Prop}
    (hf : Good (f ((List.range n).map (k.sub n))) Q) : Good (split k n >>= f : Init β) Q := by
  refine good_bind (P := fun a ks => a = (List.range n).map (k.sub n) ∧ ks = []) ⟨_, _, rfl, rfl, rfl⟩ ?_
  rintro a ks ⟨rfl, rfl⟩
  exact hf

/-- Parameters are as expected, and drawn with these keys. -/
def Made (c : Bool) (es : List (List Nat × Option ℝ)) (ps : List Param) (ks : List Key) : Prop :=
  List.Forall₂ (Fits c) ps es ∧ ps.flatMap Param.keys = ks

theorem made_append {c : Bool} {es es' : List (List Nat × Option ℝ)} {ps ps' : List Param} {ks ks' : List Key}
    (h : Made c es ps ks) (h' : Made c es' ps' ks') : Made c (es ++ es') (ps ++ ps') (ks ++ ks') :=
  ⟨List.rel_append h.1 h'.1, by rw [List.flatMap_append, h.2, h'.2]⟩

theorem good_append {c : Bool} {es es' : List (List Nat × Option ℝ)} {ps : List Param} {ks : List Key} {x : Init (List Param)}
    (h : Made c es ps ks) (hx : Good x (Made c es')) :
    Good (x >>= fun ps' => pure (ps ++ ps') : Init (List Param)) fun b ks' => Made c (es ++ es') b (ks ++ ks') := by
  refine good_bind hx fun ps' ks' h' => good_pure ?_
  rw [List.append_nil]
  exact made_append h h'

theorem good_defaultInit (c : Bool) (k : Key) (s : List Nat) (l : ℝ) :
    Good (defaultInit c k s l) fun p ks => Made c [(s, some l)] [p] ks := by
  cases c
  · exact ⟨_, _, rfl, .cons ⟨rfl, .inl rfl⟩ .nil, rfl⟩
  · exact ⟨_, _, rfl, .cons ⟨rfl, rfl, rfl⟩ .nil, rfl⟩

theorem good_ifBias (c b : Bool) (k : Key) (s : List Nat) (l : ℝ) :
    Good (ifBias b (defaultInit c k s l)) (Made c (if b then [(s, some l)] else [])) := by
  cases b
  · exact good_pure ⟨.nil, rfl⟩
  · refine good_bind (good_defaultInit c k s l) fun p ks h => good_pure ?_
    rw [List.append_nil]
    exact h

theorem entries_count (s : Size) : s.count = entries s := by cases s <;> rfl

theorem bound_eq (n : Nat) : some (lim n) = bound n := rfl

theorem good_linear (c : Bool) (i o : Size) (b : Bool) (k : Key) :
    Good (linear c i o b k) (Made c (dense (entries i) (entries o) b)) := by
  unfold linear
  rw [bind_assoc']
  refine good_split ?_
  rw [two_split, pure_bind', entries_count, entries_count]
  refine good_bind (good_defaultInit _ _ _ _) fun w ks hw => ?_
  exact good_append hw (good_ifBias _ _ _ _ _)

theorem good_middle (c : Bool) (w : Nat) (b : Bool) (k : Key) (n : Nat) (is : List Nat) (hi : ∀ i ∈ is, i + 1 < n) :
    Good (middle c w b ((List.range n).map (k.sub n)) is) (Made c (List.replicate is.length (dense w w b)).flatten) := by
  induction is with
  | nil => exact good_pure ⟨.nil, rfl⟩
  | cons i is ih =>
    rw [middle, nth_split k (hi i (by simp)), pure_bind', List.length_cons, List.replicate_succ, List.flatten_cons]
    refine good_bind (good_linear _ _ _ _ _) fun l ks hl => ?_
    exact good_append hl (ih fun i hi' => hi i (List.mem_cons_of_mem _ hi'))

theorem good_mlp (c : Bool) (i o : Size) (w d : Nat) (b f : Bool) (k : Key) :
    Good (mlp c i o w d b f k) (Made c (expected (.mlp i o w d b f))) := by
  unfold mlp
  refine good_split ?_
  cases d with
  | zero =>
    rw [if_pos rfl, nth_split k (by omega), pure_bind']
    exact good_linear _ _ _ _ _
  | succ d =>
    rw [if_neg (by omega), nth_split k (by omega), pure_bind', Nat.add_sub_cancel]
    refine good_bind (good_linear _ _ _ _ _) fun l ks hl => ?_
    refine good_bind (good_middle _ _ _ _ _ _ ?_) fun m ks' hm => ?_
    · intro i hi
      rw [List.mem_range] at hi
      omega
    · rw [List.length_map, List.length_range, nth_split k (by omega), pure_bind']
      rw [List.length_range] at hm
      have := good_append (made_append hl hm) (good_linear c (.num w) o f (k.sub (d + 1 + 1) (d + 1 + 1 - 1)))
      refine good_mono this fun a ks'' h => ?_
      rw [List.append_assoc ks] at h
      exact h

theorem rnn_bound {h : Nat} (hh : h ≠ 0) : some (Real.sqrt (1 / (h : ℝ))) = bound h := by
  unfold bound
  rw [if_neg hh, Real.sqrt_div zero_le_one, Real.sqrt_one]

theorem rnnLim_ok {h : Nat} (hh : h ≠ 0) : rnnLim h = pure (Real.sqrt (1 / h)) := if_neg hh

theorem good_gru (c : Bool) (i h : Nat) (b : Bool) (k : Key) (hh : h ≠ 0) :
    Good (gru c i h b k) (Made c (expected (.gru i h b))) := by
  unfold gru
  rw [bind_assoc']
  refine good_split ?_
  rw [four_split, pure_bind', rnnLim_ok hh, pure_bind']
  simp only [expected]
  rw [← rnn_bound hh]
  refine good_bind (good_defaultInit _ _ _ _) fun p1 k1 h1 => ?_
  refine good_bind (good_defaultInit _ _ _ _) fun p2 k2 h2 => ?_
  cases b
  · refine good_pure ?_
    have := made_append h1 h2
    simpa using this
  · refine good_bind (good_defaultInit _ _ _ _) fun p3 k3 h3 => ?_
    refine good_bind (good_defaultInit _ _ _ _) fun p4 k4 h4 => good_pure ?_
    have := made_append h1 (made_append h2 (made_append h3 h4))
    simpa using this

theorem good_lstm (c : Bool) (i h : Nat) (b : Bool) (k : Key) (hh : h ≠ 0) :
    Good (lstm c i h b k) (Made c (expected (.lstm i h b))) := by
  unfold lstm
  rw [bind_assoc']
  refine good_split ?_
  rw [three_split, pure_bind', rnnLim_ok hh, pure_bind']
  simp only [expected]
  rw [← rnn_bound hh]
  refine good_bind (good_defaultInit _ _ _ _) fun p1 k1 h1 => ?_
  refine good_bind (good_defaultInit _ _ _ _) fun p2 k2 h2 => ?_
  have := good_append (made_append h1 h2) (good_ifBias c b (k.sub 3 2) [4 * h] (Real.sqrt (1 / (h : ℝ))))
  refine good_mono this fun a ks'' h => ?_
  rw [List.append_assoc k1] at h
  exact h

theorem convLim_ok {n : Nat} (h : n ≠ 0) : convLim n = pure (1 / Real.sqrt n) := if_neg h

theorem conv_bound {n : Nat} (h : n ≠ 0) : some (1 / Real.sqrt (n : ℝ)) = bound n := by
  unfold bound
  rw [if_neg h]

theorem good_convParams (c : Bool) (i o g : Nat) (kernel : List Nat) (b : Bool) (ks : Key × Key)
    (h : i / g * kernel.prod ≠ 0) : Good (convParams c i o g kernel b ks) (Made c (convolution (i / g) o kernel b)) := by
  unfold convParams
  rw [convLim_ok h, pure_bind']
  unfold convolution
  rw [← conv_bound h, List.map_const']
  refine good_bind (good_defaultInit _ _ _ _) fun w ks hw => ?_
  exact good_append hw (good_ifBias _ _ _ _ _)

theorem perHead_ok (a : MhaArgs) (o : Option Nat) (h : ¬ (a.heads = 0 ∧ o = none)) :
    perHead a o = pure (o.getD (a.query / a.heads)) := by
  cases o with
  | some n => rfl
  | none => exact if_neg fun h0 => h ⟨h0, rfl⟩

theorem good_mha (c : Bool) (a : MhaArgs) (k : Key) (h : ¬ (a.heads = 0 ∧ (a.qk = none ∨ a.vo = none))) :
    Good (mha c a k) (Made c (expected (.mha a))) := by
  unfold mha
  rw [bind_assoc']
  refine good_split ?_
  rw [four_split, pure_bind', perHead_ok a a.qk (fun h' => h ⟨h'.1, .inl h'.2⟩), pure_bind',
    perHead_ok a a.vo (fun h' => h ⟨h'.1, .inr h'.2⟩), pure_bind']
  refine good_bind (good_linear _ _ _ _ _) fun q kq hq => ?_
  refine good_bind (good_linear _ _ _ _ _) fun k kk hk => ?_
  refine good_bind (good_linear _ _ _ _ _) fun v kv hv => ?_
  refine good_bind (good_linear _ _ _ _ _) fun o ko ho => good_pure ?_
  have := made_append (made_append (made_append hq hk) hv) ho
  rw [List.append_nil]
  simpa [expected, entries] using this

theorem fan_ne {i g : Nat} {ks : List Nat} (hg : g ≠ 0) : i / g * ks.prod = 0 ↔ (i < g ∨ 0 ∈ ks) := by
  rw [Nat.mul_eq_zero, List.prod_eq_zero_iff, Nat.div_eq_zero_iff]
  simp [hg]

theorem good_make (c : Bool) (d : Desc) (k : Key) (h : wrong d = none) : Good (make c d k) (Made c (expected d)) := by
  cases d with
  | linear => exact good_linear _ _ _ _ _
  | mlp => exact good_mlp _ _ _ _ _ _ _ _
  | gru i hd b =>
    refine good_gru _ _ _ _ _ fun h0 => ?_
    simp [wrong, h0] at h
  | lstm i hd b =>
    refine good_lstm _ _ _ _ _ fun h0 => ?_
    simp [wrong, h0] at h
  | conv i o g ks b =>
    simp only [wrong] at h
    by_cases hg : g = 0
    · simp [hg] at h
    rw [if_neg hg] at h
    by_cases hi : ¬ g ∣ i
    · simp [hi] at h
    rw [if_neg hi] at h
    simp only [ite_eq_right_iff, reduceCtorEq, imp_false, not_or] at h
    have hf : i / g * ks.prod ≠ 0 := by
      rw [ne_eq, fan_ne hg]
      rintro (hlt | hk)
      · have := Nat.le_of_dvd (Nat.pos_of_ne_zero h.1) (not_not.1 hi)
        omega
      · exact h.2 hk
    simp only [make]
    unfold conv groupsCheck
    rw [if_neg hg, if_neg (by simp [Nat.mod_eq_zero_of_dvd (not_not.1 hi)]), pure_bind', bind_assoc']
    refine good_split ?_
    rw [two_split, pure_bind']
    exact good_convParams _ _ _ _ _ _ _ hf
  | convTranspose i o g ks b =>
    simp only [wrong] at h
    simp only [ite_eq_right_iff, reduceCtorEq, imp_false, not_or] at h
    have hf : i / g * ks.prod ≠ 0 := by
      rw [ne_eq, fan_ne h.1]
      rintro (hlt | hk)
      · exact h.2.1 hlt
      · exact h.2.2 hk
    simp only [make]
    unfold convTranspose groupsCheck
    rw [bind_assoc']
    refine good_split ?_
    rw [two_split, pure_bind', if_neg h.1, if_neg (by simp), pure_bind']
    exact good_convParams _ _ _ _ _ _ _ hf
  | mha a =>
    refine good_mha _ _ _ fun h0 => ?_
    simp [wrong, h0] at h
  | embedding n s => exact ⟨_, _, rfl, .cons ⟨rfl, .inr rfl⟩ .nil, rfl⟩
  | spectral s =>
    simp only [wrong] at h
    match s, h with
    | [], h => simp at h
    | [_], h => simp at h
    | a :: b :: s, _ =>
      exact ⟨_, _, rfl, .cons ⟨rfl, .inr rfl⟩ (.cons ⟨rfl, .inr rfl⟩ .nil), rfl⟩

theorem split_bind_raise {k : Key} {n : Nat} {f : List Key → Init β} {e : Err}
    (h : f ((List.range n).map (k.sub n)) = Except.error e) : (split k n >>= f : Init β) = Except.error e := by
  change Init.bind _ _ = _
  unfold Init.bind split
  dsimp only
  rw [h]

theorem convParams_raise (c : Bool) (i o g : Nat) (kernel : List Nat) (b : Bool) (ks : Key × Key)
    (h : i / g * kernel.prod = 0) : convParams c i o g kernel b ks = Except.error .zeroDivision := by
  unfold convParams convLim
  rw [if_pos h]
  rfl

theorem good_dropoutCall (b : Bool) (k : Key) :
    Good (dropoutCall b (some k)) fun _ ks => ks.length = if b then 1 else 0 := by
  cases b
  · exact ⟨_, _, rfl, rfl⟩
  · exact ⟨_, _, rfl, rfl⟩

theorem good_heads (b : Bool) (keys : List Key) :
    Good (headsCall b (keys.map some)) fun _ ks => ks.length = if b then keys.length else 0 := by
  induction keys with
  | nil => exact good_pure (by simp)
  | cons k keys ih =>
    rw [List.map_cons, headsCall]
    refine good_bind (good_dropoutCall b k) fun _ ks h => good_mono ih fun _ ks' h' => ?_
    rw [List.length_append, h, h']
    cases b
    · rfl
    · simp [Nat.add_comm]

mutual
theorem good_runCall : (l : Called) → ∀ k : Key, Good (runCall l (some k)) fun _ ks => ks.length = masks l
  | .ignores => fun k => good_pure rfl
  | .dropout b => fun k => good_dropoutCall b k
  | .mha n b => by
    intro k
    rw [runCall, keysFor, bind_assoc']
    refine good_split ?_
    rw [pure_bind']
    refine good_mono (good_heads _ _) fun _ ks h => ?_
    rw [h, List.length_map, List.length_range]
    rfl
  | .seq ls => by
    intro k
    rw [runCall, keysFor, bind_assoc']
    refine good_split ?_
    rw [pure_bind']
    exact good_runCalls ls _ (by simp)
theorem good_runCalls : (ls : List Called) → ∀ keys : List Key, keys.length = ls.length →
    Good (runCalls ls (keys.map some)) fun _ ks => ks.length = masksAll ls
  | [] => by
    intro keys _
    unfold runCalls
    exact good_pure rfl
  | l :: ls => by
    intro keys h
    match keys, h with
    | k :: keys, h =>
      rw [List.map_cons, runCalls]
      refine good_bind (good_runCall l k) fun _ ks h1 => ?_
      refine good_mono (good_runCalls ls keys (by simpa using h)) fun _ ks' h2 => ?_
      rw [List.length_append, h1, h2, masksAll]
end

theorem heads_without (b : Bool) (n : Nat) :
    headsCall b (List.replicate n none) = if b = true ∧ n ≠ 0 then raise .runtimeError else pure () := by
  cases b
  · simp only [Bool.false_eq_true, false_and, if_false]
    induction n with
    | zero => rfl
    | succ n ih =>
      rw [List.replicate_succ, headsCall, ih]
      rfl
  · cases n with
    | zero => rfl
    | succ n => rfl

mutual
theorem runCall_without : (l : Called) → runCall l none = if masks l = 0 then pure () else raise .runtimeError
  | .ignores => rfl
  | .dropout b => by cases b <;> rfl
  | .mha n b => by
    rw [runCall, keysFor, pure_bind', heads_without]
    cases b
    · simp [masks]
    · by_cases h : n = 0 <;> simp [masks, h]
  | .seq ls => by
    rw [runCall, keysFor, pure_bind', runCalls_without ls]
    rfl
theorem runCalls_without : (ls : List Called) → runCalls ls (List.replicate ls.length none) =
    if masksAll ls = 0 then pure () else raise .runtimeError
  | [] => by unfold runCalls; rfl
  | l :: ls => by
    rw [List.length_cons, List.replicate_succ, runCalls, runCall_without l, runCalls_without ls]
    by_cases h : masks l = 0
    · rw [if_pos h, pure_bind', masksAll, h, Nat.zero_add]
    · have h' : ¬ masksAll (l :: ls) = 0 := by rw [masksAll]; omega
      rw [if_neg h, if_neg h']
      rfl
end

/-! ### Theorems -/

/-- **C96** (which parameters): unless the arguments are wrong, a layer has the parameters that it should have, of the right
shapes, with entries within one over the square root of the number of terms in each output. The keys that they were drawn with
are all different. -/
theorem made (cplx : Bool) (d : Desc) (k : Key) (h : wrong d = none) :
    ∃ ps us, make cplx d k = Except.ok (ps, us) ∧ List.Forall₂ (Fits cplx) ps (expected d) ∧
      (ps.flatMap Param.keys).Nodup ∧ ∀ k' ∈ ps.flatMap Param.keys, Below k k' := by
  obtain ⟨ps, us, he, hf, hk⟩ := good_make cplx d k h
  obtain ⟨h1, h2⟩ := within_make cplx d k ps us he
  refine ⟨ps, us, he, hf, hk ▸ (drawn_sublist us).nodup h1, fun k' hk' => ?_⟩
  rw [hk] at hk'
  obtain ⟨u, hu, rfl⟩ := List.mem_map.1 ((drawn_sublist us).subset hk')
  exact h2 u hu

/-- **C96** (which arguments are refused). -/
theorem refused (cplx : Bool) (d : Desc) (k : Key) {e : Err} (h : wrong d = some e) : make cplx d k = Except.error e := by
  cases d with
  | linear => cases h
  | mlp => cases h
  | gru i hd b =>
    simp only [wrong] at h
    by_cases h0 : hd = 0
    · rw [if_pos h0] at h
      cases h
      simp only [make]
      unfold gru
      rw [bind_assoc']
      refine split_bind_raise ?_
      rw [four_split, pure_bind', rnnLim, if_pos h0]
      rfl
    · simp [h0] at h
  | lstm i hd b =>
    simp only [wrong] at h
    by_cases h0 : hd = 0
    · rw [if_pos h0] at h
      cases h
      simp only [make]
      unfold lstm
      rw [bind_assoc']
      refine split_bind_raise ?_
      rw [three_split, pure_bind', rnnLim, if_pos h0]
      rfl
    · simp [h0] at h
  | conv i o g ks b =>
    simp only [wrong] at h
    simp only [make]
    unfold conv groupsCheck
    by_cases hg : g = 0
    · rw [if_pos hg] at h ⊢
      cases h
      rfl
    rw [if_neg hg] at h ⊢
    by_cases hi : ¬ g ∣ i
    · rw [if_pos hi] at h
      cases h
      rw [if_pos (by simpa [Nat.dvd_iff_mod_eq_zero] using hi)]
      rfl
    rw [if_neg hi] at h
    rw [if_neg (by simp [Nat.mod_eq_zero_of_dvd (not_not.1 hi)]), pure_bind', bind_assoc']
    by_cases h0 : i = 0 ∨ 0 ∈ ks
    · rw [if_pos h0] at h
      cases h
      refine split_bind_raise ?_
      rw [two_split, pure_bind']
      refine convParams_raise _ _ _ _ _ _ _ ((fan_ne hg).2 ?_)
      rcases h0 with h0 | h0
      · exact .inl (by omega)
      · exact .inr h0
    · simp [h0] at h
  | convTranspose i o g ks b =>
    simp only [wrong] at h
    simp only [make]
    unfold convTranspose groupsCheck
    by_cases h0 : g = 0 ∨ i < g ∨ 0 ∈ ks
    · rw [if_pos h0] at h
      cases h
      rw [bind_assoc']
      refine split_bind_raise ?_
      rw [two_split, pure_bind']
      by_cases hg : g = 0
      · rw [if_pos hg]
        rfl
      · rw [if_neg hg, if_neg (by simp), pure_bind']
        exact convParams_raise _ _ _ _ _ _ _ ((fan_ne hg).2 (h0.resolve_left hg))
    · simp [h0] at h
  | mha a =>
    simp only [wrong] at h
    by_cases h0 : a.heads = 0 ∧ (a.qk = none ∨ a.vo = none)
    · rw [if_pos h0] at h
      cases h
      simp only [make]
      unfold mha
      rw [bind_assoc']
      refine split_bind_raise ?_
      rw [four_split, pure_bind']
      have hn : perHead a none = raise .zeroDivision := if_pos h0.1
      match hq : a.qk with
      | none => rw [hn]; rfl
      | some n =>
        have hv : a.vo = none := by simpa [hq] using h0.2
        rw [hv, hn]
        rfl
    · simp [h0] at h
  | embedding => cases h
  | spectral s =>
    simp only [wrong] at h
    match s, h with
    | [], h => cases h; rfl
    | [_], h => cases h; rfl
    | a :: b :: s, h => simp at h

/-- **C96** (making layers): every key is used at most once, and all of them come from the one given. -/
theorem make_once (cplx : Bool) (d : Desc) (k : Key) {ps : List Param} {us : List Use}
    (h : make cplx d k = Except.ok (ps, us)) : Once k us := within_make cplx d k ps us h

/-- **C96** (calling layers): the same, for layers nested in any way. -/
theorem call_once (l : Called) (k : Key) {us : List Use} (h : runCall l (some k) = Except.ok ((), us)) : Once k us :=
  (within_runCall l k).1 () us h

/-- **C96** (calling layers): a mask is drawn for every active dropout, each with a key of its own; without a key this raises
unless no mask is needed. -/
theorem call_draws (l : Called) (k : Key) : (∃ us, runCall l (some k) = Except.ok ((), us) ∧ Once k us ∧
      (us.filter fun | .draw _ => true | .split _ _ => false).length = masks l) ∧
    (masks l = 0 → runCall l none = Except.ok ((), [])) ∧ (masks l ≠ 0 → runCall l none = Except.error .runtimeError) := by
  refine ⟨?_, fun h => ?_, fun h => ?_⟩
  · obtain ⟨_, us, he, hl⟩ := good_runCall l k
    refine ⟨us, he, call_once l k he, ?_⟩
    rw [← hl]
    clear hl he
    induction us with
    | nil => rfl
    | cons u us ih =>
      cases u with
      | draw k => simpa [drawn] using ih
      | split k n => simpa [drawn] using ih
  · rw [runCall_without, if_pos h]
    rfl
  · rw [runCall_without, if_neg h]
    rfl

/-- Uses of unrelated keys have nothing in common, so that layers made or called with the parts of a key are independent. -/
theorem once_disjoint {k k' : Key} {us us' : List Use} (h : Once k us) (h' : Once k' us') (h1 : ¬ Below k k')
    (h2 : ¬ Below k' k) : (∀ u ∈ us, ∀ u' ∈ us', u.key ≠ u'.key) ∧ ((us ++ us').map Use.key).Nodup := by
  have hd : ∀ u ∈ us, ∀ u' ∈ us', u.key ≠ u'.key := by
    intro u hu u' hu' he
    have hb := h.2 u hu
    have hb' := h'.2 u' hu'
    rw [← he] at hb'
    rcases below_comparable hb hb' with hb | hb
    · exact h1 hb
    · exact h2 hb
  refine ⟨hd, ?_⟩
  rw [List.map_append, List.nodup_append]
  refine ⟨h.1, h'.1, ?_⟩
  intro a ha b hb he
  subst he
  obtain ⟨u, hu, rfl⟩ := List.mem_map.1 ha
  obtain ⟨u', hu', he⟩ := List.mem_map.1 hb
  exact hd u hu u' hu' he.symm

/-- The parts of a key are unrelated, and unrelated to those of its other parts. -/
theorem parts_unrelated (k : Key) (n i j : Nat) (h : i ≠ j) : ¬ Below (k.sub n i) (k.sub n j) := by
  intro hb
  exact sub_disjoint h hb .refl

/-- `ConvTranspose` does not check that `groups` divides `in_channels`, unlike `Conv`: the layer is made, with a kernel that
does not fit its inputs. -/
theorem transpose_unchecked : wrong (.conv 3 4 2 [3] true) = some .valueError ∧ wrong (.convTranspose 3 4 2 [3] true) = none ∧
    (expected (.convTranspose 3 4 2 [3] true)).map (·.1) = [[4, 1, 3], [4, 1]] := ⟨rfl, rfl, rfl⟩

/-! ### Examples -/

/-- An `MLP` with two hidden layers: the key is split three ways, and each part twice. -/
example : wrong (.mlp (.num 2) .scalar 8 2 true false) = none ∧
    (expected (.mlp (.num 2) .scalar 8 2 true false)).map (·.1) = [[8, 2], [8], [8, 8], [8], [1, 8]] := ⟨rfl, rfl⟩

example : ∃ ps us, make true (.mlp (.num 2) .scalar 8 2 true false) (.given 0) = Except.ok (ps, us) ∧
    (us.map Use.key).length = 19 := ⟨_, _, rfl, rfl⟩

/-- A dropout, then attention with dropout, then both once more. -/
example : ∃ us, runCall (.seq [.dropout true, .ignores, .seq [.mha 2 true, .dropout true]]) (some (.given 0)) =
    Except.ok ((), us) ∧ us.map Use.key = [.given 0, .sub (.given 0) 3 0, .sub (.given 0) 3 2,
      .sub (.sub (.given 0) 3 2) 2 0, .sub (.sub (.sub (.given 0) 3 2) 2 0) 2 0, .sub (.sub (.sub (.given 0) 3 2) 2 0) 2 1,
      .sub (.sub (.given 0) 3 2) 2 1] := ⟨_, rfl, rfl⟩

/-- Without a key an active dropout raises. -/
example : runCall (.seq [.ignores, .dropout true]) none = Except.error .runtimeError := rfl

end Verif.NN.Keys
