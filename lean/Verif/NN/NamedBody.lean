import Verif.NN.NamedProps
import Verif.NN.ConvShape
/-!
# C104: what the arguments become

`conv_layer`, `convT_layer`, `pool_layer` say what a layer made by `Conv`, `ConvTranspose` or `Pool` holds, in terms of what was passed for each
parameter (all of them by keyword; `conv1d_eq` and the like reduce the other calls to these). `adaptive_rank`: an adaptive pool refuses inputs of
another rank with a ValueError.
-/

namespace Verif.NN.Named

variable {α ρ D K R : Type}

/-! ## Specification -/

/-- What Python takes for false, among what is passed here. -/
inductive Falsy : Val α ρ D K → Prop
  | bool : Falsy (.bool false)
  | int : Falsy (.int 0)
  | str : Falsy (.str "")
  | seq : Falsy (.seq [])
  | pairs : Falsy (.pairs [])
  | none : Falsy .none

/-- `v` asks for `q` in dimension `j`. -/
def Asks (v : Val α ρ D K) (j : Nat) (q : Int) : Prop := v = .int q ∨ ∃ l, v = .seq l ∧ l[j]? = some q

/-- `v` asks for the padding `q` in dimension `j`: one number for both sides, or one per dimension, or two per dimension. -/
def AsksPad (v : Val α ρ D K) (j : Nat) (q : Int × Int) : Prop :=
  (∃ m, v = .int m ∧ q = (m, m)) ∨ (∃ l m, v = .seq l ∧ l[j]? = some m ∧ q = (m, m)) ∨ ∃ l, v = .pairs l ∧ l[j]? = some q

/-- The dtype of the weights: the one passed, or the default one for `None`. -/
def AsksDtype (float : D) (v : Val α ρ D K) (d : D) : Prop := v = .dtype d ∨ v = .none ∧ d = float

/-! ## Proofs -/

theorem truth_iff (v : Val α ρ D K) : v.truth = false ↔ Falsy v := by
  constructor
  · intro h
    cases v with
    | int n => simp [Val.truth] at h; subst h; exact .int
    | seq l => cases l with
      | nil => exact .seq
      | cons => simp [Val.truth] at h
    | pairs l => cases l with
      | nil => exact .pairs
      | cons => simp [Val.truth] at h
    | bool b => simp [Val.truth] at h; subst h; exact .bool
    | str s => simp [Val.truth] at h; subst h; exact .str
    | none => exact .none
    | _ => simp [Val.truth] at h
  · rintro (_ | _ | _ | _ | _ | _) <;> simp [Val.truth]

theorem toNat_ok {v : Val α ρ D K} {n : Nat} (h : v.toNat = .ok n) : v = .int n := by
  cases v with
  | int m =>
    simp only [Val.toNat] at h
    split at h
    · rename_i hm
      cases h
      rw [Int.toNat_of_nonneg hm]
    · cases h
  | _ => cases h

theorem toDtype_ok {f : D} {v : Val α ρ D K} {d : D} (h : v.toDtype f = .ok d) : AsksDtype f v d := by
  cases v with
  | none => cases h; exact .inr ⟨rfl, rfl⟩
  | dtype e => cases h; exact .inl rfl
  | _ => cases h

theorem toKey_ok {v : Val α ρ D K} {k : K} (h : v.toKey = .ok k) : v = .key k := by
  cases v with
  | key e => cases h; rfl
  | _ => cases h

theorem toElem_ok {v : Val α ρ D K} {k : α} (h : v.toElem = .ok k) : v = .elem k := by
  cases v with
  | elem e => cases h; rfl
  | _ => cases h

theorem toFn_ok {v : Val α ρ D K} {k : ρ} (h : v.toFn = .ok k) : v = .fn k := by
  cases v with
  | fn e => cases h; rfl
  | _ => cases h

theorem entry_asks {v : Val α ρ D K} {j : Nat} {q : Int} (h : v.toIntOrSeq.entry j = some q) : Asks v j q := by
  cases v with
  | int m => simp only [Val.toIntOrSeq, IntOrSeq.entry, Option.some.injEq] at h; subst h; exact .inl rfl
  | seq l => exact .inr ⟨l, rfl, h⟩
  | _ => cases h

theorem entry_asksPad {v : Val α ρ D K} {j : Nat} {q : Int × Int} (h : v.toPadArg.entry j = some q) : AsksPad v j q := by
  cases v with
  | int m =>
    simp only [Val.toPadArg, PadArg.entry, Option.some.injEq] at h
    exact .inl ⟨m, rfl, h.symm⟩
  | seq l =>
    simp only [Val.toPadArg, PadArg.entry, Option.map_eq_some_iff] at h
    obtain ⟨m, h1, h2⟩ := h
    exact .inr (.inl ⟨l, m, rfl, h1, h2.symm⟩)
  | pairs l => exact .inr (.inr ⟨l, rfl, h⟩)
  | _ => cases h

/-- What a layer of convolution holds of its padding. -/
def PadHeld (v : Val α ρ D K) (n : Nat) (p : Pad) : Prop :=
  v = .padding p ∨ ∃ l, p = .pairs l ∧ l.length = n ∧ ∀ j q, l[j]? = some q → AsksPad v j q

theorem means_held {v : Val α ρ D K} {n : Nat} {p : Pad} (h : v.toConvPad.Means n p) : PadHeld v n p := by
  have aux : v.toConvPad = .arg v.toPadArg → PadHeld v n p := by
    intro e
    rw [e] at h
    obtain ⟨⟨l, rfl, hl⟩, h2⟩ := h
    refine .inr ⟨l, rfl, hl, fun j q hj => ?_⟩
    have hjn : j < n := by
      rw [← hl]
      exact (List.getElem?_eq_some_iff.1 hj).1
    have := h2 j hjn
    simp only [Pad.entry, hj] at this
    exact entry_asksPad (by simpa using this.symm)
  cases v with
  | padding q => simp only [Val.toConvPad, ConvPadArg.Means] at h; subst h; exact .inl rfl
  | str s => exact absurd h (by simp [Val.toConvPad, ConvPadArg.Means])
  | _ => exact aux rfl

theorem mode_ok {v : Val α ρ D K} {m : Mode} (h : some m = v.toMode) : v = .mode m := by
  cases v with
  | mode e => cases h; rfl
  | _ => cases h

/-! ## Theorems -/

/-- **C104**, what `Conv(num_spatial_dims=n, ..., key=r)` makes. -/
theorem conv_layer (J : Jax R D K) (n i o k s p d g b m t r : Val α ρ D K) (L : Layer R D)
    (h : conv J [] [(.numSpatialDims, n), (.inChannels, i), (.outChannels, o), (.kernelSize, k), (.stride, s), (.padding, p), (.dilation, d),
      (.groups, g), (.useBias, b), (.paddingMode, m), (.dtype, t), (.key, r)] = .ok L) :
    n = .int L.conv.dims.length ∧ i = .int L.conv.inChannels ∧ o = .int L.conv.outChannels ∧ g = .int L.conv.groups ∧
      m = .mode L.conv.mode ∧ AsksDtype J.float t L.dtype ∧
      (∃ key, r = .key key ∧ L.conv.weight = J.weight key L.dtype ∧
        (Falsy b → L.conv.bias = Option.none) ∧ (¬ Falsy b → L.conv.bias = some (J.bias key L.dtype))) ∧
      PadHeld p L.conv.dims.length L.conv.padding ∧
      ∀ (j : Nat) (h : HDim), L.conv.dims[j]? = some h → Asks k j h.k ∧ Asks s j h.s ∧ Asks d j h.d ∧ h.a = 0 := by
  rw [conv_kw] at h
  simp only [convBody, Bind.bind, Except.bind, pure, Except.pure] at h
  split at h
  · cases h
  rename_i n' hn
  split at h
  · cases h
  rename_i i' hi
  split at h
  · cases h
  rename_i o' ho
  split at h
  · cases h
  rename_i g' hg
  split at h
  · cases h
  rename_i t' ht
  split at h
  · cases h
  rename_i r' hr
  split at h
  · cases h
  rename_i c hc
  cases h
  obtain ⟨h1, h2, h3, h4, -, -, h5, h6, h7, h8, h9⟩ := conv_mk _ _ _ _ _ _ _ _ _ _ _ _ hc
  subst h1 h2 h3 h4
  refine ⟨toNat_ok hn, toNat_ok hi, toNat_ok ho, toNat_ok hg, mode_ok h5, toDtype_ok ht, ⟨r', toKey_ok hr, h7, ?_, ?_⟩,
    means_held h6, fun j hd hj => ?_⟩
  · intro hb
    rw [h8, (truth_iff b).2 hb]
    rfl
  · intro hb
    have : b.truth = true := by
      cases hbt : b.truth with
      | true => rfl
      | false => exact absurd ((truth_iff b).1 hbt) hb
    rw [h8, this]
    rfl
  · obtain ⟨a1, a2, a3, a4⟩ := h9 j hd hj
    exact ⟨entry_asks a1, entry_asks a2, entry_asks a3, a4⟩

/-- **C104**, what `ConvTranspose(num_spatial_dims=n, ..., key=r)` makes. -/
theorem convT_layer (J : Jax R D K) (n i o k s a p d g b m t r : Val α ρ D K) (L : Layer R D)
    (h : convT J [] [(.numSpatialDims, n), (.inChannels, i), (.outChannels, o), (.kernelSize, k), (.stride, s), (.outputPadding, a),
      (.padding, p), (.dilation, d), (.groups, g), (.useBias, b), (.paddingMode, m), (.dtype, t), (.key, r)] = .ok L) :
    n = .int L.conv.dims.length ∧ i = .int L.conv.inChannels ∧ o = .int L.conv.outChannels ∧ g = .int L.conv.groups ∧
      m = .mode L.conv.mode ∧ AsksDtype J.float t L.dtype ∧
      (∃ key, r = .key key ∧ L.conv.weight = J.weight key L.dtype ∧
        (Falsy b → L.conv.bias = Option.none) ∧ (¬ Falsy b → L.conv.bias = some (J.bias key L.dtype))) ∧
      PadHeld p L.conv.dims.length L.conv.padding ∧
      ∀ (j : Nat) (h : HDim), L.conv.dims[j]? = some h → Asks k j h.k ∧ Asks s j h.s ∧ Asks d j h.d ∧ Asks a j h.a := by
  rw [convT_kw] at h
  simp only [convTBody, Bind.bind, Except.bind, pure, Except.pure] at h
  split at h
  · cases h
  rename_i n' hn
  split at h
  · cases h
  rename_i i' hi
  split at h
  · cases h
  rename_i o' ho
  split at h
  · cases h
  rename_i g' hg
  split at h
  · cases h
  rename_i t' ht
  split at h
  · cases h
  rename_i r' hr
  split at h
  · cases h
  rename_i c hc
  cases h
  obtain ⟨h1, h2, h3, h4, -, h5, h6, h7, h8, h9, -⟩ := convT_mk _ _ _ _ _ _ _ _ _ _ _ _ _ hc
  subst h1 h2 h3 h4
  refine ⟨toNat_ok hn, toNat_ok hi, toNat_ok ho, toNat_ok hg, mode_ok h5, toDtype_ok ht, ⟨r', toKey_ok hr, h7, ?_, ?_⟩,
    means_held h6, fun j hd hj => ?_⟩
  · intro hb
    rw [h8, (truth_iff b).2 hb]
    rfl
  · intro hb
    have : b.truth = true := by
      cases hbt : b.truth with
      | true => rfl
      | false => exact absurd ((truth_iff b).1 hbt) hb
    rw [h8, this]
    rfl
  · obtain ⟨a1, a2, a3, a4⟩ := h9 j hd hj
    exact ⟨entry_asks a1, entry_asks a2, entry_asks a3, entry_asks a4⟩

/-- **C104**, what `Pool(init=i, ..., use_ceil=c)` makes. -/
theorem pool_layer (i f n k s p c : Val α (α → α → α) D K) (P : Pool α)
    (h : pool [] [(.init, i), (.operation, f), (.numSpatialDims, n), (.kernelSize, k), (.stride, s), (.padding, p), (.useCeil, c)] = .ok P) :
    i = .elem P.init ∧ f = .fn P.operation ∧ n = .int P.numSpatialDims ∧ (P.useCeil = false ↔ Falsy c) ∧
      P.padding.length = P.numSpatialDims ∧
      ∀ j, j < P.numSpatialDims →
        (∀ q, P.padding[j]? = some q → AsksPad p j q) ∧ (∀ q, P.kernelSize[j]? = some q → Asks k j q) ∧
        (∀ q, P.stride[j]? = some q → Asks s j q) := by
  rw [pool_kw] at h
  simp only [Bind.bind, Except.bind] at h
  split at h
  · cases h
  rename_i n' hn
  split at h
  · cases h
  rename_i i' hi
  split at h
  · cases h
  rename_i f' hf
  obtain ⟨h1, h2, h3, h4, h5, h6⟩ := pool_mk _ _ _ _ _ _ _ _ h
  subst h1 h2 h3
  refine ⟨toElem_ok hi, toFn_ok hf, toNat_ok hn, by rw [h4]; exact truth_iff c, h5, fun j hj => ?_⟩
  obtain ⟨a1, a2, a3⟩ := h6 j hj
  exact ⟨fun q hq => entry_asksPad (by rw [← a1, hq]), fun q hq => entry_asks (by rw [← a2, hq]),
    fun q hq => entry_asks (by rw [← a3, hq])⟩

/-- **C104**: a call of an adaptive pool with an input of another rank is a ValueError. -/
theorem adaptive_rank {F : Type} [Field F] [LinearOrder F] [Inhabited F] (n : Nat)
    (make : Target → Except Err (AdaptiveLayer F))
    (hmake : (n, make) ∈ [(1, adaptiveAvgPool1d), (2, adaptiveAvgPool2d), (3, adaptiveAvgPool3d),
      (1, adaptiveMaxPool1d), (2, adaptiveMaxPool2d), (3, adaptiveMaxPool3d)]) (target : Target)
    (layer : AdaptiveLayer F) (x : NArr F) (h : make target = .ok layer) (hx : x.shape.length ≠ n + 1) :
    layer.call x = .error .valueError := by
  have hm : ∃ op op0, make = adaptiveInit op op0 n := by
    simp only [List.mem_cons, List.not_mem_nil, or_false, Prod.mk.injEq] at hmake
    rcases hmake with ⟨rfl, rfl⟩ | ⟨rfl, rfl⟩ | ⟨rfl, rfl⟩ | ⟨rfl, rfl⟩ | ⟨rfl, rfl⟩ | ⟨rfl, rfl⟩ <;>
      exact ⟨_, _, rfl⟩
  obtain ⟨op, op0, rfl⟩ := hm
  have hne : (x.shape.length : Int) - 1 ≠ n := by omega
  cases target with
  | int t => cases h; simp [AdaptiveLayer.call, hne]
  | seq l =>
    simp only [adaptiveInit] at h
    split at h
    · rename_i hl; cases h; simp [AdaptiveLayer.call, hl, hne]
    · cases h
  | otherSeq len =>
    simp only [adaptiveInit] at h
    split at h
    · rename_i hl; cases h; simp [AdaptiveLayer.call, hl, hne]
    · cases h
  | other => cases h

/-! ## The hypotheses are met -/

/-- `Conv` with pairs of paddings and without bias, on two dimensions. -/
example : ∃ L, conv exJax [] [(.numSpatialDims, (.int 2 : V)), (.inChannels, .int 2), (.outChannels, .int 4), (.kernelSize, .seq [3, 5]), (.stride, .int 2),
    (.padding, .pairs [(0, 1), (2, 3)]), (.dilation, .int 1), (.groups, .int 2), (.useBias, .int 0), (.paddingMode, .mode .zeros),
    (.dtype, .dtype 1), (.key, .key 7)] = .ok L ∧ L.conv.dims = [⟨3, 2, 1, 0⟩, ⟨5, 2, 1, 0⟩] ∧ L.conv.padding = .pairs [(0, 1), (2, 3)] ∧
      L.conv.bias = Option.none ∧ L.dtype = 1 := ⟨_, rfl, rfl, rfl, rfl, rfl⟩

/-- `ConvTranspose` with an output padding and a bias. -/
example : ∃ L, convT exJax [] [(.numSpatialDims, (.int 1 : V)), (.inChannels, .int 2), (.outChannels, .int 4), (.kernelSize, .int 3), (.stride, .int 2),
    (.outputPadding, .int 1), (.padding, .padding .same), (.dilation, .int 1), (.groups, .int 2), (.useBias, .bool true), (.paddingMode, .mode .zeros),
    (.dtype, .none), (.key, .key 7)] = .ok L ∧ L.conv.dims = [⟨3, 2, 1, 1⟩] ∧ L.conv.padding = .same ∧ L.conv.bias.isSome ∧ L.dtype = 0 :=
  ⟨_, rfl, rfl, rfl, rfl, rfl⟩

/-- `Pool` with one padding per dimension. -/
example : ∃ P, pool [] [(.init, (.elem 0 : V)), (.operation, .fn (· + ·)), (.numSpatialDims, .int 2), (.kernelSize, .seq [3, 5]), (.stride, .int 2),
    (.padding, .seq [0, 1]), (.useCeil, .bool true)] = .ok P ∧ P.padding = [(0, 0), (1, 1)] ∧ P.kernelSize = [3, 5] ∧ P.useCeil = true :=
  ⟨_, rfl, rfl, rfl, rfl⟩

end Verif.NN.Named
