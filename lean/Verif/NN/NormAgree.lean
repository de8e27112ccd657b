import Verif.NN.Norm

/-!
# C132: normalisations that compute the same

Consequences of the definitions of `LayerNorm`, `GroupNorm` and `RMSNorm` (`equinox/nn/_normalisation.py`), as modelled for C63 in
`Verif/NN/NormModel`. Real numbers; the reciprocal square root of what is not positive is `none` (not a finite number), as there.
-/

namespace Verif.Norm.Agree

/-- The mean. -/
noncomputable def average (xs : List ℝ) : ℝ := xs.sum / xs.length

/-- The layers agree, up to the parameters of one group belonging to channels: every parameter is repeated for the elements of its channel. -/
structure SameLayer (G : GLayer) (L : Layer) (channels inner : Nat) : Prop where
  eps : L.eps = G.eps
  useWeight : L.useWeight = G.channelwiseAffine
  useBias : L.useBias = G.channelwiseAffine
  weight : G.channelwiseAffine = true → ∃ w, G.weight = some w ∧ w.length = channels ∧
    L.weight = some (w.flatMap fun v => List.replicate inner v)
  bias : G.channelwiseAffine = true → ∃ b, G.bias = some b ∧ b.length = channels ∧
    L.bias = some (b.flatMap fun v => List.replicate inner v)

theorem normalise_centred (eps : ℝ) (xs : List ℝ) :
    normalise eps xs = (xs.map fun x => x - average xs).map fun v =>
      (rsqrt (mean ((xs.map fun x => x - average xs).map fun v => v ^ 2) + eps)).map fun i => i * v := by
  have hv : max 0 (var xs) = mean ((xs.map fun x => x - average xs).map fun v => v ^ 2) := by
    rw [max_eq_right (by rw [var_eq]; exact variance_nonneg xs)]
    unfold var
    rw [List.map_map]
    congr 1
    apply List.map_congr_left
    intro x _
    simp only [Function.comp, average, mean]
    ring
  unfold normalise
  simp only [hv, List.map_map]
  apply List.map_congr_left
  intro x _
  simp only [Function.comp, average, mean]
  congr 1
  funext i
  ring

/-- **C132**: `LayerNorm` is `RMSNorm` with the same parameters applied to the input minus its mean, errors included. -/
theorem layer_is_rms {S : Type} (L : Layer) (x : FArr ℝ) (state : Option S) :
    layerNorm L x state = rmsNorm L ⟨x.shape, x.data.map fun v => v - average x.data⟩ state := by
  unfold layerNorm rmsNorm
  rw [normalise_centred]

/-- **C132**: on inputs with mean zero `RMSNorm` and `LayerNorm` are the same. -/
theorem rms_of_centred {S : Type} (L : Layer) (x : FArr ℝ) (hx : x.data.sum = 0) (state : Option S) :
    layerNorm L x state = rmsNorm L x state := by
  rw [layer_is_rms]
  have : (x.data.map fun v => v - average x.data) = x.data := by
    simp [average, hx]
  rw [this]

theorem length_normalise (eps : ℝ) (xs : List ℝ) : (normalise eps xs).length = xs.length := by simp [normalise]

theorem length_spread (v : List ℝ) (inner : Nat) : (v.flatMap fun w => List.replicate inner w).length = v.length * inner := by
  induction v with
  | nil => simp
  | cons a v ih => simp [List.flatMap_cons, ih, Nat.succ_mul, Nat.add_comm]

/-- **C132**: `GroupNorm` with a single group is `LayerNorm` over the whole input, with the parameter of a channel at all its elements. -/
theorem one_group_is_layer {S : Type} (G : GLayer) (L : Layer) (x : FArr ℝ) (channels : Nat) (rest : List Nat) (hs : x.shape = channels :: rest)
    (hx : x.data.length = size x.shape) (hg : G.groups = 1) (hL : L.shape = x.shape) (h : SameLayer G L channels (size rest))
    (state : Option S) : groupNorm G x state = layerNorm L x state := by
  obtain ⟨shape, data⟩ := x
  simp only at hs hx hL
  subst hs
  have hrow : ((rows 1 (size (channels / 1 :: rest)) data).map (normalise G.eps)).flatten = normalise G.eps data := by
    simp only [Nat.div_one, rows, List.range_one, List.map_cons, List.map_nil, Nat.zero_mul, List.drop_zero, List.flatten_cons,
      List.flatten_nil, List.append_nil]
    rw [← hx, List.take_length]
  have hre : FArr.reshape ⟨channels :: rest, data⟩ (1 :: channels / 1 :: rest) = .ok ⟨1 :: channels / 1 :: rest, data⟩ := by
    simp [FArr.reshape, size]
  have hlen : (normalise G.eps data).length = channels * size rest := by rw [length_normalise, hx]; rfl
  unfold groupNorm layerNorm
  simp only [hg, hL, ne_eq, not_true, if_false, hre, hrow, h.eps, h.useWeight, h.useBias, Bind.bind, Except.bind, pure, Except.pure, one_ne_zero]
  cases hc : G.channelwiseAffine with
  | false => simp [affine]
  | true =>
    obtain ⟨w, hw, hwl, hw'⟩ := h.weight hc
    obtain ⟨b, hb, hbl, hb'⟩ := h.bias hc
    have l1 : (w.flatMap fun v => List.replicate (size rest) v).length = (normalise G.eps data).length := by
      rw [length_spread, hwl, hlen]
    have l2 : (b.flatMap fun v => List.replicate (size rest) v).length = (normalise G.eps data).length := by
      rw [length_spread, hbl, hlen]
    simp only [hw, hb, hw', hb', affine, if_true, leftBroadcast, hwl, hbl, l1, l2, List.length_zipWith, Nat.min_self]

theorem take_flatten {V : Type} (m : Nat) (ls : List (List V)) (h : ∀ l ∈ ls, l.length = m) (k : Nat) (l : List V) (hk : ls[k]? = some l) :
    (ls.flatten.drop (k * m)).take m = l := by
  induction ls generalizing k with
  | nil => simp at hk
  | cons a ls ih =>
    have ha : a.length = m := h a (by simp)
    cases k with
    | zero =>
      simp only [List.getElem?_cons_zero, Option.some.injEq] at hk
      subst hk
      simp [← ha]
    | succ k =>
      simp only [List.getElem?_cons_succ] at hk
      rw [List.flatten_cons, Nat.succ_mul, Nat.add_comm (k * m) m, ← List.drop_drop]
      rw [← ha, List.drop_left, ha]
      exact ih (fun l hl => h l (by simp [hl])) k hk

/-- **C132**: `GroupNorm` without parameters is `LayerNorm` applied to each group by itself. With as many groups as channels that is every
channel by itself (instance normalisation). -/
theorem groups_are_layers {S : Type} (G : GLayer) (L : Layer) (x : FArr ℝ) (channels : Nat) (rest : List Nat) (hs : x.shape = channels :: rest)
    (hx : x.data.length = size x.shape) (hg : 0 < G.groups) (hd : G.groups ∣ channels) (ha : G.channelwiseAffine = false)
    (hL : L.shape = channels / G.groups :: rest) (he : L.eps = G.eps) (hw : L.useWeight = false) (hb : L.useBias = false)
    (state : Option S) :
    ∃ out : List (Option ℝ), groupNorm G x state = .ok (⟨x.shape, out⟩, state) ∧ out.length = x.data.length ∧
      ∀ k, k < G.groups → layerNorm L ⟨L.shape, (x.data.drop (k * size L.shape)).take (size L.shape)⟩ state =
        .ok (⟨L.shape, (out.drop (k * size L.shape)).take (size L.shape)⟩, state) := by
  obtain ⟨shape, data⟩ := x
  simp only at hs hx
  subst hs
  obtain ⟨q, rfl⟩ := hd
  have hq : G.groups * q / G.groups = q := Nat.mul_div_cancel_left q hg
  rw [hq] at hL
  have hsz : data.length = G.groups * size L.shape := by rw [hx, hL]; simp [size, Nat.mul_assoc]
  have hrl : ∀ k, k < G.groups → ((data.drop (k * size L.shape)).take (size L.shape)).length = size L.shape := by
    intro k hk
    rw [List.length_take, List.length_drop, hsz]
    have : (k + 1) * size L.shape ≤ G.groups * size L.shape := Nat.mul_le_mul_right _ hk
    rw [Nat.succ_mul] at this
    omega
  have hre : FArr.reshape ⟨G.groups * q :: rest, data⟩ (G.groups :: q :: rest) = .ok ⟨G.groups :: q :: rest, data⟩ := by
    simp [FArr.reshape, size, Nat.mul_assoc]
  have hall : ∀ l ∈ (rows G.groups (size L.shape) data).map (normalise G.eps), l.length = size L.shape := by
    intro l hl
    obtain ⟨r, hr, rfl⟩ := List.mem_map.1 hl
    obtain ⟨k, hk, rfl⟩ := List.mem_map.1 hr
    rw [length_normalise, hrl k (List.mem_range.1 hk)]
  refine ⟨((rows G.groups (size L.shape) data).map (normalise G.eps)).flatten, ?_, ?_, fun k hk => ?_⟩
  · unfold groupNorm
    simp only [hq, hre, ha, hL, Bind.bind, Except.bind, pure, Except.pure]
    rw [if_neg (by omega)]
    rfl
  · rw [List.length_flatten, List.map_congr_left (g := fun _ => size L.shape) hall, hsz, List.map_const', List.sum_replicate]
    simp [rows]
  · rw [take_flatten (size L.shape) _ hall k (normalise G.eps ((data.drop (k * size L.shape)).take (size L.shape)))
      (by simp [rows, hk])]
    unfold layerNorm
    simp [affine, he, hw, hb, Bind.bind, Except.bind, pure, Except.pure]

/-! ### Concrete cases -/

example : SameLayer ⟨1, some 2, 1, true, some [3, 4], some [5, 6]⟩ ⟨[2, 2], 1, true, true, some [3, 3, 4, 4], some [5, 5, 6, 6]⟩ 2 (size [2]) :=
  ⟨rfl, rfl, rfl, fun _ => ⟨[3, 4], rfl, rfl, rfl⟩, fun _ => ⟨[5, 6], rfl, rfl, rfl⟩⟩

/-- Two groups of two channels, each with one element. -/
example : ∃ out : List (Option ℝ),
    groupNorm (S := Unit) ⟨2, none, 1, false, none, none⟩ ⟨[4, 1], [1, 2, 3, 5]⟩ none = .ok (⟨[4, 1], out⟩, none) ∧ out.length = 4 :=
  let ⟨out, h1, h2, _⟩ := groups_are_layers (S := Unit) ⟨2, none, 1, false, none, none⟩ ⟨[2, 1], 1, false, false, none, none⟩ ⟨[4, 1], [1, 2, 3, 5]⟩ 4 [1]
    rfl rfl (by decide) (by decide) rfl rfl rfl rfl rfl none
  ⟨out, h1, h2⟩

end Verif.Norm.Agree
