import Verif.NN.PoolShift
import Verif.NN.AdaptiveValue
import Verif.NN.ConvValue
import Verif.NN.Mlp
/-!
# Layers that compute the same

Consequences of what the layers compute (C42, C43, C72, C99); nothing further is modelled. Average pooling is a convolution of every
channel by itself with equal weights, a convolution with kernels of size one is a `Linear` at every position, and adaptive pooling to
a size that divides that of the input is ordinary pooling.
-/

namespace Verif.NN.Agree

open Verif.NN PoolShift

/-! ## Vocabulary -/

/-- The dimensions of a convolution with the kernel sizes and strides of a pool, without dilation. -/
def dims : List Int → List Int → List HDim
  | k :: ks, s :: ss => ⟨k, s, 1, 0⟩ :: dims ks ss
  | _, _ => []

/-- Sizes `ns` are cut into `ts` equal parts. -/
def Even : List Nat → List Nat → Prop
  | [], [] => True
  | n :: ns, t :: ts => (0 < n ∧ 0 < t ∧ t ∣ n) ∧ Even ns ts
  | _, _ => False

/-- The sizes of the parts. -/
def parts : List Nat → List Nat → List Int
  | n :: ns, t :: ts => ((n / t : Nat) : Int) :: parts ns ts
  | _, _ => []

/-- The index of zeros. -/
def zeros (m : Nat) : List Nat := List.replicate m 0

/-! ## Average pooling and convolutions -/

theorem dims_length : ∀ (ks ss : List Int), ks.length = ss.length → (dims ks ss).length = ks.length
  | [], [], _ => rfl
  | k :: ks, s :: ss, h => by simp [dims, dims_length ks ss (by simpa using h)]
  | [], _ :: _, h => by simp at h
  | _ :: _, [], h => by simp at h

theorem dims_get : ∀ (ks ss : List Int) (j : Nat) (h : HDim), (dims ks ss)[j]? = some h →
    ∃ k s, ks[j]? = some k ∧ ss[j]? = some s ∧ h = ⟨k, s, 1, 0⟩
  | k :: ks, s :: ss, 0, h, e => by
    simp [dims] at e
    exact ⟨k, s, rfl, rfl, e.symm⟩
  | k :: ks, s :: ss, j + 1, h, e => by
    simp only [dims, List.getElem?_cons_succ] at e ⊢
    exact dims_get ks ss j h e
  | [], _, _, _, e => by simp [dims] at e
  | _ :: _, [], _, _, e => by simp [dims] at e

theorem dims_kernel : ∀ (ks ss : List Int), ks.length = ss.length → (dims ks ss).map (fun h => h.k.toNat) = ks.map Int.toNat
  | [], [], _ => rfl
  | k :: ks, s :: ss, h => by simp [dims, dims_kernel ks ss (by simpa using h)]
  | [], _ :: _, h => by simp at h
  | _ :: _, [], h => by simp at h

theorem position_source (P : List (Int × Int)) : ∀ (j : Nat) (ns : List Nat) (ks ss : List Int) (is js : List Nat),
    P.length = j + ns.length → ks.length = ns.length → ss.length = ns.length → is.length = ns.length → js.length = ns.length →
    position ns (P.drop j) ss is js = Value.source .zeros (.pairs P) j ns (dims ks ss) is js
  | j, [], [], [], [], [], hP, _, _, _, _ => by
    have : P.drop j = [] := List.drop_eq_nil_of_le (by simp at hP; omega)
    simp [this, position, dims, Value.source]
  | j, n :: ns, k :: ks, s :: ss, i :: is, q :: js, hP, h1, h2, h3, h4 => by
    have hlt : j < P.length := by simp at hP; omega
    have ih := position_source P (j + 1) ns ks ss is js (by simp at hP ⊢; omega) (by simpa using h1) (by simpa using h2)
      (by simpa using h3) (by simpa using h4)
    rw [List.drop_eq_getElem_cons hlt]
    simp only [position, dims, Value.source, Value.extend, Value.before, List.getElem?_eq_getElem hlt, Option.getD_some, mul_one]
    rw [ih]
    split
    · cases Value.source Mode.zeros (Pad.pairs P) (j + 1) ns (dims ks ss) is js <;> rfl
    · rfl
  | _, [], _ :: _, _, _, _, _, h1, _, _, _ => by simp at h1
  | _, [], [], _ :: _, _, _, _, _, h2, _, _ => by simp at h2
  | _, [], [], [], _ :: _, _, _, _, _, h3, _ => by simp at h3
  | _, [], [], [], [], _ :: _, _, _, _, _, h4 => by simp at h4
  | _, _ :: _, [], _, _, _, _, h1, _, _, _ => by simp at h1
  | _, _ :: _, _ :: _, [], _, _, _, _, h2, _, _ => by simp at h2
  | _, _ :: _, _ :: _, _ :: _, [], _, _, _, _, h3, _ => by simp at h3
  | _, _ :: _, _ :: _, _ :: _, _ :: _, [], _, _, _, _, h4 => by simp at h4

/-- `AvgPool` without ceil mode is a convolution with one group for each channel, the same padding with zeros, and all weights one
over the size of the kernel. -/
theorem avgpool_is_conv {K : Type} [Field K] (p : Pool K) (hop : p.operation = (· + ·)) (hi : p.init = 0) (hu : p.useCeil = false)
    (x y : NArr K) (h : p.avgCall (fun a n => a / (n : K)) x = .ok y) (c : Conv K) (C : Nat) (hC : x.shape.head? = some C) (hC0 : 0 < C)
    (hd : c.dims = dims p.kernelSize p.stride) (hp : c.padding = .pairs p.padding) (hm : c.mode = .zeros)
    (hin : c.inChannels = C) (hout : c.outChannels = C) (hg : c.groups = C)
    (hw : ∀ i, c.weight.at_ i = 1 / ((p.kernelSize.foldl (· * ·) 1 : Int) : K)) (hb : c.bias = none) :
    ∃ y', c.call x = .ok y' ∧ y'.shape = y.shape ∧ ∀ ch is, InB (ch :: is) y.shape → y'.at_ (ch :: is) = y.at_ (ch :: is) := by
  simp only [Pool.avgCall] at h
  cases hc : p.call x with
  | error e => simp [hc, bind, Except.bind] at h
  | ok z =>
  simp only [hc, bind, Except.bind, Except.ok.injEq] at h
  subst h
  obtain ⟨C', ns, pad, hx, hN, he, _, hk, hs, hpl, hk0, hs0, hsh, hv⟩ := call_ok p x z hc
  have : C' = C := by simpa [hx] using hC
  subst this
  have hpad : pad = p.padding := by simp [effPad, hu] at he; exact he.symm
  subst hpad
  have hdl : c.dims.length = ns.length := by rw [hd, dims_length _ _ (by omega), hk]
  obtain ⟨y', hy'⟩ := (Value.conv_ok_iff c x).2 ⟨ns, by rw [hx, hin], hdl.symm, by
    intro hh hm'
    obtain ⟨j, hj⟩ := List.getElem?_of_mem hm'
    rw [hd] at hj
    obtain ⟨k, s, e1, e2, rfl⟩ := dims_get _ _ _ _ hj
    exact ⟨hk0 k (List.mem_of_getElem? e1), hs0 s (List.mem_of_getElem? e2), Int.one_pos⟩,
    by omega, by rw [hin, hg]; exact Nat.mod_self _, by rw [hout, hg]; exact Nat.mod_self _, fun hc => absurd hm hc⟩
  obtain ⟨ns', hx', _, hlen, h0, hget⟩ := conv_shape c x y' hy'
  have hns : ns' = ns := by rw [hx, hin] at hx'; simpa [eq_comm] using hx'
  subst hns
  have hwl := windowShape_length ns' p.padding p.kernelSize p.stride hpl hk hs
  have hshape : y'.shape = z.shape := by
    rw [hsh]
    apply List.ext_getElem?
    intro j
    cases j with
    | zero => rw [h0, hout]; rfl
    | succ j =>
      rw [List.getElem?_cons_succ]
      by_cases hj : j < ns'.length
      · have hjd : j < c.dims.length := by omega
        obtain ⟨g, m, hm', em⟩ := hget j _ _ (List.getElem?_eq_getElem hj) (List.getElem?_eq_getElem hjd)
        have hq : (dims p.kernelSize p.stride)[j]? = some c.dims[j] := by rw [← hd]; exact List.getElem?_eq_getElem hjd
        obtain ⟨k, s, e1, e2, e3⟩ := dims_get _ _ _ _ hq
        have e4 : p.padding[j]? = some (p.padding[j]'(by omega)) := List.getElem?_eq_getElem (by omega)
        rw [hm', windowShape_get ns' p.padding p.kernelSize p.stride j _ _ _ _ (List.getElem?_eq_getElem hj) e4 e1 e2]
        rw [e3, hp] at em
        have hs' : 0 < s := hs0 s (List.mem_of_getElem? e2)
        have ew := windows_eq ns'[j] (p.padding[j]'(by omega)).1 (p.padding[j]'(by omega)).2 k s hs'
        simp only [convSize, convPads, Pad.entry, e4, Option.getD_some, one_mul] at em
        congr 1
        have e5 : k - 1 + 1 = k := by omega
        rw [e5] at em
        have : (m : Int) = windows ns'[j] p.padding[j] k s := by rw [em]; exact ew.symm
        exact_mod_cast this
      · rw [List.getElem?_eq_none (by rw [hlen, hx]; simp; omega), List.getElem?_eq_none (by omega)]
  refine ⟨y', hy', hshape, fun ch is hin' => ?_⟩
  have hlt : ch < C' := by
    simp only at hin'
    rw [hsh] at hin'
    exact hin'.1
  have hisl : is.length = ns'.length := by
    have := inB_length hin'
    simp only [hsh] at this
    simp at this
    omega
  rw [Value.conv_value c x y' hy' ch is (by rw [hshape]; exact hin'), Value.total, hb, hin, hout, hg, Nat.div_self hC0, hd, hp, hm,
    dims_kernel _ _ (by omega), hx]
  simp only [Finset.range_one, Finset.sum_singleton, Nat.div_one, mul_one, Option.elim_none, add_zero, List.tail_cons]
  rw [hv ch is, hop, hi]
  simp only [prod]
  rw [foldl_add, zero_add, offsets_sum, div_eq_mul_one_div, mul_comm, mul_boxSum]
  apply boxSum_congr
  intro js hj
  have hjl : js.length = ns'.length := by have := inB_length hj; simp at this; omega
  have := position_source p.padding 0 ns' p.kernelSize p.stride is js (by simpa using hpl) hk hs hisl hjl
  rw [List.drop_zero] at this
  rw [← this]
  cases position ns' p.padding p.stride is js with
  | none => simp
  | some q => simp [hw]

/-! ## Kernels of size one -/

theorem extend_inside (m : Mode) {n o : Nat} (h : o < n) : Value.extend m n (o : Int) = some o := by
  cases m with
  | zeros => simp [Value.extend, h]
  | circular =>
    have h0 : n ≠ 0 := by omega
    simp only [Value.extend, h0, if_false]
    rw [Int.emod_eq_of_lt (by omega) (by omega)]
    simp
  | replicate =>
    simp only [Value.extend]
    rw [if_neg (by omega), if_pos (by omega)]
    simp
  | reflect =>
    simp only [Value.extend]
    split
    · congr 1; omega
    · congr 1
      by_cases hl : o = n - 1
      · have e : ((o : Int) + (n - 1)) = 2 * (n - 1) := by omega
        rw [e, Int.emod_self]
        omega
      · rw [Int.emod_eq_of_lt (by omega) (by omega)]
        omega

theorem before_one {pad : Pad} (h : HDim) (n m j : Nat) (hk : h.k = 1) (hs : h.s = 1)
    (hp : pad = .valid ∨ pad = .same ∨ pad = .sameLower ∨ pad = .pairs (List.replicate m (0, 0))) : Value.before pad n h j = 0 := by
  have hc : ceilDiv (n : Int) 1 = n := by simp [ceilDiv]
  have ht : max 0 ((ceilDiv (n : Int) h.s - 1) * h.s + (h.d * (h.k - 1) + 1) - n) = 0 := by
    rw [hs, hk, hc]
    simp
  rcases hp with rfl | rfl | rfl | rfl
  · rfl
  · simp only [Value.before, ht]; rfl
  · simp only [Value.before, ht]; rfl
  · simp only [Value.before, List.getElem?_replicate]
    split <;> rfl

theorem source_one (m : Mode) {pad : Pad} {l : Nat}
    (hp : pad = .valid ∨ pad = .same ∨ pad = .sameLower ∨ pad = .pairs (List.replicate l (0, 0))) :
    ∀ (j : Nat) (ns : List Nat) (hs : List HDim) (o : List Nat), (∀ h ∈ hs, h.k = 1 ∧ h.s = 1) → hs.length = ns.length → InB o ns →
      Value.source m pad j ns hs o (zeros ns.length) = some o
  | j, [], [], [], _, _, _ => rfl
  | j, n :: ns, h :: hs, o :: os, h1, h2, hi => by
    have ih := source_one m hp (j + 1) ns hs os (fun a ha => h1 a (by simp [ha])) (by simpa using h2) hi.2
    have h3 := h1 h (by simp)
    simp only [zeros, List.length_cons, List.replicate_succ, Value.source] at ih ⊢
    rw [ih, before_one h n l j h3.1 h3.2 hp, h3.2]
    simp only [Nat.cast_zero, zero_mul, mul_one, add_zero, sub_zero]
    rw [extend_inside m hi.1]
  | _, [], _ :: _, _, _, h2, _ => by simp at h2
  | _, [], [], _ :: _, _, _, hi => by simp [InB] at hi
  | _, _ :: _, [], _, _, h2, _ => by simp at h2
  | _, _ :: _, _ :: _, [], _, _, hi => by simp [InB] at hi

theorem boxSum_ones {M : Type} [AddCommMonoid M] : ∀ (hs : List HDim), (∀ h ∈ hs, h.k = 1 ∧ h.s = 1) → ∀ f : List Nat → M,
    boxSum (hs.map fun h => h.k.toNat) f = f (zeros hs.length)
  | [], _, _ => rfl
  | h :: hs, h1, f => by
    have h3 := (h1 h (by simp)).1
    simp only [List.map_cons, boxSum, h3, Int.toNat_one, Finset.range_one, Finset.sum_singleton]
    rw [boxSum_ones hs (fun a ha => h1 a (by simp [ha]))]
    rfl

/-- A convolution with kernels of size one and stride one, one group, and no explicit padding is a `Linear` at every position, whatever
the padding mode and the dilation. -/
theorem conv_one_is_linear (c : Conv ℝ) (hd : ∀ h ∈ c.dims, h.k = 1 ∧ h.s = 1)
    (hp : c.padding = .valid ∨ c.padding = .same ∨ c.padding = .sameLower ∨ c.padding = .pairs (List.replicate c.dims.length (0, 0)))
    (hg : c.groups = 1) (L : Mlp.Linear)
    (hL : Mlp.IsLinear L (.num c.inChannels) (.num c.outChannels)
      (fun i j => c.weight.at_ (i.val :: j.val :: zeros c.dims.length)) (fun i => c.bias.elim 0 fun b => b i.val))
    (x y : NArr ℝ) (h : c.call x = .ok y) :
    y.shape = c.outChannels :: x.shape.tail ∧ ∀ o, InB o x.shape.tail →
      L.call (Mlp.asV (.num c.inChannels) fun j => x.at_ (j.val :: o)) =
        .ok (Mlp.asV (.num c.outChannels) fun i => y.at_ (i.val :: o)) := by
  obtain ⟨ns, hx, hl, hlen, h0, hget⟩ := conv_shape c x y h
  have hshape : y.shape = c.outChannels :: ns := by
    apply List.ext_getElem?
    intro j
    cases j with
    | zero => rw [h0]; rfl
    | succ j =>
      rw [List.getElem?_cons_succ]
      by_cases hj : j < ns.length
      · have hjd : j < c.dims.length := by omega
        obtain ⟨g, m, hm', em⟩ := hget j _ _ (List.getElem?_eq_getElem hj) (List.getElem?_eq_getElem hjd)
        have h3 := hd c.dims[j] (List.getElem_mem hjd)
        rw [hm', List.getElem?_eq_getElem hj]
        congr 1
        have hz : convPads c.padding ns[j] c.dims[j] (c.padding.entry j) = (0, 0) := by
          rcases hp with e | e | e | e
          · rw [e]; rfl
          · rw [e]; simp [convPads, samePads, h3.1, h3.2]
          · rw [e]; simp [convPads, samePads, h3.1, h3.2]
          · rw [e]
            simp only [convPads, Pad.entry, List.getElem?_replicate]
            split <;> rfl
        rw [hz] at em
        simp only [convSize, h3.1, h3.2, sub_self, mul_zero, zero_add, add_zero, Int.ediv_one] at em
        omega
      · rw [List.getElem?_eq_none (by rw [hlen, hx]; simp; omega), List.getElem?_eq_none (by omega)]
  refine ⟨by rw [hshape, hx]; rfl, fun o ho => ?_⟩
  rw [Mlp.linear_spec hL]
  congr 2
  funext i
  have ho' : InB o ns := by simpa [hx] using ho
  have hi : i.val < c.outChannels := i.isLt
  rw [Value.conv_value c x y h i.val o (by rw [hshape]; exact ⟨hi, ho'⟩), Value.total, hg]
  simp only [Nat.div_one, Mlp.affine, boxSum_ones c.dims hd]
  rw [← Fin.sum_univ_eq_sum_range (n := c.inChannels) (f := fun ci =>
    (Value.source c.mode c.padding 0 x.shape.tail c.dims o (zeros c.dims.length)).elim 0 fun q =>
      c.weight.at_ (i.val :: ci :: zeros c.dims.length) * x.at_ ((i.val / c.outChannels * c.inChannels + ci) :: q))]
  have hs := source_one c.mode hp 0 ns c.dims o hd hl.symm ho'
  rw [hl] at hs
  rw [hx, List.tail_cons, hs, Nat.div_eq_of_lt hi]
  simp
  rfl

/-! ## Adaptive pooling to sizes that divide -/

theorem even_length : ∀ {ns ts : List Nat}, Even ns ts → ns.length = ts.length
  | [], [], _ => rfl
  | _ :: _, _ :: _, h => by simp [even_length h.2]
  | [], _ :: _, h => by simp [Even] at h
  | _ :: _, [], h => by simp [Even] at h

theorem even_get : ∀ {ns ts : List Nat}, Even ns ts → ∀ d t n : Nat, ts[d]? = some t → ns[d]? = some n → 0 < t ∧ t ≤ n
  | n' :: _, t' :: _, h, 0, t, n, e1, e2 => by
    simp at e1 e2
    subst e1 e2
    exact ⟨h.1.2.1, Nat.le_of_dvd h.1.1 h.1.2.2⟩
  | _ :: _, _ :: _, h, d + 1, t, n, e1, e2 => even_get h.2 d t n (by simpa using e1) (by simpa using e2)
  | [], _, _, _, _, _, _, e2 => by simp at e2
  | _ :: _, [], _, _, _, _, e1, _ => by simp at e1

theorem parts_length : ∀ {ns ts : List Nat}, Even ns ts → (parts ns ts).length = ns.length
  | [], [], _ => rfl
  | _ :: _, _ :: _, h => by simp [parts, parts_length h.2]
  | [], _ :: _, h => by simp [Even] at h
  | _ :: _, [], h => by simp [Even] at h

theorem parts_pos : ∀ {ns ts : List Nat}, Even ns ts → ∀ k ∈ parts ns ts, 0 < k
  | [], [], _, k, hk => by simp [parts] at hk
  | n :: ns, t :: ts, h, k, hk => by
    simp only [parts, List.mem_cons] at hk
    rcases hk with rfl | hk
    · have := Nat.div_pos (Nat.le_of_dvd h.1.1 h.1.2.2) h.1.2.1
      omega
    · exact parts_pos h.2 k hk
  | [], _ :: _, h, _, _ => by simp [Even] at h
  | _ :: _, [], h, _, _ => by simp [Even] at h

theorem parts_shape : ∀ {ns ts : List Nat}, Even ns ts →
    windowShape ns (List.replicate ns.length (0, 0)) (parts ns ts) (parts ns ts) = ts
  | [], [], _ => rfl
  | n :: ns, t :: ts, h => by
    simp only [parts, List.length_cons, List.replicate_succ, windowShape, parts_shape h.2]
    congr 1
    obtain ⟨⟨h1, h2, h3⟩, -⟩ := h
    obtain ⟨m, rfl⟩ := h3
    have hm : 0 < m := Nat.pos_of_mul_pos_left h1
    rw [Nat.mul_div_cancel_left _ h2]
    have key : ∀ i, i < windows (t * m) (0, 0) (m : Int) (m : Int) ↔ i < t := by
      intro i
      rw [lt_windows (by omega)]
      constructor
      · intro h
        by_contra hc
        have : t * m ≤ i * m := Nat.mul_le_mul_right m (by omega)
        zify at this
        push_cast at h
        omega
      · intro h
        have : (i + 1) * m ≤ t * m := Nat.mul_le_mul_right m h
        rw [Nat.add_mul] at this
        zify at this
        push_cast
        omega
    have a := key (windows (t * m) (0, 0) (m : Int) (m : Int))
    have b := key t
    omega
  | [], _ :: _, h => by simp [Even] at h
  | _ :: _, [], h => by simp [Even] at h

theorem box_offsets : ∀ {ns ts : List Nat}, Even ns ts → ∀ js : List Nat, js.length = ts.length →
    Adaptive.box ns ts js = (offsets (parts ns ts)).map (spot (parts ns ts) js)
  | [], [], _, [], _ => by simp [Adaptive.box, parts, offsets, spot]
  | n :: ns, t :: ts, h, j :: js, hl => by
    have ih := box_offsets h.2 js (by simpa using hl)
    have hz : n % t = 0 := Nat.mod_eq_zero_of_dvd h.1.2.2
    have hb : block n t j = (List.range (n / t)).map (j * (n / t) + ·) := by
      have e1 : blockStart n t j = j * (n / t) := by simp [blockStart, hz]
      have e2 : blockStart n t (j + 1) = (j + 1) * (n / t) := by simp [blockStart, hz]
      rw [block, e1, e2, Nat.add_mul, Nat.one_mul, Nat.add_sub_cancel_left]
    simp only [Adaptive.box, parts, offsets, hb, ih, Int.toNat_natCast, List.flatMap_map, List.map_flatMap, List.map_map]
    congr 1
  | [], [], _, _ :: _, hl => by simp at hl
  | _ :: _, _ :: _, _, [], hl => by simp at hl
  | [], _ :: _, h, _, _ => by simp [Even] at h
  | _ :: _, [], h, _, _ => by simp [Even] at h

theorem foldl_max_le {α β : Type} [LinearOrder α] (l : List β) (f : β → α) (b t : α) :
    l.foldl (fun acc a => max acc (f a)) b ≤ t ↔ b ≤ t ∧ ∀ a ∈ l, f a ≤ t := by
  induction l generalizing b with
  | nil => simp
  | cons a l ih => simp [ih, and_assoc]

/-- `AdaptiveMaxPool` to sizes that divide those of the input is `MaxPool` with kernels and strides of the size of the parts. -/
theorem adaptive_max_is_pool {α : Type} [LinearOrder α] [Inhabited α] (p : Pool α) (hop : p.operation = max) (hb : ∀ a, p.init ≤ a)
    (hp : Unpadded p) (x : NArr α) (c : Nat) (ns ts : List Nat) (hx : x.shape = c :: ns) (he : Even ns ts)
    (hN : p.numSpatialDims = ns.length) (hk : p.kernelSize = parts ns ts) (hs : p.stride = parts ns ts) :
    ∃ y z, adaptivePool Adaptive.maxl id ts x = .ok y ∧ p.call x = .ok z ∧ y.shape = z.shape ∧ y.shape = c :: ts ∧
      ∀ ch js, InB (ch :: js) y.shape → y.at_ (ch :: js) = z.at_ (ch :: js) := by
  obtain ⟨y, hy, hys, hyv⟩ := Adaptive.adaptive_max ts x c ns hx (even_length he) (even_get he)
  obtain ⟨z, hz, hzs, hzv⟩ := unpadded_call hp hx hN.symm (by rw [hk, parts_length he]) (by rw [hs, parts_length he])
    (by rw [hk]; exact parts_pos he) (by rw [hs]; exact parts_pos he)
  rw [hk, hs, parts_shape he] at hzs hzv
  refine ⟨y, z, hy, hz, by rw [hys, hzs], hys, fun ch js hi => ?_⟩
  rw [hys] at hi
  have hl : js.length = ts.length := inB_length hi.2
  obtain ⟨⟨q, hq, e⟩, hu⟩ := hyv ch js hi
  have hmem : ∀ q, Adaptive.InBox ns ts js q ↔ ∃ o ∈ offsets (parts ns ts), spot (parts ns ts) js o = q := by
    intro q
    rw [← Adaptive.mem_box ns ts js q (even_length he) hl, box_offsets he js hl, List.mem_map]
  rw [hzv ch js hi.2, hop]
  apply le_antisymm
  · obtain ⟨o, ho, rfl⟩ := (hmem q).1 hq
    rw [e]
    exact ((foldl_max_le _ (fun o => x.at_ (ch :: spot (parts ns ts) js o)) _ _).1 le_rfl).2 o ho
  · rw [foldl_max_le _ (fun o => x.at_ (ch :: spot (parts ns ts) js o))]
    exact ⟨hb _, fun o ho => hu _ ((hmem _).2 ⟨o, ho, rfl⟩)⟩

theorem offsets_length : ∀ (ks : List Int), (∀ k ∈ ks, 0 < k) → ((offsets ks).length : Int) = ks.prod
  | [], _ => by simp [offsets]
  | k :: ks, h => by
    have ih := offsets_length ks fun a ha => h a (by simp [ha])
    have hk := h k (by simp)
    simp only [offsets, List.length_flatMap, List.length_map, List.map_const', List.sum_replicate, List.length_range, List.prod_cons,
      smul_eq_mul]
    push_cast
    rw [ih]
    congr 1
    omega

/-- `AdaptiveAvgPool` to sizes that divide those of the input is `AvgPool` with kernels and strides of the size of the parts. -/
theorem adaptive_avg_is_pool {K : Type} [Field K] [Inhabited K] (p : Pool K) (hop : p.operation = (· + ·)) (h0 : p.init = 0)
    (hp : Unpadded p) (x : NArr K) (c : Nat) (ns ts : List Nat) (hx : x.shape = c :: ns) (he : Even ns ts)
    (hN : p.numSpatialDims = ns.length) (hk : p.kernelSize = parts ns ts) (hs : p.stride = parts ns ts) :
    ∃ y z, adaptivePool Adaptive.mean Adaptive.mean0 ts x = .ok y ∧ p.avgCall (fun a n => a / (n : K)) x = .ok z ∧ y.shape = z.shape ∧
      y.shape = c :: ts ∧ ∀ ch js, InB (ch :: js) y.shape → y.at_ (ch :: js) = z.at_ (ch :: js) := by
  obtain ⟨y, hy, hys, hyv⟩ := Adaptive.adaptive_avg ts x c ns hx (even_length he) (even_get he)
  obtain ⟨z, hz, hzs, hzv⟩ := unpadded_call hp hx hN.symm (by rw [hk, parts_length he]) (by rw [hs, parts_length he])
    (by rw [hk]; exact parts_pos he) (by rw [hs]; exact parts_pos he)
  rw [hk, hs, parts_shape he] at hzs hzv
  have hac : p.avgCall (fun a n => a / (n : K)) x = .ok ⟨z.shape, fun i => z.at_ i / ((prod p.kernelSize : Int) : K)⟩ := by
    simp only [Pool.avgCall, hz, bind, Except.bind]
  refine ⟨y, _, hy, hac, by rw [hys]; exact hzs.symm, hys, fun ch js hi => ?_⟩
  rw [hys] at hi
  have hl : js.length = ts.length := inB_length hi.2
  obtain ⟨l, hn, hlen, hm, e⟩ := hyv ch js hi
  have hperm : l.Perm (Adaptive.box ns ts js) := by
    rw [List.perm_ext_iff_of_nodup hn (Adaptive.nodup_box ns ts js)]
    intro q
    rw [hm, Adaptive.mem_box ns ts js q (even_length he) hl]
  rw [box_offsets he js hl] at hperm
  have e1 := (hperm.map fun q => x.at_ (ch :: q)).sum_eq
  have e2 := hperm.length_eq
  simp only [List.map_map, List.length_map] at e1 e2
  have e3 : ((prod (parts ns ts) : Int) : K) = ((offsets (parts ns ts)).length : K) := by
    have := offsets_length _ (parts_pos he)
    have hpr : prod (parts ns ts) = (parts ns ts).prod := by simp [prod, List.prod_eq_foldl]
    rw [hpr, ← this]
    simp
  simp only
  rw [e, e1, e2, hzv ch js hi.2, hop, h0, hk, e3]
  simp only
  rw [foldl_add, zero_add]
  rfl

/-! ## Concrete cases -/

/-- Six elements in three parts of two. -/
example : Even [6, 4] [3, 1] ∧ parts [6, 4] [3, 1] = [2, 4] := ⟨⟨by decide, by decide, trivial⟩, rfl⟩

/-- A pool with padding, overlapping windows and two channels that succeeds. -/
example : ∃ y, (⟨0, (· + ·), 1, [2], [1], [(1, 0)], false⟩ : Pool ℚ).avgCall (fun a n => a / (n : ℚ))
    ⟨[2, 3], fun i => match i with
      | [ch, j] => 10 * ch + j
      | _ => 0⟩ = .ok y ∧ y.shape = [2, 3] ∧ y.at_ [1, 0] = 5 ∧ y.at_ [1, 1] = 21 / 2 := by
  refine ⟨_, rfl, rfl, ?_, ?_⟩
  · show (0 + 0 + (10 * ((1 : Nat) : ℚ) + ((0 : Nat) : ℚ))) / (((1 * 2 : Int)) : ℚ) = 5
    norm_num
  · show (0 + (10 * ((1 : Nat) : ℚ) + ((0 : Nat) : ℚ)) + (10 * ((1 : Nat) : ℚ) + ((1 : Nat) : ℚ))) / (((1 * 2 : Int)) : ℚ) = 21 / 2
    norm_num

/-- The convolution of `avgpool_is_conv` for it. -/
example : dims [2] [1] = [⟨2, 1, 1, 0⟩] := rfl

/-- A convolution of two channels to one with kernel size one, and the `Linear` of its weights. -/
noncomputable def exConv : Conv ℝ := ⟨[⟨1, 1, 3, 0⟩], .same, .reflect, 2, 1, 1, ⟨[1, 2, 1], fun i => match i with
  | [_, j, _] => j + 1
  | _ => 0⟩, some fun _ => 5⟩

example : (∀ h ∈ exConv.dims, h.k = 1 ∧ h.s = 1) ∧ exConv.groups = 1 ∧
    Mlp.IsLinear ⟨[[1, 2]], some [5], .num 2, .num 1, true⟩ (.num exConv.inChannels) (.num exConv.outChannels)
      (fun i j => exConv.weight.at_ (i.val :: j.val :: zeros exConv.dims.length)) (fun i => exConv.bias.elim 0 fun b => b i.val) ∧
    ∃ y, exConv.call ⟨[2, 4], fun _ => 1⟩ = .ok y := by
  refine ⟨by simp [exConv], rfl, ⟨rfl, rfl, ?_, Or.inl rfl⟩, ?_⟩
  · simp [exConv, zeros, Mlp.Size.count]
    norm_num
  · refine (Value.conv_ok_iff exConv _).2 ⟨[4], rfl, rfl, ?_, by decide, rfl, rfl, ?_⟩
    · intro h hh
      simp [exConv] at hh
      subst hh
      exact ⟨by decide, by decide, by decide⟩
    · intro _ j n h h1 h2
      cases j with
      | zero =>
        simp [exConv] at h1 h2
        subst h1 h2
        simp [Value.CanPad, exConv, convPads, samePads]
      | succ j => simp at h1

end Verif.NN.Agree
