import Verif.NN.ConvValue
/-!
# C125: convolutions and translations

Consequences of the values of `Conv.__call__` and `ConvTranspose.__call__` (`equinox/nn/_conv.py:210-250, 582-620`) in terms of their inputs and outputs: with
circular padding, rolling the input rolls the output; with `"VALID"` padding, a patch of the input gives the patch of the output.
-/

namespace Verif.NN.Shift

open Verif.NN.Value

variable {R : Type}

/-! ## Specification -/

/-- The index that is `v` further on a torus of the given sizes. -/
def rolled : List Int → List Nat → List Nat → List Nat
  | v :: vs, n :: ns, i :: is => (((i : Int) + v) % n).toNat :: rolled vs ns is
  | _, _, _ => []

/-- `jnp.roll` along all axes but that of the channels (by `-v`). -/
def roll (v : List Int) (x : NArr R) : NArr R := ⟨x.shape, fun i => match i with
  | [] => x.at_ []
  | ch :: is => x.at_ (ch :: rolled v x.shape.tail is)⟩

/-- Window `o'` of the input is window `o` moved by `v`, on the torus. -/
def Moved : List Int → List Nat → List HDim → List Nat → List Nat → Prop
  | [], [], [], [], [] => True
  | v :: vs, n :: ns, h :: hs, o :: os, o' :: os' => ((o' : Int) * h.s) % n = (o * h.s + v) % n ∧ Moved vs ns hs os os'
  | _, _, _, _, _ => False

/-- Entry `o'` of the output of a transposed convolution is entry `o` moved by `v` times the stride, on the torus. -/
def MovedT : List Int → List Nat → List HDim → List Nat → List Nat → Prop
  | [], [], [], [], [] => True
  | v :: vs, n :: ns, h :: hs, o :: os, o' :: os' => (o' : Int) % (n * h.s) = (o + v * h.s) % (n * h.s) ∧ MovedT vs ns hs os os'
  | _, _, _, _, _ => False

/-- Sum of indices. -/
def plus : List Nat → List Nat → List Nat
  | a :: as, b :: bs => (a + b) :: plus as bs
  | _, _ => []

/-- A patch of the given sizes that starts at `a`. -/
def patch (a ms : List Nat) (x : NArr R) : NArr R := ⟨x.shape.headD 0 :: ms, fun i => match i with
  | [] => x.at_ []
  | ch :: is => x.at_ (ch :: plus a is)⟩

/-- A patch of sizes `ms` that begins with window `w` lies inside of sizes `ns`. -/
def Fits : List HDim → List Nat → List Nat → List Nat → Prop
  | [], [], [], [] => True
  | h :: hs, w :: ws, m :: ms, n :: ns => w * h.s.toNat + m ≤ n ∧ Fits hs ws ms ns
  | _, _, _, _ => False

/-- Where window `w` begins. -/
def starts : List HDim → List Nat → List Nat
  | h :: hs, w :: ws => w * h.s.toNat :: starts hs ws
  | _, _ => []

/-! ## Shapes -/

theorem convGeneral_same [CommSemiring R] {x x' w : NArr R} {inC outC groups : Nat} {dims : List CDim} (hx : x'.shape = x.shape) {y : NArr R}
    (h : convGeneral x w inC outC groups dims = .ok y) : ∃ y', convGeneral x' w inC outC groups dims = .ok y' ∧ y'.shape = y.shape := by
  simp only [convGeneral, hx] at h ⊢
  split at h
  · simp at h
  split at h
  · simp at h
  split at h
  · simp at h
  injection h with h
  subst h
  rename_i h1 h2 h3
  rw [if_neg h1, if_neg h2, if_neg h3]
  exact ⟨_, rfl, rfl⟩

theorem padArr_same {m : Mode} {x x' : NArr R} {ps : List (Int × Int)} (hx : x'.shape = x.shape) {y : NArr R} (h : padArr m x ps = .ok y) :
    ∃ y', padArr m x' ps = .ok y' ∧ y'.shape = y.shape := by
  simp only [padArr, hx] at h ⊢
  split at h
  · simp at h
  rename_i hs
  split at h
  · simp at h
  split at h
  · simp at h
  injection h with h
  subst h
  rename_i h1 h2
  rw [if_neg h1, if_neg h2]
  exact ⟨_, rfl, rfl⟩

theorem call_same [CommSemiring R] {c : Conv R} {x x' y : NArr R} (hx : x'.shape = x.shape) (h : c.call x = .ok y) :
    ∃ y', c.call x' = .ok y' ∧ y'.shape = y.shape := by
  simp only [Conv.call, hx] at h ⊢
  split at h
  · simp at h
  rename_i h1
  rw [if_neg h1]
  by_cases hm : c.mode = .zeros
  · rw [if_pos hm] at h ⊢
    simp only [bind, Except.bind] at h ⊢
    split at h
    · simp at h
    rename_i z hc
    injection h with h
    subst h
    obtain ⟨z', e1, e2⟩ := convGeneral_same hx hc
    rw [e1]
    exact ⟨_, rfl, by rw [addBias_shape, addBias_shape, e2]⟩
  · rw [if_neg hm] at h ⊢
    simp only [bind, Except.bind] at h ⊢
    split at h
    · simp at h
    rename_i q hp
    split at h
    · simp at h
    rename_i z hc
    injection h with h
    subst h
    obtain ⟨q', e3, e4⟩ := padArr_same hx hp
    obtain ⟨z', e1, e2⟩ := convGeneral_same e4 hc
    simp only [e3, e4, e1]
    exact ⟨_, rfl, by rw [addBias_shape, addBias_shape, e2]⟩

theorem callT_same [CommSemiring R] {c : Conv R} {x x' y : NArr R} (hx : x'.shape = x.shape) (h : c.callT x = .ok y) :
    ∃ y', c.callT x' = .ok y' ∧ y'.shape = y.shape := by
  simp only [Conv.callT, hx] at h ⊢
  split at h
  · simp at h
  rename_i h1
  rw [if_neg h1]
  by_cases hm : c.mode = .circular
  · rw [if_pos hm] at h ⊢
    simp only [bind, Except.bind] at h ⊢
    split at h
    · simp at h
    rename_i q hp
    split at h
    · simp at h
    rename_i z hc
    injection h with h
    subst h
    obtain ⟨q', e3, e4⟩ := padArr_same hx hp
    obtain ⟨z', e1, e2⟩ := convGeneral_same e4 hc
    simp only [e3, e4, e1]
    exact ⟨_, rfl, by rw [addBias_shape, addBias_shape, e2]⟩
  · rw [if_neg hm] at h ⊢
    simp only [bind, Except.bind] at h ⊢
    split at h
    · simp at h
    rename_i z hc
    injection h with h
    subst h
    obtain ⟨z', e1, e2⟩ := convGeneral_same hx hc
    rw [e1]
    exact ⟨_, rfl, by rw [addBias_shape, addBias_shape, e2]⟩

/-! ## Sources -/

theorem emod_add_congr {a b n : Int} (c : Int) (h : a % n = b % n) : (a + c) % n = (b + c) % n := by
  rw [Int.add_emod, h, ← Int.add_emod]

theorem extend_moved {n : Nat} {z z' v : Int} (h : z' % n = (z + v) % n) :
    extend .circular n z' = (extend .circular n z).map fun (i : Nat) => (((i : Int) + v) % n).toNat := by
  simp only [extend]
  split
  · rfl
  · rename_i hn
    have := Int.emod_nonneg z (show (n : Int) ≠ 0 by omega)
    rw [Option.map_some, Int.toNat_of_nonneg this, Int.emod_add_emod, h]

theorem source_moved (pad : Pad) (j : Nat) (vs : List Int) (ns : List Nat) (hs : List HDim) (o o' kk : List Nat) (hm : Moved vs ns hs o o') :
    source .circular pad j ns hs o' kk = (source .circular pad j ns hs o kk).map (rolled vs ns) := by
  induction ns generalizing j vs hs o o' kk with
  | nil =>
    cases vs <;> cases hs <;> cases o <;> cases o' <;> simp only [Moved] at hm
    cases kk <;> rfl
  | cons n ns ih =>
    cases vs <;> cases hs <;> cases o <;> cases o' <;> simp only [Moved] at hm
    rename_i v vs h hs o os o' os'
    cases kk with
    | nil => rfl
    | cons k ks =>
      have e : extend .circular n ((o' : Int) * h.s + k * h.d - before pad n h j) =
          (extend .circular n ((o : Int) * h.s + k * h.d - before pad n h j)).map fun (i : Nat) => (((i : Int) + v) % n).toNat := by
        refine extend_moved ?_
        have := emod_add_congr (k * h.d - before pad n h j) hm.1
        rw [← Int.add_sub_assoc] at this
        rw [this]
        congr 1
        omega
      simp only [source, e, ih (j + 1) vs hs os os' ks hm.2]
      cases extend .circular n ((o : Int) * h.s + k * h.d - before pad n h j) <;> cases source .circular pad (j + 1) ns hs os ks <;> rfl

theorem spread_moved {n : Nat} {s z z' v : Int} (hs : 0 < s) (h : z' % (n * s) = (z + v * s) % (n * s)) :
    spread .circular n s z' = (spread .circular n s z).map fun (i : Nat) => (((i : Int) + v) % n).toNat := by
  have hd : s ∣ z' ↔ s ∣ z := by
    have h1 : z' % s = z % s := by
      have e1 : z' % (n * s) % s = z' % s := Int.emod_emod_of_dvd _ (Int.dvd_mul_left _ _)
      have e2 : (z + v * s) % (n * s) % s = (z + v * s) % s := Int.emod_emod_of_dvd _ (Int.dvd_mul_left _ _)
      rw [← e1, h, e2, Int.add_mul_emod_self_right]
    rw [Int.dvd_iff_emod_eq_zero, Int.dvd_iff_emod_eq_zero, h1]
  simp only [spread, hd]
  split
  · rename_i hz
    obtain ⟨a, rfl⟩ := hz
    obtain ⟨b, rfl⟩ := hd.2 (Int.dvd_mul_right _ _)
    rw [Int.mul_ediv_cancel_left _ (by omega), Int.mul_ediv_cancel_left _ (by omega)]
    refine extend_moved ?_
    rw [show s * a + v * s = s * (a + v) by rw [Int.mul_add, Int.mul_comm v], Int.mul_comm (n : Int), Int.mul_emod_mul_of_pos _ _ hs,
      Int.mul_emod_mul_of_pos _ _ hs] at h
    exact Int.eq_of_mul_eq_mul_left (by omega) h
  · rfl

theorem sourceT_moved (pad : Pad) (j : Nat) (vs : List Int) (ns : List Nat) (hs : List HDim) (o o' kk : List Nat) (hm : MovedT vs ns hs o o')
    (hp : ∀ h ∈ hs, 0 < h.s) :
    sourceT .circular pad j ns hs o' kk = (sourceT .circular pad j ns hs o kk).map (rolled vs ns) := by
  induction ns generalizing j vs hs o o' kk with
  | nil =>
    cases vs <;> cases hs <;> cases o <;> cases o' <;> simp only [MovedT] at hm
    cases kk <;> rfl
  | cons n ns ih =>
    cases vs <;> cases hs <;> cases o <;> cases o' <;> simp only [MovedT] at hm
    rename_i v vs h hs o os o' os'
    cases kk with
    | nil => rfl
    | cons k ks =>
      have e : spread .circular n h.s ((o' : Int) + k * h.d - beforeT pad h j) =
          (spread .circular n h.s ((o : Int) + k * h.d - beforeT pad h j)).map fun (i : Nat) => (((i : Int) + v) % n).toNat := by
        refine spread_moved (hp h (by simp)) ?_
        have := emod_add_congr (k * h.d - beforeT pad h j) hm.1
        rw [← Int.add_sub_assoc] at this
        rw [this]
        congr 1
        omega
      simp only [sourceT, e, ih (j + 1) vs hs os os' ks hm.2 fun h hh => hp h (by simp [hh])]
      cases spread .circular n h.s ((o : Int) + k * h.d - beforeT pad h j) <;> cases sourceT .circular pad (j + 1) ns hs os ks <;> rfl

theorem total_roll [CommSemiring R] (c : Conv R) (x : NArr R) (v : List Int) {src src' : List Nat → Option (List Nat)} (co : Nat)
    (h : ∀ kk, src' kk = (src kk).map (rolled v x.shape.tail)) : total c (roll v x) src co = total c x src' co := by
  simp only [total]
  congr 1
  refine Finset.sum_congr rfl fun ci _ => boxSum_congr fun kk _ => ?_
  rw [h kk]
  cases src kk <;> rfl

/-! ## Circular padding -/

/-- **C125**: a convolution with circular padding of a rolled input, for any stride, dilation, padding, groups and number of dimensions: the result has the same
shape, and every entry is that of the original result whose window is the moved one, where there is one. -/
theorem circular_moved [CommSemiring R] (c : Conv R) (hm : c.mode = .circular) (x y : NArr R) (h : c.call x = .ok y) (v : List Int) :
    ∃ y', c.call (roll v x) = .ok y' ∧ y'.shape = y.shape ∧ ∀ co o o', InB (co :: o) y.shape → InB (co :: o') y.shape →
      Moved v x.shape.tail c.dims o o' → y'.at_ (co :: o) = y.at_ (co :: o') := by
  obtain ⟨y', e1, e2⟩ := call_same (x := x) (x' := roll v x) rfl h
  refine ⟨y', e1, e2, fun co o o' ho ho' hmv => ?_⟩
  rw [conv_value c _ _ e1 co o (by rw [e2]; exact ho), conv_value c _ _ h co o' ho', hm]
  exact total_roll c x v co fun kk => source_moved c.padding 0 v x.shape.tail c.dims o o' kk hmv

theorem shape_same [CommSemiring R] (c : Conv R) (x y : NArr R) (h : c.call x = .ok y) (hp : c.padding = .same ∨ c.padding = .sameLower)
    (h1 : ∀ h ∈ c.dims, h.s = 1) : y.shape = c.outChannels :: x.shape.tail := by
  obtain ⟨ns, hx, hl, hl', h0, hj⟩ := conv_shape_same c x y h hp
  rw [hx, List.tail_cons]
  refine List.ext_getElem? fun j => ?_
  cases j with
  | zero => simpa using h0
  | succ j =>
    by_cases hlt : j < ns.length
    · have a1 := List.getElem?_eq_getElem hlt
      have a2 := List.getElem?_eq_getElem (l := c.dims) (i := j) (by omega)
      obtain ⟨m, e, e'⟩ := hj j _ _ a1 a2
      rw [h1 _ (List.mem_of_getElem? a2)] at e'
      simp only [ceilDiv, Int.ediv_one, Int.neg_neg] at e'
      rw [e, List.getElem?_cons_succ, a1]
      congr 1
      exact_mod_cast e'
    · rw [List.getElem?_cons_succ, List.getElem?_eq_none (l := ns) (by omega), List.getElem?_eq_none (l := y.shape) (by rw [hl', hx]; simp; omega)]

theorem rolled_inB (v : List Int) (ns i : List Nat) (hl : v.length = ns.length) (hi : InB i ns) : InB (rolled v ns i) ns := by
  induction ns generalizing v i with
  | nil => cases v <;> cases i <;> simp_all [rolled, InB]
  | cons n ns ih =>
    cases v with
    | nil => simp at hl
    | cons v vs =>
      cases i with
      | nil => exact hi.elim
      | cons i is =>
        refine ⟨?_, ih vs is (by simpa using hl) hi.2⟩
        have hn : 0 < n := by have := hi.1; omega
        have a1 := Int.emod_nonneg ((i : Int) + v) (show (n : Int) ≠ 0 by omega)
        have a2 := Int.emod_lt_of_pos ((i : Int) + v) (show (0 : Int) < n by omega)
        omega

theorem rolled_moved (v : List Int) (ns : List Nat) (hs : List HDim) (i : List Nat) (hl : v.length = ns.length) (hl' : hs.length = ns.length)
    (h1 : ∀ h ∈ hs, h.s = 1) (hi : InB i ns) : Moved v ns hs i (rolled v ns i) := by
  induction ns generalizing v i hs with
  | nil => cases v <;> cases i <;> cases hs <;> simp_all [rolled, InB, Moved]
  | cons n ns ih =>
    cases v with
    | nil => simp at hl
    | cons v vs =>
      cases hs with
      | nil => simp at hl'
      | cons h hs =>
        cases i with
        | nil => exact hi.elim
        | cons i is =>
          refine ⟨?_, ih vs hs is (by simpa using hl) (by simpa using hl') (fun h hh => h1 h (by simp [hh])) hi.2⟩
          have hn : 0 < n := by have := hi.1; omega
          have a1 := Int.emod_nonneg ((i : Int) + v) (show (n : Int) ≠ 0 by omega)
          rw [h1 h (by simp), Int.mul_one, Int.mul_one, Int.toNat_of_nonneg a1, Int.emod_emod]

/-- **C125**: with stride one, circular padding and `"SAME"` or `"SAME_LOWER"`, convolution commutes with rolling. -/
theorem circular_equivariant [CommSemiring R] (c : Conv R) (hm : c.mode = .circular) (hp : c.padding = .same ∨ c.padding = .sameLower)
    (h1 : ∀ h ∈ c.dims, h.s = 1) (x y : NArr R) (h : c.call x = .ok y) (v : List Int) (hv : v.length = c.dims.length) :
    ∃ y', c.call (roll v x) = .ok y' ∧ y'.Eq (roll v y) := by
  obtain ⟨y', e1, e2, e3⟩ := circular_moved c hm x y h v
  have hs := shape_same c x y h hp h1
  obtain ⟨ns, hx, hl, -⟩ := conv_shape c x y h
  have ht : x.shape.tail.length = c.dims.length := by rw [hx, List.tail_cons, hl]
  refine ⟨y', e1, e2, fun i hi => ?_⟩
  rw [e2, hs] at hi
  cases i with
  | nil => exact hi.elim
  | cons co o =>
    have hr := rolled_inB v x.shape.tail o (by omega) hi.2
    rw [e3 co o (rolled v x.shape.tail o) (by rw [hs]; exact hi) (by rw [hs]; exact ⟨hi.1, hr⟩)
      (rolled_moved v x.shape.tail c.dims o (by omega) (by omega) h1 hi.2)]
    show _ = y.at_ (co :: rolled v y.shape.tail o)
    rw [hs, List.tail_cons]

theorem callT_good [CommSemiring R] (c : Conv R) (hm : c.mode = .circular) (x y : NArr R) (h : c.callT x = .ok y) : ∀ h ∈ c.dims, 0 < h.s := by
  simp only [Conv.callT] at h
  split at h
  · simp at h
  rename_i hr
  simp only [bind, Except.bind] at h
  split at h
  · simp at h
  rename_i q hp
  split at h
  · simp at h
  rename_i z hc
  obtain ⟨hg, -⟩ := convGeneral_ok _ _ _ _ _ _ _ hc
  obtain ⟨ch, ns, hx, -, -, hs, -⟩ := padArr_ok _ _ _ _ hp
  have hl : ns.length = c.dims.length := by rw [hx] at hr; simp at hr; omega
  have hpl : (allPadsT c.padding 0 c.dims).length = c.dims.length := allPadsT_length c.padding 0 c.dims
  rw [hs, List.tail_cons] at hg
  have hzl : (padShape ns (List.zipWith (fun p h => (p.1 / h.s, p.2 / h.s)) (allPadsT c.padding 0 c.dims) c.dims)).length = c.dims.length := by
    rw [padShape_length _ _ (by simp; omega)]
    exact hl
  have key : ∀ (ns : List Nat) (hs : List HDim) (ps : List (Int × Int)), ns.length = hs.length → ps.length = hs.length →
      (∀ d ∈ convDimsT ns hs ps, 0 < d.s ∧ 0 < d.d ∧ 0 < d.ld ∧ 0 < d.k) → ∀ h ∈ hs, 0 < h.s := by
    intro ns hs
    induction hs generalizing ns with
    | nil => intro ps _ _ _ h hh; simp at hh
    | cons h hs ih =>
      intro ps e1 e2 hd
      cases ns with
      | nil => simp at e1
      | cons n ns =>
        cases ps with
        | nil => simp at e2
        | cons p ps =>
          intro k hk
          rcases List.mem_cons.1 hk with rfl | hk
          · exact (hd _ (by simp only [convDimsT]; exact List.mem_cons_self)).2.2.1
          · exact ih ns ps (by simpa using e1) (by simpa using e2)
              (fun d hd' => hd d (by simp only [convDimsT]; exact List.mem_cons_of_mem _ hd')) k hk
  exact key _ _ _ hzl (by simp; omega) hg

/-- **C125**: rolling the input of a transposed convolution with circular padding by `v` rolls the output by `v` times the stride. -/
theorem circular_transposed [CommSemiring R] (c : Conv R) (hm : c.mode = .circular) (x y : NArr R) (h : c.callT x = .ok y) (v : List Int) :
    ∃ y', c.callT (roll v x) = .ok y' ∧ y'.shape = y.shape ∧ ∀ co o o', InB (co :: o) y.shape → InB (co :: o') y.shape →
      MovedT v x.shape.tail c.dims o o' → y'.at_ (co :: o) = y.at_ (co :: o') := by
  obtain ⟨y', e1, e2⟩ := callT_same (x := x) (x' := roll v x) rfl h
  refine ⟨y', e1, e2, fun co o o' ho ho' hmv => ?_⟩
  rw [convT_value c _ _ (.inr hm) e1 co o (by rw [e2]; exact ho), convT_value c _ _ (.inr hm) h co o' ho', hm]
  exact total_roll c x v co fun kk => sourceT_moved c.padding 0 v x.shape.tail c.dims o o' kk hmv (callT_good c hm x y h)

/-! ## Patches -/

/-- The window of entry `o` lies inside, in every dimension. -/
def Inside : List HDim → List Nat → List Nat → Prop
  | [], [], [] => True
  | h :: hs, n :: ns, o :: os => (o : Int) * h.s + h.d * (h.k - 1) < n ∧ Inside hs ns os
  | _, _, _ => False

/-- The elements that a window consists of. -/
def spots : List HDim → List Nat → List Nat → List Nat
  | h :: hs, o :: os, k :: ks => ((o : Int) * h.s + k * h.d).toNat :: spots hs os ks
  | _, _, _ => []

theorem size_iff {n m o : Nat} {h : HDim} (g : h.Good) (e : (m : Int) = convSize n h (0, 0)) : o < m ↔ (o : Int) * h.s + h.d * (h.k - 1) < n := by
  simp only [convSize] at e
  have h1 : o < m ↔ (o : Int) ≤ ((n : Int) + 0 + 0 - (h.d * (h.k - 1) + 1)) / h.s := by omega
  rw [h1, Int.le_ediv_iff_mul_le g.s]
  omega

theorem inside_iff {hs : List HDim} {ns ms o : List Nat} (hl : ns.length = hs.length) (hl' : ms.length = hs.length) (hg : ∀ h ∈ hs, h.Good)
    (he : ∀ (j n : Nat) (h : HDim), ns[j]? = some n → hs[j]? = some h → ∃ m : Nat, ms[j]? = some m ∧ (m : Int) = convSize n h (0, 0)) :
    InB o ms ↔ Inside hs ns o := by
  induction hs generalizing ns ms o with
  | nil => cases ns <;> cases ms <;> cases o <;> simp_all [InB, Inside]
  | cons h hs ih =>
    cases ns with
    | nil => simp at hl
    | cons n ns =>
      cases ms with
      | nil => simp at hl'
      | cons m ms =>
        cases o with
        | nil => simp [InB, Inside]
        | cons o os =>
          obtain ⟨m', e1, e2⟩ := he 0 n h rfl rfl
          obtain rfl : m = m' := by simpa using e1
          simp only [InB, Inside]
          rw [size_iff (hg h (by simp)) e2, ih (ns := ns) (ms := ms) (by simpa using hl) (by simpa using hl') (fun k hk => hg k (by simp [hk]))
            fun j n' k hn hk => he (j + 1) n' k hn hk]

theorem extend_inside (m : Mode) {n : Nat} {z : Int} (h0 : 0 ≤ z) (h1 : z < n) : extend m n z = some z.toNat := by
  cases m with
  | zeros => simp [extend, h0, h1]
  | circular => simp [extend, show n ≠ 0 by omega, Int.emod_eq_of_lt h0 h1]
  | replicate => simp [extend, show ¬ z < 0 by omega, h1]
  | reflect =>
    simp only [extend]
    split
    · congr 1; omega
    · congr 1
      rcases lt_or_eq_of_le (show z ≤ n - 1 by omega) with hz | hz
      · rw [Int.emod_eq_of_lt (by omega) (by omega)]
        omega
      · rw [hz, show ((n : Int) - 1 + (n - 1)) = 2 * (n - 1) by omega, Int.emod_self]
        omega

theorem source_inside (m : Mode) (j : Nat) {hs : List HDim} {ns o kk : List Nat} (hg : ∀ h ∈ hs, h.Good) (hi : Inside hs ns o)
    (hk : InB kk (hs.map fun h => h.k.toNat)) : source m .valid j ns hs o kk = some (spots hs o kk) := by
  induction hs generalizing j ns o kk with
  | nil =>
    cases ns <;> cases o <;> simp only [Inside] at hi
    cases kk <;> simp_all [InB, source, spots]
  | cons h hs ih =>
    cases ns <;> cases o <;> simp only [Inside] at hi
    rename_i n ns o os
    cases kk with
    | nil => exact hk.elim
    | cons k ks =>
      have g := hg h (by simp)
      have gs := g.s
      have gd := g.d
      have gk := g.k
      have hk1 : k < h.k.toNat := hk.1
      have a1 : (k : Int) * h.d ≤ h.d * (h.k - 1) := by
        rw [Int.mul_comm]
        exact Int.mul_le_mul_of_nonneg_left (by omega) (by omega)
      have a2 : 0 ≤ (k : Int) * h.d := Int.mul_nonneg (by omega) (by omega)
      have a3 : 0 ≤ (o : Int) * h.s := Int.mul_nonneg (by omega) (by omega)
      have hz := hi.1
      simp only [source, before, Int.sub_zero, ih (j + 1) (fun k hk => hg k (by simp [hk])) hi.2 hk.2]
      rw [extend_inside m (by omega) (by omega)]
      rfl

theorem plus_spots {hs : List HDim} {w ns ms o kk : List Nat} (hg : ∀ h ∈ hs, h.Good) (hf : Fits hs w ms ns) (hi : Inside hs ms o)
    (hk : InB kk (hs.map fun h => h.k.toNat)) :
    plus (starts hs w) (spots hs o kk) = spots hs (plus w o) kk ∧ Inside hs ns (plus w o) := by
  induction hs generalizing w ns ms o kk with
  | nil =>
    cases w <;> cases ms <;> cases ns <;> simp only [Fits] at hf
    cases o <;> simp only [Inside] at hi
    cases kk <;> simp_all [plus, starts, spots, Inside]
  | cons h hs ih =>
    cases w <;> cases ms <;> cases ns <;> simp only [Fits] at hf
    rename_i w ws m ms n ns
    cases o <;> simp only [Inside] at hi
    rename_i o os
    cases kk with
    | nil => exact hk.elim
    | cons k ks =>
      obtain ⟨e1, e2⟩ := ih (fun k hk => hg k (by simp [hk])) hf.2 hi.2 hk.2
      have g := hg h (by simp)
      have gs := g.s
      have gd := g.d
      have a2 : 0 ≤ (k : Int) * h.d := Int.mul_nonneg (by omega) (by omega)
      have a3 : 0 ≤ (o : Int) * h.s := Int.mul_nonneg (by omega) (by omega)
      have a4 : ((w * h.s.toNat : Nat) : Int) = w * h.s := by rw [Int.natCast_mul, Int.toNat_of_nonneg (by omega)]
      have a5 : (((w + o : Nat) : Int)) * h.s = w * h.s + o * h.s := by rw [Int.natCast_add, Int.add_mul]
      have hz := hi.1
      have hw := hf.1
      refine ⟨?_, ?_, e2⟩
      · simp only [starts, spots, plus, e1]
        congr 1
        rw [a5]
        omega
      · rw [a5]
        omega

/-- **C125**: with `"VALID"` padding, whatever the padding mode, a patch of the input that begins where a window does gives the patch of the output that begins
with this window: images can be processed in pieces. -/
theorem valid_patch [CommSemiring R] (c : Conv R) (hp : c.padding = .valid) (x y : NArr R) (h : c.call x = .ok y) (w ms : List Nat)
    (hf : Fits c.dims w ms x.shape.tail) :
    ∃ y', c.call (patch (starts c.dims w) ms x) = .ok y' ∧ ∀ co o, InB (co :: o) y'.shape →
      InB (co :: plus w o) y.shape ∧ y'.at_ (co :: o) = y.at_ (co :: plus w o) := by
  obtain ⟨ns, hx, hl, hg, h1, h2, h3, h4⟩ := (conv_ok_iff c x).1 ⟨y, h⟩
  have hml : ms.length = c.dims.length := by
    have : ∀ (hs : List HDim) (w ms ns : List Nat), Fits hs w ms ns → ms.length = hs.length := by
      intro hs
      induction hs with
      | nil =>
        intro w ms ns hf
        cases w <;> cases ms <;> cases ns <;> simp_all [Fits]
      | cons h hs ih =>
        intro w ms ns hf
        cases w <;> cases ms <;> cases ns <;> simp only [Fits] at hf
        simp [ih _ _ _ hf.2]
    exact this _ _ _ _ hf
  have hps : (patch (starts c.dims w) ms x).shape = c.inChannels :: ms := by simp [patch, hx]
  obtain ⟨y', e⟩ := (conv_ok_iff c (patch (starts c.dims w) ms x)).2 ⟨ms, hps, hml, hg, h1, h2, h3, fun _ j n k _ _ => by
    rw [hp]
    exact ⟨le_refl _, le_refl _, fun _ => rfl⟩⟩
  refine ⟨y', e, fun co o ho => ?_⟩
  have sizes : ∀ (x y : NArr R) (ns : List Nat), x.shape = c.inChannels :: ns → c.call x = .ok y → ∃ os, y.shape = c.outChannels :: os ∧
      ∀ o, InB o os ↔ Inside c.dims ns o := by
    intro x y ns hx h
    obtain ⟨ns', b1, b2, b3, b4, b5⟩ := conv_shape c x y h
    obtain rfl : ns = ns' := by rw [hx] at b1; injection b1
    cases hy : y.shape with
    | nil => rw [hy] at b4; simp at b4
    | cons a os =>
      rw [hy] at b3 b4 b5
      obtain rfl : a = c.outChannels := by simpa using b4
      refine ⟨os, rfl, fun o => inside_iff b2 (by rw [hx] at b3; simp at b3; omega) hg fun j n k hn hk => ?_⟩
      obtain ⟨_, m, c1, c2⟩ := b5 j n k hn hk
      refine ⟨m, by simpa using c1, ?_⟩
      rw [c2, hp]
      rfl
  obtain ⟨os, s1, s2⟩ := sizes x y ns hx h
  obtain ⟨os', s1', s2'⟩ := sizes _ y' ms hps e
  have ho' := ho
  rw [s1'] at ho'
  have hin := (s2' o).1 ho'.2
  rw [hx, List.tail_cons] at hf
  have hin' : Inside c.dims ns (plus w o) := by
    have : ∀ (hs : List HDim), (∀ h ∈ hs, h.Good) → InB (hs.map fun _ => 0) (hs.map fun h => h.k.toNat) := by
      intro hs
      induction hs with
      | nil => intro _; trivial
      | cons h hs ih =>
        intro hg
        have := (hg h (by simp)).k
        exact ⟨show 0 < h.k.toNat by omega, ih fun k hk => hg k (by simp [hk])⟩
    exact (plus_spots hg hf hin (this c.dims hg)).2
  have hb : InB (co :: plus w o) y.shape := by
    rw [s1]
    exact ⟨ho'.1, (s2 _).2 hin'⟩
  refine ⟨hb, ?_⟩
  rw [conv_value c _ _ e co o ho, conv_value c _ _ h co _ hb, hps, hx, List.tail_cons, List.tail_cons, hp]
  simp only [total]
  congr 1
  refine Finset.sum_congr rfl fun ci _ => boxSum_congr fun kk hkk => ?_
  rw [source_inside c.mode 0 hg hin hkk, source_inside c.mode 0 hg hin' hkk, ← (plus_spots hg hf hin hkk).1]
  rfl

/-! ## Cases -/

def exCircular : Except Err (Conv Int) :=
  Conv.mk' 1 1 1 (.int 3) (.int 1) (.str .same) (.int 1) 1 (some .circular)
    ⟨[1, 1, 3], fun i => match i with
      | [_, _, a] => [1, 10, 100].getD a 0
      | _ => 0⟩ none

def exLine : NArr Int := ⟨[1, 4], fun i => match i with
  | [_, i] => (i : Int) + 1
  | _ => 0⟩

example : ∃ c, exCircular = .ok c ∧ c.mode = .circular ∧ c.padding = .same ∧ (∀ h ∈ c.dims, h.s = 1) ∧
    (∃ y, c.call exLine = .ok y ∧ (List.range 4).map (fun i => y.at_ [0, i]) = [214, 321, 432, 143]) ∧
    ∃ y, c.call (roll [1] exLine) = .ok y ∧ (List.range 4).map (fun i => y.at_ [0, i]) = [321, 432, 143, 214] :=
  ⟨_, rfl, rfl, rfl, by decide, ⟨_, rfl, by decide⟩, ⟨_, rfl, by decide⟩⟩

/-- With stride two, rolling by an odd number gives entries that are not in the original output, and rolling by two moves the output by one. -/
example : Moved [2] [4] [⟨3, 2, 1, 0⟩] [1] [0] := by simp [Moved]

example : MovedT [1] [2] [⟨3, 2, 1, 0⟩] [3] [1] := by simp [MovedT]

/-- A patch of a line of four that begins with the second window, of stride one. -/
example : Fits [⟨3, 1, 1, 0⟩] [1] [3] [4] := by simp [Fits]

end Verif.NN.Shift
