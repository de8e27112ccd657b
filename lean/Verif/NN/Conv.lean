import Verif.NN.ConvShape
import Mathlib.Algebra.BigOperators.Intervals
/-!
# C57: the transposed convolution is the linear transpose of the convolution

`flipIdx` reverses the spatial axes of a kernel index. `conv_adjoint` is the statement; everything
before it is about the index arithmetic.
-/

namespace Verif.NN

/-! ## Specification -/

/-- The index of the flipped kernel (`weight[:, :, ::-1, …]`) at which the element `kk` of the kernel
is found. -/
def flipIdx : List Nat → List Nat → List Nat
  | K :: Ks, k :: ks => (K - 1 - k) :: flipIdx Ks ks
  | _, _ => []

/-- The sizes of the kernel. -/
def kernelShape (dims : List HDim) : List Nat := dims.map fun h => h.k.toNat

/-- The inner product of two arrays of the same shape. -/
def inner {R : Type} [CommSemiring R] (x y : NArr R) : R := boxSum x.shape fun i => x.at_ i * y.at_ i

/-- `ct` is the transposed convolution belonging to `c`: no groups, no bias, channels swapped, same
hyperparameters (and any output padding `0 ≤ a < s`), and the kernel with its channel axes swapped and
its spatial axes flipped. -/
structure Transposes {R : Type} (c ct : Conv R) : Prop where
  dims : c.dims = ct.dims.map fun h => { h with a := 0 }
  outputPadding : ∀ h ∈ ct.dims, 0 ≤ h.a ∧ h.a < h.s
  padding : c.padding = ct.padding
  mode : c.mode = ct.mode
  /-- what the constructor of `ConvTranspose` ensures, see `mkTranspose_mode` -/
  circular : (ct.mode = .zeros) ∨ (ct.mode = .circular ∧
    (ct.padding = .same ∨ ct.padding = .sameLower) ∧ ∀ h ∈ ct.dims, h.a = 0)
  inChannels : ct.inChannels = c.outChannels
  outChannels : ct.outChannels = c.inChannels
  groups : c.groups = 1
  groups' : ct.groups = 1
  bias : c.bias = none
  bias' : ct.bias = none
  weight : ∀ co ci kk, co < c.outChannels → ci < c.inChannels → InB kk (kernelShape ct.dims) →
    ct.weight.at_ (ci :: co :: flipIdx (kernelShape ct.dims) kk) = c.weight.at_ (co :: ci :: kk)

/-! ## Gathering with arbitrary readers -/

/-- Value of a partial function, zero where it is undefined. -/
def optE {M A : Type} [Zero M] (x : Option A) (f : A → M) : M :=
  match x with
  | some a => f a
  | none => 0

/-- `gather` for arbitrary readers. -/
def gatherF : List (Nat → Nat → Option Nat) → List Nat → List Nat → Option (List Nat)
  | [], [], [] => some []
  | f :: fs, o :: os, k :: ks => match f o k, gatherF fs os ks with
    | some i, some is => some (i :: is)
    | _, _ => none
  | _, _, _ => none

/-- The reader `f` of the convolution and `g` of the transposed convolution describe the same relation
between input and output positions. -/
structure Ok1 (f g : Nat → Nat → Option Nat) (O N K : Nat) : Prop where
  rel : ∀ o k i, o < O → k < K → i < N → (f o k = some i ↔ g i (K - 1 - k) = some o)
  inN : ∀ o k i, o < O → k < K → f o k = some i → i < N
  inO : ∀ i k o, i < N → k < K → g i k = some o → o < O

/-- `Ok1` in all dimensions. -/
def Rels : List (Nat → Nat → Option Nat) → List (Nat → Nat → Option Nat) → List Nat → List Nat →
    List Nat → Prop
  | [], [], [], [], [] => True
  | f :: fs, g :: gs, O :: Os, N :: Ns, K :: Ks => Ok1 f g O N K ∧ Rels fs gs Os Ns Ks
  | _, _, _, _, _ => False

variable {M : Type} [AddCommMonoid M]

theorem optE_eq_sum (x : Option Nat) (N : Nat) (h : ∀ i, x = some i → i < N) (F : Nat → M) :
    optE x F = ∑ i ∈ Finset.range N, if x = some i then F i else 0 := by
  cases x with
  | none => simp [optE]
  | some a =>
    have ha := h a rfl
    rw [Finset.sum_eq_single a]
    · simp [optE]
    · intro b _ hb; simp [Ne.symm hb]
    · intro hn; exact absurd (Finset.mem_range.mpr ha) hn

theorem one_dim (f g : Nat → Nat → Option Nat) (O N K : Nat) (ok : Ok1 f g O N K)
    (F : Nat → Nat → Nat → M) :
    ∑ o ∈ Finset.range O, ∑ k ∈ Finset.range K, optE (f o k) (fun i => F k i o) =
      ∑ i ∈ Finset.range N, ∑ k ∈ Finset.range K, optE (g i k) (fun o => F (K - 1 - k) i o) := by
  have l : ∑ o ∈ Finset.range O, ∑ k ∈ Finset.range K, optE (f o k) (fun i => F k i o) =
      ∑ o ∈ Finset.range O, ∑ k ∈ Finset.range K, ∑ i ∈ Finset.range N,
        if f o k = some i then F k i o else 0 :=
    Finset.sum_congr rfl fun o ho => Finset.sum_congr rfl fun k hk =>
      optE_eq_sum _ _ (fun i hi => ok.inN o k i (Finset.mem_range.mp ho) (Finset.mem_range.mp hk) hi) _
  have r : ∑ i ∈ Finset.range N, ∑ k ∈ Finset.range K, optE (g i k) (fun o => F (K - 1 - k) i o) =
      ∑ i ∈ Finset.range N, ∑ k ∈ Finset.range K, ∑ o ∈ Finset.range O,
        if g i k = some o then F (K - 1 - k) i o else 0 :=
    Finset.sum_congr rfl fun i hi => Finset.sum_congr rfl fun k hk =>
      optE_eq_sum _ _ (fun o ho => ok.inO i k o (Finset.mem_range.mp hi) (Finset.mem_range.mp hk) ho) _
  rw [l, r]
  have refl : ∀ i, ∑ k ∈ Finset.range K, ∑ o ∈ Finset.range O,
        (if g i k = some o then F (K - 1 - k) i o else 0) =
      ∑ k ∈ Finset.range K, ∑ o ∈ Finset.range O,
        (if g i (K - 1 - k) = some o then F k i o else 0) := by
    intro i
    rw [← Finset.sum_range_reflect]
    refine Finset.sum_congr rfl fun k hk => Finset.sum_congr rfl fun o _ => ?_
    have := Finset.mem_range.mp hk
    rw [show K - 1 - (K - 1 - k) = k by omega]
  simp only [refl]
  rw [Finset.sum_comm]
  have s1 : ∀ k, ∑ o ∈ Finset.range O, ∑ i ∈ Finset.range N, (if f o k = some i then F k i o else 0) =
      ∑ i ∈ Finset.range N, ∑ o ∈ Finset.range O, (if f o k = some i then F k i o else 0) :=
    fun k => Finset.sum_comm
  simp only [s1]
  rw [Finset.sum_comm]
  refine Finset.sum_congr rfl fun i hi => Finset.sum_congr rfl fun k hk =>
    Finset.sum_congr rfl fun o ho => ?_
  have := ok.rel o k i (Finset.mem_range.mp ho) (Finset.mem_range.mp hk) (Finset.mem_range.mp hi)
  by_cases h : f o k = some i
  · rw [if_pos h, if_pos (this.mp h)]
  · rw [if_neg h, if_neg fun h' => h (this.mpr h')]

theorem optE_gatherF (f : Nat → Nat → Option Nat) (fs : List (Nat → Nat → Option Nat))
    (o k : Nat) (os ks : List Nat) (G : List Nat → M) :
    optE (gatherF (f :: fs) (o :: os) (k :: ks)) G =
      optE (f o k) fun i => optE (gatherF fs os ks) fun is => G (i :: is) := by
  simp only [gatherF]
  cases f o k with
  | none => rfl
  | some i => cases gatherF fs os ks <;> rfl

theorem boxSum_optE (x : Option Nat) (Os Ks : List Nat) (G : Nat → List Nat → List Nat → M) :
    boxSum Os (fun os => boxSum Ks fun ks => optE x fun i => G i os ks) =
      optE x fun i => boxSum Os fun os => boxSum Ks fun ks => G i os ks := by
  cases x with
  | none => simp [optE, boxSum_zero]
  | some i => rfl

/-- Summation by parts: a double sum over outputs and kernel positions is one over inputs and flipped
kernel positions. -/
theorem adjoint_sum (fs gs : List (Nat → Nat → Option Nat)) (Os Ns Ks : List Nat)
    (ok : Rels fs gs Os Ns Ks) (F : List Nat → List Nat → List Nat → M) :
    boxSum Os (fun o => boxSum Ks fun k => optE (gatherF fs o k) fun i => F k i o) =
      boxSum Ns (fun i => boxSum Ks fun k => optE (gatherF gs i k) fun o => F (flipIdx Ks k) i o) := by
  induction fs generalizing gs Os Ns Ks F with
  | nil =>
    match gs, Os, Ns, Ks, ok with
    | [], [], [], [], _ => simp [boxSum, gatherF, optE, flipIdx]
  | cons f fs ih =>
    match gs, Os, Ns, Ks, ok with
    | g :: gs, O :: Os, N :: Ns, K :: Ks, ok =>
      simp only [boxSum, optE_gatherF, flipIdx]
      have l : ∀ o, boxSum Os (fun os => ∑ k ∈ Finset.range K, boxSum Ks fun ks =>
            optE (f o k) fun i => optE (gatherF fs os ks) fun is => F (k :: ks) (i :: is) (o :: os)) =
          ∑ k ∈ Finset.range K, optE (f o k) fun i => boxSum Ns fun is => boxSum Ks fun ks =>
            optE (gatherF gs is ks) fun os => F (k :: flipIdx Ks ks) (i :: is) (o :: os) := by
        intro o
        rw [← boxSum_range]
        refine Finset.sum_congr rfl fun k _ => ?_
        rw [boxSum_optE]
        congr 1
        funext i
        exact ih gs Os Ns Ks ok.2 (fun ks is os => F (k :: ks) (i :: is) (o :: os))
      have r : ∀ i, boxSum Ns (fun is => ∑ k ∈ Finset.range K, boxSum Ks fun ks =>
            optE (g i k) fun o => optE (gatherF gs is ks) fun os =>
              F ((K - 1 - k) :: flipIdx Ks ks) (i :: is) (o :: os)) =
          ∑ k ∈ Finset.range K, optE (g i k) fun o => boxSum Ns fun is => boxSum Ks fun ks =>
            optE (gatherF gs is ks) fun os => F ((K - 1 - k) :: flipIdx Ks ks) (i :: is) (o :: os) := by
        intro i
        rw [← boxSum_range]
        exact Finset.sum_congr rfl fun k _ => boxSum_optE _ _ _ _
      simp only [l, r]
      exact one_dim f g O N K ok.1 fun k i o => boxSum Ns fun is => boxSum Ks fun ks =>
        optE (gatherF gs is ks) fun os => F (k :: flipIdx Ks ks) (i :: is) (o :: os)

/-! ## The readers of the two layers, one dimension -/

theorem read_eq_some (c : CDim) (hld : 0 < c.ld) (o k i : Nat) :
    c.read o k = some i ↔ (o : Int) * c.s + k * c.d - c.p0 = i * c.ld ∧ i < c.n := by
  simp only [CDim.read]
  constructor
  · intro h
    split at h
    · rename_i hz
      simp only [Option.some.injEq] at h
      have := Int.mul_ediv_add_emod ((o : Int) * c.s + k * c.d - c.p0) c.ld
      refine ⟨?_, by omega⟩
      have e : ((o : Int) * c.s + k * c.d - c.p0) / c.ld = i := by omega
      rw [e, hz.1] at this
      rw [← this]; ring
    · simp at h
  · rintro ⟨h, hi⟩
    rw [h, Int.mul_emod_left, Int.mul_ediv_cancel _ (by omega : c.ld ≠ 0)]
    rw [if_pos ⟨rfl, by omega, by omega⟩]
    simp

theorem cast_flip (K k : Nat) (d : Int) (h : k < K) :
    ((K - 1 - k : Nat) : Int) * d = d * ((K : Int) - 1) - k * d := by
  have : ((K - 1 - k : Nat) : Int) = (K : Int) - 1 - k := by omega
  rw [this]; ring

/-- Zero padding. -/
theorem ok1_zeros (n O : Nat) (h : HDim) (g : h.Good) (p0 p1 q0 q1 : Int)
    (hq : q0 = h.d * (h.k - 1) - p0) :
    Ok1 (CDim.read ⟨n, h.k, h.s, h.d, p0, p1, 1⟩) (CDim.read ⟨O, h.k, 1, h.d, q0, q1, h.s⟩) O n
      h.k.toNat := by
  have hk := g.k
  have hK : (h.k.toNat : Int) = h.k := by omega
  refine ⟨fun o k i ho hk' hi => ?_, fun o k i _ _ hr => ?_, fun i k o _ _ hr => ?_⟩
  · rw [read_eq_some _ Int.one_pos, read_eq_some _ g.s]
    simp only [Int.mul_one, cast_flip _ _ _ hk', hK, hq]
    constructor
    · rintro ⟨e, _⟩; exact ⟨by linarith, ho⟩
    · rintro ⟨e, _⟩; exact ⟨by linarith, hi⟩
  · exact ((read_eq_some _ Int.one_pos o k i).mp hr).2
  · exact ((read_eq_some _ g.s i k o).mp hr).2

/-- Circular padding. -/
theorem ok1_circular (n O : Nat) (h : HDim) (g : h.Good) (p0 p1 q0 q1 : Int)
    (hn : (n : Int) = O * h.s) (hn0 : 0 < n) (hO : 0 < O) (hp0 : 0 ≤ p0) (hp1 : 0 ≤ p1)
    (hpsum : ((O : Int) - 1) * h.s + h.d * (h.k - 1) + 1 ≤ n + p0 + p1)
    (hq : q0 = h.d * (h.k - 1) - p0) (hq0 : 0 ≤ q0) (hq1 : 0 ≤ q1)
    (hqsum : q0 + q1 = h.d * (h.k - 1) + h.s - 1) :
    Ok1 (fun o k => (CDim.read ⟨((n : Int) + p0 + p1).toNat, h.k, h.s, h.d, 0, 0, 1⟩ o k).map
        (padIndex .circular n p0))
      (fun i k => (CDim.read ⟨((O : Int) + q0 / h.s + q1 / h.s).toNat, h.k, 1, h.d, q0 % h.s, q1 % h.s, h.s⟩ i k).map
        (padIndex .circular O (q0 / h.s))) O n h.k.toNat := by
  have hk := g.k
  have hs := g.s
  have hd := g.d
  have hK : (h.k.toNat : Int) = h.k := by omega
  have inN : ∀ o k i : Nat, ((CDim.read ⟨((n : Int) + p0 + p1).toNat, h.k, h.s, h.d, 0, 0, 1⟩ o k).map
        (padIndex .circular n p0)) = some i → i < n := by
    intro o k i hr
    obtain ⟨i', _, rfl⟩ := Option.map_eq_some_iff.mp hr
    simp only [padIndex]
    have := Int.emod_nonneg ((i' : Int) - p0) (show (n : Int) ≠ 0 by omega)
    have := Int.emod_lt_of_pos ((i' : Int) - p0) (show (0 : Int) < n by omega)
    omega
  have inO : ∀ i k o : Nat, ((CDim.read ⟨((O : Int) + q0 / h.s + q1 / h.s).toNat, h.k, 1, h.d, q0 % h.s, q1 % h.s, h.s⟩ i k).map
        (padIndex .circular O (q0 / h.s))) = some o → o < O := by
    intro i k o hr
    obtain ⟨i', _, rfl⟩ := Option.map_eq_some_iff.mp hr
    simp only [padIndex]
    have := Int.emod_nonneg ((i' : Int) - q0 / h.s) (show (O : Int) ≠ 0 by omega)
    have := Int.emod_lt_of_pos ((i' : Int) - q0 / h.s) (show (0 : Int) < O by omega)
    omega
  refine ⟨fun o k i ho hk' hi => ?_, fun o k i _ _ hr => inN o k i hr, fun i k o _ _ hr => inO i k o hr⟩
  have kd : (k : Int) * h.d ≤ h.d * (h.k - 1) := by
    rw [Int.mul_comm]; exact Int.mul_le_mul_of_nonneg_left (by omega) (by omega)
  have kd0 : 0 ≤ (k : Int) * h.d := Int.mul_nonneg (by omega) (by omega)
  have os : (o : Int) * h.s ≤ ((O : Int) - 1) * h.s := Int.mul_le_mul_of_nonneg_right (by omega) (by omega)
  have os0 : 0 ≤ (o : Int) * h.s := Int.mul_nonneg (by omega) (by omega)
  have m0 := Int.mul_ediv_add_emod q0 h.s
  have m1 := Int.mul_ediv_add_emod q1 h.s
  have m0n := Int.emod_nonneg q0 (show h.s ≠ 0 by omega)
  have m1n := Int.emod_nonneg q1 (show h.s ≠ 0 by omega)
  have m0l := Int.emod_lt_of_pos q0 hs
  have m1l := Int.emod_lt_of_pos q1 hs
  have d0 : 0 ≤ q0 / h.s := Int.ediv_nonneg hq0 (by omega)
  have d1 : 0 ≤ q1 / h.s := Int.ediv_nonneg hq1 (by omega)
  -- both sides say `i + p0 = o s + k d + t n` for some `t`
  have left : ((CDim.read ⟨((n : Int) + p0 + p1).toNat, h.k, h.s, h.d, 0, 0, 1⟩ o k).map
        (padIndex .circular n p0)) = some i ↔ ∃ t : Int, (i : Int) + p0 = o * h.s + k * h.d + t * n := by
    constructor
    · intro hr
      obtain ⟨i', hi', rfl⟩ := Option.map_eq_some_iff.mp hr
      have := ((read_eq_some _ Int.one_pos o k i').mp hi').1
      simp only at this
      simp only [padIndex]
      have h1 := Int.emod_nonneg ((i' : Int) - p0) (show (n : Int) ≠ 0 by omega)
      have h2 := Int.mul_ediv_add_emod ((i' : Int) - p0) n
      refine ⟨-(((i' : Int) - p0) / n), ?_⟩
      rw [Int.toNat_of_nonneg h1]
      have e : -(((i' : Int) - p0) / n) * n = -(n * (((i' : Int) - p0) / n)) := by ring
      omega
    · rintro ⟨t, ht⟩
      refine Option.map_eq_some_iff.mpr ⟨((o : Int) * h.s + k * h.d).toNat,
        (read_eq_some _ Int.one_pos o k _).mpr ⟨by simp only; omega, by simp only; omega⟩, ?_⟩
      simp only [padIndex]
      rw [Int.toNat_of_nonneg (by omega), show (o : Int) * h.s + k * h.d - p0 = i + (-t) * n by
        have : (-t) * n = -(t * n) := by ring
        omega, Int.add_mul_emod_self_right, Int.emod_eq_of_lt (by omega) (by omega)]
      omega
  have right : ((CDim.read ⟨((O : Int) + q0 / h.s + q1 / h.s).toNat, h.k, 1, h.d, q0 % h.s, q1 % h.s, h.s⟩ i
      (h.k.toNat - 1 - k)).map (padIndex .circular O (q0 / h.s))) = some o ↔
      ∃ t : Int, (i : Int) + p0 = o * h.s + k * h.d + t * n := by
    constructor
    · intro hr
      obtain ⟨i', hi', rfl⟩ := Option.map_eq_some_iff.mp hr
      have := ((read_eq_some _ hs i _ i').mp hi').1
      simp only [Int.mul_one, cast_flip _ _ _ hk', hK] at this
      simp only [padIndex]
      have h1 := Int.emod_nonneg ((i' : Int) - q0 / h.s) (show (O : Int) ≠ 0 by omega)
      have h2 := Int.mul_ediv_add_emod ((i' : Int) - q0 / h.s) O
      refine ⟨((i' : Int) - q0 / h.s) / O, ?_⟩
      rw [Int.toNat_of_nonneg h1, hn]
      generalize ((i' : Int) - q0 / h.s) / O = u at *
      generalize ((i' : Int) - q0 / h.s) % O = v at *
      have e : (v : Int) * h.s + u * (O * h.s) = (i' : Int) * h.s - h.s * (q0 / h.s) := by
        have : (v : Int) * h.s + u * (O * h.s) = (O * u + v) * h.s := by ring
        rw [this, h2]; ring
      omega
    · rintro ⟨t, ht⟩
      have hz : (i : Int) + ((h.k.toNat - 1 - k : Nat) : Int) * h.d - q0 % h.s =
          (o + t * O + q0 / h.s) * h.s := by
        rw [cast_flip _ _ _ hk', hK]
        have e : (o + t * O + q0 / h.s) * h.s = o * h.s + t * (O * h.s) + h.s * (q0 / h.s) := by ring
        rw [e, ← hn]
        omega
      have flip0 : 0 ≤ ((h.k.toNat - 1 - k : Nat) : Int) * h.d := Int.mul_nonneg (by omega) (by omega)
      have flip1 : ((h.k.toNat - 1 - k : Nat) : Int) * h.d ≤ h.d * (h.k - 1) := by
        rw [cast_flip _ _ _ hk', hK]; omega
      have lo : 0 ≤ o + t * O + q0 / h.s := by
        by_contra hneg
        have : (o + t * O + q0 / h.s) * h.s ≤ (-1) * h.s :=
          Int.mul_le_mul_of_nonneg_right (by omega) (by omega)
        omega
      have hi' : o + t * O + q0 / h.s < (O : Int) + q0 / h.s + q1 / h.s := by
        by_contra hneg
        have h3 : ((O : Int) + q0 / h.s + q1 / h.s) * h.s ≤ (o + t * O + q0 / h.s) * h.s :=
          Int.mul_le_mul_of_nonneg_right (by omega) (by omega)
        have e : ((O : Int) + q0 / h.s + q1 / h.s) * h.s = O * h.s + h.s * (q0 / h.s) + h.s * (q1 / h.s) := by
          ring
        omega
      refine Option.map_eq_some_iff.mpr ⟨(o + t * O + q0 / h.s).toNat,
        (read_eq_some _ hs i _ _).mpr ⟨?_, by simp only; omega⟩, ?_⟩
      · simp only [Int.mul_one]
        rw [Int.toNat_of_nonneg lo, hz]
      · simp only [padIndex]
        rw [Int.toNat_of_nonneg lo, show (o : Int) + t * O + q0 / h.s - q0 / h.s = o + t * O by omega,
          Int.add_mul_emod_self_right, Int.emod_eq_of_lt (by omega) (by omega)]
        omega
  exact left.trans right.symm

/-! ## All dimensions -/

/-- The hyperparameters of the convolution belonging to a transposed one: no output padding. -/
def noOut (h : HDim) : HDim := { h with a := 0 }

/-- `Ok1` for dimension `j` of a pair of layers with zero padding. -/
def DimZ (pad : Pad) (j n o : Nat) (h : HDim) : Prop :=
  Ok1 (CDim.read ⟨n, h.k, h.s, h.d, (convPads pad n (noOut h) (pad.entry j)).1,
      (convPads pad n (noOut h) (pad.entry j)).2, 1⟩)
    (CDim.read ⟨o, h.k, 1, h.d, (padTranspose pad h (pad.entry j)).1,
      (padTranspose pad h (pad.entry j)).2, h.s⟩) o n h.k.toNat

theorem gather_eq (dims : List CDim) (o k : List Nat) :
    gather dims o k = gatherF (dims.map CDim.read) o k := by
  induction dims generalizing o k with
  | nil => cases o <;> cases k <;> rfl
  | cons c cs ih =>
    cases o with
    | nil => cases k <;> rfl
    | cons o os =>
      cases k with
      | nil => rfl
      | cons k ks =>
        simp only [gather, List.map_cons, gatherF, ih]
        cases c.read o k with
        | none => rfl
        | some i => cases gatherF (cs.map CDim.read) os ks <;> rfl

theorem rels_zeros (pad : Pad) (j0 : Nat) (ns os : List Nat) (hs : List HDim)
    (h1 : ns.length = hs.length) (h2 : os.length = hs.length)
    (H : ∀ (j n o : Nat) (h : HDim), ns[j]? = some n → os[j]? = some o → hs[j]? = some h →
      DimZ pad (j0 + j) n o h) :
    Rels ((convDims ns (hs.map noOut) (allPads pad j0 ns (hs.map noOut))).map CDim.read)
      ((convDimsT os hs (allPadsT pad j0 hs)).map CDim.read) os ns (kernelShape hs) := by
  induction hs generalizing ns os j0 with
  | nil =>
    have : ns = [] := List.length_eq_zero_iff.mp h1
    have : os = [] := List.length_eq_zero_iff.mp h2
    subst_vars
    trivial
  | cons h hs ih =>
    match ns, os, h1, h2 with
    | n :: ns, o :: os, h1, h2 =>
      refine ⟨H 0 n o h rfl rfl rfl, ih (j0 + 1) ns os (by simpa using h1)
        (by simpa using h2) fun j n' o' h' a b c => ?_⟩
      have := H (j + 1) n' o' h' (by simpa using a) (by simpa using b) (by simpa using c)
      rwa [show j0 + 1 + j = j0 + (j + 1) by omega]

/-- The readers of an array padded with `jnp.pad(..., "wrap")`. -/
def circF : List CDim → List Nat → List (Int × Int) → List (Nat → Nat → Option Nat)
  | c :: cs, n :: ns, p :: ps =>
    (fun o k => (c.read o k).map (padIndex .circular n p.1)) :: circF cs ns ps
  | _, _, _ => []

theorem gather_circ (dims : List CDim) (ns : List Nat) (ps : List (Int × Int)) (o k : List Nat)
    (h1 : ns.length = dims.length) (h2 : ps.length = dims.length) :
    (gather dims o k).map (padIndices .circular ns ps) = gatherF (circF dims ns ps) o k := by
  induction dims generalizing ns ps o k with
  | nil => cases o <;> cases k <;> cases ns <;> cases ps <;> simp [gather, gatherF, circF, padIndices]
  | cons c cs ih =>
    match ns, ps, h1, h2 with
    | n :: ns, p :: ps, h1, h2 =>
      cases o with
      | nil => cases k <;> rfl
      | cons o os =>
        cases k with
        | nil => rfl
        | cons k ks =>
          simp only [gather, circF, gatherF, ← ih ns ps os ks (by simpa using h1) (by simpa using h2)]
          cases c.read o k with
          | none => rfl
          | some i => cases gather cs os ks <;> rfl

/-- `Ok1` for dimension `j` of a pair of layers with circular padding. -/
def DimC (pad : Pad) (j n o : Nat) (h : HDim) : Prop :=
  Ok1 (fun o k => (CDim.read ⟨((n : Int) + (convPads pad n (noOut h) (pad.entry j)).1 +
        (convPads pad n (noOut h) (pad.entry j)).2).toNat, h.k, h.s, h.d, 0, 0, 1⟩ o k).map
      (padIndex .circular n (convPads pad n (noOut h) (pad.entry j)).1))
    (fun i k => (CDim.read ⟨((o : Int) + (padTranspose pad h (pad.entry j)).1 / h.s +
        (padTranspose pad h (pad.entry j)).2 / h.s).toNat, h.k, 1, h.d,
        (padTranspose pad h (pad.entry j)).1 % h.s, (padTranspose pad h (pad.entry j)).2 % h.s, h.s⟩ i k).map
      (padIndex .circular o ((padTranspose pad h (pad.entry j)).1 / h.s))) o n h.k.toNat

theorem rels_circular (pad : Pad) (j0 : Nat) (ns os : List Nat) (hs : List HDim)
    (h1 : ns.length = hs.length) (h2 : os.length = hs.length)
    (H : ∀ (j n o : Nat) (h : HDim), ns[j]? = some n → os[j]? = some o → hs[j]? = some h →
      DimC pad (j0 + j) n o h) :
    Rels (circF (convDims (padShape ns (allPads pad j0 ns (hs.map noOut))) (hs.map noOut)
        ((hs.map noOut).map fun _ => (0, 0))) ns (allPads pad j0 ns (hs.map noOut)))
      (circF (convDimsT (padShape os (List.zipWith (fun p h => (p.1 / h.s, p.2 / h.s)) (allPadsT pad j0 hs) hs)) hs
          (List.zipWith (fun p h => (p.1 % h.s, p.2 % h.s)) (allPadsT pad j0 hs) hs)) os
        (List.zipWith (fun p h => (p.1 / h.s, p.2 / h.s)) (allPadsT pad j0 hs) hs))
      os ns (kernelShape hs) := by
  induction hs generalizing ns os j0 with
  | nil =>
    have : ns = [] := List.length_eq_zero_iff.mp h1
    have : os = [] := List.length_eq_zero_iff.mp h2
    subst_vars
    trivial
  | cons h hs ih =>
    match ns, os, h1, h2 with
    | n :: ns, o :: os, h1, h2 =>
      refine ⟨H 0 n o h rfl rfl rfl, ih (j0 + 1) ns os (by simpa using h1)
        (by simpa using h2) fun j n' o' h' a b c => ?_⟩
      have := H (j + 1) n' o' h' (by simpa using a) (by simpa using b) (by simpa using c)
      rwa [show j0 + 1 + j = j0 + (j + 1) by omega]

/-! ## The sums of the two layers -/

theorem flip_inB (Ks kk : List Nat) (h : InB kk Ks) :
    InB (flipIdx Ks kk) Ks ∧ flipIdx Ks (flipIdx Ks kk) = kk := by
  induction Ks generalizing kk with
  | nil => cases kk with
    | nil => exact ⟨trivial, rfl⟩
    | cons _ _ => exact absurd h id
  | cons K Ks ih => cases kk with
    | nil => exact absurd h id
    | cons k kk =>
      have := ih kk h.2
      have hk := h.1
      refine ⟨⟨by omega, this.1⟩, ?_⟩
      simp only [flipIdx, this.2]
      congr 1
      omega

theorem boxSum_optE_swap {R : Type} [CommSemiring R] (Os Ks : List Nat) (G : List Nat → List Nat → Option (List Nat))
    (n : Nat) (B : Nat → List Nat → List Nat → R) (Y : List Nat → R) :
    boxSum Os (fun o => (∑ c ∈ Finset.range n, boxSum Ks fun k => optE (G o k) fun i => B c k i) * Y o) =
      ∑ c ∈ Finset.range n, boxSum Os fun o => boxSum Ks fun k => optE (G o k) fun i => B c k i * Y o := by
  rw [boxSum_range]
  refine boxSum_congr fun o _ => ?_
  rw [Finset.sum_mul]
  refine Finset.sum_congr rfl fun c _ => ?_
  rw [boxSum_mul]
  refine boxSum_congr fun k _ => ?_
  cases G o k <;> simp [optE]

/-- The adjoint identity, for the sums that the two layers compute. -/
theorem adjoint_layers {R : Type} [CommSemiring R] (fs gs : List (Nat → Nat → Option Nat))
    (Os Ns Ks : List Nat) (ok : Rels fs gs Os Ns Ks) (inC outC : Nat)
    (w wt x y cx ty : List Nat → R)
    (hw : ∀ co ci kk, co < outC → ci < inC → InB kk Ks →
      wt (ci :: co :: flipIdx Ks kk) = w (co :: ci :: kk))
    (hcx : ∀ co o, co < outC → InB o Os → cx (co :: o) = ∑ ci ∈ Finset.range inC,
      boxSum Ks fun kk => optE (gatherF fs o kk) fun i => w (co :: ci :: kk) * x (ci :: i))
    (hty : ∀ ci i, ci < inC → InB i Ns → ty (ci :: i) = ∑ co ∈ Finset.range outC,
      boxSum Ks fun kk => optE (gatherF gs i kk) fun o => wt (ci :: co :: kk) * y (co :: o)) :
    boxSum (outC :: Os) (fun q => cx q * y q) = boxSum (inC :: Ns) (fun q => x q * ty q) := by
  simp only [boxSum]
  have l : ∑ co ∈ Finset.range outC, boxSum Os (fun o => cx (co :: o) * y (co :: o)) =
      ∑ co ∈ Finset.range outC, ∑ ci ∈ Finset.range inC, boxSum Os fun o => boxSum Ks fun k =>
        optE (gatherF fs o k) fun i => w (co :: ci :: k) * x (ci :: i) * y (co :: o) := by
    refine Finset.sum_congr rfl fun co hco => ?_
    rw [← boxSum_optE_swap Os Ks (gatherF fs) inC (fun ci k i => w (co :: ci :: k) * x (ci :: i))
      (fun o => y (co :: o))]
    exact boxSum_congr fun o ho => by rw [hcx co o (Finset.mem_range.mp hco) ho]
  have r : ∑ ci ∈ Finset.range inC, boxSum Ns (fun i => x (ci :: i) * ty (ci :: i)) =
      ∑ ci ∈ Finset.range inC, ∑ co ∈ Finset.range outC, boxSum Ns fun i => boxSum Ks fun k =>
        optE (gatherF gs i k) fun o => wt (ci :: co :: k) * y (co :: o) * x (ci :: i) := by
    refine Finset.sum_congr rfl fun ci hci => ?_
    rw [← boxSum_optE_swap Ns Ks (gatherF gs) outC (fun co k o => wt (ci :: co :: k) * y (co :: o))
      (fun i => x (ci :: i))]
    exact boxSum_congr fun i hi => by rw [hty ci i (Finset.mem_range.mp hci) hi, mul_comm]
  rw [l, r, Finset.sum_comm]
  refine Finset.sum_congr rfl fun ci hci => Finset.sum_congr rfl fun co hco => ?_
  rw [adjoint_sum fs gs Os Ns Ks ok fun k i o => w (co :: ci :: k) * x (ci :: i) * y (co :: o)]
  refine boxSum_congr fun i _ => boxSum_congr fun k hk => ?_
  have hf := flip_inB Ks k hk
  have := hw co ci (flipIdx Ks k) (Finset.mem_range.mp hco) (Finset.mem_range.mp hci) hf.1
  rw [hf.2] at this
  congr 1
  funext o
  rw [this]
  ring

/-! ## The theorem -/

theorem call_zeros {R : Type} [CommSemiring R] (c : Conv R) (x y : NArr R) (hm : c.mode = .zeros)
    (hg : c.groups = 1) (hb : c.bias = none) (h : c.call x = .ok y) :
    ∀ co o, co < c.outChannels → y.at_ (co :: o) = ∑ ci ∈ Finset.range c.inChannels,
      boxSum ((convDims x.shape.tail c.dims (allPads c.padding 0 x.shape.tail c.dims)).map
        fun d => d.k.toNat) fun kk =>
        optE (gatherF ((convDims x.shape.tail c.dims (allPads c.padding 0 x.shape.tail c.dims)).map
          CDim.read) o kk) fun i => c.weight.at_ (co :: ci :: kk) * x.at_ (ci :: i) := by
  simp only [Conv.call, hm, if_true, hb, addBias] at h
  split at h
  · simp at h
  simp only [bind, Except.bind] at h
  split at h
  · simp at h
  rename_i z hc
  simp only [Except.ok.injEq] at h
  subst h
  obtain ⟨_, _, _, _, _, _, hv⟩ := convGeneral_ok _ _ _ _ _ _ _ hc
  intro co o hco
  rw [hv, hg]
  simp only [Nat.div_one, Nat.div_eq_of_lt hco, Nat.zero_mul, Nat.zero_add, gather_eq]
  refine Finset.sum_congr rfl fun ci _ => boxSum_congr fun kk _ => ?_
  cases gatherF ((convDims x.shape.tail c.dims (allPads c.padding 0 x.shape.tail c.dims)).map
          CDim.read) o kk <;> rfl

theorem call_circular {R : Type} [CommSemiring R] (c : Conv R) (x y : NArr R) (hm : c.mode = .circular)
    (hg : c.groups = 1) (hb : c.bias = none) (h : c.call x = .ok y) :
    ∀ co o, co < c.outChannels → y.at_ (co :: o) = ∑ ci ∈ Finset.range c.inChannels,
      boxSum ((convDims (padShape x.shape.tail (allPads c.padding 0 x.shape.tail c.dims)) c.dims
        (c.dims.map fun _ => (0, 0))).map fun d => d.k.toNat) fun kk =>
        optE (gatherF (circF (convDims (padShape x.shape.tail (allPads c.padding 0 x.shape.tail c.dims))
          c.dims (c.dims.map fun _ => (0, 0))) x.shape.tail
          (allPads c.padding 0 x.shape.tail c.dims)) o kk)
          fun i => c.weight.at_ (co :: ci :: kk) * x.at_ (ci :: i) := by
  simp only [Conv.call, hm, hb, addBias, reduceCtorEq, if_false] at h
  split at h
  · simp at h
  rename_i hr
  simp only [bind, Except.bind] at h
  split at h
  · simp at h
  rename_i x' hp
  split at h
  · simp at h
  rename_i z hc
  simp only [Except.ok.injEq] at h
  subst h
  obtain ⟨ch, ns, e1, _, _, e4, e5⟩ := padArr_ok _ _ _ _ hp
  obtain ⟨_, _, _, _, _, _, hv⟩ := convGeneral_ok _ _ _ _ _ _ _ hc
  rw [e1] at hr
  have hl : ns.length = c.dims.length := by simp at hr; omega
  simp only [e1, List.tail_cons, e4] at hv e5 ⊢
  have pl := allPads_length c.padding 0 ns c.dims hl
  have sl := padShape_length ns _ pl
  have cl := convDims_length (padShape ns (allPads c.padding 0 ns c.dims)) c.dims
    (c.dims.map fun _ => ((0 : Int), (0 : Int))) (by omega) (by rw [List.length_map]; omega)
  intro co o hco
  rw [hv, hg]
  simp only [Nat.div_one, Nat.div_eq_of_lt hco, Nat.zero_mul, Nat.zero_add]
  refine Finset.sum_congr rfl fun ci _ => boxSum_congr fun kk _ => ?_
  rw [← gather_circ _ _ _ o kk (by omega) (by omega)]
  cases gather (convDims (padShape ns (allPads c.padding 0 ns c.dims)) c.dims
    (c.dims.map fun _ => (0, 0))) o kk with
  | none => rfl
  | some i => simp only [Option.map_some, optE, e5]

theorem callT_zeros {R : Type} [CommSemiring R] (c : Conv R) (x y : NArr R) (hm : c.mode = .zeros)
    (hg : c.groups = 1) (hb : c.bias = none) (h : c.callT x = .ok y) :
    ∀ co o, co < c.outChannels → y.at_ (co :: o) = ∑ ci ∈ Finset.range c.inChannels,
      boxSum ((convDimsT x.shape.tail c.dims (allPadsT c.padding 0 c.dims)).map fun d => d.k.toNat)
        fun kk => optE (gatherF ((convDimsT x.shape.tail c.dims (allPadsT c.padding 0 c.dims)).map
          CDim.read) o kk) fun i => c.weight.at_ (co :: ci :: kk) * x.at_ (ci :: i) := by
  simp only [Conv.callT, hm, hb, addBias, reduceCtorEq, if_false] at h
  split at h
  · simp at h
  simp only [bind, Except.bind] at h
  split at h
  · simp at h
  rename_i z hc
  simp only [Except.ok.injEq] at h
  subst h
  obtain ⟨_, _, _, _, _, _, hv⟩ := convGeneral_ok _ _ _ _ _ _ _ hc
  intro co o hco
  rw [hv, hg]
  simp only [Nat.div_one, Nat.div_eq_of_lt hco, Nat.zero_mul, Nat.zero_add, gather_eq]
  refine Finset.sum_congr rfl fun ci _ => boxSum_congr fun kk _ => ?_
  cases gatherF ((convDimsT x.shape.tail c.dims (allPadsT c.padding 0 c.dims)).map
          CDim.read) o kk <;> rfl

theorem callT_circular {R : Type} [CommSemiring R] (c : Conv R) (x y : NArr R) (hm : c.mode = .circular)
    (hg : c.groups = 1) (hb : c.bias = none) (h : c.callT x = .ok y) :
    (∀ (j : Nat) (h : HDim), c.dims[j]? = some h → 0 ≤ (padTranspose c.padding h (c.padding.entry j)).1 / h.s ∧
      0 ≤ (padTranspose c.padding h (c.padding.entry j)).2 / h.s) ∧
    ∀ co o, co < c.outChannels → y.at_ (co :: o) = ∑ ci ∈ Finset.range c.inChannels,
      boxSum ((convDimsT (padShape x.shape.tail (List.zipWith (fun p h => (p.1 / h.s, p.2 / h.s))
          (allPadsT c.padding 0 c.dims) c.dims)) c.dims
          (List.zipWith (fun p h => (p.1 % h.s, p.2 % h.s)) (allPadsT c.padding 0 c.dims) c.dims)).map
          fun d => d.k.toNat) fun kk =>
        optE (gatherF (circF (convDimsT (padShape x.shape.tail (List.zipWith (fun p h => (p.1 / h.s, p.2 / h.s))
          (allPadsT c.padding 0 c.dims) c.dims)) c.dims
          (List.zipWith (fun p h => (p.1 % h.s, p.2 % h.s)) (allPadsT c.padding 0 c.dims) c.dims)) x.shape.tail
          (List.zipWith (fun p h => (p.1 / h.s, p.2 / h.s)) (allPadsT c.padding 0 c.dims) c.dims)) o kk)
          fun i => c.weight.at_ (co :: ci :: kk) * x.at_ (ci :: i) := by
  simp only [Conv.callT, hm, hb, addBias, if_true] at h
  split at h
  · simp at h
  rename_i hr
  simp only [bind, Except.bind] at h
  split at h
  · simp at h
  rename_i x' hp
  split at h
  · simp at h
  rename_i z hc
  simp only [Except.ok.injEq] at h
  subst h
  obtain ⟨ch, ns, e1, e2, _, e4, e5⟩ := padArr_ok _ _ _ _ hp
  obtain ⟨_, _, _, _, _, _, hv⟩ := convGeneral_ok _ _ _ _ _ _ _ hc
  rw [e1] at hr
  have hl : ns.length = c.dims.length := by simp at hr; omega
  have pl := allPadsT_length c.padding 0 c.dims
  refine ⟨fun j h hh => ?_, ?_⟩
  · have gp := allPadsT_get c.padding 0 c.dims j h hh
    rw [Nat.zero_add] at gp
    exact e2 _ (List.mem_of_getElem? (i := j) (by rw [List.getElem?_zipWith, gp, hh]))
  simp only [e1, List.tail_cons, e4] at hv e5 ⊢
  have wl : (List.zipWith (fun (p : Int × Int) (h : HDim) => (p.1 / h.s, p.2 / h.s))
      (allPadsT c.padding 0 c.dims) c.dims).length = ns.length := by simp [pl, hl]
  have rl : (List.zipWith (fun (p : Int × Int) (h : HDim) => (p.1 % h.s, p.2 % h.s))
      (allPadsT c.padding 0 c.dims) c.dims).length = ns.length := by simp [pl, hl]
  have sl := padShape_length ns _ wl
  have cl := convDimsT_length (padShape ns (List.zipWith (fun (p : Int × Int) (h : HDim) =>
    (p.1 / h.s, p.2 / h.s)) (allPadsT c.padding 0 c.dims) c.dims)) c.dims
    (List.zipWith (fun (p : Int × Int) (h : HDim) => (p.1 % h.s, p.2 % h.s))
      (allPadsT c.padding 0 c.dims) c.dims) (by omega) (by omega)
  intro co o hco
  rw [hv, hg]
  simp only [Nat.div_one, Nat.div_eq_of_lt hco, Nat.zero_mul, Nat.zero_add]
  refine Finset.sum_congr rfl fun ci _ => boxSum_congr fun kk _ => ?_
  rw [← gather_circ _ _ _ o kk (by omega) (by omega)]
  cases gather (convDimsT (padShape ns (List.zipWith (fun (p : Int × Int) (h : HDim) =>
    (p.1 / h.s, p.2 / h.s)) (allPadsT c.padding 0 c.dims) c.dims)) c.dims
    (List.zipWith (fun (p : Int × Int) (h : HDim) => (p.1 % h.s, p.2 % h.s))
      (allPadsT c.padding 0 c.dims) c.dims)) o kk with
  | none => rfl
  | some i => simp only [Option.map_some, optE, e5]

theorem convDims_kernel (ns : List Nat) (hs : List HDim) (ps : List (Int × Int))
    (h1 : hs.length = ns.length) (h2 : ps.length = ns.length) :
    (convDims ns hs ps).map (fun d => d.k.toNat) = kernelShape hs := by
  induction ns generalizing hs ps with
  | nil =>
    have : hs = [] := List.length_eq_zero_iff.mp h1
    subst this; rfl
  | cons n ns ih =>
    match hs, ps, h1, h2 with
    | h :: hs, p :: ps, h1, h2 =>
      simp only [convDims, List.map_cons, kernelShape]
      rw [ih hs ps (by simpa using h1) (by simpa using h2)]; rfl

theorem convDimsT_kernel (ns : List Nat) (hs : List HDim) (ps : List (Int × Int))
    (h1 : hs.length = ns.length) (h2 : ps.length = ns.length) :
    (convDimsT ns hs ps).map (fun d => d.k.toNat) = kernelShape hs := by
  induction ns generalizing hs ps with
  | nil =>
    have : hs = [] := List.length_eq_zero_iff.mp h1
    subst this; rfl
  | cons n ns ih =>
    match hs, ps, h1, h2 with
    | h :: hs, p :: ps, h1, h2 =>
      simp only [convDimsT, List.map_cons, kernelShape]
      rw [ih hs ps (by simpa using h1) (by simpa using h2)]; rfl

theorem kernelShape_noOut (hs : List HDim) : kernelShape (hs.map noOut) = kernelShape hs := by
  simp [kernelShape, noOut, Function.comp_def]

/-- **C57.** Whenever both calls return arrays of matching shapes, the inner product of the
convolution of `x` with `y` is the inner product of `x` with the transposed convolution of `y`. -/
theorem conv_adjoint {R : Type} [CommSemiring R] (c ct : Conv R) (T : Transposes c ct)
    (x y cx ty : NArr R) (hc : c.call x = .ok cx) (ht : ct.callT y = .ok ty)
    (hy : cx.shape = y.shape) (hx : ty.shape = x.shape) :
    inner cx y = inner x ty := by
  obtain ⟨ns, s1, s2, s3, s4, s5⟩ := conv_shape c x cx hc
  obtain ⟨os, t1, t2, t3, t4, t5⟩ := convT_shape ct y ty ht (fun h hh => (T.outputPadding h hh).2)
  have hdims : c.dims = ct.dims.map noOut := T.dims
  have hcs : cx.shape = c.outChannels :: os := by rw [hy, t1, T.inChannels]
  have dimfacts : ∀ (j n o : Nat) (h : HDim), ns[j]? = some n → os[j]? = some o →
      ct.dims[j]? = some h → h.Good ∧ (o : Int) = convSize n h (convPads ct.padding n h (ct.padding.entry j)) ∧
        (0 < o → (ct.padding = .same ∨ ct.padding = .sameLower) → (n : Int) = o * h.s - h.a) ∧
        ((ct.padding = .same ∨ ct.padding = .sameLower) → o = 0 → n = 0) := by
    intro j n o h hn ho hh
    have hh' : c.dims[j]? = some (noOut h) := by rw [hdims, List.getElem?_map, hh]; rfl
    obtain ⟨g, m, hm, he⟩ := s5 j n (noOut h) hn hh'
    have g' : h.Good := ⟨g.k, g.s, g.d⟩
    rw [hcs, List.getElem?_cons_succ, ho] at hm
    injection hm with hm
    subst hm
    rw [T.padding] at he
    refine ⟨g', he, fun hpos hp => ?_, fun hp h0 => ?_⟩
    · obtain ⟨_, m, hm, he', _⟩ := t5 j o h ho hh hpos
      rw [hx, s1, List.getElem?_cons_succ, hn] at hm
      injection hm with hm
      subst hm
      rcases hp with hp | hp <;> rw [hp] at he' <;> exact he'
    · have hz : ceilDiv n h.s = o := by
        rw [he]
        rcases hp with hp | hp
        · rw [hp]; exact (same_size n h g' false).symm
        · rw [hp]; exact (same_size n h g' true).symm
      have c2 := Int.lt_ediv_add_one_mul_self (-(n : Int)) g'.s
      have c1 := Int.ediv_mul_le (-(n : Int)) (show h.s ≠ 0 by have := g'.s; omega)
      simp only [ceilDiv] at hz
      have : -(n : Int) / h.s = 0 := by omega
      rw [this] at c1
      omega
  have left : ∀ (j n o : Nat) (h : HDim), ns[j]? = some n → os[j]? = some o → ct.dims[j]? = some h →
      (0 < o ∨ ¬(ct.padding = .same ∨ ct.padding = .sameLower)) →
      (padTranspose ct.padding h (ct.padding.entry j)).1 =
        h.d * (h.k - 1) - (convPads ct.padding n (noOut h) (ct.padding.entry j)).1 := by
    intro j n o h hn ho hh hor
    obtain ⟨g, _, f2, _⟩ := dimfacts j n o h hn ho hh
    have ha := T.outputPadding h (List.mem_of_getElem? hh)
    refine pads_correspond ct.padding n o h g ha.1 ha.2 _ ?_
    by_cases hp : ct.padding = .same ∨ ct.padding = .sameLower
    · left
      exact f2 (hor.resolve_right (fun hn => hn hp)) hp
    · right
      cases hpad : ct.padding with
      | same => exact absurd (.inl hpad) hp
      | sameLower => exact absurd (.inr hpad) hp
      | valid => exact ⟨[], .inr rfl⟩
      | pairs l => exact ⟨l, .inl rfl⟩
  have vac : ∀ f g K, Ok1 f g 0 0 K := fun f g K =>
    ⟨fun o k i h => absurd h (Nat.not_lt_zero _), fun o k i h => absurd h (Nat.not_lt_zero _),
      fun i k o h => absurd h (Nat.not_lt_zero _)⟩
  have sl : ns.length = ct.dims.length := by rw [s2, hdims, List.length_map]
  have pl := allPads_length ct.padding 0 ns (ct.dims.map noOut) (by simp [sl])
  have ptl := allPadsT_length ct.padding 0 ct.dims
  simp only [inner, hcs, s1]
  rcases T.circular with hm | ⟨hm, hpad, ha0⟩
  · have vc := call_zeros c x cx (T.mode.trans hm) T.groups T.bias hc
    have vt := callT_zeros ct y ty hm T.groups' T.bias' ht
    rw [s1, T.padding, hdims, List.tail_cons,
      convDims_kernel ns _ _ (by simp [sl]) pl, kernelShape_noOut] at vc
    rw [t1, List.tail_cons, convDimsT_kernel os _ _ (by omega) (by omega), T.outChannels, T.inChannels] at vt
    refine adjoint_layers _ _ os ns (kernelShape ct.dims)
      (rels_zeros ct.padding 0 ns os ct.dims sl t2 ?_) c.inChannels c.outChannels c.weight.at_ ct.weight.at_
      x.at_ y.at_ cx.at_ ty.at_ T.weight (fun co o hco _ => vc co o hco) (fun ci i hci _ => vt ci i hci)
    intro j n o h hn ho hh
    rw [Nat.zero_add]
    obtain ⟨g, _, _, f3⟩ := dimfacts j n o h hn ho hh
    by_cases h0 : o = 0 ∧ (ct.padding = .same ∨ ct.padding = .sameLower)
    · have := f3 h0.2 h0.1
      rw [h0.1, this]
      exact vac _ _ _
    · refine ok1_zeros n o h g _ _ _ _ (left j n o h hn ho hh ?_)
      by_cases hp : ct.padding = .same ∨ ct.padding = .sameLower
      · left
        have : ¬ o = 0 := fun h => h0 ⟨h, hp⟩
        omega
      · exact .inr hp
  · have vc := call_circular c x cx (T.mode.trans hm) T.groups T.bias hc
    obtain ⟨nonneg, vt⟩ := callT_circular ct y ty hm T.groups' T.bias' ht
    have psl := padShape_length ns _ pl
    have wl : (List.zipWith (fun (p : Int × Int) (h : HDim) => (p.1 / h.s, p.2 / h.s))
        (allPadsT ct.padding 0 ct.dims) ct.dims).length = os.length := by simp [ptl, t2]
    have rl : (List.zipWith (fun (p : Int × Int) (h : HDim) => (p.1 % h.s, p.2 % h.s))
        (allPadsT ct.padding 0 ct.dims) ct.dims).length = os.length := by simp [ptl, t2]
    have psl' := padShape_length os _ wl
    rw [s1, T.padding, hdims, List.tail_cons,
      convDims_kernel _ _ _ (by rw [psl, List.length_map]; omega)
        (by rw [psl, List.length_map, List.length_map]; omega), kernelShape_noOut] at vc
    rw [t1, List.tail_cons, convDimsT_kernel _ _ _ (by omega) (by omega), T.outChannels, T.inChannels] at vt
    refine adjoint_layers _ _ os ns (kernelShape ct.dims)
      (rels_circular ct.padding 0 ns os ct.dims sl t2 ?_) c.inChannels c.outChannels c.weight.at_ ct.weight.at_
      x.at_ y.at_ cx.at_ ty.at_ T.weight (fun co o hco _ => vc co o hco) (fun ci i hci _ => vt ci i hci)
    intro j n o h hn ho hh
    rw [Nat.zero_add]
    obtain ⟨g, f1, f2, f3⟩ := dimfacts j n o h hn ho hh
    by_cases h0 : o = 0
    · have := f3 hpad h0
      rw [h0, this]
      exact vac _ _ _
    have hpos : 0 < o := by omega
    have hs := g.s
    have ha := ha0 h (List.mem_of_getElem? hh)
    have hnn := f2 hpos hpad
    rw [ha] at hnn
    have hq := left j n o h hn ho hh (.inl hpos)
    obtain ⟨q0, q1⟩ := nonneg j h hh
    have q0' : 0 ≤ (padTranspose ct.padding h (ct.padding.entry j)).1 := by
      by_contra hneg
      have := Int.ediv_neg_of_neg_of_pos (show (padTranspose ct.padding h (ct.padding.entry j)).1 < 0 by omega) hs
      omega
    have q1' : 0 ≤ (padTranspose ct.padding h (ct.padding.entry j)).2 := by
      by_contra hneg
      have := Int.ediv_neg_of_neg_of_pos (show (padTranspose ct.padding h (ct.padding.entry j)).2 < 0 by omega) hs
      omega
    have hos : 1 * h.s ≤ (o : Int) * h.s := Int.mul_le_mul_of_nonneg_right (by omega) (by omega)
    have hceil : ceilDiv n h.s = o := by
      simp only [ceilDiv, hnn]
      rw [show -((o : Int) * h.s - 0) = (-(o : Int)) * h.s by ring, Int.mul_ediv_cancel _ (by omega)]
      omega
    have hp : ∀ lower, 0 ≤ (samePads lower n (h.d * (h.k - 1) + 1) h.s).1 ∧
        0 ≤ (samePads lower n (h.d * (h.k - 1) + 1) h.s).2 ∧
        ((o : Int) - 1) * h.s + h.d * (h.k - 1) + 1 ≤ n + (samePads lower n (h.d * (h.k - 1) + 1) h.s).1 +
          (samePads lower n (h.d * (h.k - 1) + 1) h.s).2 := by
      intro lower
      have hsum := samePads_sum lower n (h.d * (h.k - 1) + 1) h.s
      rw [hceil] at hsum
      refine ⟨?_, ?_, by omega⟩
      · simp only [samePads]; split <;> simp only <;> omega
      · simp only [samePads]; split <;> simp only <;> omega
    have hqs : (padTranspose ct.padding h (ct.padding.entry j)).1 +
        (padTranspose ct.padding h (ct.padding.entry j)).2 = h.d * (h.k - 1) + h.s - 1 := by
      rcases hpad with hpd | hpd <;> rw [hpd] <;> simp only [padTranspose, ha] <;> split <;> omega
    obtain ⟨lower, hcp⟩ : ∃ lower, convPads ct.padding n (noOut h) (ct.padding.entry j) =
        samePads lower n (h.d * (h.k - 1) + 1) h.s := by
      rcases hpad with hpd | hpd
      · exact ⟨false, by rw [hpd]; rfl⟩
      · exact ⟨true, by rw [hpd]; rfl⟩
    simp only [DimC]
    rw [hcp] at hq ⊢
    obtain ⟨p0, p1, ps⟩ := hp lower
    exact ok1_circular n o h g _ _ _ _ (by omega) (by omega) hpos p0 p1 ps hq q0' q1' hqs

/-- What the constructor of `ConvTranspose` ensures about the padding mode. -/
theorem mkTranspose_mode {R : Type} (n inC outC : Nat) (kernel stride : IntOrSeq) (padding : ConvPadArg)
    (outputPadding dilation : IntOrSeq) (groups : Nat) (mode : Option Mode) (weight : NArr R)
    (bias : Option (Nat → R)) (c : Conv R)
    (h : Conv.mkTranspose n inC outC kernel stride padding outputPadding dilation groups mode weight bias =
      .ok c) :
    (c.mode = .zeros) ∨ (c.mode = .circular ∧
      (c.padding = .same ∨ c.padding = .sameLower) ∧ ∀ h ∈ c.dims, h.a = 0) := by
  have mem : ∀ (ks ss ds as : List Int) (h : HDim), h ∈ zipDims ks ss ds as → h.a ∈ as := by
    intro ks
    induction ks with
    | nil => intro ss ds as h hh; simp [zipDims] at hh
    | cons k ks ih =>
      intro ss ds as h hh
      match ss, ds, as with
      | s :: ss, d :: ds, a :: as =>
        simp only [zipDims, List.mem_cons] at hh
        rcases hh with rfl | hh
        · simp
        · exact List.mem_cons_of_mem _ (ih ss ds as h hh)
      | [], _, _ => simp [zipDims] at hh
      | _ :: _, [], _ => simp [zipDims] at hh
      | _ :: _, _ :: _, [] => simp [zipDims] at hh
  simp only [Conv.mkTranspose, bind, Except.bind] at h
  split at h
  · simp at h
  split at h
  · simp at h
  split at h
  · simp at h
  rename_i a _
  split at h
  · simp at h
  split at h
  · simp at h
  split at h
  · simp at h
  split at h
  · simp at h
  split at h
  · simp at h
  rename_i p _
  split at h
  · simp at h
  rename_i m _
  cases m with
  | reflect => simp at h
  | replicate => simp at h
  | zeros => simp only [Except.ok.injEq] at h; subst h; exact .inl rfl
  | circular =>
    simp only at h
    split at h
    · simp at h
    rename_i hz
    split at h
    · simp at h
    rename_i hp
    simp only [Except.ok.injEq] at h
    subst h
    refine .inr ⟨rfl, ?_, fun h hh => ?_⟩
    · by_cases h1 : p = .same
      · exact .inl h1
      · by_cases h2 : p = .sameLower
        · exact .inr h2
        · exact absurd ⟨h1, h2⟩ hp
    · have := mem _ _ _ _ h hh
      simp only [List.any_eq_true, decide_eq_true_eq, not_exists, not_and] at hz
      exact Decidable.not_not.mp (hz _ this)

/-! ## Examples -/

/-- A strided, dilated convolution of two dimensions with zero padding. -/
def exConv (mode : Mode) : Except Err (Conv Int) :=
  Conv.mk' 2 2 1 (.seq [2, 3]) (.seq [2, 3]) (.str .same) (.seq [1, 2]) 1 (some mode)
    ⟨[1, 2, 2, 3], fun i => match i with
      | [_, ci, a, b] => (ci : Int) * 100 + a * 10 + b + 1
      | _ => 0⟩ none

/-- The transposed convolution belonging to it. -/
def exConvT (mode : Mode) : Except Err (Conv Int) :=
  Conv.mkTranspose 2 1 2 (.seq [2, 3]) (.seq [2, 3]) (.str .same) (.int 0) (.seq [1, 2]) 1 (some mode)
    ⟨[2, 1, 2, 3], fun i => match i with
      | [ci, _, a, b] => (ci : Int) * 100 + ((1 - a : Nat) : Int) * 10 + ((2 - b : Nat) : Int) + 1
      | _ => 0⟩ none

example (mode : Mode) (hm : mode = .zeros ∨ mode = .circular) : ∃ c ct, exConv mode = .ok c ∧ exConvT mode = .ok ct ∧
    Transposes c ct ∧
    (∃ cx, c.call ⟨[2, 4, 6], fun i => i.foldl (fun a b => 10 * a + b) 0⟩ = .ok cx ∧ cx.shape = [1, 2, 2]) ∧
    (∃ ty, ct.callT ⟨[1, 2, 2], fun i => i.foldl (fun a b => 10 * a + b) 0⟩ = .ok ty ∧ ty.shape = [2, 4, 6]) := by
  rcases hm with rfl | rfl
  all_goals
    refine ⟨_, _, rfl, rfl, ⟨rfl, by decide, rfl, rfl, by decide, rfl, rfl, rfl, rfl, rfl, rfl, ?_⟩,
      ⟨_, rfl, by decide⟩, ⟨_, rfl, by decide⟩⟩
    intro co ci kk h1 h2 hk
    match kk, hk with
    | [a, b], hk =>
      have ha : a < 2 := hk.1
      have hb : b < 3 := hk.2.1
      show (ci : Int) * 100 + ((1 - (2 - 1 - a) : Nat) : Int) * 10 + ((2 - (3 - 1 - b) : Nat) : Int) + 1 =
        (ci : Int) * 100 + a * 10 + b + 1
      omega

end Verif.NN
