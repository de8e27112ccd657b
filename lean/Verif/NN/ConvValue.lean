import Verif.NN.Conv
/-!
# C99: what convolutions and transposed convolutions compute, and when they can be made and called

The specification extends the input to a signal over all integers, as the padding mode says, so that the padding is merely an offset.
-/

namespace Verif.NN.Value

variable {R : Type}

/-! ## Specification -/

/-- Which element of a line of `n` elements is found at position `z` of the signal that extends it: there are zeros around it, or it is
repeated, or its ends are, or it is mirrored at its ends. (Without elements there is nothing to repeat.) -/
def extend (m : Mode) (n : Nat) (z : Int) : Option Nat :=
  match m with
  | .zeros => if 0 ≤ z ∧ z < n then some z.toNat else none
  | .circular => if n = 0 then none else some (z % n).toNat
  | .replicate => some (if z < 0 then 0 else if z < n then z.toNat else n - 1)
  | .reflect => if n = 1 then some 0 else some ((z + (n - 1)) % (2 * (n - 1)) - (n - 1)).natAbs

/-- Where the first window starts: this far before the first element. -/
def before (pad : Pad) (n : Nat) (h : HDim) (j : Nat) : Int :=
  let total := max 0 ((ceilDiv n h.s - 1) * h.s + (h.d * (h.k - 1) + 1) - n)
  match pad with
  | .valid => 0
  | .pairs l => (l[j]?.getD (0, 0)).1
  | .same => total / 2
  | .sameLower => total - total / 2

/-- The element of the input that meets entry `k` of the kernel at entry `o` of the output: windows start at multiples of the stride,
and take every `d`-th element. -/
def source (m : Mode) (pad : Pad) : Nat → List Nat → List HDim → List Nat → List Nat → Option (List Nat)
  | _, [], [], [], [] => some []
  | j, n :: ns, h :: hs, o :: os, k :: ks =>
    match extend m n (o * h.s + k * h.d - before pad n h j), source m pad (j + 1) ns hs os ks with
    | some i, some is => some (i :: is)
    | _, _ => none
  | _, _, _, _, _ => none

/-- The same for transposed convolutions: the elements of the signal are put at the multiples of the stride, with zeros between them. -/
def spread (m : Mode) (n : Nat) (s z : Int) : Option Nat := if s ∣ z then extend m n (z / s) else none

def beforeT (pad : Pad) (h : HDim) (j : Nat) : Int :=
  let total := max 0 (h.d * (h.k - 1) - h.s + h.a + 1)
  h.d * (h.k - 1) - (match pad with
    | .valid => 0
    | .pairs l => (l[j]?.getD (0, 0)).1
    | .same => total / 2
    | .sameLower => (total + 1) / 2)

def sourceT (m : Mode) (pad : Pad) : Nat → List Nat → List HDim → List Nat → List Nat → Option (List Nat)
  | _, [], [], [], [] => some []
  | j, n :: ns, h :: hs, o :: os, k :: ks =>
    match spread m n h.s (o + k * h.d - beforeT pad h j), sourceT m pad (j + 1) ns hs os ks with
    | some i, some is => some (i :: is)
    | _, _ => none
  | _, _, _, _, _ => none

/-- The sum over all entries of the kernel and all input channels of the group of the output channel, plus the bias. -/
def total [CommSemiring R] (c : Conv R) (x : NArr R) (src : List Nat → Option (List Nat)) (co : Nat) : R :=
  (∑ ci ∈ Finset.range (c.inChannels / c.groups), boxSum (c.dims.map fun h => h.k.toNat) fun kk =>
    (src kk).elim 0 fun i =>
      c.weight.at_ (co :: ci :: kk) * x.at_ ((co / (c.outChannels / c.groups) * (c.inChannels / c.groups) + ci) :: i)) +
    c.bias.elim 0 fun b => b co

/-! ## One dimension -/

theorem before_eq (pad : Pad) (n : Nat) (h : HDim) (j : Nat) : (convPads pad n h (pad.entry j)).1 = before pad n h j := by
  cases pad <;> simp [convPads, before, samePads, Pad.entry, ceilDiv, Int.add_assoc]

theorem read_zeros (n : Nat) (h : HDim) (p : Int × Int) (o k : Nat) :
    CDim.read ⟨n, h.k, h.s, h.d, p.1, p.2, 1⟩ o k = extend .zeros n (o * h.s + k * h.d - p.1) := by
  simp [CDim.read, extend]

theorem window_inside {n' o k : Nat} {h : HDim} (g : h.Good) (ho : o < (⟨n', h.k, h.s, h.d, 0, 0, 1⟩ : CDim).out)
    (hk : k < h.k.toNat) : 0 ≤ o * h.s + k * h.d ∧ o * h.s + k * h.d < n' := by
  have hs := g.s
  have hd := g.d
  have hw := g.window
  have e := convDim_out n' h (0, 0) g
  simp only [convSize] at e
  have ho' : (o : Int) < (⟨n', h.k, h.s, h.d, 0, 0, 1⟩ : CDim).out := by exact_mod_cast ho
  rw [e] at ho'
  have h1 : (o : Int) ≤ ((n' : Int) + 0 + 0 - (h.d * (h.k - 1) + 1)) / h.s := by omega
  have h2 := (Int.le_ediv_iff_mul_le hs).1 h1
  have h3 : (k : Int) * h.d ≤ h.d * (h.k - 1) := by
    rw [Int.mul_comm]
    exact Int.mul_le_mul_of_nonneg_left (by omega) (by omega)
  have h4 : 0 ≤ (k : Int) * h.d := Int.mul_nonneg (by omega) (by omega)
  have h5 : 0 ≤ (o : Int) * h.s := Int.mul_nonneg (by omega) (by omega)
  omega

theorem padIndex_extend (m : Mode) (hm : m ≠ .zeros) (n : Nat) (hn : 0 < n) (p : Int) (i : Nat) :
    some (padIndex m n p i) = extend m n (i - p) := by
  cases m with
  | zeros => exact absurd rfl hm
  | circular => simp [padIndex, extend, show n ≠ 0 by omega]
  | replicate =>
    simp only [padIndex, extend, Option.some.injEq]
    split
    · omega
    · split <;> omega
  | reflect =>
    simp only [padIndex, extend]
    by_cases h1 : n = 1
    · simp [h1]
    · have h2 : ¬ n ≤ 1 := by omega
      simp only [h1, h2, if_false, Option.some.injEq]
      generalize (i : Int) - p = z
      have hM : (0 : Int) < 2 * ((n : Int) - 1) := by omega
      have a1 := Int.emod_nonneg z (show (2 * ((n : Int) - 1)) ≠ 0 by omega)
      have a2 := Int.emod_lt_of_pos z hM
      have key : (z + ((n : Int) - 1)) % (2 * ((n : Int) - 1)) =
          if z % (2 * ((n : Int) - 1)) < (n : Int) - 1 then z % (2 * ((n : Int) - 1)) + ((n : Int) - 1)
          else z % (2 * ((n : Int) - 1)) - ((n : Int) - 1) := by
        rw [Int.add_emod, Int.emod_eq_of_lt (a := (n : Int) - 1) (by omega) (by omega)]
        split
        · exact Int.emod_eq_of_lt (by omega) (by omega)
        · rw [← Int.sub_emod_right, Int.emod_eq_of_lt] <;> omega
      rw [key]
      split <;> split <;> omega

theorem read_padded (m : Mode) (hm : m ≠ .zeros) {n : Nat} {h : HDim} (g : h.Good) {p : Int × Int} (hp : 0 ≤ p.1 ∧ 0 ≤ p.2)
    (h0 : n = 0 → p = (0, 0)) {o k : Nat} (ho : o < (⟨((n : Int) + p.1 + p.2).toNat, h.k, h.s, h.d, 0, 0, 1⟩ : CDim).out)
    (hk : k < h.k.toNat) :
    (CDim.read ⟨((n : Int) + p.1 + p.2).toNat, h.k, h.s, h.d, 0, 0, 1⟩ o k).map (padIndex m n p.1) =
      extend m n (o * h.s + k * h.d - p.1) := by
  obtain ⟨w1, w2⟩ := window_inside g ho hk
  have hn : 0 < n := by
    rcases Nat.eq_zero_or_pos n with rfl | hn
    · rw [h0 rfl] at w2
      simp at w2
      omega
    · exact hn
  rw [show (CDim.read ⟨((n : Int) + p.1 + p.2).toNat, h.k, h.s, h.d, 0, 0, 1⟩ o k) =
    some ((o : Int) * h.s + k * h.d).toNat by simp [CDim.read, w1]; omega]
  rw [Option.map_some, padIndex_extend m hm n hn]
  congr 2
  omega

theorem beforeT_eq (pad : Pad) (h : HDim) (j : Nat) : (padTranspose pad h (pad.entry j)).1 = beforeT pad h j := by
  cases pad with
  | valid => simp [padTranspose, beforeT]
  | pairs l => simp [padTranspose, beforeT, Pad.entry]
  | same =>
    simp only [padTranspose, beforeT]
    split <;> congr 2 <;> omega
  | sameLower =>
    simp only [padTranspose, beforeT]
    split <;> congr 2 <;> omega

theorem read_spread (n : Nat) (h : HDim) (p : Int × Int) (o k : Nat) :
    CDim.read ⟨n, h.k, 1, h.d, p.1, p.2, h.s⟩ o k = spread .zeros n h.s (o + k * h.d - p.1) := by
  simp only [CDim.read, spread, extend, Int.mul_one, Int.dvd_iff_emod_eq_zero]
  by_cases hz : ((o : Int) + k * h.d - p.1) % h.s = 0 <;> simp [hz]

theorem read_spread_circular {n : Nat} {h : HDim} (g : h.Good) {p : Int × Int} (hp : 0 ≤ p.1 / h.s ∧ 0 ≤ p.2 / h.s)
    (h0 : n = 0 → (p.1 / h.s, p.2 / h.s) = (0, 0)) {o k : Nat}
    (ho : o < (⟨((n : Int) + p.1 / h.s + p.2 / h.s).toNat, h.k, 1, h.d, p.1 % h.s, p.2 % h.s, h.s⟩ : CDim).out)
    (hk : k < h.k.toNat) :
    (CDim.read ⟨((n : Int) + p.1 / h.s + p.2 / h.s).toNat, h.k, 1, h.d, p.1 % h.s, p.2 % h.s, h.s⟩ o k).map
      (padIndex .circular n (p.1 / h.s)) = spread .circular n h.s (o + k * h.d - p.1) := by
  rcases Nat.eq_zero_or_pos n with rfl | hn
  · have h0' := h0 rfl
    simp only [Prod.mk.injEq] at h0'
    have : ∀ z : Int, spread .circular 0 h.s z = none := fun z => by simp [spread, extend]
    rw [this, h0'.1, h0'.2]
    simp only [CDim.read, Int.mul_one]
    rw [if_neg]
    · rfl
    · simp
  have hs := g.s
  have hd := g.d
  have hw := g.window
  have e := CDim.out_eq ⟨((n : Int) + p.1 / h.s + p.2 / h.s).toNat, h.k, 1, h.d, p.1 % h.s, p.2 % h.s, h.s⟩ Int.one_pos
  simp only at e
  have ho' : (o : Int) < (⟨((n : Int) + p.1 / h.s + p.2 / h.s).toNat, h.k, 1, h.d, p.1 % h.s, p.2 % h.s, h.s⟩ : CDim).out := by
    exact_mod_cast ho
  rw [e, Int.ediv_one] at ho'
  have r1 := Int.emod_nonneg p.1 (show h.s ≠ 0 by omega)
  have r2 := Int.emod_lt_of_pos p.1 hs
  have r3 := Int.emod_nonneg p.2 (show h.s ≠ 0 by omega)
  have r4 := Int.emod_lt_of_pos p.2 hs
  have q1 := Int.mul_ediv_add_emod p.1 h.s
  have h3 : (k : Int) * h.d ≤ h.d * (h.k - 1) := by
    rw [Int.mul_comm]
    exact Int.mul_le_mul_of_nonneg_left (by omega) (by omega)
  have h4 : 0 ≤ (k : Int) * h.d := Int.mul_nonneg (by omega) (by omega)
  -- position in the padded array, which is `a` whole elements ahead
  have hz : (o : Int) + k * h.d - p.1 % h.s = ((o : Int) + k * h.d - p.1) + h.s * (p.1 / h.s) := by omega
  simp only [CDim.read, Int.mul_one, spread, Int.dvd_iff_emod_eq_zero]
  rw [hz, Int.add_mul_emod_self_left, Int.add_mul_ediv_left _ _ (show h.s ≠ 0 by omega)]
  by_cases hm : ((o : Int) + k * h.d - p.1) % h.s = 0
  · have hq := Int.mul_ediv_add_emod ((o : Int) + k * h.d - p.1) h.s
    rw [hm] at hq
    generalize hA : ((o : Int) + k * h.d - p.1) / h.s = A at hq ⊢
    generalize hB : p.1 / h.s = B at *
    generalize hC : p.2 / h.s = C at *
    -- bounds for `A + B`
    have lo : 0 ≤ A + B := by
      by_contra hneg
      have : h.s * (A + B) ≤ h.s * (-1) := Int.mul_le_mul_of_nonneg_left (by omega) (by omega)
      rw [Int.mul_add] at this
      omega
    have hi : A + B < ((n : Int) + B + C).toNat := by
      by_contra hge
      have hge' : ((n : Int) + B + C) ≤ A + B := by omega
      split at ho'
      · rename_i hz0
        omega
      · have : h.s * ((n : Int) + B + C) ≤ h.s * (A + B) := Int.mul_le_mul_of_nonneg_left hge' (by omega)
        rw [Int.mul_add h.s A B] at this
        have ec : (((n : Int) + B + C).toNat : Int) = (n : Int) + B + C := by omega
        rw [ec, Int.sub_mul, Int.mul_comm ((n : Int) + B + C) h.s] at ho'
        omega
    rw [if_pos ⟨hm, lo, hi⟩, if_pos hm, Option.map_some, padIndex_extend _ (by decide) n hn]
    congr 1
    omega
  · rw [if_neg (fun h => hm h.1), if_neg hm]
    rfl

/-! ## All dimensions -/

theorem gather_zeros (pad : Pad) (j : Nat) (ns : List Nat) (hs : List HDim) (hl : ns.length = hs.length) (o kk : List Nat) :
    gather (convDims ns hs (allPads pad j ns hs)) o kk = source .zeros pad j ns hs o kk := by
  induction ns generalizing j hs o kk with
  | nil =>
    cases hs with
    | nil => cases o <;> cases kk <;> rfl
    | cons _ _ => simp at hl
  | cons n ns ih =>
    cases hs with
    | nil => simp at hl
    | cons h hs =>
      cases o with
      | nil => cases kk <;> rfl
      | cons o os =>
        cases kk with
        | nil => rfl
        | cons k ks =>
          simp only [allPads, convDims, gather, source, ih (j + 1) hs (by simpa using hl)]
          rw [read_zeros, before_eq]
          rfl

theorem gather_padded (m : Mode) (hm : m ≠ .zeros) (pad : Pad) (j : Nat) (ns : List Nat) (hs : List HDim)
    (hl : ns.length = hs.length) (g : ∀ h ∈ hs, h.Good) (hp : ∀ p ∈ allPads pad j ns hs, 0 ≤ p.1 ∧ 0 ≤ p.2)
    (h0 : ∀ (i n : Nat) (p : Int × Int), ns[i]? = some n → (allPads pad j ns hs)[i]? = some p → n = 0 → p = (0, 0))
    (o kk : List Nat)
    (ho : InB o ((convDims (padShape ns (allPads pad j ns hs)) hs (hs.map fun _ => (0, 0))).map CDim.out))
    (hk : InB kk (hs.map fun h => h.k.toNat)) :
    (gather (convDims (padShape ns (allPads pad j ns hs)) hs (hs.map fun _ => (0, 0))) o kk).map
      (padIndices m ns (allPads pad j ns hs)) = source m pad j ns hs o kk := by
  induction ns generalizing j hs o kk with
  | nil =>
    cases hs with
    | nil => cases o <;> cases kk <;> rfl
    | cons _ _ => simp at hl
  | cons n ns ih =>
    cases hs with
    | nil => simp at hl
    | cons h hs =>
      cases o with
      | nil => exact absurd ho (by simp [allPads, padShape, convDims, InB])
      | cons o os =>
        cases kk with
        | nil => exact absurd hk (by simp [InB])
        | cons k ks =>
          simp only [allPads, padShape, convDims, List.map_cons, InB] at ho hk ⊢
          have hp0 := hp _ (by rw [allPads]; exact List.mem_cons_self)
          have h00 : n = 0 → convPads pad n h (pad.entry j) = (0, 0) := h0 0 n _ rfl (by rw [allPads]; rfl)
          have e1 := read_padded m hm (g h List.mem_cons_self) hp0 h00 ho.1 hk.1
          have e2 := ih (j + 1) hs (by simpa using hl) (fun h' hh => g h' (List.mem_cons_of_mem _ hh))
            (fun p hpp => hp p (by rw [allPads]; exact List.mem_cons_of_mem _ hpp))
            (fun i n' p' hn hp' => h0 (i + 1) n' p' (by simpa using hn) (by rw [allPads]; simpa using hp')) os ks ho.2 hk.2
          simp only [gather, source]
          rw [← before_eq, ← e1, ← e2]
          cases CDim.read ⟨((n : Int) + (convPads pad n h (pad.entry j)).1 + (convPads pad n h (pad.entry j)).2).toNat,
              h.k, h.s, h.d, 0, 0, 1⟩ o k with
          | none => rfl
          | some i =>
            cases gather (convDims (padShape ns (allPads pad (j + 1) ns hs)) hs (hs.map fun _ => (0, 0))) os ks <;> rfl

theorem gather_spread (pad : Pad) (j : Nat) (ns : List Nat) (hs : List HDim) (hl : ns.length = hs.length) (o kk : List Nat) :
    gather (convDimsT ns hs (allPadsT pad j hs)) o kk = sourceT .zeros pad j ns hs o kk := by
  induction ns generalizing j hs o kk with
  | nil =>
    cases hs with
    | nil => cases o <;> cases kk <;> rfl
    | cons _ _ => simp at hl
  | cons n ns ih =>
    cases hs with
    | nil => simp at hl
    | cons h hs =>
      cases o with
      | nil => cases kk <;> rfl
      | cons o os =>
        cases kk with
        | nil => rfl
        | cons k ks =>
          simp only [allPadsT, convDimsT, gather, sourceT, ih (j + 1) hs (by simpa using hl)]
          rw [read_spread, beforeT_eq]
          rfl

/-- `padding_t // stride` and `padding_t % stride` -/
abbrev whole (pad : Pad) (j : Nat) (hs : List HDim) : List (Int × Int) :=
  List.zipWith (fun p h => (p.1 / h.s, p.2 / h.s)) (allPadsT pad j hs) hs
abbrev rest (pad : Pad) (j : Nat) (hs : List HDim) : List (Int × Int) :=
  List.zipWith (fun p h => (p.1 % h.s, p.2 % h.s)) (allPadsT pad j hs) hs

theorem gather_spread_circular (pad : Pad) (j : Nat) (ns : List Nat) (hs : List HDim)
    (hl : ns.length = hs.length) (g : ∀ h ∈ hs, h.Good) (hp : ∀ p ∈ whole pad j hs, 0 ≤ p.1 ∧ 0 ≤ p.2)
    (h0 : ∀ (i n : Nat) (p : Int × Int), ns[i]? = some n → (whole pad j hs)[i]? = some p → n = 0 → p = (0, 0))
    (o kk : List Nat)
    (ho : InB o ((convDimsT (padShape ns (whole pad j hs)) hs (rest pad j hs)).map CDim.out))
    (hk : InB kk (hs.map fun h => h.k.toNat)) :
    (gather (convDimsT (padShape ns (whole pad j hs)) hs (rest pad j hs)) o kk).map
      (padIndices .circular ns (whole pad j hs)) = sourceT .circular pad j ns hs o kk := by
  induction ns generalizing j hs o kk with
  | nil =>
    cases hs with
    | nil => cases o <;> cases kk <;> rfl
    | cons _ _ => simp at hl
  | cons n ns ih =>
    cases hs with
    | nil => simp at hl
    | cons h hs =>
      cases o with
      | nil => exact absurd ho (by simp [whole, rest, allPadsT, padShape, convDimsT, InB])
      | cons o os =>
        cases kk with
        | nil => exact absurd hk (by simp [InB])
        | cons k ks =>
          simp only [whole, rest, allPadsT, List.zipWith_cons_cons, padShape, convDimsT, List.map_cons, InB] at ho hk hp h0 ⊢
          have hp0 := hp _ List.mem_cons_self
          have h00 := h0 0 n _ rfl rfl
          have e1 := read_spread_circular (g h List.mem_cons_self) hp0 h00 ho.1 hk.1
          have e2 := ih (j + 1) hs (by simpa using hl) (fun h' hh => g h' (List.mem_cons_of_mem _ hh))
            (fun p hpp => hp p (List.mem_cons_of_mem _ hpp))
            (fun i n' p' hn hp' => h0 (i + 1) n' p' (by simpa using hn) (by simpa using hp')) os ks ho.2 hk.2
          simp only [gather, sourceT]
          rw [← beforeT_eq, ← e1, ← e2]
          cases CDim.read ⟨((n : Int) + (padTranspose pad h (pad.entry j)).1 / h.s +
              (padTranspose pad h (pad.entry j)).2 / h.s).toNat, h.k, 1, h.d, (padTranspose pad h (pad.entry j)).1 % h.s,
              (padTranspose pad h (pad.entry j)).2 % h.s, h.s⟩ o k with
          | none => rfl
          | some i =>
            cases gather (convDimsT (padShape ns (whole pad (j + 1) hs)) hs (rest pad (j + 1) hs)) os ks <;> rfl

theorem addBias_at [CommSemiring R] (b : Option (Nat → R)) (x : NArr R) (co : Nat) (o : List Nat) :
    (addBias b x).at_ (co :: o) = x.at_ (co :: o) + b.elim 0 (fun f => f co) := by
  cases b <;> simp [addBias]

theorem addBias_shape [CommSemiring R] (b : Option (Nat → R)) (x : NArr R) : (addBias b x).shape = x.shape := by
  cases b <;> rfl

/-! ## Theorems -/

/-- **C99**: every entry of the result of `Conv`, for all padding modes, strides, dilations, groups and numbers of dimensions. -/
theorem conv_value [CommSemiring R] (c : Conv R) (x y : NArr R) (h : c.call x = .ok y) (co : Nat) (o : List Nat)
    (ho : InB (co :: o) y.shape) :
    y.at_ (co :: o) = total c x (source c.mode c.padding 0 x.shape.tail c.dims o) co := by
  obtain ⟨ns, hx, hl, _, _, hgood⟩ := conv_shape c x y h
  have good : ∀ h ∈ c.dims, h.Good := by
    intro h hh
    obtain ⟨j, hj⟩ := List.getElem?_of_mem hh
    have hjl : j < ns.length := by rw [hl]; exact (List.getElem?_eq_some_iff.1 hj).1
    exact (hgood j ns[j] h (List.getElem?_eq_getElem hjl) hj).1
  have hpl := allPads_length c.padding 0 ns c.dims hl
  simp only [Conv.call, hx, List.tail_cons] at h ⊢
  rw [if_neg (by simp [hl])] at h
  by_cases hm : c.mode = .zeros
  · rw [if_pos hm] at h
    simp only [bind, Except.bind] at h
    split at h
    · simp at h
    rename_i z hc
    simp only [Except.ok.injEq] at h
    subst h
    obtain ⟨_, _, _, _, _, _, hv⟩ := convGeneral_ok _ _ _ _ _ _ _ hc
    rw [addBias_at, hv, total, convDims_kernel ns c.dims _ hl.symm hpl]
    congr 1
    refine Finset.sum_congr rfl fun ci _ => boxSum_congr fun kk _ => ?_
    rw [gather_zeros c.padding 0 ns c.dims hl, hm]
    cases source .zeros c.padding 0 ns c.dims o kk <;> rfl
  · rw [if_neg hm] at h
    simp only [bind, Except.bind] at h
    split at h
    · simp at h
    rename_i x' hp
    split at h
    · simp at h
    rename_i z hc
    simp only [Except.ok.injEq] at h
    subst h
    obtain ⟨ch', ns', e1, e2, e3, e4, e5⟩ := padArr_ok _ _ _ _ hp
    rw [hx] at e1
    injection e1 with e1a e1b
    subst e1b
    have hsl := padShape_length ns (allPads c.padding 0 ns c.dims) hpl
    obtain ⟨_, _, _, _, _, hsh, hv⟩ := convGeneral_ok _ _ _ _ _ _ _ hc
    rw [addBias_shape, hsh] at ho
    simp only [e4, List.tail_cons] at ho hv
    rw [addBias_at, hv, total, convDims_kernel _ c.dims _ (by omega) (by simp; omega)]
    congr 1
    refine Finset.sum_congr rfl fun ci _ => boxSum_congr fun kk hkk => ?_
    rw [← gather_padded c.mode hm c.padding 0 ns c.dims hl good e2 e3 o kk ho.2 hkk]
    cases gather (convDims (padShape ns (allPads c.padding 0 ns c.dims)) c.dims (c.dims.map fun _ => (0, 0))) o kk with
    | none => rfl
    | some i => simp only [Option.map_some, Option.elim, e5]

/-- **C99**: every entry of the result of `ConvTranspose`. -/
theorem convT_value [CommSemiring R] (c : Conv R) (x y : NArr R) (hmode : c.mode = .zeros ∨ c.mode = .circular)
    (h : c.callT x = .ok y) (co : Nat) (o : List Nat) (ho : InB (co :: o) y.shape) :
    y.at_ (co :: o) = total c x (sourceT c.mode c.padding 0 x.shape.tail c.dims o) co := by
  simp only [Conv.callT] at h
  split at h
  · simp at h
  rename_i hr
  cases hx : x.shape with
  | nil => simp [hx] at hr
  | cons ch ns =>
  have hl : ns.length = c.dims.length := by simp [hx] at hr; omega
  have ptl := allPadsT_length c.padding 0 c.dims
  have wl : (whole c.padding 0 c.dims).length = ns.length := by simp [whole, ptl, hl]
  have rl : (rest c.padding 0 c.dims).length = ns.length := by simp [rest, ptl, hl]
  simp only [hx, List.tail_cons] at h ⊢
  by_cases hm : c.mode = .circular
  · rw [if_pos hm] at h
    simp only [bind, Except.bind] at h
    split at h
    · simp at h
    rename_i x' hp
    split at h
    · simp at h
    rename_i z hc
    simp only [Except.ok.injEq] at h
    subst h
    obtain ⟨ch', ns', e1, e2, e3, e4, e5⟩ := padArr_ok _ _ _ _ hp
    rw [hx] at e1
    injection e1 with e1a e1b
    subst e1b
    have hsl := padShape_length ns (whole c.padding 0 c.dims) wl
    obtain ⟨hg, _, _, _, _, hsh, hv⟩ := convGeneral_ok _ _ _ _ _ _ _ hc
    rw [addBias_shape, hsh] at ho
    simp only [e4, List.tail_cons] at ho hv hg
    have good : ∀ h ∈ c.dims, h.Good := by
      intro h hh
      obtain ⟨j, hj⟩ := List.getElem?_of_mem hh
      have hjl : j < c.dims.length := (List.getElem?_eq_some_iff.1 hj).1
      have hjs : j < (padShape ns (whole c.padding 0 c.dims)).length := by omega
      have hjr : j < (rest c.padding 0 c.dims).length := by omega
      have := hg _ (List.mem_of_getElem? (convDimsT_get _ c.dims _ j _ h _ (List.getElem?_eq_getElem hjs) hj
        (List.getElem?_eq_getElem hjr)))
      exact ⟨this.2.2.2, this.2.2.1, this.2.1⟩
    rw [addBias_at, hv, total, convDimsT_kernel _ c.dims _ (hl.symm.trans hsl.symm) (rl.trans hsl.symm)]
    congr 1
    refine Finset.sum_congr rfl fun ci _ => boxSum_congr fun kk hkk => ?_
    rw [hm, ← gather_spread_circular c.padding 0 ns c.dims hl good e2 e3 o kk ho.2 hkk]
    cases gather (convDimsT (padShape ns (whole c.padding 0 c.dims)) c.dims (rest c.padding 0 c.dims)) o kk with
    | none => rfl
    | some i => simp only [Option.map_some, Option.elim, e5]
  · rw [if_neg hm] at h
    have hz : c.mode = .zeros := hmode.resolve_right hm
    simp only [bind, Except.bind] at h
    split at h
    · simp at h
    rename_i z hc
    simp only [Except.ok.injEq] at h
    subst h
    obtain ⟨_, _, _, _, _, _, hv⟩ := convGeneral_ok _ _ _ _ _ _ _ hc
    rw [addBias_at, hv, total, convDimsT_kernel ns c.dims _ hl.symm (by omega)]
    congr 1
    refine Finset.sum_congr rfl fun ci _ => boxSum_congr fun kk _ => ?_
    rw [gather_spread c.padding 0 ns c.dims hl, hz]
    cases sourceT .zeros c.padding 0 ns c.dims o kk <;> rfl

/-! ## When calls succeed -/

theorem convGeneral_iff [CommSemiring R] (x w : NArr R) (inC outC groups : Nat) (dims : List CDim) :
    (∃ y, convGeneral x w inC outC groups dims = .ok y) ↔
      (∀ c ∈ dims, 0 < c.s ∧ 0 < c.d ∧ 0 < c.ld ∧ 0 < c.k) ∧ x.shape.head? = some inC ∧
      0 < groups ∧ inC % groups = 0 ∧ outC % groups = 0 := by
  constructor
  · rintro ⟨y, h⟩
    obtain ⟨h1, h2, h3, h4, h5, _⟩ := convGeneral_ok _ _ _ _ _ _ _ h
    exact ⟨h1, h2, h3, h4, h5⟩
  · rintro ⟨h1, h2, h3, h4, h5⟩
    simp only [convGeneral]
    rw [if_neg, if_neg (by simp [h2]), if_neg (by omega)]
    · exact ⟨_, rfl⟩
    · simp only [List.any_eq_true, decide_eq_true_eq, not_exists, not_and]
      intro c hc
      have := h1 c hc
      omega

theorem good_iff (ns : List Nat) (hs : List HDim) (ps : List (Int × Int)) (h1 : hs.length = ns.length) (h2 : ps.length = ns.length) :
    (∀ c ∈ convDims ns hs ps, 0 < c.s ∧ 0 < c.d ∧ 0 < c.ld ∧ 0 < c.k) ↔ ∀ h ∈ hs, h.Good := by
  induction ns generalizing hs ps with
  | nil =>
    have : hs = [] := List.length_eq_zero_iff.1 h1
    simp [this, convDims]
  | cons n ns ih =>
    match hs, ps, h1, h2 with
    | h :: hs, p :: ps, h1, h2 =>
      simp only [convDims, List.forall_mem_cons, ih hs ps (by simpa using h1) (by simpa using h2)]
      constructor
      · rintro ⟨a, b⟩
        exact ⟨⟨a.2.2.2, a.1, a.2.1⟩, b⟩
      · rintro ⟨a, b⟩
        exact ⟨⟨a.s, a.d, Int.one_pos, a.k⟩, b⟩

/-- The padding of a dimension can be added by `jnp.pad`: it takes away nothing, and there is something to fill it from. -/
def CanPad (n : Nat) (p : Int × Int) : Prop := 0 ≤ p.1 ∧ 0 ≤ p.2 ∧ (n = 0 → p = (0, 0))

theorem padArr_iff (m : Mode) (x : NArr R) (ch : Nat) (ns : List Nat) (ps : List (Int × Int)) (hx : x.shape = ch :: ns)
    (hl : ps.length = ns.length) :
    (∃ y, padArr m x ps = .ok y) ↔ ∀ (j n : Nat) (p : Int × Int), ns[j]? = some n → ps[j]? = some p → CanPad n p := by
  constructor
  · rintro ⟨y, h⟩ j n p hn hp
    obtain ⟨_, _, e1, e2, e3, _⟩ := padArr_ok _ _ _ _ h
    rw [hx] at e1
    injection e1 with _ e1
    subst e1
    have := e2 p (List.mem_of_getElem? hp)
    exact ⟨this.1, this.2, e3 j n p hn hp⟩
  · intro h
    simp only [padArr, hx]
    rw [if_neg, if_neg]
    · exact ⟨_, rfl⟩
    · simp only [List.any_eq_true, decide_eq_true_eq, not_exists, not_and]
      rintro ⟨n, p⟩ hq h0
      obtain ⟨j, hj⟩ := List.getElem?_of_mem hq
      rw [List.getElem?_zip_eq_some] at hj
      have := (h j n p hj.1 hj.2).2.2 h0
      simp [this]
    · simp only [List.any_eq_true, decide_eq_true_eq, not_exists, not_and]
      intro p hp
      obtain ⟨j, hj⟩ := List.getElem?_of_mem hp
      have hjl : j < ns.length := by rw [← hl]; exact (List.getElem?_eq_some_iff.1 hj).1
      have := h j ns[j] p (List.getElem?_eq_getElem hjl) hj
      have a1 := this.1
      have a2 := this.2.1
      omega

/-- **C99**: which calls of `Conv` return. -/
theorem conv_ok_iff [CommSemiring R] (c : Conv R) (x : NArr R) :
    (∃ y, c.call x = .ok y) ↔ ∃ ns, x.shape = c.inChannels :: ns ∧ ns.length = c.dims.length ∧ (∀ h ∈ c.dims, h.Good) ∧
      0 < c.groups ∧ c.inChannels % c.groups = 0 ∧ c.outChannels % c.groups = 0 ∧
      (c.mode ≠ .zeros → ∀ (j n : Nat) (h : HDim), ns[j]? = some n → c.dims[j]? = some h →
        CanPad n (convPads c.padding n h (c.padding.entry j))) := by
  by_cases hr : x.shape.length = c.dims.length + 1
  swap
  · constructor
    · rintro ⟨y, h⟩
      simp [Conv.call, hr] at h
    · rintro ⟨ns, h1, h2, _⟩
      exact absurd (by rw [h1]; simp [h2]) hr
  cases hx : x.shape with
  | nil => simp [hx] at hr
  | cons ch ns =>
  have hl : ns.length = c.dims.length := by simp [hx] at hr; omega
  have hpl := allPads_length c.padding 0 ns c.dims hl
  have hsl := padShape_length ns (allPads c.padding 0 ns c.dims) hpl
  have pads : (∀ (j n : Nat) (p : Int × Int), ns[j]? = some n → (allPads c.padding 0 ns c.dims)[j]? = some p → CanPad n p) ↔
      ∀ (j n : Nat) (h : HDim), ns[j]? = some n → c.dims[j]? = some h →
        CanPad n (convPads c.padding n h (c.padding.entry j)) := by
    constructor
    · intro H j n h hn hh
      have := allPads_get c.padding 0 ns c.dims j n h hn hh
      rw [Nat.zero_add] at this
      exact H j n _ hn this
    · intro H j n p hn hp
      have hjl : j < c.dims.length := by rw [← hl]; exact (List.getElem?_eq_some_iff.1 hn).1
      have hh := List.getElem?_eq_getElem hjl
      have := allPads_get c.padding 0 ns c.dims j n _ hn hh
      rw [hp, Nat.zero_add] at this
      injection this with this
      rw [this]
      exact H j n _ hn hh
  have ex : ∀ P : List Nat → Prop, (∃ ns', ch :: ns = c.inChannels :: ns' ∧ P ns') ↔ ch = c.inChannels ∧ P ns := by
    intro P
    constructor
    · rintro ⟨ns', h, hp⟩
      injection h with h1 h2
      subst h2
      exact ⟨h1, hp⟩
    · rintro ⟨h1, hp⟩
      exact ⟨ns, by rw [h1], hp⟩
  rw [ex]
  simp only [Conv.call, hx, List.tail_cons]
  rw [if_neg (by simp [hl])]
  by_cases hm : c.mode = .zeros
  · rw [if_pos hm]
    have := convGeneral_iff x c.weight c.inChannels c.outChannels c.groups (convDims ns c.dims (allPads c.padding 0 ns c.dims))
    rw [good_iff ns c.dims _ hl.symm hpl, hx] at this
    simp only [List.head?_cons, Option.some.injEq] at this
    constructor
    · rintro ⟨y, h⟩
      simp only [bind, Except.bind] at h
      split at h
      · simp at h
      rename_i z hz
      obtain ⟨a, b, d, e, f⟩ := this.1 ⟨z, hz⟩
      exact ⟨b, hl, a, d, e, f, fun h => absurd hm h⟩
    · rintro ⟨b, _, a, d, e, f, _⟩
      obtain ⟨z, hz⟩ := this.2 ⟨a, b, d, e, f⟩
      exact ⟨addBias c.bias z, by simp [hz, bind, Except.bind]⟩
  · rw [if_neg hm]
    have hp := padArr_iff c.mode x ch ns (allPads c.padding 0 ns c.dims) hx hpl
    rw [pads] at hp
    have hg : ∀ x' : NArr R, x'.shape = ch :: padShape ns (allPads c.padding 0 ns c.dims) → _ := fun x' hx' =>
      convGeneral_iff x' c.weight c.inChannels c.outChannels c.groups
        (convDims x'.shape.tail c.dims (c.dims.map fun _ => (0, 0)))
    constructor
    · rintro ⟨y, h⟩
      simp only [bind, Except.bind] at h
      split at h
      · simp at h
      rename_i x' hx'
      split at h
      · simp at h
      rename_i z hz
      obtain ⟨ch', ns', e1, _, _, e4, _⟩ := padArr_ok _ _ _ _ hx'
      rw [hx] at e1
      injection e1 with e1a e1b
      subst e1a; subst e1b
      have := hg x' e4
      rw [e4, List.tail_cons, good_iff _ c.dims _ (by omega) (by simp; omega)] at this
      simp only [List.head?_cons, Option.some.injEq] at this
      obtain ⟨a, b, d, e, f⟩ := this.1 ⟨z, by rw [e4] at hz; exact hz⟩
      exact ⟨b, hl, a, d, e, f, fun _ => hp.1 ⟨x', hx'⟩⟩
    · rintro ⟨b, _, a, d, e, f, q⟩
      obtain ⟨x', hx'⟩ := hp.2 (q hm)
      obtain ⟨ch', ns', e1, _, _, e4, _⟩ := padArr_ok _ _ _ _ hx'
      rw [hx] at e1
      injection e1 with e1a e1b
      subst e1a; subst e1b
      have := hg x' e4
      rw [e4, List.tail_cons, good_iff _ c.dims _ (by omega) (by simp; omega)] at this
      simp only [List.head?_cons, Option.some.injEq] at this
      obtain ⟨z, hz⟩ := this.2 ⟨a, b, d, e, f⟩
      refine ⟨addBias c.bias z, ?_⟩
      simp only [hx', bind, Except.bind, e4, List.tail_cons, hz]

theorem goodT_iff (ns : List Nat) (hs : List HDim) (ps : List (Int × Int)) (h1 : hs.length = ns.length) (h2 : ps.length = ns.length) :
    (∀ c ∈ convDimsT ns hs ps, 0 < c.s ∧ 0 < c.d ∧ 0 < c.ld ∧ 0 < c.k) ↔ ∀ h ∈ hs, h.Good := by
  induction ns generalizing hs ps with
  | nil =>
    have : hs = [] := List.length_eq_zero_iff.1 h1
    simp [this, convDimsT]
  | cons n ns ih =>
    match hs, ps, h1, h2 with
    | h :: hs, p :: ps, h1, h2 =>
      simp only [convDimsT, List.forall_mem_cons, ih hs ps (by simpa using h1) (by simpa using h2)]
      constructor
      · rintro ⟨a, b⟩
        exact ⟨⟨a.2.2.2, a.2.2.1, a.2.1⟩, b⟩
      · rintro ⟨a, b⟩
        exact ⟨⟨Int.one_pos, a.d, a.s, a.k⟩, b⟩

/-- **C99**: which calls of `ConvTranspose` with zero padding return. (Counts of channels that `groups` does not divide are
accepted by `__init__` and refused here.) -/
theorem convT_ok_iff [CommSemiring R] (c : Conv R) (x : NArr R) (hm : c.mode = .zeros) :
    (∃ y, c.callT x = .ok y) ↔ ∃ ns, x.shape = c.inChannels :: ns ∧ ns.length = c.dims.length ∧ (∀ h ∈ c.dims, h.Good) ∧
      0 < c.groups ∧ c.inChannels % c.groups = 0 ∧ c.outChannels % c.groups = 0 := by
  by_cases hr : x.shape.length = c.dims.length + 1
  swap
  · constructor
    · rintro ⟨y, h⟩
      simp [Conv.callT, hr] at h
    · rintro ⟨ns, h1, h2, _⟩
      exact absurd (by rw [h1]; simp [h2]) hr
  cases hx : x.shape with
  | nil => simp [hx] at hr
  | cons ch ns =>
  have hl : ns.length = c.dims.length := by simp [hx] at hr; omega
  have ptl := allPadsT_length c.padding 0 c.dims
  have := convGeneral_iff x c.weight c.inChannels c.outChannels c.groups (convDimsT ns c.dims (allPadsT c.padding 0 c.dims))
  rw [goodT_iff ns c.dims _ hl.symm (by omega), hx] at this
  simp only [List.head?_cons, Option.some.injEq] at this
  simp only [Conv.callT, hx, List.tail_cons]
  rw [if_neg (by simp [hl]), if_neg (by simp [hm])]
  constructor
  · rintro ⟨y, h⟩
    simp only [bind, Except.bind] at h
    split at h
    · simp at h
    rename_i z hz
    obtain ⟨a, b, d, e, f⟩ := this.1 ⟨z, hz⟩
    exact ⟨ns, by rw [b], hl, a, d, e, f⟩
  · rintro ⟨ns', h, _, a, d, e, f⟩
    injection h with b h'
    subst h'
    obtain ⟨z, hz⟩ := this.2 ⟨a, b, d, e, f⟩
    exact ⟨addBias c.bias z, by simp [hz, bind, Except.bind]⟩

theorem padTranspose_nonneg (pad : Pad) (hp : pad = .same ∨ pad = .sameLower) (h : HDim) (hg : h.Good) (ha : h.a = 0) (e : Int × Int) :
    0 ≤ (padTranspose pad h e).1 ∧ 0 ≤ (padTranspose pad h e).2 := by
  have h1 : 0 ≤ h.d * (h.k - 1) := Int.mul_nonneg (by have := hg.d; omega) (by have := hg.k; omega)
  have h2 := hg.s
  rcases hp with rfl | rfl <;> simp only [padTranspose, ha] <;> split <;> constructor <;> omega

/-- **C99**: which calls of `ConvTranspose` with circular padding return, if no spatial dimension is empty. The constructor only makes layers as in
`hp` and `ha` (`convT_mk_iff`). -/
theorem convT_circular_ok_iff [CommSemiring R] (c : Conv R) (x : NArr R) (hm : c.mode = .circular)
    (hp : c.padding = .same ∨ c.padding = .sameLower) (ha : ∀ h ∈ c.dims, h.a = 0) (hne : ∀ n ∈ x.shape.tail, 0 < n) :
    (∃ y, c.callT x = .ok y) ↔ ∃ ns, x.shape = c.inChannels :: ns ∧ ns.length = c.dims.length ∧ (∀ h ∈ c.dims, h.Good) ∧
      0 < c.groups ∧ c.inChannels % c.groups = 0 ∧ c.outChannels % c.groups = 0 := by
  by_cases hr : x.shape.length = c.dims.length + 1
  swap
  · constructor
    · rintro ⟨y, h⟩
      simp [Conv.callT, hr] at h
    · rintro ⟨ns, h1, h2, _⟩
      exact absurd (by rw [h1]; simp [h2]) hr
  cases hx : x.shape with
  | nil => simp [hx] at hr
  | cons ch ns =>
  have hl : ns.length = c.dims.length := by simp [hx] at hr; omega
  rw [hx, List.tail_cons] at hne
  have ptl := allPadsT_length c.padding 0 c.dims
  have ex : ∀ P : List Nat → Prop, (∃ ns', ch :: ns = c.inChannels :: ns' ∧ P ns') ↔ ch = c.inChannels ∧ P ns := by
    intro P
    constructor
    · rintro ⟨ns', h, hp⟩
      injection h with h1 h2
      subst h2
      exact ⟨h1, hp⟩
    · rintro ⟨h1, hp⟩
      exact ⟨ns, by rw [h1], hp⟩
  rw [ex]
  simp only [Conv.callT, hx]
  rw [if_neg (by simp [hl]), if_pos hm]
  generalize hw : List.zipWith (fun (p : Int × Int) (h : HDim) => (p.1 / h.s, p.2 / h.s)) (allPadsT c.padding 0 c.dims) c.dims = whole
  generalize hre : List.zipWith (fun (p : Int × Int) (h : HDim) => (p.1 % h.s, p.2 % h.s)) (allPadsT c.padding 0 c.dims) c.dims = rest
  have wl : whole.length = ns.length := by rw [← hw]; simp [ptl]; omega
  have rl : rest.length = ns.length := by rw [← hre]; simp [ptl]; omega
  have hsl := padShape_length ns whole wl
  have hpad := padArr_iff .circular x ch ns whole hx wl
  have hg : ∀ x' : NArr R, x'.shape = ch :: padShape ns whole →
      ((∃ z, convGeneral x' c.weight c.inChannels c.outChannels c.groups (convDimsT (padShape ns whole) c.dims rest) = .ok z) ↔
        (∀ h ∈ c.dims, h.Good) ∧ ch = c.inChannels ∧ 0 < c.groups ∧ c.inChannels % c.groups = 0 ∧ c.outChannels % c.groups = 0) := by
    intro x' e4
    have := convGeneral_iff x' c.weight c.inChannels c.outChannels c.groups (convDimsT (padShape ns whole) c.dims rest)
    rw [goodT_iff _ c.dims _ (by omega) (by omega), e4] at this
    simpa using this
  constructor
  · rintro ⟨y, h⟩
    simp only [bind, Except.bind] at h
    split at h
    · simp at h
    rename_i x' hx'
    split at h
    · simp at h
    rename_i z hz
    obtain ⟨ch', ns', e1, _, _, e4, _⟩ := padArr_ok _ _ _ _ hx'
    rw [hx] at e1
    injection e1 with e1a e1b
    subst e1a; subst e1b
    rw [e4, List.tail_cons] at hz
    obtain ⟨a, b, d, e, f⟩ := (hg x' e4).1 ⟨z, hz⟩
    exact ⟨b, hl, a, d, e, f⟩
  · rintro ⟨b, _, a, d, e, f⟩
    obtain ⟨x', hx'⟩ := hpad.2 (by
      intro j n p hn hpj
      rw [← hw, List.getElem?_zipWith] at hpj
      have hjl : j < c.dims.length := by rw [← hl]; exact (List.getElem?_eq_some_iff.1 hn).1
      have hd := List.getElem?_eq_getElem hjl
      rw [allPadsT_get c.padding 0 c.dims j _ hd, hd] at hpj
      simp only [Option.some.injEq] at hpj
      have hmem := List.getElem_mem hjl
      have hs := (a _ hmem).s
      obtain ⟨q1, q2⟩ := padTranspose_nonneg c.padding hp _ (a _ hmem) (ha _ hmem) (c.padding.entry (0 + j))
      subst hpj
      refine ⟨Int.ediv_nonneg q1 (by omega), Int.ediv_nonneg q2 (by omega), fun h0 => ?_⟩
      have := hne n (List.mem_of_getElem? hn)
      omega)
    obtain ⟨ch', ns', e1, _, _, e4, _⟩ := padArr_ok _ _ _ _ hx'
    rw [hx] at e1
    injection e1 with e1a e1b
    subst e1a; subst e1b
    obtain ⟨z, hz⟩ := (hg x' e4).2 ⟨a, b, d, e, f⟩
    refine ⟨addBias c.bias z, ?_⟩
    simp only [hx', bind, Except.bind, e4, List.tail_cons, hz]

/-! ## When layers can be made -/

/-- An argument that may be an integer or a sequence with an entry for each of the `n` dimensions. -/
def Parses (n : Nat) : IntOrSeq → Prop
  | .int _ => True
  | .seq l => l.length = n
  | .other => False

def ParsesPad (n : Nat) : ConvPadArg → Prop
  | .str _ => True
  | .badStr => False
  | .arg (.int _) => True
  | .arg (.ints l) => l.length = n
  | .arg (.pairs l) => l.length = n
  | .arg .other => False

theorem ntuple_iff (n : Nat) (x : IntOrSeq) : (∃ l, ntuple n x = .ok l) ↔ Parses n x := by
  cases x with
  | int q => simp [ntuple, Parses]
  | seq l => by_cases h : l.length = n <;> simp [ntuple, Parses, h]
  | other => simp [ntuple, Parses]

theorem paddingInit_iff (n : Nat) (x : ConvPadArg) : (∃ l, paddingInit n x = .ok l) ↔ ParsesPad n x := by
  cases x with
  | str p => simp [paddingInit, ParsesPad]
  | badStr => simp [paddingInit, ParsesPad]
  | arg a =>
    cases a with
    | int q => simp [paddingInit, ParsesPad]
    | ints l => by_cases h : l.length = n <;> simp [paddingInit, ParsesPad, h]
    | pairs l => by_cases h : l.length = n <;> simp [paddingInit, ParsesPad, h]
    | other => simp [paddingInit, ParsesPad]

theorem limCheck_iff (g : Nat) (k : List Int) : limCheck g k = .ok () ↔ 0 < g ∧ ∀ q ∈ k, 0 < q := by
  have pos : ∀ k : List Int, (∀ q ∈ k, 0 < q) → 0 < k.prod := by
    intro k
    induction k with
    | nil => simp
    | cons q k ih =>
      intro h
      rw [List.prod_cons]
      exact Int.mul_pos (h q List.mem_cons_self) (ih fun q' hq => h q' (List.mem_cons_of_mem _ hq))
  have zero : ∀ k : List Int, (0 : Int) ∈ k → k.prod = 0 := fun k h => List.prod_eq_zero h
  constructor
  · intro h
    simp only [limCheck] at h
    split at h
    · simp at h
    rename_i h1
    split at h
    · simp at h
    split at h
    · simp at h
    rename_i h3
    simp only [List.any_eq_true, decide_eq_true_eq, not_exists, not_and] at h3
    refine ⟨?_, fun q hq => ?_⟩
    · rcases Nat.eq_zero_or_pos g with rfl | hg
      · simp at h1
      · exact hg
    · have : q ≠ 0 := by
        rintro rfl
        exact h1 (by rw [zero k hq, Int.mul_zero])
      have := h3 q hq
      omega
  · rintro ⟨hg, hk⟩
    have hp : 0 < (g : Int) * k.prod := Int.mul_pos (by omega) (pos k hk)
    simp only [limCheck]
    rw [if_neg (by omega), if_neg (by omega), if_neg]
    simp only [List.any_eq_true, decide_eq_true_eq, not_exists, not_and]
    intro q hq
    have := hk q hq
    omega

/-- The kernel has no empty dimension. -/
def PosKernel (n : Nat) (kernel : IntOrSeq) : Prop := ∀ j, j < n → ∀ q, kernel.entry j = some q → 0 < q

theorem pos_iff {n : Nat} {kernel : IntOrSeq} {k : List Int} (h : ntuple n kernel = .ok k) :
    (∀ q ∈ k, 0 < q) ↔ PosKernel n kernel := by
  obtain ⟨h1, h2⟩ := ntuple_ok n _ _ h
  constructor
  · intro H j hj q hq
    rw [← h2 j hj] at hq
    exact H q (List.mem_of_getElem? hq)
  · intro H q hq
    obtain ⟨j, hj⟩ := List.getElem?_of_mem hq
    have hjl : j < n := by rw [← h1]; exact (List.getElem?_eq_some_iff.1 hj).1
    exact H j hjl q (by rw [← h2 j hjl]; exact hj)

/-- **C99**: which arguments `Conv` accepts. -/
theorem conv_mk_iff (n inC outC : Nat) (kernel stride : IntOrSeq) (padding : ConvPadArg) (dilation : IntOrSeq) (groups : Nat)
    (mode : Option Mode) (weight : NArr R) (bias : Option (Nat → R)) :
    (∃ c, Conv.mk' n inC outC kernel stride padding dilation groups mode weight bias = .ok c) ↔
      Parses n kernel ∧ Parses n stride ∧ Parses n dilation ∧ ParsesPad n padding ∧ mode.isSome ∧
      0 < groups ∧ 0 < inC ∧ inC % groups = 0 ∧ PosKernel n kernel := by
  have hdiv : 0 < groups → inC % groups = 0 → (0 < inC / groups ↔ 0 < inC) := by
    intro hg hm
    constructor
    · intro h
      rcases Nat.eq_zero_or_pos inC with rfl | h'
      · simp at h
      · exact h'
    · intro h
      exact Nat.div_pos (Nat.le_of_dvd h (Nat.dvd_of_mod_eq_zero hm)) hg
  rw [← ntuple_iff, ← ntuple_iff, ← ntuple_iff, ← paddingInit_iff]
  constructor
  · rintro ⟨c, h⟩
    simp only [Conv.mk', bind, Except.bind] at h
    split at h
    · simp at h
    rename_i k hk
    split at h
    · simp at h
    rename_i s hs
    split at h
    · simp at h
    rename_i d hd
    split at h
    · simp at h
    rename_i g1
    split at h
    · simp at h
    rename_i g2
    split at h
    · simp at h
    rename_i u hlim
    split at h
    · simp at h
    rename_i p hp
    obtain ⟨l1, l2⟩ := (limCheck_iff _ _).1 hlim
    have hg : 0 < groups := by omega
    have hmod : inC % groups = 0 := Decidable.not_not.1 g2
    refine ⟨⟨k, hk⟩, ⟨s, hs⟩, ⟨d, hd⟩, ⟨p, hp⟩, ?_, hg, (hdiv hg hmod).1 l1, hmod, (pos_iff hk).1 l2⟩
    cases mode with
    | none => simp [modeInit] at h
    | some m => rfl
  · rintro ⟨⟨k, hk⟩, ⟨s, hs⟩, ⟨d, hd⟩, ⟨p, hp⟩, hm, hg, hi, hmod, hpos⟩
    obtain ⟨m, rfl⟩ := Option.isSome_iff_exists.1 hm
    have hlim := (limCheck_iff (inC / groups) k).2 ⟨(hdiv hg hmod).2 hi, (pos_iff hk).2 hpos⟩
    refine ⟨⟨zipDims k s d (List.replicate n 0), p, m, inC, outC, groups, weight, bias⟩, ?_⟩
    simp only [Conv.mk', bind, Except.bind, hk, hs, hd, hp, hlim, modeInit]
    rw [if_neg (by omega), if_neg (by simp [hmod])]

/-- **C99**: what `Conv` raises if exactly one argument is wrong. -/
theorem conv_mk_raises (n inC outC : Nat) (kernel stride : IntOrSeq) (padding : ConvPadArg) (dilation : IntOrSeq) (groups : Nat)
    (mode : Option Mode) (weight : NArr R) (bias : Option (Nat → R)) (hs : Parses n stride) (hd : Parses n dilation) :
    (∀ l, kernel = .seq l → l.length ≠ n →
      Conv.mk' n inC outC kernel stride padding dilation groups mode weight bias = .error .valueError) ∧
    (Parses n kernel → 0 < groups → inC % groups ≠ 0 →
      Conv.mk' n inC outC kernel stride padding dilation groups mode weight bias = .error .valueError) ∧
    (Parses n kernel → 0 < groups → inC % groups = 0 → 0 < inC → PosKernel n kernel → ¬ ParsesPad n padding →
      Conv.mk' n inC outC kernel stride padding dilation groups mode weight bias = .error .valueError) ∧
    (Parses n kernel → 0 < groups → inC % groups = 0 → 0 < inC → PosKernel n kernel → ParsesPad n padding → mode = none →
      Conv.mk' n inC outC kernel stride padding dilation groups mode weight bias = .error .valueError) := by
  obtain ⟨s, hs⟩ := (ntuple_iff n stride).2 hs
  obtain ⟨d, hd⟩ := (ntuple_iff n dilation).2 hd
  refine ⟨?_, ?_, ?_, ?_⟩
  · rintro l rfl hl
    simp [Conv.mk', ntuple, hl, bind, Except.bind]
  · intro hk hg hm
    obtain ⟨k, hk⟩ := (ntuple_iff n kernel).2 hk
    simp only [Conv.mk', bind, Except.bind, hk, hs, hd]
    rw [if_neg (by omega), if_pos hm]
  all_goals
    intro hk hg hm hi hp
    obtain ⟨k, hk⟩ := (ntuple_iff n kernel).2 hk
    have hlim := (limCheck_iff (inC / groups) k).2
      ⟨Nat.div_pos (Nat.le_of_dvd hi (Nat.dvd_of_mod_eq_zero hm)) hg, (pos_iff hk).2 hp⟩
  · intro hpad
    have : paddingInit n padding = .error .valueError := by
      cases padding with
      | str p => exact absurd trivial hpad
      | badStr => rfl
      | arg a =>
        cases a with
        | int q => exact absurd trivial hpad
        | ints l => simp only [paddingInit]; rw [if_neg (show ¬ l.length = n from hpad)]
        | pairs l => simp only [paddingInit]; rw [if_neg (show ¬ l.length = n from hpad)]
        | other => rfl
    simp only [Conv.mk', bind, Except.bind, hk, hs, hd, hlim, this]
    rw [if_neg (by omega), if_neg (by simp [hm])]
  · rintro hpad rfl
    obtain ⟨p, hp⟩ := (paddingInit_iff n padding).2 hpad
    simp only [Conv.mk', bind, Except.bind, hk, hs, hd, hlim, hp, modeInit]
    rw [if_neg (by omega), if_neg (by simp [hm])]

theorem convT_mk_iff_aux (n inC outC : Nat) (kernel stride : IntOrSeq) (padding : ConvPadArg) (outputPadding dilation : IntOrSeq)
    (groups : Nat) (mode : Option Mode) (weight : NArr R) (bias : Option (Nat → R)) :
    (∃ c, Conv.mkTranspose n inC outC kernel stride padding outputPadding dilation groups mode weight bias = .ok c) ↔
      Parses n kernel ∧ Parses n dilation ∧ ParsesPad n padding ∧ 0 < groups ∧ groups ≤ inC ∧ PosKernel n kernel ∧
      (∃ s a, ntuple n stride = .ok s ∧ ntuple n outputPadding = .ok a ∧ outputPaddingCheck s a = .ok ()) ∧
      (mode = some .zeros ∨ (mode = some .circular ∧ (padding = .str .same ∨ padding = .str .sameLower) ∧
        ∀ j, j < n → outputPadding.entry j = some 0)) := by
  have strs : ∀ p, paddingInit n padding = .ok p → ((p = .same ∨ p = .sameLower) ↔
      (padding = .str .same ∨ padding = .str .sameLower)) := by
    intro p hp
    cases padding with
    | str q =>
      simp only [paddingInit, Except.ok.injEq] at hp
      subst hp
      simp
    | badStr => simp [paddingInit] at hp
    | arg a =>
      cases a with
      | int q => simp only [paddingInit, Except.ok.injEq] at hp; subst hp; simp
      | ints l =>
        simp only [paddingInit] at hp
        split at hp
        · simp only [Except.ok.injEq] at hp; subst hp; simp
        · simp at hp
      | pairs l =>
        simp only [paddingInit] at hp
        split at hp
        · simp only [Except.ok.injEq] at hp; subst hp; simp
        · simp at hp
      | other => simp [paddingInit] at hp
  have zeros : ∀ a, ntuple n outputPadding = .ok a → ((a.any (· ≠ 0)) = false ↔ ∀ j, j < n → outputPadding.entry j = some 0) := by
    intro a ha
    obtain ⟨h1, h2⟩ := ntuple_ok n _ _ ha
    simp only [List.any_eq_false, decide_eq_true_eq]
    constructor
    · intro H j hj
      rw [← h2 j hj, List.getElem?_eq_getElem (by omega)]
      congr 1
      exact Decidable.not_not.1 (H _ (List.getElem_mem _))
    · intro H q hq
      obtain ⟨j, hj⟩ := List.getElem?_of_mem hq
      have hjl : j < n := by rw [← h1]; exact (List.getElem?_eq_some_iff.1 hj).1
      have := H j hjl
      rw [← h2 j hjl, hj] at this
      simpa using this
  rw [← ntuple_iff, ← ntuple_iff, ← paddingInit_iff]
  constructor
  · rintro ⟨c, h⟩
    simp only [Conv.mkTranspose, bind, Except.bind] at h
    split at h
    · simp at h
    rename_i k hk
    split at h
    · simp at h
    rename_i s hs
    split at h
    · simp at h
    rename_i a ha
    split at h
    · simp at h
    rename_i d hd
    split at h
    · simp at h
    rename_i u hchk
    split at h
    · simp at h
    rename_i g1
    split at h
    · simp at h
    rename_i u' hlim
    split at h
    · simp at h
    rename_i p hp
    obtain ⟨l1, l2⟩ := (limCheck_iff _ _).1 hlim
    have hg : 0 < groups := by omega
    have hle : groups ≤ inC := by
      by_contra hlt
      rw [Nat.div_eq_of_lt (by omega)] at l1
      omega
    refine ⟨⟨k, hk⟩, ⟨d, hd⟩, ⟨p, hp⟩, hg, hle, (pos_iff hk).1 l2, ⟨s, a, hs, ha, hchk⟩, ?_⟩
    cases mode with
    | none => simp [modeInit] at h
    | some m =>
      simp only [modeInit] at h
      cases m with
      | zeros => exact .inl rfl
      | reflect => simp at h
      | replicate => simp at h
      | circular =>
        simp only at h
        split at h
        · simp at h
        rename_i hz
        split at h
        · simp at h
        rename_i hpp
        refine .inr ⟨rfl, (strs p hp).1 ?_, (zeros a ha).1 (by simpa using hz)⟩
        by_cases h1 : p = .same
        · exact .inl h1
        · by_cases h2 : p = .sameLower
          · exact .inr h2
          · exact absurd ⟨h1, h2⟩ hpp
  · rintro ⟨⟨k, hk⟩, ⟨d, hd⟩, ⟨p, hp⟩, hg, hle, hpos, ⟨s, a, hs, ha, hchk⟩, hmode⟩
    have hlim := (limCheck_iff (inC / groups) k).2 ⟨Nat.div_pos hle hg, (pos_iff hk).2 hpos⟩
    rcases hmode with rfl | ⟨rfl, hsame, hz⟩
    · refine ⟨⟨zipDims k s d a, p, .zeros, inC, outC, groups, weight, bias⟩, ?_⟩
      simp only [Conv.mkTranspose, bind, Except.bind, hk, hs, hd, ha, hp, hlim, hchk, modeInit]
      rw [if_neg (by omega)]
    · refine ⟨⟨zipDims k s d a, p, .circular, inC, outC, groups, weight, bias⟩, ?_⟩
      simp only [Conv.mkTranspose, bind, Except.bind, hk, hs, hd, ha, hp, hlim, hchk, modeInit]
      rw [if_neg (by omega), if_neg (by rw [(zeros a ha).2 hz]; simp), if_neg]
      rintro ⟨n1, n2⟩
      exact ((strs p hp).2 hsame).elim n1 n2

/-- `a` comes before `s` as a tuple of `n` numbers: it is less in the first dimension in which they differ. -/
def Before (n : Nat) (a s : IntOrSeq) : Prop :=
  ∃ (j : Nat) (x y : Int), j < n ∧ (∀ i, i < j → a.entry i = s.entry i) ∧ a.entry j = some x ∧ s.entry j = some y ∧ x < y

theorem tupleGe_false : ∀ (a s : List Int), a.length = s.length → (tupleGe a s = false ↔
    ∃ (j : Nat) (x y : Int), (∀ i, i < j → a[i]? = s[i]?) ∧ a[j]? = some x ∧ s[j]? = some y ∧ x < y)
  | [], [], _ => by simp [tupleGe]
  | [], _ :: _, h => by simp at h
  | _ :: _, [], h => by simp at h
  | a :: as, b :: bs, h => by
    have ih := tupleGe_false as bs (by simpa using h)
    simp only [tupleGe]
    by_cases hab : a = b
    · subst hab
      rw [if_pos rfl, ih]
      constructor
      · rintro ⟨j, x, y, h1, h2, h3, h4⟩
        refine ⟨j + 1, x, y, fun i hi => ?_, by simpa using h2, by simpa using h3, h4⟩
        cases i with
        | zero => rfl
        | succ i => simpa using h1 i (by omega)
      · rintro ⟨j, x, y, h1, h2, h3, h4⟩
        cases j with
        | zero =>
          simp only [List.getElem?_cons_zero, Option.some.injEq] at h2 h3
          omega
        | succ j =>
          exact ⟨j, x, y, fun i hi => by simpa using h1 (i + 1) (by omega), by simpa using h2, by simpa using h3, h4⟩
    · rw [if_neg hab, decide_eq_false_iff_not]
      constructor
      · intro hlt
        exact ⟨0, a, b, fun i hi => absurd hi (by omega), rfl, rfl, by omega⟩
      · rintro ⟨j, x, y, h1, h2, h3, h4⟩
        cases j with
        | zero =>
          simp only [List.getElem?_cons_zero, Option.some.injEq] at h2 h3
          omega
        | succ j =>
          have := h1 0 (by omega)
          simp only [List.getElem?_cons_zero, Option.some.injEq] at this
          exact absurd this hab

theorem outputPaddingCheck_ok (s a : List Int) (h : a.length = s.length) :
    outputPaddingCheck s a = .ok () ↔ s = [] ∨ tupleGe a s = false := by
  simp only [outputPaddingCheck]
  cases s with
  | nil => simp
  | cons x s =>
    cases a with
    | nil => simp at h
    | cons y a => cases hg : tupleGe (y :: a) (x :: s) <;> simp

/-- **C99**: which arguments `ConvTranspose` accepts. (Only at least `groups` input channels are needed to make it, and `output_padding`
has to come before `stride` as a tuple, not in each dimension.) -/
theorem convT_mk_iff (n inC outC : Nat) (kernel stride : IntOrSeq) (padding : ConvPadArg) (outputPadding dilation : IntOrSeq)
    (groups : Nat) (mode : Option Mode) (weight : NArr R) (bias : Option (Nat → R)) :
    (∃ c, Conv.mkTranspose n inC outC kernel stride padding outputPadding dilation groups mode weight bias = .ok c) ↔
      Parses n kernel ∧ Parses n dilation ∧ ParsesPad n padding ∧ 0 < groups ∧ groups ≤ inC ∧ PosKernel n kernel ∧
      (Parses n stride ∧ Parses n outputPadding ∧ (n = 0 ∨ Before n outputPadding stride)) ∧
      (mode = some .zeros ∨ (mode = some .circular ∧ (padding = .str .same ∨ padding = .str .sameLower) ∧
        ∀ j, j < n → outputPadding.entry j = some 0)) := by
  rw [convT_mk_iff_aux]
  have key : (∃ s a, ntuple n stride = .ok s ∧ ntuple n outputPadding = .ok a ∧ outputPaddingCheck s a = .ok ()) ↔
      (Parses n stride ∧ Parses n outputPadding ∧ (n = 0 ∨ Before n outputPadding stride)) := by
    have core : ∀ s a, ntuple n stride = .ok s → ntuple n outputPadding = .ok a →
        (outputPaddingCheck s a = .ok () ↔ n = 0 ∨ Before n outputPadding stride) := by
      intro s a hs ha
      obtain ⟨s1, s2⟩ := ntuple_ok n _ _ hs
      obtain ⟨a1, a2⟩ := ntuple_ok n _ _ ha
      rw [outputPaddingCheck_ok s a (by omega), tupleGe_false a s (by omega)]
      have h0 : s = [] ↔ n = 0 := by rw [← List.length_eq_zero_iff, s1]
      rw [h0]
      refine or_congr Iff.rfl ⟨?_, ?_⟩
      · rintro ⟨j, x, y, h1, h2, h3, h4⟩
        have hj : j < n := by rw [← a1]; exact (List.getElem?_eq_some_iff.1 h2).1
        refine ⟨j, x, y, hj, fun i hi => ?_, by rw [← a2 j hj]; exact h2, by rw [← s2 j hj]; exact h3, h4⟩
        rw [← a2 i (by omega), ← s2 i (by omega)]
        exact h1 i hi
      · rintro ⟨j, x, y, hj, h1, h2, h3, h4⟩
        refine ⟨j, x, y, fun i hi => ?_, by rw [a2 j hj]; exact h2, by rw [s2 j hj]; exact h3, h4⟩
        rw [a2 i (by omega), s2 i (by omega)]
        exact h1 i hi
    constructor
    · rintro ⟨s, a, hs, ha, hc⟩
      exact ⟨(ntuple_iff n stride).1 ⟨s, hs⟩, (ntuple_iff n outputPadding).1 ⟨a, ha⟩, (core s a hs ha).1 hc⟩
    · rintro ⟨hs, ha, hc⟩
      obtain ⟨s, hs⟩ := (ntuple_iff n stride).2 hs
      obtain ⟨a, ha⟩ := (ntuple_iff n outputPadding).2 ha
      exact ⟨s, a, hs, ha, (core s a hs ha).2 hc⟩
  rw [key]

/-- **C99**: the modes that `ConvTranspose` does not have raise `NotImplementedError`. -/
theorem convT_mk_mode (n inC outC : Nat) (kernel stride : IntOrSeq) (padding : ConvPadArg) (outputPadding dilation : IntOrSeq)
    (groups : Nat) (mode : Mode) (weight : NArr R) (bias : Option (Nat → R)) (hm : mode = .reflect ∨ mode = .replicate)
    (h : ∃ c, Conv.mkTranspose n inC outC kernel stride padding outputPadding dilation groups (some .zeros) weight bias = .ok c) :
    Conv.mkTranspose n inC outC kernel stride padding outputPadding dilation groups (some mode) weight bias =
      .error .notImplemented := by
  obtain ⟨h1, h2, h3, hg, hle, hpos, ⟨s, a, hs, ha, hchk⟩, _⟩ := (convT_mk_iff_aux n inC outC kernel stride padding outputPadding
    dilation groups (some .zeros) weight bias).1 h
  obtain ⟨k, hk⟩ := (ntuple_iff _ _).2 h1
  obtain ⟨d, hd⟩ := (ntuple_iff _ _).2 h2
  obtain ⟨p, hp⟩ := (paddingInit_iff _ _).2 h3
  have hlim := (limCheck_iff (inC / groups) k).2 ⟨Nat.div_pos hle hg, (pos_iff hk).2 hpos⟩
  rcases hm with rfl | rfl
  all_goals
    simp only [Conv.mkTranspose, bind, Except.bind, hk, hs, hd, ha, hp, hlim, hchk, modeInit]
    rw [if_neg (by omega)]

/-- An input with another number of dimensions: `ValueError`, from equinox itself. -/
theorem rank_raises [CommSemiring R] (c : Conv R) (x : NArr R) (h : x.shape.length ≠ c.dims.length + 1) :
    c.call x = .error .valueError ∧ c.callT x = .error .valueError :=
  ⟨if_pos h, if_pos h⟩

/-- A kernel with an empty dimension, or no input channel in a group: `ZeroDivisionError`; another kernel that is not positive: `ValueError`. -/
theorem lim_raises (g : Nat) (k : List Int) :
    ((g = 0 ∨ 0 ∈ k) → limCheck g k = .error .zeroDivision) ∧
    (¬(g = 0 ∨ 0 ∈ k) → (∃ q ∈ k, q < 0) → limCheck g k = .error .valueError) := by
  have hz : (g : Int) * k.prod = 0 ↔ g = 0 ∨ 0 ∈ k := by simp [List.prod_eq_zero_iff]
  constructor
  · intro h; exact if_pos (hz.2 h)
  · intro h hq
    unfold limCheck
    rw [if_neg (fun h' => h (hz.1 h'))]
    split
    · rfl
    · rw [if_pos (by simpa using hq)]

/-! ## Examples -/

/-- Two groups, with bias, mirrored: `[1, 2, 3]` becomes `..., 3, 2, 1, 2, 3, 2, ...`. -/
def exGroups : Except Err (Conv Int) :=
  Conv.mk' 1 2 2 (.int 2) (.int 1) (.arg (.int 2)) (.int 1) 2 (some .reflect)
    ⟨[2, 1, 2], fun i => match i with
      | [co, _, a] => 10 * (co : Int) + a + 1
      | _ => 0⟩ (some fun co => 1000 * co)

example : ∃ c, exGroups = .ok c ∧ ∃ y, c.call ⟨[2, 3], fun i => match i with
      | [ch, i] => 100 * (ch : Int) + i + 1
      | _ => 0⟩ = .ok y ∧ y.shape = [2, 6] ∧ (List.range 6).map (fun i => y.at_ [0, i]) = [7, 4, 5, 8, 7, 4] :=
  ⟨_, rfl, _, rfl, by decide, by decide⟩

/-- Transposed, circular: every second element is a zero, and the signal goes on periodically. -/
example : ∃ c : Conv Int, Conv.mkTranspose 1 1 1 (.int 3) (.int 2) (.str .same) (.int 0) (.int 1) 1 (some .circular)
      ⟨[1, 1, 3], fun i => match i with
        | [_, _, a] => [1, 10, 100].getD a 0
        | _ => 0⟩ none = .ok c ∧
    ∃ y, c.callT ⟨[1, 2], fun i => match i with
        | [_, i] => (i : Int) + 1
        | _ => 0⟩ = .ok y ∧ y.shape = [1, 4] ∧ (List.range 4).map (fun i => y.at_ [0, i]) = [102, 10, 201, 20] :=
  ⟨_, rfl, _, rfl, by decide, by decide⟩

example : (List.range 9).map (fun i => extend .reflect 3 ((i : Int) - 4)) =
    [0, 1, 2, 1, 0, 1, 2, 1, 0].map some := by decide

end Verif.NN.Value
