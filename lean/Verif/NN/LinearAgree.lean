import Verif.NN.Mlp
import Verif.NN.Embedding

/-!
# C133: layers which compute what a `Linear` computes

No code is modelled here: these theorems relate the models of `equinox/nn/_linear.py` (`Linear`), `equinox/nn/_embedding.py` (`Embedding`) and
`equinox/nn/_mlp.py` (`MLP`).
-/

namespace Verif.NN.LinearAgree

open Verif.NN Mlp

/-- The vector which is one at `i` and zero elsewhere. -/
def oneHot {n : Nat} (i : Fin n) : Fin n → ℝ := fun j => if j = i then 1 else 0

/-- **C133**: `Embedding` at an index of its table is a `Linear` without bias, whose weight is the transposed table, at the one-hot vector of the index. -/
theorem embedding_is_linear {n d : Nat} (e : Embedding ℝ) (h : e.weight.shape = [n, d]) (L : Linear)
    (hL : IsLinear L (.num n) (.num d) (fun k j => e.weight.at_ [j.val, k.val]) fun _ => 0) (i : Fin n) :
    ∃ y, e.call (.int i.val) = .ok y ∧ y.shape = [d] ∧
      L.call (.vec (List.ofFn (oneHot i))) = .ok (.vec (List.ofFn fun k : Fin d => y.at_ [k.val])) := by
  obtain ⟨y, hy, hs, hk⟩ := (embedding_call e h).1 i.val i.isLt
  refine ⟨y, hy, hs, ?_⟩
  have h1 := linear_spec hL (oneHot i)
  simp only [asV] at h1
  refine h1.trans ?_
  congr 3
  funext k
  rw [hk]
  show (∑ j : Fin n, e.weight.at_ [j.val, k.val] * oneHot i j) + 0 = _
  simp [oneHot]

/-- Two affine maps, one after the other. -/
theorem affine_affine {n m l : Nat} (V : Fin l → Fin m → ℝ) (c : Fin l → ℝ) (W : Fin m → Fin n → ℝ) (b : Fin m → ℝ) (x : Fin n → ℝ) :
    affine V c (affine W b x) = affine (fun i j => ∑ k, V i k * W k j) (fun i => (∑ k, V i k * b k) + c i) x := by
  funext i
  show (∑ k, V i k * ((∑ j, W k j * x j) + b k)) + c i = (∑ j, (∑ k, V i k * W k j) * x j) + ((∑ k, V i k * b k) + c i)
  rw [← add_assoc]
  congr 1
  simp only [mul_add, Finset.sum_add_distrib, Finset.sum_mul, Finset.mul_sum, mul_assoc]
  rw [Finset.sum_comm]

/-- **C133**: one `Linear` after another is the `Linear` whose weight is the product of their weights and whose bias is the second layer's value at the
first one's bias. -/
theorem linear_after_linear {L M N : Linear} {s t u : Size} {W : Fin t.count → Fin s.count → ℝ} {b : Fin t.count → ℝ}
    {V : Fin u.count → Fin t.count → ℝ} {c : Fin u.count → ℝ} (hL : IsLinear L s t W b) (hM : IsLinear M t u V c)
    (hN : IsLinear N s u (fun i j => ∑ k, V i k * W k j) fun i => (∑ k, V i k * b k) + c i) (x : Fin s.count → ℝ) :
    ∃ y z, L.call (asV s x) = .ok y ∧ M.call y = .ok z ∧ N.call (asV s x) = .ok z := by
  refine ⟨_, _, linear_spec hL x, linear_spec hM _, (linear_spec hN x).trans ?_⟩
  exact congrArg (fun z => Except.ok (asV u z)) (affine_affine V c W b x).symm

/-- **C133**: a `Linear` is determined by what it computes: two that agree on all inputs have the same weight, and a bias that is missing is the same as a
bias of zeros. -/
theorem linear_determined {L M : Linear} {s t : Size} {W V : Fin t.count → Fin s.count → ℝ} {b c : Fin t.count → ℝ}
    (hL : IsLinear L s t W b) (hM : IsLinear M s t V c) :
    (∀ x, L.call (asV s x) = M.call (asV s x)) ↔ L.weight = M.weight ∧ b = c := by
  have inj : ∀ (t : Size) (x y : Fin t.count → ℝ), asV t x = asV t y → x = y := by
    intro t x y h
    cases t with
    | scalar =>
      simp only [asV, Mlp.V.scalar.injEq] at h
      funext i
      have : i = ⟨0, Nat.one_pos⟩ := Subsingleton.elim (α := Fin 1) _ _
      rw [this]; exact h
    | num n =>
      simp only [asV, Mlp.V.vec.injEq] at h
      exact List.ofFn_injective h
  constructor
  · intro h
    have h1 : ∀ x, affine W b x = affine V c x := by
      intro x
      have := h x
      rw [linear_spec hL, linear_spec hM] at this
      exact inj t _ _ (Except.ok.inj this)
    have hb : b = c := by
      funext i
      have := congrFun (h1 fun _ => 0) i
      simpa [affine] using this
    refine ⟨?_, hb⟩
    have hW : W = V := by
      funext i j
      have := congrFun (h1 (oneHot j)) i
      simpa [affine, oneHot, hb] using this
    rw [hL.weight, hM.weight, hW]
  · rintro ⟨h, rfl⟩ x
    have hW : W = V := by
      rw [hL.weight, hM.weight] at h
      funext i
      exact List.ofFn_injective (congrFun (List.ofFn_injective h) i)
    rw [linear_spec hL, linear_spec hM, hW]

/-- Without an activation function, what comes from each hidden layer is an affine map of the input. -/
theorem hid_affine {n w : Nat} (W0 : Fin w → Fin n → ℝ) (b0 : Fin w → ℝ) (Wh : Nat → Fin w → Fin w → ℝ) (bh : Nat → Fin w → ℝ) (d : Nat) :
    ∃ W b, ∀ x, hid W0 b0 Wh bh (fun _ _ r => r) x d = affine W b x := by
  induction d with
  | zero => exact ⟨W0, b0, fun x => rfl⟩
  | succ d ih =>
    obtain ⟨W, b, h⟩ := ih
    refine ⟨fun i j => ∑ k, Wh d i k * W k j, fun i => (∑ k, Wh d i k * b k) + bh d i, fun x => ?_⟩
    rw [hid, h x]
    exact affine_affine (Wh d) (bh d) W b x

/-- **C133**: a new `MLP` whose activation functions are the identity computes what one `Linear` computes, whatever its depth; of depth zero, that is
its only layer. -/
theorem identity_mlp_is_linear {Key K O : Type} (R : Rand Key) (hR : R.Lawful) (s t : Size) (width depth : Nat) (act fact : Act K O)
    (useBias useFinalBias : Bool) (key : Key) (call : Calls K O) (hφ : ∀ r, call act r = .ok r) (hψ : ∀ r, call fact r = .ok r) :
    ∃ m L W b, MLP.init R s t width depth act fact useBias useFinalBias key = .ok m ∧ IsLinear L s t W b ∧
      (depth = 0 → m.layers = [L]) ∧ ∀ x, m.call call (asV s x) = L.call (asV s x) := by
  obtain ⟨m, hm, h0, h1⟩ := mlp_fresh R hR s t width depth act fact useBias useFinalBias key call (fun r => r) (fun r => r) hφ hψ
  cases depth with
  | zero =>
    obtain ⟨L, W, b, hl, hL, hx⟩ := h0 rfl
    exact ⟨m, L, W, b, hm, hL, fun _ => hl, fun x => (hx x).trans (linear_spec hL x).symm⟩
  | succ d =>
    obtain ⟨_, _, _, W0, b0, Wh, bh, W1, b1, -, -, -, -, -, hx⟩ := h1 d rfl
    obtain ⟨W, b, h⟩ := hid_affine W0 b0 Wh bh d
    let W' : Fin t.count → Fin s.count → ℝ := fun i j => ∑ k, W1 i k * W k j
    let b' : Fin t.count → ℝ := fun i => (∑ k, W1 i k * b k) + b1 i
    have hL : IsLinear ⟨List.ofFn fun i => List.ofFn (W' i), some (List.ofFn b'), s, t, true⟩ s t W' b' := ⟨rfl, rfl, rfl, Or.inl rfl⟩
    refine ⟨m, _, W', b', hm, hL, fun h => absurd h (Nat.succ_ne_zero d), fun x => (hx x).trans ((linear_spec hL x).trans ?_).symm⟩
    rw [h x]
    exact congrArg (fun z => Except.ok (asV t z)) (affine_affine W1 b1 W b x).symm

/-! ### Concrete cases -/

/-- A table of two rows of three numbers. -/
noncomputable def exTable : Embedding ℝ := ⟨2, 3, ⟨[2, 3], fun i => match i with
  | [r, k] => 10 * r + k
  | _ => 0⟩⟩

example : exTable.weight.shape = [2, 3] ∧ IsLinear ⟨[[0, 10], [1, 11], [2, 12]], Option.none, .num 2, .num 3, false⟩ (.num 2) (.num 3)
    (fun k j => exTable.weight.at_ [j.val, k.val]) (fun _ => 0) := by
  refine ⟨rfl, ⟨rfl, rfl, ?_, Or.inr ⟨rfl, fun _ => rfl⟩⟩⟩
  simp [exTable, Size.count]
  norm_num

/-- From a scalar to two numbers, and back to one. -/
example : IsLinear ⟨[[2], [3]], some [1, 1], .scalar, .num 2, true⟩ .scalar (.num 2) (fun i _ => ![2, 3] i) (fun _ => 1) ∧
    IsLinear ⟨[[5, 7]], Option.none, .num 2, .scalar, false⟩ (.num 2) .scalar (fun _ j => ![5, 7] j) (fun _ => 0) ∧
    IsLinear ⟨[[31]], some [12], .scalar, .scalar, true⟩ .scalar .scalar
      (fun _ _ => ∑ k : Fin 2, (![5, 7] k : ℝ) * ![2, 3] k) (fun _ => (∑ k : Fin 2, (![5, 7] k : ℝ) * 1) + 0) := by
  refine ⟨⟨rfl, rfl, ?_, Or.inl ?_⟩, ⟨rfl, rfl, ?_, Or.inr ⟨rfl, fun _ => rfl⟩⟩, ⟨rfl, rfl, ?_, Or.inl ?_⟩⟩ <;>
    simp [Size.count, Fin.sum_univ_two] <;> norm_num

/-- An activation function which is the identity: no leaves. -/
def exId : Calls Unit Nat := fun _ r => .ok r

/-- Random numbers that are all at the upper end of the interval. -/
noncomputable def highRand : Rand Nat where
  split k n := (List.range n).map fun i => k + i
  matrix _ m n _ hi := List.replicate m (List.replicate n hi)
  vector _ n _ hi := List.replicate n hi

example : highRand.Lawful ∧ ∀ r, exId (.node () []) r = .ok r := by
  refine ⟨⟨by simp [highRand], by simp [highRand], ?_, ?_, by simp [highRand], ?_⟩, fun _ => rfl⟩
  · intro k m n lo hi row h
    rw [(List.mem_replicate.1 h).2, List.length_replicate]
  · intro k m n lo hi h row hr r hrr
    rw [(List.mem_replicate.1 hr).2] at hrr
    exact ⟨h.trans (List.mem_replicate.1 hrr).2.ge, (List.mem_replicate.1 hrr).2.le⟩
  · intro k n lo hi h r hr
    exact ⟨h.trans (List.mem_replicate.1 hr).2.ge, (List.mem_replicate.1 hr).2.le⟩

end Verif.NN.LinearAgree
