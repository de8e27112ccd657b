import Verif.NN.MlpModel
import Verif.PyTree.Closed
import Mathlib.Algebra.BigOperators.Fin
import Mathlib.Data.List.OfFn
import Mathlib.Data.List.FinRange
import Mathlib.Tactic.Linarith

/-! # C72: linear layers and multi-layer perceptrons -/

namespace Verif
namespace NN
namespace Mlp

open PT

variable {K O Key : Type}

/-! ## What is claimed -/

/-- A tuple of numbers as the input or output of a size: a scalar or a vector. -/
def asV : (s : Size) → (Fin s.count → ℝ) → V
  | .scalar, x => .scalar (x ⟨0, Nat.one_pos⟩)
  | .num _, x => .vec (List.ofFn x)

/-- A layer has these features, weights and biases; biases that are not used are zero. -/
structure IsLinear (L : Linear) (s t : Size) (W : Fin t.count → Fin s.count → ℝ) (b : Fin t.count → ℝ) : Prop where
  inF : L.inFeatures = s
  outF : L.outFeatures = t
  weight : L.weight = List.ofFn fun i => List.ofFn (W i)
  bias : L.bias = some (List.ofFn b) ∨ (L.bias = Option.none ∧ ∀ i, b i = 0)

/-- `W x + b` -/
def affine {n m : Nat} (W : Fin m → Fin n → ℝ) (b : Fin m → ℝ) (x : Fin n → ℝ) : Fin m → ℝ :=
  fun i => (∑ j, W i j * x j) + b i

/-- Uniform random numbers are in their interval and as many as asked for, as are keys. -/
structure Rand.Lawful (R : Rand Key) : Prop where
  split : ∀ k n, (R.split k n).length = n
  rows : ∀ k m n lo hi, (R.matrix k m n lo hi).length = m
  cols : ∀ k m n lo hi, ∀ row ∈ R.matrix k m n lo hi, row.length = n
  mrange : ∀ k m n lo hi, lo ≤ hi → ∀ row ∈ R.matrix k m n lo hi, ∀ r ∈ row, lo ≤ r ∧ r ≤ hi
  vector : ∀ k n lo hi, (R.vector k n lo hi).length = n
  vrange : ∀ k n lo hi, lo ≤ hi → ∀ r ∈ R.vector k n lo hi, lo ≤ r ∧ r ≤ hi

/-- An activation function with an array for each of `n` neurons in place of each array. -/
def stack1 {n : Nat} (F : PT K ((Fin n → Arr) ⊕ O)) : Act K O :=
  F.map (Sum.elim (fun f => .arr (.stack (List.ofFn f))) .other)

/-- The activation function of neuron `k`. -/
def pick1 {n : Nat} (F : PT K ((Fin n → Arr) ⊕ O)) (k : Fin n) : Act K O :=
  F.map (Sum.elim (fun f => .arr (f k)) .other)

/-- An activation function with an array for each neuron of each of `d` layers in place of each array. -/
def stack2 {d n : Nat} (F : PT K ((Fin d → Fin n → Arr) ⊕ O)) : Act K O :=
  F.map (Sum.elim (fun f => .arr (.stack (List.ofFn fun i => .stack (List.ofFn (f i))))) .other)

/-- The activation function of neuron `k` of layer `i`. -/
def pick2 {d n : Nat} (F : PT K ((Fin d → Fin n → Arr) ⊕ O)) (i : Fin d) (k : Fin n) : Act K O :=
  F.map (Sum.elim (fun f => .arr (f i k)) .other)

/-! ## Lists -/

theorem mapE_ofFn {α β : Type} {n : Nat} (g : α → Except Err β) (f : Fin n → α) (h : Fin n → β)
    (hg : ∀ i, g (f i) = .ok (h i)) : mapE g (List.ofFn f) = .ok (List.ofFn h) := by
  induction n with
  | zero => simp [mapE]
  | succ n ih =>
    rw [List.ofFn_succ, List.ofFn_succ]
    simp only [mapE, hg, ih (fun i => f i.succ) (fun i => h i.succ) (fun i => hg i.succ), bind, Except.bind, pure, Except.pure]

theorem zipWith_ofFn {α β γ : Type} {n : Nat} (g : α → β → γ) (a : Fin n → α) (b : Fin n → β) :
    List.zipWith g (List.ofFn a) (List.ofFn b) = List.ofFn fun i => g (a i) (b i) := by
  induction n with
  | zero => simp
  | succ n ih => rw [List.ofFn_succ, List.ofFn_succ, List.ofFn_succ, List.zipWith_cons_cons, ih]

theorem range_ofFn (n : Nat) : List.range n = List.ofFn fun i : Fin n => (i : Nat) := by
  rw [List.ofFn_eq_map]; simp

theorem exists_ofFn {α : Type} (l : List α) (n : Nat) (h : l.length = n) : ∃ f : Fin n → α, l = List.ofFn f := by
  subst h
  exact ⟨l.get, (List.ofFn_get l).symm⟩

/-! ## `Linear` -/

theorem dot_ofFn {n : Nat} (w x : Fin n → ℝ) : dot (List.ofFn w) (List.ofFn x) = .ok (∑ j, w j * x j) := by
  simp [dot, zipWith_ofFn, List.sum_ofFn]

/-- A linear layer computes `W x + b`, from and to scalars as well as vectors. -/
theorem linear_spec {L : Linear} {s t : Size} {W : Fin t.count → Fin s.count → ℝ} {b : Fin t.count → ℝ}
    (h : IsLinear L s t W b) (x : Fin s.count → ℝ) : L.call (asV s x) = .ok (asV t (affine W b x)) := by
  have h1 : L.input (asV s x) = .ok (.vec (List.ofFn x)) := by
    have hs := h.inF
    cases s with
    | scalar => simp [Linear.input, hs, asV]; exact (List.ofFn_succ (f := x)).symm
    | num n => simp [Linear.input, hs, asV]
  have h2 : L.matmul (.vec (List.ofFn x)) = .ok (List.ofFn fun i => ∑ j, W i j * x j) := by
    rw [Linear.matmul, Linear.columns, h.inF, List.length_ofFn, if_pos rfl, h.weight]
    exact mapE_ofFn _ _ _ fun i => dot_ofFn _ _
  have h3 : addBias L.bias (List.ofFn fun i => ∑ j, W i j * x j) = .ok (List.ofFn (affine W b x)) := by
    rcases h.bias with hb | ⟨hb, h0⟩
    · rw [hb, addBias]
      simp only [List.length_ofFn, if_true]
      rw [zipWith_ofFn]
      rfl
    · rw [hb, addBias]
      congr 2
      funext i
      simp [affine, h0]
  have h4 : L.output (List.ofFn (affine W b x)) = .ok (asV t (affine W b x)) := by
    have ht := h.outF
    cases t with
    | scalar => simp [Linear.output, ht, asV, Size.count]
    | num n => simp [Linear.output, ht, asV]
  rw [Linear.call, h1]
  simp only [bind, Except.bind, h2, h3, h4]

/-- Any other input is rejected. -/
theorem linear_errors (L : Linear) :
    (∀ n r, L.inFeatures = .num n → L.call (.scalar r) = .error .valueError) ∧
    (∀ n l, L.inFeatures = .num n → l.length ≠ n → L.call (.vec l) = .error .typeError) ∧
    (∀ l, L.inFeatures = .scalar → L.call (.vec l) = .error .valueError) := by
  refine ⟨?_, ?_, ?_⟩
  · intro n r h
    simp [Linear.call, Linear.input, h, Linear.matmul, bind, Except.bind]
  · intro n l h hl
    simp [Linear.call, Linear.input, h, Linear.matmul, Linear.columns, Size.count, hl, bind, Except.bind]
  · intro l h
    simp [Linear.call, Linear.input, h, bind, Except.bind]

theorem lim_pos (n : Nat) : 0 < lim n := by
  unfold lim
  split
  · exact one_pos
  · rename_i h
    have : (0 : ℝ) < n := by exact_mod_cast Nat.pos_of_ne_zero h
    exact one_div_pos.2 (Real.sqrt_pos.2 this)

/-- A new layer has weights of shape `(out, in)` and, if asked for, biases of shape `(out,)`, all of them between
`-1/√in` and `1/√in`. -/
theorem linear_init (R : Rand Key) (hR : R.Lawful) (s t : Size) (useBias : Bool) (key : Key) :
    ∃ L W b, Linear.init R s t useBias key = .ok L ∧ IsLinear L s t W b ∧ L.bias.isSome = useBias ∧ L.useBias = useBias ∧
      (0 < s.count → (∀ i j, |W i j| ≤ 1 / Real.sqrt s.count) ∧ ∀ i, |b i| ≤ 1 / Real.sqrt s.count) := by
  obtain ⟨wk, bk, hk⟩ : ∃ a b, R.split key 2 = [a, b] := by
    have := hR.split key 2
    match h : R.split key 2, this with
    | [a, b], _ => exact ⟨a, b, rfl⟩
  have hlo : -lim s.count ≤ lim s.count := by have := lim_pos s.count; linarith
  have hlim : 0 < s.count → lim s.count = 1 / Real.sqrt s.count := by
    intro h
    rw [lim, if_neg (by omega)]
  obtain ⟨rows, hrows⟩ := exists_ofFn _ _ (hR.rows wk t.count s.count (-lim s.count) (lim s.count))
  have hW : ∀ i, ∃ f : Fin s.count → ℝ, rows i = List.ofFn f := fun i =>
    exists_ofFn _ _ (hR.cols wk t.count s.count (-lim s.count) (lim s.count) _ (by rw [hrows]; simp [List.mem_ofFn]))
  choose W hW using hW
  have hWr : ∀ i j, |W i j| ≤ lim s.count := by
    intro i j
    have := hR.mrange wk t.count s.count (-lim s.count) (lim s.count) hlo (rows i) (by rw [hrows]; simp [List.mem_ofFn]) (W i j)
      (by rw [hW]; simp [List.mem_ofFn])
    exact abs_le.2 this
  have hweight : R.matrix wk t.count s.count (-lim s.count) (lim s.count) = List.ofFn fun i => List.ofFn (W i) := by
    rw [hrows]
    congr 1
    funext i
    exact hW i
  obtain ⟨b, hb⟩ := exists_ofFn _ _ (hR.vector bk t.count (-lim s.count) (lim s.count))
  have hbr : ∀ i, |b i| ≤ lim s.count := by
    intro i
    have := hR.vrange bk t.count (-lim s.count) (lim s.count) hlo (b i) (by rw [hb]; simp [List.mem_ofFn])
    exact abs_le.2 this
  refine ⟨{ weight := R.matrix wk t.count s.count (-lim s.count) (lim s.count)
            bias := if useBias then some (R.vector bk t.count (-lim s.count) (lim s.count)) else Option.none
            inFeatures := s
            outFeatures := t
            useBias := useBias }, W, if useBias then b else fun _ => 0, ?_, ⟨?_, ?_, ?_, ?_⟩, ?_, ?_, ?_⟩
  · rw [Linear.init, twoKeys, hk]
    rfl
  · rfl
  · rfl
  · exact hweight
  · cases useBias with
    | true => left; simp [hb]
    | false => right; simp
  · cases useBias <;> rfl
  · rfl
  · intro h
    rw [← hlim h]
    refine ⟨hWr, ?_⟩
    intro i
    cases useBias with
    | true => exact hbr i
    | false => simp [(lim_pos _).le]

/-! ## Activation functions -/

theorem index_stack {n : Nat} (F : PT K ((Fin n → Arr) ⊕ O)) (k : Fin n) : index k (stack1 F) = .ok (pick1 F k) := by
  have h : mapE (indexLeaf (k : Nat)) (stack1 F).leaves = .ok (pick1 F k).leaves := by
    rw [stack1, pick1, leaves_map, leaves_map]
    induction F.leaves with
    | nil => rfl
    | cons a l ih =>
      have : indexLeaf (k : Nat) (Sum.elim (fun f : Fin n → Arr => .arr (.stack (List.ofFn f))) (.other : O → ALeaf O) a) =
          .ok (Sum.elim (fun f : Fin n → Arr => .arr (f k)) .other a) := by
        rcases a with f | o
        · simp only [Sum.elim_inl, indexLeaf, List.length_ofFn]
          have : min (k : Nat) (n - 1) = k := by omega
          rw [this]
          simp
        · rfl
      simp only [List.map_cons, mapE, this, ih, bind, Except.bind, pure, Except.pure]
  rw [index, h]
  simp only [bind, Except.bind]
  have e : (stack1 F).shape = (pick1 F k).shape := by simp only [stack1, pick1, shape_map]
  have := treeUnflatten_shape ((pick1 F k).map fun a => (.leaf a : PT K (ALeaf O)))
  rw [shape_map, leaves_map, join_map_leaf] at this
  rw [e, this]

theorem sizes_stack {n : Nat} (F : PT K ((Fin n → Arr) ⊕ O)) :
    ∃ sizes, mapE leafSize (stack1 F).leaves = .ok sizes ∧ sizes.flatten.all (· == n) = true := by
  rw [stack1, leaves_map]
  induction F.leaves with
  | nil => exact ⟨[], rfl, rfl⟩
  | cons a l ih =>
    obtain ⟨sizes, e1, e2⟩ := ih
    rcases a with f | o
    · exact ⟨[n] :: sizes, by simp [mapE, leafSize, e1, bind, Except.bind, pure, Except.pure], by simpa using e2⟩
    · exact ⟨[] :: sizes, by simp [mapE, leafSize, e1, bind, Except.bind, pure, Except.pure], by simpa using e2⟩

/-- Every number goes through the activation function with its own arrays. -/
theorem vmapApply_spec {n : Nat} (call : Calls K O) (F : PT K ((Fin n → Arr) ⊕ O)) (x y : Fin n → ℝ)
    (h : ∀ k, call (pick1 F k) (x k) = .ok (y k)) : vmapApply call (stack1 F) (.vec (List.ofFn x)) = .ok (.vec (List.ofFn y)) := by
  obtain ⟨sizes, e1, e2⟩ := sizes_stack F
  simp only [vmapApply, e1, bind, Except.bind, List.length_ofFn, e2]
  rw [range_ofFn, mapE_ofFn _ _ y]
  · rfl
  · intro k
    simp [index_stack, h]

theorem index_stack2 {d n : Nat} (F : PT K ((Fin d → Fin n → Arr) ⊕ O)) (i : Fin d) :
    index i (stack2 F) = .ok (stack1 (F.map (Sum.map (fun f => f i) id))) ∧
      ∀ k, pick1 (F.map (Sum.map (fun f => f i) id)) k = pick2 F i k := by
  constructor
  · have := index_stack (F.map (Sum.map (fun f i => Arr.stack (List.ofFn (f i))) id) : PT K ((Fin d → Arr) ⊕ O)) i
    simp only [stack1, pick1, map_map] at this
    rw [stack2, stack1, map_map]
    convert this using 3
    · funext a
      rcases a with f | o <;> rfl
    · funext a
      rcases a with f | o <;> rfl
  · intro k
    rw [pick1, pick2, map_map]
    apply map_congr_leaves
    rintro (f | o) - <;> rfl

theorem copies_eq (n : Nat) (act : Act K O) :
    copies n act = stack1 (n := n) (act.map fun a => match a with | .arr a => .inl fun _ => a | .other o => .inr o) ∧
      ∀ k, pick1 (n := n) (act.map fun a => match a with | .arr a => .inl fun _ => a | .other o => .inr o) k = act := by
  constructor
  · rw [copies, stack1, map_map]
    apply map_congr_leaves
    rintro (a | o) -
    · simp [copyLeaf, List.ofFn_const]
    · rfl
  · intro k
    rw [pick1, map_map]
    conv => rhs; rw [← map_id_fun act]
    apply map_congr_leaves
    rintro (a | o) - <;> rfl

theorem copies2_eq (d n : Nat) (act : Act K O) :
    copies d (copies n act) =
      stack2 (d := d) (n := n) (act.map fun a => match a with | .arr a => .inl fun _ _ => a | .other o => .inr o) ∧
      ∀ i k, pick2 (d := d) (n := n)
        (act.map fun a => match a with | .arr a => .inl fun _ _ => a | .other o => .inr o) i k = act := by
  constructor
  · rw [copies, copies, stack2, map_map, map_map]
    apply map_congr_leaves
    rintro (a | o) -
    · simp [copyLeaf, List.ofFn_const]
    · rfl
  · intro i k
    rw [pick2, map_map]
    conv => rhs; rw [← map_id_fun act]
    apply map_congr_leaves
    rintro (a | o) - <;> rfl

/-! ## `MLP` -/

/-- An activation function for the outputs of a size. -/
def stackS : (t : Size) → PT K ((Fin t.count → Arr) ⊕ O) → Act K O
  | .scalar, F => pick1 F ⟨0, Nat.one_pos⟩
  | .num _, F => stack1 F

/-- The numbers after hidden layer `i`: `φ i k (W x + b)_k`, where `x` is the input or what comes from the layer before. -/
def hid {n w : Nat} (W0 : Fin w → Fin n → ℝ) (b0 : Fin w → ℝ) (Wh : Nat → Fin w → Fin w → ℝ) (bh : Nat → Fin w → ℝ)
    (φ : Nat → Fin w → ℝ → ℝ) (x : Fin n → ℝ) : Nat → Fin w → ℝ
  | 0 => fun k => φ 0 k (affine W0 b0 x k)
  | i + 1 => fun k => φ (i + 1) k (affine (Wh i) (bh i) (hid W0 b0 Wh bh φ x i) k)

theorem finish_spec (call : Calls K O) (m : MLP K O) {t : Size} (ht : m.outSize = t) (G : PT K ((Fin t.count → Arr) ⊕ O))
    (hG : m.finalActivation = stackS t G) (z y : Fin t.count → ℝ) (h : ∀ k, call (pick1 G k) (z k) = .ok (y k)) :
    finish call m (asV t z) = .ok (asV t y) := by
  cases t with
  | scalar =>
    simp only [finish, ht, asV, hG, stackS, h, bind, Except.bind, pure, Except.pure]
  | num n =>
    simp only [finish, ht, asV, hG, stackS]
    exact vmapApply_spec call G z y h

theorem step_spec {w d : Nat} (call : Calls K O) (F : PT K ((Fin d → Fin w → Arr) ⊕ O)) (φ : Nat → Fin w → ℝ → ℝ)
    (hφ : ∀ (i : Fin d) k r, call (pick2 F i k) r = .ok (φ i k r)) (i : Nat) (hi : i < d) (x : Fin w → ℝ) :
    ∃ a, index i (stack2 F) = .ok a ∧ vmapApply call a (.vec (List.ofFn x)) = .ok (.vec (List.ofFn fun k => φ i k (x k))) := by
  obtain ⟨h1, h2⟩ := index_stack2 F ⟨i, hi⟩
  exact ⟨_, h1, vmapApply_spec call _ x _ fun k => by rw [h2, hφ]⟩

theorem hidden_spec {w d n : Nat} (call : Calls K O) (F : PT K ((Fin d → Fin w → Arr) ⊕ O)) (φ : Nat → Fin w → ℝ → ℝ)
    (hφ : ∀ (i : Fin d) k r, call (pick2 F i k) r = .ok (φ i k r)) (W0 : Fin w → Fin n → ℝ) (b0 : Fin w → ℝ)
    (Wh : Nat → Fin w → Fin w → ℝ) (bh : Nat → Fin w → ℝ) (x : Fin n → ℝ) (Ls : List Linear) (i : Nat)
    (hL : ∀ j L, Ls[j]? = some L → IsLinear L (.num w) (.num w) (Wh (i + j)) (bh (i + j))) (hi : i + Ls.length < d) :
    hidden call (stack2 F) (i + 1) Ls (.vec (List.ofFn (hid W0 b0 Wh bh φ x i))) =
      .ok (.vec (List.ofFn (hid W0 b0 Wh bh φ x (i + Ls.length)))) := by
  induction Ls generalizing i with
  | nil => rfl
  | cons L Ls ih =>
    have h1 : L.call (.vec (List.ofFn (hid W0 b0 Wh bh φ x i))) =
        .ok (.vec (List.ofFn (affine (Wh (i + 0)) (bh (i + 0)) (hid W0 b0 Wh bh φ x i)))) :=
      linear_spec (hL 0 L rfl) (hid W0 b0 Wh bh φ x i)
    simp only [List.length_cons] at hi
    obtain ⟨a, h2, h3⟩ := step_spec call F φ hφ (i + 1) (by omega)
      (affine (Wh (i + 0)) (bh (i + 0)) (hid W0 b0 Wh bh φ x i))
    simp only [hidden, bind, Except.bind, h2]
    rw [h1]
    simp only
    rw [h3]
    simp only
    have := ih (i + 1) (fun j L h => by
      have := hL (j + 1) L h
      rwa [show i + (j + 1) = i + 1 + j by omega] at this) (by omega)
    rw [show i + (L :: Ls).length = i + 1 + Ls.length by simp; omega, ← this]
    rfl

/-- A perceptron with hidden layers: each number goes through the activation function of its own neuron, after each hidden
layer, and through the final activation function of its own output at the end. -/
theorem mlp_spec {s t : Size} {w d : Nat} (call : Calls K O) (m : MLP K O) (first last : Linear) (middle : List Linear)
    (hlayers : m.layers = first :: middle ++ [last]) (hd : middle.length = d) (ht : m.outSize = t)
    (F : PT K ((Fin (d + 1) → Fin w → Arr) ⊕ O)) (hF : m.activation = stack2 F)
    (G : PT K ((Fin t.count → Arr) ⊕ O)) (hG : m.finalActivation = stackS t G)
    (φ : Nat → Fin w → ℝ → ℝ) (hφ : ∀ (i : Fin (d + 1)) k r, call (pick2 F i k) r = .ok (φ i k r))
    (ψ : Fin t.count → ℝ → ℝ) (hψ : ∀ k r, call (pick1 G k) r = .ok (ψ k r))
    (W0 : Fin w → Fin s.count → ℝ) (b0 : Fin w → ℝ) (h0 : IsLinear first s (.num w) W0 b0)
    (Wh : Nat → Fin w → Fin w → ℝ) (bh : Nat → Fin w → ℝ)
    (hh : ∀ i L, middle[i]? = some L → IsLinear L (.num w) (.num w) (Wh i) (bh i))
    (W1 : Fin t.count → Fin w → ℝ) (b1 : Fin t.count → ℝ) (h1 : IsLinear last (.num w) t W1 b1) (x : Fin s.count → ℝ) :
    m.call call (asV s x) = .ok (asV t fun k => ψ k (affine W1 b1 (hid W0 b0 Wh bh φ x d) k)) := by
  have e1 : m.layers.dropLast = first :: middle := by
    rw [hlayers, List.dropLast_concat]
  have e2 : lastLayer m.layers = .ok last := by
    rw [lastLayer, hlayers, List.getLast?_concat]
  have e3 : first.call (asV s x) = .ok (.vec (List.ofFn (affine W0 b0 x))) := linear_spec h0 x
  obtain ⟨a, e4, e5⟩ := step_spec call F φ hφ 0 (by omega) (affine W0 b0 x)
  have e6 := hidden_spec call F φ hφ W0 b0 Wh bh x middle 0 (fun j L h => by simpa using hh j L h) (by omega)
  have e7 : last.call (.vec (List.ofFn (hid W0 b0 Wh bh φ x d))) = .ok (asV t (affine W1 b1 (hid W0 b0 Wh bh φ x d))) :=
    linear_spec h1 (hid W0 b0 Wh bh φ x d)
  rw [MLP.call, e1, hF]
  simp only [hidden]
  rw [e3]
  simp only [bind, Except.bind, e4]
  rw [e5]
  simp only
  rw [show (fun k => φ 0 k (affine W0 b0 x k)) = hid W0 b0 Wh bh φ x 0 from rfl, e6]
  simp only [e2, Nat.zero_add, hd]
  rw [e7]
  simp only
  exact finish_spec call m ht G hG _ _ fun k => hψ k _

/-- Without hidden layers. -/
theorem mlp_depth_zero {s t : Size} (call : Calls K O) (m : MLP K O) (L : Linear) (hlayers : m.layers = [L])
    (ht : m.outSize = t) (G : PT K ((Fin t.count → Arr) ⊕ O)) (hG : m.finalActivation = stackS t G)
    (ψ : Fin t.count → ℝ → ℝ) (hψ : ∀ k r, call (pick1 G k) r = .ok (ψ k r))
    (W : Fin t.count → Fin s.count → ℝ) (b : Fin t.count → ℝ) (h : IsLinear L s t W b) (x : Fin s.count → ℝ) :
    m.call call (asV s x) = .ok (asV t fun k => ψ k (affine W b x k)) := by
  have e := linear_spec h x
  rw [MLP.call, hlayers]
  simp only [List.dropLast_singleton, hidden, bind, Except.bind, lastLayer, List.getLast?_singleton]
  rw [e]
  simp only
  exact finish_spec call m ht G hG _ _ fun k => hψ k _

/-- A new perceptron has `depth + 1` layers. They lead from the input size over the widths to the output size, only the last
has `use_final_bias`, and each of them has a key of its own. -/
theorem mlp_init (R : Rand Key) (hR : R.Lawful) (inSize outSize : Size) (width depth : Nat) (act fact : Act K O)
    (useBias useFinalBias : Bool) (key : Key) :
    ∃ m, MLP.init R inSize outSize width depth act fact useBias useFinalBias key = .ok m ∧
      m.layers.length = depth + 1 ∧ m.outSize = outSize ∧ m.depth = depth ∧
      ∀ i, i ≤ depth → ∃ L k, m.layers[i]? = some L ∧ (R.split key (depth + 1))[i]? = some k ∧
        Linear.init R (if i = 0 then inSize else .num width) (if i = depth then outSize else .num width)
          (if i = depth then useFinalBias else useBias) k = .ok L := by
  have hlen := hR.split key (depth + 1)
  have hk : ∀ i, i ≤ depth → ∃ k, (R.split key (depth + 1))[i]? = some k := fun i hi =>
    ⟨_, List.getElem?_eq_getElem (by omega)⟩
  cases depth with
  | zero =>
    obtain ⟨k, hk⟩ := hk 0 (by omega)
    obtain ⟨L, -, -, hL, -⟩ := linear_init R hR inSize outSize useFinalBias k
    refine ⟨⟨[L], copies 0 (copies width act), finalCopies outSize fact, outSize, 0⟩, ?_, ?_⟩
    · simp only [MLP.init, makeLayers, nth, hk, hL, bind, Except.bind, pure, Except.pure]
    · refine ⟨rfl, rfl, rfl, ?_⟩
      intro i hi
      obtain rfl : i = 0 := by omega
      exact ⟨L, k, rfl, hk, by simpa using hL⟩
  | succ d =>
    obtain ⟨k0, hk0⟩ := hk 0 (by omega)
    obtain ⟨kl, hkl⟩ := hk (d + 1) (by omega)
    obtain ⟨L0, -, -, hL0, -⟩ := linear_init R hR inSize (.num width) useBias k0
    obtain ⟨Ll, -, -, hLl, -⟩ := linear_init R hR (.num width) outSize useFinalBias kl
    have hmid : ∀ i : Fin d, ∃ L k, (R.split key (d + 1 + 1))[(i : Nat) + 1]? = some k ∧
        Linear.init R (.num width) (.num width) useBias k = .ok L := by
      intro i
      obtain ⟨k, hk⟩ := hk (i + 1) (by omega)
      obtain ⟨L, -, -, hL, -⟩ := linear_init R hR (.num width) (.num width) useBias k
      exact ⟨L, k, hk, hL⟩
    choose Lm km hkm hLm using hmid
    have hm : mapE (fun i => do
        let k ← nth (R.split key (d + 1 + 1)) (i + 1)
        Linear.init R (.num width) (.num width) useBias k) (List.range d) = .ok (List.ofFn Lm) := by
      rw [range_ofFn]
      apply mapE_ofFn
      intro i
      simp only [nth, hkm, bind, Except.bind, hLm]
    refine ⟨⟨L0 :: List.ofFn Lm ++ [Ll], copies (d + 1) (copies width act), finalCopies outSize fact, outSize, d + 1⟩, ?_, ?_⟩
    · have e1 : nth (R.split key (d + 1 + 1)) 0 = .ok k0 := by simp only [nth, hk0]
      have e2 : nth (R.split key (d + 1 + 1)) ((R.split key (d + 1 + 1)).length - 1) = .ok kl := by
        rw [hlen]
        simp only [nth, Nat.add_sub_cancel, hkl]
      simp only [bind, Except.bind] at hm
      simp only [MLP.init, makeLayers, e1, hL0, hm, e2, hLl, bind, Except.bind, pure, Except.pure]
    · refine ⟨by simp, rfl, rfl, ?_⟩
      intro i hi
      by_cases h0 : i = 0
      · subst h0
        exact ⟨L0, k0, rfl, hk0, by simpa using hL0⟩
      by_cases hd : i = d + 1
      · subst hd
        refine ⟨Ll, kl, ?_, hkl, by simpa using hLl⟩
        simp [List.getElem?_append]
      obtain ⟨j, rfl⟩ : ∃ j, i = j + 1 := ⟨i - 1, by omega⟩
      have hj : j < d := by omega
      refine ⟨Lm ⟨j, hj⟩, km ⟨j, hj⟩, ?_, hkm ⟨j, hj⟩, ?_⟩
      · simp [List.getElem?_append, hj]
      · have : ¬ j = d := by omega
        simpa [this] using hLm ⟨j, hj⟩

theorem finalCopies_eq (t : Size) (act : Act K O) : ∃ G : PT K ((Fin t.count → Arr) ⊕ O),
    finalCopies t act = stackS t G ∧ ∀ k, pick1 G k = act := by
  obtain ⟨h1, h2⟩ := copies_eq t.count act
  refine ⟨_, ?_, h2⟩
  cases t with
  | scalar => exact (h2 _).symm
  | num n => exact h1

theorem init_activation (R : Rand Key) (inSize outSize : Size) (width depth : Nat) (act fact : Act K O)
    (useBias useFinalBias : Bool) (key : Key) (m : MLP K O)
    (h : MLP.init R inSize outSize width depth act fact useBias useFinalBias key = .ok m) :
    m.activation = copies depth (copies width act) ∧ m.finalActivation = finalCopies outSize fact := by
  simp only [MLP.init, bind, Except.bind, pure, Except.pure] at h
  cases hl : makeLayers R inSize outSize width depth useBias useFinalBias (R.split key (depth + 1)) with
  | error e => rw [hl] at h; cases h
  | ok ls =>
    rw [hl] at h
    cases h
    exact ⟨rfl, rfl⟩

/-- A layer as it is made: what it computes with. -/
theorem init_isLinear (R : Rand Key) (hR : R.Lawful) {s t : Size} {useBias : Bool} {key : Key} {L : Linear}
    (h : Linear.init R s t useBias key = .ok L) : ∃ W b, IsLinear L s t W b := by
  obtain ⟨L', W, b, h1, h2, -⟩ := linear_init R hR s t useBias key
  rw [h1] at h
  cases h
  exact ⟨W, b, h2⟩

/-- A new perceptron applies the activation functions that it was given, though it has a copy for each neuron:
`final(W1 act(Wh act(... act(W0 x + b0)) + bh) + b1)`, where the weights are those of its layers. -/
theorem mlp_fresh (R : Rand Key) (hR : R.Lawful) (inSize outSize : Size) (width depth : Nat) (act fact : Act K O)
    (useBias useFinalBias : Bool) (key : Key) (call : Calls K O) (φ ψ : ℝ → ℝ) (hφ : ∀ r, call act r = .ok (φ r))
    (hψ : ∀ r, call fact r = .ok (ψ r)) :
    ∃ m, MLP.init R inSize outSize width depth act fact useBias useFinalBias key = .ok m ∧
      (depth = 0 → ∃ L W b, m.layers = [L] ∧ IsLinear L inSize outSize W b ∧
        ∀ x, m.call call (asV inSize x) = .ok (asV outSize fun k => ψ (affine W b x k))) ∧
      ∀ d, depth = d + 1 → ∃ first middle last W0 b0 Wh bh W1 b1, m.layers = first :: middle ++ [last] ∧ middle.length = d ∧
        IsLinear first inSize (.num width) W0 b0 ∧
        (∀ i L, middle[i]? = some L → IsLinear L (.num width) (.num width) (Wh i) (bh i)) ∧
        IsLinear last (.num width) outSize W1 b1 ∧
        ∀ x, m.call call (asV inSize x) =
          .ok (asV outSize fun k => ψ (affine W1 b1 (hid W0 b0 Wh bh (fun _ _ => φ) x d) k)) := by
  obtain ⟨m, hm, hlen, hout, hdepth, hL⟩ :=
    mlp_init R hR inSize outSize width depth act fact useBias useFinalBias key
  obtain ⟨ha, hf⟩ := init_activation R inSize outSize width depth act fact useBias useFinalBias key m hm
  obtain ⟨G, hG, hGk⟩ := finalCopies_eq outSize fact
  rw [hG] at hf
  refine ⟨m, hm, ?_, ?_⟩
  · rintro rfl
    obtain ⟨L, k, h1, h2, h3⟩ := hL 0 (by omega)
    simp only [if_true] at h3
    obtain ⟨W, b, h4⟩ := init_isLinear R hR h3
    have hl : m.layers = [L] := by
      match hm : m.layers, hlen with
      | [L'], _ => rw [hm] at h1; simp at h1; rw [h1]
    exact ⟨L, W, b, hl, h4, fun x => mlp_depth_zero call m L hl hout G hf (fun _ => ψ) (fun k r => by rw [hGk, hψ]) W b h4 x⟩
  · rintro d rfl
    obtain ⟨L0, k0, a1, a2, a3⟩ := hL 0 (by omega)
    obtain ⟨Ll, kl, c1, c2, c3⟩ := hL (d + 1) (by omega)
    simp only [if_true, Nat.add_eq_zero_iff, one_ne_zero, and_false, if_false, (Nat.succ_ne_zero d).symm] at a3 c3
    obtain ⟨W0, b0, a4⟩ := init_isLinear R hR a3
    obtain ⟨W1, b1, c4⟩ := init_isLinear R hR c3
    have hmid : ∀ i, ∃ (W : Fin width → Fin width → ℝ) (b : Fin width → ℝ), i < d → ∃ L, m.layers[i + 1]? = some L ∧
        IsLinear L (.num width) (.num width) W b := by
      intro i
      by_cases hi : i < d
      · obtain ⟨L, k, h1, h2, h3⟩ := hL (i + 1) (by omega)
        rw [if_neg (by omega), if_neg (by omega), if_neg (by omega)] at h3
        obtain ⟨W, b, h4⟩ := init_isLinear R hR h3
        exact ⟨W, b, fun _ => ⟨L, h1, h4⟩⟩
      · exact ⟨fun _ _ => 0, fun _ => 0, fun h => absurd h hi⟩
    choose Wh bh hWh using hmid
    obtain ⟨middle, hmd, hml⟩ : ∃ middle, m.layers = L0 :: middle ++ [Ll] ∧ middle.length = d := by
      match hls : m.layers with
      | [] => rw [hls] at hlen; simp at hlen
      | L :: ls =>
        rw [hls] at a1 c1 hlen
        simp only [List.getElem?_cons_zero, Option.some.injEq] at a1
        subst a1
        have hne : ls ≠ [] := by
          rintro rfl
          simp at hlen
        have hl : ls.getLast hne = Ll := by
          simp only [List.getElem?_cons_succ] at c1
          rw [List.getLast_eq_getElem]
          simp only [List.length_cons] at hlen
          have : ls[d]? = some (ls[ls.length - 1]'(by omega)) := by
            rw [List.getElem?_eq_getElem (by omega)]
            congr 1
            congr 1
            omega
          rw [this] at c1
          exact Option.some.inj c1
        refine ⟨ls.dropLast, ?_, ?_⟩
        · rw [← hl, List.cons_append, List.dropLast_append_getLast]
        · simp only [List.length_cons] at hlen
          simp
          omega
    have hmm : ∀ i L, middle[i]? = some L → IsLinear L (.num width) (.num width) (Wh i) (bh i) := by
      intro i L h
      have hi : i < d := by
        have := (List.getElem?_eq_some_iff.1 h).1
        omega
      obtain ⟨L', h1, h2⟩ := hWh i hi
      rw [hmd] at h1
      simp only [List.cons_append, List.getElem?_cons_succ] at h1
      rw [List.getElem?_append_left (by omega), h] at h1
      cases h1
      exact h2
    obtain ⟨e1, e2⟩ := copies2_eq (d + 1) width act
    rw [e1] at ha
    refine ⟨L0, middle, Ll, W0, b0, Wh, bh, W1, b1, hmd, hml, a4, hmm, c4, fun x => ?_⟩
    exact mlp_spec call m L0 Ll middle hmd hml hout _ ha G hf (fun _ _ => φ) (fun i k r => by rw [e2, hφ]) (fun _ => ψ)
      (fun k r => by rw [hGk, hψ]) W0 b0 a4 Wh bh hmm W1 b1 c4 x

/-- What the first layer does not accept, the perceptron does not accept. -/
theorem mlp_first_error (call : Calls K O) (m : MLP K O) (L : Linear) (Ls : List Linear) (h : m.layers = L :: Ls) (x : V)
    (e : Err) (hx : L.call x = .error e) : m.call call x = .error e := by
  rw [MLP.call, h]
  cases Ls with
  | nil => simp only [List.dropLast_singleton, hidden, bind, Except.bind, lastLayer, List.getLast?_singleton, hx]
  | cons L' Ls => simp only [List.dropLast_cons_cons, hidden, bind, Except.bind, hx]

/-- A first neuron whose activation function raises. -/
theorem mlp_activation_error {w d : Nat} (call : Calls K O) (m : MLP K O) (L L' : Linear) (Ls : List Linear)
    (h : m.layers = L :: L' :: Ls) (F : PT K ((Fin (d + 1) → Fin (w + 1) → Arr) ⊕ O)) (hF : m.activation = stack2 F)
    (x : V) (z : Fin (w + 1) → ℝ) (hx : L.call x = .ok (.vec (List.ofFn z))) (e : Err)
    (he : call (pick2 F 0 0) (z 0) = .error e) : m.call call x = .error e := by
  obtain ⟨h1, h2⟩ := index_stack2 F 0
  have h3 : vmapApply call (stack1 (F.map (Sum.map (fun f => f 0) id))) (.vec (List.ofFn z)) = .error e := by
    obtain ⟨sizes, e1, e2⟩ := sizes_stack (F.map (Sum.map (fun f => f 0) id) : PT K ((Fin (w + 1) → Arr) ⊕ O))
    have e3 := index_stack (F.map (Sum.map (fun f => f 0) id)) 0
    rw [h2 0] at e3
    simp only [vmapApply, e1, bind, Except.bind, List.length_ofFn, e2]
    rw [List.range_succ_eq_map]
    have e4 : index 0 (stack1 (F.map (Sum.map (fun f => f 0) id)) : Act K O) = .ok (pick2 F 0 0) := e3
    simp [mapE, e4, he, bind, Except.bind]
  rw [MLP.call, h, hF]
  have h1' : index 0 (stack2 F) = .ok (stack1 (F.map (Sum.map (fun f => f 0) id))) := h1
  simp only [List.dropLast_cons_cons, hidden, bind, Except.bind, hx, h1']
  rw [h3]

/-! ## Cases that meet the hypotheses -/

/-- Random numbers that are all at the lower end of the interval. -/
noncomputable def lowRand : Rand Nat where
  split k n := (List.range n).map fun i => k * 10 + i
  matrix _ m n lo _ := List.replicate m (List.replicate n lo)
  vector _ n lo _ := List.replicate n lo

example : lowRand.Lawful where
  split k n := by simp [lowRand]
  rows k m n lo hi := by simp [lowRand]
  cols k m n lo hi row h := by simp only [lowRand, List.mem_replicate] at h; rw [h.2]; simp
  mrange k m n lo hi h row hr r hrr := by
    simp only [lowRand, List.mem_replicate] at hr
    rw [hr.2] at hrr
    have := (List.mem_replicate.1 hrr).2
    exact ⟨this.ge, this.le.trans h⟩
  vector k n lo hi := by simp [lowRand]
  vrange k n lo hi h r hr := by
    have := (List.mem_replicate.1 hr).2
    exact ⟨this.ge, this.le.trans h⟩

/-- A parametrised activation function, `PReLU`: one array and one other leaf; it raises if it has another structure. -/
def prelu : Calls Unit Nat
  | .node () [.leaf (.arr (.base a)), .leaf (.other _)], r => .ok (max r 0 + a * min r 0)
  | _, _ => .error .typeError

example : ∀ r, prelu (.node () [.leaf (.arr (.base 2)), .leaf (.other 7)]) r = .ok (max r 0 + 2 * min r 0) := fun _ => rfl

end Mlp
end NN
end Verif
