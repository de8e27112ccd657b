import Verif.NN.PoolModel
import Verif.NN.BoxSum
import Mathlib.Order.Defs.LinearOrder
import Mathlib.Tactic.Ring
import Mathlib.Tactic.Linarith
/-!
# C42: pooling output sizes and values

`pool_sizes` gives the number of windows of every dimension, with `floor` and `ceil` division of
`n + l + r - k` by the stride. `pool_ok_iff` says exactly which calls succeed, including the padding
check applied to the extended padding. `pool_window_inside`, `pool_ceil_covers` and
`pool_floor_covers` say where the windows lie. `pool_max` and `avgpool_value` are the values of
maximum and average pooling.
-/

namespace Verif.NN

variable {α : Type}

/-! ## Specification -/

/-- `⌈a / b⌉` for a positive `b`. -/
def ceilDiv (a b : Int) : Int := -((-a) / b)

/-- The right padding used by a call: extended by the stride if `use_ceil` asks for it and the
windows do not fit exactly. -/
def rightPad (useCeil : Bool) (n : Nat) (l r k s : Int) : Int :=
  if useCeil ∧ ((n : Int) + l + r - k) % s ≠ 0 then r + s else r

/-- Input index `q` lies in window `i` (stride `s`, left padding `l`, kernel size `k`), in every
dimension. -/
def InWin : List (Int × Int) → List Int → List Int → List Nat → List Nat → Prop
  | [], [], [], [], [] => True
  | p :: ps, s :: ss, k :: ks, i :: is, q :: qs =>
    ((i : Int) * s - p.1 ≤ q ∧ (q : Int) < i * s - p.1 + k) ∧ InWin ps ss ks is qs
  | _, _, _, _, _ => False

instance : ∀ ps ss ks is qs, Decidable (InWin ps ss ks is qs)
  | [], [], [], [], [] => isTrue trivial
  | p :: ps, s :: ss, k :: ks, i :: is, q :: qs =>
    have := instDecidableInWin ps ss ks is qs
    inferInstanceAs (Decidable (_ ∧ _))
  | [], [], [], [], _ :: _ => isFalse id
  | [], [], [], _ :: _, _ => isFalse id
  | [], [], _ :: _, _, _ => isFalse id
  | [], _ :: _, _, _, _ => isFalse id
  | _ :: _, [], _, _, _ => isFalse id
  | _ :: _, _ :: _, [], _, _ => isFalse id
  | _ :: _, _ :: _, _ :: _, [], _ => isFalse id
  | _ :: _, _ :: _, _ :: _, _ :: _, [] => isFalse id

/-! ## Sizes -/

theorem call_ok (p : Pool α) (x y : NArr α) (h : p.call x = .ok y) :
    ∃ c ns pad, x.shape = c :: ns ∧ ns.length = p.numSpatialDims ∧ effPad p ns = .ok pad ∧
      checkPadding pad p.kernelSize = .ok () ∧
      p.kernelSize.length = ns.length ∧ p.stride.length = ns.length ∧ pad.length = ns.length ∧
      (∀ k ∈ p.kernelSize, 0 < k) ∧ (∀ s ∈ p.stride, 0 < s) ∧
      y.shape = c :: windowShape ns pad p.kernelSize p.stride ∧
      ∀ ch is, y.at_ (ch :: is) = (offsets p.kernelSize).foldl (fun acc js =>
          p.operation acc (match position ns pad p.stride is js with
            | some q => x.at_ (ch :: q)
            | none => p.init)) p.init := by
  simp only [Pool.call] at h
  split at h
  · exact absurd h (by simp)
  rename_i hr
  cases hx : x.shape with
  | nil => simp [hx] at hr
  | cons c ns =>
    simp only [hx, List.tail_cons] at h
    cases hp : effPad p ns with
    | error e => simp [hp, bind, Except.bind] at h
    | ok pad =>
      simp only [hp, bind, Except.bind] at h
      cases hc : checkPadding pad p.kernelSize with
      | error e => simp [hc] at h
      | ok u =>
        simp only [hc, reduceWindow, hx] at h
        split at h
        · exact absurd h (by simp)
        rename_i h1
        split at h
        · exact absurd h (by simp)
        rename_i h2
        simp only [Except.ok.injEq] at h
        subst h
        simp only [not_or, ne_eq, Decidable.not_not, not_exists, not_and] at h1 h2
        exact ⟨c, ns, pad, rfl, by simpa [hx] using hr, hp, hc, h1.1, h1.2.1, h1.2.2,
          fun k hk => by have := h2.1 k hk; omega, fun s hs => by have := h2.2 s hs; omega, rfl,
          fun _ _ => rfl⟩

theorem updatePadding_get (ns : List Nat) (ps : List (Int × Int)) (ks ss : List Int)
    (h1 : ps.length = ns.length) (h2 : ks.length = ns.length) (h3 : ss.length = ns.length)
    (hs : ∀ s ∈ ss, 0 < s) :
    ∃ pad, updatePadding ns ps ks ss = .ok pad ∧ pad.length = ns.length ∧
      ∀ (d : Nat) (n : Nat) (l r k s : Int), ns[d]? = some n → ps[d]? = some (l, r) →
        ks[d]? = some k → ss[d]? = some s → pad[d]? = some (l, rightPad true n l r k s) := by
  induction ns generalizing ps ks ss with
  | nil =>
    refine ⟨[], ?_, rfl, by simp⟩
    simp [updatePadding]
  | cons n ns ih =>
    cases ps with
    | nil => simp at h1
    | cons p ps =>
    cases ks with
    | nil => simp at h2
    | cons k ks =>
    cases ss with
    | nil => simp at h3
    | cons s ss =>
      obtain ⟨l, r⟩ := p
      have hs0 : 0 < s := hs s (List.mem_cons_self ..)
      obtain ⟨pad, e1, e2, e3⟩ := ih ps ks ss (by simpa using h1) (by simpa using h2)
        (by simpa using h3) (fun s hm => hs s (List.mem_cons_of_mem _ hm))
      refine ⟨(if ((n : Int) + l + r - k).fmod s = 0 then (l, r) else (l, r + s)) :: pad, ?_, ?_, ?_⟩
      · simp only [updatePadding, if_neg (show ¬ s = 0 by omega), e1, bind, Except.bind]
      · simp [e2]
      · intro d n' l' r' k' s' hn hp hk hss
        cases d with
        | zero =>
          simp only [List.getElem?_cons_zero, Option.some.injEq, Prod.mk.injEq] at hn hp hk hss
          obtain ⟨rfl, rfl⟩ := hp
          subst hn; subst hk; subst hss
          simp only [List.getElem?_cons_zero, Option.some.injEq, rightPad, true_and,
            Int.fmod_eq_emod_of_nonneg _ (show (0 : Int) ≤ s by omega)]
          by_cases hz : ((n : Int) + l + r - k) % s = 0 <;> simp [hz]
        | succ d =>
          simp only [List.getElem?_cons_succ] at *
          exact e3 d n' l' r' k' s' hn hp hk hss

/-- The effective padding, dimension by dimension. -/
theorem effPad_get (p : Pool α) (ns : List Nat) (pad : List (Int × Int)) (he : effPad p ns = .ok pad)
    (h1 : p.padding.length = ns.length) (h2 : p.kernelSize.length = ns.length)
    (h3 : p.stride.length = ns.length) (hs : ∀ s ∈ p.stride, 0 < s)
    (d : Nat) (n : Nat) (l r k s : Int) (hn : ns[d]? = some n) (hp : p.padding[d]? = some (l, r))
    (hk : p.kernelSize[d]? = some k) (hss : p.stride[d]? = some s) :
    pad[d]? = some (l, rightPad p.useCeil n l r k s) := by
  simp only [effPad] at he
  cases hc : p.useCeil with
  | true =>
    simp only [hc, if_true] at he
    obtain ⟨pad', e1, _, e3⟩ := updatePadding_get ns p.padding p.kernelSize p.stride h1 h2 h3 hs
    rw [e1] at he; injection he with he; subst he
    exact e3 d n l r k s hn hp hk hss
  | false =>
    simp only [hc, Bool.false_eq_true, if_false, Except.ok.injEq] at he
    subst he
    simp [hp, rightPad]

theorem updatePadding_length (ns : List Nat) (ps : List (Int × Int)) (ks ss : List Int)
    (pad : List (Int × Int)) (h : updatePadding ns ps ks ss = .ok pad) :
    pad.length ≤ ps.length ∧
      pad.length = min (min ns.length ps.length) (min ks.length ss.length) := by
  induction ns generalizing ps ks ss pad with
  | nil => simp [updatePadding] at h; subst h; simp
  | cons n ns ih =>
    cases ps with
    | nil => simp [updatePadding] at h; subst h; simp
    | cons p ps =>
    cases ks with
    | nil => simp [updatePadding] at h; subst h; simp
    | cons k ks =>
    cases ss with
    | nil => simp [updatePadding] at h; subst h; simp
    | cons s ss =>
      obtain ⟨l, r⟩ := p
      simp only [updatePadding] at h
      split at h
      · simp at h
      · cases hr : updatePadding ns ps ks ss with
        | error e => simp [hr, bind, Except.bind] at h
        | ok rest =>
          simp only [hr, bind, Except.bind, Except.ok.injEq] at h
          subst h
          have := ih ps ks ss rest hr
          simp only [List.length_cons]
          omega

theorem windowShape_get (ns : List Nat) (ps : List (Int × Int)) (ks ss : List Int)
    (d n : Nat) (p : Int × Int) (k s : Int) (hn : ns[d]? = some n) (hp : ps[d]? = some p)
    (hk : ks[d]? = some k) (hs : ss[d]? = some s) :
    (windowShape ns ps ks ss)[d]? = some (windows n p k s) := by
  induction ns generalizing ps ks ss d with
  | nil => simp at hn
  | cons n' ns ih =>
    cases ps with
    | nil => simp at hp
    | cons p' ps =>
    cases ks with
    | nil => simp at hk
    | cons k' ks =>
    cases ss with
    | nil => simp at hs
    | cons s' ss =>
      cases d with
      | zero =>
        simp only [List.getElem?_cons_zero, Option.some.injEq] at *
        subst hn; subst hp; subst hk; subst hs; simp [windowShape]
      | succ d =>
        simp only [List.getElem?_cons_succ, windowShape] at *
        exact ih ps ks ss d hn hp hk hs

theorem windowShape_length (ns : List Nat) (ps : List (Int × Int)) (ks ss : List Int)
    (h1 : ps.length = ns.length) (h2 : ks.length = ns.length) (h3 : ss.length = ns.length) :
    (windowShape ns ps ks ss).length = ns.length := by
  induction ns generalizing ps ks ss with
  | nil => simp [windowShape]
  | cons n ns ih =>
    cases ps with
    | nil => simp at h1
    | cons p ps =>
    cases ks with
    | nil => simp at h2
    | cons k ks =>
    cases ss with
    | nil => simp at h3
    | cons s ss =>
      simp only [windowShape, List.length_cons, Nat.add_right_cancel_iff]
      exact ih ps ks ss (by simpa using h1) (by simpa using h2) (by simpa using h3)

/-- The number of windows of a dimension is `max 0 (⌊(n+l+r-k)/s⌋ + 1)`. -/
theorem windows_eq (n : Nat) (l r k s : Int) (hs : 0 < s) :
    (windows n (l, r) k s : Int) = max 0 (((n : Int) + l + r - k) / s + 1) := by
  simp only [windows]
  split
  · rename_i h
    have : ((n : Int) + l + r - k) / s < 0 := Int.ediv_neg_of_neg_of_pos (by omega) hs
    simp; omega
  · rename_i h
    have : 0 ≤ ((n : Int) + l + r - k) / s := Int.ediv_nonneg (by omega) (by omega)
    omega

/-- Adding a stride to the right padding when the windows do not fit exactly rounds the number of
windows up. -/
theorem ceil_count (m s : Int) (hs : 0 < s) :
    (m + (if m % s ≠ 0 then s else 0)) / s = ceilDiv m s := by
  unfold ceilDiv
  have h1 := Int.mul_ediv_add_emod m s
  have h2 := Int.emod_nonneg m (show s ≠ 0 by omega)
  have h3 := Int.emod_lt_of_pos m hs
  by_cases h : m % s = 0
  · simp only [h, ne_eq, not_true_eq_false, if_false, Int.add_zero]
    have h4 : m = s * (m / s) := by omega
    rw [show -m = s * (-(m / s)) by rw [Int.mul_neg, ← h4], Int.mul_ediv_cancel_left _ (by omega)]
    omega
  · simp only [ne_eq, h, not_false_eq_true, if_true]
    have h5 : (m + s) / s = m / s + 1 := by
      rw [show m + s = m + 1 * s by ring, Int.add_mul_ediv_right _ _ (by omega)]
    have h6 : (-m) / s = -(m / s) - 1 := by
      have : -m = (s - m % s) + (-(m / s) - 1) * s := by linarith
      rw [this, Int.add_mul_ediv_right _ _ (by omega), Int.ediv_eq_zero_of_lt (by omega) (by omega)]
      omega
    omega

/-- The padding of dimension `j` that a `padding` argument asks for. -/
def PadArg.entry : PadArg → Nat → Option (Int × Int)
  | .int q, _ => some (q, q)
  | .ints l, j => l[j]?.map fun q => (q, q)
  | .pairs l, j => l[j]?
  | .other, _ => none

/-- The value for dimension `j` that an integer or sequence argument asks for. -/
def IntOrSeq.entry : IntOrSeq → Nat → Option Int
  | .int q, _ => some q
  | .seq l, j => l[j]?
  | .other, _ => none

/-- **C42** (constructor). A pool that could be built has one padding per dimension, and stores what
its arguments ask for. -/
theorem pool_mk (init : α) (op : α → α → α) (n : Nat) (kernel stride : IntOrSeq) (padding : PadArg)
    (ceil : Bool) (p : Pool α) (h : Pool.mk' init op n kernel stride padding ceil = .ok p) :
    p.init = init ∧ p.operation = op ∧ p.numSpatialDims = n ∧ p.useCeil = ceil ∧ p.padding.length = n ∧
      ∀ j, j < n → p.padding[j]? = padding.entry j ∧ p.kernelSize[j]? = kernel.entry j ∧
        p.stride[j]? = stride.entry j := by
  cases kernel <;> cases stride <;> cases padding <;>
    simp only [Pool.mk', bind, Except.bind, reduceCtorEq, Except.ok.injEq] at h <;>
    first
    | (subst h
       refine ⟨rfl, rfl, rfl, rfl, by simp, fun j hj => ?_⟩
       simp [PadArg.entry, IntOrSeq.entry, hj])
    | (split at h
       · rename_i hlen
         simp only [Except.ok.injEq] at h
         subst h
         refine ⟨rfl, rfl, rfl, rfl, by simpa using hlen, fun j hj => ?_⟩
         simp [PadArg.entry, IntOrSeq.entry, hj]
       · exact absurd h (by simp))

/-- **C42** (sizes). If a call returns, the input has the announced rank, the channel dimension is
unchanged, and each spatial dimension of size `n` becomes `⌊(n+l+r-k)/s⌋ + 1` windows, or
`⌈(n+l+r-k)/s⌉ + 1` with `use_ceil` (never fewer than zero). -/
theorem pool_sizes (p : Pool α) (hpad : p.padding.length = p.numSpatialDims) (x y : NArr α)
    (h : p.call x = .ok y) :
    ∃ c ns, x.shape = c :: ns ∧ ns.length = p.numSpatialDims ∧ y.shape.length = x.shape.length ∧
      y.shape[0]? = some c ∧
      ∀ (d n : Nat) (l r k s : Int), ns[d]? = some n → p.padding[d]? = some (l, r) →
        p.kernelSize[d]? = some k → p.stride[d]? = some s →
        ∃ m : Nat, y.shape[d + 1]? = some m ∧
          (m : Int) = max 0 ((if p.useCeil then ceilDiv ((n : Int) + l + r - k) s
            else ((n : Int) + l + r - k) / s) + 1) := by
  obtain ⟨c, ns, pad, hx, hN, hp, hc, hk, hs, hl, hk0, hs0, hy, _⟩ := call_ok p x y h
  refine ⟨c, ns, hx, hN, ?_, by simp [hy], ?_⟩
  · simp [hx, hy, windowShape_length _ _ _ _ hl hk hs]
  intro d n l r k s gn gp gk gs
  have e := effPad_get p ns pad hp (by omega) hk hs hs0 d n l r k s gn gp gk gs
  have hs' : 0 < s := hs0 s (List.mem_of_getElem? gs)
  refine ⟨windows n (l, rightPad p.useCeil n l r k s) k s, ?_, ?_⟩
  · rw [hy, List.getElem?_cons_succ]
    exact windowShape_get _ _ _ _ _ _ _ _ _ gn e gk gs
  · rw [windows_eq _ _ _ _ _ hs']
    congr 2
    cases hu : p.useCeil with
    | false => simp [rightPad]
    | true =>
      simp only [rightPad, true_and, if_true]
      rw [← ceil_count _ _ hs']
      congr 1
      split
      · ring
      · ring

theorem checkPadding_ok (ps : List (Int × Int)) (ks : List Int) (h : ps.length = ks.length) :
    checkPadding ps ks = .ok () ↔
      ∀ (d : Nat) (l r k : Int), ps[d]? = some (l, r) → ks[d]? = some k → l ≤ k ∧ r ≤ k := by
  induction ps generalizing ks with
  | nil => simp [checkPadding]
  | cons p ps ih =>
    cases ks with
    | nil => simp at h
    | cons k ks =>
      obtain ⟨l, r⟩ := p
      simp only [checkPadding]
      split
      · rename_i hm
        simp only [reduceCtorEq, false_iff]
        intro hall
        have := hall 0 l r k rfl rfl
        omega
      · rename_i hm
        rw [ih ks (by simpa using h)]
        constructor
        · intro hall d l' r' k' h1 h2
          cases d with
          | zero =>
            simp only [List.getElem?_cons_zero, Option.some.injEq, Prod.mk.injEq] at h1 h2
            omega
          | succ d => exact hall d l' r' k' h1 h2
        · intro hall d l' r' k' h1 h2
          exact hall (d + 1) l' r' k' h1 h2

/-- The check fails only with a `RuntimeError`. -/
theorem checkPadding_error (ps : List (Int × Int)) (ks : List Int) (e : Err)
    (h : checkPadding ps ks = .error e) : e = .runtimeError := by
  induction ps generalizing ks with
  | nil => simp [checkPadding] at h
  | cons p ps ih =>
    cases ks with
    | nil => simp [checkPadding] at h
    | cons k ks =>
      simp only [checkPadding] at h
      split at h
      · simp at h; exact h.symm
      · exact ih ks h

/-- **C42** (padding check). For an input of the right rank and hyperparameters of the right length,
positive kernel sizes and strides, the call succeeds exactly if in every dimension neither the left
padding nor the (possibly extended) right padding exceeds the kernel size; otherwise it raises
`RuntimeError`. -/
theorem pool_ok_iff (p : Pool α) (x : NArr α) (c : Nat) (ns : List Nat) (hx : x.shape = c :: ns)
    (hN : ns.length = p.numSpatialDims) (hp : p.padding.length = ns.length)
    (hk : p.kernelSize.length = ns.length) (hs : p.stride.length = ns.length)
    (hk0 : ∀ k ∈ p.kernelSize, 0 < k) (hs0 : ∀ s ∈ p.stride, 0 < s) :
    (Except.Ok (p.call x) ↔
      ∀ (d n : Nat) (l r k s : Int), ns[d]? = some n → p.padding[d]? = some (l, r) →
        p.kernelSize[d]? = some k → p.stride[d]? = some s →
        l ≤ k ∧ rightPad p.useCeil n l r k s ≤ k) ∧
    (¬ Except.Ok (p.call x) → p.call x = .error .runtimeError) := by
  obtain ⟨pad, he, hl⟩ : ∃ pad, effPad p ns = .ok pad ∧ pad.length = ns.length := by
    simp only [effPad]
    cases p.useCeil with
    | true =>
      obtain ⟨pad, h1, h2, _⟩ := updatePadding_get ns p.padding p.kernelSize p.stride hp hk hs hs0
      exact ⟨pad, h1, h2⟩
    | false => exact ⟨_, rfl, hp⟩
  have hcall : p.call x = (do
      let _ ← checkPadding pad p.kernelSize
      reduceWindow x p.init p.operation p.kernelSize p.stride pad) := by
    simp only [Pool.call]
    rw [if_neg (by simp [hx, hN])]
    simp only [hx, List.tail_cons]
    rw [he]; rfl
  have hred : ∃ y, reduceWindow x p.init p.operation p.kernelSize p.stride pad = .ok y := by
    simp only [reduceWindow, hx]
    rw [if_neg (by simp only [hk, hs, hl]; simp)]
    rw [if_neg]
    · exact ⟨_, rfl⟩
    · rintro (⟨k, hm, h⟩ | ⟨s, hm, h⟩)
      · have := hk0 k hm; omega
      · have := hs0 s hm; omega
  have key : checkPadding pad p.kernelSize = .ok () ↔
      ∀ (d n : Nat) (l r k s : Int), ns[d]? = some n → p.padding[d]? = some (l, r) →
        p.kernelSize[d]? = some k → p.stride[d]? = some s →
        l ≤ k ∧ rightPad p.useCeil n l r k s ≤ k := by
    rw [checkPadding_ok _ _ (by omega)]
    constructor
    · intro h d n l r k s gn gp gk gs
      exact h d l _ k (effPad_get p ns pad he hp hk hs hs0 d n l r k s gn gp gk gs) gk
    · intro h d l r' k gp gk
      have hd : d < ns.length := by
        rw [← hl]; exact (List.getElem?_eq_some_iff.mp gp).1
      have hs' := effPad_get p ns pad he hp hk hs hs0 d ns[d] p.padding[d].1 p.padding[d].2 k
        p.stride[d] (List.getElem?_eq_getElem hd) (List.getElem?_eq_getElem (by omega)) gk
        (List.getElem?_eq_getElem (by omega))
      rw [gp] at hs'
      simp only [Option.some.injEq, Prod.mk.injEq] at hs'
      have := h d ns[d] p.padding[d].1 p.padding[d].2 k
        p.stride[d] (List.getElem?_eq_getElem hd) (List.getElem?_eq_getElem (by omega)) gk
        (List.getElem?_eq_getElem (by omega))
      rw [hs'.1, hs'.2]; exact this
  obtain ⟨y, hy⟩ := hred
  cases hc : checkPadding pad p.kernelSize with
  | ok u =>
    have : p.call x = .ok y := by rw [hcall, hc]; exact hy
    refine ⟨⟨fun _ => key.mp hc, fun _ => ⟨y, this⟩⟩, fun hn => absurd ⟨y, this⟩ hn⟩
  | error e =>
    have : p.call x = .error .runtimeError := by
      rw [hcall, hc, checkPadding_error _ _ _ hc]; rfl
    refine ⟨⟨fun ⟨y, h⟩ => by rw [this] at h; simp at h, fun h => ?_⟩, fun _ => this⟩
    rw [key.mpr h] at hc; simp at hc

/-- **C42** (which layers can be made). An argument of another type, and a padding whose length is not the number of
dimensions, are a ValueError; nothing else is refused, not even kernels or strides of another length. -/
theorem pool_mk_iff (init : α) (op : α → α → α) (n : Nat) (k s : IntOrSeq) (p : PadArg) (c : Bool) :
    ((∃ l, Pool.mk' init op n k s p c = .ok l) ↔
      k ≠ .other ∧ s ≠ .other ∧ p ≠ .other ∧ (∀ l, p = .ints l → l.length = n) ∧ (∀ l, p = .pairs l → l.length = n)) ∧
    (∀ e, Pool.mk' init op n k s p c = .error e → e = .valueError) := by
  cases k <;> cases s <;> cases p <;>
    simp only [Pool.mk', Bind.bind, Except.bind] <;> (try split) <;> (try split_ifs) <;> simp_all

example : Pool.mk' (0 : Int) (· + ·) 2 (.int 2) (.seq [1, 1]) (.ints [0, 0]) false =
    .ok ⟨0, (· + ·), 2, [2, 2], [1, 1], [(0, 0), (0, 0)], false⟩ := rfl
example : Pool.mk' (0 : Int) (· + ·) 2 (.int 2) (.seq [1, 1]) (.ints [0, 0, 0]) false = .error .valueError := rfl

/-- An input of the wrong rank raises `AssertionError`. -/
theorem pool_rank (p : Pool α) (x : NArr α) (h : x.shape.length ≠ p.numSpatialDims + 1) :
    p.call x = .error .assertionError := by simp [Pool.call, h]

/-- **C42** (where the windows lie). Window `i` of a dimension starts inside the padded input as
extended, and in fact fits into it entirely. -/
theorem pool_window_inside (n : Nat) (l r k s : Int) (hk : 0 < k) (hs : 0 < s) (i : Nat)
    (hi : i < windows n (l, r) k s) :
    (i : Int) * s + k ≤ n + l + r ∧ (i : Int) * s < n + l + r := by
  have h : (i : Int) * s + k ≤ n + l + r := by
    have h1 := windows_eq n l r k s hs
    have h2 : (i : Int) ≤ ((n : Int) + l + r - k) / s := by omega
    have h3 := (Int.le_ediv_iff_mul_le hs).mp h2
    omega
  exact ⟨h, by omega⟩

/-- **C42** (`use_ceil` drops nothing). If there is at least one window, the last one reaches the end
of the padded input. -/
theorem pool_ceil_covers (n : Nat) (l r k s : Int) (hs : 0 < s) (i : Nat)
    (hi : windows n (l, rightPad true n l r k s) k s = i + 1) :
    (n : Int) + l + r ≤ i * s + k := by
  have h1 := windows_eq n l (rightPad true n l r k s) k s hs
  have h2 : ((n : Int) + l + rightPad true n l r k s - k) / s = ceilDiv ((n : Int) + l + r - k) s := by
    rw [← ceil_count _ _ hs]
    simp only [rightPad, true_and]
    congr 1
    split
    · ring
    · ring
  rw [h2, hi] at h1
  have h3 : ceilDiv ((n : Int) + l + r - k) s = i := by omega
  simp only [ceilDiv] at h3
  have h5 : -(i : Int) ≤ (-((n : Int) + l + r - k)) / s := by omega
  have h6 := (Int.le_ediv_iff_mul_le hs).mp h5
  have : -(i : Int) * s = -((i : Int) * s) := by ring
  omega

/-- **C42** (`floor` drops less than one stride). -/
theorem pool_floor_covers (n : Nat) (l r k s : Int) (hs : 0 < s) (i : Nat)
    (hi : windows n (l, r) k s = i + 1) : (n : Int) + l + r < i * s + k + s := by
  have h1 := windows_eq n l r k s hs
  rw [hi] at h1
  have h3 : ((n : Int) + l + r - k) / s = i := by omega
  have h4 := Int.mul_ediv_add_emod ((n : Int) + l + r - k) s
  have h5 := Int.emod_lt_of_pos ((n : Int) + l + r - k) hs
  rw [h3] at h4
  have : (i : Int) * s = s * i := by ring
  omega

/-- With `use_ceil`, a call whose windows do not fit exactly is rejected whenever the right padding
plus the stride exceeds the kernel size, even though the padding asked for is small. -/
theorem pool_ceil_spurious : ∃ (p : Pool Nat) (x : NArr Nat),
    p.padding = [(0, 0)] ∧ p.kernelSize = [2] ∧ p.stride = [3] ∧ x.shape = [1, 6] ∧
    p.call x = .error .runtimeError :=
  ⟨⟨0, max, 1, [2], [3], [(0, 0)], true⟩, ⟨[1, 6], fun _ => 0⟩, rfl, rfl, rfl, rfl, rfl⟩

/-! ## Values -/

theorem position_some (ns : List Nat) (ps : List (Int × Int)) (ss ks : List Int) (is js q : List Nat)
    (h : position ns ps ss is js = some q) (hj : InB js (ks.map Int.toNat)) :
    InB q ns ∧ InWin ps ss ks is q := by
  induction ns generalizing ps ss ks is js q with
  | nil =>
    cases ps <;> cases ss <;> cases is <;> cases js <;> simp [position] at h
    subst h
    cases ks with
    | nil => simp [InB, InWin]
    | cons k ks => simp [InB] at hj
  | cons n ns ih =>
    cases ps with
    | nil => simp [position] at h
    | cons p ps =>
    cases ss with
    | nil => simp [position] at h
    | cons s ss =>
    cases is with
    | nil => simp [position] at h
    | cons i is =>
    cases js with
    | nil => simp [position] at h
    | cons j js =>
    cases ks with
    | nil => simp [InB] at hj
    | cons k ks =>
      simp only [position] at h
      split at h
      · rename_i hq
        simp only [Option.map_eq_some_iff] at h
        obtain ⟨q', h1, rfl⟩ := h
        simp only [List.map_cons, InB] at hj
        obtain ⟨h2, h3⟩ := ih ps ss ks is js q' h1 hj.2
        refine ⟨⟨by omega, h2⟩, ⟨?_, h3⟩⟩
        have := hj.1
        omega
      · simp at h

theorem position_exists (ns : List Nat) (ps : List (Int × Int)) (ss ks : List Int) (is q : List Nat)
    (hq : InB q ns) (hw : InWin ps ss ks is q) :
    ∃ js, InB js (ks.map Int.toNat) ∧ position ns ps ss is js = some q := by
  induction ns generalizing ps ss ks is q with
  | nil =>
    cases q with
    | nil =>
      cases ps <;> cases ss <;> cases ks <;> cases is <;> simp [InWin] at hw
      exact ⟨[], by simp [InB], rfl⟩
    | cons a q => simp [InB] at hq
  | cons n ns ih =>
    cases q with
    | nil => simp [InB] at hq
    | cons a q =>
    cases ps with
    | nil => simp [InWin] at hw
    | cons p ps =>
    cases ss with
    | nil => simp [InWin] at hw
    | cons s ss =>
    cases ks with
    | nil => simp [InWin] at hw
    | cons k ks =>
    cases is with
    | nil => simp [InWin] at hw
    | cons i is =>
      simp only [InWin] at hw
      obtain ⟨js, h1, h2⟩ := ih ps ss ks is q hq.2 hw.2
      have ha := hq.1
      refine ⟨((a : Int) - (i * s - p.1)).toNat :: js, ⟨by omega, h1⟩, ?_⟩
      simp only [position]
      have : (i : Int) * s + (((a : Int) - (i * s - p.1)).toNat : Nat) - p.1 = a := by omega
      rw [this, if_pos (by omega), h2]
      simp

theorem mem_offsets (ks : List Int) (js : List Nat) : js ∈ offsets ks ↔ InB js (ks.map Int.toNat) := by
  induction ks generalizing js with
  | nil => cases js <;> simp [offsets, InB]
  | cons k ks ih =>
    simp only [offsets, List.mem_flatMap, List.mem_range, List.mem_map, List.map_cons]
    constructor
    · rintro ⟨j, hj, js', h1, rfl⟩; exact ⟨hj, (ih js').mp h1⟩
    · intro h
      cases js with
      | nil => simp [InB] at h
      | cons j js => exact ⟨j, h.1, js, (ih js).mpr h.2, rfl⟩

theorem foldl_max [LinearOrder α] {β : Type} (l : List β) (f : β → α) (b : α) :
    (∀ a ∈ l, f a ≤ l.foldl (fun acc a => max acc (f a)) b) ∧
    b ≤ l.foldl (fun acc a => max acc (f a)) b ∧
    (l.foldl (fun acc a => max acc (f a)) b = b ∨ ∃ a ∈ l, l.foldl (fun acc a => max acc (f a)) b = f a) := by
  induction l generalizing b with
  | nil => simp
  | cons a l ih =>
    obtain ⟨h1, h2, h3⟩ := ih (max b (f a))
    simp only [List.foldl_cons]
    refine ⟨?_, le_trans (le_max_left _ _) h2, ?_⟩
    · intro a' ha'
      rcases List.mem_cons.mp ha' with rfl | hm
      · exact le_trans (le_max_right _ _) h2
      · exact h1 a' hm
    · rcases h3 with h3 | ⟨a', hm, h3⟩
      · rcases le_total b (f a) with hb | hb
        · right; exact ⟨a, List.mem_cons_self .., by rw [h3, max_eq_right hb]⟩
        · left; rw [h3, max_eq_left hb]
      · right; exact ⟨a', List.mem_cons_of_mem _ hm, h3⟩

/-- **C42** (maximum pooling). An element of the result is at least every input element of its
window, and is one of them unless it is the initial value (`-inf`). -/
theorem pool_max [LinearOrder α] (p : Pool α) (hop : p.operation = max)
    (x y : NArr α) (h : p.call x = .ok y) :
    ∃ c ns pad, x.shape = c :: ns ∧ effPad p ns = .ok pad ∧
      ∀ (ch : Nat) (is : List Nat),
        (∀ q, InB q ns → InWin pad p.stride p.kernelSize is q →
          x.at_ (ch :: q) ≤ y.at_ (ch :: is)) ∧
        (y.at_ (ch :: is) = p.init ∨ ∃ q, InB q ns ∧ InWin pad p.stride p.kernelSize is q ∧
          y.at_ (ch :: is) = x.at_ (ch :: q)) := by
  obtain ⟨c, ns, pad, hx, _, he, _, _, _, _, _, _, _, hv⟩ := call_ok p x y h
  refine ⟨c, ns, pad, hx, he, fun ch is => ?_⟩
  have hf := foldl_max (offsets p.kernelSize) (fun js => match position ns pad p.stride is js with
            | some q => x.at_ (ch :: q)
            | none => p.init) p.init
  rw [hv ch is, hop]
  refine ⟨?_, ?_⟩
  · intro q hq hw
    obtain ⟨js, h1, h2⟩ := position_exists ns pad p.stride p.kernelSize is q hq hw
    have := hf.1 js ((mem_offsets _ _).mpr h1)
    rw [h2] at this
    exact this
  · rcases hf.2.2 with h0 | ⟨js, hm, h0⟩
    · exact .inl h0
    · rw [h0]
      cases hp : position ns pad p.stride is js with
      | none => exact .inl rfl
      | some q =>
        obtain ⟨g1, g2⟩ := position_some ns pad p.stride p.kernelSize is js q hp
          ((mem_offsets _ _).mp hm)
        exact .inr ⟨q, g1, g2, rfl⟩

section Sum
variable {M : Type} [AddCommMonoid M]

theorem foldl_add {β : Type} (l : List β) (f : β → M) (b : M) :
    l.foldl (fun acc a => acc + f a) b = b + (l.map f).sum := by
  induction l generalizing b with
  | nil => simp
  | cons a l ih => simp [ih, add_assoc]

theorem offsets_sum (ks : List Int) (f : List Nat → M) :
    ((offsets ks).map f).sum = boxSum (ks.map Int.toNat) f := by
  induction ks generalizing f with
  | nil => simp [offsets, boxSum]
  | cons k ks ih =>
    simp only [offsets, List.map_cons, boxSum]
    generalize k.toNat = m
    induction m with
    | zero => simp
    | succ m ihm =>
      rw [Finset.sum_range_succ, ← ihm, List.range_succ, List.flatMap_append, List.map_append,
        List.sum_append, ← ih]
      simp [List.map_map, Function.comp_def]

theorem window_sum (ns : List Nat) (ps : List (Int × Int)) (ss ks : List Int) (is : List Nat)
    (h1 : ps.length = ns.length) (h2 : ss.length = ns.length) (h3 : ks.length = ns.length)
    (h4 : is.length = ns.length) (hk : ∀ k ∈ ks, 0 < k) (f : List Nat → M) :
    boxSum (ks.map Int.toNat) (fun js => match position ns ps ss is js with
        | some q => f q
        | none => 0) =
      boxSum ns (fun q => if InWin ps ss ks is q then f q else 0) := by
  induction ns generalizing ps ss ks is f with
  | nil =>
    cases ps <;> cases ss <;> cases ks <;> cases is <;> simp at h1 h2 h3 h4
    simp [boxSum, position, InWin]
  | cons n ns ih =>
    cases ps with
    | nil => simp at h1
    | cons p ps =>
    cases ss with
    | nil => simp at h2
    | cons s ss =>
    cases ks with
    | nil => simp at h3
    | cons k ks =>
    cases is with
    | nil => simp at h4
    | cons i is =>
      have hk0 : 0 < k := hk k (List.mem_cons_self ..)
      simp only [List.map_cons, boxSum]
      have step : ∀ j : Nat, boxSum (ks.map Int.toNat) (fun js =>
          match position (n :: ns) (p :: ps) (s :: ss) (i :: is) (j :: js) with
          | some q => f q
          | none => 0) =
          if 0 ≤ ((i : Int) * s - p.1) + j ∧ ((i : Int) * s - p.1) + j < n then
            (fun a => boxSum ns (fun q => if InWin ps ss ks is q then f (a :: q) else 0))
              (((i : Int) * s - p.1) + j).toNat
          else 0 := by
        intro j
        have e : (i : Int) * s - p.1 + j = i * s + j - p.1 := by ring
        rw [e]
        by_cases hc : 0 ≤ (i : Int) * s + j - p.1 ∧ (i : Int) * s + j - p.1 < n
        · rw [if_pos hc]
          simp only [position, if_pos hc]
          rw [← ih ps ss ks is (by simpa using h1) (by simpa using h2) (by simpa using h3)
            (by simpa using h4) (fun k hm => hk k (List.mem_cons_of_mem _ hm))]
          apply boxSum_congr
          intro js _
          cases position ns ps ss is js <;> rfl
        · rw [if_neg hc]
          simp only [position, if_neg hc]
          exact boxSum_zero _
      refine (Finset.sum_congr rfl (fun j _ => step j)).trans ((sum_window ((i : Int) * s - p.1) k.toNat n
        (fun a => boxSum ns (fun q => if InWin ps ss ks is q then f (a :: q) else 0))).trans ?_)
      apply Finset.sum_congr rfl
      intro q _
      have hkk : ((k.toNat : Nat) : Int) = k := by omega
      by_cases hc : (i : Int) * s - p.1 ≤ q ∧ (q : Int) < i * s - p.1 + k
      · rw [hkk, if_pos hc]
        apply boxSum_congr
        intro qs _
        simp only [InWin, hc, true_and, and_self]
      · rw [hkk, if_neg hc]
        rw [boxSum_congr (g := fun _ => 0)]
        · exact (boxSum_zero _).symm
        · intro qs _
          simp only [InWin, hc, false_and, if_false]

/-- Sum pooling: an element of the result is the sum of the input elements of its window. -/
theorem pool_sum (p : Pool M) (hop : p.operation = (· + ·)) (hi : p.init = 0) (x y : NArr M)
    (h : p.call x = .ok y) :
    ∃ c ns pad, x.shape = c :: ns ∧ effPad p ns = .ok pad ∧
      ∀ (ch : Nat) (is : List Nat), is.length = ns.length →
        y.at_ (ch :: is) = boxSum ns fun q =>
          if InWin pad p.stride p.kernelSize is q then x.at_ (ch :: q) else 0 := by
  obtain ⟨c, ns, pad, hx, _, he, _, e1, e2, e3, hk, _, _, hv⟩ := call_ok p x y h
  refine ⟨c, ns, pad, hx, he, fun ch is hl => ?_⟩
  rw [hv ch is, hop, hi]
  simp only
  rw [foldl_add, zero_add, offsets_sum]
  exact window_sum ns pad p.stride p.kernelSize is e3 e2 e1 hl hk (fun q => x.at_ (ch :: q))

end Sum

/-- **C42** (average pooling). An element of the result is the sum of the input elements of its
window divided by the number of positions of the kernel, padding included. -/
theorem avgpool_value {M : Type} [AddCommMonoid M] (divInt : M → Int → M) (p : Pool M)
    (hop : p.operation = (· + ·)) (hi : p.init = 0) (x y : NArr M)
    (h : p.avgCall divInt x = .ok y) :
    ∃ c ns pad, x.shape = c :: ns ∧ effPad p ns = .ok pad ∧
      ∀ (ch : Nat) (is : List Nat), is.length = ns.length →
        y.at_ (ch :: is) = divInt (boxSum ns fun q =>
          if InWin pad p.stride p.kernelSize is q then x.at_ (ch :: q) else 0)
          (p.kernelSize.foldl (· * ·) 1) := by
  simp only [Pool.avgCall] at h
  cases hc : p.call x with
  | error e => simp [hc, bind, Except.bind] at h
  | ok z =>
    simp only [hc, bind, Except.bind, Except.ok.injEq] at h
    subst h
    obtain ⟨c, ns, pad, h1, h2, h3⟩ := pool_sum p hop hi x z hc
    exact ⟨c, ns, pad, h1, h2, fun ch is hl => by simp only [h3 ch is hl, prod]⟩

/-! ## The hypotheses are met -/

/-- A two-dimensional maximum pool with padding and `use_ceil`. -/
def exPool : Pool Int := ⟨-100, max, 2, [3, 2], [2, 1], [(1, 0), (0, 1)], true⟩

def exImage : NArr Int := ⟨[2, 5, 4], fun i => match i with
  | [c, a, b] => (c : Int) + 10 * a + b
  | _ => 0⟩

example : (exPool.call exImage).map (·.shape) = .ok [2, 3, 4] := by decide

example : Pool.mk' (0 : Int) max 2 (.int 3) (.seq [2, 1]) (.pairs [(1, 0), (0, 1)]) true =
    .ok ⟨0, max, 2, [3, 3], [2, 1], [(1, 0), (0, 1)], true⟩ := rfl

end Verif.NN
