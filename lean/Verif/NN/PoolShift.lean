import Verif.NN.Pool
/-!
# Pooling: pointwise functions, channels, patches, and one pool after another

Consequences of what `Pool.__call__` computes (C42); nothing further is modelled.
-/

namespace Verif.NN.PoolShift

open Verif.NN

variable {α β : Type}

/-! ## Vocabulary -/

/-- A function applied to every element. -/
def each (f : α → β) (x : NArr α) : NArr β := ⟨x.shape, fun i => f (x.at_ i)⟩

/-- Channel `i` of the result is channel `g i` of `x`. -/
def channels (m : Nat) (g : Nat → Nat) (x : NArr α) : NArr α := ⟨m :: x.shape.tail, fun i => match i with
  | [] => x.at_ []
  | ch :: is => x.at_ (g ch :: is)⟩

/-- Sum of indices. -/
def plus : List Nat → List Nat → List Nat
  | a :: as, b :: bs => (a + b) :: plus as bs
  | _, _ => []

/-- A patch of the given sizes that starts at `a`. -/
def patch (a ms : List Nat) (x : NArr α) : NArr α := ⟨x.shape.headD 0 :: ms, fun i => match i with
  | [] => x.at_ []
  | ch :: is => x.at_ (ch :: plus a is)⟩

/-- A patch of sizes `ms` that begins with window `w` lies inside of sizes `ns`. -/
def Fits : List Int → List Nat → List Nat → List Nat → Prop
  | [], [], [], [] => True
  | s :: ss, w :: ws, m :: ms, n :: ns => w * s.toNat + m ≤ n ∧ Fits ss ws ms ns
  | _, _, _, _ => False

/-- Where window `w` begins. -/
def starts : List Int → List Nat → List Nat
  | s :: ss, w :: ws => w * s.toNat :: starts ss ws
  | _, _ => []

/-- No padding, and windows that do not fit are left out. -/
def Unpadded (p : Pool α) : Prop := p.useCeil = false ∧ p.padding = List.replicate p.numSpatialDims (0, 0)

/-- Pooling by `(k₁, s₁)` and then by `(k₂, s₂)` is pooling by `(k, s)`, in every dimension. -/
def Composed : List Int → List Int → List Int → List Int → List Int → List Int → Prop
  | [], [], [], [], [], [] => True
  | k₁ :: ks₁, s₁ :: ss₁, k₂ :: ks₂, s₂ :: ss₂, k :: ks, s :: ss =>
    (k = k₁ + (k₂ - 1) * s₁ ∧ s = s₁ * s₂) ∧ Composed ks₁ ss₁ ks₂ ss₂ ks ss
  | _, _, _, _, _, _ => False

/-- Windows leave no gaps. -/
def Gapless : List Int → List Int → Prop
  | k :: ks, s :: ss => s ≤ k ∧ Gapless ks ss
  | _, _ => True

/-! ## Lemmas -/

theorem foldl_hom (f : α → β) (op : α → α → α) (op' : β → β → β) (hf : ∀ a b, f (op a b) = op' (f a) (f b)) {γ : Type}
    (g : γ → α) (l : List γ) (a : α) :
    l.foldl (fun acc c => op' acc (f (g c))) (f a) = f (l.foldl (fun acc c => op acc (g c)) a) := by
  induction l generalizing a with
  | nil => rfl
  | cons c l ih => simp only [List.foldl_cons, ← hf, ih]

theorem lt_windows {n i : Nat} {k s : Int} (hs : 0 < s) : i < windows n (0, 0) k s ↔ (i : Int) * s + k ≤ n := by
  have h1 := windows_eq n 0 0 k s hs
  have h2 : (i : Int) ≤ ((n : Int) - k) / s ↔ (i : Int) * s ≤ n - k := Int.le_ediv_iff_mul_le hs
  simp only [add_zero] at h1
  constructor
  · intro h
    have : (i : Int) ≤ ((n : Int) - k) / s := by omega
    have := h2.1 this
    omega
  · intro h
    have := h2.2 (by omega)
    omega

/-- Offset `js` of window `is`. -/
def spot : List Int → List Nat → List Nat → List Nat
  | s :: ss, i :: is, j :: js => (i * s.toNat + j) :: spot ss is js
  | _, _, _ => []

theorem position_spot : ∀ (ns : List Nat) (ks ss : List Int) (is js : List Nat), ks.length = ns.length → ss.length = ns.length →
    (∀ k ∈ ks, 0 < k) → (∀ s ∈ ss, 0 < s) →
    InB is (windowShape ns (List.replicate ns.length (0, 0)) ks ss) → InB js (ks.map Int.toNat) →
    position ns (List.replicate ns.length (0, 0)) ss is js = some (spot ss is js)
  | [], [], [], is, js, _, _, _, _, hi, hj => by
    cases is <;> cases js <;> simp [windowShape, InB] at hi hj
    simp [position, spot]
  | n :: ns, k :: ks, s :: ss, is, js, h1, h2, hk, hs, hi, hj => by
    simp only [List.length_cons, List.replicate_succ, windowShape] at hi ⊢
    cases is with
    | nil => simp [InB] at hi
    | cons i is =>
      cases js with
      | nil => simp [InB] at hj
      | cons j js =>
        simp only [InB, List.map_cons] at hi hj
        have hs0 := hs s (by simp)
        have hw := (lt_windows hs0).1 hi.1
        have ih := position_spot ns ks ss is js (by simpa using h1) (by simpa using h2) (fun k hm => hk k (by simp [hm]))
          (fun s hm => hs s (by simp [hm])) hi.2 hj.2
        simp only [position, spot]
        obtain ⟨s', rfl⟩ : ∃ s' : Nat, s = s' := ⟨s.toNat, by omega⟩
        rw [if_pos (by have : 0 ≤ (i : Int) * s' := by positivity
                       omega), ih]
        simp only [Option.map_some, Int.toNat_natCast, sub_zero]
        congr 2
  | [], _ :: _, _, _, _, h1, _, _, _, _, _ => by simp at h1
  | [], [], _ :: _, _, _, _, h2, _, _, _, _ => by simp at h2
  | _ :: _, [], _, _, _, h1, _, _, _, _, _ => by simp at h1
  | _ :: _, _ :: _, [], _, _, _, h2, _, _, _, _ => by simp at h2

theorem unpadded_call {p : Pool α} (hp : Unpadded p) {x : NArr α} {c : Nat} {ns : List Nat} (hx : x.shape = c :: ns)
    (hN : ns.length = p.numSpatialDims) (hk : p.kernelSize.length = ns.length) (hs : p.stride.length = ns.length)
    (hk0 : ∀ k ∈ p.kernelSize, 0 < k) (hs0 : ∀ s ∈ p.stride, 0 < s) :
    ∃ y, p.call x = .ok y ∧ y.shape = c :: windowShape ns (List.replicate ns.length (0, 0)) p.kernelSize p.stride ∧
      ∀ ch is, InB is (windowShape ns (List.replicate ns.length (0, 0)) p.kernelSize p.stride) →
        y.at_ (ch :: is) = (offsets p.kernelSize).foldl (fun acc js => p.operation acc (x.at_ (ch :: spot p.stride is js))) p.init := by
  have hlen : p.padding.length = ns.length := by rw [hp.2]; simp [hN]
  obtain ⟨y, hy⟩ := (pool_ok_iff p x c ns hx hN hlen hk hs hk0 hs0).1.2 (by
    intro d n l r k s _ gp gk _
    have h0 : 0 < k := hk0 k (List.mem_of_getElem? gk)
    have : (l, r) = ((0 : Int), (0 : Int)) := by
      have := List.mem_of_getElem? gp
      rw [hp.2] at this
      exact (List.mem_replicate.1 this).2
    cases this
    simp [rightPad, hp.1]
    omega)
  obtain ⟨c', ns', pad, hx', _, he, _, _, _, _, _, _, hsh, hv⟩ := call_ok p x y hy
  rw [hx] at hx'
  cases hx'
  have hpad : pad = List.replicate ns.length (0, 0) := by
    simp [effPad, hp.1, hp.2] at he
    rw [← he, hN]
  subst hpad
  refine ⟨y, hy, hsh, fun ch is hi => ?_⟩
  rw [hv]
  apply List.foldl_ext
  intro acc js hj
  rw [position_spot ns _ _ is js hk hs hk0 hs0 hi ((mem_offsets _ _).1 hj)]

theorem unpadded_ok {p : Pool α} {x y : NArr α} (h : p.call x = .ok y) :
    ∃ c ns, x.shape = c :: ns ∧ ns.length = p.numSpatialDims ∧ p.kernelSize.length = ns.length ∧ p.stride.length = ns.length ∧
      (∀ k ∈ p.kernelSize, 0 < k) ∧ (∀ s ∈ p.stride, 0 < s) := by
  obtain ⟨c, ns, pad, hx, hN, _, _, hk, hs, _, hk0, hs0, _, _⟩ := call_ok p x y h
  exact ⟨c, ns, hx, hN, hk, hs, hk0, hs0⟩

theorem spot_plus : ∀ (ss : List Int) (w is js : List Nat), w.length = ss.length →
    spot ss (plus w is) js = plus (starts ss w) (spot ss is js)
  | [], [], _, _, _ => by simp [spot, starts, plus]
  | s :: ss, w :: ws, [], js, _ => by simp [spot, starts, plus]
  | s :: ss, w :: ws, i :: is, [], _ => by simp [spot, starts, plus]
  | s :: ss, w :: ws, i :: is, j :: js, h => by
    simp only [spot, starts, plus, spot_plus ss ws is js (by simpa using h)]
    congr 1
    ring
  | [], _ :: _, _, _, h => by simp at h
  | _ :: _, [], _, _, h => by simp at h

theorem plus_inB : ∀ (ns ms : List Nat) (ks ss : List Int) (w is : List Nat), ks.length = ns.length →
    (∀ k ∈ ks, 0 < k) → (∀ s ∈ ss, 0 < s) → Fits ss w ms ns →
    InB is (windowShape ms (List.replicate ms.length (0, 0)) ks ss) →
    InB (plus w is) (windowShape ns (List.replicate ns.length (0, 0)) ks ss)
  | [], [], ks, [], [], is, _, _, _, _, hi => by
    cases is <;> simp [windowShape, InB] at hi
    simp [plus, windowShape, InB]
  | n :: ns, m :: ms, k :: ks, s :: ss, w :: ws, is, h1, hk, hs, hf, hi => by
    simp only [List.length_cons, List.replicate_succ, windowShape] at hi ⊢
    cases is with
    | nil => simp [InB] at hi
    | cons i is =>
      simp only [InB, plus, Fits] at hi hf ⊢
      have hs0 := hs s (by simp)
      have hw := (lt_windows hs0).1 hi.1
      refine ⟨(lt_windows hs0).2 ?_, plus_inB ns ms ks ss ws is (by simpa using h1) (fun k hm => hk k (by simp [hm]))
        (fun s hm => hs s (by simp [hm])) hf.2 hi.2⟩
      obtain ⟨s', rfl⟩ : ∃ s' : Nat, s = s' := ⟨s.toNat, by omega⟩
      have h3 := hf.1
      simp only [Int.toNat_natCast] at h3
      zify at h3
      push_cast
      nlinarith
  | _ :: _, _ :: _, [], _ :: _, _ :: _, _, h1, _, _, _, _ => by simp at h1
  | [], [], _, [], _ :: _, _, _, _, _, hf, _ => by simp [Fits] at hf
  | [], [], _, _ :: _, _, _, _, _, _, hf, _ => by simp [Fits] at hf
  | [], _ :: _, _, ss, w, _, _, _, _, hf, _ => by cases ss <;> cases w <;> simp [Fits] at hf
  | _ :: _, [], _, ss, w, _, _, _, _, hf, _ => by cases ss <;> cases w <;> simp [Fits] at hf
  | _ :: _, _ :: _, _, [], _, _, _, _, _, hf, _ => by simp [Fits] at hf
  | _ :: _, _ :: _, _, _ :: _, [], _, _, _, _, hf, _ => by simp [Fits] at hf

theorem fits_length : ∀ {ss : List Int} {w ms ns : List Nat}, Fits ss w ms ns →
    w.length = ss.length ∧ ms.length = ss.length ∧ ns.length = ss.length
  | [], [], [], [], _ => by simp
  | s :: ss, w :: ws, m :: ms, n :: ns, h => by
    have := fits_length h.2
    simp [this]
  | [], _ :: _, _, _, h => by simp [Fits] at h
  | [], [], _ :: _, _, h => by simp [Fits] at h
  | [], [], [], _ :: _, h => by simp [Fits] at h
  | _ :: _, [], _, _, h => by simp [Fits] at h
  | _ :: _, _ :: _, [], _, h => by simp [Fits] at h
  | _ :: _, _ :: _, _ :: _, [], h => by simp [Fits] at h

theorem windows_windows {n : Nat} {k₁ s₁ k₂ s₂ : Int} (hs₁ : 0 < s₁) (hk₂ : 0 < k₂) (hs₂ : 0 < s₂) :
    windows (windows n (0, 0) k₁ s₁) (0, 0) k₂ s₂ = windows n (0, 0) (k₁ + (k₂ - 1) * s₁) (s₁ * s₂) := by
  have key : ∀ i : Nat, i < windows (windows n (0, 0) k₁ s₁) (0, 0) k₂ s₂ ↔
      i < windows n (0, 0) (k₁ + (k₂ - 1) * s₁) (s₁ * s₂) := by
    intro i
    rw [lt_windows hs₂, lt_windows (Int.mul_pos hs₁ hs₂)]
    have h0 : 0 ≤ (i : Int) * s₂ := Int.mul_nonneg (by omega) (by omega)
    have h1 := lt_windows (n := n) (i := (i * s₂ + k₂ - 1).toNat) (k := k₁) hs₁
    rw [Int.toNat_of_nonneg (by omega)] at h1
    have h2 : (i : Int) * (s₁ * s₂) + (k₁ + (k₂ - 1) * s₁) = (i * s₂ + k₂ - 1) * s₁ + k₁ := by ring
    rw [h2, ← h1]
    omega
  have a := key (windows (windows n (0, 0) k₁ s₁) (0, 0) k₂ s₂)
  have b := key (windows n (0, 0) (k₁ + (k₂ - 1) * s₁) (s₁ * s₂))
  omega

theorem composed_shape : ∀ (ns : List Nat) (ks₁ ss₁ ks₂ ss₂ ks ss : List Int), Composed ks₁ ss₁ ks₂ ss₂ ks ss →
    ks₁.length = ns.length → (∀ s ∈ ss₁, 0 < s) → (∀ k ∈ ks₂, 0 < k) → (∀ s ∈ ss₂, 0 < s) →
    windowShape (windowShape ns (List.replicate ns.length (0, 0)) ks₁ ss₁) (List.replicate ns.length (0, 0)) ks₂ ss₂ =
      windowShape ns (List.replicate ns.length (0, 0)) ks ss
  | [], ks₁, ss₁, ks₂, ss₂, ks, ss, _, _, _, _, _ => by simp [windowShape]
  | n :: ns, k₁ :: ks₁, s₁ :: ss₁, k₂ :: ks₂, s₂ :: ss₂, k :: ks, s :: ss, hc, hl, h1, h2, h3 => by
    obtain ⟨⟨rfl, rfl⟩, hc⟩ := hc
    simp only [List.length_cons, List.replicate_succ, windowShape]
    rw [windows_windows (h1 _ (by simp)) (h2 _ (by simp)) (h3 _ (by simp)),
      composed_shape ns ks₁ ss₁ ks₂ ss₂ ks ss hc (by simpa using hl) (fun a h => h1 a (by simp [h])) (fun a h => h2 a (by simp [h]))
        (fun a h => h3 a (by simp [h]))]
  | _ :: _, [], _, _, _, _, _, _, hl, _, _, _ => by simp at hl
  | _ :: _, _ :: _, [], _, _, _, _, hc, _, _, _, _ => by simp [Composed] at hc
  | _ :: _, _ :: _, _ :: _, [], _, _, _, hc, _, _, _, _ => by simp [Composed] at hc
  | _ :: _, _ :: _, _ :: _, _ :: _, [], _, _, hc, _, _, _, _ => by simp [Composed] at hc
  | _ :: _, _ :: _, _ :: _, _ :: _, _ :: _, [], _, hc, _, _, _, _ => by simp [Composed] at hc
  | _ :: _, _ :: _, _ :: _, _ :: _, _ :: _, _ :: _, [], hc, _, _, _, _ => by simp [Composed] at hc

theorem composed_length : ∀ {ks₁ ss₁ ks₂ ss₂ ks ss : List Int}, Composed ks₁ ss₁ ks₂ ss₂ ks ss →
    ks.length = ks₁.length ∧ ss.length = ks₁.length
  | [], [], [], [], [], [], _ => by simp
  | _ :: _, _ :: _, _ :: _, _ :: _, _ :: _, _ :: _, h => by simp [composed_length h.2]

theorem composed_lengths : ∀ {ks₁ ss₁ ks₂ ss₂ ks ss : List Int}, Composed ks₁ ss₁ ks₂ ss₂ ks ss → ks₂.length = ks₁.length
  | [], [], [], [], [], [], _ => by simp
  | _ :: _, _ :: _, _ :: _, _ :: _, _ :: _, _ :: _, h => by simp [composed_lengths h.2]

theorem composed_pos : ∀ {ks₁ ss₁ ks₂ ss₂ ks ss : List Int}, Composed ks₁ ss₁ ks₂ ss₂ ks ss →
    (∀ k ∈ ks₁, 0 < k) → (∀ s ∈ ss₁, 0 < s) → (∀ k ∈ ks₂, 0 < k) → (∀ s ∈ ss₂, 0 < s) →
    (∀ k ∈ ks, 0 < k) ∧ (∀ s ∈ ss, 0 < s)
  | [], [], [], [], [], [], _, _, _, _, _ => by simp
  | k₁ :: _, s₁ :: _, k₂ :: _, s₂ :: _, _ :: _, _ :: _, h, h1, h2, h3, h4 => by
    obtain ⟨⟨rfl, rfl⟩, hc⟩ := h
    have ih := composed_pos hc (fun a h => h1 a (by simp [h])) (fun a h => h2 a (by simp [h])) (fun a h => h3 a (by simp [h]))
      (fun a h => h4 a (by simp [h]))
    have a1 := h1 k₁ (by simp)
    have a2 := h2 s₁ (by simp)
    have a3 := h3 k₂ (by simp)
    have a4 := h4 s₂ (by simp)
    have a5 : 0 ≤ (k₂ - 1) * s₁ := Int.mul_nonneg (by omega) (by omega)
    refine ⟨?_, ?_⟩
    · intro k hk
      rcases List.mem_cons.1 hk with rfl | hk
      · omega
      · exact ih.1 k hk
    · intro k hk
      rcases List.mem_cons.1 hk with rfl | hk
      · exact Int.mul_pos a2 a4
      · exact ih.2 k hk

/-- The input positions below a window of windows are those below the composed window. -/
theorem composed_window : ∀ (ns : List Nat) (ks₁ ss₁ ks₂ ss₂ ks ss : List Int) (is q : List Nat), Composed ks₁ ss₁ ks₂ ss₂ ks ss →
    Gapless ks₁ ss₁ → ks₁.length = ns.length → (∀ s ∈ ss₁, 0 < s) → (∀ k ∈ ks₂, 0 < k) → (∀ s ∈ ss₂, 0 < s) →
    InB is (windowShape (windowShape ns (List.replicate ns.length (0, 0)) ks₁ ss₁) (List.replicate ns.length (0, 0)) ks₂ ss₂) →
    ((∃ r, InB r (windowShape ns (List.replicate ns.length (0, 0)) ks₁ ss₁) ∧
        InWin (List.replicate ns.length (0, 0)) ss₂ ks₂ is r ∧ InWin (List.replicate ns.length (0, 0)) ss₁ ks₁ r q) ↔
      InWin (List.replicate ns.length (0, 0)) ss ks is q)
  | [], [], [], [], [], [], [], is, q, _, _, _, _, _, _, hi => by
    cases is <;> simp [windowShape, InB] at hi
    constructor
    · rintro ⟨r, h1, h2, h3⟩
      cases r <;> simp [windowShape, InB] at h1
      exact h3
    · intro h
      exact ⟨[], by simp [windowShape, InB], by simp [InWin], h⟩
  | n :: ns, k₁ :: ks₁, s₁ :: ss₁, k₂ :: ks₂, s₂ :: ss₂, k :: ks, s :: ss, is, q, hc, hg, hl, h1, h2, h3, hi => by
    obtain ⟨⟨rfl, rfl⟩, hc⟩ := hc
    simp only [List.length_cons, List.replicate_succ, windowShape] at hi ⊢
    cases is with
    | nil => simp [InB] at hi
    | cons i is =>
      simp only [InB] at hi
      have a1 := h1 s₁ (by simp)
      have a2 := h2 k₂ (by simp)
      have a3 := h3 s₂ (by simp)
      have hi1 := (lt_windows a3).1 hi.1
      have ih := fun q => composed_window ns ks₁ ss₁ ks₂ ss₂ ks ss is q hc hg.2 (by simpa using hl) (fun a h => h1 a (by simp [h]))
        (fun a h => h2 a (by simp [h])) (fun a h => h3 a (by simp [h])) hi.2
      constructor
      · rintro ⟨r, b1, b2, b3⟩
        cases r with
        | nil => simp [InB] at b1
        | cons r rs =>
          cases q with
          | nil => simp [InWin] at b3
          | cons q qs =>
            simp only [InB, InWin, sub_zero] at b1 b2 b3 ⊢
            refine ⟨?_, (ih qs).1 ⟨rs, b1.2, b2.2, b3.2⟩⟩
            have c1 := b2.1
            have c2 := b3.1
            have d1 : (i : Int) * s₂ * s₁ ≤ r * s₁ := Int.mul_le_mul_of_nonneg_right c1.1 (by omega)
            have d2 : (r : Int) * s₁ ≤ (i * s₂ + k₂ - 1) * s₁ := Int.mul_le_mul_of_nonneg_right (by omega) (by omega)
            have e1 : (i : Int) * (s₁ * s₂) = i * s₂ * s₁ := by ring
            have e2 : ((i : Int) * s₂ + k₂ - 1) * s₁ = i * s₂ * s₁ + (k₂ - 1) * s₁ := by ring
            rw [e1]
            omega
      · intro hw
        cases q with
        | nil => simp [InWin] at hw
        | cons q qs =>
          simp only [InWin, sub_zero] at hw
          obtain ⟨⟨w1, w2⟩, hw⟩ := hw
          obtain ⟨rs, b1, b2, b3⟩ := (ih qs).2 hw
          have e1 : (i : Int) * (s₁ * s₂) = i * s₂ * s₁ := by ring
          rw [e1] at w1 w2
          have f0 : 0 ≤ (i : Int) * s₂ := Int.mul_nonneg (by omega) (by omega)
          have g := hg.1
          obtain ⟨t, t0, t1, t2, t3⟩ : ∃ t : Int, 0 ≤ t ∧ t ≤ k₂ - 1 ∧ t * s₁ ≤ q - i * s₂ * s₁ ∧ q - i * s₂ * s₁ < t * s₁ + k₁ := by
            by_cases hb : (q - i * s₂ * s₁) / s₁ ≤ k₂ - 1
            · refine ⟨_, Int.ediv_nonneg (by omega) (by omega), hb, Int.ediv_mul_le _ (by omega), ?_⟩
              have := Int.lt_ediv_add_one_mul_self ((q : Int) - i * s₂ * s₁) a1
              have e : ((q - i * s₂ * s₁) / s₁ + 1) * s₁ = (q - i * s₂ * s₁) / s₁ * s₁ + s₁ := by ring
              omega
            · refine ⟨k₂ - 1, by omega, le_refl _, ?_, by omega⟩
              exact (Int.le_ediv_iff_mul_le a1).1 (by omega)
          obtain ⟨t', rfl⟩ : ∃ t' : Nat, t = t' := ⟨t.toNat, by omega⟩
          obtain ⟨s', rfl⟩ : ∃ s' : Nat, s₂ = s' := ⟨s₂.toNat, by omega⟩
          refine ⟨(i * s' + t') :: rs, ⟨?_, b1⟩, ⟨?_, b2⟩, ⟨?_, b3⟩⟩
          · zify
            omega
          · push_cast
            omega
          · have e3 : ((i : Int) * s' + t') * s₁ = i * s' * s₁ + t' * s₁ := by ring
            push_cast
            rw [e3]
            omega
  | [], _ :: _, _, _, _, _, _, _, _, _, _, hl, _, _, _, _ => by simp at hl
  | _ :: _, [], _, _, _, _, _, _, _, _, _, hl, _, _, _, _ => by simp at hl
  | _, [], _ :: _, _, _, _, _, _, _, hc, _, _, _, _, _, _ => by simp [Composed] at hc
  | _, [], [], _ :: _, _, _, _, _, _, hc, _, _, _, _, _, _ => by simp [Composed] at hc
  | _, [], [], [], _ :: _, _, _, _, _, hc, _, _, _, _, _, _ => by simp [Composed] at hc
  | _, [], [], [], [], _ :: _, _, _, _, hc, _, _, _, _, _, _ => by simp [Composed] at hc
  | _, [], [], [], [], [], _ :: _, _, _, hc, _, _, _, _, _, _ => by simp [Composed] at hc
  | _, _ :: _, [], _, _, _, _, _, _, hc, _, _, _, _, _, _ => by simp [Composed] at hc
  | _, _ :: _, _ :: _, [], _, _, _, _, _, hc, _, _, _, _, _, _ => by simp [Composed] at hc
  | _, _ :: _, _ :: _, _ :: _, [], _, _, _, _, hc, _, _, _, _, _, _ => by simp [Composed] at hc
  | _, _ :: _, _ :: _, _ :: _, _ :: _, [], _, _, _, hc, _, _, _, _, _, _ => by simp [Composed] at hc
  | _, _ :: _, _ :: _, _ :: _, _ :: _, _ :: _, [], _, _, hc, _, _, _, _, _, _ => by simp [Composed] at hc

/-- A maximum is below exactly the bounds of everything in its window. -/
theorem max_le_iff_window [LinearOrder α] {p : Pool α} (hop : p.operation = max) (hb : ∀ a, p.init ≤ a) (hp : Unpadded p)
    {x y : NArr α} {c : Nat} {ns : List Nat} (hx : x.shape = c :: ns) (hN : ns.length = p.numSpatialDims) (h : p.call x = .ok y)
    (ch : Nat) (is : List Nat) (b : α) :
    y.at_ (ch :: is) ≤ b ↔
      ∀ q, InB q ns → InWin (List.replicate ns.length (0, 0)) p.stride p.kernelSize is q → x.at_ (ch :: q) ≤ b := by
  obtain ⟨c', ns', pad, hx', he, hv⟩ := pool_max p hop x y h
  rw [hx] at hx'
  cases hx'
  have hpad : pad = List.replicate ns.length (0, 0) := by
    simp [effPad, hp.1, hp.2] at he
    rw [← he, hN]
  subst hpad
  obtain ⟨v1, v2⟩ := hv ch is
  constructor
  · intro hle q hq hw
    exact le_trans (v1 q hq hw) hle
  · intro hall
    rcases v2 with e | ⟨q, hq, hw, e⟩
    · rw [e]; exact hb b
    · rw [e]; exact hall q hq hw

/-! ## The properties -/

/-- Pooling commutes with a pointwise function that respects the operation, whatever the padding; errors are the same. -/
theorem pool_each (f : α → β) (p : Pool α) (op' : β → β → β) (hf : ∀ a b, f (p.operation a b) = op' (f a) (f b)) (x : NArr α) :
    (⟨f p.init, op', p.numSpatialDims, p.kernelSize, p.stride, p.padding, p.useCeil⟩ : Pool β).call (each f x) =
      (p.call x).map (each f) := by
  simp only [Pool.call, each]
  by_cases hr : x.shape.length ≠ p.numSpatialDims + 1
  · rw [if_pos hr]
    exact if_pos hr
  · rw [if_neg hr]
    refine (if_neg hr).trans ?_
    have he : effPad (⟨f p.init, op', p.numSpatialDims, p.kernelSize, p.stride, p.padding, p.useCeil⟩ : Pool β) x.shape.tail =
        effPad p x.shape.tail := rfl
    rw [he]
    cases effPad p x.shape.tail with
    | error e => rfl
    | ok pad =>
      simp only [bind, Except.bind]
      cases checkPadding pad p.kernelSize with
      | error e => rfl
      | ok u =>
        simp only [reduceWindow]
        cases x.shape with
        | nil => rfl
        | cons c ns =>
          simp only
          split
          · rfl
          split
          · rfl
          simp only [Except.map, each, Except.ok.injEq, NArr.mk.injEq, true_and]
          funext idx
          cases idx with
          | nil => rfl
          | cons ch is =>
            simp only
            rw [← foldl_hom f p.operation op' hf]
            apply List.foldl_ext
            intro acc js _
            cases position ns pad p.stride is js <;> rfl

/-- Maximum pooling commutes with a monotone function, such as an activation function, wherever a window meets the input. -/
theorem pool_monotone [LinearOrder α] (p : Pool α) (hop : p.operation = max) (hb : ∀ a, p.init ≤ a) (f : α → α)
    (hf : ∀ a b, a ≤ b → f a ≤ f b) (x y : NArr α) (h : p.call x = .ok y) :
    ∃ c ns pad y', x.shape = c :: ns ∧ effPad p ns = .ok pad ∧ p.call (each f x) = .ok y' ∧ y'.shape = y.shape ∧
      ∀ ch is, (∃ q, InB q ns ∧ InWin pad p.stride p.kernelSize is q) → y'.at_ (ch :: is) = f (y.at_ (ch :: is)) := by
  obtain ⟨c, ns, pad, hx, he, hv⟩ := pool_max p hop x y h
  obtain ⟨y', hy', hsh⟩ : ∃ y', p.call (each f x) = .ok y' ∧ y'.shape = y.shape := by
    obtain ⟨c', ns', pad', hx', hN, he', hc, hk, hs, hp, hk0, hs0, hsh, -⟩ := call_ok p x y h
    have hx2 : (each f x).shape = c' :: ns' := hx'
    have hcall : p.call (each f x) = reduceWindow (each f x) p.init p.operation p.kernelSize p.stride pad' := by
      simp only [Pool.call]
      rw [if_neg (by simp [hx2, hN])]
      simp only [hx2, List.tail_cons, he', hc, bind, Except.bind]
    rw [hcall]
    simp only [reduceWindow, hx2]
    rw [if_neg (by simp [hk, hs, hp]), if_neg]
    · exact ⟨_, rfl, hsh.symm⟩
    · rintro (⟨k, hm, h⟩ | ⟨s, hm, h⟩)
      · have := hk0 k hm; omega
      · have := hs0 s hm; omega
  obtain ⟨c', ns', pad', hx', he', hv'⟩ := pool_max p hop (each f x) y' hy'
  have hx'' : x.shape = c' :: ns' := hx'
  rw [hx] at hx''
  cases hx''
  rw [he] at he'
  cases he'
  refine ⟨c, ns, pad, y', hx, he, hy', hsh, ?_⟩
  rintro ch is ⟨q0, hq0, hw0⟩
  obtain ⟨a1, a2⟩ := hv ch is
  obtain ⟨b1, b2⟩ := hv' ch is
  have attained : ∃ q, InB q ns ∧ InWin pad p.stride p.kernelSize is q ∧ y.at_ (ch :: is) = x.at_ (ch :: q) := by
    rcases a2 with a2 | a2
    · exact ⟨q0, hq0, hw0, le_antisymm (a2 ▸ hb _) (a1 q0 hq0 hw0)⟩
    · exact a2
  have attained' : ∃ q, InB q ns ∧ InWin pad p.stride p.kernelSize is q ∧ y'.at_ (ch :: is) = f (x.at_ (ch :: q)) := by
    rcases b2 with b2 | b2
    · exact ⟨q0, hq0, hw0, le_antisymm (b2 ▸ hb _) (b1 q0 hq0 hw0)⟩
    · exact b2
  obtain ⟨q, hq, hw, e⟩ := attained
  obtain ⟨q', hq', hw', e'⟩ := attained'
  apply le_antisymm
  · rw [e']
    exact hf _ _ (a1 q' hq' hw')
  · rw [e]
    exact b1 q hq hw

/-- Channels are pooled separately: choosing, repeating and permuting channels commutes with pooling. -/
theorem pool_channels (p : Pool α) (x y : NArr α) (h : p.call x = .ok y) (m : Nat) (g : Nat → Nat) :
    ∃ y', p.call (channels m g x) = .ok y' ∧ y'.shape = m :: y.shape.tail ∧ ∀ ch is, y'.at_ (ch :: is) = y.at_ (g ch :: is) := by
  obtain ⟨c, ns, pad, hx, hN, he, hc, hk, hs, hp, hk0, hs0, hsh, hv⟩ := call_ok p x y h
  have hx' : (channels m g x).shape = m :: ns := by simp [channels, hx]
  have hcall : p.call (channels m g x) = reduceWindow (channels m g x) p.init p.operation p.kernelSize p.stride pad := by
    simp only [Pool.call]
    rw [if_neg (by simp [hx', hN])]
    simp only [hx', List.tail_cons, he, hc, bind, Except.bind]
  have hred : ∃ y', reduceWindow (channels m g x) p.init p.operation p.kernelSize p.stride pad = .ok y' ∧
      y'.shape = m :: windowShape ns pad p.kernelSize p.stride ∧ ∀ ch is, y'.at_ (ch :: is) = y.at_ (g ch :: is) := by
    simp only [reduceWindow, hx']
    rw [if_neg (by simp [hk, hs, hp]), if_neg]
    · refine ⟨_, rfl, rfl, fun ch is => ?_⟩
      rw [hv]
      rfl
    · rintro (⟨k, hm, h⟩ | ⟨s, hm, h⟩)
      · have := hk0 k hm; omega
      · have := hs0 s hm; omega
  obtain ⟨y', h1, h2, h3⟩ := hred
  exact ⟨y', by rw [hcall, h1], by rw [h2, hsh]; rfl, h3⟩

/-- Without padding, a patch of the input that begins where a window does gives the patch of the output that begins with this
window. -/
theorem pool_patch (p : Pool α) (hp : Unpadded p) (x y : NArr α) (h : p.call x = .ok y) (w ms : List Nat)
    (hf : Fits p.stride w ms x.shape.tail) :
    ∃ y', p.call (patch (starts p.stride w) ms x) = .ok y' ∧ ∀ ch is, InB (ch :: is) y'.shape →
      InB (ch :: plus w is) y.shape ∧ y'.at_ (ch :: is) = y.at_ (ch :: plus w is) := by
  obtain ⟨c, ns, hx, hN, hk, hs, hk0, hs0⟩ := unpadded_ok h
  rw [hx] at hf
  obtain ⟨f1, f2, f3⟩ := fits_length hf
  obtain ⟨y0, hy0, hsh, hv⟩ := unpadded_call hp hx hN hk hs hk0 hs0
  rw [h] at hy0
  cases hy0
  simp only [List.tail_cons] at hf f3
  obtain ⟨y', hy', hsh', hv'⟩ := unpadded_call hp (x := patch (starts p.stride w) ms x) (c := c) (ns := ms)
    (by simp [patch, hx]) (by omega) (by omega) (by omega) hk0 hs0
  refine ⟨y', hy', fun ch is hi => ?_⟩
  rw [hsh'] at hi
  have hin := plus_inB ns ms p.kernelSize p.stride w is hk hk0 hs0 hf hi.2
  refine ⟨by rw [hsh]; exact ⟨hi.1, hin⟩, ?_⟩
  rw [hv' ch is hi.2, hv ch _ hin]
  apply List.foldl_ext
  intro acc js _
  rw [spot_plus _ _ _ _ f1]
  rfl

/-- Two maximum pools one after the other are one: the kernel and stride are those of `Composed`. No padding, and the first pool's
windows leave no gaps. -/
theorem pool_twice [LinearOrder α] (p₁ p₂ p : Pool α) (m₁ : p₁.operation = max) (m₂ : p₂.operation = max) (m : p.operation = max)
    (b₁ : ∀ a, p₁.init ≤ a) (b₂ : ∀ a, p₂.init ≤ a) (b : ∀ a, p.init ≤ a) (u₁ : Unpadded p₁) (u₂ : Unpadded p₂) (u : Unpadded p)
    (hd : p.numSpatialDims = p₁.numSpatialDims)
    (hc : Composed p₁.kernelSize p₁.stride p₂.kernelSize p₂.stride p.kernelSize p.stride) (hg : Gapless p₁.kernelSize p₁.stride)
    (x y z : NArr α) (h₁ : p₁.call x = .ok y) (h₂ : p₂.call y = .ok z) :
    ∃ z', p.call x = .ok z' ∧ z'.shape = z.shape ∧ ∀ ch is, InB (ch :: is) z.shape → z'.at_ (ch :: is) = z.at_ (ch :: is) := by
  obtain ⟨c, ns, hx, hN, hk, hs, hk0, hs0⟩ := unpadded_ok h₁
  obtain ⟨y0, hy0, hsh, -⟩ := unpadded_call u₁ hx hN hk hs hk0 hs0
  rw [h₁] at hy0
  cases hy0
  obtain ⟨c', ms, hy, hN2, hk2, hs2, hk20, hs20⟩ := unpadded_ok h₂
  have hms : c' = c ∧ ms = windowShape ns (List.replicate ns.length (0, 0)) p₁.kernelSize p₁.stride := by
    rw [hsh] at hy
    simpa [eq_comm] using hy
  obtain ⟨rfl, hms⟩ := hms
  obtain ⟨z0, hz0, hshz, -⟩ := unpadded_call u₂ hy hN2 hk2 hs2 hk20 hs20
  rw [h₂] at hz0
  cases hz0
  have hmlen : ms.length = ns.length := by
    have := composed_lengths hc
    omega
  obtain ⟨l1, l2⟩ := composed_length hc
  obtain ⟨hk'0, hs'0⟩ := composed_pos hc hk0 hs0 hk20 hs20
  obtain ⟨z', hz', hshz', -⟩ := unpadded_call u hx (by omega) (by omega) (by omega) hk'0 hs'0
  have hsc := composed_shape ns _ _ _ _ _ _ hc hk hs0 hk20 hs20
  refine ⟨z', hz', ?_, ?_⟩
  · rw [hshz', hshz, hmlen, hms, hsc]
  · intro ch is hi
    rw [hshz, hmlen, hms] at hi
    have hw := fun q => composed_window ns _ _ _ _ _ _ is q hc hg hk hs0 hk20 hs20 hi.2
    have e1 := fun t => max_le_iff_window m b u hx (by omega) hz' ch is t
    have e2 := fun t => max_le_iff_window m₂ b₂ u₂ hy hN2 h₂ ch is t
    have e3 := fun r t => max_le_iff_window m₁ b₁ u₁ hx hN h₁ ch r t
    have : ∀ t, z'.at_ (ch :: is) ≤ t ↔ z.at_ (ch :: is) ≤ t := by
      intro t
      rw [e1, e2]
      constructor
      · intro h r hr hwr
        rw [e3]
        intro q hq hwq
        rw [hmlen] at hwr
        rw [hms] at hr
        exact h q hq ((hw q).1 ⟨r, hr, hwr, hwq⟩)
      · intro h q hq hwq
        obtain ⟨r, hr, hwr, hwq⟩ := (hw q).2 hwq
        rw [← hmlen] at hwr
        rw [← hms] at hr
        exact (e3 r t).1 (h r hr hwr) q hq hwq
    exact le_antisymm ((this _).2 le_rfl) ((this _).1 le_rfl)

/-! ## Concrete cases -/

/-- One channel of seven elements. -/
def exLine : NArr Nat := ⟨[1, 7], fun i => match i with
  | [_, j] => [3, 9, 4, 1, 8, 2, 7].getD j 0
  | _ => 0⟩

def exFirst : Pool Nat := ⟨0, max, 1, [3], [2], [(0, 0)], false⟩
def exSecond : Pool Nat := ⟨0, max, 1, [2], [1], [(0, 0)], false⟩
def exBoth : Pool Nat := ⟨0, max, 1, [5], [2], [(0, 0)], false⟩

example : ∃ y z, exFirst.call exLine = .ok y ∧ exSecond.call y = .ok z ∧ z.shape = [1, 2] ∧ z.at_ [0, 0] = 9 ∧ z.at_ [0, 1] = 8 ∧
    Unpadded exFirst ∧ Unpadded exSecond ∧ Unpadded exBoth ∧ (∀ a, exFirst.init ≤ a) ∧ Gapless exFirst.kernelSize exFirst.stride ∧
    Composed exFirst.kernelSize exFirst.stride exSecond.kernelSize exSecond.stride exBoth.kernelSize exBoth.stride := by
  refine ⟨_, _, rfl, rfl, rfl, rfl, rfl, ⟨rfl, rfl⟩, ⟨rfl, rfl⟩, ⟨rfl, rfl⟩, fun a => Nat.zero_le a, ?_, ?_⟩
  · simp [Gapless, exFirst]
  · simp [Composed, exFirst, exSecond, exBoth]

/-- With gaps the two pools are not one: the second largest element falls between the first pool's windows. -/
theorem pool_twice_gaps : ∃ (p₁ p₂ p : Pool Nat) (x y z z' : NArr Nat), Unpadded p₁ ∧ Unpadded p₂ ∧ Unpadded p ∧
    Composed p₁.kernelSize p₁.stride p₂.kernelSize p₂.stride p.kernelSize p.stride ∧ p₁.call x = .ok y ∧ p₂.call y = .ok z ∧
    p.call x = .ok z' ∧ z.at_ [0, 0] ≠ z'.at_ [0, 0] := by
  refine ⟨⟨0, max, 1, [1], [2], [(0, 0)], false⟩, ⟨0, max, 1, [2], [1], [(0, 0)], false⟩, ⟨0, max, 1, [3], [2], [(0, 0)], false⟩,
    exLine, _, _, _, ⟨rfl, rfl⟩, ⟨rfl, rfl⟩, ⟨rfl, rfl⟩, ?_, rfl, rfl, rfl, ?_⟩
  · simp [Composed]
  · decide

/-- A patch of five elements that begins with the second window. -/
example : ∃ y, exFirst.call exLine = .ok y ∧ Fits exFirst.stride [1] [5] exLine.shape.tail ∧
    starts exFirst.stride [1] = [2] ∧ y.at_ [0, 1] = 8 := by
  refine ⟨_, rfl, ?_, rfl, rfl⟩
  simp [Fits, exFirst, exLine]

/-- A monotone function. -/
example : ∃ y y', exFirst.call exLine = .ok y ∧ exFirst.call (each (· / 2) exLine) = .ok y' ∧ y.at_ [0, 0] = 9 ∧ y'.at_ [0, 0] = 4 :=
  ⟨_, _, rfl, rfl, rfl, rfl⟩

/-- A function that respects the operation, and two channels made of one. -/
example : (∀ a b : Nat, 2 * (a + b) = 2 * a + 2 * b) ∧
    ∃ y, exFirst.call (channels 2 (fun _ => 0) exLine) = .ok y ∧ y.shape = [2, 3] ∧ y.at_ [1, 2] = 8 :=
  ⟨Nat.mul_add 2, _, rfl, rfl, rfl⟩

end Verif.NN.PoolShift
