import Verif.Loop.Checkpoint.Props
import Verif.Loop.Checkpoint.CostSpec
import Mathlib.Algebra.Order.Chebyshev

/-! How many iterations the backward pass takes. -/

namespace Verif
namespace Checkpoint

variable {W V C B : Type}

/-- `k` iterations lead from `s` to `t`. -/
structure Goes {σ : Type} (cond : σ → Bool) (body : σ → σ) (k : Nat) (s t : σ) : Prop where
  eq : iter body k s = t
  on : ∀ j, j < k → cond (iter body j s) = true

theorem Goes.refl {σ : Type} {cond : σ → Bool} {body : σ → σ} (s : σ) : Goes cond body 0 s s := ⟨rfl, by simp⟩

theorem Goes.one {σ : Type} {cond : σ → Bool} {body : σ → σ} {s : σ} (h : cond s = true) : Goes cond body 1 s (body s) :=
  ⟨rfl, fun j hj => by rw [show j = 0 by omega]; exact h⟩

theorem Goes.trans {σ : Type} {cond : σ → Bool} {body : σ → σ} {k l : Nat} {s t u : σ} (h : Goes cond body k s t)
    (h' : Goes cond body l t u) : Goes cond body (k + l) s u := by
  refine ⟨by rw [iter_add, h.eq, h'.eq], fun j hj => ?_⟩
  by_cases hjk : j < k
  · exact h.on j hjk
  · have := h'.on (j - k) (by omega)
    rwa [← h.eq, ← iter_add, show k + (j - k) = j by omega] at this

theorem Goes.runs {σ : Type} {cond : σ → Bool} {body : σ → σ} {k : Nat} {s t : σ} (h : Goes cond body k s t)
    (ht : cond t = false) : WhileRuns cond body k s t :=
  whileRuns_iff.2 ⟨h.eq.symm, by rw [h.eq]; exact ht, h.on⟩

/-- A state just after loading slot `idx - 1`, which holds step `a`, while the cotangent is at step `a + L`. -/
structure Loaded (M : Int) (c a L idx : Nat) (s : Bwd V C B) : Prop where
  pos : 1 ≤ idx
  le : idx ≤ c
  posL : 1 ≤ L
  slot : s.rsteps (idx - 1) = a
  stepGrad : s.stepGrad = a + L
  stepVal : s.stepVal = a
  index : s.index = if L = 1 then (idx : Int) - 1 else idx
  stepNext : s.stepNext = calcNext M c a (a + L) s.index

variable {M : Int} {c : Nat} {maxSteps : Option Nat} {body : W → W} {vjp : W → C → B × C}
  {add : B → B → B} {strip : W → V} {refill : V → W}

/-- Running forwards, up to the next checkpoint or the cotangent. -/
theorem fwd_run (hcm : maxSteps ≠ some c) (j : Nat) {s : Bwd V C B} {a G : Nat} (h0 : s.stepVal = a) (hG : s.stepGrad = G)
    (hj : a + j < G) (hn : ∀ i : Nat, 1 ≤ i → i ≤ j → s.stepNext ≠ ((a + i : Nat) : Int)) :
    ∃ t, Goes bwdCond (bwdBody body vjp strip refill add M c maxSteps) j s t ∧ t.stepVal = ((a + j : Nat) : Int) ∧
      t.stepGrad = G ∧ t.index = s.index ∧ t.stepNext = s.stepNext ∧ t.rsteps = s.rsteps := by
  induction j with
  | zero => exact ⟨s, .refl s, by simp [h0], hG, rfl, rfl, rfl⟩
  | succ j ih =>
    obtain ⟨t, h1, h2, h3, h4, h5, h6⟩ := ih (by omega) (fun i hi hij => hn i hi (by omega))
    have hpu : performUTurn c maxSteps t = false := by
      simp only [performUTurn, if_neg hcm, h2, h3]; simp; omega
    have hb : bwdBody body vjp strip refill add M c maxSteps t = bwdFwd body strip refill t := by
      simp only [bwdBody, hpu, if_neg hcm, Bool.false_eq_true, if_false]
      apply maybeSave_of_ne
      have := hn (j + 1) (by omega) (by omega)
      simp only [bwdFwd, h2, h5]
      intro he; apply this; rw [← he]; omega
    have ht : bwdCond t = true := by simp only [bwdCond, h3]; simp; omega
    refine ⟨_, h1.trans (.one ht), ?_⟩
    rw [hb]
    simp only [bwdFwd, h2]
    exact ⟨by omega, h3, h4, h5, h6⟩

/-- The iteration that differentiates a step and goes back to a checkpoint. -/
theorem turn_run (hcm : maxSteps ≠ some c) {s : Bwd V C B} {a L idx g : Nat} (hM : (a + L : Int) < M) (hpos : 1 ≤ idx) (hle : idx ≤ c) (hL : 1 ≤ L)
    (h0 : s.stepVal = g) (hG : s.stepGrad = g + 1) (hi : s.index = idx) (hs : s.rsteps (idx - 1) = a) (hg : g = a + L) :
    ∃ t, Goes bwdCond (bwdBody body vjp strip refill add M c maxSteps) 1 s t ∧ Loaded M c a L idx t ∧ t.rsteps = s.rsteps := by
  have hon : bwdCond s = true := by simp only [bwdCond, hG]; simp
  have hpu : performUTurn c maxSteps s = true := by
    simp only [performUTurn, if_neg hcm, h0, hG]; simp
  have hread : read c s.rsteps (max ((idx : Int) - 1) 0) = a := by
    rw [read, clamp_eq (j := idx - 1) (by omega) (by omega), hs]
  have hl : Loaded M c a L idx (uTurn vjp refill add M c maxSteps s) := by
    have e1 : s.stepGrad - 1 = (a + L : Int) := by omega
    have e2 : max ((idx : Int) - 1) 0 = idx - 1 := by omega
    refine ⟨hpos, hle, hL, hs, ?_, ?_, ?_, ?_⟩
    · simp only [uTurn]; omega
    · simp only [uTurn, loadCkpt, hi, hread]
    · simp only [uTurn, loadCkpt, hi, hread, if_neg hcm, e1]
      by_cases h : L = 1
      · rw [if_pos h, if_pos (by simp; omega)]; exact e2
      · rw [if_neg h, if_neg (by simp; omega)]
    · simp only [uTurn, loadCkpt, hi, hread, e1]
  refine ⟨_, .one hon, ?_⟩
  have hb : bwdBody body vjp strip refill add M c maxSteps s = uTurn vjp refill add M c maxSteps s := by
    simp only [bwdBody, hpu, if_neg hcm, if_true]
    apply maybeSave_of_ne
    rw [hl.stepVal, hl.stepNext, hl.index]
    have key : ∀ i : Nat, i ≤ c → ((a : Nat) : Int) ≠ calcNext M c a (a + L) i := by
      intro i hic
      have h1 := calcNext_spec (M := M) (c := c) (sv := a) (G := a + L) (idx := i) (by omega) hic
      have e : ((a + L : Nat) : Int) = (a + L : Int) := by omega
      rw [e] at h1
      rcases h1 with h1 | h1 <;> omega
    by_cases h : L = 1
    · rw [if_pos h, show (idx : Int) - 1 = ((idx - 1 : Nat) : Int) by omega]; exact key _ (by omega)
    · rw [if_neg h]; exact key _ hle
  rw [hb]
  exact ⟨hl, rfl⟩

/-- The last of all: nothing is left to differentiate. -/
theorem last_run (hcm : maxSteps ≠ some c) {s : Bwd V C B} (h0 : s.stepVal = 0) (hG : s.stepGrad = 1) :
    ∃ t, Goes bwdCond (bwdBody body vjp strip refill add M c maxSteps) 1 s t ∧ t.stepGrad = 0 := by
  have hon : bwdCond s = true := by simp [bwdCond, hG]
  have hpu : performUTurn c maxSteps s = true := by
    simp only [performUTurn, if_neg hcm, h0, hG]; simp
  refine ⟨_, .one hon, ?_⟩
  simp [bwdBody, hpu, if_neg hcm, maybeSave, uTurn, hG]

/-- The cost of doing the steps from a checkpoint up to the cotangent, with `c - idx` free slots. -/
theorem segment_run (hcm : maxSteps ≠ some c) (L : Nat) :
    ∀ {s : Bwd V C B} {a idx : Nat}, (a + L : Int) < M → Loaded M c a L idx s →
    (idx = 1 → a = 0) → (2 ≤ idx → ∃ a' : Nat, a' < a ∧ s.rsteps (idx - 2) = a') →
    ∃ t, Goes bwdCond (bwdBody body vjp strip refill add M c maxSteps) (halvingCost L (c - idx)) s t ∧
      (idx = 1 → t.stepGrad = 0) ∧
      (∀ a' : Nat, 2 ≤ idx → s.rsteps (idx - 2) = a' → Loaded M c a' (a - a') (idx - 1) t) ∧
      ∀ i, i + 1 < idx → t.rsteps i = s.rsteps i := by
  induction L using Nat.strongRecOn with
  | _ L ih =>
    intro s a idx hM hs hbot hprev
    have hpos := hs.pos
    have hle := hs.le
    have hL := hs.posL
    by_cases h1 : L = 1
    · -- the only step is done at once
      subst h1
      have hc1 : halvingCost 1 (c - idx) = 1 := by simp [halvingCost]
      rw [hc1]
      have hi : s.index = ((idx - 1 : Nat) : Int) := by rw [hs.index, if_pos rfl]; omega
      by_cases hidx : idx = 1
      · obtain ⟨t, ht, h0⟩ := last_run (body := body) (vjp := vjp) (add := add) (strip := strip) (refill := refill) (M := M) hcm (s := s)
          (by rw [hs.stepVal, hbot hidx]; rfl) (by rw [hs.stepGrad, hbot hidx]; rfl)
        exact ⟨t, ht, fun _ => h0, by omega, by omega⟩
      · obtain ⟨a', ha', hslot⟩ := hprev (by omega)
        obtain ⟨t, ht, hl, hr⟩ := turn_run (body := body) (vjp := vjp) (add := add) (strip := strip) (refill := refill) hcm
          (s := s) (a := a') (L := a - a') (idx := idx - 1) (g := a) (M := M) (by omega) (by omega) (by omega) (by omega)
          hs.stepVal hs.stepGrad hi (by rw [show idx - 1 - 1 = idx - 2 by omega]; exact hslot) (by omega)
        refine ⟨t, ht, fun h => absurd h hidx, ?_, fun i _ => by rw [hr]⟩
        intro a'' _ h''
        have : a'' = a' := by omega
        rw [this]; exact hl
    · have hi : s.index = idx := by rw [hs.index, if_neg h1]
      have hnext := hs.stepNext
      rw [hi] at hnext
      by_cases h2 : idx = c ∨ L = 2
      · -- no checkpoint is saved: run to the last step, and again from the same checkpoint
        have hnM : s.stepNext = M := by
          rw [hnext, calcNext, if_pos (by omega)]
        obtain ⟨t, ht, k1, k2, k3, k4, k5⟩ := fwd_run (body := body) (vjp := vjp) (add := add) (strip := strip) (refill := refill) (M := M) hcm
          (L - 1) (a := a) (G := a + L) hs.stepVal (by rw [hs.stepGrad]; omega) (by omega) (fun i _ _ => by rw [hnM]; omega)
        obtain ⟨u, hu, hl, hr⟩ := turn_run (body := body) (vjp := vjp) (add := add) (strip := strip) (refill := refill) hcm
          (s := t) (a := a) (L := L - 1) (idx := idx) (g := a + (L - 1)) (M := M) (by omega) hpos hle (by omega)
          k1 (by rw [k2]; omega) (by rw [k3, hi]) (by rw [k5, hs.slot]) rfl
        obtain ⟨v, hv, j1, j2, j3⟩ := ih (L - 1) (by omega) (by omega) hl hbot (fun h => by rw [hr, k5]; exact hprev h)
        have hcost : halvingCost L (c - idx) = (L - 1) + 1 + halvingCost (L - 1) (c - idx) := by
          rcases h2 with h2 | h2
          · obtain ⟨l, rfl⟩ : ∃ l, L = l + 2 := ⟨L - 2, by omega⟩
            rw [show c - idx = 0 by omega, halvingCost]; rfl
          · subst h2
            rw [halving_linear _ 2 (by omega) (by omega), halving_linear _ 1 (by omega) (by omega)]
        rw [hcost]
        refine ⟨v, (ht.trans hu).trans hv, j1, ?_, ?_⟩
        · intro a' h2' h3; exact j2 a' h2' (by rw [hr, k5]; exact h3)
        · intro i hi'; rw [j3 i hi', hr, k5]
      · -- a checkpoint is saved `h` steps later
        obtain ⟨h, hh, hnx, hcost⟩ : ∃ h : Nat, (1 ≤ h ∧ h + 2 ≤ L) ∧ s.stepNext = ((a + h : Nat) : Int) ∧
            halvingCost L (c - idx) = h + halvingCost (L - h) (c - (idx + 1)) + halvingCost h (c - idx) := by
          obtain ⟨l, rfl⟩ : ∃ l, L = l + 2 := ⟨L - 2, by omega⟩
          obtain ⟨k, hk⟩ : ∃ k, c - idx = k + 1 := ⟨c - idx - 1, by omega⟩
          rw [hnext, calcNext, hk, show c - (idx + 1) = k by omega, halvingCost, if_neg (by omega)]
          by_cases hlin : l ≤ k + 1
          · rw [if_pos (by omega), if_pos hlin]
            exact ⟨1, by omega, by omega, by rw [show l + 2 - 1 = l + 1 by omega]⟩
          · rw [if_neg (by omega), if_neg hlin]
            exact ⟨(l + 2) / 2, by omega, by omega, rfl⟩
        rw [hcost]
        obtain ⟨t, ht, k1, k2, k3, k4, k5⟩ := fwd_run (body := body) (vjp := vjp) (add := add) (strip := strip) (refill := refill) (M := M) hcm
          (h - 1) (a := a) (G := a + L) hs.stepVal (by rw [hs.stepGrad]; omega) (by omega) (fun i _ _ => by rw [hnx]; omega)
        have hpu : performUTurn c maxSteps t = false := by
          simp only [performUTurn, if_neg hcm, k1, k2]; simp; omega
        have hon : bwdCond t = true := by simp only [bwdCond, k2]; simp; omega
        have hcl : clamp c (bwdFwd body strip refill t).index = idx := clamp_eq (by simp only [bwdFwd]; rw [k3, hi]) (by omega)
        have hsv : (bwdFwd body strip refill t).stepVal = (bwdFwd body strip refill t).stepNext := by
          simp only [bwdFwd]; rw [k1, k4, hnx]; omega
        have hru : (bwdBody body vjp strip refill add M c maxSteps t).rsteps = fun j => if j = idx then ((a + h : Nat) : Int) else s.rsteps j := by
          simp only [bwdBody, hpu, if_neg hcm, Bool.false_eq_true, if_false, maybeSave, hsv, decide_true, maybeUpdate_true, hcl]
          simp only [bwdFwd, k4, k5, hnx]
        have hlu : Loaded M c (a + h) (L - h) (idx + 1) (bwdBody body vjp strip refill add M c maxSteps t) := by
          refine ⟨by omega, by omega, by omega, ?_, ?_, ?_, ?_, ?_⟩
          · rw [hru]; simp
          · simp only [bwdBody, hpu, if_neg hcm, Bool.false_eq_true, if_false, maybeSave, bwdFwd, k2]; omega
          · simp only [bwdBody, hpu, if_neg hcm, Bool.false_eq_true, if_false, maybeSave, bwdFwd, k1]; omega
          · rw [if_neg (by omega)]
            simp only [bwdBody, hpu, if_neg hcm, Bool.false_eq_true, if_false, maybeSave, hsv, decide_true, if_true]
            simp only [bwdFwd, k3, hi]; omega
          · simp only [bwdBody, hpu, if_neg hcm, Bool.false_eq_true, if_false, maybeSave, hsv, decide_true, if_true]
            simp only [bwdFwd, k4, k2, hnx]
            congr 1; omega
        obtain ⟨v, hv, -, hv2, hv3⟩ := ih (L - h) (by omega) (a := a + h) (idx := idx + 1) (by omega) hlu (by omega)
          (fun _ => ⟨a, by omega, by rw [hru, show idx + 1 - 2 = idx - 1 by omega]; simp only; rw [if_neg (by omega), hs.slot]⟩)
        have hlv := hv2 a (by omega) (by rw [hru, show idx + 1 - 2 = idx - 1 by omega]; simp only; rw [if_neg (by omega), hs.slot])
        rw [show a + h - a = h by omega, show idx + 1 - 1 = idx by omega] at hlv
        have hrv : ∀ i, i < idx → v.rsteps i = s.rsteps i := by
          intro i hi'
          rw [hv3 i (by omega), hru]; simp only; rw [if_neg (by omega)]
        obtain ⟨w, hw, w1, w2, w3⟩ := ih h (by omega) (by omega) hlv hbot
          (fun h2 => by rw [hrv _ (by omega)]; exact hprev h2)
        refine ⟨w, ?_, w1, ?_, ?_⟩
        · have := ((ht.trans (.one hon)).trans hv).trans hw
          rwa [show h - 1 + 1 = h by omega] at this
        · intro a' h2' h3; exact w2 a' h2' (by rw [hrv _ (by omega)]; exact h3)
        · intro i hi'; rw [w3 i hi', hrv i (by omega)]

/-- All segments, from the last one to the first. -/
theorem segments_run (hcm : maxSteps ≠ some c) (m : Nat) :
    ∀ {s : Bwd V C B} (p : Nat → Nat), (p (m + 1) : Int) < M → (∀ i, i ≤ m → p i < p (i + 1)) → p 0 = 0 →
    Loaded M c (p m) (p (m + 1) - p m) (m + 1) s → (∀ i, i ≤ m → s.rsteps i = p i) →
    ∃ t, Goes bwdCond (bwdBody body vjp strip refill add M c maxSteps)
        (∑ i ∈ Finset.range (m + 1), halvingCost (p (i + 1) - p i) (c - 1 - i)) s t ∧ t.stepGrad = 0 := by
  induction m with
  | zero =>
    intro s p hM hp h0 hs hr
    have := hp 0 (by omega)
    obtain ⟨t, ht, h1, -, -⟩ := segment_run (body := body) (vjp := vjp) (add := add) (strip := strip) (refill := refill) hcm _
      (by rw [h0]; omega) hs (fun _ => h0) (by omega)
    refine ⟨t, ?_, h1 rfl⟩
    simpa using ht
  | succ m ih =>
    intro s p hM hp h0 hs hr
    have hp1 := hp (m + 1) (by omega)
    have hp2 := hp m (by omega)
    have hslot : s.rsteps (m + 1 + 1 - 2) = p m := by rw [show m + 1 + 1 - 2 = m by omega]; exact hr m (by omega)
    obtain ⟨t, ht, -, h2, h3⟩ := segment_run (body := body) (vjp := vjp) (add := add) (strip := strip) (refill := refill) hcm _
      (by omega) hs (by omega) (fun _ => ⟨p m, hp2, hslot⟩)
    have hl := h2 (p m) (by omega) hslot
    rw [show m + 1 + 1 - 1 = m + 1 by omega] at hl
    obtain ⟨u, hu, h4⟩ := ih p (by omega) (fun i hi => hp i (by omega)) h0 hl (fun i hi => by rw [h3 i (by omega)]; exact hr i (by omega))
    refine ⟨u, ?_, h4⟩
    rw [Finset.sum_range_succ, Nat.add_comm, show c - 1 - (m + 1) = c - (m + 1 + 1) by omega]
    exact ht.trans hu

/-- **C81.** The backward pass takes as many iterations as recursive halving of the steps between successive checkpoints of the forward pass. -/
theorem backward_cost (cond : W → Bool) (body : W → W) (vjp : W → C → B × C) (add : B → B → B)
    (strip : W → V) (refill : V → W) (M : Int) (c : Nat) (maxSteps : Option Nat) (fill : V) (init : W) (n : Nat)
    (gF : C) (b0 : B)
    (hc : 1 ≤ c) (hM : (n : Int) < M) (hmax : ∀ m, maxSteps = some m → n ≤ m)
    (s : Fwd W V) (hfwd : WhileRuns (fwdCond cond) (fwdBody body strip c maxSteps) n (fwdInit M c fill init) s) :
    ∃ p : Nat → Nat, p 0 = 0 ∧ p (min n c) = n ∧ (∀ i, i < min n c → p i < p (i + 1)) ∧
      (∀ i, i < min n c → (fwdFinish c maxSteps s).rsteps i = p i) ∧
      ∃ t, WhileRuns bwdCond (bwdBody body vjp strip refill add M c maxSteps)
        (∑ i ∈ Finset.range (min n c), halvingCost (p (i + 1) - p i) (c - 1 - i))
        (bwdInit M c maxSteps (fwdFinish c maxSteps s) gF b0) t := by
  obtain ⟨hns, hused, hsorted, hzero, -⟩ := forward_checkpoints_valid cond body strip M c maxSteps fill init n hc hM hmax s hfwd
  have hstack := (whileRuns_iff.1 hfwd).1
  have hinv := fwdInv_iter hc hM hmax strip body fill init
  rw [← hstack] at hinv
  obtain ⟨-, -, hearly, -⟩ := finish_stack hM hmax hinv
  generalize fwdFinish c maxSteps s = sv at *
  refine ⟨fun i => if i < min n c then (sv.rsteps i).toNat else n, ?_, by simp, ?_, ?_, ?_⟩
  · by_cases h : 0 < min n c
    · simp only [h, if_true]; rw [hzero (by omega)]; rfl
    · simp only [h, if_false]; omega
  · intro i hi
    simp only [hi, if_true]
    obtain ⟨j, hj, hjn, -⟩ := hused i hi
    by_cases h : i + 1 < min n c
    · have := hsorted i (i + 1) (by omega) h
      simp only [h, if_true]; omega
    · simp only [h, if_false]; omega
  · intro i hi
    simp only [hi, if_true]
    obtain ⟨j, hj, -, -⟩ := hused i hi
    omega
  · by_cases hn : n = 0
    · subst hn
      refine ⟨_, .stop ?_⟩
      simp [bwdCond, bwdInit, hns]
    by_cases hcm : maxSteps = some c
    · -- a checkpoint for every step
      have hnc := hmax c hcm
      have hmin : min n c = n := by omega
      have hsum : (∑ i ∈ Finset.range (min n c),
          halvingCost ((if i + 1 < min n c then (sv.rsteps (i + 1)).toNat else n) -
            (if i < min n c then (sv.rsteps i).toNat else n)) (c - 1 - i)) = n := by
        rw [hmin]
        trans ∑ _i ∈ Finset.range n, 1
        · apply Finset.sum_congr rfl
          intro i hi
          have hi := Finset.mem_range.1 hi
          rw [if_pos hi, hearly hnc i hi]
          have : (if i + 1 < n then (sv.rsteps (i + 1)).toNat else n) - (i : Int).toNat = 1 := by
            by_cases h : i + 1 < n
            · rw [if_pos h, hearly hnc _ h]; omega
            · rw [if_neg h]; omega
          rw [this]
          simp [halvingCost]
        · simp
      simp only
      rw [hsum]
      obtain ⟨t, ht, -⟩ := whileRuns_of_countdown (cond := bwdCond) (body := bwdBody body vjp strip refill add M c maxSteps)
        (fun r s => s.stepGrad = r) (by
          intro r u hu hcu
          simp only [bwdCond, decide_eq_true_eq] at hcu
          refine ⟨r - 1, by omega, ?_⟩
          simp only [bwdBody, performUTurn, hcm, if_true, uTurn]; omega) (by
          intro r u hu hcu
          simp only [bwdCond, decide_eq_false_iff_not] at hcu
          omega) n (bwdInit M c maxSteps sv gF b0) (by simp [bwdInit, hns])
      exact ⟨t, ht⟩
    · obtain ⟨m, hm⟩ : ∃ m, min n c = m + 1 := ⟨min n c - 1, by omega⟩
      obtain ⟨a, ha, han, -⟩ := hused m (by omega)
      have hpm : (if m < min n c then (sv.rsteps m).toNat else n) = a := by rw [if_pos (by omega), ha]; rfl
      have hpm1 : (if m + 1 < min n c then (sv.rsteps (m + 1)).toNat else n) = n := by rw [if_neg (by omega)]
      have hread : ∀ {α : Type} (xs : Nat → α), read c xs (max (min (n : Int) c - 1) 0) = xs m := by
        intro α xs
        rw [read, clamp_eq (j := m) (by omega) (by omega)]
      have hl : Loaded M c a (n - a) (m + 1) (bwdInit (C := C) (B := B) M c maxSteps sv gF b0) := by
        refine ⟨by omega, by omega, by omega, ha, ?_, ?_, ?_, ?_⟩
        · simp only [bwdInit, hns]; omega
        · simp only [bwdInit, loadCkpt, hns, hread, ha]
        · simp only [bwdInit, loadCkpt, hns, hread, ha, if_neg hcm]
          by_cases h : n - a = 1
          · rw [if_pos h, if_pos (by simp; omega)]; omega
          · rw [if_neg h, if_neg (by simp; omega)]; omega
        · simp only [bwdInit, loadCkpt, hns, hread, ha]
          congr 1; omega
      obtain ⟨t, ht, h0⟩ := segments_run (body := body) (vjp := vjp) (add := add) (strip := strip) (refill := refill) hcm m
        (s := bwdInit M c maxSteps sv gF b0) (fun i => if i < min n c then (sv.rsteps i).toNat else n)
        (by rw [hpm1]; exact hM)
        (by
          intro i hi
          rw [if_pos (by omega)]
          obtain ⟨j, hj, hjn, -⟩ := hused i (by omega)
          by_cases h : i + 1 < min n c
          · have := hsorted i (i + 1) (by omega) h
            rw [if_pos h]; omega
          · rw [if_neg h]; omega)
        (by rw [if_pos (by omega), hzero (by omega)]; rfl)
        (by rw [hpm, hpm1]; exact hl)
        (by
          intro i hi
          rw [if_pos (by omega)]
          obtain ⟨j, hj, -, -⟩ := hused i (by omega)
          simp only [bwdInit]; omega)
      refine ⟨t, ?_⟩
      rw [hm] at ht ⊢
      exact ht.runs (by simp [bwdCond, h0])

/-- **C81, lower bound.** For any fixed number `c` of checkpoints the number of iterations grows like the square of the number of steps:
`N ≥ n² / (2 c 4^(c - 1))`. -/
theorem backward_quadratic (cond : W → Bool) (body : W → W) (vjp : W → C → B × C) (add : B → B → B)
    (strip : W → V) (refill : V → W) (M : Int) (c : Nat) (maxSteps : Option Nat) (fill : V) (init : W) (n : Nat)
    (gF : C) (b0 : B)
    (hc : 1 ≤ c) (hM : (n : Int) < M) (hmax : ∀ m, maxSteps = some m → n ≤ m)
    (s : Fwd W V) (hfwd : WhileRuns (fwdCond cond) (fwdBody body strip c maxSteps) n (fwdInit M c fill init) s)
    (N : Nat) (t : Bwd V C B) (hbwd : WhileRuns bwdCond (bwdBody body vjp strip refill add M c maxSteps) N
        (bwdInit M c maxSteps (fwdFinish c maxSteps s) gF b0) t) :
    n ^ 2 ≤ 2 * c * 4 ^ (c - 1) * N := by
  obtain ⟨p, h0, hn, hp, -, t', ht'⟩ := backward_cost cond body vjp add strip refill M c maxSteps fill init n gF b0 hc hM hmax s hfwd
  rw [(hbwd.det ht').1]
  have htel : ∀ m, m ≤ min n c → ∑ i ∈ Finset.range m, (p (i + 1) - p i) = p m := by
    intro m
    induction m with
    | zero => intro _; simp [h0]
    | succ m ih =>
      intro hm
      rw [Finset.sum_range_succ, ih (by omega)]
      have := hp m (by omega)
      omega
  have hcs : (∑ i ∈ Finset.range (min n c), (p (i + 1) - p i)) ^ 2 ≤
      (min n c) * ∑ i ∈ Finset.range (min n c), (p (i + 1) - p i) ^ 2 := by
    have := sq_sum_le_card_mul_sum_sq (s := Finset.range (min n c)) (f := fun i => p (i + 1) - p i)
    simpa using this
  rw [htel _ (Nat.le_refl _), hn] at hcs
  have hle : ∑ i ∈ Finset.range (min n c), (p (i + 1) - p i) ^ 2 ≤
      ∑ i ∈ Finset.range (min n c), 2 * 4 ^ (c - 1) * halvingCost (p (i + 1) - p i) (c - 1 - i) := by
    apply Finset.sum_le_sum
    intro i hi
    refine (halving_lower (c - 1 - i) _).trans ?_
    apply Nat.mul_le_mul_right
    apply Nat.mul_le_mul_left
    exact Nat.pow_le_pow_right (by omega) (by omega)
  rw [← Finset.mul_sum] at hle
  calc n ^ 2 ≤ min n c * ∑ i ∈ Finset.range (min n c), (p (i + 1) - p i) ^ 2 := hcs
    _ ≤ c * (2 * 4 ^ (c - 1) * ∑ i ∈ Finset.range (min n c), halvingCost (p (i + 1) - p i) (c - 1 - i)) :=
      Nat.mul_le_mul (by omega) hle
    _ = _ := by ring

/-- **C81, negative.** The module's docstring has it that with more than `(c + 1) (c + 2) / 2` steps the loop "may make extra steps (as compared to the
offline version), but does still have similar asymptotic complexity". For a given number `c ≥ 2` of checkpoints there is no factor `K` for which this holds. -/
theorem online_not_similar (c : Nat) (hc : 2 ≤ c) (K : Nat) : ∃ n N₀, Reverse n (c - 1) N₀ ∧
    ∀ (W V C B : Type) (cond : W → Bool) (body : W → W) (vjp : W → C → B × C) (add : B → B → B)
      (strip : W → V) (refill : V → W) (M : Int) (maxSteps : Option Nat) (fill : V) (init : W) (gF : C) (b0 : B)
      (_ : (n : Int) < M) (_ : ∀ m, maxSteps = some m → n ≤ m)
      (s : Fwd W V) (_ : WhileRuns (fwdCond cond) (fwdBody body strip c maxSteps) n (fwdInit M c fill init) s)
      (N : Nat) (t : Bwd V C B) (_ : WhileRuns bwdCond (bwdBody body vjp strip refill add M c maxSteps) N
        (bwdInit M c maxSteps (fwdFinish c maxSteps s) gF b0) t), K * N₀ < N := by
  generalize hA : 2 * c * 4 ^ (c - 1) = A
  obtain ⟨N₀, h1, h2⟩ := offline_cost (c - 1) (2 * A * K)
  have hn : 2 * (c - 1 + 1 + 2 * A * K).choose (2 * A * K) ≥ (2 * A * K + 1) * (2 * A * K + 2) := by
    have e : (2 * A * K + 2).choose (2 * A * K) = (2 * A * K + 2) * (2 * A * K + 1) / 2 := by
      rw [← Nat.choose_symm (by omega), show 2 * A * K + 2 - 2 * A * K = 2 by omega, Nat.choose_two_right]; rfl
    have e2 : (2 * A * K + 2) * (2 * A * K + 1) % 2 = 0 := by
      rw [← Nat.even_iff, Nat.mul_comm]; exact Nat.even_mul_succ_self (2 * A * K + 1)
    have e3 : (2 * A * K + 2).choose (2 * A * K) ≤ (c - 1 + 1 + 2 * A * K).choose (2 * A * K) := Nat.choose_le_choose _ (by omega)
    have e4 : (2 * A * K + 1) * (2 * A * K + 2) = (2 * A * K + 2) * (2 * A * K + 1) := Nat.mul_comm _ _
    omega
  generalize (c - 1 + 1 + 2 * A * K).choose (2 * A * K) = n at *
  refine ⟨n, N₀, h1, ?_⟩
  intro W V C B cond body vjp add strip refill M maxSteps fill init gF b0 hM hmax s hs N t ht
  have hq := backward_quadratic cond body vjp add strip refill M c maxSteps fill init n gF b0 (by omega) hM hmax s hs N t ht
  rw [hA] at hq
  generalize hT : 2 * A * K = T at *
  by_contra hlt
  have hpos : 0 < n := by nlinarith
  have h3 : n ^ 2 ≤ A * (K * ((T + 1) * n)) := hq.trans (Nat.mul_le_mul_left _ ((Nat.not_lt.1 hlt).trans (Nat.mul_le_mul_left _ h2)))
  have h4 : n ≤ A * K * (T + 1) := by
    apply Nat.le_of_mul_le_mul_right _ hpos
    calc n * n = n ^ 2 := (sq n).symm
      _ ≤ _ := h3
      _ = _ := by ring
  nlinarith

/-- A loop of seven steps with two checkpoints: the checkpoints are steps 0 and 6, and 15 iterations are needed. -/
example : WhileRuns (fwdCond fun x : Int => decide (x < 7)) (fwdBody (fun x => x + 1) id 2 none) 7 (fwdInit 1000 2 0 0)
    (iter (fwdBody (fun x => x + 1) id 2 none) 7 (fwdInit 1000 2 0 0)) := whileRuns_iff.2 ⟨rfl, by decide, by decide⟩
example : let s := iter (fwdBody (fun x : Int => x + 1) id 2 none) 7 (fwdInit 1000 2 0 0)
    s.rsteps 0 = 0 ∧ s.rsteps 1 = 6 := by decide
example : halvingCost 6 1 + halvingCost 1 0 = 15 := by simp [halvingCost]

end Checkpoint
end Verif
