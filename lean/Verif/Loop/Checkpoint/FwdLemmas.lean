import Verif.Loop.Checkpoint.Model
import Verif.Loop.Checkpoint.Spec

/-! Invariants of the forward pass. -/

namespace Verif
namespace Checkpoint

variable {W V C B : Type}

theorem clamp_lt {c : Nat} (hc : 1 ≤ c) (i : Int) : clamp c i < c := by unfold clamp; omega

theorem clamp_eq {c : Nat} {i : Int} {j : Nat} (h : i = j) (hj : j < c) : clamp c i = j := by
  unfold clamp; omega

theorem maybeUpdate_false {α : Type} (c : Nat) (i : Int) (xs : Nat → α) (x : α) :
    maybeUpdate c false i xs x = xs := by
  funext j; simp only [maybeUpdate, write, read]; split <;> simp_all

theorem maybeUpdate_true {α : Type} (c : Nat) (i : Int) (xs : Nat → α) (x : α) :
    maybeUpdate c true i xs x = fun j => if j = clamp c i then x else xs j := by
  funext j; simp [maybeUpdate, write]

theorem argmax_lt (f : Nat → Int) {c : Nat} (hc : 1 ≤ c) : argmax f c < c := by
  induction c with
  | zero => omega
  | succ n ih =>
    simp only [argmax]
    split
    · omega
    · cases n with
      | zero => simp [argmax]
      | succ n => have := ih (by omega); omega

theorem le_argmax (f : Nat → Int) {c j : Nat} (hj : j < c) : f j ≤ f (argmax f c) := by
  induction c with
  | zero => omega
  | succ n ih =>
    simp only [argmax]
    split
    · rcases Nat.lt_succ_iff_lt_or_eq.1 hj with h | h
      · have := ih h; omega
      · subst h; omega
    · rcases Nat.lt_succ_iff_lt_or_eq.1 hj with h | h
      · exact ih h
      · subst h; omega

/-- What the checkpoint memory looks like after `k` steps: `f` gives the value belonging to a step. -/
structure MemInv (M : Int) (c k : Nat) (f : Nat → V) (rsteps : Nat → Int) (resid : Nat → V) : Prop where
  used : ∀ i, i < c → i < k → ∃ j : Nat, rsteps i = j ∧ j < k ∧ resid i = f j
  unused : ∀ i, i < c → k ≤ i → rsteps i = M
  inj : ∀ i j, i < c → j < c → i < k → j < k → rsteps i = rsteps j → i = j
  zero : 1 ≤ k → rsteps 0 = 0
  early : k ≤ c → ∀ i, i < k → rsteps i = i

/-- The Stumm-Walther schedule writes to slot `k` at step `k < c`, then only to slots `1, ..., c - 1`. -/
structure SWInv (c k : Nat) (sw : SW) : Prop where
  early : k < c → sw = ⟨k, c, c, true⟩
  mid : k = c → sw.p = c ∧ sw.o = c ∧ sw.s = false
  late : c < k → sw.o ≤ (c : Int) - 1 ∧ (sw.s = true → 1 ≤ sw.i ∧ sw.i ≤ sw.o)

structure WMInv (M : Int) (k : Nat) (wm : WM) : Prop where
  zero : wm.levels 0 = M
  disp : wm.disp 0 = false
  le : ∀ j, 1 ≤ j → wm.levels j ≤ k

theorem sw_step {c k : Nat} (hc : 1 ≤ c) {sw : SW} (h : SWInv c k sw) :
    SWInv c (k + 1) (stummWalther k sw).2.2 ∧
      ((stummWalther k sw).1 = true → ∃ i : Nat, (stummWalther k sw).2.1 = i ∧ i < c ∧ (k < c → i = k) ∧
        (c ≤ k → 1 ≤ i)) ∧
      (k < c → (stummWalther k sw).1 = true) := by
  rcases Nat.lt_trichotomy k c with hk | hk | hk
  · have := h.early hk; subst this
    refine ⟨⟨?_, ?_, ?_⟩, ?_, ?_⟩
    · intro h'
      simp only [stummWalther]
      have h1 : ¬ ((k : Int) + 1 > c) := by omega
      have h2 : ¬ ((k : Int) + 1 = c) := by omega
      have h3 : ¬ ((k : Int) = c) := by omega
      simp [h2, h3]
      omega
    · intro h'
      simp only [stummWalther]
      have h2 : ((k : Int) + 1 = c) := by omega
      have h3 : ¬ ((k : Int) = c) := by omega
      simp [h2, h3]
    · intro h'; omega
    · intro _; exact ⟨k, by simp [stummWalther], hk, by simp, by omega⟩
    · intro _; simp [stummWalther]
  · obtain ⟨h1, h2, h3⟩ := h.mid hk
    subst hk
    refine ⟨⟨by omega, by omega, ?_⟩, ?_, by omega⟩
    · intro _
      simp only [stummWalther, h1, h2, h3]
      simp
      omega
    · intro h'; simp [stummWalther, h3] at h'
  · obtain ⟨h1, h2⟩ := h.late hk
    refine ⟨⟨by omega, by omega, ?_⟩, ?_, by omega⟩
    · intro _
      simp only [stummWalther]
      by_cases hp : (k : Int) = sw.p
      · simp [hp]; omega
      · by_cases hq : (k : Int) + 1 = sw.p
        · simp [hp, hq]; omega
        · simp only [hp, hq]
          simp
          refine ⟨h1, ?_⟩
          intro hs
          have := h2 hs
          simp only [hs]
          simp only [if_true]
          split
          · omega
          · rename_i hh; simp at hh; omega
    · intro h'
      have := h2 h'
      refine ⟨sw.i.toNat, ?_, ?_, by omega, by omega⟩
      · simp [stummWalther]; omega
      · omega

theorem wm_step {M : Int} {c k : Nat} (hc : 1 ≤ c) (hk : c ≤ k) (hM : (k : Int) < M) {f : Nat → V} {wm : WM}
    {rsteps : Nat → Int} {resid : Nat → V} (hm : MemInv M c k f rsteps resid) (h : WMInv M k wm) :
    WMInv M (k + 1) (wangMoin c wm rsteps).2.2 ∧
      ((wangMoin c wm rsteps).1 = true → ∃ i : Nat, (wangMoin c wm rsteps).2.1 = i ∧ i < c ∧ 1 ≤ i) := by
  by_cases h1 : c = 1
  · subst h1
    simp only [wangMoin, if_true]
    exact ⟨⟨h.zero, h.disp, fun j hj => by have := h.le j hj; omega⟩, by simp⟩
  · have h0 : rsteps 0 = 0 := hm.zero (by omega)
    have hpos : ∀ i, i < c → 1 ≤ i → 0 < rsteps i := by
      intro i hi h1i
      obtain ⟨j, hj, _, _⟩ := hm.used i hi (by omega)
      rcases Nat.eq_zero_or_pos j with rfl | hj'
      · have := hm.inj i 0 hi (by omega) (by omega) (by omega) (by rw [hj, h0]; rfl)
        omega
      · omega
    simp only [wangMoin, if_neg h1]
    by_cases hany : (List.range c).any wm.disp = true
    · simp only [hany, if_true, anyDispensable]
      generalize hidx : argmax (fun j => if wm.disp j = true then rsteps j else 0) c = idx
      have hlt : idx < c := hidx ▸ argmax_lt _ hc
      have hne : idx ≠ 0 := by
        intro h00
        obtain ⟨j, hj, hd⟩ := List.any_eq_true.1 hany
        have hj : j < c := List.mem_range.1 hj
        have hle := le_argmax (fun j => if wm.disp j = true then rsteps j else 0) hj
        rw [hidx, h00] at hle
        simp only [hd, if_true, h.disp, h0] at hle
        have hj1 : 1 ≤ j := by
          rcases Nat.eq_zero_or_pos j with rfl | h'
          · simp [h.disp] at hd
          · exact h'
        have := hpos j hj hj1
        simp at hle; omega
      refine ⟨⟨?_, ?_, ?_⟩, fun _ => ⟨idx, rfl, hlt, by omega⟩⟩
      · simp [Ne.symm hne, h.zero]
      · simp [h.disp]
      · intro j hj
        have := h.le j hj
        simp only; split <;> omega
    · simp only [hany]
      simp only [Bool.false_eq_true, if_false, noneDispensable]
      generalize hidx : argmax rsteps c = idx
      have hlt : idx < c := hidx ▸ argmax_lt _ hc
      have hne : idx ≠ 0 := by
        intro h00
        have hle := le_argmax rsteps (show 1 < c by omega)
        rw [hidx, h00, h0] at hle
        have := hpos 1 (by omega) (by omega)
        omega
      have hl := h.le idx (by omega)
      refine ⟨⟨?_, ?_, ?_⟩, fun _ => ⟨idx, rfl, hlt, by omega⟩⟩
      · simp [Ne.symm hne, h.zero]
      · simp only [h.zero]
        rw [if_neg (by omega)]; exact h.disp
      · intro j hj
        have := h.le j hj
        simp only; split <;> omega

theorem u2m1_ge (c : Nat) (hc : 1 ≤ c) : (c : Int) ≤ u2m1 c := by
  unfold u2m1
  have h : (2 * (c : Int) + 2) ≤ ((c : Int) + 1) * (c + 2) := by
    have : ((c : Int) + 1) * (c + 2) = (c : Int) * c + 3 * c + 2 := by
      rw [Int.add_mul, Int.mul_add]; omega
    have h2 : (0 : Int) ≤ (c : Int) * c := Int.mul_nonneg (by omega) (by omega)
    omega
  omega

/-- One step of the controller writes the current step to a slot which is new or, once all are in
use, not the one holding step 0. -/
theorem shouldSave_step {M : Int} {c k : Nat} (hc : 1 ≤ c) (hM : (k : Int) < M) {f : Nat → V} {maxSteps : Option Nat}
    (hmax : ∀ m, maxSteps = some m → k < m)
    {sw : SW} {wm : WM} {rsteps : Nat → Int} {resid : Nat → V} (hm : MemInv M c k f rsteps resid)
    (hsw : maxSteps ≠ some c → ((k : Int) ≤ u2m1 c ∨ ∃ m : Nat, maxSteps = some m ∧ (m : Int) ≤ u2m1 c) → SWInv c k sw)
    (hwm : maxSteps ≠ some c → WMInv M k wm) :
    let r := shouldSave c maxSteps (u2m1 c) k sw wm rsteps
    (maxSteps ≠ some c → (((k + 1 : Nat) : Int) ≤ u2m1 c ∨ ∃ m : Nat, maxSteps = some m ∧ (m : Int) ≤ u2m1 c) →
      SWInv c (k + 1) r.2.2.1) ∧
    (maxSteps ≠ some c → WMInv M (k + 1) r.2.2.2) ∧
    (r.1 = true → ∃ i : Nat, r.2.1 = i ∧ i < c ∧ (k < c → i = k) ∧ (c ≤ k → 1 ≤ i)) ∧
    (k < c → r.1 = true) := by
  intro r
  by_cases hcm : maxSteps = some c
  · have hkc := hmax c hcm
    have hr : r = (true, (k : Int), sw, wm) := by simp [r, shouldSave, hcm]
    rw [hr]
    exact ⟨fun h => absurd hcm h, fun h => absurd hcm h, fun _ => ⟨k, rfl, hkc, by simp, by omega⟩, by simp⟩
  · have hge := u2m1_ge c hc
    have key : ∃ pred : Bool, (r = if pred then
        ((wangMoin c wm rsteps).1, (wangMoin c wm rsteps).2.1, sw, (wangMoin c wm rsteps).2.2)
        else ((stummWalther k sw).1, (stummWalther k sw).2.1, (stummWalther k sw).2.2, wm)) ∧
        (pred = true → u2m1 c ≤ k ∧ ∀ m : Nat, maxSteps = some m → ¬ (m : Int) ≤ u2m1 c) ∧
        (pred = false → (k : Int) < u2m1 c ∨ ∃ m : Nat, maxSteps = some m ∧ (m : Int) ≤ u2m1 c) := by
      cases hms : maxSteps with
      | none =>
        refine ⟨decide ((k : Int) ≥ u2m1 c), ?_, ?_, ?_⟩
        · simp only [r, shouldSave, hms]; simp
        · simp
        · simp
      | some m =>
        by_cases hmu : (m : Int) ≤ u2m1 c
        · refine ⟨false, ?_, by simp, fun _ => Or.inr ⟨m, rfl, hmu⟩⟩
          simp only [r, shouldSave, hms]
          have : ¬ (some m = some c) := fun h => hcm (hms.trans h)
          rw [if_neg this]
          simp [hmu]
        · refine ⟨decide ((k : Int) ≥ u2m1 c), ?_, ?_, ?_⟩
          · simp only [r, shouldSave, hms]
            have : ¬ (some m = some c) := fun h => hcm (hms.trans h)
            rw [if_neg this]
            simp [hmu]
          · intro h
            refine ⟨by simpa using h, ?_⟩
            intro m' hm'; simp at hm'; subst hm'; exact hmu
          · intro h; left; simpa using h
    obtain ⟨pred, hr, hp1, hp2⟩ := key
    cases pred with
    | true =>
      obtain ⟨hku, hno⟩ := hp1 rfl
      simp only [if_true] at hr
      have hw := wm_step hc (by omega) hM hm (hwm hcm)
      rw [hr]
      refine ⟨?_, fun _ => hw.1, ?_, by omega⟩
      · rintro _ (h | ⟨m, h1, h2⟩)
        · omega
        · exact absurd h2 (hno m h1)
      · intro h
        obtain ⟨i, h1, h2, h3⟩ := hw.2 h
        exact ⟨i, h1, h2, by omega, fun _ => h3⟩
    | false =>
      have hh := hp2 rfl
      simp only [Bool.false_eq_true, if_false] at hr
      have hs := sw_step hc (hsw hcm (by rcases hh with h | h; exact Or.inl (by omega); exact Or.inr h))
      have hw := hwm hcm
      rw [hr]
      exact ⟨fun _ _ => hs.1, fun _ => ⟨hw.zero, hw.disp, fun j hj => by have := hw.le j hj; simp only; omega⟩, hs.2.1, hs.2.2⟩

theorem mem_write {M : Int} {c k : Nat} {f : Nat → V} {rsteps : Nat → Int} {resid : Nat → V}
    (hm : MemInv M c k f rsteps resid) {i : Nat} (hi : i < c) (h1 : k < c → i = k) (h2 : c ≤ k → 1 ≤ i) :
    MemInv M c (k + 1) f (fun j => if j = i then (k : Int) else rsteps j) (fun j => if j = i then f k else resid j) := by
  refine ⟨?_, ?_, ?_, ?_, ?_⟩
  · intro j hj hjk
    by_cases hji : j = i
    · exact ⟨k, by simp [hji], by omega, by simp [hji]⟩
    · obtain ⟨a, ha, hb, hd⟩ := hm.used j hj (by omega)
      exact ⟨a, by simp [hji, ha], by omega, by simp [hji, hd]⟩
  · intro j hj hjk
    have : j ≠ i := by omega
    simp [this, hm.unused j hj (by omega)]
  · intro a b ha hb hak hbk hab
    by_cases hai : a = i <;> by_cases hbi : b = i
    · omega
    · obtain ⟨x, hx, hx2, _⟩ := hm.used b hb (by omega)
      simp [hai, hbi, hx] at hab; omega
    · obtain ⟨x, hx, hx2, _⟩ := hm.used a ha (by omega)
      simp [hai, hbi, hx] at hab; omega
    · simp only [hai, hbi, if_false] at hab
      exact hm.inj a b ha hb (by omega) (by omega) hab
  · intro _
    by_cases h0 : 0 = i
    · have : k = 0 := by omega
      simp [h0, this]
    · simp only [h0, if_false]
      exact hm.zero (by omega)
  · intro hkc j hj
    by_cases hji : j = i
    · have := h1 (by omega); simp [hji]; omega
    · simp only [hji, if_false]; exact hm.early (by omega) j (by omega)

theorem mem_nowrite {M : Int} {c k : Nat} {f : Nat → V} {rsteps : Nat → Int} {resid : Nat → V}
    (hm : MemInv M c k f rsteps resid) (hck : c ≤ k) (hc : 1 ≤ c) : MemInv M c (k + 1) f rsteps resid := by
  refine ⟨?_, ?_, ?_, ?_, ?_⟩
  · intro i hi _
    obtain ⟨j, h1, h2, h3⟩ := hm.used i hi (by omega)
    exact ⟨j, h1, by omega, h3⟩
  · intro i hi h; omega
  · intro i j hi hj _ _ h; exact hm.inj i j hi hj (by omega) (by omega) h
  · intro _; exact hm.zero (by omega)
  · intro h; omega

/-- Everything known about the carry of the forward loop after `k` steps. -/
structure FwdInv (M : Int) (c : Nat) (maxSteps : Option Nat) (strip : W → V) (body : W → W) (init : W) (k : Nat)
    (s : Fwd W V) : Prop where
  step : s.step = k
  val : s.val = iter body k init
  mem : MemInv M c k (fun j => strip (iter body j init)) s.rsteps s.resid
  sw : maxSteps ≠ some c → ((k : Int) ≤ u2m1 c ∨ ∃ m : Nat, maxSteps = some m ∧ (m : Int) ≤ u2m1 c) → SWInv c k s.sw
  wm : maxSteps ≠ some c → WMInv M k s.wm

theorem fwdInv_init (M : Int) {c : Nat} (hc : 1 ≤ c) (maxSteps : Option Nat) (strip : W → V) (body : W → W)
    (fill : V) (init : W) : FwdInv M c maxSteps strip body init 0 (fwdInit M c fill init) := by
  refine ⟨rfl, rfl, ⟨by simp, by simp [fwdInit], by simp, by simp, by simp⟩, ?_, ?_⟩
  · intro _ _
    exact ⟨fun _ => rfl, by omega, by omega⟩
  · intro _
    refine ⟨by simp [fwdInit], by simp [fwdInit], ?_⟩
    intro j hj
    have : j ≠ 0 := by omega
    simp [fwdInit, this]

theorem fwdInv_step {M : Int} {c k : Nat} (hc : 1 ≤ c) (hM : (k : Int) < M) {maxSteps : Option Nat}
    (hmax : ∀ m, maxSteps = some m → k < m) {strip : W → V} {body : W → W} {init : W} {s : Fwd W V}
    (h : FwdInv M c maxSteps strip body init k s) :
    FwdInv M c maxSteps strip body init (k + 1) (fwdBody body strip c maxSteps s) := by
  have hs := shouldSave_step hc hM hmax h.mem h.sw h.wm
  rw [← h.step] at hs
  simp only at hs
  obtain ⟨h1, h2, h3, h4⟩ := hs
  refine ⟨?_, ?_, ?_, ?_, h2⟩
  · simp [fwdBody, h.step]
  · simp [fwdBody, h.val, iter_succ']
  · simp only [fwdBody]
    generalize shouldSave c maxSteps (u2m1 c) s.step s.sw s.wm s.rsteps = r at *
    cases hr : r.1 with
    | true =>
      obtain ⟨i, hi, hic, hi1, hi2⟩ := h3 hr
      simp only [maybeUpdate_true, clamp_eq hi hic, h.step, h.val]
      exact mem_write h.mem hic hi1 hi2
    | false =>
      simp only [maybeUpdate_false]
      refine mem_nowrite h.mem ?_ hc
      rcases Nat.lt_or_ge k c with h' | h'
      · have := h4 h'; simp [hr] at this
      · exact h'
  · intro hcm hh
    exact h1 hcm hh

theorem fwdInv_iter {M : Int} {c n : Nat} (hc : 1 ≤ c) (hM : (n : Int) < M) {maxSteps : Option Nat}
    (hmax : ∀ m, maxSteps = some m → n ≤ m) (strip : W → V) (body : W → W) (fill : V) (init : W) :
    FwdInv M c maxSteps strip body init n (iter (fwdBody body strip c maxSteps) n (fwdInit M c fill init)) := by
  induction n with
  | zero => exact fwdInv_init M hc maxSteps strip body fill init
  | succ n ih =>
    rw [iter_succ']
    exact fwdInv_step hc (by omega) (fun m hm => by have := hmax m hm; omega) (ih (by omega) (fun m hm => by have := hmax m hm; omega))

/-- The stack handed to the backward pass: the first `min n c` slots hold increasing steps, beginning
with step 0, with the values of those steps. -/
structure StackInv (c n : Nat) (f : Nat → V) (index : Nat) (rsteps : Nat → Int) (resid : Nat → V) : Prop where
  le : index ≤ c
  used : ∀ i, i < index → ∃ j : Nat, rsteps i = j ∧ j < n ∧ resid i = f j
  sorted : ∀ i j, i < j → j < index → rsteps i < rsteps j
  zero : 1 ≤ index → rsteps 0 = 0

theorem getD_range (c j : Nat) (hj : j < c) : (List.range c).getD j 0 = j := by
  simp [List.getD_eq_getElem?_getD, hj]

theorem finish_stack {M : Int} {c n : Nat} (hM : (n : Int) < M) {maxSteps : Option Nat}
    (hmax : ∀ m, maxSteps = some m → n ≤ m) {strip : W → V} {body : W → W} {init : W} {s : Fwd W V}
    (h : FwdInv M c maxSteps strip body init n s) :
    StackInv c n (fun j => strip (iter body j init)) (min n c) (fwdFinish c maxSteps s).rsteps (fwdFinish c maxSteps s).resid ∧
      (fwdFinish c maxSteps s).numSteps = n ∧
      (n ≤ c → ∀ i, i < n → (fwdFinish c maxSteps s).rsteps i = i) ∧
      (∀ i, n ≤ i → i < c → (fwdFinish c maxSteps s).rsteps i = M) := by
  have hmem := h.mem
  -- the memory is already sorted if the number of steps is at most `c`
  have hearly : n ≤ c → StackInv c n (fun j => strip (iter body j init)) (min n c) s.rsteps s.resid := by
    intro hnc
    refine ⟨by omega, fun i hi => hmem.used i (by omega) (by omega), ?_, fun h1 => hmem.zero (by omega)⟩
    intro i j hij hj
    rw [hmem.early hnc i (by omega), hmem.early hnc j (by omega)]; omega
  by_cases hcm : maxSteps = some c
  · have hnc := hmax c hcm
    simp only [fwdFinish, hcm, if_true]
    exact ⟨hearly hnc, h.step, fun _ => hmem.early hnc, fun i h1 h2 => hmem.unused i h2 h1⟩
  · simp only [fwdFinish, if_neg hcm]
    by_cases hnc : n ≤ c
    · have hsort : argsort c s.rsteps = List.range c := by
        apply List.mergeSort_of_pairwise
        rw [List.pairwise_iff_getElem]
        intro i j hi hj hij
        simp only [List.length_range] at hi hj
        simp only [List.getElem_range, decide_eq_true_eq]
        by_cases hjn : j < n
        · rw [hmem.early hnc i (by omega), hmem.early hnc j hjn]; omega
        · rw [hmem.unused j hj (by omega)]
          by_cases hin : i < n
          · rw [hmem.early hnc i hin]; omega
          · rw [hmem.unused i hi (by omega)]; exact Int.le_refl _
      rw [hsort]
      have he := hearly hnc
      refine ⟨⟨he.le, ?_, ?_, ?_⟩, h.step, ?_, ?_⟩
      · intro i hi
        simp only [getD_range c i (by omega)]
        exact he.used i hi
      · intro i j hij hj
        simp only [getD_range c i (by omega), getD_range c j (by omega)]
        exact he.sorted i j hij hj
      · intro h1
        simp only [getD_range c 0 (by omega)]
        exact he.zero h1
      · intro _ i hi
        simp only [getD_range c i (by omega)]
        exact hmem.early hnc i hi
      · intro i h1 h2
        simp only [getD_range c i h2]
        exact hmem.unused i h2 h1
    · have hmin : min n c = c := by omega
      rw [hmin]
      generalize hidx : argsort c s.rsteps = idx
      have hperm : idx.Perm (List.range c) := hidx ▸ List.mergeSort_perm _ _
      have hlen : idx.length = c := by rw [hperm.length_eq]; simp
      have hpw : idx.Pairwise (fun a b => decide (s.rsteps a ≤ s.rsteps b) = true) := by
        rw [← hidx]
        apply List.pairwise_mergeSort
        · intro a b d h1 h2; simp at *; omega
        · intro a b; simp; omega
      have hnd : idx.Nodup := hperm.nodup_iff.2 List.nodup_range
      have hget : ∀ i (hi : i < c), idx.getD i 0 = idx[i]'(by omega) := by
        intro i hi
        rw [List.getD_eq_getElem?_getD, List.getElem?_eq_getElem (by omega)]; rfl
      have hin : ∀ i (hi : i < c), idx.getD i 0 < c := by
        intro i hi
        rw [hget i hi]
        have : idx[i]'(by omega) ∈ List.range c := hperm.mem_iff.1 (List.getElem_mem _)
        exact List.mem_range.1 this
      refine ⟨⟨by omega, ?_, ?_, ?_⟩, h.step, by omega, by omega⟩
      · intro i hi
        exact hmem.used _ (hin i hi) (by have := hin i hi; omega)
      · intro i j hij hj
        have h1 := List.pairwise_iff_getElem.1 hpw i j (by omega) (by omega) hij
        simp only [decide_eq_true_eq] at h1
        have h2 : s.rsteps (idx.getD i 0) ≠ s.rsteps (idx.getD j 0) := by
          intro he
          have := hmem.inj _ _ (hin i (by omega)) (hin j hj) (by have := hin i (by omega); omega) (by have := hin j hj; omega) he
          rw [hget i (by omega), hget j hj] at this
          have := (List.getElem_inj hnd).1 this
          omega
        simp only [hget i (by omega), hget j hj] at *
        omega
      · intro h1
        have hmem0 : 0 ∈ idx := hperm.mem_iff.2 (List.mem_range.2 (by omega))
        obtain ⟨j, hj, hj0⟩ := List.getElem_of_mem hmem0
        have h0 : s.rsteps 0 = 0 := hmem.zero (by omega)
        obtain ⟨a, ha, _⟩ := hmem.used _ (hin 0 (by omega)) (by have := hin 0 (by omega); omega)
        rcases Nat.eq_zero_or_pos j with rfl | hjp
        · simp only [hget 0 (by omega), hj0]; exact h0
        · have h2 := List.pairwise_iff_getElem.1 hpw 0 j (by omega) (by omega) hjp
          simp only [decide_eq_true_eq, hj0, h0] at h2
          simp only [hget 0 (by omega)] at *
          omega

end Checkpoint
end Verif
