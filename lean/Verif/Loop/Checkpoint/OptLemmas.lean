import Verif.Loop.Checkpoint.BwdLemmas
import Mathlib.Tactic.Ring

/-! The exact positions of the Stumm-Walther checkpoints, and the exact number of recomputed steps. -/

namespace Verif
namespace Checkpoint

variable {W V C B : Type}

/-- The step at which phase `j` of the Stumm-Walther schedule starts. -/
def Q (c : Nat) : Nat → Int
  | 0 => 0
  | j + 1 => Q c j + ((c : Int) - j + 1)

theorem two_Q (c j : Nat) : 2 * Q c j = (j : Int) * (2 * c - j + 3) := by
  induction j with
  | zero => simp [Q]
  | succ j ih =>
    simp only [Q]
    have : 2 * (Q c j + ((c : Int) - j + 1)) = 2 * Q c j + 2 * ((c : Int) - j + 1) := by ring
    rw [this, ih]
    push_cast
    ring

theorem u2m1_eq (c : Nat) : u2m1 c = Q c c := by
  have h := two_Q c c
  unfold u2m1
  have h2 : ((c : Int) + 1) * (c + 2) = (c : Int) * (2 * c - c + 3) + 2 := by ring
  rw [h2, ← h]
  omega

/-- Contents of the slots when `t` checkpoints have been saved in phase `j ≥ 1`. -/
def Mem (c j t s : Nat) : Int :=
  if s = 0 then 0
  else if c < s + j then Q c (c - s)
  else if s + j = c then (if 1 ≤ t then Q c j else Q c (j - 1) + s)
  else if s < t then Q c j + s else Q c (j - 1) + s

/-- The same contents in increasing order. -/
def Sorted (c j t i : Nat) : Int :=
  if i < j then Q c i
  else if i < c - t then Q c (j - 1) + (i - j) + (max t 1 : Nat)
  else Q c j + i - (c - t : Nat)

theorem mem_sorted {c j t s : Nat} (hj : 1 ≤ j) (hjc : j ≤ c) (ht : t ≤ c - j) (hs : s < c) :
    ∃ i, i < c ∧ Mem c j t s = Sorted c j t i := by
  unfold Mem
  split
  · exact ⟨0, by omega, by simp [Sorted, show 0 < j by omega, Q]⟩
  · split
    · exact ⟨c - s, by omega, by simp [Sorted, show c - s < j by omega]⟩
    · split
      · split
        · refine ⟨c - t, by omega, ?_⟩
          simp only [Sorted]
          rw [if_neg (by omega), if_neg (by omega)]; omega
        · refine ⟨c - 1, by omega, ?_⟩
          simp only [Sorted]
          rw [if_neg (by omega), if_pos (by omega)]; omega
      · split
        · refine ⟨c - t + s, by omega, ?_⟩
          simp only [Sorted]
          rw [if_neg (by omega), if_neg (by omega)]; omega
        · refine ⟨j + (s - max t 1), by omega, ?_⟩
          simp only [Sorted]
          rw [if_neg (by omega), if_pos (by omega)]; omega

theorem sorted_gap {c j t i : Nat} (hj : 1 ≤ j) (hjc : j ≤ c) (ht : t ≤ c - j) (hi : i + 1 < c) :
    Sorted c j t i < Sorted c j t (i + 1) ∧ Sorted c j t (i + 1) - Sorted c j t i ≤ c - i + 1 := by
  have hQ : Q c j = Q c (j - 1) + ((c : Int) - (j - 1 : Nat) + 1) := by
    obtain ⟨k, rfl⟩ : ∃ k, j = k + 1 := ⟨j - 1, by omega⟩
    rfl
  have hQi : Q c (i + 1) = Q c i + ((c : Int) - i + 1) := rfl
  unfold Sorted
  by_cases h1 : i + 1 < j
  · rw [if_pos h1, if_pos (by omega)]; omega
  · rw [if_neg h1]
    by_cases h2 : i < j
    · have hij : i = j - 1 := by omega
      rw [if_pos h2]
      subst hij
      split <;> omega
    · rw [if_neg h2]
      split <;> split <;> omega

theorem sorted_last {c j t : Nat} (hj : 1 ≤ j) (hjc : j ≤ c) (ht : t ≤ c - j) :
    Q c j + t - Sorted c j t (c - 1) ≤ 2 := by
  have hQ : Q c j = Q c (j - 1) + ((c : Int) - (j - 1 : Nat) + 1) := by
    obtain ⟨k, rfl⟩ : ∃ k, j = k + 1 := ⟨j - 1, by omega⟩
    rfl
  unfold Sorted
  by_cases h2 : c - 1 < j
  · rw [if_pos h2]
    have : c = j := by omega
    subst this
    omega
  · rw [if_neg h2]
    split <;> omega

/-- The Stumm-Walther state and memory in phase `j ≥ 1`. -/
structure PhaseInv (c k : Nat) (sw : SW) (rsteps : Nat → Int) (j t : Nat) : Prop where
  one : 1 ≤ j
  le : j ≤ c
  tle : t ≤ c - j
  step : (k : Int) = Q c j + t
  sw : sw = ⟨if t = 0 then c - j else t, c - j, Q c j + (c - j), decide (t < c - j)⟩
  mem : ∀ s, s < c → rsteps s = Mem c j t s

theorem phase_start {c : Nat} (hc : 1 ≤ c) {sw : SW} (hsw : SWInv c c sw) {rsteps : Nat → Int}
    (hm : ∀ s, s < c → rsteps s = s) : (stummWalther c sw).1 = false ∧
      PhaseInv c (c + 1) (stummWalther c sw).2.2 rsteps 1 0 := by
  obtain ⟨h1, h2, h3⟩ := hsw.mid rfl
  refine ⟨by simp [stummWalther, h3], by omega, by omega, by omega, by simp [Q], ?_, ?_⟩
  · simp only [stummWalther, h1, h2, h3, Q]
    simp
  · intro s hs
    rw [hm s hs]
    unfold Mem
    split
    · omega
    · rw [if_neg (by omega)]
      split <;> simp [Q]

theorem phase_step {c k : Nat} (hk : (k : Int) < u2m1 c) {sw : SW} {rsteps : Nat → Int} {j t : Nat}
    (h : PhaseInv c k sw rsteps j t) :
    stummWaltherError k sw = false ∧
    ∃ j' t', PhaseInv c (k + 1) (stummWalther k sw).2.2
      (maybeUpdate c (stummWalther k sw).1 (stummWalther k sw).2.1 rsteps k) j' t' := by
  obtain ⟨h1, h2, h3, h4, h5, h6⟩ := h
  rw [u2m1_eq] at hk
  have hQ : Q c j = Q c (j - 1) + ((c : Int) - (j - 1 : Nat) + 1) := by
    obtain ⟨k, rfl⟩ : ∃ k, j = k + 1 := ⟨j - 1, by omega⟩
    rfl
  by_cases ht : t < c - j
  · -- a checkpoint is saved
    have hk1 : ¬ ((k : Int) = Q c j + (c - j)) := by omega
    refine ⟨?_, j, t + 1, h1, h2, by omega, by omega, ?_, ?_⟩
    · subst h5
      simp [stummWaltherError, hk1]
    · subst h5
      simp only [stummWalther, hk1, ht]
      simp
      constructor
      · by_cases h0 : t = 0
        · subst h0; simp
        · simp only [h0, if_false]
          rw [if_neg (by omega)]
      · by_cases hh : (k : Int) + 1 = Q c j + (c - j)
        · simp [hh]; omega
        · simp [hh]; omega
    · subst h5
      intro s hs
      simp only [stummWalther, ht, decide_true, maybeUpdate_true]
      by_cases h0 : t = 0
      · subst h0
        have hcl : clamp c ((if (0 : Nat) = 0 then ((c : Int) - j) else (0 : Nat))) = c - j :=
          clamp_eq (by simp; omega) (by omega)
        rw [hcl]
        by_cases hsj : s = c - j
        · rw [if_pos hsj]
          unfold Mem
          rw [if_neg (by omega), if_neg (by omega), if_pos (by omega), if_pos (by omega)]
          omega
        · rw [if_neg hsj, h6 s hs]
          unfold Mem
          split
          · rfl
          · split
            · rfl
            · rw [if_neg (by omega), if_neg (by omega), if_neg (by omega), if_neg (by omega)]
      · have hcl : clamp c ((if t = 0 then ((c : Int) - j) else (t : Nat))) = t :=
          clamp_eq (by simp [h0]) (by omega)
        rw [hcl]
        by_cases hst : s = t
        · rw [if_pos hst]
          unfold Mem
          rw [if_neg (by omega), if_neg (by omega), if_neg (by omega), if_pos (by omega)]
          omega
        · rw [if_neg hst, h6 s hs]
          unfold Mem
          split
          · rfl
          · split
            · rfl
            · split
              · rw [if_pos (by omega), if_pos (by omega)]
              · by_cases hlt : s < t
                · rw [if_pos hlt, if_pos (by omega)]
                · rw [if_neg hlt, if_neg (by omega)]
  · -- end of the phase
    have hto : t = c - j := by omega
    have hjc : j < c := by
      rcases Nat.lt_or_ge j c with h | h
      · exact h
      · have : j = c := by omega
        subst this; omega
    have hk1 : (k : Int) = Q c j + (c - j) := by omega
    have hQ1 : Q c (j + 1) = Q c j + ((c : Int) - j + 1) := rfl
    refine ⟨?_, j + 1, 0, by omega, by omega, by omega, by omega, ?_, ?_⟩
    · subst h5
      simp [stummWaltherError, stummWalther, hk1]
      omega
    · subst h5
      simp only [stummWalther, hk1]
      simp
      omega
    · subst h5
      intro s hs
      simp only [stummWalther, ht, decide_false, maybeUpdate_false]
      rw [h6 s hs]
      unfold Mem
      split
      · rfl
      · by_cases hg : c < s + j
        · rw [if_pos hg, if_pos (by omega)]
        · rw [if_neg hg]
          by_cases hsj : s + j = c
          · rw [if_pos hsj, if_pos (by omega), if_pos (by omega)]
            congr 1; omega
          · rw [if_neg hsj, if_pos (by omega), if_neg (by omega)]
            have : j + 1 - 1 = j := by omega
            rw [this]
            by_cases hs1 : s + (j + 1) = c
            · rw [if_pos hs1, if_neg (by omega)]
            · rw [if_neg hs1, if_neg (by omega)]

/-- Which controller is in charge. -/
theorem shouldSave_sw {c : Nat} {maxSteps : Option Nat} {k : Nat} {sw : SW} {wm : WM} {rsteps : Nat → Int}
    (hcm : maxSteps ≠ some c) (hk : (k : Int) < u2m1 c) :
    shouldSave c maxSteps (u2m1 c) k sw wm rsteps =
      ((stummWalther k sw).1, (stummWalther k sw).2.1, (stummWalther k sw).2.2, wm) := by
  simp only [shouldSave, if_neg hcm]
  cases maxSteps with
  | none => simp only; rw [if_neg (by simp; omega)]
  | some m =>
    simp only
    by_cases hm : (m : Int) ≤ u2m1 c
    · simp [hm]
    · have : ¬ u2m1 c ≤ (k : Int) := by omega
      simp [hm, this]

theorem phase_iter {M : Int} {c n : Nat} (hc : 1 ≤ c) (hM : (n : Int) < M) {maxSteps : Option Nat}
    (hmax : ∀ m, maxSteps = some m → n ≤ m) (hcm : maxSteps ≠ some c) (hcn : c < n) (hn : (n : Int) ≤ u2m1 c)
    (strip : W → V) (body : W → W) (fill : V) (init : W) :
    ∃ j t, PhaseInv c n (iter (fwdBody body strip c maxSteps) n (fwdInit M c fill init)).sw
      (iter (fwdBody body strip c maxSteps) n (fwdInit M c fill init)).rsteps j t := by
  induction n with
  | zero => omega
  | succ n ih =>
    have hinv := fwdInv_iter hc (show (n : Int) < M by omega) (fun m hm => by have := hmax m hm; omega) strip body fill init (c := c) (maxSteps := maxSteps)
    rw [iter_succ']
    generalize iter (fwdBody body strip c maxSteps) n (fwdInit M c fill init) = s at *
    have hss := shouldSave_sw (c := c) (maxSteps := maxSteps) (k := n) (sw := s.sw) (wm := s.wm) (rsteps := s.rsteps) hcm (by omega)
    rw [← hinv.step] at hss
    simp only [fwdBody, hss]
    rw [hinv.step]
    rcases Nat.lt_or_ge c n with h | h
    · obtain ⟨j, t, hp⟩ := ih (by omega) (fun m hm => by have := hmax m hm; omega) h (by omega)
      exact (phase_step (by omega) hp).2
    · have hnc : n = c := by omega
      subst hnc
      have := phase_start hc (hinv.sw hcm (Or.inl (by omega))) (rsteps := s.rsteps)
        (fun i hi => hinv.mem.early (Nat.le_refl _) i hi)
      rw [this.1, maybeUpdate_false]
      exact ⟨1, 0, this.2⟩

theorem id_of_strictMono {c : Nat} (g : Nat → Nat) (hg : ∀ i, i < c → g i < c) (hs : ∀ i j, i < j → j < c → g i < g j) :
    ∀ i, i < c → g i = i := by
  have h1 : ∀ i, i < c → i ≤ g i := by
    intro i
    induction i with
    | zero => intro _; omega
    | succ i ih =>
      intro hi
      have := ih (by omega)
      have := hs i (i + 1) (by omega) hi
      omega
  have h2 : ∀ d i, i + d + 1 = c → g i ≤ i := by
    intro d
    induction d with
    | zero => intro i hi; have := hg i (by omega); omega
    | succ d ih =>
      intro i hi
      have h3 := ih (i + 1) (by omega)
      have h4 := hs i (i + 1) (by omega) (by omega)
      omega
  intro i hi
  have := h1 i hi
  have := h2 (c - 1 - i) i (by omega)
  omega

theorem sorted_mono {c j t : Nat} (hj : 1 ≤ j) (hjc : j ≤ c) (ht : t ≤ c - j) (a b : Nat) (hab : a ≤ b) (hb : b < c) :
    Sorted c j t a ≤ Sorted c j t b := by
  induction b with
  | zero => have : a = 0 := by omega
            subst this; exact Int.le_refl _
  | succ b ih =>
    rcases Nat.eq_or_lt_of_le hab with h | h
    · subst h; exact Int.le_refl _
    · have := ih (by omega) (by omega)
      have := (sorted_gap hj hjc ht hb).1
      omega

/-- The gaps between neighbouring checkpoints handed to the backward pass. -/
structure GapInv (c : Nat) (index : Nat) (rsteps : Nat → Int) : Prop where
  gap : ∀ i, i + 1 < index → rsteps (i + 1) - rsteps i ≤ c - i + 1

theorem finish_gap {M : Int} {c n : Nat} (hc : 1 ≤ c) (hM : (n : Int) < M) {maxSteps : Option Nat}
    (hmax : ∀ m, maxSteps = some m → n ≤ m) (hcn : c < n) (hn : (n : Int) ≤ u2m1 c)
    {strip : W → V} {body : W → W} {fill : V} {init : W} :
    let sv := fwdFinish c maxSteps (iter (fwdBody body strip c maxSteps) n (fwdInit M c fill init))
    GapInv c c sv.rsteps ∧ n - sv.rsteps (c - 1) ≤ 2 := by
  intro sv
  have hcm : maxSteps ≠ some c := fun h => by have := hmax c h; omega
  have hinv := fwdInv_iter hc hM hmax strip body fill init
  have hst := (finish_stack hM hmax hinv).1
  obtain ⟨j, t, hp⟩ := phase_iter hc hM hmax hcm hcn hn strip body fill init
  have hmin : min n c = c := by omega
  rw [hmin] at hst
  -- every entry of the sorted memory is an entry of the memory
  have hex : ∀ i, i < c → ∃ a, a < c ∧ sv.rsteps i = Sorted c j t a := by
    intro i hi
    have hin : (argsort c (iter (fwdBody body strip c maxSteps) n (fwdInit M c fill init)).rsteps).getD i 0 < c := by
      generalize hidx : argsort c _ = idx
      have hperm : idx.Perm (List.range c) := hidx ▸ List.mergeSort_perm _ _
      have hlen : idx.length = c := by rw [hperm.length_eq]; simp
      rw [List.getD_eq_getElem?_getD, List.getElem?_eq_getElem (by omega)]
      have : idx[i]'(by omega) ∈ List.range c := hperm.mem_iff.1 (List.getElem_mem _)
      simpa using this
    obtain ⟨a, ha, hb⟩ := mem_sorted hp.one hp.le hp.tle hin
    refine ⟨a, ha, ?_⟩
    have : sv.rsteps i = (iter (fwdBody body strip c maxSteps) n (fwdInit M c fill init)).rsteps
        ((argsort c (iter (fwdBody body strip c maxSteps) n (fwdInit M c fill init)).rsteps).getD i 0) := by
      simp [sv, fwdFinish, if_neg hcm]
    rw [this, hp.mem _ hin, hb]
  let g : Nat → Nat := fun i => if h : i < c then (hex i h).choose else 0
  have hg : ∀ i, i < c → g i < c ∧ sv.rsteps i = Sorted c j t (g i) := by
    intro i hi
    simp only [g, dif_pos hi]
    exact (hex i hi).choose_spec
  have hid := id_of_strictMono g (fun i hi => (hg i hi).1) (by
    intro i k hik hk
    have h1 := (hg i (by omega)).2
    have h2 := (hg k hk).2
    have h3 := hst.sorted i k hik hk
    rcases Nat.lt_or_ge (g i) (g k) with h | h
    · exact h
    · have := sorted_mono hp.one hp.le hp.tle (g k) (g i) h (hg i (by omega)).1
      have h3' : sv.rsteps i < sv.rsteps k := h3
      omega)
  have heq : ∀ i, i < c → sv.rsteps i = Sorted c j t i := by
    intro i hi
    rw [(hg i hi).2, hid i hi]
  refine ⟨⟨?_⟩, ?_⟩
  · intro i hi
    rw [heq i (by omega), heq (i + 1) (by omega)]
    exact (sorted_gap hp.one hp.le hp.tle hi).2
  · rw [heq (c - 1) (by omega), hp.step]
    exact sorted_last hp.one hp.le hp.tle

/-! ### Backward -/

/-- While the gap invariant holds, every recomputed value is stored or used at once. -/
structure OptInv (M : Int) (c : Nat) (G : Nat) (s : Bwd V C B) (sv idx : Nat) : Prop where
  gap : GapInv c idx s.rsteps
  state : (1 ≤ idx ∧ s.rsteps (idx - 1) = sv ∧ sv + 1 < G ∧ (G : Int) - sv ≤ c - idx + 2 ∧
      s.stepNext = (if sv + 2 = G then M else (sv : Int) + 1)) ∨
    (sv + 1 = G ∧ (1 ≤ idx → (sv : Int) - s.rsteps (idx - 1) ≤ c - idx + 2) ∧ s.stepNext = M)

/-- The number of iterations still to come. -/
def remaining (G sv idx : Nat) : Nat := if sv + 1 = G then 2 * G - idx - 1 else 2 * G - idx

theorem calcNext_opt {M : Int} {c sv G idx : Nat} (hsv : sv + 1 < G) (hi : (G : Int) - sv ≤ c - idx + 2) :
    calcNext M c sv G idx = if sv + 2 = G then M else (sv : Int) + 1 := by
  unfold calcNext
  simp only
  by_cases h2 : sv + 2 = G
  · rw [if_pos (by omega), if_pos h2]
  · rw [if_neg (by omega), if_neg h2, if_pos (by omega)]

theorem load_opt {M : Int} {c : Nat} {maxSteps : Option Nat} (hm : maxSteps ≠ some c) {G idx : Nat}
    {rsteps : Nat → Int} {resid : Nat → V} {sv idx' : Nat} (hidx : 1 ≤ idx) (hic : idx ≤ c) (hiG : idx ≤ G)
    (hgap : GapInv c idx rsteps) (hlast : (G : Int) - rsteps (idx - 1) ≤ c - idx + 2)
    (s : Bwd V C B)
    (h1 : s.stepVal = (loadCkpt c maxSteps G idx rsteps resid).1)
    (h2 : s.stepNext = calcNext M c (loadCkpt c maxSteps G idx rsteps resid).1 G (loadCkpt c maxSteps G idx rsteps resid).2.2)
    (h3 : s.index = (loadCkpt c maxSteps G idx rsteps resid).2.2)
    (h4 : s.rsteps = rsteps) (hsv : s.stepVal = sv) (hi : s.index = idx') (hlt : sv < G) :
    OptInv M c G s sv idx' ∧ remaining G sv idx' + idx = 2 * G := by
  have hread : ∀ {α : Type} (xs : Nat → α), read c xs (max ((idx : Int) - 1) 0) = xs (idx - 1) := by
    intro α xs
    rw [read, clamp_eq (j := idx - 1) (by omega) (by omega)]
  have hr : rsteps (idx - 1) = sv := by
    rw [← hsv, h1]; simp only [loadCkpt, hread]
  by_cases hpop : sv + 1 = G
  · have hl : (loadCkpt c maxSteps G idx rsteps resid).2.2 = ((idx - 1 : Nat) : Int) := by
      simp only [loadCkpt, hread, if_neg hm, hr]
      have : decide ((sv : Int) + 1 = G) = true := by simp; omega
      rw [this]; simp; omega
    have hidx' : idx' = idx - 1 := by omega
    have hopt : OptInv M c G s sv idx' := by
      refine ⟨⟨?_⟩, Or.inr ⟨hpop, ?_, ?_⟩⟩
      · intro i hi'; rw [h4]; exact hgap.gap i (by omega)
      · intro hone
        have := hgap.gap (idx' - 1) (by omega)
        have he : idx' - 1 + 1 = idx - 1 := by omega
        rw [he, hr] at this
        rw [h4]; omega
      · rw [h2]; unfold calcNext
        simp only
        rw [if_pos]
        right; left
        rw [← h1, hsv]; omega
    refine ⟨hopt, ?_⟩
    simp only [remaining, hpop, if_true]; omega
  · have hl : (loadCkpt c maxSteps G idx rsteps resid).2.2 = (idx : Int) := by
      simp only [loadCkpt, hread, if_neg hm, hr]
      have : decide ((sv : Int) + 1 = G) = false := by simp; omega
      rw [this]; simp
    have hidx' : idx' = idx := by omega
    subst hidx'
    have hopt : OptInv M c G s sv idx' := by
      refine ⟨⟨?_⟩, Or.inl ⟨hidx, ?_, by omega, ?_, ?_⟩⟩
      · intro i hi'; rw [h4]; exact hgap.gap i hi'
      · rw [h4, hr]
      · omega
      · rw [h2, hl, ← h1, hsv]
        exact calcNext_opt (by omega) (by omega)
    refine ⟨hopt, ?_⟩
    simp only [remaining, hpop, if_false]; omega

theorem StackInv.index_le {c n : Nat} {f : Nat → V} {idx : Nat} {rsteps : Nat → Int} {resid : Nat → V}
    (h : StackInv c n f idx rsteps resid) : ∀ i, i < idx → (i : Int) ≤ rsteps i := by
  intro i
  induction i with
  | zero => intro hi; rw [h.zero (by omega)]; omega
  | succ i ih =>
    intro hi
    have := ih (by omega)
    have := h.sorted i (i + 1) (by omega) hi
    omega

variable {M : Int} {c n : Nat} {maxSteps : Option Nat} {body : W → W} {vjp : W → C → B × C}
  {add : B → B → B} {strip : W → V} {refill : V → W} {init : W} {gF : C} {b0 : B}

/-- Invariant with the number `r` of iterations still to come. -/
def OptRun (M : Int) (c n : Nat) (f : Nat → V) (body : W → W) (vjp : W → C → B × C) (add : B → B → B) (init : W)
    (gF : C) (b0 : B) (r : Nat) (s : Bwd V C B) : Prop :=
  ∃ G, BwdInv M c n f body vjp add init gF b0 s G ∧
    (G = 0 → r = 0) ∧ (0 < G → ∃ sv idx, CtrlInv M c n f G sv idx s ∧ OptInv M c G s sv idx ∧ r = remaining G sv idx)

theorem opt_step (hM : (n : Int) < M) (hm : maxSteps ≠ some c) (hnc : c < n)
    (hbuf : BufferContract body vjp strip refill init n) {s : Bwd V C B} {r : Nat}
    (h : OptRun M c n (fun j => strip (iter body j init)) body vjp add init gF b0 r s) (hcond : bwdCond s = true) :
    ∃ r', r = r' + 1 ∧
      OptRun M c n (fun j => strip (iter body j init)) body vjp add init gF b0 r'
        (bwdBody body vjp strip refill add M c maxSteps s) := by
  obtain ⟨G, hb, -, hpos⟩ := h
  have hsG := hb.stepGrad
  have hG : 0 < G := by simp only [bwdCond, decide_eq_true_eq] at hcond; omega
  obtain ⟨sv, idx, hc, ho, hr⟩ := hpos hG
  have hlt := hc.lt
  have hsv := hc.stepVal
  have hile : idx ≤ G := by
    rcases Nat.eq_zero_or_pos idx with h | h
    · omega
    · have := hc.stack.index_le (idx - 1) (by omega)
      have := hc.below (idx - 1) (by omega)
      omega
  rcases bwd_step (maxSteps := maxSteps) hM (fun h => absurd h hm) hbuf hG hb with ⟨hu, hb'⟩ | ⟨hf, -, hf2, hb'⟩
  · -- U-turn
    have hu' : sv + 1 = G := by omega
    by_cases hG1 : G - 1 = 0
    · refine ⟨0, ?_, G - 1, hb', fun _ => rfl, fun h => by omega⟩
      rw [hr]
      simp only [remaining, hu', if_true]
      have hidx0 : idx = 0 := by
        rcases Nat.eq_zero_or_pos idx with h | h
        · exact h
        · have := hc.strict hu' 0 h
          rw [hc.stack.zero h] at this; omega
      omega
    · obtain ⟨sv', idx', hc'⟩ := hb'.ctrl (by omega)
      have hidx1 : 1 ≤ idx := by
        rcases hc.bottom with h | h
        · exact h
        · omega
      have hlast : ((G - 1 : Nat) : Int) - s.rsteps (idx - 1) ≤ c - idx + 2 := by
        rcases ho.state with h | h
        · omega
        · have := h.2.1 hidx1; omega
      have hiG1 : idx ≤ G - 1 := by
        have := hc.stack.index_le (idx - 1) (by omega)
        have := hc.strict hu' (idx - 1) (by omega)
        omega
      -- the state after the iteration is the state after the U-turn
      have hpu : performUTurn c maxSteps s = true := by
        simp only [performUTurn, if_neg hm]; simp; omega
      have hstate : bwdBody body vjp strip refill add M c maxSteps s = uTurn vjp refill add M c maxSteps s := by
        simp only [bwdBody, hpu, if_true, if_neg hm]
        apply maybeSave_of_ne
        intro hbad
        have h1 : (bwdBody body vjp strip refill add M c maxSteps s).stepVal = sv' := hc'.stepVal
        -- the load leaves the next checkpoint beyond the value
        obtain ⟨sv2, idx2, hl⟩ := load_spec (M := M) (maxSteps := maxSteps) (fun h => absurd h hm) (show 0 < G - 1 by omega) hc.stack hidx1
          (fun i hi => by have := hc.strict hu' i hi; omega)
          (fun hn => by omega)
          (vjp (refill s.val) s.gradVal).2 (add s.gradBody (vjp (refill s.val) s.gradVal).1)
        have he : s.stepGrad - 1 = ((G - 1 : Nat) : Int) := by omega
        simp only [uTurn, he, hc.index] at hbad
        have a := hl.stepVal
        have b := hl.next
        have d := hl.lt
        have hle := hb.le
        simp only at a b
        rw [← hbad, a] at b
        omega
      have he : s.stepGrad - 1 = ((G - 1 : Nat) : Int) := by omega
      rw [hstate] at hc' hb' ⊢
      have hlo := load_opt (M := M) (maxSteps := maxSteps) (resid := s.resid) hm hidx1 hc.stack.le hiG1 ho.gap hlast
        (uTurn vjp refill add M c maxSteps s) (sv := sv') (idx' := idx')
        (by simp only [uTurn, he, hc.index]) (by simp only [uTurn, he, hc.index]) (by simp only [uTurn, he, hc.index]) rfl
        hc'.stepVal hc'.index hc'.lt
      refine ⟨remaining (G - 1) sv' idx', ?_, G - 1, hb', fun h => absurd h hG1, fun _ => ⟨sv', idx', hc', hlo.1, rfl⟩⟩
      have hrem : remaining G sv idx = 2 * G - idx - 1 := by simp only [remaining, hu', if_true]
      rw [hr, hrem]
      have := hlo.2
      omega
  · -- forward
    have hf' : sv + 1 < G := by omega
    obtain ⟨sv', idx', hc'⟩ := hb'.ctrl hG
    have hsv' : sv' = sv + 1 := by have := hc'.stepVal; omega
    subst hsv'
    obtain ⟨o1, o2, -, o4, o5⟩ := ho.state.resolve_right (by omega)
    have hpu : performUTurn c maxSteps s = false := by
      simp only [performUTurn, if_neg hm]; simp; omega
    have hstate : bwdBody body vjp strip refill add M c maxSteps s = maybeSave M c (bwdFwd body strip refill s) := by
      simp only [bwdBody, hpu, if_neg hm, Bool.false_eq_true, if_false]
    have hrem : remaining G sv idx = 2 * G - idx := by simp only [remaining]; rw [if_neg (by omega)]
    rw [hr, hrem]
    by_cases h2 : sv + 2 = G
    · -- caught up: not saved
      rw [if_pos h2] at o5
      have hns : maybeSave M c (bwdFwd body strip refill s) = bwdFwd body strip refill s := by
        apply maybeSave_of_ne
        simp only [bwdFwd]
        have := hb.le
        omega
      rw [hstate, hns] at hc' hb' ⊢
      have hi' : idx' = idx := by
        have h1 := hc'.index
        have h2 := hc.index
        simp only [bwdFwd] at h1; omega
      subst hi'
      refine ⟨remaining G (sv + 1) idx', ?_, G, hb', by omega, fun _ => ⟨sv + 1, idx', hc', ?_, rfl⟩⟩
      · simp only [remaining]; rw [if_pos (by omega)]; omega
      · refine ⟨ho.gap, Or.inr ⟨by omega, ?_, ?_⟩⟩
        · intro _
          simp only [bwdFwd]
          have := hc.stack.le
          omega
        · simp only [bwdFwd]; exact o5
    · -- the value is saved
      rw [if_neg h2] at o5
      have hsave : (bwdFwd body strip refill s).stepVal = (bwdFwd body strip refill s).stepNext := by
        simp only [bwdFwd]; omega
      have hidxc : idx < c := by omega
      have hmi : (maybeSave M c (bwdFwd body strip refill s)).index = ((idx + 1 : Nat) : Int) := by
        simp only [maybeSave, hsave, decide_true, if_true]
        have := hc.index
        simp only [bwdFwd]; omega
      have hmr : (maybeSave M c (bwdFwd body strip refill s)).rsteps = fun j => if j = idx then ((sv + 1 : Nat) : Int) else s.rsteps j := by
        have hi : (bwdFwd body strip refill s).index = idx := hc.index
        simp only [maybeSave, hsave, decide_true, maybeUpdate_true, clamp_eq hi hidxc]
        rw [← hsave]
        funext j
        simp only [bwdFwd, hsv]
        rfl
      have hmn : (maybeSave M c (bwdFwd body strip refill s)).stepNext = calcNext M c ((sv + 1 : Nat) : Int) G ((idx + 1 : Nat) : Int) := by
        have hmi' := hmi
        simp only [maybeSave, hsave, decide_true, if_true] at hmi' ⊢
        rw [hmi', ← hsave]
        simp only [bwdFwd, hsv, hsG]
        rfl
      rw [hstate] at hc' hb' ⊢
      have hi' : idx' = idx + 1 := by have := hc'.index; omega
      subst hi'
      refine ⟨remaining G (sv + 1) (idx + 1), ?_, G, hb', by omega, fun _ => ⟨sv + 1, idx + 1, hc', ?_, rfl⟩⟩
      · simp only [remaining]
        rw [if_neg (by omega)]
        omega
      · refine ⟨⟨?_⟩, Or.inl ⟨by omega, ?_, by omega, by omega, ?_⟩⟩
        · intro i hi
          rw [hmr]
          by_cases hie : i + 1 = idx
          · have : i ≠ idx := by omega
            have h3 : i = idx - 1 := by omega
            simp only [hie, if_true, this, if_false]
            rw [h3, o2]
            omega
          · have h3 : i ≠ idx := by omega
            simp only [hie, h3, if_false]
            exact ho.gap.gap i (by omega)
        · rw [hmr]; simp
        · rw [hmn]
          have := calcNext_opt (M := M) (c := c) (sv := sv + 1) (G := G) (idx := idx + 1) (by omega) (by omega)
          rw [this]

theorem opt_init (hm : maxSteps ≠ some c) (hc : 1 ≤ c) (hnc : c < n) {f : Nat → V} {sv : Saved V}
    (hst : StackInv c n f c sv.rsteps sv.resid) (hn : sv.numSteps = n)
    (hgap : GapInv c c sv.rsteps) (hlast : n - sv.rsteps (c - 1) ≤ 2) :
    OptRun M c n f body vjp add init gF b0 (2 * n - c) (bwdInit M c maxSteps sv gF b0) := by
  have hmin : min n c = c := by omega
  have hb := bwd_init (M := M) (maxSteps := maxSteps) (body := body) (vjp := vjp) (add := add) (init := init) (gF := gF) (b0 := b0)
    (fun h => absurd h hm) hc (n := n) (f := f) (sv := sv) (by rw [hmin]; exact hst) hn (fun h => by omega)
  refine ⟨n, hb, by omega, ?_⟩
  intro hpos
  obtain ⟨sv', idx', hc'⟩ := hb.ctrl hpos
  have hmin' : min (n : Int) (c : Int) = (c : Int) := by omega
  have hlo := load_opt (M := M) (maxSteps := maxSteps) (resid := sv.resid) (G := n) (idx := c) hm hc (Nat.le_refl c) (by omega) hgap (by omega)
    (bwdInit M c maxSteps sv gF b0) (sv := sv') (idx' := idx')
    (by simp only [bwdInit, hn, hmin']) (by simp only [bwdInit, hn, hmin']) (by simp only [bwdInit, hn, hmin']) rfl
    hc'.stepVal hc'.index hc'.lt
  refine ⟨sv', idx', hc', hlo.1, ?_⟩
  have := hlo.2
  omega

/-- A loop which counts down runs for exactly that many iterations. -/
theorem whileRuns_of_countdown {σ : Type} {cond : σ → Bool} {body : σ → σ} (P : Nat → σ → Prop)
    (hstep : ∀ r s, P r s → cond s = true → ∃ r', r = r' + 1 ∧ P r' (body s))
    (hstop : ∀ r s, P r s → cond s = false → r = 0) (r : Nat) (s : σ) (h : P r s) :
    ∃ t, WhileRuns cond body r s t ∧ P 0 t := by
  induction r generalizing s with
  | zero =>
    cases hc : cond s with
    | true => obtain ⟨r', h1, _⟩ := hstep 0 s h hc; omega
    | false => exact ⟨s, .stop hc, h⟩
  | succ r ih =>
    cases hc : cond s with
    | true =>
      obtain ⟨r', h1, h2⟩ := hstep _ s h hc
      have : r' = r := by omega
      subst this
      obtain ⟨t, ht, hp⟩ := ih _ h2
      exact ⟨t, .step hc ht, hp⟩
    | false => have := hstop _ s h hc; omega

end Checkpoint
end Verif
