import Verif.Loop.Checkpoint.FwdLemmas

/-! Invariants of the backward pass. -/

namespace Verif
namespace Checkpoint

variable {W V C B : Type}

/-- The part of the backward invariant that holds while there is still a cotangent to propagate. -/
structure CtrlInv (M : Int) (c n : Nat) (f : Nat → V) (G sv idx : Nat) (s : Bwd V C B) : Prop where
  stepVal : s.stepVal = sv
  index : s.index = idx
  lt : sv < G
  val : s.val = f sv
  stack : StackInv c n f idx s.rsteps s.resid
  below : ∀ i, i < idx → s.rsteps i ≤ sv
  strict : sv + 1 = G → ∀ i, i < idx → s.rsteps i < sv
  bottom : 1 ≤ idx ∨ (sv = 0 ∧ G = 1)
  next : s.stepNext = M ∨ ((sv : Int) < s.stepNext ∧ s.stepNext + 2 ≤ G ∧ idx < c)
  dense : n ≤ c → sv + 1 = G ∧ idx = sv ∧ ∀ i, i < idx → s.rsteps i = i

theorem calcNext_spec {M : Int} {c sv G idx : Nat} (hsv : sv < G) (hidx : idx ≤ c) :
    calcNext M c sv G idx = M ∨ ((sv : Int) < calcNext M c sv G idx ∧ calcNext M c sv G idx + 2 ≤ G ∧ idx < c) := by
  unfold calcNext
  simp only
  by_cases h : (idx : Int) = c ∨ (sv : Int) + 1 = G ∨ (sv : Int) + 2 = G
  · simp [h]
  · rw [if_neg h]
    right
    split <;> omega

/-- Loading from a stack whose entries are all below the cotangent's step. -/
theorem load_spec {M : Int} {c n : Nat} {maxSteps : Option Nat} (hmax : maxSteps = some c → n ≤ c)
    {f : Nat → V} {G idx : Nat} (hG : 0 < G) {rsteps : Nat → Int} {resid : Nat → V}
    (hst : StackInv c n f idx rsteps resid) (hidx : 1 ≤ idx)
    (hlt : ∀ i, i < idx → rsteps i < G)
    (hdense : n ≤ c → idx = G ∧ ∀ i, i < idx → rsteps i = i) (gv : C) (gb : B) :
    ∃ sv idx' : Nat,
      CtrlInv M c n f G sv idx'
        { stepVal := (loadCkpt c maxSteps G idx rsteps resid).1
          stepGrad := G
          stepNext := calcNext M c (loadCkpt c maxSteps G idx rsteps resid).1 G (loadCkpt c maxSteps G idx rsteps resid).2.2
          index := (loadCkpt c maxSteps G idx rsteps resid).2.2
          val := (loadCkpt c maxSteps G idx rsteps resid).2.1
          gradVal := gv
          gradBody := gb
          rsteps := rsteps
          resid := resid } := by
  have hle := hst.le
  have hread : ∀ {α : Type} (xs : Nat → α), read c xs (max ((idx : Int) - 1) 0) = xs (idx - 1) := by
    intro α xs
    rw [read, clamp_eq (j := idx - 1) (by omega) (by omega)]
  obtain ⟨sv, hsv, hsvn, hres⟩ := hst.used (idx - 1) (by omega)
  have hsvG : sv < G := by have := hlt (idx - 1) (by omega); omega
  by_cases hpop : sv + 1 = G
  · have hl : loadCkpt c maxSteps G idx rsteps resid = ((sv : Int), f sv, ((idx - 1 : Nat) : Int)) := by
      have hp : (if maxSteps = some c then true else decide ((sv : Int) + 1 = (G : Int))) = true := by
        split
        · rfl
        · simp; omega
      simp only [loadCkpt, hread, hsv, hres, hp, if_true, Prod.mk.injEq, true_and]
      omega
    rw [hl]
    refine ⟨sv, idx - 1, rfl, rfl, hsvG, rfl, ?_, ?_, ?_, ?_, calcNext_spec hsvG (by omega), ?_⟩
    · refine ⟨by omega, fun i hi => hst.used i (by omega), fun i j hij hj => hst.sorted i j hij (by omega), fun h => hst.zero hidx⟩
    · intro i hi
      have := hst.sorted i (idx - 1) hi (by omega)
      simp only; omega
    · intro _ i hi
      have := hst.sorted i (idx - 1) hi (by omega)
      simp only; omega
    · by_cases h1 : 1 ≤ idx - 1
      · exact Or.inl h1
      · right
        have h0 := hst.zero hidx
        have : idx - 1 = 0 := by omega
        rw [this, h0] at hsv
        omega
    · intro hn
      obtain ⟨h1, h2⟩ := hdense hn
      have := h2 (idx - 1) (by omega)
      exact ⟨hpop, by omega, fun i hi => h2 i (by omega)⟩
  · have hl : loadCkpt c maxSteps G idx rsteps resid = ((sv : Int), f sv, (idx : Int)) := by
      have hnc : ¬ n ≤ c := by
        intro hn
        obtain ⟨h1, h2⟩ := hdense hn
        have := h2 (idx - 1) (by omega)
        omega
      have hm : maxSteps ≠ some c := fun h => hnc (hmax h)
      have hp : (if maxSteps = some c then true else decide ((sv : Int) + 1 = (G : Int))) = false := by
        rw [if_neg hm]; simp; omega
      simp only [loadCkpt, hread, hsv, hres, hp, Bool.false_eq_true, if_false]
    rw [hl]
    refine ⟨sv, idx, rfl, rfl, hsvG, rfl, hst, ?_, ?_, Or.inl hidx, calcNext_spec hsvG (by omega), ?_⟩
    · intro i hi
      rcases Nat.lt_or_ge i (idx - 1) with h | h
      · have := hst.sorted i (idx - 1) h (by omega); simp only; omega
      · have : i = idx - 1 := by omega
        simp only; rw [this]; omega
    · intro h; exact absurd h hpop
    · intro hn
      obtain ⟨h1, h2⟩ := hdense hn
      have := h2 (idx - 1) (by omega)
      omega

/-- The invariant of the backward loop. -/
structure BwdInv (M : Int) (c n : Nat) (f : Nat → V) (body : W → W) (vjp : W → C → B × C)
    (add : B → B → B) (init : W) (gF : C) (b0 : B) (s : Bwd V C B) (G : Nat) : Prop where
  stepGrad : s.stepGrad = G
  le : G ≤ n
  grad : (s.gradVal, s.gradBody) = backprop body vjp add (n - G) (iter body G init) gF b0
  ctrl : 0 < G → ∃ sv idx, CtrlInv M c n f G sv idx s

theorem maybeSave_of_ne {M : Int} {c : Nat} {s : Bwd V C B} (h : s.stepVal ≠ s.stepNext) : maybeSave M c s = s := by
  simp only [maybeSave, h, decide_false, maybeUpdate_false, Bool.false_eq_true, if_false]

theorem maybeSave_frame {M : Int} {c : Nat} {s : Bwd V C B} :
    (maybeSave M c s).stepGrad = s.stepGrad ∧ (maybeSave M c s).gradVal = s.gradVal ∧
      (maybeSave M c s).gradBody = s.gradBody ∧ (maybeSave M c s).stepVal = s.stepVal := ⟨rfl, rfl, rfl, rfl⟩

/-- Saving keeps the invariant, for a value strictly above the stack. -/
theorem maybeSave_ctrl {M : Int} {c n : Nat} {f : Nat → V} {G sv idx : Nat} {s : Bwd V C B} (hM : (n : Int) < M)
    (hGn : G ≤ n) (hsG : s.stepGrad = G)
    (h1 : s.stepVal = sv) (h2 : s.index = idx) (h3 : sv < G) (h4 : s.val = f sv)
    (h5 : StackInv c n f idx s.rsteps s.resid) (h6 : ∀ i, i < idx → s.rsteps i < sv)
    (h7 : 1 ≤ idx) (h8 : s.stepNext = M ∨ ((sv : Int) ≤ s.stepNext ∧ s.stepNext + 2 ≤ G ∧ idx < c))
    (hnd : ¬ n ≤ c) : ∃ idx', CtrlInv M c n f G sv idx' (maybeSave M c s) := by
  by_cases hsave : s.stepVal = s.stepNext
  · have hnM : s.stepNext ≠ M := by omega
    obtain ⟨h81, h82, h83⟩ := h8.resolve_left hnM
    refine ⟨idx + 1, ?_⟩
    have hms : maybeSave M c s =
        { s with
          rsteps := fun j => if j = idx then (sv : Int) else s.rsteps j
          resid := fun j => if j = idx then f sv else s.resid j
          index := ((idx + 1 : Nat) : Int)
          stepNext := calcNext M c (sv : Int) (G : Int) ((idx + 1 : Nat) : Int) } := by
      simp only [maybeSave, hsave, decide_true, maybeUpdate_true, if_true, clamp_eq h2 h83]
      simp only [← hsave, h1, h2, h4, hsG]
      rfl
    rw [hms]
    refine ⟨h1, rfl, h3, h4, ?_, ?_, ?_, Or.inl (by omega), calcNext_spec h3 (by omega), fun h => absurd h hnd⟩
    · refine ⟨by omega, ?_, ?_, ?_⟩
      · intro i hi
        by_cases hi' : i = idx
        · exact ⟨sv, by simp [hi'], by omega, by simp [hi']⟩
        · obtain ⟨j, a, b, d⟩ := h5.used i (by omega)
          exact ⟨j, by simp [hi', a], b, by simp [hi', d]⟩
      · intro i j hij hj
        have hi' : i ≠ idx := by omega
        by_cases hj' : j = idx
        · have := h6 i (by omega)
          simp [hi', hj']; omega
        · have := h5.sorted i j hij (by omega)
          simp [hi', hj']; omega
      · intro _
        have : 0 ≠ idx := by omega
        simp [this]; exact h5.zero h7
    · intro i hi
      by_cases hi' : i = idx
      · simp [hi']
      · have := h6 i (by omega); simp [hi']; omega
    · intro h; omega
  · rw [maybeSave_of_ne hsave]
    refine ⟨idx, h1, h2, h3, h4, h5, fun i hi => by have := h6 i hi; omega, fun _ => h6, Or.inl h7, ?_, fun h => absurd h hnd⟩
    rcases h8 with h8 | ⟨a, b, d⟩
    · exact Or.inl h8
    · exact Or.inr ⟨by omega, b, d⟩

variable {M : Int} {c n : Nat} {maxSteps : Option Nat} {body : W → W} {vjp : W → C → B × C}
  {add : B → B → B} {strip : W → V} {refill : V → W} {init : W} {gF : C} {b0 : B}

theorem bwd_step (hM : (n : Int) < M) (hmax : maxSteps = some c → n ≤ c)
    (hbuf : BufferContract body vjp strip refill init n) {s : Bwd V C B} {G : Nat} (hG : 0 < G)
    (h : BwdInv M c n (fun j => strip (iter body j init)) body vjp add init gF b0 s G) :
    (s.stepVal + 1 = G ∧
      BwdInv M c n (fun j => strip (iter body j init)) body vjp add init gF b0
        (bwdBody body vjp strip refill add M c maxSteps s) (G - 1)) ∨
    (s.stepVal + 1 < G ∧ ¬ n ≤ c ∧ (bwdBody body vjp strip refill add M c maxSteps s).stepVal = s.stepVal + 1 ∧
      BwdInv M c n (fun j => strip (iter body j init)) body vjp add init gF b0
        (bwdBody body vjp strip refill add M c maxSteps s) G) := by
  obtain ⟨sv, idx, hc⟩ := h.ctrl hG
  have hlt := hc.lt
  have hGn := h.le
  have hsG := h.stepGrad
  have hsv := hc.stepVal
  by_cases hu : sv + 1 = G
  · left
    refine ⟨by omega, ?_⟩
    have hpu : performUTurn c maxSteps s = true := by
      simp only [performUTurn]
      split
      · rfl
      · simp; omega
    -- the U-turn itself
    have hturn : BwdInv M c n (fun j => strip (iter body j init)) body vjp add init gF b0
        (uTurn vjp refill add M c maxSteps s) (G - 1) := by
      refine ⟨?_, by omega, ?_, ?_⟩
      · simp only [uTurn]; omega
      · have hg := h.grad
        have hn : n - (G - 1) = (n - G) + 1 := by omega
        have hG1 : body (iter body (G - 1) init) = iter body G init := by
          rw [← iter_succ' body]; congr 1; omega
        rw [hn, backprop, hG1, ← hg]
        have hsv' : sv = G - 1 := by omega
        simp only [uTurn]
        rw [hc.val, hbuf.deriv sv (by omega), hsv']
      · intro hG'
        have hidx : 1 ≤ idx := by
          rcases hc.bottom with h' | h'
          · exact h'
          · omega
        have hst := hc.strict hu
        obtain ⟨sv', idx', hl⟩ := load_spec (M := M) (maxSteps := maxSteps) hmax hG' hc.stack hidx
          (fun i hi => by have := hst i hi; omega)
          (fun hn => by obtain ⟨_, a, b⟩ := hc.dense hn; exact ⟨by omega, b⟩)
          (vjp (refill s.val) s.gradVal).2 (add s.gradBody (vjp (refill s.val) s.gradVal).1)
        refine ⟨sv', idx', ?_⟩
        have he : s.stepGrad - 1 = ((G - 1 : Nat) : Int) := by omega
        simp only [uTurn, he, hc.index]
        exact hl
    simp only [bwdBody, hpu, if_true]
    split
    · exact hturn
    · refine ⟨hturn.stepGrad, hturn.le, hturn.grad, ?_⟩
      intro hG'
      obtain ⟨sv', idx', hc'⟩ := hturn.ctrl hG'
      refine ⟨sv', idx', ?_⟩
      rw [maybeSave_of_ne]
      · exact hc'
      · rw [hc'.stepVal]
        have := hc'.lt
        rcases hc'.next with h' | h' <;> omega
  · right
    have hnc : ¬ n ≤ c := fun hn => hu (hc.dense hn).1
    have hm : maxSteps ≠ some c := fun h => hnc (hmax h)
    refine ⟨by omega, hnc, ?_⟩
    have hpu : performUTurn c maxSteps s = false := by
      simp only [performUTurn, if_neg hm]; simp; omega
    simp only [bwdBody, hpu, if_neg hm, Bool.false_eq_true, if_false]
    refine ⟨rfl, h.stepGrad, h.le, h.grad, ?_⟩
    intro _
    refine ⟨sv + 1, ?_⟩
    have hidx : 1 ≤ idx := by
      rcases hc.bottom with h' | h'
      · exact h'
      · omega
    refine maybeSave_ctrl (s := bwdFwd body strip refill s) hM hGn hsG ?_ hc.index (by omega) ?_ hc.stack ?_ hidx ?_ hnc
    · simp only [bwdFwd]; omega
    · simp only [bwdFwd]; rw [hc.val, hbuf.next sv (by omega)]
    · intro i hi
      have := hc.below i hi
      simp only [bwdFwd]; omega
    · have := hc.next
      simp only [bwdFwd]
      rcases this with h' | h'
      · exact Or.inl h'
      · right; omega

/-- The invariant holds initially. -/
theorem bwd_init (hmax : maxSteps = some c → n ≤ c) {f : Nat → V} {sv : Saved V} (hc : 1 ≤ c)
    (hst : StackInv c n f (min n c) sv.rsteps sv.resid) (hn : sv.numSteps = n)
    (hearly : n ≤ c → ∀ i, i < n → sv.rsteps i = i) :
    BwdInv M c n f body vjp add init gF b0 (bwdInit M c maxSteps sv gF b0) n := by
  refine ⟨hn, Nat.le_refl n, by simp [bwdInit, backprop], ?_⟩
  intro hpos
  have hmin : min (n : Int) (c : Int) = ((min n c : Nat) : Int) := by omega
  obtain ⟨sv', idx', hl⟩ := load_spec (M := M) (maxSteps := maxSteps) hmax hpos hst (by omega)
    (fun i hi => by obtain ⟨j, a, b, _⟩ := hst.used i hi; omega)
    (fun hnc => ⟨by omega, fun i hi => hearly hnc i (by omega)⟩) gF b0
  refine ⟨sv', idx', ?_⟩
  simp only [bwdInit, hn, hmin]
  exact hl

/-- `0 + 1 + ... + (k - 1)`. -/
def tri : Nat → Nat
  | 0 => 0
  | k + 1 => tri k + k

theorem two_tri (k : Nat) : 2 * tri k + k = k * k := by
  induction k with
  | zero => rfl
  | succ k ih => simp only [tri]; simp only [Nat.add_mul, Nat.mul_add]; omega

/-- Bounds the number of iterations still to come. -/
def measure (s : Bwd V C B) : Nat :=
  if s.stepGrad > 0 then (s.stepGrad - s.stepVal).toNat + tri s.stepGrad.toNat else 0

theorem bwd_measure (hM : (n : Int) < M) (hmax : maxSteps = some c → n ≤ c)
    (hbuf : BufferContract body vjp strip refill init n) {s : Bwd V C B} {G : Nat} (hG : 0 < G)
    (h : BwdInv M c n (fun j => strip (iter body j init)) body vjp add init gF b0 s G) :
    measure (bwdBody body vjp strip refill add M c maxSteps s) < measure s := by
  have hsG := h.stepGrad
  have hm : measure s = ((G : Int) - s.stepVal).toNat + tri G := by
    simp only [measure, hsG]; rw [if_pos (by omega)]; simp
  obtain ⟨sv, idx, hc⟩ := h.ctrl hG
  have hsv := hc.stepVal
  have hlt := hc.lt
  rcases bwd_step hM hmax hbuf hG h with ⟨h1, h2⟩ | ⟨h1, _, h3, h4⟩
  · by_cases hG' : 0 < G - 1
    · obtain ⟨sv', idx', hc'⟩ := h2.ctrl hG'
      have ht : tri G = tri (G - 1) + (G - 1) := by
        obtain ⟨k, rfl⟩ : ∃ k, G = k + 1 := ⟨G - 1, by omega⟩
        simp [tri]
      have h5 := h2.stepGrad
      have h6 := hc'.stepVal
      have h7 := hc'.lt
      rw [hm]
      simp only [measure, h5, h6]
      rw [if_pos (by omega)]
      simp only [Int.toNat_natCast]
      omega
    · have h5 := h2.stepGrad
      rw [hm]
      simp only [measure, h5]
      rw [if_neg (by omega)]
      omega
  · have h5 := h4.stepGrad
    rw [hm]
    simp only [measure, h5, h3]
    rw [if_pos (by omega)]
    simp only [Int.toNat_natCast]
    omega

end Checkpoint
end Verif
