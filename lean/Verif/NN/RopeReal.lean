import Verif.NN.Rope
import Mathlib.Analysis.SpecialFunctions.Trigonometric.Basic
import Mathlib.Analysis.SpecialFunctions.Pow.Real
import Mathlib.Algebra.BigOperators.Intervals
import Mathlib.Tactic.Ring
import Mathlib.Tactic.Linarith
import Mathlib.Tactic.NormNum
/-!
# Rotary embeddings over the reals

`rope_theta_leak` refutes C41 for modules of different `theta`. `rope_norm` and `rope_relative` are
C56: in exact arithmetic the module rotates, so that it keeps the length of every row, and the inner
product of two embedded rows depends only on the rows and on the difference of their positions.
-/

namespace Verif.Rope

/-- Exact arithmetic; there is a single dtype. -/
noncomputable def realOps : Ops ℝ Unit where
  ofNat n := n
  add := (· + ·)
  mul := (· * ·)
  div := (· / ·)
  pow := (· ^ ·)
  neg := (- ·)
  cos := Real.cos
  sin := Real.sin
  cast _ a := a

/-- The promotion rule with a single dtype. -/
def unitPromote : Unit → Unit → Option Unit := fun _ _ => some ()

/-- The inner product of two rows of width `e`. -/
noncomputable def dot (e : Nat) (a b : List ℝ) : ℝ :=
  ∑ j ∈ Finset.range e, (a[j]?.getD 0) * (b[j]?.getD 0)

/-! ## C41 fails between different `theta` -/

/-- The input of the witness: position 1 carries a one in coordinate 1. -/
noncomputable def leakInput : Arr ℝ Unit := ⟨(), 4, [[0, 0, 0, 0], [0, 1, 0, 0]]⟩

theorem leakInput_wf : leakInput.WF := by
  intro r hr; simp [leakInput] at hr; rcases hr with rfl | rfl <;> rfl

/-- Reading one entry out of a result. -/
noncomputable def peek (r : Except Err (Arr ℝ Unit)) (t j : Nat) : ℝ :=
  match r with
  | .ok a => (a.rows[t]?.getD [])[j]?.getD 0
  | .error _ => 0

theorem expected_leak (th : ℝ) : peek (expected realOps unitPromote ⟨4, th, ()⟩ leakInput) 1 1 =
    Real.cos (1 / th ^ ((2 : ℝ) / 4)) := by
  simp [peek, expected, leakInput, unitPromote, entry, realOps, angle]

/-- **C41 is false** between modules of different `theta`: a module with `theta = 1`, evaluated after
one with `theta = 16`, gives a different result than in a fresh process. -/
theorem rope_theta_leak :
    (call realOps unitPromote ⟨4, 1, ()⟩ leakInput
      (cacheAfter realOps [.call unitPromote ⟨4, 16, ()⟩ leakInput])).1 ≠
    (call realOps unitPromote ⟨4, 1, ()⟩ leakInput (cacheAfter realOps [])).1 := by
  intro h
  have h1 := rope_value_partial realOps unitPromote ⟨4, 1, ()⟩ rfl leakInput leakInput_wf []
    (by intro pr cfg' x hm; simp at hm)
  rw [h1] at h
  have h2 : (call realOps unitPromote ⟨4, 1, ()⟩ leakInput
      (cacheAfter realOps [.call unitPromote ⟨4, 16, ()⟩ leakInput])).1 =
      (call realOps unitPromote ⟨4, 16, ()⟩ leakInput (cacheAfter realOps [])).1 := by
    simp [cacheAfter, call, leakInput, lookup, Dict.get?, Dict.insert, precompute, unitPromote]
  rw [h2, rope_value_partial realOps unitPromote ⟨4, 16, ()⟩ rfl leakInput leakInput_wf []
    (by intro pr cfg' x hm; simp at hm)] at h
  have h3 := congrArg (fun r => peek r 1 1) h
  simp only [expected_leak] at h3
  have h4 : (16 : ℝ) ^ ((2 : ℝ) / 4) = 4 := by
    rw [show (16 : ℝ) = 4 ^ (2 : ℝ) by norm_num, ← Real.rpow_mul (by norm_num)]
    norm_num
  rw [h4, Real.one_rpow] at h3
  have hpi := Real.two_le_pi
  have h5 := Real.injOn_cos (⟨by norm_num, by linarith⟩ : (1 / 4 : ℝ) ∈ Set.Icc 0 Real.pi)
    (⟨by norm_num, by linarith⟩ : (1 / 1 : ℝ) ∈ Set.Icc 0 Real.pi) h3
  norm_num at h5

/-! ## C56: the module rotates -/

/-- A row of the output, by the frequencies. -/
theorem expected_row (cfg : Cfg ℝ Unit) (x y : Arr ℝ Unit)
    (h : expected realOps unitPromote cfg x = .ok y) (t : Nat) (r s : List ℝ)
    (hr : x.rows[t]? = some r) (hs : y.rows[t]? = some s) (j : Nat) (hj : j < cfg.embeddingSize) :
    s[j]?.getD 0 = entry realOps cfg () () (fun k => r[k]?.getD 0) t j := by
  simp only [expected] at h
  split at h
  · exact absurd h (by simp)
  · rename_i hw
    have hw : x.width = cfg.embeddingSize := by simpa using hw
    simp only [unitPromote, Except.ok.injEq] at h
    subst h
    simp only [List.getElem?_mapIdx, hr, Option.map_some, Option.some.injEq] at hs
    subst hs
    rw [List.getElem?_map, List.getElem?_range (by omega)]
    simp [realOps]

/-- The angle at position `t` of pair `i` is `t` times a frequency. -/
noncomputable def freq (cfg : Cfg ℝ Unit) (i : Nat) : ℝ :=
  1 / cfg.theta ^ (((2 * i : ℕ) : ℝ) / (cfg.embeddingSize : ℝ))

theorem dot_rows (cfg : Cfg ℝ Unit) (he : cfg.embeddingSize % 2 = 0) (x y x' y' : Arr ℝ Unit)
    (hx : expected realOps unitPromote cfg x = .ok y)
    (hx' : expected realOps unitPromote cfg x' = .ok y') (m n : Nat) (r s r' s' : List ℝ)
    (hr : x.rows[m]? = some r) (hs : y.rows[m]? = some s)
    (hr' : x'.rows[n]? = some r') (hs' : y'.rows[n]? = some s') :
    dot cfg.embeddingSize s s' = ∑ i ∈ Finset.range (cfg.embeddingSize / 2),
      ((r[i]?.getD 0 * r'[i]?.getD 0 +
          r[i + cfg.embeddingSize / 2]?.getD 0 * r'[i + cfg.embeddingSize / 2]?.getD 0) *
          Real.cos (((m : ℝ) - n) * freq cfg i) +
        (r[i]?.getD 0 * r'[i + cfg.embeddingSize / 2]?.getD 0 -
          r[i + cfg.embeddingSize / 2]?.getD 0 * r'[i]?.getD 0) *
          Real.sin (((m : ℝ) - n) * freq cfg i)) := by
  unfold dot
  obtain ⟨h, hh⟩ : ∃ h, cfg.embeddingSize = h + h := ⟨cfg.embeddingSize / 2, by omega⟩
  have hh2 : cfg.embeddingSize / 2 = h := by omega
  rw [Finset.sum_congr rfl (fun j hj => by
    rw [expected_row cfg x y hx m r s hr hs j (Finset.mem_range.mp hj),
      expected_row cfg x' y' hx' n r' s' hr' hs' j (Finset.mem_range.mp hj)])]
  rw [hh2, hh, Finset.sum_range_add, ← Finset.sum_add_distrib]
  refine Finset.sum_congr rfl fun i hi => ?_
  have hi := Finset.mem_range.mp hi
  have h1 : ¬ h + i < h := by omega
  have h2 : h + i - h = i := by omega
  simp only [entry, hh2, hi, if_true, h1, if_false, h2, realOps, angle]
  rw [sub_mul, Real.cos_sub, Real.sin_sub]
  simp only [freq, hh, Nat.cast_mul, Nat.cast_one, Nat.cast_ofNat, Nat.add_comm h i]
  ring

/-- **C56** (relative position). Embedding the same query row at positions `m` and `m + k` and the
same key row at positions `n` and `n + k` gives the same inner product. The four rows may belong to
different calls, evaluated after any histories of calls sharing the module's `theta`. -/
theorem rope_relative (cfg : Cfg ℝ Unit) (he : cfg.embeddingSize % 2 = 0)
    (h₁ h₂ h₃ h₄ : List (Event ℝ Unit)) (hs₁ : SameTheta cfg h₁) (hs₂ : SameTheta cfg h₂)
    (hs₃ : SameTheta cfg h₃) (hs₄ : SameTheta cfg h₄)
    (q k q' k' oq ok oq' ok' : Arr ℝ Unit) (wq : q.WF) (wk : k.WF) (wq' : q'.WF) (wk' : k'.WF)
    (eq : (call realOps unitPromote cfg q (cacheAfter realOps h₁)).1 = .ok oq)
    (ek : (call realOps unitPromote cfg k (cacheAfter realOps h₂)).1 = .ok ok)
    (eq' : (call realOps unitPromote cfg q' (cacheAfter realOps h₃)).1 = .ok oq')
    (ek' : (call realOps unitPromote cfg k' (cacheAfter realOps h₄)).1 = .ok ok')
    (m n d : Nat) (rq rk sq sk sq' sk' : List ℝ)
    (hq : q.rows[m]? = some rq) (hq' : q'.rows[m + d]? = some rq)
    (hk : k.rows[n]? = some rk) (hk' : k'.rows[n + d]? = some rk)
    (gq : oq.rows[m]? = some sq) (gq' : oq'.rows[m + d]? = some sq')
    (gk : ok.rows[n]? = some sk) (gk' : ok'.rows[n + d]? = some sk') :
    dot cfg.embeddingSize sq sk = dot cfg.embeddingSize sq' sk' := by
  rw [rope_value_partial _ _ _ he _ (by assumption) _ (by assumption)] at eq ek eq' ek'
  rw [dot_rows cfg he q oq k ok eq ek m n rq sq rk sk hq gq hk gk,
    dot_rows cfg he q' oq' k' ok' eq' ek' (m + d) (n + d) rq sq' rk sk' hq' gq' hk' gk']
  push_cast
  have : (m : ℝ) + d - (n + d) = m - n := by ring
  rw [this]

/-- **C56** (length). Embedding keeps the squared length of every row. -/
theorem rope_norm (cfg : Cfg ℝ Unit) (he : cfg.embeddingSize % 2 = 0)
    (h : List (Event ℝ Unit)) (hs : SameTheta cfg h) (x y : Arr ℝ Unit) (wx : x.WF)
    (hy : (call realOps unitPromote cfg x (cacheAfter realOps h)).1 = .ok y) (t : Nat)
    (r s : List ℝ) (hr : x.rows[t]? = some r) (gs : y.rows[t]? = some s) :
    dot cfg.embeddingSize s s = dot cfg.embeddingSize r r := by
  rw [rope_value_partial _ _ _ he _ wx _ hs] at hy
  rw [dot_rows cfg he x y x y hy hy t t r s r s hr gs hr gs]
  unfold dot
  obtain ⟨k, hk⟩ : ∃ k, cfg.embeddingSize = k + k := ⟨cfg.embeddingSize / 2, by omega⟩
  have hk2 : cfg.embeddingSize / 2 = k := by omega
  rw [hk2, hk, Finset.sum_range_add, ← Finset.sum_add_distrib]
  refine Finset.sum_congr rfl fun i _ => ?_
  simp [Nat.add_comm k i]

/-- The first row (position zero) is returned unchanged. -/
theorem rope_zero (cfg : Cfg ℝ Unit) (he : cfg.embeddingSize % 2 = 0)
    (h : List (Event ℝ Unit)) (hs : SameTheta cfg h) (x y : Arr ℝ Unit) (wx : x.WF)
    (hy : (call realOps unitPromote cfg x (cacheAfter realOps h)).1 = .ok y) :
    y.rows[0]? = x.rows[0]? := by
  rw [rope_value_partial _ _ _ he _ wx _ hs] at hy
  simp only [expected] at hy
  split at hy
  · exact absurd hy (by simp)
  · rename_i hw
    simp only [unitPromote, Except.ok.injEq] at hy
    subst hy
    cases hx : x.rows with
    | nil => rfl
    | cons r rs =>
      have hl : r.length = x.width := wx r (by rw [hx]; exact List.mem_cons_self ..)
      simp only [List.mapIdx_cons, List.getElem?_cons_zero, Option.some.injEq]
      apply List.ext_getElem
      · simp [hl]
      intro j h1 h2
      simp [entry, realOps, angle, List.getElem?_eq_getElem h2]

/-! ## The hypotheses are met -/

/-- A history with two other modules in it, one of another size and one of the same `theta`. -/
noncomputable def exHistory : List (Event ℝ Unit) :=
  [.call unitPromote ⟨2, 7, ()⟩ ⟨(), 2, [[1, 2]]⟩, .clear,
   .call unitPromote ⟨2, 5, ()⟩ ⟨(), 2, [[1, 2]]⟩, .call unitPromote ⟨4, 10000, ()⟩ ⟨(), 4, []⟩]

theorem exHistory_ok : SameTheta ⟨4, 10000, ()⟩ exHistory := by
  intro pr cfg' x hm he _
  simp only [exHistory, List.mem_cons, Event.call.injEq, List.not_mem_nil, or_false,
    reduceCtorEq, false_or] at hm
  rcases hm with ⟨_, rfl, _⟩ | ⟨_, rfl, _⟩ | ⟨_, rfl, _⟩
  · simp at he
  · simp at he
  · rfl

example : (call realOps unitPromote ⟨4, 10000, ()⟩ leakInput (cacheAfter realOps exHistory)).1 =
    expected realOps unitPromote ⟨4, 10000, ()⟩ leakInput :=
  rope_value_partial _ _ _ rfl _ leakInput_wf _ exHistory_ok

example : ∃ y, (call realOps unitPromote ⟨4, 10000, ()⟩ leakInput
    (cacheAfter realOps exHistory)).1 = .ok y := by
  rw [rope_value_partial _ _ _ rfl _ leakInput_wf _ exHistory_ok]
  exact ⟨_, rfl⟩

end Verif.Rope
