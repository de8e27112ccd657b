import Verif.Loop.Perturb.Model
import Verif.Loop.Checkpoint.Props
import Mathlib.Tactic.FinCases

/-!
# Cotangents are computed for as few leaves as possible, and gradients are exact (C74)
-/

namespace Verif
namespace Perturb

open Checkpoint

variable {n m : Nat} {W : Type} {V : Fin n → Type} {U : Fin m → Type} [∀ i, AddCommMonoid (V i)] [∀ q, AddCommMonoid (U q)]

/-! ## Specification -/

/-- The user's body makes a leaf of its output depend on something perturbed. -/
def Body.Perturbs (b : Body n m) (pb : Flags m) (pv : Flags n) (i : Fin n) : Prop :=
  if b.buffer i then true ∈ b.writes pb pv i else b.out pb pv i = true

/-- A set of leaves which holds every inexact leaf that depends on it. -/
def Closed (b : Body n m) (pb : Flags m) (pv : Flags n) : Prop :=
  ∀ i, b.inexact i = true → b.Perturbs pb pv i → pv i = true

/-- A set of leaves such that a cotangent on them comes back to them only. -/
def BackClosed (b : Body n m) (pv c : Flags n) : Prop := ∀ j, pv j = true → b.back pv c j = true → c j = true

/-- The custom rules are run if there is something to record. -/
structure Traced (b : Body n m) : Prop where
  tracer : ∀ pb pv i, b.inexact i = true → (pv i = true ∨ b.Perturbs pb pv i) → b.tracer pb pv = true
  hook : ∀ pv c j, pv j = true → (c j = true ∨ b.back pv c j = true) → b.hook pv c = true

/-- More perturbed inputs give more perturbed outputs. -/
structure Monotone (b : Body n m) : Prop where
  out : ∀ pb pv pv' i, (∀ j, pv j = true → pv' j = true) → b.Perturbs pb pv i → b.Perturbs pb pv' i
  back : ∀ pv c c' j, (∀ i, c i = true → c' i = true) → b.back pv c j = true → b.back pv c' j = true

/-- Where there is a derivative, tracing sees a dependency. -/
structure Sound (b : Body n m) (D : Deriv W V U) : Prop where
  user : ∀ w i j pb pv, D.user w i j ≠ 0 → pv j = true → b.inexact i = true ∧ b.Perturbs pb pv i
  fn : ∀ w i q pb pv, D.fn w i q ≠ 0 → pb q = true → b.inexact i = true ∧ b.Perturbs pb pv i
  back : ∀ w i j pv c, D.user w i j ≠ 0 → pv j = true → c i = true → b.back pv c j = true

/-- The whole derivative, for all leaves. -/
def fullVjp (D : Deriv W V U) (w : W) (g : ∀ i, V i) : (∀ q, U q) × ∀ j, V j :=
  (fun q => ∑ i, D.fn w i q (g i), fun j => D.keep w j (g j) + ∑ i, D.user w i j (g i))

/-- `None` stands for zero. -/
def dense {k : Nat} {X : Fin k → Type} [∀ i, AddCommMonoid (X i)] (g : Cts X) : ∀ i, X i := fun i => (g i).getD 0

/-- The derivative as a map of tangents. -/
structure Jvp (W : Type) (V : Fin n → Type) (U : Fin m → Type) [∀ i, AddCommMonoid (V i)] [∀ q, AddCommMonoid (U q)] where
  user : W → ∀ i j, V j →+ V i
  keep : W → ∀ i, V i →+ V i
  fn : W → ∀ i q, U q →+ V i

/-- Where there is a derivative, tracing sees a dependency. -/
structure SoundJvp (b : Body n m) (J : Jvp W V U) : Prop where
  user : ∀ w i j pb pv, J.user w i j ≠ 0 → pv j = true → b.inexact i = true ∧ b.Perturbs pb pv i
  fn : ∀ w i q pb pv, J.fn w i q ≠ 0 → pb q = true → b.inexact i = true ∧ b.Perturbs pb pv i

/-- The tangent after some steps of the loop, for all leaves. -/
def pushforward (body : W → W) (J : Jvp W V U) (s : ∀ q, U q) : Nat → W → (∀ i, V i) → ∀ i, V i
  | 0, _, t => t
  | k + 1, w, t => pushforward body J s k (body w) fun i =>
      J.keep w i (t i) + ∑ j, J.user w i j (t j) + ∑ q, J.fn w i q (s q)

/-! ## Tangents and cotangents of the rewritten body -/

theorem foldl_set (l : List Bool) (t : Bool) : l.foldl setTangent t = true ↔ t = true ∨ true ∈ l := by
  induction l generalizing t with
  | nil => simp
  | cons x l ih =>
    rw [List.foldl_cons, ih]
    cases t <;> cases x <;> simp [setTangent]

theorem tangent_iff (b : Body n m) (pb : Flags m) (pv : Flags n) (i : Fin n) :
    b.tangent pb pv i = true ↔ pv i = true ∨ b.Perturbs pb pv i := by
  rw [Body.tangent, Body.Perturbs]
  by_cases h : b.buffer i = true
  · rw [if_pos h, if_pos h, foldl_set]
  · rw [if_neg h, if_neg h, selectTangent]
    cases b.out pb pv i <;> cases pv i <;> simp

theorem cotangent_iff (b : Body n m) (pv c : Flags n) (j : Fin n) (h : pv j = true) :
    b.cotangent pv c j = true ↔ c j = true ∨ b.back pv c j = true := by
  rw [Body.cotangent, h]
  by_cases hb : b.buffer j = true
  · rw [if_pos hb, setCotangent]
    cases c j <;> cases b.back pv c j <;> simp
  · rw [if_neg hb, selectCotangent]
    cases c j <;> cases b.back pv c j <;> simp

/-! ## The first fixed point -/

theorem loop_spec {α : Type} {round : α → Except Err (Round α)} (Inv Post : α → Prop) (μ : α → Nat)
    (h : ∀ a, Inv a → (∃ r, round a = .ok (.done r) ∧ Post r) ∨ ∃ a', round a = .ok (.next a') ∧ Inv a' ∧ μ a' < μ a)
    (fuel : Nat) (a : α) (ha : Inv a) (hf : μ a < fuel) : ∃ r, loop round fuel a = some (.ok r) ∧ Post r := by
  induction fuel generalizing a with
  | zero => omega
  | succ k ih =>
    rw [loop]
    rcases h a ha with ⟨r, h1, h2⟩ | ⟨a', h1, h2, h3⟩
    · rw [h1]
      exact ⟨r, rfl, h2⟩
    · rw [h1]
      exact ih a' h2 (by omega)

/-- How many leaves do not have the flag. -/
def missing (p : Flags n) : Nat := (Finset.univ.filter fun i => p i = false).card

theorem missing_le (p : Flags n) : missing p ≤ n := by
  rw [missing]
  exact (Finset.card_le_univ _).trans (by simp)

theorem missing_lt {p p' : Flags n} (h : ∀ i, p i = true → p' i = true) (i : Fin n) (h1 : p i = false) (h2 : p' i = true) :
    missing p' < missing p := by
  refine Finset.card_lt_card ⟨?_, ?_⟩
  · intro j hj
    simp only [Finset.mem_filter, Finset.mem_univ, true_and] at hj ⊢
    cases hp : p j with
    | false => rfl
    | true => rw [h j hp] at hj; cases hj
  · intro hs
    have := hs (x := i) (by simp [h1])
    simp [h2] at this

theorem newPerturb_fix (b : Body n m) (pb : Flags m) (pv : Flags n) (hp : ∀ i, pv i = true → b.inexact i = true) (i : Fin n) :
    fixNone (pv i) (newPerturb b pb pv i) = some (b.inexact i && b.tangent pb pv i) := by
  rw [fixNone, newPerturb]
  cases hi : b.inexact i with
  | false =>
    have : pv i = false := by
      cases h : pv i with
      | false => rfl
      | true => rw [hp i h] at hi; cases hi
    simp [this]
  | true => simp

theorem perturbRound_eq (b : Body n m) (strict : Bool) (pb : Flags m) (pv : Flags n)
    (hp : ∀ i, pv i = true → b.inexact i = true) (ht : b.tracer pb pv = true) :
    (Closed b pb pv → perturbRound b strict pb pv = .ok (.done pv)) ∧
    (¬ Closed b pb pv → ∃ pv', perturbRound b strict pb pv = .ok (.next pv') ∧
      ∀ i, pv' i = true ↔ pv i = true ∨ (b.inexact i = true ∧ b.Perturbs pb pv i)) := by
  have key : ∀ i, (some (pv i) = fixNone (pv i) (newPerturb b pb pv i)) ↔
      (b.inexact i = true → b.Perturbs pb pv i → pv i = true) := by
    intro i
    rw [newPerturb_fix b pb pv hp, Option.some.injEq]
    have h1 := tangent_iff b pb pv i
    have h2 := hp i
    cases h3 : pv i <;> cases h4 : b.inexact i <;> cases h5 : b.tangent pb pv i <;> simp_all
  have hs : ∀ i, (fixNone (pv i) (newPerturb b pb pv i)).isSome = true := by
    intro i
    rw [newPerturb_fix b pb pv hp]
    rfl
  constructor
  · intro hc
    rw [perturbRound, if_neg (by rw [ht]; simp), if_pos hs, if_pos fun i => (key i).2 (hc i)]
  · intro hc
    refine ⟨_, by rw [perturbRound, if_neg (by rw [ht]; simp), if_pos hs, if_neg fun h => hc fun i => (key i).1 (h i)], ?_⟩
    intro i
    rw [newPerturb_fix b pb pv hp, Option.getD_some]
    have h1 := tangent_iff b pb pv i
    have h2 := hp i
    cases h3 : pv i <;> cases h4 : b.inexact i <;> cases h5 : b.tangent pb pv i <;> simp_all

/-- The fixed point is reached, with one round for each leaf at most and one more; it is the least set of leaves that holds
those that are perturbed at the start, and every inexact leaf which depends on it. -/
theorem perturb_least (b : Body n m) (hT : Traced b) (pb : Flags m) (p0 : Flags n)
    (hp : ∀ i, p0 i = true → b.inexact i = true) (fuel : Nat) (hf : n < fuel) :
    ∃ pv, resolvePerturb b false fuel pb p0 = some (.ok pv) ∧ (∀ i, p0 i = true → pv i = true) ∧
      (∀ i, pv i = true → b.inexact i = true) ∧ Closed b pb pv ∧
      (Monotone b → ∀ q : Flags n, (∀ i, p0 i = true → q i = true) → Closed b pb q → ∀ i, pv i = true → q i = true) := by
  refine loop_spec (fun pv => (∀ i, p0 i = true → pv i = true) ∧ (∀ i, pv i = true → b.inexact i = true) ∧
      (Monotone b → ∀ q : Flags n, (∀ i, p0 i = true → q i = true) → Closed b pb q → ∀ i, pv i = true → q i = true)) _
    missing ?_ fuel p0 ⟨fun _ h => h, hp, fun _ q hq _ => hq⟩ (by have := missing_le p0; omega)
  rintro pv ⟨h1, h2, h3⟩
  cases ht : b.tracer pb pv with
  | false =>
    refine .inl ⟨pv, by rw [perturbRound, if_pos ht]; rfl, h1, h2, ?_, h3⟩
    intro i hi hpi
    rw [hT.tracer pb pv i hi (.inr hpi)] at ht
    cases ht
  | true =>
    obtain ⟨e1, e2⟩ := perturbRound_eq b false pb pv h2 ht
    by_cases hc : Closed b pb pv
    · exact .inl ⟨pv, e1 hc, h1, h2, hc, h3⟩
    · obtain ⟨pv', e, hpv'⟩ := e2 hc
      refine .inr ⟨pv', e, ⟨fun i hi => (hpv' i).2 (.inl (h1 i hi)), ?_, ?_⟩, ?_⟩
      · intro i hi
        rcases (hpv' i).1 hi with h | h
        · exact h2 i h
        · exact h.1
      · intro hm q hq hcq i hi
        rcases (hpv' i).1 hi with h | h
        · exact h3 hm q hq hcq i h
        · exact hcq i h.1 (hm.out pb pv q i (h3 hm q hq hcq) h.2)
      · unfold Closed at hc
        push Not at hc
        obtain ⟨i, hi1, hi2, hi3⟩ := hc
        exact missing_lt (fun i hi => (hpv' i).2 (.inl hi)) i (by simpa using hi3) ((hpv' i).2 (.inr ⟨hi1, hi2⟩))

/-- The version in the backward pass, which asserts that the rule was run, does the same if anything is perturbed. -/
theorem perturb_strict (b : Body n m) (hT : Traced b) (pb : Flags m) (p0 : Flags n)
    (hp : ∀ i, p0 i = true → b.inexact i = true) (h : ∃ i, b.inexact i = true ∧ (p0 i = true ∨ b.Perturbs pb p0 i)) (fuel : Nat) :
    resolvePerturb b true fuel pb p0 = resolvePerturb b false fuel pb p0 := by
  have key : ∀ (fuel : Nat) (pv : Flags n), (∀ i, pv i = true → b.inexact i = true) →
      (∃ i, b.inexact i = true ∧ (pv i = true ∨ b.Perturbs pb pv i)) →
      loop (perturbRound b true pb) fuel pv = loop (perturbRound b false pb) fuel pv := by
    intro fuel
    induction fuel with
    | zero => intros; rfl
    | succ k ih =>
      intro pv hpv ⟨i, hi⟩
      have ht := hT.tracer pb pv i hi.1 hi.2
      obtain ⟨a1, a2⟩ := perturbRound_eq b true pb pv hpv ht
      have e : perturbRound b true pb pv = perturbRound b false pb pv := by
        simp only [perturbRound, ht, Bool.true_eq_false, if_false]
      rw [loop, loop, ← e]
      by_cases hc : Closed b pb pv
      · rw [a1 hc]
      · obtain ⟨pv', e', hpv'⟩ := a2 hc
        rw [e']
        refine ih pv' ?_ ?_
        · intro i hi
          rcases (hpv' i).1 hi with h | h
          · exact hpv i h
          · exact h.1
        · refine ⟨i, hi.1, .inl ((hpv' i).2 ?_)⟩
          rcases hi.2 with h | h
          · exact .inl h
          · exact .inr ⟨hi.1, h⟩
  exact key fuel p0 hp h

/-! ## The second fixed point -/

theorem materialise_eq (inexact zero : Flags n) (g : Cts V) (h1 : ∀ i, zero i = true → g i = none)
    (h2 : ∀ i, zero i = false → inexact i = true) :
    ∃ g', materialise inexact zero g = .ok g' ∧ (∀ i, (g' i).isSome = !zero i) ∧ dense g' = dense g := by
  have e : ∀ i, materialiseLeaf (inexact i) (zero i) (g i) = .ok (if zero i then none else some (dense g i)) := by
    intro i
    cases hz : zero i with
    | true => rw [h1 i hz]; simp [materialiseLeaf]
    | false =>
      rw [h2 i hz, dense]
      cases g i <;> simp [materialiseLeaf]
  refine ⟨_, by rw [materialise, if_pos fun i => by rw [e]; rfl], ?_, ?_⟩
  · intro i
    rw [e]
    cases zero i <;> rfl
  · funext i
    rw [dense, e, valueOf]
    cases hz : zero i with
    | true => rw [dense, h1 i hz]; rfl
    | false => rfl

/-- The second fixed point is reached; the leaves which then have cotangents are the least set that holds those with a
cotangent at the start, and those that a cotangent comes back to. -/
theorem zeros_greatest (b : Body n m) (hT : Traced b) (pv : Flags n) (hpv : ∀ i, pv i = true → b.inexact i = true)
    (g : Cts V) (hg : ∀ i, (g i).isSome = true → pv i = true) (hne : ∃ i, (g i).isSome = true) (fuel : Nat) (hf : n < fuel) :
    ∃ zero, resolveZeros b fuel pv g = some (.ok zero) ∧ (∀ i, (g i).isSome = true → zero i = false) ∧
      (∀ i, zero i = false → pv i = true) ∧ BackClosed b pv (fun i => !zero i) ∧
      (Monotone b → ∀ c : Flags n, (∀ i, (g i).isSome = true → c i = true) → BackClosed b pv c →
        ∀ i, zero i = false → c i = true) := by
  refine Exists.elim (loop_spec (round := zeroRound b pv)
    (fun s : Flags n × Cts V => (∀ i, (s.2 i).isSome = !s.1 i) ∧ (∀ i, (g i).isSome = true → s.1 i = false) ∧
      (∀ i, s.1 i = false → pv i = true) ∧
      (Monotone b → ∀ c : Flags n, (∀ i, (g i).isSome = true → c i = true) → BackClosed b pv c →
        ∀ i, s.1 i = false → c i = true))
    (fun s => (∀ i, (g i).isSome = true → s.1 i = false) ∧ (∀ i, s.1 i = false → pv i = true) ∧
      BackClosed b pv (fun i => !s.1 i) ∧
      (Monotone b → ∀ c : Flags n, (∀ i, (g i).isSome = true → c i = true) → BackClosed b pv c →
        ∀ i, s.1 i = false → c i = true))
    (fun s => missing fun i => !s.1 i) ?_ fuel (fun i => (g i).isNone, g) ?_
    (by have := missing_le fun i => !(g i).isNone; exact lt_of_le_of_lt this hf)) ?_
  · rintro ⟨zero, g'⟩ ⟨h1, h2, h3, h4⟩
    simp only at h1 h2 h3 h4
    obtain ⟨i0, hi0⟩ := hne
    have hc : (fun i => (g' i).isSome) = fun i => !zero i := funext h1
    have hz0 := h2 i0 hi0
    have hh : b.hook pv (fun i => !zero i) = true := hT.hook pv _ i0 (h3 i0 hz0) (.inl (by simp [hz0]))
    have hco : ∀ j, (pv j && b.cotangent pv (fun i => !zero i) j) = true ↔
        pv j = true ∧ (zero j = false ∨ b.back pv (fun i => !zero i) j = true) := by
      intro j
      rw [Bool.and_eq_true]
      constructor
      · rintro ⟨a1, a2⟩
        refine ⟨a1, ?_⟩
        rcases (cotangent_iff b pv _ j a1).1 a2 with h | h
        · exact .inl (by simpa using h)
        · exact .inr h
      · rintro ⟨a1, a2⟩
        refine ⟨a1, (cotangent_iff b pv _ j a1).2 ?_⟩
        rcases a2 with h | h
        · exact .inl (by simp [h])
        · exact .inr h
    rw [zeroRound, if_pos h1]
    simp only [hc]
    rw [if_neg (by rw [hh]; simp)]
    by_cases he : zero = fun j => !(pv j && b.cotangent pv (fun i => !zero i) j)
    · rw [if_pos he]
      refine .inl ⟨_, rfl, h2, h3, ?_, h4⟩
      intro j hj hb
      have := (hco j).2 ⟨hj, .inr hb⟩
      have e := congrFun he j
      simp only at e ⊢
      rw [e, this]
      rfl
    · rw [if_neg he]
      have hnew : ∀ i, (zero i && !(pv i && b.cotangent pv (fun i => !zero i) i)) = false ↔
          zero i = false ∨ (pv i = true ∧ b.back pv (fun i => !zero i) i = true) := by
        intro i
        have := hco i
        cases hz : zero i with
        | false => simp
        | true =>
          rw [hz] at this
          simp only [Bool.true_and, Bool.not_eq_false']
          rw [this]
          simp
      obtain ⟨g2, e2, e3, e4⟩ := materialise_eq (V := V) b.inexact
        (fun i => zero i && !(pv i && b.cotangent pv (fun i => !zero i) i)) g' (by
          intro i hi
          simp only [Bool.and_eq_true] at hi
          have := h1 i
          rw [hi.1] at this
          simpa using this) (by
          intro i hi
          rcases (hnew i).1 hi with h | h
          · exact hpv i (h3 i h)
          · exact hpv i h.1)
      rw [e2]
      refine .inr ⟨_, rfl, ⟨e3, ?_, ?_, ?_⟩, ?_⟩
      · intro i hi
        exact (hnew i).2 (.inl (h2 i hi))
      · intro i hi
        rcases (hnew i).1 hi with h | h
        · exact h3 i h
        · exact h.1
      · intro hm c hc1 hc2 i hi
        rcases (hnew i).1 hi with h | h
        · exact h4 hm c hc1 hc2 i h
        · exact hc2 i h.1 (hm.back pv _ c i (fun i hi => h4 hm c hc1 hc2 i (by simpa using hi)) h.2)
      · have : ∃ j, zero j ≠ !(pv j && b.cotangent pv (fun i => !zero i) j) := by
          by_contra hn
          push Not at hn
          exact he (funext hn)
        obtain ⟨j, hj⟩ := this
        have hzj : zero j = true := by
          cases hz : zero j with
          | true => rfl
          | false =>
            exfalso
            apply hj
            rw [(hco j).2 ⟨h3 j hz, .inl hz⟩, hz]
            rfl
        have hnj : (zero j && !(pv j && b.cotangent pv (fun i => !zero i) j)) = false := by
          rw [hzj]
          rw [hzj] at hj
          simpa using hj
        refine missing_lt ?_ j (by simp [hzj]) (by simp only [hnj]; rfl)
        intro i hi
        have hz : zero i = false := by simpa using hi
        simp only [(hnew i).2 (.inl hz)]
        rfl
  · refine ⟨fun i => by simp only; cases g i <;> rfl, fun i hi => ?_, fun i hi => hg i ?_, ?_⟩
    · cases h : g i with
      | none => rw [h] at hi; cases hi
      | some a => simp [h]
    · cases h : g i with
      | none => simp [h] at hi
      | some a => rfl
    · intro _ c hc _ i hi
      refine hc i ?_
      cases h : g i with
      | none => simp [h] at hi
      | some a => rfl
  · rintro ⟨zero, g'⟩ ⟨h1, h2, h3, h4, h5⟩
    exact ⟨zero, by rw [resolveZeros, h1]; rfl, h2, h3, h4, h5⟩

/-! ## Gradients -/

theorem hom_zero {A B : Type} [AddCommMonoid A] [AddCommMonoid B] {f : A →+ B} (h : f ≠ 0 → False) (x : A) : f x = 0 := by
  by_cases hf : f = 0
  · rw [hf]; rfl
  · exact absurd hf fun h' => h h'

/-- Pulling back the cotangents of the leaves that were found gives the same as pulling back all of them. -/
theorem cut_full {b : Body n m} {D : Deriv W V U} (hS : Sound b D) {pb : Flags m} {pv zero : Flags n}
    (hc : Closed b pb pv) (hb : ∀ w i j, pv j = true → zero i = false → D.user w i j ≠ 0 → zero j = false)
    (body : W → W) (g : Cts V) (gf : ∀ i, V i) (hg : ∀ i, (g i).isSome = !zero i) (hgf : ∀ i, pv i = true → dense g i = gf i)
    (k : Nat) (w : W) :
    let r := backprop body (cutVjp D pb) addCts k w g (gradFinalBody pb)
    let f := backprop body (fullVjp D) (· + ·) k w gf 0
    (∀ i, (r.1 i).isSome = !zero i) ∧ (∀ i, pv i = true → dense r.1 i = f.1 i) ∧
      ∀ q, r.2 q = if pb q then some (f.2 q) else none := by
  induction k generalizing w with
  | zero => exact ⟨hg, hgf, fun q => rfl⟩
  | succ k ih =>
    obtain ⟨h1, h2, h3⟩ := ih (body w)
    simp only [backprop]
    generalize backprop body (cutVjp D pb) addCts k (body w) g (gradFinalBody pb) = r at h1 h2 h3
    generalize backprop body (fullVjp D) (· + ·) k (body w) gf 0 = f at h2 h3
    have hsum : ∀ j, pv j = true → ∑ i, D.user w i j ((r.1 i).getD 0) = ∑ i, D.user w i j (f.1 i) := by
      intro j hj
      apply Finset.sum_congr rfl
      intro i _
      by_cases hu : D.user w i j = 0
      · rw [hu]; rfl
      · obtain ⟨e1, e2⟩ := hS.user w i j pb pv hu hj
        rw [← h2 i (hc i e1 e2)]
        rfl
    refine ⟨?_, ?_, ?_⟩
    · intro j
      simp only [cutVjp, Option.isSome_map]
      exact h1 j
    · intro j hj
      simp only [cutVjp, fullVjp, dense]
      rw [← hsum j hj]
      have hd := h2 j hj
      rw [dense] at hd
      cases hzj : zero j with
      | false =>
        have := h1 j
        rw [hzj] at this
        obtain ⟨ct, hct⟩ := Option.isSome_iff_exists.1 this
        rw [hct] at hd
        rw [hct, ← hd]
        rfl
      | true =>
        have : r.1 j = none := by
          have := h1 j
          rw [hzj] at this
          simpa using this
        rw [this] at hd
        rw [this, ← hd]
        simp only [Option.map_none, Option.getD_none, map_zero, zero_add]
        symm
        apply Finset.sum_eq_zero
        intro i _
        cases hzi : zero i with
        | true =>
          have : r.1 i = none := by
            have := h1 i
            rw [hzi] at this
            simpa using this
          rw [this]
          simp
        | false =>
          refine hom_zero (fun hu => ?_) _
          rw [hb w i j hj hzi hu] at hzj
          cases hzj
    · intro q
      simp only [addCts, cutVjp, h3]
      cases hq : pb q with
      | false => rfl
      | true =>
        simp only [if_true, fullVjp, Pi.add_apply]
        congr 2
        apply Finset.sum_congr rfl
        intro i _
        by_cases hu : D.fn w i q = 0
        · rw [hu]; rfl
        · obtain ⟨e1, e2⟩ := hS.fn w i q pb pv hu hq
          rw [← h2 i (hc i e1 e2)]
          rfl

theorem cutVjp_eq (D : Deriv W V U) (pb : Flags m) (w : W) (g : Cts V) :
    cutVjp D pb w g = (fun q => if pb q then some ((fullVjp D w (dense g)).1 q) else none,
      fun j => (g j).map fun _ => (fullVjp D w (dense g)).2 j) := by
  rw [cutVjp, Prod.mk.injEq]
  refine ⟨rfl, ?_⟩
  funext j
  simp only [fullVjp, dense]
  cases g j <;> rfl

/-- **C74.** The backward pass never raises, and returns for each perturbed leaf of the initial value and of what the body closes
over the cotangent that differentiating the unrolled loop with respect to everything gives. -/
theorem gradient_exact (b : Body n m) (D : Deriv W V U) (hT : Traced b) (hS : Sound b D) (pb : Flags m) (p0 : Flags n)
    (hp : ∀ i, p0 i = true → b.inexact i = true)
    (hne : ∃ i, b.inexact i = true ∧ (p0 i = true ∨ b.Perturbs pb p0 i)) (fuel : Nat) (hf : n < fuel) (gF : Cts V)
    {X : Type} (cond : W → Bool) (body : W → W) (strip : W → X) (refill : X → W) (M : Int) (c : Nat) (maxSteps : Option Nat)
    (fill : X) (init : W) (k : Nat) (hc : 1 ≤ c) (hM : (k : Int) < M) (hmax : ∀ m, maxSteps = some m → k ≤ m)
    (hbuf : BufferContract body (fullVjp D) strip refill init k)
    (s : Fwd W X) (hfwd : WhileRuns (fwdCond cond) (fwdBody body strip c maxSteps) k (fwdInit M c fill init) s) :
    let exact := backprop body (fullVjp D) (· + ·) k init (dense gF) 0
    (prepare b fuel pb p0 gF = some (.ok none) ∧ (∀ j, p0 j = true → exact.1 j = 0) ∧ ∀ q, pb q = true → exact.2 q = 0) ∨
    ∃ g N t, prepare b fuel pb p0 gF = some (.ok (some g)) ∧
      WhileRuns bwdCond (bwdBody body (cutVjp D pb) strip refill addCts M c maxSteps) N
        (bwdInit M c maxSteps (fwdFinish c maxSteps s) g (gradFinalBody pb)) t ∧
      (∀ j, p0 j = true → dense t.gradVal j = exact.1 j) ∧ (∀ q, pb q = true → t.gradBody q = some (exact.2 q)) ∧
      ∀ q, pb q = false → t.gradBody q = none := by
  intro exact
  obtain ⟨pv, e1, h1, h2, h3, -⟩ := perturb_least b hT pb p0 hp fuel hf
  rw [← perturb_strict b hT pb p0 hp hne fuel] at e1
  have hd : ∀ i, pv i = true → dense (fun i => if pv i then gF i else none) i = dense gF i := by
    intro i hi
    simp [dense, hi]
  by_cases hn : ∀ i, ((if pv i then gF i else none : Option (V i))).isNone = true
  · left
    have hn' : ∀ i, pv i = true → dense gF i = 0 := by
      intro i hi
      have := hn i
      rw [if_pos hi, Option.isNone_iff_eq_none] at this
      rw [dense, this]
      rfl
    obtain ⟨a1, a2, a3⟩ := cut_full hS (zero := fun _ => true) h3 (fun _ _ _ _ h => by cases h) body
      (fun _ => none) (dense gF) (fun _ => rfl) (fun i hi => by rw [hn' i hi]; rfl) k init
    have hz : ∀ (k : Nat) (w : W), (∀ i, pv i = true → (backprop body (fullVjp D) (· + ·) k w (dense gF) 0).1 i = 0) ∧
        ∀ q, pb q = true → (backprop body (fullVjp D) (· + ·) k w (dense gF) 0).2 q = 0 := by
      intro k
      induction k with
      | zero => exact fun w => ⟨hn', fun _ _ => rfl⟩
      | succ k ih =>
        intro w
        obtain ⟨b1, b2⟩ := ih (body w)
        simp only [backprop, fullVjp, Pi.add_apply]
        refine ⟨?_, ?_⟩
        · intro j hj
          rw [b1 j hj, map_zero, zero_add]
          apply Finset.sum_eq_zero
          intro i _
          by_cases hu : D.user w i j = 0
          · rw [hu]; rfl
          · obtain ⟨e1, e2⟩ := hS.user w i j pb pv hu hj
            rw [b1 i (h3 i e1 e2), map_zero]
        · intro q hq
          rw [b2 q hq, zero_add]
          apply Finset.sum_eq_zero
          intro i _
          by_cases hu : D.fn w i q = 0
          · rw [hu]; rfl
          · obtain ⟨e1, e2⟩ := hS.fn w i q pb pv hu hq
            rw [b1 i (h3 i e1 e2), map_zero]
    refine ⟨?_, fun j hj => (hz k init).1 j (h1 j hj), (hz k init).2⟩
    rw [prepare, e1]
    simp only
    rw [if_pos hn]
  · right
    have hn' : ∃ i, ((if pv i then gF i else none : Option (V i))).isSome = true := by
      by_contra h
      push Not at h
      exact hn fun i => by simpa using h i
    obtain ⟨zero, z1, z2, z3, z4, -⟩ := zeros_greatest b hT pv h2 (fun i => if pv i then gF i else none) (fun i hi => by
      by_contra hni
      rw [if_neg hni] at hi
      cases hi) hn' fuel hf
    obtain ⟨g, g1, g2, g3⟩ := materialise_eq (V := V) b.inexact zero (fun i => if pv i then gF i else none) (fun i hi => by
      by_contra hni
      have := z2 i (Option.isSome_iff_ne_none.2 hni)
      rw [hi] at this
      cases this) fun i hi => h2 i (z3 i hi)
    have hprep : prepare b fuel pb p0 gF = some (.ok (some g)) := by
      rw [prepare, e1]
      simp only
      rw [if_neg hn, z1]
      simp only
      rw [g1]
      rfl
    have hbuf' : BufferContract body (cutVjp D pb) strip refill init k := by
      refine ⟨hbuf.next, ?_⟩
      intro k' hk'
      funext g
      rw [cutVjp_eq, cutVjp_eq, hbuf.deriv k' hk']
    obtain ⟨N, t, t1, t2⟩ := checkpointed_grad_exact cond body (cutVjp D pb) addCts strip refill M c maxSteps fill init k g
      (gradFinalBody pb) hc hM hmax hbuf' s hfwd
    obtain ⟨a1, a2, a3⟩ := cut_full hS h3 (fun w i j hj hzi hu => by
        simpa using z4 j hj (hS.back w i j pv (fun i => !zero i) hu hj (by simp [hzi]))) body g (dense gF) g2
      (fun i hi => by rw [g3]; exact hd i hi) k init
    rw [← t2] at a2 a3
    refine ⟨g, N, t, hprep, t1, fun j hj => a2 j (h1 j hj), fun q hq => ?_, fun q hq => ?_⟩
    · have := a3 q
      rw [if_pos hq] at this
      exact this
    · have := a3 q
      rw [if_neg (by simp [hq])] at this
      exact this

/-! ## Tangents -/

theorem push_zero {b : Body n m} {J : Jvp W V U} (hS : SoundJvp b J) {pb : Flags m} {pv : Flags n} (hc : Closed b pb pv)
    (body : W → W) (s : ∀ q, U q) (hs : ∀ q, pb q = false → s q = 0) (k : Nat) (w : W) (t : ∀ i, V i)
    (ht : ∀ i, pv i = false → t i = 0) (i : Fin n) (hi : pv i = false) : pushforward body J s k w t i = 0 := by
  induction k generalizing w t with
  | zero => exact ht i hi
  | succ k ih =>
    refine ih (body w) _ fun i hi => ?_
    have hn : ¬ (b.inexact i = true ∧ b.Perturbs pb pv i) := fun h => by
      rw [hc i h.1 h.2] at hi
      cases hi
    rw [ht i hi, map_zero, zero_add]
    have e1 : ∑ j, J.user w i j (t j) = 0 := by
      apply Finset.sum_eq_zero
      intro j _
      cases hj : pv j with
      | false => rw [ht j hj, map_zero]
      | true => exact hom_zero (fun hu => hn (hS.user w i j pb pv hu hj)) _
    have e2 : ∑ q, J.fn w i q (s q) = 0 := by
      apply Finset.sum_eq_zero
      intro q _
      cases hq : pb q with
      | false => rw [hs q hq, map_zero]
      | true => exact hom_zero (fun hu => hn (hS.fn w i q pb pv hu hq)) _
    rw [e1, e2, add_zero]

/-- **C74 (forward mode).** Cutting the tangents of the final value to the leaves that were found changes nothing. -/
theorem stop_gradient_exact (b : Body n m) (J : Jvp W V U) (hT : Traced b) (hS : SoundJvp b J) (body : W → W) (k : Nat) (init : W)
    (tInit tFinal : Cts V) (tBody : Cts U) (hp : ∀ i, (tInit i).isSome = true → b.inexact i = true)
    (hfinal : dense tFinal = pushforward body J (dense tBody) k init (dense tInit)) (fuel : Nat) (hf : n < fuel) :
    ∃ t, stopGradient b fuel tInit tFinal tBody = some (.ok t) ∧ dense t = dense tFinal := by
  obtain ⟨pv, e1, h1, h2, h3, -⟩ := perturb_least b hT (fun q => (tBody q).isSome) (fun i => (tInit i).isSome) hp fuel hf
  refine ⟨_, by rw [stopGradient, e1]; rfl, ?_⟩
  funext i
  simp only [dense]
  cases hi : pv i with
  | true => cases tFinal i <;> rfl
  | false =>
    have : (tFinal i).getD 0 = 0 := by
      have e := congrFun hfinal i
      rw [dense] at e
      rw [e]
      refine push_zero hS h3 body _ (fun q hq => ?_) k init _ (fun i hi => ?_) i hi
      · have : tBody q = none := by simpa using hq
        rw [dense, this]
        rfl
      · have : tInit i = none := by
          by_contra hn
          rw [h1 i (Option.isSome_iff_ne_none.2 hn)] at hi
          cases hi
        rw [dense, this]
        rfl
    rw [this]
    cases tFinal i <;> rfl

/-! ## A case which meets the hypotheses -/

/-- Three numbers: the first becomes the sum of itself and the second; the second stays; the third becomes three times the
first. -/
def exBody : Body 3 1 where
  inexact _ := true
  buffer _ := false
  out pb pv := ![pv 0 || pv 1, pv 1, pv 0]
  writes _ _ _ := []
  back pv c := ![c 0 || c 2, c 0 || c 1, false]
  tracer _ _ := true
  hook _ _ := true

/-- Its derivative. -/
def exDeriv : Deriv Unit (n := 3) (m := 1) (fun _ => Int) (fun _ => Int) where
  user _ i j := AddMonoidHom.mulLeft ((![![1, 1, 0], ![0, 1, 0], ![3, 0, 0]] : Fin 3 → Fin 3 → Int) i j)
  keep _ _ := 0
  fn _ _ _ := 0

example : Traced exBody ∧ Sound exBody exDeriv ∧ Monotone exBody := by
  have hz : AddMonoidHom.mulLeft (0 : Int) = 0 := by ext; simp
  refine ⟨⟨fun _ _ _ _ _ => rfl, fun _ _ _ _ _ => rfl⟩, ⟨?_, ?_, ?_⟩, ⟨?_, ?_⟩⟩
  · intro w i j pb pv h hj
    refine ⟨rfl, ?_⟩
    simp only [Body.Perturbs, exBody, exDeriv] at h ⊢
    fin_cases i <;> fin_cases j <;> simp_all [hz]
  · intro w i q pb pv h
    exact absurd rfl h
  · intro w i j pv c h hj hi
    simp only [exBody, exDeriv] at h ⊢
    fin_cases i <;> fin_cases j <;> simp_all [hz]
  · intro pb pv pv' i h
    simp only [Body.Perturbs, exBody]
    fin_cases i <;> simp <;> intro h' <;> first | exact h _ h' | skip
    rcases h' with h' | h'
    · exact .inl (h _ h')
    · exact .inr (h _ h')
  · intro pv c c' j h
    simp only [exBody]
    fin_cases j <;> simp <;> rintro (h' | h') <;> first | exact .inl (h _ h') | exact .inr (h _ h')

end Perturb
end Verif
