import Verif.Loop.Common.Model
import Verif.Loop.Common.Spec

/-! # Vocabulary and lemmas about loops with buffers -/

namespace Verif
namespace Common

variable {B : Nat} {σ P V α τ : Type}

/-! ### Vocabulary -/

/-- What a write means for a plain array. -/
def plainSet (xs : P → V) (w : P → Option V) (pred : Bool) : P → V :=
  fun p => if pred then (w p).getD (xs p) else xs p

/-- What a body means for a plain array. -/
def Prog.plain : Prog P V α → (P → V) → α × (P → V)
  | .ret a, xs => (a, xs)
  | .read p k, xs => (k (xs p)).plain xs
  | .write w none k, xs => k.plain (plainSet xs w true)
  | .write w (some (p, _)) k, xs => k.plain (plainSet xs w p)

namespace Buffer

/-- The wrappers of a buffer, outermost first: the predicate, whether it is batched, and `_makes_false_steps`. -/
def wraps : Buffer P V → List (Bool × Bool × Bool)
  | .arr _ => []
  | .wrap b p bt m => (p, bt, m) :: b.wraps

/-- All predicates are true. -/
def live (b : Buffer P V) : Bool := b.wraps.all (·.1)

/-- Some predicate is batched. -/
def anyBatched (b : Buffer P V) : Bool := b.wraps.any (·.2.1)

/-- The code looks at the predicates: there are none, or some predicate is batched, or the outermost wrapper says that
there may be steps with a false predicate. -/
def effective (b : Buffer P V) : Bool :=
  match b.wraps with
  | [] => true
  | w :: ws => w.2.2 || (w :: ws).any (·.2.1)

end Buffer

/-- The values on a lane. -/
def Lane.st (l : Lane σ P V) : σ × (P → V) := (l.val, l.buf.get)

/-- A body does on each lane what `plain` does: on a lane whose predicates are all true it gives what `plain` gives, and on
the others it does not change the buffers, provided that the code looks at the predicates. -/
structure Lanewise (body : (Fin B → Lane σ P V) → Fin B → Lane σ P V)
    (plain : Fin B → σ × (P → V) → σ × (P → V)) : Prop where
  wraps : ∀ ls i, (body ls i).buf.wraps = (ls i).buf.wraps
  live : ∀ ls i, (ls i).buf.live = true → (body ls i).st = plain i (ls i).st
  dead : ∀ ls i, (ls i).buf.live = false → (ls i).buf.effective = true → (body ls i).buf.get = (ls i).buf.get

/-- The condition as a function of the values on a lane. -/
def Loop.condAt (L : Loop B σ P V) (i : Fin B) (x : σ × (P → V)) : Bool := L.cond i x.1 x.2

/-- `cond` is not batched: it depends only on something that is the same on all lanes, initially and after every step. -/
def Unbatched (L : Loop B σ P V) (plain : Fin B → σ × (P → V) → σ × (P → V)) (init : Fin B → σ × (P → V)) : Prop :=
  ∃ (S : Type) (shared : σ × (P → V) → S) (c : S → Bool) (f : S → S),
    (∀ i x, L.condAt i x = c (shared x)) ∧ (∀ i x, shared (plain i x) = f (shared x)) ∧
    ∀ i j, shared (init i) = shared (init j)

/-- A step that stays where it is if the condition is false. -/
def fstep (cond : τ → Bool) (body : τ → τ) (s : τ) : τ := if cond s then body s else s

/-! ### Buffers -/

namespace Buffer

theorem op_wraps (b : Buffer P V) (pred bt w m) : (b.op pred bt w m).wraps = b.wraps := by
  induction b generalizing pred bt with
  | arr xs => rfl
  | wrap b p bt' m' ih => simp [op, wraps, ih]

theorem op_get (b : Buffer P V) (pred bt w m) (p : P) : (b.op pred bt w m).get p =
    if m || bt || b.anyBatched then (if pred && b.live then (w p).getD (b.get p) else b.get p)
    else (w p).getD (b.get p) := by
  induction b generalizing pred bt with
  | arr xs =>
    simp only [op, get, maybeSet, setAt, anyBatched, live, wraps, selectIfVmap]
    cases hw : w p <;> cases m <;> cases bt <;> cases pred <;> simp
  | wrap b p' bt' m' ih =>
    simp only [op, get, ih]
    simp only [anyBatched, live, wraps, List.any_cons, List.all_cons, Bool.and_assoc, Bool.or_assoc]
    rfl

theorem set_wraps (b : Buffer P V) (w pred) : (b.set w pred).wraps = b.wraps := by
  cases b with
  | arr xs => cases pred <;> rfl
  | wrap b p bt m => cases pred <;> exact op_wraps _ _ _ _ _

/-- The value of `pred`. -/
def predVal : Option (Bool × Bool) → Bool
  | none => true
  | some (p, _) => p

theorem set_get (b : Buffer P V) (w pred) (h : b.effective = true ∨ b.live = true) :
    (b.set w pred).get = plainSet b.get w (predVal pred && b.live) := by
  funext p
  cases b with
  | arr xs =>
    cases pred with
    | none => simp [set, get, setAt, plainSet, predVal, live, wraps]
    | some pr =>
      obtain ⟨q, bt⟩ := pr
      simp only [set, get, setAt, plainSet, predVal, live, wraps, List.all_nil, Bool.and_true]
      cases w p <;> cases q <;> simp
  | wrap b p' bt m =>
    cases pred with
    | some pr =>
      obtain ⟨q, bt'⟩ := pr
      simp only [set, op_get, Bool.true_or, if_true, plainSet, predVal]
      rfl
    | none =>
      simp only [set, op_get, plainSet, predVal, Bool.true_and, Bool.or_false]
      rcases h with h | h
      · simp only [effective, wraps] at h
        have : (m || (wrap b p' bt m).anyBatched) = true := by simpa [anyBatched, wraps] using h
        rw [if_pos this]
      · rw [h]; simp

theorem wrapInner_wraps (b : Buffer P V) (p bt m) : (b.wrapInner p bt m).wraps = b.wraps ++ [(p, bt, m)] := by
  induction b with
  | arr xs => rfl
  | wrap b p' bt' m' ih => simp [wrapInner, wraps, ih]

theorem wrapInner_get (b : Buffer P V) (p bt m) : (b.wrapInner p bt m).get = b.get := by
  funext q
  induction b with
  | arr xs => rfl
  | wrap b p' bt' m' ih => simp only [wrapInner, get, ih]

theorem wrapInner_live (b : Buffer P V) (p bt m) : (b.wrapInner p bt m).live = (b.live && p) := by
  simp [live, wrapInner_wraps]

theorem wrapInner_effective (b : Buffer P V) (p bt m) :
    (b.wrapInner p bt m).effective = (bt || (if b.wraps = [] then m else b.effective)) := by
  simp only [effective, wrapInner_wraps]
  cases h : b.wraps with
  | nil => simp [Bool.or_comm]
  | cons w ws =>
    simp only [List.cons_append, List.any_cons, List.any_append, List.any_nil, Bool.or_false, reduceCtorEq, if_false]
    cases w.2.2 <;> cases w.2.1 <;> cases bt <;> simp

theorem unwrapInner_wraps (b : Buffer P V) : b.unwrapInner.wraps = b.wraps.dropLast := by
  induction b with
  | arr xs => rfl
  | wrap b p bt m ih =>
    cases b with
    | arr xs => rfl
    | wrap b p' bt' m' => simp only [unwrapInner, wraps, ih, List.dropLast_cons_cons]

theorem unwrapInner_get (b : Buffer P V) : b.unwrapInner.get = b.get := by
  funext q
  induction b with
  | arr xs => rfl
  | wrap b p bt m ih =>
    cases b with
    | arr xs => rfl
    | wrap b p' bt' m' => simp only [unwrapInner, get, ih]

theorem live_congr {b b' : Buffer P V} (h : b.wraps = b'.wraps) : b.live = b'.live := by simp [live, h]
theorem effective_congr {b b' : Buffer P V} (h : b.wraps = b'.wraps) : b.effective = b'.effective := by
  simp [effective, h]

end Buffer

theorem Prog.run_wraps (f : Prog P V α) (b : Buffer P V) : (f.run b).2.wraps = b.wraps := by
  induction f generalizing b with
  | ret a => rfl
  | read p k ih => exact ih _ _
  | write w pred k ih => simp only [run, ih, Buffer.set_wraps]

theorem Prog.run_live (f : Prog P V α) (b : Buffer P V) (h : b.live = true) :
    ((f.run b).1, (f.run b).2.get) = f.plain b.get := by
  induction f generalizing b with
  | ret a => rfl
  | read p k ih => exact ih _ _ h
  | write w pred k ih =>
    simp only [run]
    rw [ih _ (by rw [Buffer.live_congr (Buffer.set_wraps b w pred)]; exact h), Buffer.set_get b w pred (.inr h), h, Bool.and_true]
    cases pred <;> rfl

theorem plainSet_false (xs : P → V) (w) : plainSet xs w false = xs := by funext p; simp [plainSet]

theorem Prog.run_dead (f : Prog P V α) (b : Buffer P V) (h : b.live = false) (he : b.effective = true) :
    (f.run b).2.get = b.get := by
  induction f generalizing b with
  | ret a => rfl
  | read p k ih => exact ih _ _ h he
  | write w pred k ih =>
    simp only [run]
    have hw := Buffer.set_wraps b w pred
    rw [ih _ (by rw [Buffer.live_congr hw]; exact h) (by rw [Buffer.effective_congr hw]; exact he),
      Buffer.set_get b w pred (.inl he), h, Bool.and_false, plainSet_false]

theorem lanewise_prog (f : Fin B → σ → Prog P V σ) :
    Lanewise (progBody f) (fun i x => (f i x.1).plain x.2) where
  wraps := fun _ _ => Prog.run_wraps _ _
  live := fun _ _ h => Prog.run_live _ _ h
  dead := fun _ _ h he => Prog.run_dead _ _ h he

/-! ### `fstep` -/

theorem fstep_stop {cond : τ → Bool} {body : τ → τ} {s : τ} (h : cond s = false) (k : Nat) :
    iter (fstep cond body) k s = s := by
  induction k with
  | zero => rfl
  | succ k ih => rw [iter_succ', ih]; simp [fstep, h]

theorem fstep_go {cond : τ → Bool} {body : τ → τ} {s : τ} {k : Nat} (h : ∀ j, j < k → cond (iter body j s) = true) :
    iter (fstep cond body) k s = iter body k s := by
  induction k with
  | zero => rfl
  | succ k ih =>
    rw [iter_succ', iter_succ', ih (fun j hj => h j (by omega))]
    simp [fstep, h k (by omega)]

/-- After `k` guarded steps the loop with the bound `k` has returned. -/
theorem fstep_returns (cond : τ → Bool) (body : τ → τ) (s : τ) (k : Nat) :
    ∃ n, n ≤ k ∧ (∀ j, j < n → cond (iter body j s) = true) ∧ (cond (iter body n s) = false ∨ n = k) ∧
      iter (fstep cond body) k s = iter body n s := by
  induction k with
  | zero => exact ⟨0, by omega, by simp, .inr rfl, rfl⟩
  | succ k ih =>
    obtain ⟨n, h1, h2, h3, h4⟩ := ih
    rw [iter_succ', h4]
    cases hc : cond (iter body n s) with
    | false => exact ⟨n, by omega, h2, .inl hc, by simp [fstep, hc]⟩
    | true =>
      have hn : n = k := by rcases h3 with h | h; · rw [hc] at h; exact absurd h (by simp)
                            · exact h
      subst hn
      refine ⟨n + 1, by omega, ?_, .inr rfl, ?_⟩
      · intro j hj
        by_cases h : j = n
        · rw [h, hc]
        · exact h2 j (by omega)
      · rw [iter_succ']; simp [fstep, hc]

theorem StopsAfter.fstep {cond : τ → Bool} {body : τ → τ} {m s n} (h : StopsAfter cond body m s n) {k : Nat} (hk : n ≤ k)
    (hm : ∀ m', m = some m' → k ≤ m') : iter (fstep cond body) k s = iter body n s := by
  obtain ⟨d, rfl⟩ : ∃ d, k = n + d := ⟨k - n, by omega⟩
  rw [iter_add, fstep_go h.before]
  rcases h.stop with hs | hs
  · exact fstep_stop hs d
  · have := hm n hs
    have : d = 0 := by omega
    subst this; rfl

/-! ### One step of the rewritten loop -/

variable {L : Loop B σ P V} {plain : Fin B → σ × (P → V) → σ × (P → V)}

/-- The loop's own wrapper is effective on a lane. -/
def Own (L : Loop B σ P V) (b : Buffer P V) : Prop :=
  L.batched = true ∨ (L.makesFalseSteps = true ∧ b.effective = true)

theorem own_effective {b : Buffer P V} (h : Own L b) (p : Bool) : (b.wrapInner p L.batched L.makesFalseSteps).effective = true := by
  rw [Buffer.wrapInner_effective]
  rcases h with h | ⟨h, h'⟩
  · simp [h]
  · by_cases hw : b.wraps = [] <;> simp [h, h', hw]

theorem newBody_wraps (hb : Lanewise L.body plain) (c : Carry B σ P V) (i : Fin B) :
    ((L.newBody c).lane i).buf.wraps = (c.lane i).buf.wraps := by
  simp only [Loop.newBody, Buffer.unwrapInner_wraps, hb.wraps, Buffer.wrapInner_wraps, List.dropLast_concat]

theorem newBody_live (hb : Lanewise L.body plain) (c : Carry B σ P V) (i : Fin B)
    (hl : (c.lane i).buf.live = true) (hp : c.pred i = L.condAt i (c.lane i).st)
    (ho : c.pred i = false → Own L (c.lane i).buf) :
    ((L.newBody c).lane i).st = fstep (L.condAt i) (plain i) (c.lane i).st ∧
    (L.newBody c).pred i = L.condAt i ((L.newBody c).lane i).st := by
  have hlive := Buffer.wrapInner_live (c.lane i).buf (c.pred i) L.batched L.makesFalseSteps
  rw [hl, Bool.true_and] at hlive
  cases hpi : c.pred i with
  | true =>
    have h1 := hb.live (fun i => { val := (c.lane i).val, buf := (c.lane i).buf.wrapInner (c.pred i) L.batched L.makesFalseSteps }) i
      (by rw [hlive, hpi])
    simp only [Lane.st, Buffer.wrapInner_get] at h1
    have e1 := congrArg Prod.fst h1
    have e2 := congrArg Prod.snd h1
    simp only at e1 e2
    have hst : ((L.newBody c).lane i).st = plain i (c.lane i).st := by
      simp only [Loop.newBody, Lane.st, Buffer.unwrapInner_get, hpi, selectIfVmap, if_true, ite_self]
      rw [e1, e2]
    refine ⟨?_, ?_⟩
    · rw [hst, fstep, ← hp, hpi, if_pos rfl]
    · rw [hst]
      simp only [Loop.newBody, hpi, Bool.true_and]
      rw [e1, e2]
      rfl
  | false =>
    have hown := ho hpi
    have h1 := hb.dead (fun i => { val := (c.lane i).val, buf := (c.lane i).buf.wrapInner (c.pred i) L.batched L.makesFalseSteps }) i
      (by rw [hlive, hpi]) (own_effective hown _)
    simp only [Buffer.wrapInner_get] at h1
    have hst : ((L.newBody c).lane i).st = (c.lane i).st := by
      simp only [Loop.newBody, Lane.st, Buffer.unwrapInner_get, h1, hpi, selectIfVmap]
      rcases hown with h | ⟨h, _⟩ <;> simp [h]
    refine ⟨?_, ?_⟩
    · rw [hst, fstep, ← hp, hpi]; rfl
    · rw [hst, ← hp, hpi]
      simp only [Loop.newBody, hpi, Bool.false_and]

theorem newBody_dead (hb : Lanewise L.body plain) (c : Carry B σ P V) (i : Fin B)
    (hl : (c.lane i).buf.live = false) (he : (c.lane i).buf.effective = true) :
    ((L.newBody c).lane i).buf.get = (c.lane i).buf.get := by
  simp only [Loop.newBody, Buffer.unwrapInner_get]
  have hw : (c.lane i).buf.wraps ≠ [] := by
    intro h; simp [Buffer.live, h] at hl
  have h1 := hb.dead (fun i => { val := (c.lane i).val, buf := (c.lane i).buf.wrapInner (c.pred i) L.batched L.makesFalseSteps }) i
    (by simp [Buffer.wrapInner_live, hl]) (by simp [Buffer.wrapInner_effective, hw, he])
  rw [h1, Buffer.wrapInner_get]

theorem newCond_eq (L : Loop B σ P V) (c : Carry B σ P V) : L.newCond c = true ↔
    (∃ i, L.condAt i (c.lane i).st = true) ∧ ∀ m, L.maxSteps = some m → c.step < m := by
  have h : Loop.unvmapAny (fun i =>
    L.cond i (c.lane i).val ((c.lane i).buf.wrapInner (c.prev i) L.batched L.makesFalseSteps).get) = true ↔
      ∃ i, L.condAt i (c.lane i).st = true := by
    simp only [Loop.unvmapAny, List.any_eq_true, List.mem_finRange, true_and, Buffer.wrapInner_get, Loop.condAt, Lane.st]
  simp only [Loop.newCond]
  cases hm : L.maxSteps with
  | none => simp only [h, reduceCtorEq, false_implies, implies_true, and_true]
  | some m => simp only [Bool.and_eq_true, decide_eq_true_eq, h, Option.some.injEq, forall_eq']

/-- The state after `k` steps: live lanes have taken `k` guarded steps, other lanes have not changed their buffers. -/
structure Inv (L : Loop B σ P V) (plain : Fin B → σ × (P → V) → σ × (P → V)) (init : Fin B → Lane σ P V) (k : Nat)
    (c : Carry B σ P V) : Prop where
  wraps : ∀ i, (c.lane i).buf.wraps = (init i).buf.wraps
  live : ∀ i, (init i).buf.live = true → (c.lane i).st = iter (fstep (L.condAt i) (plain i)) k (init i).st ∧
    c.pred i = L.condAt i (c.lane i).st
  dead : ∀ i, (init i).buf.live = false → (init i).buf.effective = true → (c.lane i).buf.get = (init i).buf.get

theorem inv_init (L : Loop B σ P V) (plain) (init : Fin B → Lane σ P V) : Inv L plain init 0 (L.newInit init) where
  wraps := fun _ => rfl
  live := fun i _ => ⟨rfl, by simp only [Loop.newInit, Buffer.wrapInner_get]; rfl⟩
  dead := fun _ _ _ => rfl

theorem inv_step (hb : Lanewise L.body plain) {init : Fin B → Lane σ P V} {k : Nat} {c : Carry B σ P V}
    (h : Inv L plain init k c) (ho : ∀ i, (init i).buf.live = true → c.pred i = false → Own L (c.lane i).buf) :
    Inv L plain init (k + 1) (L.newBody c) where
  wraps := fun i => by rw [newBody_wraps hb, h.wraps]
  live := fun i hl => by
    obtain ⟨h1, h2⟩ := h.live i hl
    obtain ⟨h3, h4⟩ := newBody_live hb c i (by rw [Buffer.live_congr (h.wraps i)]; exact hl) h2 (ho i hl)
    refine ⟨?_, h4⟩
    rw [h3, h1, iter_succ']
  dead := fun i hl he => by
    rw [newBody_dead hb c i (by rw [Buffer.live_congr (h.wraps i)]; exact hl)
      (by rw [Buffer.effective_congr (h.wraps i)]; exact he), h.dead i hl he]

/-- In a loop that is not batched, all lanes agree about going on. -/
theorem unbatched_agree {init : Fin B → Lane σ P V} (hu : Unbatched L plain (fun i => (init i).st)) (k : Nat) (i j : Fin B) :
    L.condAt i (iter (fstep (L.condAt i) (plain i)) k (init i).st) =
    L.condAt j (iter (fstep (L.condAt j) (plain j)) k (init j).st) := by
  obtain ⟨S, shared, cS, f, h1, h2, h3⟩ := hu
  have key : ∀ i k, shared (iter (fstep (L.condAt i) (plain i)) k (init i).st) = iter (fstep cS f) k (shared (init i).st) := by
    intro i k
    induction k with
    | zero => rfl
    | succ k ih =>
      rw [iter_succ', iter_succ', ← ih]
      simp only [fstep, h1]
      split
      · rw [h2]
      · rfl
  rw [h1, h1, key, key, h3 i j]

/-- While a loop goes on, a lane which has finished is only possible if `cond` is batched. -/
theorem own_of_going {init : Fin B → Lane σ P V} (hl : ∀ i, (init i).buf.live = true)
    (hu : L.batched = true ∨ Unbatched L plain (fun i => (init i).st)) {k : Nat} {c : Carry B σ P V} (h : Inv L plain init k c)
    (hgo : L.newCond c = true) (i : Fin B) (hp : c.pred i = false) : Own L (c.lane i).buf := by
  rcases hu with hu | hu
  · exact .inl hu
  · obtain ⟨⟨j, hj⟩, _⟩ := (newCond_eq L c).1 hgo
    obtain ⟨h1, h2⟩ := h.live i (hl i)
    obtain ⟨h3, _⟩ := h.live j (hl j)
    rw [h3, unbatched_agree hu k j i, ← h1, ← h2, hp] at hj
    exact absurd hj (by simp)

end Common
end Verif
