import Verif.Loop.Common.Props

/-!
# `scan` (`equinox/internal/_loop/loop.py`, lines 131-236)

As in `Verif.Loop.Common.Model` there are `B` lanes. A leaf of `xs` is a function from indices to elements, and its length is
given separately, as it is the same on all lanes. An element `y` of the output is treated as a whole rather than
leaf by leaf. `Verif.Loop.ScanBuffers` has further `buffers` inside of the carry.
-/

namespace Verif
namespace Scan

open Common

variable {B : Nat} {C X Y : Type}

/-- The argument `checkpoints`: `None`, an integer, or `"all"`. -/
inductive Checkpoints where
  | default
  | int (c : Int)
  | all

/-- Lines 192-193: `"all"` stands for the length. -/
def Checkpoints.value (l : Nat) : Checkpoints → Option Int
  | .default => none
  | .int c => some c
  | .all => some l

/-- The distinct lengths (lines 183-185). -/
def lengths (lens : List Nat) (length : Option Nat) : List Nat := (lens ++ length.toList).eraseDups

/-- The loop (lines 195-203, 210-211, 228-235): the state is the index and the carry, the buffer is `ys`. -/
def loop (f : Fin B → C → List X → C × Y) (xs : Fin B → List (Nat → X)) (length : Nat) : Loop B (Nat × C) Nat Y where
  cond := fun _ _ _ => true
  body := progBody (fun b s =>
    let x := (xs b).map (fun z => z s.1)
    let r := f b s.2 x
    .write (fun p => if p = s.1 then some r.2 else none) none (.ret (s.1 + 1, r.1)))
  maxSteps := some length
  batched := false
  makesFalseSteps := false

/-- The initial state (lines 207-208); `empty` is what `jnp.empty` holds. -/
def initVal (init : Fin B → C) (empty : Nat → Y) : Fin B → Lane (Nat × C) Nat Y :=
  fun b => { val := (0, init b), buf := .arr empty }

/-- `scan` with `kind="checkpointed"`: which results it may have. The result is the carry and the stacked `ys`. -/
inductive Result (f : Fin B → C → List X → C × Y) (init : Fin B → C) (xs : Fin B → List (Nat → X)) (lens : List Nat)
    (length : Option Nat) (checkpoints : Checkpoints) (empty : Nat → Y) :
    Except Err (Fin B → C × List Y) → Prop where
  /-- lines 186-189 -/
  | inconsistent : (lengths lens length).length ≠ 1 → Result f init xs lens length checkpoints empty (.error .valueError)
  /-- line 205: there is no element at index 0 of an empty array -/
  | noFirst {l} : lengths lens length = [l] → l = 0 → lens ≠ [] →
      Result f init xs lens length checkpoints empty (.error .typeError)
  /-- lines 228-236 -/
  | error {l e} : lengths lens length = [l] → (l ≠ 0 ∨ lens = []) →
      WhileLoop (loop f xs l) (initVal init empty)
        (.checkpointed (checkpoints.value l)) (.error e) →
      Result f init xs lens length checkpoints empty (.error e)
  | ok {l out} : lengths lens length = [l] → (l ≠ 0 ∨ lens = []) →
      WhileLoop (loop f xs l) (initVal init empty)
        (.checkpointed (checkpoints.value l)) (.ok out) →
      Result f init xs lens length checkpoints empty
        (.ok (fun b => ((out b).val.2, (List.range l).map (out b).buf.get)))

/-! ### Specification -/

/-- The mathematical scan: a left fold that also collects the outputs. -/
def scanFold {A : Type} (f : C → A → C × Y) : C → List A → C × List Y
  | c, [] => (c, [])
  | c, x :: xs =>
    let r := f c x
    let q := scanFold f r.1 xs
    (q.1, r.2 :: q.2)

/-- The slices of `xs` on one lane: one for each index. -/
def rows (xs : List (Nat → X)) (n : Nat) : List (List X) := (List.range n).map (fun i => xs.map (fun z => z i))

/-! ### Proofs -/

theorem scanFold_concat {A : Type} (f : C → A → C × Y) (c : C) (xs : List A) (x : A) :
    scanFold f c (xs ++ [x]) =
      ((f (scanFold f c xs).1 x).1, (scanFold f c xs).2 ++ [(f (scanFold f c xs).1 x).2]) := by
  induction xs generalizing c with
  | nil => rfl
  | cons y ys ih => simp [scanFold, ih]

theorem scanFold_length {A : Type} (f : C → A → C × Y) (c : C) (xs : List A) : (scanFold f c xs).2.length = xs.length := by
  induction xs generalizing c with
  | nil => rfl
  | cons y ys ih => simp [scanFold, ih]

/-- What the body does on one lane. -/
def plainBody (f : Fin B → C → List X → C × Y) (xs : Fin B → List (Nat → X)) (b : Fin B) (x : (Nat × C) × (Nat → Y)) :
    (Nat × C) × (Nat → Y) :=
  let r := f b x.1.2 ((xs b).map (fun z => z x.1.1))
  ((x.1.1 + 1, r.1), plainSet x.2 (fun p => if p = x.1.1 then some r.2 else none) true)

theorem lanewise_loop (f : Fin B → C → List X → C × Y) (xs : Fin B → List (Nat → X)) (l : Nat) :
    Lanewise (loop f xs l).body (plainBody f xs) := by
  have := lanewise_prog (B := B) (P := Nat) (V := Y) (σ := Nat × C) (fun b s =>
    .write (fun p => if p = s.1 then some (f b s.2 ((xs b).map (fun z => z s.1))).2 else none) none
      (.ret (s.1 + 1, (f b s.2 ((xs b).map (fun z => z s.1))).1)))
  exact this

theorem iter_plain (f : Fin B → C → List X → C × Y) (xs : Fin B → List (Nat → X)) (b : Fin B) (c : C) (ys : Nat → Y) (k : Nat) :
    let r := iter (plainBody f xs b) k ((0, c), ys)
    r.1.1 = k ∧ r.1.2 = (scanFold (f b) c (rows (xs b) k)).1 ∧
    (List.range k).map r.2 = (scanFold (f b) c (rows (xs b) k)).2 := by
  induction k with
  | zero => exact ⟨rfl, rfl, rfl⟩
  | succ k ih =>
    simp only at ih ⊢
    rw [iter_succ']
    generalize iter (plainBody f xs b) k ((0, c), ys) = r at ih
    obtain ⟨h1, h2, h3⟩ := ih
    simp only [rows, List.range_succ, List.map_append, List.map_cons, List.map_nil, scanFold_concat]
    refine ⟨by simp [plainBody, h1], ?_, ?_⟩
    · simp only [plainBody, h1, h2, rows]
    · have hlast : (plainBody f xs b r).2 k = (f b (scanFold (f b) c (rows (xs b) k)).1 ((xs b).map (fun z => z k))).2 := by
        simp [plainBody, plainSet, h1, h2]
      have hrest : (List.range k).map (plainBody f xs b r).2 = (List.range k).map r.2 := by
        apply List.map_congr_left
        intro i hi
        have : i ≠ k := by have := List.mem_range.1 hi; omega
        simp [plainBody, plainSet, h1, this]
      rw [hlast, hrest, h3]
      rfl

theorem eraseDups_all {n : Nat} {ls : List Nat} (hne : ls ≠ []) (h : ∀ x ∈ ls, x = n) : ls.eraseDups = [n] := by
  cases ls with
  | nil => exact absurd rfl hne
  | cons a as =>
    have ha : a = n := h a (by simp)
    subst ha
    rw [List.eraseDups_cons]
    have : as.filter (fun b => !b == a) = [] := by
      rw [List.filter_eq_nil_iff]
      intro b hb
      have := h b (by simp [hb])
      simp [this]
    rw [this]; rfl

theorem all_of_eraseDups {n : Nat} {ls : List Nat} (h : ls.eraseDups = [n]) : ls ≠ [] ∧ ∀ x ∈ ls, x = n := by
  constructor
  · rintro rfl; simp at h
  · intro x hx
    have : x ∈ ls.eraseDups := List.mem_eraseDups.2 hx
    rw [h] at this
    simpa using this

theorem returns_loop (f : Fin B → C → List X → C × Y) (init : Fin B → C) (xs : Fin B → List (Nat → X)) (l : Nat) (empty : Nat → Y)
    (b : Fin B) (t) : Returns ((loop f xs l).condAt b) (plainBody f xs b) (loop f xs l).maxSteps
      (initVal init empty b).st t ↔ t = iter (plainBody f xs b) l ((0, init b), empty) := by
  constructor
  · rintro ⟨n, h, rfl⟩
    have : l = n := by
      rcases h.stop with h | h
      · exact absurd h (by simp [Loop.condAt, loop])
      · simpa [loop] using h
    rw [this]; rfl
  · rintro rfl
    exact ⟨l, ⟨fun _ _ => rfl, .inr rfl, fun m hm => Nat.le_of_eq (by simpa [loop] using hm)⟩, rfl⟩

theorem unbatched_loop (f : Fin B → C → List X → C × Y) (init : Fin B → C) (xs : Fin B → List (Nat → X)) (l : Nat) (empty : Nat → Y) :
    Unbatched (loop f xs l) (plainBody f xs) (fun i => (initVal init empty i).st) :=
  ⟨Unit, fun _ => (), fun _ => true, fun _ => (), fun _ _ => rfl, fun _ _ => rfl, fun _ _ => rfl⟩

/-! ### The properties -/

/-- **C26.** A result is always the mathematical scan, on each lane, of as many slices as all the lengths say. -/
theorem scan_value {f : Fin B → C → List X → C × Y} {init : Fin B → C} {xs : Fin B → List (Nat → X)} {lens : List Nat}
    {length : Option Nat} {checkpoints : Checkpoints} {empty : Nat → Y} {o : Fin B → C × List Y}
    (h : Result f init xs lens length checkpoints empty (.ok o)) :
    ∃ n, (∀ l ∈ lens, l = n) ∧ (∀ l, length = some l → l = n) ∧ ∀ b, o b = scanFold (f b) (init b) (rows (xs b) n) := by
  cases h with
  | @ok l out hl _ hw =>
    obtain ⟨_, hall⟩ := all_of_eraseDups hl
    refine ⟨l, fun x hx => hall x (by simp [hx]), fun x hx => hall x (by simp [hx]), fun b => ?_⟩
    have hr := while_loop_value (lanewise_loop f xs l) (fun _ => rfl) (.inr (unbatched_loop f init xs l empty))
      (kind := .checkpointed _) trivial hw b
    rw [returns_loop] at hr
    obtain ⟨_, h2, h3⟩ := iter_plain f xs b (init b) empty l
    rw [← hr] at h2 h3
    exact Prod.ext h2 h3

/-- **C26.** With consistent positive lengths there is a result, for every valid number of checkpoints. -/
theorem scan_succeeds (f : Fin B → C → List X → C × Y) (init : Fin B → C) (xs : Fin B → List (Nat → X)) (lens : List Nat)
    (length : Option Nat) (checkpoints : Checkpoints) (empty : Nat → Y) (n : Nat) (hn : 1 ≤ n)
    (hne : lens ≠ [] ∨ length.isSome) (h1 : ∀ l ∈ lens, l = n) (h2 : ∀ l, length = some l → l = n)
    (hc : ∀ c, checkpoints = .int c → 1 ≤ c) :
    Result f init xs lens length checkpoints empty (.ok (fun b => scanFold (f b) (init b) (rows (xs b) n))) := by
  have hlen : lengths lens length = [n] := by
    apply eraseDups_all
    · rcases hne with h | h
      · simp [h]
      · rw [Option.isSome_iff_exists] at h
        obtain ⟨a, rfl⟩ := h
        simp
    · intro x hx
      rcases List.mem_append.1 hx with h | h
      · exact h1 x h
      · exact h2 x (by simpa using h)
  have hL : (loop f xs n).maxSteps = some n := rfl
  have hacc : ¬ (Kind.checkpointed (checkpoints.value n)).Rejected
      (loop f xs n).maxSteps := by
    rw [hL]
    rintro ⟨e, he⟩
    obtain ⟨_, _, _, _, r5, r6⟩ := Checkpoint.resolve_spec
      (checkpoints.value n) (some n)
    cases checkpoints with
    | default => rw [r6 n rfl rfl hn] at he; exact absurd he (by simp)
    | int c => rw [r5 c n rfl (hc c rfl) rfl hn] at he; exact absurd he (by simp)
    | all => rw [r5 n n rfl (by omega) rfl hn] at he; exact absurd he (by simp)
  obtain ⟨out, hout⟩ := ((while_loop_returns (lanewise_loop f xs n) (init := initVal init empty) (fun _ => rfl)
    (.inr (unbatched_loop f init xs n empty)) (kind := .checkpointed _) trivial
    (fun b => ⟨_, (returns_loop f init xs n empty b _).2 rfl⟩)).1).2 hacc
  have hres : Result f init xs lens length checkpoints empty _ := .ok hlen (.inl (by omega)) hout
  obtain ⟨n', h1', h2', h3'⟩ := scan_value hres
  have hn' : n' = n := by
    rcases hne with h | h
    · obtain ⟨a, as, rfl⟩ := List.exists_cons_of_ne_nil h
      rw [← h1 a (by simp), h1' a (by simp)]
    · rw [Option.isSome_iff_exists] at h
      obtain ⟨a, rfl⟩ := h
      rw [← h2 a rfl, h2' a rfl]
  subst hn'
  have : (fun b => ((out b).val.2, (List.range n').map (out b).buf.get)) =
      (fun b => scanFold (f b) (init b) (rows (xs b) n')) := funext h3'
  rw [← this]
  exact hres

/-- **C26.** Lengths that disagree, or no length at all, are a `ValueError` and nothing else. -/
theorem scan_inconsistent {f : Fin B → C → List X → C × Y} {init : Fin B → C} {xs : Fin B → List (Nat → X)} {lens : List Nat}
    {length : Option Nat} {checkpoints : Checkpoints} {empty : Nat → Y}
    (h : ¬ ∃ n, (lens ≠ [] ∨ length.isSome) ∧ (∀ l ∈ lens, l = n) ∧ ∀ l, length = some l → l = n) (r) :
    Result f init xs lens length checkpoints empty r ↔ r = .error .valueError := by
  have hnot : ∀ l, lengths lens length ≠ [l] := by
    intro l hl
    obtain ⟨hne, hall⟩ := all_of_eraseDups hl
    refine h ⟨l, ?_, fun x hx => hall x (by simp [hx]), fun x hx => hall x (by simp [hx])⟩
    by_cases h0 : lens = []
    · right
      cases length with
      | none => simp [h0] at hne
      | some _ => rfl
    · exact .inl h0
  constructor
  · intro hr
    cases hr with
    | inconsistent => rfl
    | noFirst hl => exact absurd hl (hnot _)
    | error hl => exact absurd hl (hnot _)
    | ok hl => exact absurd hl (hnot _)
  · rintro rfl
    refine .inconsistent ?_
    intro h1
    obtain ⟨l, hl⟩ := List.length_eq_one_iff.1 h1
    exact hnot l hl

/-- **C26.** Length 0 is an error if `xs` has a leaf, or with the default number of checkpoints, or with `"all"`; although
`lax.scan` would return `init` and empty arrays. -/
theorem scan_empty {f : Fin B → C → List X → C × Y} {init : Fin B → C} {xs : Fin B → List (Nat → X)} {lens : List Nat}
    {length : Option Nat} {checkpoints : Checkpoints} {empty : Nat → Y}
    (hlen : lengths lens length = [0]) (h : lens ≠ [] ∨ checkpoints = .default ∨ checkpoints = .all) (o) :
    ¬ Result f init xs lens length checkpoints empty (.ok o) := by
  intro hr
  cases hr with
  | @ok l out hl hor hw =>
    rw [hlen] at hl
    have hl : l = 0 := by simpa [eq_comm] using hl
    subst hl
    rcases h with h | h
    · rcases hor with h' | h'
      · exact h' rfl
      · exact h h'
    · have hrej : ∃ e, Checkpoint.resolve (checkpoints.value 0) (some 0) = .error e := by
        rcases h with rfl | rfl
        · exact ⟨_, Checkpoint.default_zero_steps_raises.1⟩
        · exact ⟨_, (Checkpoint.resolve_spec (some ((0 : Nat) : Int)) (some 0)).2.1 _ rfl (by decide)⟩
      obtain ⟨e, he⟩ := hrej
      cases hw with
      | checkpointedInit h => exact absurd (he.symm.trans h) (by simp)
      | checkpointed h _ => exact absurd (he.symm.trans h) (by simp)

/-- A scan over two leaves of length 3: the hypotheses of `scan_succeeds` hold, and the result is as it should be. -/
example : (∀ l ∈ [3, 3], l = 3) ∧ scanFold (fun (c : Nat) (x : List Nat) => (c + x.sum, c * x.length)) 1
    (rows [fun i => i, fun i => 10 * i] 3) = (34, [2, 2, 24]) := by decide

end Scan
end Verif
