import Verif.Loop.Scan

/-!
# `scan` with buffers inside of the carry (`equinox/internal/_loop/loop.py`, 131-236)

The values, as in `Verif.Loop.Scan`, for functions `f` that read and write buffers of the carry; and which arrays become buffers
(210-226). As `f` is first evaluated on the carry as it is (206), its writes have no predicate in reality; the theorems hold for any.
-/

namespace Verif
namespace Scan
namespace Buffers

open Common

variable {B : Nat} {C X P V : Type}

/-! ### Model: values

The buffers of the loop are those of the carry, at positions `P`, and `ys`, at natural numbers. -/

/-- A program that uses the buffers of the carry, followed by another. -/
def andThen {α β : Type} : Prog P V α → (α → Prog (P ⊕ Nat) V β) → Prog (P ⊕ Nat) V β
  | .ret a, k => k a
  | .read p g, k => .read (.inl p) (fun v => andThen (g v) k)
  | .write w pred g, k => .write (Sum.elim w (fun _ => none)) pred (andThen g k)

/-- The loop (195-203, 210-235) -/
def loop (f : Fin B → C → List X → Prog P V (C × V)) (xs : Fin B → List (Nat → X)) (length : Nat) :
    Loop B (Nat × C) (P ⊕ Nat) V where
  cond := fun _ _ _ => true
  body := progBody (fun b s =>
    andThen (f b s.2 ((xs b).map (fun z => z s.1))) (fun r =>
      .write (Sum.elim (fun _ => none) (fun p => if p = s.1 then some r.2 else none)) none (.ret (s.1 + 1, r.1))))
  maxSteps := some length
  batched := false
  makesFalseSteps := false

/-- The initial state (207-208) -/
def initVal (init : Fin B → C × (P → V)) (empty : Nat → V) : Fin B → Lane (Nat × C) (P ⊕ Nat) V :=
  fun b => { val := (0, (init b).1), buf := .arr (Sum.elim (init b).2 empty) }

/-- `scan` with `kind="checkpointed"`: the result is the carry, with its buffers, and the stacked `ys`. -/
inductive Result (f : Fin B → C → List X → Prog P V (C × V)) (init : Fin B → C × (P → V)) (xs : Fin B → List (Nat → X))
    (lens : List Nat) (length : Option Nat) (checkpoints : Checkpoints) (empty : Nat → V) :
    Except Err (Fin B → (C × (P → V)) × List V) → Prop where
  /-- 186-189 -/
  | inconsistent : (lengths lens length).length ≠ 1 → Result f init xs lens length checkpoints empty (.error .valueError)
  /-- 202 -/
  | noFirst {l} : lengths lens length = [l] → l = 0 → lens ≠ [] →
      Result f init xs lens length checkpoints empty (.error .typeError)
  /-- 228-236 -/
  | error {l e} : lengths lens length = [l] → (l ≠ 0 ∨ lens = []) →
      WhileLoop (loop f xs l) (initVal init empty) (.checkpointed (checkpoints.value l)) (.error e) →
      Result f init xs lens length checkpoints empty (.error e)
  | ok {l out} : lengths lens length = [l] → (l ≠ 0 ∨ lens = []) →
      WhileLoop (loop f xs l) (initVal init empty) (.checkpointed (checkpoints.value l)) (.ok out) →
      Result f init xs lens length checkpoints empty
        (.ok (fun b => (((out b).val.2, fun p => (out b).buf.get (.inl p)), (List.range l).map fun i => (out b).buf.get (.inr i))))

/-! ### Specification: values -/

/-- What `f` is on plain arrays. -/
def plainStep (f : C → List X → Prog P V (C × V)) (c : C × (P → V)) (x : List X) : (C × (P → V)) × V :=
  let r := (f c.1 x).plain c.2
  ((r.1.1, r.2), r.1.2)

/-! ### Proofs: values -/

theorem plain_andThen {α β : Type} (g : Prog P V α) (k : α → Prog (P ⊕ Nat) V β) (bufs : P → V) (ys : Nat → V) :
    (andThen g k).plain (Sum.elim bufs ys) = (k (g.plain bufs).1).plain (Sum.elim (g.plain bufs).2 ys) := by
  have hset : ∀ (w : P → Option V) (b : Bool) (bufs : P → V),
      plainSet (Sum.elim bufs ys) (Sum.elim w (fun _ => none)) b = Sum.elim (plainSet bufs w b) ys := by
    intro w b bufs
    funext q
    cases q <;> simp [plainSet]
  induction g generalizing bufs with
  | ret a => rfl
  | read p g ih => simp only [andThen, Prog.plain, Sum.elim_inl]; exact ih _ bufs
  | write w pred g ih =>
    cases pred with
    | none => simp only [andThen, Prog.plain]; rw [hset]; exact ih _
    | some pb =>
      obtain ⟨p, bt⟩ := pb
      simp only [andThen, Prog.plain]; rw [hset]; exact ih _

/-- What the body does on one lane. -/
def plainBody (f : Fin B → C → List X → Prog P V (C × V)) (xs : Fin B → List (Nat → X)) (b : Fin B)
    (s : (Nat × C) × (P ⊕ Nat → V)) : (Nat × C) × (P ⊕ Nat → V) :=
  (andThen (f b s.1.2 ((xs b).map (fun z => z s.1.1))) (fun r =>
      .write (Sum.elim (fun _ => none) (fun p => if p = s.1.1 then some r.2 else none)) none (.ret (s.1.1 + 1, r.1)))).plain s.2

theorem plainBody_eq (f : Fin B → C → List X → Prog P V (C × V)) (xs : Fin B → List (Nat → X)) (b : Fin B) (i : Nat) (c : C)
    (bufs : P → V) (ys : Nat → V) :
    plainBody f xs b ((i, c), Sum.elim bufs ys) =
      ((i + 1, (plainStep (f b) (c, bufs) ((xs b).map (fun z => z i))).1.1),
        Sum.elim (plainStep (f b) (c, bufs) ((xs b).map (fun z => z i))).1.2
          (fun p => if p = i then (plainStep (f b) (c, bufs) ((xs b).map (fun z => z i))).2 else ys p)) := by
  simp only [plainBody, plain_andThen, Prog.plain, plainStep]
  congr 1
  funext q
  cases q with
  | inl p => simp [plainSet]
  | inr p =>
    by_cases h : p = i <;> simp [plainSet, h]

theorem lanewise_loop (f : Fin B → C → List X → Prog P V (C × V)) (xs : Fin B → List (Nat → X)) (l : Nat) :
    Lanewise (loop f xs l).body (plainBody f xs) := by
  have := lanewise_prog (B := B) (P := P ⊕ Nat) (V := V) (σ := Nat × C) (fun b s =>
    andThen (f b s.2 ((xs b).map (fun z => z s.1))) (fun r =>
      .write (Sum.elim (fun _ => none) (fun p => if p = s.1 then some r.2 else none)) none (.ret (s.1 + 1, r.1))))
  exact this

theorem iter_plain (f : Fin B → C → List X → Prog P V (C × V)) (xs : Fin B → List (Nat → X)) (b : Fin B) (c : C × (P → V))
    (ys : Nat → V) (k : Nat) :
    ∃ ys' : Nat → V, iter (plainBody f xs b) k ((0, c.1), Sum.elim c.2 ys) =
      ((k, (scanFold (plainStep (f b)) c (rows (xs b) k)).1.1),
        Sum.elim (scanFold (plainStep (f b)) c (rows (xs b) k)).1.2 ys') ∧
      (List.range k).map ys' = (scanFold (plainStep (f b)) c (rows (xs b) k)).2 := by
  induction k with
  | zero => exact ⟨ys, rfl, rfl⟩
  | succ k ih =>
    obtain ⟨ys', h1, h2⟩ := ih
    rw [iter_succ', h1, plainBody_eq]
    have hr : rows (xs b) (k + 1) = rows (xs b) k ++ [(xs b).map fun z => z k] := by simp [rows, List.range_succ]
    rw [hr, scanFold_concat]
    refine ⟨_, rfl, ?_⟩
    rw [List.range_succ, List.map_append]
    congr 1
    · rw [← h2]
      apply List.map_congr_left
      intro i hi
      have : i ≠ k := by have := List.mem_range.1 hi; omega
      simp [this]
    · simp

theorem returns_loop (f : Fin B → C → List X → Prog P V (C × V)) (init : Fin B → C × (P → V)) (xs : Fin B → List (Nat → X))
    (l : Nat) (empty : Nat → V) (b : Fin B) (t) :
    Returns ((loop f xs l).condAt b) (plainBody f xs b) (loop f xs l).maxSteps (initVal init empty b).st t ↔
      t = iter (plainBody f xs b) l ((0, (init b).1), Sum.elim (init b).2 empty) := by
  constructor
  · rintro ⟨n, h, rfl⟩
    have : l = n := by
      rcases h.stop with h | h
      · exact absurd h (by simp [Loop.condAt, loop])
      · simpa [loop] using h
    rw [this]; rfl
  · rintro rfl
    exact ⟨l, ⟨fun _ _ => rfl, .inr rfl, fun m hm => Nat.le_of_eq (by simpa [loop] using hm)⟩, rfl⟩

theorem unbatched_loop (f : Fin B → C → List X → Prog P V (C × V)) (init : Fin B → C × (P → V)) (xs : Fin B → List (Nat → X))
    (l : Nat) (empty : Nat → V) :
    Unbatched (loop f xs l) (plainBody f xs) (fun i => (initVal init empty i).st) :=
  ⟨Unit, fun _ => (), fun _ => true, fun _ => (), fun _ _ => rfl, fun _ _ => rfl, fun _ _ => rfl⟩

/-! ### Theorems: values -/

/-- **C26**, with buffers in the carry: a result is the mathematical scan of what `f` is on plain arrays, on each lane. -/
theorem scan_buffers_value {f : Fin B → C → List X → Prog P V (C × V)} {init : Fin B → C × (P → V)}
    {xs : Fin B → List (Nat → X)} {lens : List Nat} {length : Option Nat} {checkpoints : Checkpoints} {empty : Nat → V}
    {o : Fin B → (C × (P → V)) × List V} (h : Result f init xs lens length checkpoints empty (.ok o)) :
    ∃ n, (∀ l ∈ lens, l = n) ∧ (∀ l, length = some l → l = n) ∧
      ∀ b, o b = scanFold (plainStep (f b)) (init b) (rows (xs b) n) := by
  cases h with
  | @ok l out hl _ hw =>
    obtain ⟨_, hall⟩ := all_of_eraseDups hl
    refine ⟨l, fun x hx => hall x (by simp [hx]), fun x hx => hall x (by simp [hx]), fun b => ?_⟩
    have hr := while_loop_value (lanewise_loop f xs l) (fun _ => rfl) (.inr (unbatched_loop f init xs l empty))
      (kind := .checkpointed _) trivial hw b
    rw [returns_loop] at hr
    obtain ⟨ys', h1, h2⟩ := iter_plain f xs b (init b) empty l
    rw [h1] at hr
    have e1 : (out b).val = (l, (scanFold (plainStep (f b)) (init b) (rows (xs b) l)).1.1) := congrArg Prod.fst hr
    have e2 : (out b).buf.get = Sum.elim (scanFold (plainStep (f b)) (init b) (rows (xs b) l)).1.2 ys' := congrArg Prod.snd hr
    simp only [e1, e2, Sum.elim_inl, Sum.elim_inr]
    rw [show (fun i => ys' i) = ys' from rfl, h2]

/-- **C26**, with buffers in the carry: with consistent positive lengths there is a result, for every valid number of checkpoints. -/
theorem scan_buffers_succeeds (f : Fin B → C → List X → Prog P V (C × V)) (init : Fin B → C × (P → V))
    (xs : Fin B → List (Nat → X)) (lens : List Nat) (length : Option Nat) (checkpoints : Checkpoints) (empty : Nat → V) (n : Nat)
    (hn : 1 ≤ n) (hne : lens ≠ [] ∨ length.isSome) (h1 : ∀ l ∈ lens, l = n) (h2 : ∀ l, length = some l → l = n)
    (hc : ∀ c, checkpoints = .int c → 1 ≤ c) :
    Result f init xs lens length checkpoints empty (.ok (fun b => scanFold (plainStep (f b)) (init b) (rows (xs b) n))) := by
  have hlen : lengths lens length = [n] := by
    apply eraseDups_all
    · rcases hne with h | h
      · simp [h]
      · rw [Option.isSome_iff_exists] at h
        obtain ⟨a, rfl⟩ := h
        simp
    · intro x hx
      rcases List.mem_append.1 hx with h | h
      · exact h1 x h
      · exact h2 x (by simpa using h)
  have hL : (loop f xs n).maxSteps = some n := rfl
  have hacc : ¬ (Kind.checkpointed (checkpoints.value n)).Rejected (loop f xs n).maxSteps := by
    rw [hL]
    rintro ⟨e, he⟩
    obtain ⟨_, _, _, _, r5, r6⟩ := Checkpoint.resolve_spec (checkpoints.value n) (some n)
    cases checkpoints with
    | default => rw [r6 n rfl rfl hn] at he; exact absurd he (by simp)
    | int c => rw [r5 c n rfl (hc c rfl) rfl hn] at he; exact absurd he (by simp)
    | all => rw [r5 n n rfl (by omega) rfl hn] at he; exact absurd he (by simp)
  obtain ⟨out, hout⟩ := ((while_loop_returns (lanewise_loop f xs n) (init := initVal init empty) (fun _ => rfl)
    (.inr (unbatched_loop f init xs n empty)) (kind := .checkpointed _) trivial
    (fun b => ⟨_, (returns_loop f init xs n empty b _).2 rfl⟩)).1).2 hacc
  have hres : Result f init xs lens length checkpoints empty _ := .ok hlen (.inl (by omega)) hout
  obtain ⟨n', h1', h2', h3'⟩ := scan_buffers_value hres
  have hn' : n' = n := by
    rcases hne with h | h
    · obtain ⟨a, as, rfl⟩ := List.exists_cons_of_ne_nil h
      rw [← h1 a (by simp), h1' a (by simp)]
    · rw [Option.isSome_iff_exists] at h
      obtain ⟨a, rfl⟩ := h
      rw [← h2 a rfl, h2' a rfl]
  subst hn'
  have := funext h3'
  rw [← this]
  exact hres

/-- A scan that swaps the entries of a buffer and adds `x` to the first: the program, what it means, and its result over `[5, 7]`. -/
def exF : Fin 1 → Unit → List Nat → Prog Bool Nat (Unit × Nat) := fun _ _ x =>
  .read false fun u => .read true fun v =>
    .write (fun p => if p then some u else some (v + x.sum)) none (.ret ((), u))

example : ∃ o, Result exF (fun _ => ((), fun p => if p then 2 else 1)) (fun _ => [fun i => 5 + 2 * i]) [2] none .all (fun _ => 0)
      (.ok o) ∧ (o 0).2 = [1, 7] ∧ (o 0).1.2 false = 8 ∧ (o 0).1.2 true = 7 :=
  ⟨_, scan_buffers_succeeds exF _ _ [2] none .all _ 2 (by decide) (by simp) (by simp) (by simp) (by simp), rfl, rfl, rfl⟩

/-! ### Model: which arrays become buffers -/

/-- Containers, as far as iterating over them goes. -/
inductive Container where
  | tuple
  | list
  | dict
  /-- a module, say, which is not iterable -/
  | other
deriving DecidableEq

/-- Pytrees of arrays, with the identities of the objects. -/
inductive Obj where
  | array (id : Nat)
  | none
  | node (id : Nat) (kind : Container) (children : List Obj)

mutual
/-- `jtu.tree_leaves` -/
def leaves : Obj → List Nat
  | .array i => [i]
  | .none => []
  | .node _ _ cs => leavesAll cs
def leavesAll : List Obj → List Nat
  | [] => []
  | c :: cs => leaves c ++ leavesAll cs
end

/-- `node is other` -/
def same : Obj → Obj → Bool
  | .array i, .array j => i == j
  | .none, .none => true
  | .node i _ _, .node j _ _ => i == j
  | _, _ => false

mutual
/-- `jtu.tree_map(_find, init, is_leaf=is_leaf)` (217-222): whether a node, or a leaf, is the object `r`. -/
def found (r : Obj) : Obj → Bool
  | .array i => same (.array i) r
  | .none => same .none r
  | .node i k cs => same (.node i k cs) r || foundAny r cs
def foundAny (r : Obj) : List Obj → Bool
  | [] => false
  | c :: cs => found r c || foundAny r cs
end

/-- The arrays that become buffers, given `buffers(init)` and `ys` (210-226, and `common.py`, 401-427, which takes the leaves). The keys
of a dictionary are no part of the loop's state, which `tree_at` refuses. An array that is not part of the carry is refused
by one or the other. -/
def marked (init selected ys : Obj) : Except Err (List Nat) :=
  if found selected init then .ok (leaves selected ++ leaves ys)
  else match selected with
    | .node _ .tuple cs => .ok (leavesAll cs ++ leaves ys)
    | .node _ .list cs => .ok (leavesAll cs ++ leaves ys)
    | .node _ .dict [] => .ok (leaves ys)
    | .node _ .dict _ => .error .valueError
    | .node _ .other _ => .error .typeError
    | .array _ => .error .valueError
    | .none => .error .typeError

/-! ### Specification: which arrays become buffers -/

/-- The object is part of a pytree. -/
inductive Part (r : Obj) : Obj → Prop where
  | self : Part r r
  | child {i : Nat} {k : Container} {c : Obj} {cs : List Obj} : c ∈ cs → Part r c → Part r (.node i k cs)

/-! ### Theorems: which arrays become buffers -/

theorem same_self (r : Obj) : same r r = true := by cases r <;> simp [same]

theorem foundAny_of {r c : Obj} {cs : List Obj} (hc : c ∈ cs) (h : found r c = true) : foundAny r cs = true := by
  induction cs with
  | nil => cases hc
  | cons d ds ih =>
    rw [foundAny, Bool.or_eq_true]
    rcases List.mem_cons.1 hc with rfl | hc
    · exact .inl h
    · exact .inr (ih hc)

theorem found_of_part {r t : Obj} (h : Part r t) : found r t = true := by
  induction h with
  | self => cases r <;> simp [found, same]
  | child hc _ ih =>
    rw [found, Bool.or_eq_true]
    exact .inr (foundAny_of hc ih)

/-- **C26**: the leaves of `buffers(init)` become buffers, and `ys`, if `buffers` returns a part of the carry, or a tuple or list. -/
theorem scan_marks (init selected ys : Obj)
    (h : Part selected init ∨ ∃ i cs, selected = .node i .tuple cs ∨ selected = .node i .list cs) :
    marked init selected ys = .ok (leaves selected ++ leaves ys) := by
  unfold marked
  by_cases hf : found selected init = true
  · rw [if_pos hf]
  · rw [if_neg hf]
    rcases h with h | ⟨i, cs, rfl | rfl⟩
    · exact absurd (found_of_part h) hf
    · rfl
    · rfl

mutual
theorem not_found {i : Nat} : ∀ {t : Obj}, i ∉ leaves t → found (.array i) t = false
  | .array j, h => by
    simp only [leaves, List.mem_singleton] at h
    simp [found, same]
    omega
  | .none, _ => by simp [found, same]
  | .node j k cs, h => by
    simp only [leaves] at h
    simp [found, same, not_foundAny h]
theorem not_foundAny {i : Nat} : ∀ {cs : List Obj}, i ∉ leavesAll cs → foundAny (.array i) cs = false
  | [], _ => rfl
  | c :: cs, h => by
    simp only [leavesAll, List.mem_append, not_or] at h
    simp [foundAny, not_found h.1, not_foundAny h.2]
end

/-- **C26**: an array which is no leaf of the carry is refused. -/
theorem scan_marks_refused (init ys : Obj) (i : Nat) (h : i ∉ leaves init) :
    marked init (.array i) ys = .error .valueError := by
  simp [marked, not_found h]

/-- An array of the carry, and another one. -/
example : marked (.node 1 .tuple [.array 7, .array 9]) (.array 9) (.array 8) = .ok [9, 8] ∧
    marked (.node 1 .tuple [.array 7, .array 9]) (.array 5) (.array 8) = .error .valueError :=
  ⟨scan_marks _ _ _ (.inl (.child (by simp) .self)), scan_marks_refused _ _ _ (by simp [leaves, leavesAll])⟩

/-- Outside of the annotation of `buffers`, which asks for a node or a sequence of nodes: `buffers=lambda carry: dict(a=carry[0])` is
refused, although all its leaves are arrays of the carry (which is what the documentation asks for, and enough for `while_loop`); so
are modules made on the spot. -/
theorem scan_marks_dict : ∃ init a : Obj, Part a init ∧ leaves a = [7] ∧
    marked init (.node 100 .dict [a]) (.array 8) = .error .valueError ∧
    marked init (.node 100 .other [a]) (.array 8) = .error .typeError ∧
    marked init (.node 100 .tuple [a]) (.array 8) = .ok [7, 8] :=
  ⟨.node 1 .tuple [.array 7, .array 9], .array 7, .child (by simp) .self, rfl, rfl, rfl, rfl⟩

end Buffers
end Scan
end Verif
