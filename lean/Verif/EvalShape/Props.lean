import Verif.EvalShape.Model
import Verif.Custom.Props
import Verif.PyTree.Maps

/-!
# C69: evaluating shapes
-/

namespace Verif
namespace EvalShape

open PT
open Filters

variable {K V O Q R : Type}

/-! ## Specification -/

/-- What the function sees in place of a leaf: an array of that shape and dtype for arrays and structs, and everything else itself. -/
def seen (canon : Nat → Nat) : Leaf V O → Tr O
  | .arr ⟨s, d, w⟩ _ => .tracer ⟨s, canon d, w⟩
  | .struct ⟨s, d, w⟩ => .tracer ⟨s, canon d, w⟩
  | .obj o => .obj o

/-- What is reported for a leaf of the output: the shape and dtype of an array, and everything else itself. -/
def reported : Tr O → Leaf V O
  | .tracer a => .struct a
  | .struct a => .struct a
  | .obj o => .obj o

/-- `==` tells all objects and all containers apart. -/
def World.Exact (W : World K O Q R) : Prop := (∀ a b, W.cls a = W.cls b → a = b) ∧ (∀ a b, W.ccls a = W.ccls b → a = b)

/-- `k` is a container somewhere in the tree. -/
inductive Inside {α : Type} (k : K) : PT K α → Prop
  | here (cs : List (PT K α)) : Inside k (.node k cs)
  | under (k' : K) (cs : List (PT K α)) (c : PT K α) (hc : c ∈ cs) (h : Inside k c) : Inside k (.node k' cs)

/-- Everything in the tree can be hashed, once arrays have been replaced by structs. -/
def Hashable (W : World K O Q R) (x : PT K (Leaf V O)) : Prop :=
  (∀ o, .obj o ∈ x.leaves → W.hashable o = true) ∧ ∀ k, Inside k x → W.chashable k = true

/-- Two leaves are equal: arrays and structs if shape and dtype are, other objects if `==` says so.  Arrays have lost their weak type. -/
def SameLeaf (W : World K O Q R) : Leaf V O → Leaf V O → Prop
  | .arr a _, .arr b _ => a.shape = b.shape ∧ a.dtype = b.dtype
  | .arr a _, .struct b => a.shape = b.shape ∧ a.dtype = b.dtype ∧ b.weak = false
  | .struct a, .arr b _ => a.shape = b.shape ∧ a.dtype = b.dtype ∧ a.weak = false
  | .struct a, .struct b => a = b
  | .obj o, .obj o' => W.cls o = W.cls o'
  | _, _ => False

mutual
/-- The same tree as far as `==` tells. -/
def Same (W : World K O Q R) : PT K (Leaf V O) → PT K (Leaf V O) → Prop
  | .leaf a, .leaf b => SameLeaf W a b
  | .none, .none => True
  | .node k cs, .node k' cs' => W.ccls k = W.ccls k' ∧ SameAll W cs cs'
  | _, _ => False
def SameAll (W : World K O Q R) : List (PT K (Leaf V O)) → List (PT K (Leaf V O)) → Prop
  | [], [] => True
  | c :: cs, c' :: cs' => Same W c c' ∧ SameAll W cs cs'
  | _, _ => False
end

/-- No array is weakly typed. -/
def Strong (x : PT K (Leaf V O)) : Prop := ∀ a v, .arr a v ∈ x.leaves → a.weak = false

/-! ## `filter_eval_shape` -/

theorem unflatten_map {α β : Type} (t : PT K α) (g : α → β) :
    treeUnflatten t.shape ((t.leaves.map g).map .leaf) = .ok (t.map g) := by
  have := treeUnflatten_shape (t.map fun a => (.leaf (g a) : PT K β))
  rw [shape_map, leaves_map] at this
  rw [List.map_map]
  have e : ((fun a : β => (.leaf a : PT K β)) ∘ g) = fun a => .leaf (g a) := rfl
  rw [e, this]
  have := join_map_leaf (t.map g)
  rw [map_map] at this
  rw [this]

theorem part_eq {α : Type} [DecidableEq K] (q : α → Bool) (x : PT K α) :
    part q x = .ok (withNones (x.map (AD.keep q)), withNones (x.map (AD.drop q))) := by
  rw [part, partition_callable_closed]
  rfl

theorem combine_two [DecidableEq K] {α δ : Type} (m : PT K δ) (f g : δ → Option α) (h : δ → α)
    (hh : ∀ a ∈ m.leaves, ((f a).or (g a)) = some (h a)) :
    combine noLeaf [withNones (m.map f), withNones (m.map g)] = .ok (m.map h) := by
  have := combine_closed m [f, g] (by simp)
  simp only [List.map_cons, List.map_nil] at this
  rw [this, ← withNones_some m h]
  congr 2
  apply map_congr_leaves
  intro a ha
  rw [← hh a ha]
  simp only [List.findSome?_cons, List.findSome?_nil]
  cases f a <;> cases g a <;> rfl

theorem traced_eq [DecidableEq K] (W : World K O Q R) (x : PT K (Leaf V O)) :
    traced W ((withNones (x.map (AD.drop Leaf.dynamic))).map Leaf.asStatic) ((withNones (x.map (AD.keep Leaf.dynamic))).map (seen W.canon)) =
      (W.apply (x.map (seen W.canon))).bind fun out =>
        .ok (withNones (out.map (AD.keep Tr.dynamic)), withNones (out.map (AD.drop Tr.dynamic))) := by
  rw [withNones_map, withNones_map]
  simp only [traced, bind]
  rw [combine_two x _ _ (seen W.canon)]
  · simp only [Except.bind]
    cases W.apply (x.map (seen W.canon)) with
    | error e => rfl
    | ok out => exact part_eq _ out
  · intro a _
    cases a <;> rfl

theorem tracer_ok [DecidableEq K] (W : World K O Q R) (x : PT K (Leaf V O)) :
    mapE W.tracer (withNones (x.map (AD.keep Leaf.dynamic))).leaves =
      .ok ((withNones (x.map (AD.keep Leaf.dynamic))).leaves.map (seen W.canon)) := by
  rw [mapE_ok]
  refine ⟨by simp, ?_⟩
  intro i a ha
  refine ⟨seen W.canon a, by rw [List.getElem?_map, ha]; rfl, ?_⟩
  have hm := List.mem_of_getElem? ha
  rw [AD.leaves_keep, List.mem_filter] at hm
  cases a with
  | arr a v => rfl
  | struct a => rfl
  | obj o => simp [Leaf.dynamic] at hm

theorem outDynamic_ok [DecidableEq K] (out : PT K (Tr O)) (h : ∀ a, .struct a ∉ out.leaves) :
    mapE outDynamic (withNones (out.map (AD.keep Tr.dynamic))).leaves = .ok ((withNones (out.map (AD.keep Tr.dynamic))).leaves.map (reported (V := V))) := by
  rw [mapE_ok]
  refine ⟨by simp, ?_⟩
  intro i a ha
  refine ⟨reported a, by rw [List.getElem?_map, ha]; rfl, ?_⟩
  have hm := List.mem_of_getElem? ha
  rw [AD.leaves_keep, List.mem_filter] at hm
  cases a with
  | tracer a => rfl
  | struct a => exact absurd hm.1 (h a)
  | obj o => simp [Tr.dynamic] at hm

/-- **C69**, `filter_eval_shape`: the function is called once, with every array and every struct replaced by a tracer of its shape and dtype and
everything else as it is; its exceptions come through, and in its output every array is replaced by its shape and dtype.  In
particular the values of the arrays do not matter. -/
theorem eval_shape_spec [DecidableEq K] (W : World K O Q R) (x : PT K (Leaf V O)) :
    (∀ e, W.apply (x.map (seen W.canon)) = .error e → filterEvalShape W x = .error e) ∧
    (∀ out, W.apply (x.map (seen W.canon)) = .ok out → (∀ a, .struct a ∉ out.leaves) → filterEvalShape W x = .ok (out.map reported)) ∧
    (∀ out, W.apply (x.map (seen W.canon)) = .ok out → (∃ a, .struct a ∈ out.leaves) → filterEvalShape W x = .error .typeError) := by
  have key : filterEvalShape W x = (W.apply (x.map (seen W.canon))).bind fun out =>
      (mapE outDynamic (withNones (out.map (AD.keep Tr.dynamic))).leaves).bind fun flat =>
        (treeUnflatten (withNones (out.map (AD.keep Tr.dynamic))).shape (flat.map .leaf)).bind fun d =>
          combine noLeaf [d, (withNones (out.map (AD.drop Tr.dynamic))).map outStatic] := by
    simp only [filterEvalShape, bind, part_eq]
    simp only [Except.bind, tracer_ok]
    rw [unflatten_map]
    simp only
    rw [traced_eq]
    cases W.apply (x.map (seen W.canon)) <;> rfl
  refine ⟨?_, ?_, ?_⟩
  · intro e he
    rw [key, he]; rfl
  · intro out ho hs
    rw [key, ho]
    simp only [Except.bind]
    rw [outDynamic_ok out hs]
    simp only
    rw [unflatten_map]
    simp only
    rw [withNones_map, withNones_map]
    apply combine_two
    intro a _
    cases a <;> rfl
  · rintro out ho ⟨a, ha⟩
    rw [key, ho]
    simp only [Except.bind]
    have : mapE (outDynamic (V := V)) (withNones (out.map (AD.keep Tr.dynamic))).leaves = .error .typeError := by
      cases hm : mapE (outDynamic (V := V)) (withNones (out.map (AD.keep Tr.dynamic))).leaves with
      | error e =>
        obtain ⟨b, _, hb⟩ := mapE_error hm
        cases b <;> simp [outDynamic] at hb <;> rw [hb]
      | ok ys =>
        rw [mapE_ok] at hm
        have hmem : Tr.struct a ∈ (withNones (out.map (AD.keep Tr.dynamic))).leaves := by
          rw [AD.leaves_keep, List.mem_filter]; exact ⟨ha, rfl⟩
        obtain ⟨i, hi⟩ := List.getElem?_of_mem hmem
        obtain ⟨y, _, hy⟩ := hm.2 i _ hi
        simp [outDynamic] at hy
    rw [this]

/-- The values of arrays do not matter, nor whether it is an array or a struct. -/
theorem eval_shape_values [DecidableEq K] (W : World K O Q R) (x y : PT K (Leaf V O)) (h : x.map (seen W.canon) = y.map (seen W.canon)) :
    filterEvalShape W x = filterEvalShape W y := by
  obtain ⟨a1, a2, a3⟩ := eval_shape_spec W x
  obtain ⟨b1, b2, b3⟩ := eval_shape_spec W y
  rw [h] at a1 a2 a3
  cases hy : W.apply (y.map (seen W.canon)) with
  | error e => rw [a1 e hy, b1 e hy]
  | ok out =>
    by_cases hs : ∃ a, .struct a ∈ out.leaves
    · rw [a3 out hy hs, b3 out hy hs]
    · have hs' : ∀ a, .struct a ∉ out.leaves := fun a ha => hs ⟨a, ha⟩
      rw [a2 out hy hs', b2 out hy hs']

/-- **C69**: if running a function agrees with tracing it, then `filter_eval_shape` predicts the shapes and dtypes of what it returns. -/
theorem eval_shape_sound [DecidableEq K] (W : World K O Q R) (f : PT K (Leaf V O) → Except Err (PT K (Leaf V O))) (x y : PT K (Leaf V O))
    (hf : ∀ x y, f x = .ok y → W.apply (x.map (seen W.canon)) = .ok (y.map (seen W.canon))) (h : f x = .ok y) :
    ∃ s : PT K (Leaf V O), filterEvalShape W x = .ok s ∧ s.shape = y.shape ∧
      ∀ (i : Nat) (a : Leaf V O), y.leaves[i]? = some a → ∃ b : Leaf V O, s.leaves[i]? = some b ∧
        (∀ sh d w v, a = .arr ⟨sh, d, w⟩ v → b = .struct ⟨sh, W.canon d, w⟩) ∧ (∀ o, a = .obj o → b = .obj o) := by
  refine ⟨_, (eval_shape_spec W x).2.1 _ (hf x y h) ?_, ?_, ?_⟩
  · intro a ha
    rw [leaves_map, List.mem_map] at ha
    obtain ⟨b, _, hb⟩ := ha
    cases b <;> simp [seen] at hb
  · rw [shape_map, shape_map]
  · intro i a ha
    refine ⟨reported (seen W.canon a), by rw [leaves_map, leaves_map, List.map_map, List.getElem?_map, ha]; rfl, ?_, ?_⟩
    · rintro sh d w v rfl; rfl
    · rintro o rfl; rfl

/-! ## The cache -/

section cache
variable [DecidableEq K] [DecidableEq Q] [DecidableEq R]

omit [DecidableEq K] [DecidableEq Q] [DecidableEq R] in
theorem defHashable_map {α β : Type} (W : World K O Q R) (g : α → β) (x : PT K α) : W.defHashable (x.map g) = W.defHashable x := by
  induction x using ind with
  | leaf a => rfl
  | none => rfl
  | node k cs ih =>
    have : ∀ l : List (PT K α), (∀ c ∈ l, W.defHashable (c.map g) = W.defHashable c) → W.defsHashable (l.map (PT.map g)) = W.defsHashable l := by
      intro l
      induction l with
      | nil => intro _; rfl
      | cons c l ihl =>
        intro h
        simp only [List.map_cons, World.defsHashable, h c (by simp), ihl fun c hc => h c (by simp [hc])]
    simp only [PT.map, mapL_eq, World.defHashable, this cs ih]

omit [DecidableEq K] [DecidableEq Q] [DecidableEq R] in
theorem defHashable_iff {α : Type} (W : World K O Q R) (x : PT K α) : W.defHashable x = true ↔ ∀ k, Inside k x → W.chashable k = true := by
  induction x using ind with
  | leaf a => exact Iff.intro (fun _ k h => nomatch h) (fun _ => rfl)
  | none => exact Iff.intro (fun _ k h => nomatch h) (fun _ => rfl)
  | node k cs ih =>
    have : ∀ l : List (PT K α), (W.defsHashable l = true ↔ ∀ c ∈ l, W.defHashable c = true) := by
      intro l
      induction l with
      | nil => simp [World.defsHashable]
      | cons c l ihl => simp [World.defsHashable, ihl]
    rw [World.defHashable, Bool.and_eq_true, this]
    constructor
    · rintro ⟨h1, h2⟩ k' hk
      cases hk with
      | here => exact h1
      | under _ _ c hc h => exact (ih c hc).1 (h2 c hc) k' h
    · intro h
      exact ⟨h k (.here cs), fun c hc => (ih c hc).2 fun k' hk => h k' (.under k cs c hc hk)⟩

omit [DecidableEq K] [DecidableEq Q] [DecidableEq R] in
theorem hashable_iff (W : World K O Q R) (x : PT K (Leaf V O)) :
    ((x.map toStruct).leaves.all W.leafHashable && W.defHashable (x.map toStruct)) = true ↔ Hashable W x := by
  rw [Bool.and_eq_true, defHashable_map, defHashable_iff, leaves_map, List.all_map, List.all_eq_true, Hashable]
  constructor
  · rintro ⟨h1, h2⟩
    exact ⟨fun o ho => h1 _ ho, h2⟩
  · rintro ⟨h1, h2⟩
    refine ⟨fun a ha => ?_, h2⟩
    cases a with
    | arr a v => rfl
    | struct a => rfl
    | obj o => exact h1 o ha

/-- The same entry of the cache. -/
def SameKey (W : World K O Q R) (x y : PT K (Leaf V O)) : Prop := W.key (x.map toStruct) = W.key (y.map toStruct)

omit [DecidableEq K] [DecidableEq Q] [DecidableEq R] in
theorem sameLeaf_iff (W : World K O Q R) (a b : Leaf V O) : W.leafKey (toStruct a) = W.leafKey (toStruct b) ↔ SameLeaf W a b := by
  cases a <;> cases b <;> simp [toStruct, World.leafKey, SameLeaf]
  · rename_i a _ b
    obtain ⟨s, d, w⟩ := b
    simp [eq_comm]
  · rename_i a b _
    obtain ⟨s, d, w⟩ := a
    simp

omit [DecidableEq K] [DecidableEq Q] [DecidableEq R] in
theorem leaves_length_of_defKey {α β : Type} (W : World K O Q R) (x : PT K α) (y : PT K β) (h : W.defKey x = W.defKey y) :
    x.leaves.length = y.leaves.length := by
  induction x using ind generalizing y with
  | leaf a => cases y <;> simp [World.defKey] at h; rfl
  | none => cases y <;> simp [World.defKey] at h; rfl
  | node k cs ih =>
    cases y with
    | leaf b => simp [World.defKey] at h
    | none => simp [World.defKey] at h
    | node k' cs' =>
      simp only [World.defKey, PT.node.injEq] at h
      have key : ∀ (l : List (PT K α)) (l' : List (PT K β)),
          (∀ c ∈ l, ∀ y : PT K β, W.defKey c = W.defKey y → c.leaves.length = y.leaves.length) →
          W.defKeys l = W.defKeys l' → (l.flatMap leaves).length = (l'.flatMap leaves).length := by
        intro l
        induction l with
        | nil => intro l' _ hl; cases l' <;> simp [World.defKeys] at hl ⊢
        | cons c l ihl =>
          intro l' hc hl
          cases l' with
          | nil => simp [World.defKeys] at hl
          | cons c' l' =>
            simp only [World.defKeys, List.cons.injEq] at hl
            simp only [List.flatMap_cons, List.length_append, hc c (by simp) c' hl.1, ihl l' (fun c hc' => hc c (by simp [hc'])) hl.2]
      have := key cs cs' ih h.2
      simpa only [leaves, leavesL_eq] using this

omit [DecidableEq K] [DecidableEq Q] [DecidableEq R] in
/-- The key decides exactly this. -/
theorem sameKey_iff (W : World K O Q R) (x y : PT K (Leaf V O)) : SameKey W x y ↔ Same W x y := by
  induction x using ind generalizing y with
  | leaf a =>
    cases y <;> simp [SameKey, World.key, PT.map, leaves, World.defKey, Same, sameLeaf_iff]
  | none => cases y <;> simp [SameKey, World.key, PT.map, leaves, World.defKey, Same]
  | node k cs ih =>
    cases y with
    | leaf b => simp [SameKey, World.key, PT.map, World.defKey, Same]
    | none => simp [SameKey, World.key, PT.map, World.defKey, Same]
    | node k' cs' =>
      have key : ∀ l l' : List (PT K (Leaf V O)), (∀ c ∈ l, ∀ y, SameKey W c y ↔ Same W c y) →
          (((l.map (PT.map toStruct)).flatMap leaves).map W.leafKey = ((l'.map (PT.map toStruct)).flatMap leaves).map W.leafKey ∧
            W.defKeys (l.map (PT.map toStruct)) = W.defKeys (l'.map (PT.map toStruct)) ↔ SameAll W l l') := by
        intro l
        induction l with
        | nil => intro l' _; cases l' <;> simp [World.defKeys, SameAll]
        | cons c l ihl =>
          intro l' hc
          cases l' with
          | nil => simp [World.defKeys, SameAll]
          | cons c' l' =>
            simp only [List.map_cons, List.flatMap_cons, List.map_append, World.defKeys, List.cons.injEq, SameAll]
            rw [← hc c (by simp) c', ← ihl l' fun c hc' => hc c (by simp [hc'])]
            simp only [SameKey, World.key, Prod.mk.injEq]
            constructor
            · rintro ⟨h1, h2, h3⟩
              have hl := leaves_length_of_defKey W _ _ h2
              have h4 := List.append_inj h1 (by simpa using hl)
              exact ⟨⟨h4.1, h2⟩, h4.2, h3⟩
            · rintro ⟨⟨h1, h2⟩, h3, h4⟩
              exact ⟨by rw [h1, h3], h2, h4⟩
      have := key cs cs' ih
      simp only [SameKey, World.key, PT.map, mapL_eq, leaves, leavesL_eq, World.defKey, Prod.mk.injEq, PT.node.injEq, Same]
      rw [← this]
      constructor
      · rintro ⟨h1, h2, h3⟩
        exact ⟨h2, h1, h3⟩
      · rintro ⟨h2, h1, h3⟩
        exact ⟨h1, h2, h3⟩

/-- Every entry is the result for an earlier call. -/
def Inv (W : World K O Q R) (calls : List (PT K (Leaf V O))) (s : St K V O Q R) : Prop :=
  ∀ k y, lookup k s.cache = some y → ∃ x ∈ calls, W.key (x.map toStruct) = k ∧ filterEvalShape W (x.map toStruct) = .ok y

/-- The calls in a history. -/
def callsOf : List (Event K V O) → List (PT K (Leaf V O))
  | [] => []
  | .call x :: h => x :: callsOf h
  | .clear :: h => callsOf h

omit [DecidableEq K] in
theorem callsOf_append (h h' : List (Event K V O)) : callsOf (h ++ h') = callsOf h ++ callsOf h' := by
  induction h with
  | nil => rfl
  | cons e h ih => cases e <;> simp [callsOf, ih]

omit [DecidableEq K] in
theorem mem_callsOf (h : List (Event K V O)) (x : PT K (Leaf V O)) : x ∈ callsOf h ↔ .call x ∈ h := by
  induction h with
  | nil => simp [callsOf]
  | cons e h ih => cases e <;> simp [callsOf, ih]

theorem inv_mono (W : World K O Q R) {c c' : List (PT K (Leaf V O))} {s : St K V O Q R} (h : Inv W c s) (hc : ∀ x ∈ c, x ∈ c') : Inv W c' s := by
  intro k y hk
  obtain ⟨x, h1, h2⟩ := h k y hk
  exact ⟨x, hc x h1, h2⟩

/-- What a call returns and leaves behind. -/
theorem cached_cases (W : World K O Q R) (s : St K V O Q R) (x : PT K (Leaf V O)) :
    (¬ Hashable W x ∧ cached W s x = (.error .typeError, s)) ∨
    (Hashable W x ∧ ∃ y, lookup (W.key (x.map toStruct)) s.cache = some y ∧ cached W s x = (.ok y, s)) ∨
    (Hashable W x ∧ lookup (W.key (x.map toStruct)) s.cache = Option.none ∧ ∃ y, filterEvalShape W (x.map toStruct) = .ok y ∧
      cached W s x = (.ok y, ⟨(W.key (x.map toStruct), y) :: s.cache, s.traces + 1⟩)) ∨
    (Hashable W x ∧ lookup (W.key (x.map toStruct)) s.cache = Option.none ∧ ∃ e, filterEvalShape W (x.map toStruct) = .error e ∧
      cached W s x = (.error e, { s with traces := s.traces + 1 })) := by
  simp only [cached, cachedLookup]
  by_cases hh : Hashable W x
  · right
    rw [if_pos ((hashable_iff W x).2 hh)]
    cases hl : lookup (W.key (x.map toStruct)) s.cache with
    | some y => exact .inl ⟨hh, y, rfl, rfl⟩
    | none =>
      right
      cases hf : filterEvalShape W (x.map toStruct) with
      | ok y => exact .inl ⟨hh, rfl, y, rfl, rfl⟩
      | error e => exact .inr ⟨hh, rfl, e, rfl, rfl⟩
  · left
    exact ⟨hh, if_neg fun h => hh ((hashable_iff W x).1 h)⟩

theorem inv_step (W : World K O Q R) (c : List (PT K (Leaf V O))) (s : St K V O Q R) (e : Event K V O) (h : Inv W c s) :
    Inv W (c ++ callsOf [e]) (step W s e) := by
  cases e with
  | clear => intro k y hk; simp [step, clearCaches, lookup] at hk
  | call x =>
    simp only [step]
    rcases cached_cases W s x with ⟨_, hc⟩ | ⟨_, y, _, hc⟩ | ⟨_, _, y, hy, hc⟩ | ⟨_, _, e, _, hc⟩ <;> rw [hc]
    · exact inv_mono W h (by simp +contextual)
    · exact inv_mono W h (by simp +contextual)
    · intro k z hk
      simp only [lookup] at hk
      split at hk
      · rename_i hkx
        injection hk with hk
        exact ⟨x, by simp [callsOf], hkx, by rw [hy, hk]⟩
      · obtain ⟨x', h1, h2⟩ := h k z hk
        exact ⟨x', by simp [h1], h2⟩
    · exact inv_mono W h (by simp +contextual)

theorem inv_run (W : World K O Q R) (h : List (Event K V O)) : Inv W (callsOf h) (run W h) := by
  have : ∀ (h : List (Event K V O)) (c : List (PT K (Leaf V O))) (s : St K V O Q R), Inv W c s → Inv W (c ++ callsOf h) (h.foldl (step W) s) := by
    intro h
    induction h with
    | nil => intro c s hs; simpa [callsOf] using hs
    | cons e h ih =>
      intro c s hs
      have h1 := ih _ _ (inv_step W c s e hs)
      rw [List.append_assoc, ← callsOf_append] at h1
      exact h1
  have h0 := this h [] ⟨[], 0⟩ (by intro k y hk; simp [lookup] at hk)
  rw [List.nil_append] at h0
  exact h0

/-- **C69**, `cached_filter_eval_shape` after any history of calls and `clear_caches`: the result is that of `filter_eval_shape` for this call or an earlier
one which equals it under `==`; what cannot be hashed raises a TypeError. -/
theorem cached_spec (W : World K O Q R) (h : List (Event K V O)) (x : PT K (Leaf V O)) :
    (Hashable W x → ∃ y, (y = x ∨ .call y ∈ h) ∧ Same W y x ∧ (cached W (run W h) x).1 = filterEvalShape W (y.map toStruct)) ∧
    (¬ Hashable W x → (cached W (run W h) x).1 = .error .typeError) := by
  constructor
  · intro hh
    rcases cached_cases W (run W h) x with ⟨hn, hc⟩ | ⟨_, y, hy, hc⟩ | ⟨_, _, y, hy, hc⟩ | ⟨_, _, e, hy, hc⟩
    · exact absurd hh hn
    · obtain ⟨z, h1, h2, h3⟩ := inv_run W h _ y hy
      exact ⟨z, .inr ((mem_callsOf h z).1 h1), (sameKey_iff W z x).1 h2, by rw [hc, h3]⟩
    · exact ⟨x, .inl rfl, (sameKey_iff W x x).1 rfl, by rw [hc, hy]⟩
    · exact ⟨x, .inl rfl, (sameKey_iff W x x).1 rfl, by rw [hc, hy]⟩
  · intro hn
    rcases cached_cases W (run W h) x with ⟨_, hc⟩ | ⟨hh, _⟩ | ⟨hh, _⟩ | ⟨hh, _⟩
    · rw [hc]
    all_goals exact absurd hh hn

omit [DecidableEq K] [DecidableEq Q] [DecidableEq R] in
theorem shape_of_defKey {α β : Type} (W : World K O Q R) (hW : ∀ a b, W.ccls a = W.ccls b → a = b) (x : PT K α) (y : PT K β)
    (h : W.defKey x = W.defKey y) : x.shape = y.shape := by
  induction x using ind generalizing y with
  | leaf a => cases y <;> simp [World.defKey] at h; rfl
  | none => cases y <;> simp [World.defKey] at h; rfl
  | node k cs ih =>
    cases y with
    | leaf b => simp [World.defKey] at h
    | none => simp [World.defKey] at h
    | node k' cs' =>
      simp only [World.defKey, PT.node.injEq] at h
      have hk := hW _ _ h.1
      subst hk
      have key : ∀ (l : List (PT K α)) (l' : List (PT K β)), (∀ c ∈ l, ∀ y : PT K β, W.defKey c = W.defKey y → c.shape = y.shape) →
          W.defKeys l = W.defKeys l' → l.map shape = l'.map shape := by
        intro l
        induction l with
        | nil => intro l' _ hl; cases l' <;> simp [World.defKeys] at hl ⊢
        | cons c l ihl =>
          intro l' hc hl
          cases l' with
          | nil => simp [World.defKeys] at hl
          | cons c' l' =>
            simp only [World.defKeys, List.cons.injEq] at hl
            simp only [List.map_cons, hc c (by simp) c' hl.1, ihl l' (fun c hc' => hc c (by simp [hc'])) hl.2]
      have := key cs cs' ih h.2
      simp only [shape, PT.map, mapL_eq]
      congr 1

omit [DecidableEq K] [DecidableEq Q] [DecidableEq R] in
theorem leafKey_inj (W : World K O Q R) (hW : ∀ a b, W.cls a = W.cls b → a = b) (a b : Leaf V O)
    (h : W.leafKey (toStruct a) = W.leafKey (toStruct b)) : toStruct a = toStruct b := by
  cases a <;> cases b <;> simp [toStruct, World.leafKey] at h ⊢ <;> first | exact h | exact hW _ _ h

omit [DecidableEq K] [DecidableEq Q] [DecidableEq R] in
/-- If `==` tells everything apart, so does the key. -/
theorem key_exact (W : World K O Q R) (hW : W.Exact) (x y : PT K (Leaf V O)) (h : SameKey W x y) : x.map toStruct = y.map toStruct := by
  simp only [SameKey, World.key, Prod.mk.injEq] at h
  apply eq_of_shape_leaves (shape_of_defKey W hW.2 _ _ h.2)
  have h1 := h.1
  rw [leaves_map, leaves_map] at h1 ⊢
  generalize x.leaves = l at h1
  generalize y.leaves = l' at h1
  induction l generalizing l' with
  | nil => cases l' <;> simp at h1 ⊢
  | cons a l ih =>
    cases l' with
    | nil => simp at h1
    | cons b l' =>
      simp only [List.map_cons, List.cons.injEq] at h1 ⊢
      exact ⟨leafKey_inj W hW.1 a b h1.1, ih l' h1.2⟩

omit [DecidableEq K] in
/-- Arrays which are not weakly typed look like their structs. -/
theorem seen_toStruct (canon : Nat → Nat) (x : PT K (Leaf V O)) (hx : Strong x) : (x.map toStruct).map (seen canon) = x.map (seen canon) := by
  rw [map_map]
  apply map_congr_leaves
  intro a ha
  cases a with
  | arr a v =>
    have := hx a v ha
    obtain ⟨s, d, w⟩ := a
    simp only at this
    subst this
    rfl
  | struct a => rfl
  | obj o => rfl

/-- **C69**, the same result as `filter_eval_shape` without cache, after any history.

Missing: this for objects which `==` does not tell apart (`cached_equal_objects`) and for weakly typed arrays (`cached_weak`). -/
theorem cached_exact_partial (W : World K O Q R) (hW : W.Exact) (h : List (Event K V O)) (x : PT K (Leaf V O)) (hh : Hashable W x) (hx : Strong x) :
    (cached W (run W h) x).1 = filterEvalShape W x := by
  obtain ⟨y, _, h2, h3⟩ := (cached_spec W h x).1 hh
  rw [h3, key_exact W hW y x ((sameKey_iff W y x).2 h2)]
  exact eval_shape_values W _ _ (seen_toStruct W.canon x hx)

theorem lookup_step (W : World K O Q R) (s : St K V O Q R) (e : Event K V O) (he : e ≠ .clear) (k : Key Q R) (y : PT K (Leaf V O))
    (h : lookup k s.cache = some y) : lookup k (step W s e).cache = some y := by
  cases e with
  | clear => exact absurd rfl he
  | call x =>
    simp only [step]
    rcases cached_cases W s x with ⟨_, hc⟩ | ⟨_, y, _, hc⟩ | ⟨_, hn, z, hy, hc⟩ | ⟨_, _, e, _, hc⟩ <;> rw [hc]
    · exact h
    · exact h
    · simp only [lookup]
      rw [if_neg, h]
      intro hk
      rw [hk, h] at hn
      contradiction
    · exact h

/-- **C69**: after a call that returned, and until the caches are cleared, equal calls return the same and do not run the function again. -/
theorem cached_once (W : World K O Q R) (h h' : List (Event K V O)) (x x' y : PT K (Leaf V O)) (hx : (cached W (run W h) x).1 = .ok y)
    (hh' : .clear ∉ h') (hs : Same W x' x) (hh : Hashable W x') :
    cached W (run W (h ++ .call x :: h')) x' = (.ok y, run W (h ++ .call x :: h')) := by
  have hk := (sameKey_iff W x' x).2 hs
  have h0 : lookup (W.key (x.map toStruct)) (cached W (run W h) x).2.cache = some y := by
    rcases cached_cases W (run W h) x with ⟨_, hc⟩ | ⟨_, z, hz, hc⟩ | ⟨_, hn, z, hy, hc⟩ | ⟨_, _, e, _, hc⟩ <;> rw [hc] at hx ⊢
    · simp at hx
    · injection hx with hx; rw [← hx]; exact hz
    · injection hx with hx; simp [lookup, hx]
    · simp at hx
  have h1 : ∀ (h' : List (Event K V O)) (s : St K V O Q R), .clear ∉ h' → lookup (W.key (x.map toStruct)) s.cache = some y →
      lookup (W.key (x.map toStruct)) (h'.foldl (step W) s).cache = some y := by
    intro h'
    induction h' with
    | nil => intro s _ hs; exact hs
    | cons e h' ih =>
      intro s hc hs
      simp only [List.mem_cons, not_or] at hc
      exact ih _ hc.2 (lookup_step W s e (fun he => hc.1 he.symm) _ _ hs)
  have h2 : lookup (W.key (x'.map toStruct)) (run W (h ++ .call x :: h')).cache = some y := by
    rw [hk]
    simp only [run, List.foldl_append, List.foldl_cons, step]
    exact h1 h' _ hh' h0
  rcases cached_cases W (run W (h ++ .call x :: h')) x' with ⟨hn, hc⟩ | ⟨_, z, hz, hc⟩ | ⟨_, hn, z, hy, hc⟩ | ⟨_, hn, e, _, hc⟩
  · exact absurd hh hn
  · rw [h2] at hz; injection hz with hz; rw [hc, hz]
  · rw [h2] at hn; contradiction
  · rw [h2] at hn; contradiction

/-- **C69**: `clear_caches` makes the next call run the function. Exceptions are not kept: a call that raises runs it as well. -/
theorem cached_runs (W : World K O Q R) (h : List (Event K V O)) (x : PT K (Leaf V O)) (hh : Hashable W x) :
    (cached W (run W (h ++ [.clear])) x).1 = filterEvalShape W (x.map toStruct) ∧
    (cached W (run W (h ++ [.clear])) x).2.traces = (run W h).traces + 1 ∧
    (∀ e, (cached W (run W h) x).1 = .error e → (cached W (run W h) x).2.traces = (run W h).traces + 1) := by
  have hr : run W (h ++ [.clear]) = ⟨[], (run W h).traces⟩ := by simp [run, step, clearCaches]
  refine ⟨?_, ?_, ?_⟩
  · rcases cached_cases W (run W (h ++ [.clear])) x with ⟨hn, hc⟩ | ⟨_, z, hz, hc⟩ | ⟨_, hn, z, hy, hc⟩ | ⟨_, hn, e, he, hc⟩
    · exact absurd hh hn
    · rw [hr] at hz; simp [lookup] at hz
    · rw [hc, hy]
    · rw [hc, he]
  · rcases cached_cases W (run W (h ++ [.clear])) x with ⟨hn, hc⟩ | ⟨_, z, hz, hc⟩ | ⟨_, hn, z, hy, hc⟩ | ⟨_, hn, e, he, hc⟩
    · exact absurd hh hn
    · rw [hr] at hz; simp [lookup] at hz
    · rw [hc, hr]
    · rw [hc, hr]
  · intro e he
    rcases cached_cases W (run W h) x with ⟨hn, hc⟩ | ⟨_, z, hz, hc⟩ | ⟨_, hn, z, hy, hc⟩ | ⟨_, hn, e, he', hc⟩
    · exact absurd hh hn
    · rw [hc] at he; simp at he
    · rw [hc] at he; simp at he
    · rw [hc]

end cache

/-! ## `eval_zero` and the others -/

/-- **C69**, `eval_empty`, `eval_zero`, `eval_full`: in the output every array is replaced by an array of its shape and dtype filled with the value; output
other than arrays raises an AttributeError. -/
theorem eval_full_spec [DecidableEq K] (W : World K O Q R) (fill : Aval → V) (x : PT K (Leaf V O)) :
    (∀ e, filterEvalShape W x = .error e → evalFull W fill x = .error e) ∧
    (∀ out, W.apply (x.map (seen W.canon)) = .ok out → (∀ a ∈ out.leaves, ∃ b, a = .tracer b) →
      ∃ r, evalFull W fill x = .ok r ∧ r.shape = out.shape ∧ ∀ (i : Nat) (s : List Nat) (d : Nat) (w : Bool), out.leaves[i]? = some (.tracer ⟨s, d, w⟩) →
        r.leaves[i]? = some (.arr ⟨s, d, false⟩ (fill ⟨s, d, false⟩))) ∧
    (∀ out o, W.apply (x.map (seen W.canon)) = .ok out → (∀ a, .struct a ∉ out.leaves) → .obj o ∈ out.leaves →
      evalFull W fill x = .error .attributeError) := by
  refine ⟨?_, ?_, ?_⟩
  · intro e he
    simp only [evalFull, he, bind, Except.bind]
  · intro out ho hall
    have h1 := (eval_shape_spec W x).2.1 out ho (fun a ha => by obtain ⟨b, hb⟩ := hall _ ha; simp at hb)
    simp only [evalFull, h1, bind, Except.bind]
    let g : Tr O → Leaf V O := fun t => match t with
      | .tracer a => .arr ⟨a.shape, a.dtype, false⟩ (fill ⟨a.shape, a.dtype, false⟩)
      | .struct a => .struct a
      | .obj o => .obj o
    have e1 : mapE (full fill) (out.map (reported (V := V))).leaves = .ok (out.leaves.map g) := by
      rw [mapE_ok]
      refine ⟨by simp [leaves_map], ?_⟩
      intro i a ha
      rw [leaves_map, List.getElem?_map, Option.map_eq_some_iff] at ha
      obtain ⟨t, ht, rfl⟩ := ha
      refine ⟨g t, by rw [List.getElem?_map, ht]; rfl, ?_⟩
      obtain ⟨b, rfl⟩ := hall t (List.mem_of_getElem? ht)
      rfl
    rw [e1]
    refine ⟨out.map g, ?_, shape_map g out, ?_⟩
    · rw [shape_map]
      exact unflatten_map out g
    · intro i s d w hi
      rw [leaves_map, List.getElem?_map, hi]
      rfl
  · intro out o ho hs hmem
    have h1 := (eval_shape_spec W x).2.1 out ho hs
    simp only [evalFull, h1, bind, Except.bind]
    have : mapE (full fill) (out.map (reported (V := V))).leaves = .error .attributeError := by
      cases hm : mapE (full fill) (out.map (reported (V := V))).leaves with
      | error e =>
        obtain ⟨b, _, hb⟩ := mapE_error hm
        cases b <;> simp [full] at hb <;> rw [hb]
      | ok ys =>
        rw [mapE_ok] at hm
        have hmem' : (Leaf.obj o : Leaf V O) ∈ (out.map (reported (V := V))).leaves := by
          rw [leaves_map]; exact List.mem_map.2 ⟨_, hmem, rfl⟩
        obtain ⟨i, hi⟩ := List.getElem?_of_mem hmem'
        obtain ⟨y, _, hy⟩ := hm.2 i _ hi
        simp [full] at hy
    rw [this]

/-! ## What the cache mixes up -/

/-- Objects: the numbers `1` (`false`) and `1.0` (`true`), which are equal; the function is `jnp.asarray`, with dtype 0 for integers and 1 for floats. An array is
multiplied with a strong array of dtype 2: the result has dtype 2 if the argument is weakly typed, and its dtype otherwise. -/
def exWorld : World Unit Bool Unit Unit where
  canon d := d
  apply x := match x with
    | .leaf (.obj b) => .ok (.leaf (.tracer ⟨[], if b then 1 else 0, true⟩))
    | .leaf (.tracer a) => .ok (.leaf (.tracer ⟨a.shape, if a.weak then 2 else a.dtype, false⟩))
    | t => .ok t
  cls _ := ()
  ccls _ := ()
  hashable _ := true
  chashable _ := true

/-- The claim does not hold without exactness: after a call with the integer `1`, the call with the float `1.0` is answered with an integer dtype. -/
theorem cached_equal_objects : ∃ (h : List (Event Unit Nat Bool)) (x : PT Unit (Leaf Nat Bool)), Hashable exWorld x ∧ Strong x ∧
    (cached exWorld (run exWorld h) x).1 ≠ filterEvalShape exWorld x := by
  refine ⟨[.call (.leaf (.obj false))], .leaf (.obj true), ⟨fun _ _ => rfl, fun _ _ => rfl⟩, by simp [Strong, leaves], ?_⟩
  rw [(eval_shape_spec exWorld _).2.1 (.leaf (.tracer ⟨[], 1, true⟩)) rfl (by simp [leaves])]
  have h1 := (cached_runs (V := Nat) exWorld [] (.leaf (.obj false)) ⟨fun _ _ => rfl, fun _ _ => rfl⟩).1
  have h2 : filterEvalShape (V := Nat) exWorld ((.leaf (.obj false) : PT Unit (Leaf Nat Bool)).map toStruct) = .ok (.leaf (.struct ⟨[], 0, true⟩)) :=
    (eval_shape_spec exWorld _).2.1 (.leaf (.tracer ⟨[], 0, true⟩)) rfl (by simp [leaves])
  have h3 := cached_once (V := Nat) exWorld [.clear] [] (.leaf (.obj false)) (.leaf (.obj true)) _ (h1.trans h2) (by simp) (by simp [Same, SameLeaf, exWorld]) ⟨fun _ _ => rfl, fun _ _ => rfl⟩
  have h4 : run (V := Nat) exWorld ([.clear] ++ .call (.leaf (.obj false)) :: []) = run exWorld [.call (.leaf (.obj false))] := rfl
  rw [h4] at h3
  rw [h3]
  simp [reported, PT.map]

/-- Nor does it hold for weakly typed arrays. -/
theorem cached_weak : ∃ x : PT Unit (Leaf Nat Bool), Hashable exWorld x ∧ ∀ h, (cached exWorld (run exWorld h) x).1 ≠ filterEvalShape exWorld x := by
  refine ⟨.leaf (.arr ⟨[3], 1, true⟩ 7), ⟨by simp [leaves], fun _ _ => rfl⟩, fun h => ?_⟩
  obtain ⟨y, _, h2, h3⟩ := (cached_spec exWorld h (.leaf (.arr ⟨[3], 1, true⟩ 7))).1 ⟨by simp [leaves], fun _ _ => rfl⟩
  rw [h3, (eval_shape_spec exWorld (.leaf (.arr ⟨[3], 1, true⟩ 7))).2.1 (.leaf (.tracer ⟨[3], 2, false⟩)) rfl (by simp [leaves])]
  have hy : y.map toStruct = .leaf (.struct ⟨[3], 1, false⟩) := by
    replace h2 := (sameKey_iff exWorld _ _).2 h2
    simp only [SameKey, World.key, Prod.mk.injEq] at h2
    cases y with
    | leaf a =>
      have h4 := h2.1
      cases a <;> simp [PT.map, leaves, toStruct, World.leafKey] at h4 ⊢ <;> exact h4
    | none => simp [PT.map, World.defKey] at h2
    | node k cs => simp [PT.map, World.defKey] at h2
  rw [hy, (eval_shape_spec exWorld _).2.1 (.leaf (.tracer ⟨[3], 1, false⟩)) rfl (by simp [leaves])]
  simp [reported, PT.map]

/-- A world in which everything is told apart, and a call with an array and an object. -/
def exExact : World Unit Bool Bool Unit := { exWorld with cls := id, apply := fun x => .ok x }

theorem ex_exact : exExact.Exact ∧
    Hashable exExact (.node () [.leaf (.arr ⟨[2, 3], 1, false⟩ 7), .leaf (.obj true)] : PT Unit (Leaf Nat Bool)) ∧
    filterEvalShape exExact (.node () [.leaf (.arr ⟨[2, 3], 1, false⟩ 7), .leaf (.obj true)] : PT Unit (Leaf Nat Bool)) =
      .ok (.node () [.leaf (.struct ⟨[2, 3], 1, false⟩), .leaf (.obj true)]) := by
  refine ⟨⟨fun _ _ h => h, fun _ _ _ => rfl⟩, ⟨fun _ _ => rfl, fun _ _ => rfl⟩, ?_⟩
  have := (eval_shape_spec (V := Nat) exExact (.node () [.leaf (.arr ⟨[2, 3], 1, false⟩ 7), .leaf (.obj true)])).2.1
    (.node () [.leaf (.tracer ⟨[2, 3], 1, false⟩), .leaf (.obj true)]) rfl (by simp [leaves, leavesL_eq])
  rw [this]
  rfl

end EvalShape
end Verif
