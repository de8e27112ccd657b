import Verif.Noinline.Batch
import Verif.Vmap.Example
import Verif.AD.Lemmas

/-! # C79: batching a `noinline`d call is batching the function -/

namespace Verif.Noinline

open PT Vmap Filters

variable {K V A O : Type}

/-! ## Specification -/

/-- An argument in lane `i`: an array with a batch axis is sliced along it, everything else is whole. -/
def laneOf (w : World K V A O) (i : Nat) : Leaf V O × Option Nat → Leaf V O
  | (.arr v, some k) => .arr (w.slice v k i)
  | (l, _) => l

/-- Only arrays are batched, and something is. -/
def Batched (m : PT K (Leaf V O × Option Nat)) : Prop :=
  (∀ l k, (l, some k) ∈ m.leaves → ∃ v, l = .arr v) ∧ ∃ l k, (l, some k) ∈ m.leaves

/-- Exchanging the axes `0` and `k` brings the batch to the front and leaves the lanes as they were. -/
def FrontOk (w : World K V A O) (swapaxes : V → Nat → V) (k : Nat) : Prop :=
  ∀ v n, w.size v k = some n → w.size (swapaxes v k) 0 = some n ∧ ∀ i, i < n → w.slice (swapaxes v k) 0 i = w.slice v k i

/-! ## Proofs -/

/-- An argument as it goes into `filter_vmap`. -/
def moved (swapaxes : V → Nat → V) : Leaf V O × Option Nat → Leaf V O
  | (.arr v, some k) => .arr (swapaxes v k)
  | (l, _) => l

theorem withNones_join {α β : Type} (u : PT K (PT K β)) (f : β → Option α) :
    withNones (u.join.map f) = (u.map fun y => withNones (y.map f)).join := by
  simp only [withNones, map_join, map_map, join_join]

theorem move_closed [DecidableEq K] (swapaxes : V → Nat → V) (m : PT K (Leaf V O × Option Nat))
    (hm : ∀ l k, (l, some k) ∈ m.leaves → ∃ v, l = .arr v) :
    treeMap2 isNone (moveToFront swapaxes) (m.map Prod.fst) (withNones (m.map Prod.snd)) = .ok (m.map (moved swapaxes)) := by
  refine (treeMap2_closed (u := m.cut isNone) (b := PT.map Prod.fst) (c := fun y => withNones (y.map Prod.snd))
    (g := PT.map (moved swapaxes)) (cutNone_map _ m) ?_ ?_).trans ?_
  · rw [← withNones_join, join_cut]
  · intro x hx
    rcases cutNone_leaves hx with ⟨⟨l, k⟩, h, rfl⟩ | rfl
    · cases k with
      | none => cases l <;> rfl
      | some k =>
        obtain ⟨v, rfl⟩ := hm l k h
        rfl
    · rfl
  · rw [← map_join, join_cut]

theorem axes_closed (m : PT K (Leaf V O × Option Nat)) :
    treeMap1 isNone (intToZero (V := V) (O := O)) (withNones (m.map Prod.snd)) =
      .ok (withNones (m.map fun p => p.2.map fun _ => AxSpec.int 0)) := by
  refine (treeMap1_closed (u := m.cut isNone) (c := onLeaf .none fun x => orNone x.2)
    (g := onLeaf .none fun x => orNone (x.2.map fun _ => AxSpec.int 0)) (cutNone_withNones m _) ?_).trans ?_
  · intro x hx
    rcases cutNone_leaves hx with ⟨⟨l, k⟩, h, rfl⟩ | rfl
    · cases k <;> rfl
    · rfl
  · rw [cutNone_join rfl, withNones, map_map]
    rfl

theorem get_withNones {α β : Type} {m : PT K β} {f : β → Option α} {π : List Nat} {p : β} (h : m.leafAt? π = some p) :
    (withNones (m.map f)).get? π = some (orNone (f p)) := by
  have : (m.map fun x => (orNone (f x) : PT K α)).leafAt? π = some (orNone (f p)) := by rw [leafAt?_map, h]; rfl
  rw [withNones, map_map]
  exact get?_join_nil this

theorem axisAt_moved {tup : K} {g : Leaf V O × Option Nat → Leaf V O} {m : PT K (Leaf V O × Option Nat)} {π : List Nat} {p}
    (h : m.leafAt? π = some p) :
    AxisAt (.node tup [withNones (m.map fun p => p.2.map fun _ => (AxSpec.int 0 : AxSpec V O))]) (.node tup [m.map g]) (0 :: π)
      (p.2.map fun _ => 0) := by
  refine ⟨0 :: π, [], orNone (p.2.map fun _ => AxSpec.int 0), g p, by simp, ?_, ?_, ?_⟩
  · simp [leafAt?_node, leafAt?_map, h]
  · simpa [get?] using get_withNones h
  · cases p.2 with
    | none => exact .inl ⟨rfl, rfl⟩
    | some k => exact .inr (.inl ⟨0, rfl, rfl⟩)

/-- The function is called on the lanes of the arrays whose axes `0` and `k` were exchanged. -/
theorem batchedCall_lanes [DecidableEq K] {w : World K V A O} (hw : Lawful w) {swapaxes : V → Nat → V} {tup : K} {f : Fn K V O}
    (hf : Traceable w f) {m : PT K (Leaf V O × Option Nat)} (hm : Batched m) {out : Val K V O}
    (h : batchedCall w swapaxes tup f (m.map Prod.fst) (withNones (m.map Prod.snd)) = .ok out) :
    ∃ n, 0 < n ∧ (∀ v k, (Leaf.arr v, some k) ∈ m.leaves → w.size (swapaxes v k) 0 = some n) ∧
      ∀ i, i < n → ∃ o, f [m.map fun p => laneOf w i (moved swapaxes p, p.2.map fun _ => 0)] = .ok o ∧
        HasLane w (.leaf (ifArray 0)) n i o out := by
  simp only [batchedCall, move_closed swapaxes m hm.1, axes_closed, bind, Except.bind] at h
  have ht : TraceableAxes w (.leaf (ifArray 0) : PT K (AxSpec V O)) := by
    intro σ f hσ l l' hll
    cases σ with
    | nil =>
      simp only [ifArray, leafAt?_leaf_nil, Option.some.injEq, AxSpec.callable.injEq] at hσ
      subst hσ
      cases l <;> cases l' <;> simp [abstract] at hll ⊢
    | cons i σ => simp [leafAt?, get?] at hσ
  obtain ⟨-, ⟨hn, -⟩ | ⟨n, h0, hb, -, hl⟩⟩ := filter_vmap_lanes hw hf ht h
  · obtain ⟨l, k, hk⟩ := hm.2
    obtain ⟨π, hπ⟩ := AD.exists_path hk
    cases hn _ _ (axisAt_moved hπ)
  · refine ⟨n, h0, ?_, ?_⟩
    · intro v k hk
      obtain ⟨π, hπ⟩ := AD.exists_path hk
      obtain ⟨u, hu, hs⟩ := hb.2 _ 0 (axisAt_moved (g := moved swapaxes) hπ)
      simp only [leafAt?_node, List.getElem?_cons_zero, Option.bind_some, leafAt?_map, hπ, Option.map_some, moved,
        Option.some.injEq, Leaf.arr.injEq] at hu
      subst hu
      exact hs
    · intro i hi
      obtain ⟨args', o, ⟨hs, hlane⟩, ho, hout⟩ := hl i hi
      refine ⟨o, ?_, hout⟩
      have : (PT.node tup args') = .node tup [m.map fun p => laneOf w i (moved swapaxes p, p.2.map fun _ => 0)] := by
        have hsh := sameStructure_iff.1 hs
        apply eq_of_shape_leafAt?
        · rw [← hsh]
          simp [shape, PT.map, mapL, map_map]
        · intro π a b ha hb'
          cases π with
          | nil => simp [leafAt?, get?] at ha
          | cons j π =>
            cases j with
            | succ j => simp [leafAt?_node] at hb'
            | zero =>
              simp only [leafAt?_node, List.getElem?_cons_zero, Option.bind_some, leafAt?_map, Option.map_eq_some_iff] at hb'
              obtain ⟨p, hp, rfl⟩ := hb'
              obtain ⟨a', ha', hla⟩ := hlane (0 :: π) (moved swapaxes p) (by simp [leafAt?_node, leafAt?_map, hp])
              rw [axisAt_unique ha' (axisAt_moved hp), ha] at hla
              cases hla
              obtain ⟨l, k⟩ := p
              cases k with
              | none => cases l <;> rfl
              | some k =>
                obtain ⟨v, rfl⟩ := hm.1 l k (by
                  obtain ⟨i, _, hall⟩ := index_of_leafAt? hp
                  have := hall _ rfl
                  rw [hp] at this
                  exact List.mem_of_getElem? this.symm)
                rfl
      cases this
      exact ho

/-- **C79** Under `vmap`, a `noinline`d function is called on every lane of its arguments, and the result has the outcomes as its lanes. Partial: only if
exchanging the batch axis with the first axis keeps the lanes, which is so for the axes `0` and `1` (`swapaxes_front`) and not for others
(`noinline_axis_two`). -/
theorem noinline_vmap_partial [DecidableEq K] {w : World K V A O} (hw : Lawful w) {swapaxes : V → Nat → V} {tup : K} {f : Fn K V O}
    (hf : Traceable w f) {m : PT K (Leaf V O × Option Nat)} (hm : Batched m)
    (hk : ∀ l k, (l, some k) ∈ m.leaves → FrontOk w swapaxes k ∧ ∀ v, l = .arr v → (w.size v k).isSome)
    {out : Val K V O} (h : batchedCall w swapaxes tup f (m.map Prod.fst) (withNones (m.map Prod.snd)) = .ok out) :
    ∃ n, 0 < n ∧ (∀ v k, (Leaf.arr v, some k) ∈ m.leaves → w.size v k = some n) ∧
      ∀ i, i < n → ∃ o, f [m.map (laneOf w i)] = .ok o ∧ HasLane w (.leaf (ifArray 0)) n i o out := by
  obtain ⟨n, h0, hs, hl⟩ := batchedCall_lanes hw hf hm h
  have hs' : ∀ v k, (Leaf.arr v, some k) ∈ m.leaves → w.size v k = some n := by
    intro v k hv
    obtain ⟨n', hn'⟩ := Option.isSome_iff_exists.1 ((hk _ k hv).2 v rfl)
    have := ((hk _ k hv).1 v n' hn').1
    rw [hs v k hv] at this
    cases this
    exact hn'
  refine ⟨n, h0, hs', fun i hi => ?_⟩
  obtain ⟨o, ho, hout⟩ := hl i hi
  refine ⟨o, ?_, hout⟩
  rw [← ho]
  congr 2
  apply map_congr_leaves
  rintro ⟨l, k⟩ hp
  cases k with
  | none => cases l <;> rfl
  | some k =>
    obtain ⟨v, rfl⟩ := hm.1 l k hp
    exact (congrArg Leaf.arr (((hk _ k hp).1 v n (hs' v k hp)).2 i hi)).symm

/-! ## Arrays -/

namespace Ex

open Vmap.Ex

/-- A list with the entries `0` and `k` exchanged. -/
def swap0 : List Nat → Nat → List Nat
  | x :: xs, k + 1 => match xs[k]? with
    | some y => y :: xs.set k x
    | Option.none => x :: xs
  | l, _ => l

/-- `jnp.swapaxes(a, 0, k)` -/
def swapaxes (a : Arr) (k : Nat) : Arr := mk (swap0 a.shape k) fun idx => a.val (swap0 idx k)

theorem size_nat {a : Arr} {k n : Nat} : size a k = some n ↔ a.shape[k]? = some n := by
  by_cases h : k < a.shape.length
  · have : normAxis k a.shape.length = some k := by simp [normAxis, h]
    simp [size, this]
  · have : normAxis k a.shape.length = Option.none := by
      simp only [normAxis]
      rw [if_neg (by omega), if_neg (by omega)]
    rw [size, this]
    exact ⟨fun h' => (nomatch h'), fun h' => absurd (List.getElem?_eq_some_iff.1 h').1 h⟩

theorem slice_nat {a : Arr} {k : Nat} (h : k < a.shape.length) (i : Nat) :
    slice a k i = mk (a.shape.eraseIdx k) fun idx => a.val (idx.insertIdx k i) := by
  have : normAxis k a.shape.length = some k := by simp [normAxis, h]
  simp [slice, this]

/-- Axes `0` and `1` are moved to the front as they should. -/
theorem swapaxes_front {k : Nat} (hk : k ≤ 1) : FrontOk world swapaxes k := by
  intro v n hs
  have hs' := size_nat.1 hs
  have hlt := (List.getElem?_eq_some_iff.1 hs').1
  obtain ⟨sh, val, zero⟩ := v
  simp only at hs' hlt
  rcases Nat.le_one_iff_eq_zero_or_eq_one.1 hk with rfl | rfl
  · have e : swapaxes ⟨sh, val, zero⟩ 0 = ⟨sh, val, zero⟩ := by
      apply Arr.ext'
      · cases sh <;> rfl
      · intro idx hidx
        have h0 : ∀ l, swap0 l 0 = l := by intro l; cases l <;> rfl
        simp only [swapaxes, mk, h0] at hidx ⊢
        simp [hidx]
    rw [e]
    exact ⟨hs, fun _ _ => rfl⟩
  · obtain ⟨a, b, s, rfl⟩ : ∃ a b s, sh = a :: b :: s := by
      rcases sh with _ | ⟨a, _ | ⟨b, s⟩⟩
      · simp at hlt
      · simp at hlt
      · exact ⟨a, b, s, rfl⟩
    simp only [List.getElem?_cons_succ, List.getElem?_cons_zero, Option.some.injEq] at hs'
    subst hs'
    refine ⟨size_nat.2 rfl, fun i hi => ?_⟩
    have e1 := slice_nat (a := swapaxes ⟨a :: b :: s, val, zero⟩ 1) (k := 0) (by simp [swapaxes, mk, swap0]) i
    have e2 := slice_nat (a := ⟨a :: b :: s, val, zero⟩) (k := 1) (by simp) i
    refine e1.trans (Eq.trans ?_ e2.symm)
    apply Arr.ext'
    · rfl
    · intro idx hidx
      simp only [mk, swapaxes, swap0, List.getElem?_cons_zero, List.set_cons_zero, List.eraseIdx_cons_zero] at hidx
      rcases idx with _ | ⟨j, idx⟩
      · simp [inb] at hidx
      · simp only [mk, swapaxes, swap0, List.getElem?_cons_zero, List.set_cons_zero, List.eraseIdx_cons_zero,
          List.insertIdx_zero, List.eraseIdx_cons_succ, List.insertIdx_succ_cons, hidx, if_true]
        simp only [inb, Bool.and_eq_true, decide_eq_true_eq] at hidx
        simp [inb, hi, hidx]

/-- Other axes are not: the lanes of an array come out with their first axis elsewhere. -/
theorem swapaxes_front_fails (v : Arr) {k : Nat} (h2 : 2 ≤ k) (hk : k < v.shape.length) (h : v.shape[0]? ≠ v.shape[1]?) (i : Nat) :
    slice (swapaxes v k) 0 i ≠ slice v k i := by
  intro he
  obtain ⟨sh, val, zero⟩ := v
  simp only at hk h
  rcases sh with _ | ⟨a, _ | ⟨b, s⟩⟩
  · simp at hk
  · simp at hk; omega
  · obtain ⟨k, rfl⟩ : ∃ j, k = j + 2 := ⟨k - 2, by omega⟩
    have hk' : k < s.length := by simpa using hk
    have e1 := slice_nat (a := swapaxes ⟨a :: b :: s, val, zero⟩ (k + 2)) (k := 0) (by simp [swapaxes, mk, swap0, hk']) i
    have e2 := slice_nat (a := ⟨a :: b :: s, val, zero⟩) hk i
    have e3 := congrArg Arr.shape (e1.symm.trans (he.trans e2))
    simp [mk, swapaxes, swap0, hk'] at e3
    simp at h
    exact h e3.1.symm

/-- `noinline(lambda x: x)` -/
def idFn : Fn Unit Arr Int
  | [x] => .ok x
  | _ => .error .typeError

def cube : Arr := mk [2, 3, 4] fun idx => match idx with
  | [i, j, k] => 100 * (i : Int) + 10 * j + k
  | _ => 0

/-- With `in_axes=1` the theorem applies: its hypotheses hold, and the call returns. -/
example : Lawful world ∧ Traceable world idFn ∧ Batched (.leaf (.arr cube, some 1) : PT Unit (Leaf Arr Int × Option Nat)) ∧
    FrontOk world swapaxes 1 ∧ world.size cube 1 = some 3 ∧
    ∃ out, batchedCall world swapaxes () idFn (.leaf (.arr cube)) (.leaf 1) = .ok (.leaf (.arr out)) ∧ (slice out 0 0).shape = [2, 4] := by
  refine ⟨lawful, ?_, ⟨?_, ⟨_, 1, List.mem_singleton.2 rfl⟩⟩, swapaxes_front (by omega), rfl, _, rfl, rfl⟩
  · intro args args' o o' h h1 h2
    rcases args with _ | ⟨x, _ | ⟨y, zs⟩⟩ <;> simp only [idFn, reduceCtorEq] at h1
    rcases args' with _ | ⟨x', _ | ⟨y', zs'⟩⟩ <;> simp only [idFn, reduceCtorEq] at h2
    cases h1; cases h2
    simpa [Alike] using h
  · intro l k h
    simp only [PT.leaves, List.mem_singleton, Prod.mk.injEq] at h
    exact ⟨cube, h.1⟩

/-- `jax.vmap(noinline(lambda x: x), in_axes=2)` transposes the lanes. -/
theorem noinline_axis_two : ∃ out, batchedCall world swapaxes () idFn (.leaf (.arr cube)) (.leaf 2) = .ok (.leaf (.arr out)) ∧
    (slice cube 2 0).shape = [2, 3] ∧ (slice out 0 0).shape = [3, 2] := by
  refine ⟨_, rfl, ?_, ?_⟩
  · rfl
  · rfl

end Ex

end Verif.Noinline
