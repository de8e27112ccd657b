import Verif.NN.WeightNormModel
import Mathlib.Tactic.Ring
import Mathlib.Tactic.Linarith
import Mathlib.Tactic.FieldSimp
import Mathlib.Tactic.NormNum

/-!
# C65: weight normalisation

The layer is called with `g v / ‖v‖`, the norm being over all elements with the same index along the axis (or over all elements).
-/

namespace Verif
namespace WeightNorm

/-! ### Specification -/

/-- An index of an array of this shape. -/
def InBounds : List Nat → List Nat → Prop
  | [], [] => True
  | n :: s, i :: is => i < n ∧ InBounds s is
  | _, _ => False

/-- Every element is a number. -/
def RArr.Proper (v : RArr) : Prop := ∀ idx, (v.val idx).isSome = true ↔ InBounds v.shape idx

/-- The value of an element. -/
noncomputable def RArr.at (v : RArr) (idx : List Nat) : ℝ := (v.val idx).getD 0

/-- Two elements are in the same group: they have the same index along the axis, or there is no axis. -/
def same (axis : Option Nat) (i j : List Nat) : Bool :=
  match axis with
  | none => true
  | some a => i[a]? == j[a]?

/-- The Euclidean norm of the group of an element. -/
noncomputable def groupNorm (v : RArr) (axis : Option Nat) (idx : List Nat) : ℝ :=
  Real.sqrt ((((indices v.shape).filter (same axis idx)).map fun j => v.at j * v.at j).sum)

/-- What `axis` means for an array of `ndim` axes. -/
def Means (ndim : Nat) : Option Int → Option Nat → Prop
  | none, none => True
  | some i, some a => a < ndim ∧ (i = a ∨ i = (a : Int) - ndim)
  | _, _ => False

/-- The shape of `g`: the axis keeps its size, the others have size one. -/
def normShape : Option Nat → List Nat → List Nat
  | none, s => s.map fun _ => 1
  | some a, s => s.mapIdx fun j n => if j = a then n else 1

/-! ### Indices -/

theorem mem_indices : ∀ {s idx : List Nat}, idx ∈ indices s ↔ InBounds s idx
  | [], [] => by simp [indices, InBounds]
  | [], _ :: _ => by simp [indices, InBounds]
  | _ :: _, [] => by simp [indices, InBounds]
  | n :: s, i :: is => by
    simp only [indices, List.mem_flatMap, List.mem_range, List.mem_map, InBounds]
    constructor
    · rintro ⟨j, hj, l, hl, he⟩
      cases he
      exact ⟨hj, mem_indices.1 hl⟩
    · rintro ⟨h1, h2⟩
      exact ⟨i, h1, is, mem_indices.2 h2, rfl⟩

theorem flatMap_single {X : Type} (L : Nat → List X) (k : Nat) : ∀ n, k < n →
    ((List.range n).flatMap fun i => if i = k then L i else []) = L k
  | 0, h => absurd h (Nat.not_lt_zero _)
  | n + 1, h => by
    rw [List.range_succ, List.flatMap_append]
    by_cases hk : k = n
    · subst hk
      have : ((List.range k).flatMap fun i => if i = k then L i else []) = [] := by
        rw [List.flatMap_eq_nil_iff]
        intro i hi
        rw [List.mem_range] at hi
        rw [if_neg (by omega)]
      rw [this]
      simp
    · rw [flatMap_single L k n (by omega)]
      simp [Ne.symm hk]

theorem filter_flatMap' {X Y : Type} (p : Y → Bool) (f : X → List Y) : ∀ l : List X,
    (l.flatMap f).filter p = l.flatMap fun x => (f x).filter p
  | [] => rfl
  | x :: l => by simp only [List.flatMap_cons, List.filter_append, filter_flatMap' p f l]

/-- The indices with `k` at axis `a` are those of the other axes with `k` put in. -/
theorem indices_slice : ∀ (a : Nat) (s : List Nat) (k n : Nat), s[a]? = some n → k < n →
    (indices s).filter (fun j => some k == j[a]?) = (indices (s.eraseIdx a)).map fun j => j.insertIdx a k
  | _, [], _, _, h, _ => by simp at h
  | 0, m :: s, k, n, h, hk => by
    simp only [List.getElem?_cons_zero, Option.some.injEq] at h
    subst h
    simp only [indices, List.eraseIdx_cons_zero, List.insertIdx_zero]
    rw [filter_flatMap']
    have : (fun i => ((indices s).map (i :: ·)).filter fun j => some k == j[0]?) =
        fun i => if i = k then (indices s).map (i :: ·) else [] := by
      funext i
      by_cases hi : i = k
      · subst hi
        rw [if_pos rfl, List.filter_eq_self]
        intro j hj
        obtain ⟨l, _, rfl⟩ := List.mem_map.1 hj
        simp
      · rw [if_neg hi, List.filter_eq_nil_iff]
        intro j hj
        obtain ⟨l, _, rfl⟩ := List.mem_map.1 hj
        simp [Ne.symm hi]
    rw [this, flatMap_single _ k m hk]
  | a + 1, m :: s, k, n, h, hk => by
    simp only [List.getElem?_cons_succ] at h
    have ih := indices_slice a s k n h hk
    simp only [indices, List.eraseIdx_cons_succ]
    rw [filter_flatMap', List.map_flatMap]
    congr 1
    funext i
    rw [List.filter_map]
    have : ((fun j : List Nat => some k == j[a + 1]?) ∘ fun x => i :: x) = fun j => some k == j[a]? := by
      funext j; simp
    rw [this, ih, List.map_map, List.map_map]
    apply List.map_congr_left
    intro j _
    simp

theorem inBounds_length : ∀ {s idx : List Nat}, InBounds s idx → idx.length = s.length
  | [], [], _ => rfl
  | [], _ :: _, h => h.elim
  | _ :: _, [], h => h.elim
  | _ :: s, _ :: is, h => by simp [inBounds_length h.2]

theorem inBounds_get : ∀ {s idx : List Nat} {a n : Nat}, InBounds s idx → s[a]? = some n → ∃ i, idx[a]? = some i ∧ i < n
  | [], [], _, _, _, h => by simp at h
  | [], _ :: _, _, _, h, _ => h.elim
  | _ :: _, [], _, _, h, _ => h.elim
  | m :: s, i :: is, 0, n, h, hn => by
    simp only [List.getElem?_cons_zero, Option.some.injEq] at hn
    subst hn
    exact ⟨i, rfl, h.1⟩
  | m :: s, i :: is, a + 1, n, h, hn => by
    simp only [List.getElem?_cons_succ] at hn ⊢
    exact inBounds_get h.2 hn

theorem inBounds_insert : ∀ {s j : List Nat} {a n k : Nat}, s[a]? = some n → k < n → InBounds (s.eraseIdx a) j → InBounds s (j.insertIdx a k)
  | [], _, _, _, _, h, _, _ => by simp at h
  | m :: s, j, 0, n, k, h, hk, hj => by
    simp only [List.getElem?_cons_zero, Option.some.injEq] at h
    subst h
    exact ⟨hk, hj⟩
  | m :: s, [], a + 1, n, k, h, hk, hj => by
    simp only [List.eraseIdx_cons_succ] at hj
    exact hj.elim
  | m :: s, i :: j, a + 1, n, k, h, hk, hj => by
    simp only [List.getElem?_cons_succ] at h
    simp only [List.eraseIdx_cons_succ] at hj
    simp only [List.insertIdx_succ_cons]
    exact ⟨hj.1, inBounds_insert h hk hj.2⟩

/-- The index at which an array of this shape is read when it is broadcast. -/
def bidx (shape idx : List Nat) : List Nat := List.zipWith (fun n i => if n = 1 then 0 else i) shape idx

theorem bidx_ones : ∀ (s idx : List Nat), idx.length = s.length → InBounds (s.map fun _ => 1) (bidx (s.map fun _ => 1) idx)
  | [], [], _ => trivial
  | [], _ :: _, h => by cases h
  | _ :: _, [], h => by cases h
  | _ :: s, _ :: is, h => ⟨Nat.one_pos, bidx_ones s is (by simpa using h)⟩

theorem bidx_axis : ∀ (a : Nat) (s idx : List Nat) (n : Nat), s[a]? = some n → InBounds s idx →
    (bidx (((s.eraseIdx a).map fun _ => 1).insertIdx a n) idx)[a]? = idx[a]? ∧
    InBounds ((s.eraseIdx a).map fun _ => 1) ((bidx (((s.eraseIdx a).map fun _ => 1).insertIdx a n) idx).eraseIdx a)
  | _, [], _, _, h, _ => by simp at h
  | _, _ :: _, [], _, _, h => h.elim
  | 0, m :: s, i :: is, n, h, hi => by
    simp only [List.getElem?_cons_zero, Option.some.injEq] at h
    subst h
    have h1 := hi.1
    refine ⟨?_, ?_⟩
    · simp only [List.eraseIdx_cons_zero, List.insertIdx_zero, bidx, List.zipWith_cons_cons, List.getElem?_cons_zero, Option.some.injEq]
      split <;> omega
    · simp only [List.eraseIdx_cons_zero, List.insertIdx_zero, bidx, List.zipWith_cons_cons]
      exact bidx_ones s is (inBounds_length hi.2)
  | a + 1, m :: s, i :: is, n, h, hi => by
    simp only [List.getElem?_cons_succ] at h
    obtain ⟨h1, h2⟩ := bidx_axis a s is n h hi.2
    simp only [List.eraseIdx_cons_succ, List.map_cons, List.insertIdx_succ_cons, bidx, List.zipWith_cons_cons, List.getElem?_cons_succ]
    exact ⟨h1, Nat.one_pos, h2⟩

theorem normShape_eq : ∀ (a : Nat) (s : List Nat) (n : Nat), s[a]? = some n →
    normShape (some a) s = ((s.eraseIdx a).map fun _ => 1).insertIdx a n
  | _, [], _, h => by simp at h
  | 0, m :: s, n, h => by
    simp only [List.getElem?_cons_zero, Option.some.injEq] at h
    subst h
    simp only [normShape, List.eraseIdx_cons_zero, List.insertIdx_zero, List.mapIdx_cons, if_true, List.cons.injEq, true_and]
    apply List.ext_getElem
    · simp
    · intro j h1 h2
      simp
  | a + 1, m :: s, n, h => by
    simp only [List.getElem?_cons_succ] at h
    simp only [List.eraseIdx_cons_succ, List.map_cons, List.insertIdx_succ_cons, ← normShape_eq a s n h, normShape, List.mapIdx_cons]
    simp

theorem inBounds_of_erase : ∀ {s j : List Nat} {a n i : Nat}, a ≤ s.length → j[a]? = some i → i < n → InBounds s (j.eraseIdx a) →
    InBounds (s.insertIdx a n) j
  | s, j, 0, n, i, _, hj, hi, h => by
    cases j with
    | nil => simp at hj
    | cons k j =>
      simp only [List.getElem?_cons_zero, Option.some.injEq] at hj
      subst hj
      exact ⟨hi, h⟩
  | [], _, a + 1, _, _, ha, _, _, _ => by simp at ha
  | m :: s, j, a + 1, n, i, ha, hj, hi, h => by
    cases j with
    | nil => simp at hj
    | cons k j =>
      simp only [List.getElem?_cons_succ] at hj
      simp only [List.eraseIdx_cons_succ] at h
      simp only [List.insertIdx_succ_cons]
      exact ⟨h.1, inBounds_of_erase (by simpa using ha) hj hi h.2⟩

theorem eq_of_ones : ∀ {s i j : List Nat}, InBounds (s.map fun _ => 1) i → InBounds (s.map fun _ => 1) j → i = j
  | [], [], [], _, _ => rfl
  | [], _ :: _, _, h, _ => h.elim
  | [], _, _ :: _, _, h => h.elim
  | _ :: _, [], _, h, _ => h.elim
  | _ :: _, _, [], _, h => h.elim
  | _ :: s, i :: is, j :: js, h1, h2 => by
    have e1 : i < 1 := h1.1
    have e2 : j < 1 := h2.1
    rw [eq_of_ones h1.2 h2.2]
    congr 1
    omega

theorem eq_of_eraseIdx : ∀ {a : Nat} {i j : List Nat}, i[a]? = j[a]? → i.eraseIdx a = j.eraseIdx a → (i[a]?).isSome = true → i = j
  | 0, i, j, h1, h2, h3 => by
    cases i with
    | nil => simp at h3
    | cons x i =>
      cases j with
      | nil => simp at h1
      | cons y j =>
        simp only [List.getElem?_cons_zero, Option.some.injEq] at h1
        simp only [List.eraseIdx_cons_zero] at h2
        rw [h1, h2]
  | a + 1, i, j, h1, h2, h3 => by
    cases i with
    | nil => simp at h3
    | cons x i =>
      cases j with
      | nil =>
        simp only [List.getElem?_nil] at h1
        rw [h1] at h3
        cases h3
      | cons y j =>
        simp only [List.getElem?_cons_succ] at h1 h3
        simp only [List.eraseIdx_cons_succ, List.cons.injEq] at h2
        rw [h2.1, eq_of_eraseIdx h1 h2.2 h3]

/-- An array of the shape of `g` has one number for each group. -/
theorem g_ok {g v : RArr} {ax : Option Nat} (hg : g.Proper) (hax : ∀ a, ax = some a → a < v.shape.length) (hs : g.shape = normShape ax v.shape) :
    ∃ γ : List Nat → ℝ, (∀ idx, InBounds v.shape idx → g.bcast idx = some (γ idx)) ∧
      ∀ i j, InBounds v.shape i → InBounds v.shape j → same ax i j = true → γ i = γ j := by
  have key : ∀ idx, InBounds v.shape idx → InBounds g.shape (bidx g.shape idx) := by
    intro idx hi
    cases ax with
    | none => rw [hs]; exact bidx_ones v.shape idx (inBounds_length hi)
    | some a =>
      have ha := hax a rfl
      have hn : v.shape[a]? = some v.shape[a] := List.getElem?_eq_getElem ha
      rw [hs, normShape_eq a v.shape _ hn]
      obtain ⟨h1, h2⟩ := bidx_axis a v.shape idx _ hn hi
      obtain ⟨k, hk, hkn⟩ := inBounds_get hi hn
      refine inBounds_of_erase ?_ (by rw [h1]; exact hk) hkn h2
      rw [List.length_map, List.length_eraseIdx, if_pos ha]
      omega
  refine ⟨fun idx => (g.bcast idx).getD 0, ?_, ?_⟩
  · intro idx hi
    obtain ⟨r, hr⟩ := Option.isSome_iff_exists.1 ((hg _).2 (key idx hi))
    have hr' : g.bcast idx = some r := hr
    simp only [hr', Option.getD_some]
  · intro i j hi hj hsm
    have hb : bidx g.shape i = bidx g.shape j := by
      cases ax with
      | none =>
        rw [hs]
        exact eq_of_ones (bidx_ones v.shape i (inBounds_length hi)) (bidx_ones v.shape j (inBounds_length hj))
      | some a =>
        have ha := hax a rfl
        have hn : v.shape[a]? = some v.shape[a] := List.getElem?_eq_getElem ha
        rw [hs, normShape_eq a v.shape _ hn]
        obtain ⟨h1, h2⟩ := bidx_axis a v.shape i _ hn hi
        obtain ⟨h3, h4⟩ := bidx_axis a v.shape j _ hn hj
        obtain ⟨k, hk, _⟩ := inBounds_get hi hn
        simp only [same, beq_iff_eq] at hsm
        refine eq_of_eraseIdx (a := a) (by rw [h1, h3, hsm]) (eq_of_ones h2 h4) (by rw [h1, hk]; rfl)
    have hb' : g.bcast i = g.bcast j := by
      unfold bidx at hb
      unfold RArr.bcast
      rw [hb]
    simp only [hb']

/-! ### Norms -/

theorem sumSq_some (f : List Nat → Option ℝ) : ∀ (l : List (List Nat)), (∀ j ∈ l, (f j).isSome = true) →
    sumSq (l.map f) = some ((l.map fun j => (f j).getD 0 * (f j).getD 0).sum)
  | [], _ => rfl
  | j :: l, h => by
    have hj := h j (by simp)
    obtain ⟨r, hr⟩ := Option.isSome_iff_exists.1 hj
    simp only [List.map_cons, sumSq, sumSq_some f l (fun j hj => h j (by simp [hj])), hr, mul, add, Option.bind_some, Option.map_some,
      Option.getD_some, List.sum_cons]

theorem canonical_ok {i : Int} {n a : Nat} : canonical i n = .ok a ↔ Means n (some i) (some a) := by
  unfold canonical Means
  split
  · rename_i h
    simp only [Except.ok.injEq]
    omega
  · split
    · rename_i h1 h2
      simp only [Except.ok.injEq]
      omega
    · rename_i h1 h2
      simp only [reduceCtorEq, false_iff]
      omega

theorem canonical_error {i : Int} {n : Nat} : (∃ e, canonical i n = .error e) ↔ (canonical i n = .error .valueError ∧ ∀ a, ¬ Means n (some i) a) := by
  constructor
  · rintro ⟨e, h⟩
    have hm : ∀ a, ¬ Means n (some i) a := by
      intro a ha
      cases a with
      | none => exact ha
      | some a => rw [canonical_ok.2 ha] at h; cases h
    refine ⟨?_, hm⟩
    unfold canonical at h ⊢
    split at h
    · cases h
    · split at h
      · cases h
      · rw [if_neg ‹_›, if_neg ‹_›]
  · rintro ⟨h, _⟩
    exact ⟨_, h⟩

/-- The norm that `_norm_except_axis` gives at any index is that of the group of this index. -/
theorem normExceptAxis_eq {v : RArr} (hv : v.Proper) {axis : Option Int} {ax : Option Nat} (hm : Means v.shape.length axis ax) :
    ∃ n, normExceptAxis v axis = .ok n ∧ n.shape = normShape ax v.shape ∧
      ∀ idx, InBounds v.shape idx → n.bcast idx = some (groupNorm v ax idx) := by
  cases axis with
  | none =>
    cases ax with
    | some a => exact hm.elim
    | none =>
      refine ⟨norm v, rfl, rfl, ?_⟩
      intro idx hi
      unfold RArr.bcast norm
      simp only
      have hin := mem_indices.2 (bidx_ones v.shape idx (inBounds_length hi))
      unfold bidx at hin
      rw [if_pos hin, sumSq_some]
      · simp only [groupNorm, Option.map_some]
        have hall : (indices v.shape).filter (same none idx) = indices v.shape := List.filter_eq_self.2 fun _ _ => rfl
        rw [hall]
        rfl
      · intro j hj
        exact (hv j).2 (mem_indices.1 hj)
  | some i =>
    cases ax with
    | none => exact hm.elim
    | some a =>
      have ha : a < v.shape.length := hm.1
      have hn : v.shape[a]? = some v.shape[a] := List.getElem?_eq_getElem ha
      simp only [normExceptAxis, canonical_ok.2 hm, bind, Except.bind, pure, Except.pure, hn, Option.getD_some]
      refine ⟨_, rfl, ?_, ?_⟩
      · exact (normShape_eq a v.shape _ hn).symm
      · intro idx hi
        obtain ⟨h1, h2⟩ := bidx_axis a v.shape idx _ hn hi
        obtain ⟨k, hk, hkn⟩ := inBounds_get hi hn
        have e : ∀ sh : List Nat, List.zipWith (fun n i => if n = 1 then 0 else i) sh idx = bidx sh idx := fun _ => rfl
        simp only [RArr.bcast, RArr.stack]
        rw [e, h1, hk]
        simp only [Option.bind_some, if_pos hkn, norm]
        have hin : (bidx (((v.shape.eraseIdx a).map fun _ => 1).insertIdx a v.shape[a]) idx).eraseIdx a ∈
            indices ((v.slice a k).shape.map fun _ => 1) := mem_indices.2 h2
        rw [if_pos hin]
        have hsm : same (some a) idx = fun j => some k == j[a]? := by
          funext j; simp only [same, hk]
        simp only [RArr.slice, groupNorm, hsm]
        rw [indices_slice a v.shape k _ hn hkn, sumSq_some]
        · simp only [Option.map_some, List.map_map]
          rfl
        · intro j hj
          exact (hv _).2 (inBounds_insert hn hkn (mem_indices.1 hj))

/-! ### The layer -/

/-- What the layer is given in place of its weight. -/
noncomputable def used (v : RArr) (g : List Nat → ℝ) (ax : Option Nat) : RArr where
  shape := v.shape
  val idx := (v.val idx).bind fun r => if groupNorm v ax idx = 0 then none else some (g idx * (r / groupNorm v ax idx))

/-- **WeightNorm** calls the layer with `g v / ‖v‖` in place of its weight. -/
theorem call_eq {Name X Y : Type} [DecidableEq Name] (W : WN Name X Y) {v : RArr} (hw : W.layer.attr W.weightName = some v) (hv : v.Proper)
    {ax : Option Nat} (hm : Means v.shape.length W.axis ax) {g : List Nat → ℝ}
    (hg : ∀ idx, InBounds v.shape idx → W.g.bcast idx = some (g idx)) (x : X) :
    call W x = .ok (W.layer.call (fun n => if n = W.weightName then some (used v g ax) else W.layer.attr n) x) := by
  obtain ⟨n, h1, _, h2⟩ := normExceptAxis_eq hv hm
  have hval : weight v W.g n = used v g ax := by
    unfold weight used
    congr 1
    funext idx
    cases hr : v.val idx with
    | none => simp [mul, div]
    | some r =>
      have hi : InBounds v.shape idx := (hv idx).1 (by rw [hr]; rfl)
      rw [hg idx hi, h2 idx hi]
      simp only [mul, div, Option.bind_some, Option.map_some]
      split
      · rfl
      · congr 1; ring
  simp only [call, hw, bind, Except.bind, pure, Except.pure, h1, hval, Lyr.withAttr]

/-- `WeightNorm(layer)`: `g` is the norm. -/
theorem mk_eq {Name X Y : Type} (layer : Lyr Name X Y) (name : Name) (axis : Option Int) :
    (layer.attr name = none → mk layer name axis = .error .attributeError) ∧
    ∀ v, layer.attr name = some v → v.Proper →
      ((∀ ax, ¬ Means v.shape.length axis ax) → mk layer name axis = .error .valueError) ∧
      (∀ ax, Means v.shape.length axis ax → ∃ W, mk layer name axis = .ok W ∧ W.layer = layer ∧ W.weightName = name ∧ W.axis = axis ∧
        W.g.shape = normShape ax v.shape ∧ ∀ idx, InBounds v.shape idx → W.g.bcast idx = some (groupNorm v ax idx)) := by
  constructor
  · intro h; simp only [mk, h]
  · intro v h hv
    constructor
    · intro hno
      cases axis with
      | none => exact absurd trivial (hno none)
      | some i =>
        have : canonical i v.shape.length = .error .valueError := by
          cases hc : canonical i v.shape.length with
          | ok a => exact absurd (canonical_ok.1 hc) (hno (some a))
          | error e => exact hc ▸ (canonical_error.1 ⟨e, hc⟩).1
        simp only [mk, h, normExceptAxis, this, bind, Except.bind]
    · intro ax hm
      obtain ⟨n, h1, h2, h3⟩ := normExceptAxis_eq hv hm
      refine ⟨⟨layer, n, name, axis⟩, ?_, rfl, rfl, rfl, h2, h3⟩
      simp only [mk, h, h1, bind, Except.bind, pure, Except.pure]

/-- **A fresh WeightNorm behaves as the layer it wraps**, if no group is zero. -/
theorem fresh_eq {Name X Y : Type} [DecidableEq Name] {layer : Lyr Name X Y} {name : Name} {axis : Option Int} {W : WN Name X Y}
    (hW : mk layer name axis = .ok W) {v : RArr} (h : layer.attr name = some v) (hv : v.Proper) {ax : Option Nat}
    (hm : Means v.shape.length axis ax) (hnz : ∀ idx, InBounds v.shape idx → groupNorm v ax idx ≠ 0) (x : X) :
    call W x = .ok (layer.call layer.attr x) := by
  obtain ⟨W', hW', h1, h2, h3, _, h5⟩ := ((mk_eq layer name axis).2 v h hv).2 ax hm
  rw [hW] at hW'
  cases hW'
  rw [call_eq W (by rw [h1, h2]; exact h) hv (by rw [h3]; exact hm) h5, h1, h2]
  congr 2
  funext n
  by_cases hn : n = name
  · rw [if_pos hn, hn, h]
    congr 1
    unfold used
    cases v with
    | mk s val =>
      congr 1
      funext idx
      simp only
      cases hr : val idx with
      | none => rfl
      | some r =>
        have hi : InBounds s idx := (hv idx).1 (by simp only; rw [hr]; rfl)
        have := hnz idx hi
        rw [Option.bind_some, if_neg this]
        congr 1
        field_simp
  · rw [if_neg hn]

theorem sqrt_eq_zero_iff_all (v : RArr) (l : List (List Nat)) :
    Real.sqrt ((l.map fun j => v.at j * v.at j).sum) = 0 ↔ ∀ j ∈ l, v.at j = 0 := by
    have hnn : ∀ l : List (List Nat), 0 ≤ (l.map fun j => v.at j * v.at j).sum := by
      intro l
      induction l with
      | nil => simp
      | cons j l ih => simp only [List.map_cons, List.sum_cons]; exact add_nonneg (mul_self_nonneg _) ih
    rw [Real.sqrt_eq_zero (hnn l)]
    induction l with
    | nil => simp
    | cons j l ih =>
      simp only [List.map_cons, List.sum_cons]
      constructor
      · intro h
        have h1 := mul_self_nonneg (v.at j)
        have h2 := hnn l
        have h3 : v.at j * v.at j = 0 := by linarith
        have h4 : (l.map fun j => v.at j * v.at j).sum = 0 := by linarith
        intro k hk
        rcases List.mem_cons.1 hk with rfl | hk
        · exact mul_self_eq_zero.1 h3
        · exact ih.1 h4 k hk
      · intro h
        rw [h j (by simp), ih.2 fun k hk => h k (by simp [hk])]
        ring

/-- The norm of a group is zero exactly if all of its elements are. -/
theorem groupNorm_zero_iff (v : RArr) (ax : Option Nat) (idx : List Nat) :
    groupNorm v ax idx = 0 ↔ ∀ j, InBounds v.shape j → same ax idx j = true → v.at j = 0 := by
  unfold groupNorm
  rw [sqrt_eq_zero_iff_all]
  constructor
  · intro h j h1 h2
    exact h j (List.mem_filter.2 ⟨mem_indices.2 h1, h2⟩)
  · intro h j hj
    obtain ⟨h1, h2⟩ := List.mem_filter.1 hj
    exact h j (mem_indices.1 h1) h2

/-- The elements of a group which is zero become NaN. -/
theorem used_zero_group {v : RArr} (g : List Nat → ℝ) {ax : Option Nat} {idx : List Nat}
    (hz : ∀ j, InBounds v.shape j → same ax idx j = true → v.at j = 0) : (used v g ax).val idx = none := by
  unfold used
  simp only
  cases v.val idx with
  | none => rfl
  | some r => rw [Option.bind_some, if_pos ((groupNorm_zero_iff v ax idx).2 hz)]

theorem same_trans {ax : Option Nat} {i j : List Nat} (h : same ax i j = true) : same ax i = same ax j := by
  funext k
  cases ax with
  | none => rfl
  | some a =>
    simp only [same, beq_iff_eq] at h ⊢
    rw [h]

theorem groupNorm_congr (v : RArr) {ax : Option Nat} {i j : List Nat} (h : same ax i j = true) : groupNorm v ax i = groupNorm v ax j := by
  unfold groupNorm
  rw [same_trans h]

/-- **The magnitude of each group is `|g|`.** -/
theorem used_norm {v : RArr} (hv : v.Proper) {g : List Nat → ℝ} {ax : Option Nat} 
    (hg : ∀ i j, InBounds v.shape i → InBounds v.shape j → same ax i j = true → g i = g j) {idx : List Nat} (hi : InBounds v.shape idx)
    (hnz : groupNorm v ax idx ≠ 0) : groupNorm (used v g ax) ax idx = |g idx| := by
  have hat : ∀ j ∈ (indices v.shape).filter (same ax idx), (used v g ax).at j * (used v g ax).at j =
      (g idx / groupNorm v ax idx) * (g idx / groupNorm v ax idx) * (v.at j * v.at j) := by
    intro j hj
    obtain ⟨h1, h2⟩ := List.mem_filter.1 hj
    have hs := (hv j).2 (mem_indices.1 h1)
    obtain ⟨r, hr⟩ := Option.isSome_iff_exists.1 hs
    simp only [RArr.at, used, hr, Option.bind_some, Option.getD_some]
    rw [← groupNorm_congr v h2, if_neg hnz, ← hg _ _ hi (mem_indices.1 h1) h2]
    simp only [Option.getD_some]
    field_simp
  have hsum : (((indices v.shape).filter (same ax idx)).map fun j => (used v g ax).at j * (used v g ax).at j).sum =
      (g idx / groupNorm v ax idx) * (g idx / groupNorm v ax idx) * (((indices v.shape).filter (same ax idx)).map fun j => v.at j * v.at j).sum := by
    rw [List.map_congr_left hat]
    generalize (indices v.shape).filter (same ax idx) = l
    induction l with
    | nil => simp
    | cons j l ih => simp only [List.map_cons, List.sum_cons, ih]; ring
  have hsq : (((indices v.shape).filter (same ax idx)).map fun j => v.at j * v.at j).sum = groupNorm v ax idx * groupNorm v ax idx := by
    unfold groupNorm
    rw [Real.mul_self_sqrt]
    generalize (indices v.shape).filter (same ax idx) = l
    induction l with
    | nil => simp
    | cons j l ih => simp only [List.map_cons, List.sum_cons]; exact add_nonneg (mul_self_nonneg _) ih
  have : groupNorm (used v g ax) ax idx = Real.sqrt (g idx * g idx) := by
    conv_lhs => unfold groupNorm
    have hsh : (used v g ax).shape = v.shape := rfl
    rw [hsh, hsum, hsq]
    congr 1
    field_simp
  rw [this, Real.sqrt_mul_self_eq_abs]

/-- **Only the direction of `v` matters**: scaling every group by a positive number of its own changes nothing. -/
theorem used_scale {v w : RArr} (hs : w.shape = v.shape) {ax : Option Nat} {c : List Nat → ℝ} (hc : ∀ i j, same ax i j = true → c i = c j)
    (hpos : ∀ i, 0 < c i) (hw : ∀ j, w.val j = (v.val j).map fun r => c j * r) (g : List Nat → ℝ) : used w g ax = used v g ax := by
  have hn : ∀ idx, groupNorm w ax idx = c idx * groupNorm v ax idx := by
    intro idx
    unfold groupNorm
    rw [hs]
    have : (((indices v.shape).filter (same ax idx)).map fun j => w.at j * w.at j).sum =
        (c idx * c idx) * (((indices v.shape).filter (same ax idx)).map fun j => v.at j * v.at j).sum := by
      have hat : ∀ j ∈ (indices v.shape).filter (same ax idx), w.at j * w.at j = (c idx * c idx) * (v.at j * v.at j) := by
        intro j hj
        obtain ⟨_, h2⟩ := List.mem_filter.1 hj
        have : w.at j = c idx * v.at j := by
          simp only [RArr.at, hw j, hc _ _ h2]
          cases v.val j <;> simp
        rw [this]; ring
      rw [List.map_congr_left hat]
      generalize (indices v.shape).filter (same ax idx) = l
      induction l with
      | nil => simp
      | cons j l ih => simp only [List.map_cons, List.sum_cons, ih]; ring
    rw [this, Real.sqrt_mul (mul_self_nonneg _), Real.sqrt_mul_self (le_of_lt (hpos idx))]
  unfold used
  rw [hs]
  congr 1
  funext idx
  rw [hw, hn]
  have hp := hpos idx
  cases v.val idx with
  | none => rfl
  | some r =>
    simp only [Option.map_some, Option.bind_some]
    by_cases h0 : groupNorm v ax idx = 0
    · rw [if_pos (by rw [h0, mul_zero]), if_pos h0]
    · rw [if_neg (mul_ne_zero (ne_of_gt hp) h0), if_neg h0]
      congr 1
      have hp' : c idx ≠ 0 := ne_of_gt hp
      field_simp

/-! ### A concrete case -/

/-- A `2 × 2` matrix with rows `(3, 4)` and `(0, 0)`. -/
def caseArr : RArr where
  shape := [2, 2]
  val
    | [0, 0] => some 3
    | [0, 1] => some 4
    | [1, 0] => some 0
    | [1, 1] => some 0
    | _ => none

theorem case_norms : Means caseArr.shape.length (some (-2)) (some 0) ∧ caseArr.Proper ∧
    groupNorm caseArr (some 0) [0, 1] = 5 ∧ groupNorm caseArr (some 0) [1, 0] = 0 ∧ groupNorm caseArr none [1, 0] = 5 ∧
    groupNorm caseArr (some 1) [1, 0] = 3 := by
  refine ⟨⟨by decide, .inr (by decide)⟩, ?_, ?_, ?_, ?_, ?_⟩
  · intro idx
    match idx with
    | [] => simp [caseArr, InBounds]
    | [_] => simp [caseArr, InBounds]
    | [0, 0] => simp [caseArr, InBounds]
    | [0, 1] => simp [caseArr, InBounds]
    | [1, 0] => simp [caseArr, InBounds]
    | [1, 1] => simp [caseArr, InBounds]
    | [0, n + 2] => simp [caseArr, InBounds]
    | [1, n + 2] => simp [caseArr, InBounds]
    | [n + 2, _] => simp [caseArr, InBounds]
    | _ :: _ :: _ :: _ => simp [caseArr, InBounds]
  all_goals
    have hi : indices [2, 2] = [[0, 0], [0, 1], [1, 0], [1, 1]] := by decide
    unfold groupNorm
    rw [show caseArr.shape = [2, 2] from rfl, hi]
  · rw [show [[0, 0], [0, 1], [1, 0], [1, 1]].filter (same (some 0) [0, 1]) = [[0, 0], [0, 1]] by decide]
    simp only [List.map_cons, List.map_nil, List.sum_cons, List.sum_nil, RArr.at, caseArr, Option.getD_some]
    rw [show (3 * 3 + (4 * 4 + 0) : ℝ) = 5 * 5 by norm_num, Real.sqrt_mul_self (by norm_num)]
  · rw [show [[0, 0], [0, 1], [1, 0], [1, 1]].filter (same (some 0) [1, 0]) = [[1, 0], [1, 1]] by decide]
    simp [RArr.at, caseArr]
  · rw [show [[0, 0], [0, 1], [1, 0], [1, 1]].filter (same none [1, 0]) = [[0, 0], [0, 1], [1, 0], [1, 1]] by decide]
    simp only [List.map_cons, List.map_nil, List.sum_cons, List.sum_nil, RArr.at, caseArr, Option.getD_some]
    rw [show (3 * 3 + (4 * 4 + (0 * 0 + (0 * 0 + 0))) : ℝ) = 5 * 5 by norm_num, Real.sqrt_mul_self (by norm_num)]
  · rw [show [[0, 0], [0, 1], [1, 0], [1, 1]].filter (same (some 1) [1, 0]) = [[0, 0], [1, 0]] by decide]
    simp only [List.map_cons, List.map_nil, List.sum_cons, List.sum_nil, RArr.at, caseArr, Option.getD_some]
    rw [show (3 * 3 + (0 * 0 + 0) : ℝ) = 3 * 3 by norm_num, Real.sqrt_mul_self (by norm_num)]

end WeightNorm
end Verif
