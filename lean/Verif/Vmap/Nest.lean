import Verif.Vmap.Example

/-!
# C118: `filter_vmap` inside of `filter_vmap`

`equinox/_vmap_pmap.py:128-184` with a function which is itself a `filter_vmap`, to any depth. JAX runs the inner one on tracers of
the outer one; here it is run in every lane of the outer one (as every function is, in `Verif.Vmap.Model`), for which it has to be shown that
it can be traced.
-/

namespace Verif.Vmap
namespace Nest

open PT

variable {K V A O : Type}

/-! ## Model -/

/-- The arguments of one `filter_vmap(..., in_axes=..., out_axes=..., axis_size=...)`. -/
structure Config (K V O : Type) where
  params : List String
  inAxes : PT K (AxSpec V O)
  outAxes : PT K (AxSpec V O)
  axisSize : Option Nat

/-- `filter_vmap(f, ...)` (187-316) as a function of positional arguments. -/
def vmapped [DecidableEq K] (w : World K V A O) (tup : K) (c : Config K V O) (f : Fn K V O) : Fn K V O := fun args =>
  filterVmap w tup f c.params (.tree c.inAxes) c.outAxes c.axisSize args []

/-- `filter_vmap(filter_vmap(... f ...))`, the outermost first. -/
def nest [DecidableEq K] (w : World K V A O) (tup : K) (cs : List (Config K V O)) (f : Fn K V O) : Fn K V O :=
  match cs with
  | [] => f
  | c :: cs => vmapped w tup c (nest w tup cs f)

/-! ## Specification -/

/-- What one `filter_vmap` makes of a function, given as a relation of arguments and result: it is called once if nothing is mapped, and
otherwise on every lane of the arguments, giving every lane of the result. -/
def Lanewise (w : World K V A O) (tup : K) (c : Config K V O) (R : List (Val K V O) → Val K V O → Prop) (args : List (Val K V O))
    (out : Val K V O) : Prop :=
  (NoMapped c.inAxes (.node tup args) ∧ c.axisSize = Option.none ∧ R args out ∧ NoMapped c.outAxes out) ∨
  ∃ n, 0 < n ∧ IsBatch w c.inAxes c.axisSize (.node tup args) n ∧
    (c.axisSize = some n ∨ ∃ π ax, AxisAt c.inAxes (.node tup args) π (some ax)) ∧ ∀ i, i < n → ∃ args' o,
      IsLane w c.inAxes (.node tup args) i (.node tup args') ∧ R args' o ∧ HasLane w c.outAxes n i o out

/-- Several of them, the outermost first. -/
def Lanewises (w : World K V A O) (tup : K) (R : List (Val K V O) → Val K V O → Prop) :
    List (Config K V O) → List (Val K V O) → Val K V O → Prop
  | [] => R
  | c :: cs => Lanewise w tup c (Lanewises w tup R cs)

/-- Shapes and dtypes of slices are determined by those of the array, and the other way round, together with the size. -/
structure Shaped (w : World K V A O) : Prop where
  size_aval : ∀ v v' ax, w.aval v = w.aval v' → w.size v ax = w.size v' ax
  aval_slice : ∀ v v' ax i, w.aval v = w.aval v' → w.aval (w.slice v ax i) = w.aval (w.slice v' ax i)
  aval_of_slice : ∀ v v' ax n i, w.size v ax = some n → w.size v' ax = some n → i < n →
    w.aval (w.slice v ax i) = w.aval (w.slice v' ax i) → w.aval v = w.aval v'

/-- The callables in `in_axes` and `out_axes` can be traced. -/
def Config.Traceable (w : World K V A O) (c : Config K V O) : Prop := TraceableAxes w c.inAxes ∧ TraceableAxes w c.outAxes

/-! ## Proofs -/

/-- Leaves of trees that are alike are alike. -/
theorem alike_leaf {w : World K V A O} {t t' : Val K V O} (h : Alike w t t') {π : List Nat} {l : Leaf V O}
    (hl : t.leafAt? π = some l) : ∃ l', t'.leafAt? π = some l' ∧ abstract w l = abstract w l' := by
  have h1 := leafAt?_map (abstract w) t π
  have h2 := leafAt?_map (abstract w) t' π
  rw [Alike] at h
  rw [h, h2, hl] at h1
  cases h' : t'.leafAt? π with
  | none => rw [h'] at h1; simp at h1
  | some l' =>
    rw [h'] at h1
    simp only [Option.map_some, Option.some.injEq] at h1
    exact ⟨l', rfl, h1.symm⟩

theorem alike_symm {w : World K V A O} {t t' : Val K V O} (h : Alike w t t') : Alike w t' t := Eq.symm h

/-- Leaves of trees that are alike have the same axes. -/
theorem axisAt_alike {w : World K V A O} {axes : PT K (AxSpec V O)} (ha : TraceableAxes w axes) {t t' : Val K V O}
    (h : Alike w t t') {π : List Nat} {a : Option Int} (hx : AxisAt axes t π a) : AxisAt axes t' π a := by
  obtain ⟨σ, ρ, s, l, h1, h2, h3, h4⟩ := hx
  obtain ⟨l', h5, h6⟩ := alike_leaf h h2
  refine ⟨σ, ρ, s, l', h1, h5, h3, ?_⟩
  rcases h4 with h4 | h4 | ⟨f, h4, h7⟩
  · exact .inl h4
  · exact .inr (.inl h4)
  · refine .inr (.inr ⟨f, h4, ?_⟩)
    rw [← ha σ f (by rw [leafAt?, h3, h4]) l l' h6]
    exact h7

theorem alike_shape {w : World K V A O} {t t' : Val K V O} (h : Alike w t t') : t.shape = t'.shape := by
  have := congrArg PT.shape h
  rwa [shape_map, shape_map] at this

/-- Trees of one structure whose leaves are alike are alike. -/
theorem alike_of {w : World K V A O} {t t' : Val K V O} (hs : t.shape = t'.shape)
    (h : ∀ π l l', t.leafAt? π = some l → t'.leafAt? π = some l' → abstract w l = abstract w l') : Alike w t t' := by
  apply eq_of_shape_leafAt?
  · rw [shape_map, shape_map, hs]
  · intro π x y hx hy
    rw [leafAt?_map, Option.map_eq_some_iff] at hx hy
    obtain ⟨l, h1, rfl⟩ := hx
    obtain ⟨l', h2, rfl⟩ := hy
    exact h π l l' h1 h2

theorem alike_args {w : World K V A O} {tup : K} {args args' : List (Val K V O)} :
    Alike w (.node tup args) (.node tup args') ↔ args.map (PT.map (abstract w)) = args'.map (PT.map (abstract w)) := by
  simp [Alike, PT.map, mapL_eq]

/-- What C29 says, for every function that can be traced. -/
theorem lanewise [DecidableEq K] {w : World K V A O} (hw : Lawful w) {tup : K} {c : Config K V O} {f : Fn K V O} (hf : Vmap.Traceable w f)
    (hc : c.Traceable w) {args : List (Val K V O)} {out : Val K V O} (h : vmapped w tup c f args = .ok out) :
    Lanewise w tup c (fun a o => f a = .ok o) args out :=
  (filter_vmap_lanes hw hf hc.2 h).2

/-- **C118.** A `filter_vmap` of a function that can be traced can be traced: on arguments which JAX cannot tell apart while tracing, the results cannot be
told apart either. -/
theorem filter_vmap_traceable [DecidableEq K] {w : World K V A O} (hw : Lawful w) (hs : Shaped w) (tup : K) {c : Config K V O} {f : Fn K V O}
    (hf : Vmap.Traceable w f) (hc : c.Traceable w) : Vmap.Traceable w (vmapped w tup c f) := by
  intro args args' out out' ha ho ho'
  have ha := (alike_args (tup := tup)).2 ha
  have h := lanewise hw hf hc ho
  have h' := lanewise hw hf hc ho'
  rcases h with ⟨m1, m2, m3, -⟩ | ⟨n, n1, n2, n3, n4⟩ <;> rcases h' with ⟨m1', m2', m3', -⟩ | ⟨n', n1', n2', n3', n4'⟩
  · exact hf _ _ _ _ (alike_args.1 ha) m3 m3'
  · rcases n3' with h | ⟨π, ax, h⟩
    · rw [m2] at h; cases h
    · cases m1 π _ (axisAt_alike hc.1 (alike_symm ha) h)
  · rcases n3 with h | ⟨π, ax, h⟩
    · rw [m2'] at h; cases h
    · cases m1' π _ (axisAt_alike hc.1 ha h)
  · have hn : n = n' := by
      rcases n3 with h | ⟨π, ax, h⟩
      · exact n2'.1 n h
      · obtain ⟨v, v1, v2⟩ := n2.2 π ax h
        obtain ⟨v', v1', v2'⟩ := n2'.2 π ax (axisAt_alike hc.1 ha h)
        obtain ⟨l, l1, l2⟩ := alike_leaf ha v1
        rw [v1'] at l1
        cases l1
        simp only [abstract, Sum.inl.injEq] at l2
        rw [hs.size_aval v v' ax l2, v2'] at v2
        exact (Option.some.inj v2).symm
    subst hn
    obtain ⟨b, o, b1, b2, b3⟩ := n4 0 n1
    obtain ⟨b', o', b1', b2', b3'⟩ := n4' 0 n1
    have hb : Alike w (.node tup b) (.node tup b') := by
      apply alike_of
      · rw [← sameStructure_iff.1 b1.1, ← sameStructure_iff.1 b1'.1, alike_shape ha]
      · intro π l l' hl hl'
        have hex : ∃ x, (PT.node tup args).leafAt? π = some x := by
          have := leafAt?_isSome_of_shape (sameStructure_iff.1 b1.1) π
          rw [hl] at this
          exact Option.isSome_iff_exists.1 this
        obtain ⟨x, hx⟩ := hex
        obtain ⟨x', hx', hxx⟩ := alike_leaf ha hx
        obtain ⟨a, a1, a2⟩ := b1.2 π x hx
        obtain ⟨a', a1', a2'⟩ := b1'.2 π x' hx'
        have := axisAt_unique (axisAt_alike hc.1 ha a1) a1'
        subst this
        rw [hl] at a2; rw [hl'] at a2'
        cases a2; cases a2'
        cases a with
        | none => exact hxx
        | some ax =>
          cases x <;> cases x' <;> simp only [abstract, inLane, Sum.inl.injEq, Sum.inr.injEq, reduceCtorEq] at hxx ⊢
          · exact hs.aval_slice _ _ _ _ hxx
          · exact hxx
    have hoo := hf _ _ _ _ (alike_args.1 hb) b2 b2'
    apply alike_of
    · rw [← sameStructure_iff.1 b3.1, ← sameStructure_iff.1 b3'.1, alike_shape hoo]
    · intro π l l' hl hl'
      have hex : ∃ x, o.leafAt? π = some x := by
        have := leafAt?_isSome_of_shape (sameStructure_iff.1 b3.1) π
        rw [hl] at this
        exact Option.isSome_iff_exists.1 this
      obtain ⟨x, hx⟩ := hex
      obtain ⟨x', hx', hxx⟩ := alike_leaf hoo hx
      rcases b3.2 π x hx with ⟨a1, a2⟩ | ⟨ax, v, u, a1, a2, a3, a4, a5⟩ <;>
        rcases b3'.2 π x' hx' with ⟨a1', a2'⟩ | ⟨ax', v', u', a1', a2', a3', a4', a5'⟩
      · rw [hl] at a2; rw [hl'] at a2'
        cases a2; cases a2'
        exact hxx
      · cases axisAt_unique (axisAt_alike hc.2 hoo a1) a1'
      · cases axisAt_unique (axisAt_alike hc.2 hoo a1) a1'
      · cases axisAt_unique (axisAt_alike hc.2 hoo a1) a1'
        rw [hl] at a2; rw [hl'] at a2'
        cases a2; cases a2'
        simp only [abstract, Sum.inl.injEq]
        refine hs.aval_of_slice v v' ax n 0 a4 a4' n1 ?_
        rw [a5, a5']
        rcases a3 with rfl | ⟨p, rfl, a3⟩ <;> rcases a3' with rfl | ⟨p', rfl, a3'⟩ <;>
          simp only [abstract, Sum.inl.injEq, Sum.inr.injEq, reduceCtorEq] at hxx
        · exact hxx
        · subst hxx
          rw [a3] at a3'
          rw [Option.some.inj a3']

/-- So can any nest of them. -/
theorem nest_traceable [DecidableEq K] {w : World K V A O} (hw : Lawful w) (hs : Shaped w) (tup : K) {cs : List (Config K V O)} {f : Fn K V O}
    (hf : Vmap.Traceable w f) (hc : ∀ c ∈ cs, c.Traceable w) : Vmap.Traceable w (nest w tup cs f) := by
  induction cs with
  | nil => exact hf
  | cons c cs ih => exact filter_vmap_traceable hw hs tup (ih fun c' hc' => hc c' (by simp [hc'])) (hc c (by simp))

theorem Lanewise.mono {w : World K V A O} {tup : K} {c : Config K V O} {R S : List (Val K V O) → Val K V O → Prop}
    (h : ∀ a o, R a o → S a o) {args : List (Val K V O)} {out : Val K V O} (hl : Lanewise w tup c R args out) :
    Lanewise w tup c S args out := by
  rcases hl with ⟨h1, h2, h3, h4⟩ | ⟨n, h1, h2, h3, h4⟩
  · exact .inl ⟨h1, h2, h _ _ h3, h4⟩
  · refine .inr ⟨n, h1, h2, h3, fun i hi => ?_⟩
    obtain ⟨a, o, h5, h6, h7⟩ := h4 i hi
    exact ⟨a, o, h5, h _ _ h6, h7⟩

/-- **C118.** A nest of `filter_vmap`s of any depth calls the function on every lane of every lane ... of the arguments, and its result has the outcomes
as lanes of lanes. -/
theorem nest_lanes [DecidableEq K] {w : World K V A O} (hw : Lawful w) (hs : Shaped w) (tup : K) {cs : List (Config K V O)} {f : Fn K V O}
    (hf : Vmap.Traceable w f) (hc : ∀ c ∈ cs, c.Traceable w) {args : List (Val K V O)} {out : Val K V O} (h : nest w tup cs f args = .ok out) :
    Lanewises w tup (fun a o => f a = .ok o) cs args out := by
  induction cs generalizing args out with
  | nil => exact h
  | cons c cs ih =>
    have hc' : ∀ c' ∈ cs, c'.Traceable w := fun c' hc' => hc c' (by simp [hc'])
    exact (lanewise hw (nest_traceable hw hs tup hf hc') (hc c (by simp)) h).mono fun a o ho => ih hc' ho

/-! ## Two axes, in either order -/

/-- `filter_vmap(in_axes=axis, out_axes=axis)` -/
def along (K V O : Type) (axis : Int) : Config K V O := ⟨[], .leaf (.int axis), .leaf (.int axis), Option.none⟩

/-- The facts used about arrays and their first two axes. -/
structure Grid (w : World K V A O) : Prop where
  size_rows : ∀ v i n, w.size v 0 = some n → i < n → w.size (w.slice v 0 i) 0 = w.size v 1
  size_columns : ∀ v j m, w.size v 1 = some m → j < m → w.size (w.slice v 1 j) 0 = w.size v 0
  entry : ∀ v i j n m, w.size v 0 = some n → w.size v 1 = some m → i < n → j < m →
    w.slice (w.slice v 1 j) 0 i = w.slice (w.slice v 0 i) 0 j
  ext : ∀ v v' n m, 0 < n → 0 < m → w.size v 0 = some n → w.size v' 0 = some n → w.size v 1 = some m → w.size v' 1 = some m →
    (∀ i j, i < n → j < m → w.slice (w.slice v 0 i) 0 j = w.slice (w.slice v' 0 i) 0 j) → v = v'

theorem traceable_int (w : World K V A O) (a : Int) : TraceableAxes w (.leaf (.int a)) := by
  intro σ g h
  rcases σ with _ | ⟨i, σ⟩ <;> simp at h

/-- With a number for all leaves every leaf has that axis. -/
theorem axisAt_int {a : Int} {t : Val K V O} {π : List Nat} {b : Option Int} :
    AxisAt (.leaf (.int a)) t π b ↔ (∃ l, t.leafAt? π = some l) ∧ b = some a := by
  constructor
  · rintro ⟨σ, ρ, s, l, h1, h2, h3, h4⟩
    refine ⟨⟨l, h2⟩, ?_⟩
    rcases σ with _ | ⟨i, σ⟩
    · simp only [get?, Option.some.injEq] at h3
      subst h3
      rcases h4 with ⟨h, -⟩ | ⟨n, h, h'⟩ | ⟨f, h, -⟩
      · cases h
      · cases h; exact h'
      · cases h
    · simp [get?] at h3
  · rintro ⟨⟨l, h⟩, rfl⟩
    exact ⟨[], π, _, l, rfl, h, rfl, .inr (.inl ⟨a, rfl, rfl⟩)⟩

/-- A lane of the arguments: every leaf is an array, and has been sliced. -/
theorem lane_leaf {w : World K V A O} {a : Int} {t t' : Val K V O} {i : Nat} (h : IsLane w (.leaf (.int a)) t i t') {π : List Nat} {v : V}
    (hv : t.leafAt? π = some (.arr v)) : t'.leafAt? π = some (.arr (w.slice v a i)) := by
  obtain ⟨b, h1, h2⟩ := h.2 π _ hv
  rw [(axisAt_int.1 h1).2] at h2
  exact h2

/-- A lane of the result. -/
theorem out_leaf {w : World K V A O} {a : Int} {o out : Val K V O} {n i : Nat} (h : HasLane w (.leaf (.int a)) n i o out) {π : List Nat} {l : Leaf V O}
    (hl : o.leafAt? π = some l) : ∃ v u, out.leafAt? π = some (.arr v) ∧ IsArr w l u ∧ w.size v a = some n ∧ w.slice v a i = u := by
  rcases h.2 π l hl with ⟨h1, -⟩ | ⟨ax, v, u, h1, h2, h3, h4, h5⟩
  · cases (axisAt_int.1 h1).2
  · cases (axisAt_int.1 h1).2
    exact ⟨v, u, h2, h3, h4, h5⟩

theorem isArr_unique {w : World K V A O} {l : Leaf V O} {u u' : V} (h : IsArr w l u) (h' : IsArr w l u') : u = u' := by
  rcases h with rfl | ⟨o, rfl, h⟩ <;> rcases h' with h' | ⟨o', h1, h'⟩
  · cases h'; rfl
  · cases h1
  · cases h'
  · cases h1
    rw [h] at h'
    exact Option.some.inj h'

theorem exists_leaf {α β : Type} {t : PT K α} {t' : PT K β} (h : t.shape = t'.shape) {π : List Nat} {l : α} (hl : t.leafAt? π = some l) :
    ∃ l', t'.leafAt? π = some l' := by
  have := leafAt?_isSome_of_shape h π
  rw [hl] at this
  exact Option.isSome_iff_exists.1 this.symm

/-- **C118.** Mapping over the first axis and, inside, over the second gives what mapping over the second axis and, inside, over the first gives, with
outputs put along the axes mapped. -/
theorem nest_exchange [DecidableEq K] {w : World K V A O} (hw : Lawful w) (hs : Shaped w) (hg : Grid w) (tup : K) {f : Fn K V O}
    (hf : Vmap.Traceable w f) {args : List (Val K V O)} {out out' : Val K V O}
    (h : nest w tup [along K V O 0, along K V O 0] f args = .ok out)
    (h' : nest w tup [along K V O 1, along K V O 0] f args = .ok out') : out = out' := by
  have ht : ∀ a : Int, (along K V O a).Traceable w := fun a => ⟨traceable_int w a, traceable_int w a⟩
  have hl := nest_lanes hw hs tup hf (by intro c hc; simp at hc; subst hc; exact ht 0) h
  have hl' := nest_lanes hw hs tup hf (by intro c hc; simp at hc; rcases hc with rfl | rfl <;> exact ht _) h'
  simp only [Lanewises] at hl hl'
  rcases hl with ⟨m1, -, m3, -⟩ | ⟨n, n1, n2, n3, n4⟩
  · -- no leaves at all
    have hno : ∀ π l, (PT.node tup args).leafAt? π ≠ some l := fun π l hπ => by
      cases m1 π _ (axisAt_int.2 ⟨⟨l, hπ⟩, rfl⟩)
    have hno' : ∀ a : Int, ∀ π ax, ¬ AxisAt (along K V O a).inAxes (.node tup args) π (some ax) := fun a π ax hx =>
      hno π _ (axisAt_int.1 hx).1.choose_spec
    have inner : ∀ o, Lanewise w tup (along K V O 0) (fun a o => f a = .ok o) args o → f args = .ok o := by
      rintro o (⟨-, -, hh, -⟩ | ⟨n, -, -, hh, -⟩)
      · exact hh
      · rcases hh with hh | ⟨π, ax, hh⟩
        · cases hh
        · exact absurd hh (hno' 0 π ax)
    have e1 := inner out m3
    rcases hl' with ⟨-, -, m3', -⟩ | ⟨n, -, -, hh, -⟩
    · have e2 := inner out' m3'
      rw [e1] at e2
      exact Except.ok.inj e2
    · rcases hh with hh | ⟨π, ax, hh⟩
      · cases hh
      · exact absurd hh (hno' 1 π ax)
  · rcases n3 with hh | ⟨π₀, ax₀, hπ₀⟩
    · cases hh
    obtain ⟨⟨l₀, hl₀⟩, e⟩ := axisAt_int.1 hπ₀
    cases e
    rcases hl' with ⟨m1', -⟩ | ⟨m, m1, m2, -, m4⟩
    · cases m1' π₀ _ (axisAt_int.2 ⟨⟨l₀, hl₀⟩, rfl⟩)
    -- every leaf of the arguments is an `n` by `m` array
    have hleaf : ∀ π l, (PT.node tup args).leafAt? π = some l → ∃ v, l = .arr v ∧ w.size v 0 = some n ∧ w.size v 1 = some m := by
      intro π l hl
      obtain ⟨v, v1, v2⟩ := n2.2 π 0 (axisAt_int.2 ⟨⟨l, hl⟩, rfl⟩)
      obtain ⟨v', v1', v2'⟩ := m2.2 π 1 (axisAt_int.2 ⟨⟨l, hl⟩, rfl⟩)
      rw [hl] at v1 v1'
      cases v1; cases v1'
      exact ⟨v, rfl, v2, v2'⟩
    obtain ⟨v₀, rfl, z0, z1⟩ := hleaf π₀ l₀ hl₀
    -- the inner maps
    have row : ∀ i, i < n → ∃ b o, IsLane w (.leaf (.int 0)) (.node tup args) i (.node tup b) ∧ HasLane w (.leaf (.int 0)) n i o out ∧
        ∀ j, j < m → ∃ c oo, IsLane w (.leaf (.int 0)) (.node tup b) j (.node tup c) ∧ f c = .ok oo ∧ HasLane w (.leaf (.int 0)) m j oo o := by
      intro i hi
      obtain ⟨b, o, b1, b2, b3⟩ := n4 i hi
      refine ⟨b, o, b1, b3, ?_⟩
      have hb := lane_leaf b1 hl₀
      rcases b2 with ⟨hh, -⟩ | ⟨m', -, hh, -, b4⟩
      · cases hh π₀ _ (axisAt_int.2 ⟨⟨_, hb⟩, rfl⟩)
      · obtain ⟨v, v1, v2⟩ := hh.2 π₀ 0 (axisAt_int.2 ⟨⟨_, hb⟩, rfl⟩)
        rw [hb] at v1
        cases v1
        rw [hg.size_rows v₀ i n z0 hi, z1] at v2
        cases v2
        exact b4
    have column : ∀ j, j < m → ∃ b o, IsLane w (.leaf (.int 1)) (.node tup args) j (.node tup b) ∧ HasLane w (.leaf (.int 1)) m j o out' ∧
        ∀ i, i < n → ∃ c oo, IsLane w (.leaf (.int 0)) (.node tup b) i (.node tup c) ∧ f c = .ok oo ∧ HasLane w (.leaf (.int 0)) n i oo o := by
      intro j hj
      obtain ⟨b, o, b1, b2, b3⟩ := m4 j hj
      refine ⟨b, o, b1, b3, ?_⟩
      have hb := lane_leaf b1 hl₀
      rcases b2 with ⟨hh, -⟩ | ⟨m', -, hh, -, b4⟩
      · cases hh π₀ _ (axisAt_int.2 ⟨⟨_, hb⟩, rfl⟩)
      · obtain ⟨v, v1, v2⟩ := hh.2 π₀ 0 (axisAt_int.2 ⟨⟨_, hb⟩, rfl⟩)
        rw [hb] at v1
        cases v1
        rw [hg.size_columns v₀ j m z1 hj, z0] at v2
        cases v2
        exact b4
    -- the same entries are reached
    have same : ∀ i j b c b' c', i < n → j < m → IsLane w (.leaf (.int 0)) (.node tup args) i (.node tup b) →
        IsLane w (.leaf (.int 0)) (.node tup b) j (.node tup c) → IsLane w (.leaf (.int 1)) (.node tup args) j (.node tup b') →
        IsLane w (.leaf (.int 0)) (.node tup b') i (.node tup c') → c = c' := by
      intro i j b c b' c' hi hj h1 h2 h3 h4
      have : (PT.node tup c : Val K V O) = .node tup c' := by
        apply eq_of_shape_leafAt?
        · rw [← sameStructure_iff.1 h2.1, ← sameStructure_iff.1 h1.1, ← sameStructure_iff.1 h4.1, ← sameStructure_iff.1 h3.1]
        · intro π x y hx hy
          obtain ⟨l, hl⟩ := exists_leaf (t' := PT.node tup args)
            (by rw [← sameStructure_iff.1 h2.1, ← sameStructure_iff.1 h1.1]) hx
          obtain ⟨v, rfl, v0, v1⟩ := hleaf π l hl
          have e1 := lane_leaf h2 (lane_leaf h1 hl)
          have e2 := lane_leaf h4 (lane_leaf h3 hl)
          rw [hx] at e1; rw [hy] at e2
          rw [Option.some.inj e1, Option.some.inj e2, hg.entry v i j n m v0 v1 hi hj]
      simpa using this
    have hm : 0 < m := m1
    have hshape : out.shape = out'.shape := by
      obtain ⟨b, o, b1, b2, b3⟩ := row 0 n1
      obtain ⟨c, oo, c1, c2, c3⟩ := b3 0 hm
      obtain ⟨b', o', b1', b2', b3'⟩ := column 0 hm
      obtain ⟨c', oo', c1', c2', c3'⟩ := b3' 0 n1
      have := same 0 0 b c b' c' n1 hm b1 c1 b1' c1'
      subst this
      rw [c2] at c2'
      cases c2'
      rw [← sameStructure_iff.1 b2.1, ← sameStructure_iff.1 c3.1, ← sameStructure_iff.1 b2'.1, ← sameStructure_iff.1 c3'.1]
    apply eq_of_shape_leafAt? hshape
    intro π x y hx hy
    -- the arrays at `π`
    have key : ∃ v v', x = .arr v ∧ y = .arr v' ∧ w.size v 0 = some n ∧ w.size v' 1 = some m ∧ ∀ i j, i < n → j < m →
        w.slice (w.slice v 0 i) 0 j = w.slice (w.slice v' 1 j) 0 i ∧ w.size (w.slice v 0 i) 0 = some m ∧
        w.size (w.slice v' 1 j) 0 = some n := by
      have each : ∀ i j, i < n → j < m → ∃ v v', x = .arr v ∧ y = .arr v' ∧ w.size v 0 = some n ∧ w.size v' 1 = some m ∧
          w.slice (w.slice v 0 i) 0 j = w.slice (w.slice v' 1 j) 0 i ∧ w.size (w.slice v 0 i) 0 = some m ∧
          w.size (w.slice v' 1 j) 0 = some n := by
        intro i j hi hj
        obtain ⟨b, o, b1, b2, b3⟩ := row i hi
        obtain ⟨c, oo, c1, c2, c3⟩ := b3 j hj
        obtain ⟨b', o', b1', b2', b3'⟩ := column j hj
        obtain ⟨c', oo', c1', c2', c3'⟩ := b3' i hi
        have := same i j b c b' c' hi hj b1 c1 b1' c1'
        subst this
        rw [c2] at c2'
        cases c2'
        obtain ⟨lo, hlo⟩ := exists_leaf (sameStructure_iff.1 b2.1).symm hx
        obtain ⟨loo, hloo⟩ := exists_leaf (sameStructure_iff.1 c3.1).symm hlo
        obtain ⟨lo', hlo'⟩ := exists_leaf (sameStructure_iff.1 b2'.1).symm hy
        obtain ⟨v, u, p1, p2, p3, p4⟩ := out_leaf b2 hlo
        obtain ⟨v', u', q1, q2, q3, q4⟩ := out_leaf b2' hlo'
        obtain ⟨r, s, r1, r2, r3, r4⟩ := out_leaf c3 hloo
        obtain ⟨r', s', r1', r2', r3', r4'⟩ := out_leaf c3' hloo
        rw [hx] at p1; rw [hy] at q1; rw [hlo] at r1; rw [hlo'] at r1'
        cases p1; cases q1; cases r1; cases r1'
        have e1 : u = r := isArr_unique p2 (.inl rfl)
        have e2 : u' = r' := isArr_unique q2 (.inl rfl)
        have e3 : s = s' := isArr_unique r2 r2'
        subst e1 e2 e3
        exact ⟨v, v', rfl, rfl, p3, q3, by rw [p4, q4, r4, r4'], by rw [p4, r3], by rw [q4, r3']⟩
      obtain ⟨v, v', e1, e2, e3, e4, -⟩ := each 0 0 n1 hm
      refine ⟨v, v', e1, e2, e3, e4, fun i j hi hj => ?_⟩
      obtain ⟨u, u', e1', e2', -, -, e5, e6, e7⟩ := each i j hi hj
      rw [e1] at e1'; rw [e2] at e2'
      cases e1'; cases e2'
      exact ⟨e5, e6, e7⟩
    obtain ⟨v, v', rfl, rfl, k1, k2, k3⟩ := key
    have s1 : w.size v 1 = some m := by rw [← hg.size_rows v 0 n k1 n1]; exact (k3 0 0 n1 hm).2.1
    have s2 : w.size v' 0 = some n := by rw [← hg.size_columns v' 0 m k2 hm]; exact (k3 0 0 n1 hm).2.2
    rw [hg.ext v v' n m n1 hm k1 s2 s1 k2 fun i j hi hj => by rw [(k3 i j hi hj).1, hg.entry v' i j n m s2 k2 hi hj]]

/-! ## A case -/

namespace Ex

open Vmap.Ex

theorem length_of_size {v : Arr} {ax : Int} {n : Nat} (h : size v ax = some n) : ∃ k, normAxis ax v.shape.length = some k ∧ v.shape[k]? = some n := by
  simpa only [size, Option.bind_eq_some_iff] using h

/-- The arrays of `Verif.Vmap.Example` satisfy the laws used here. -/
theorem shaped : Shaped world where
  size_aval := by
    intro v v' ax h
    simp only [world] at h ⊢
    simp [size, h]
  aval_slice := by
    intro v v' ax i h
    simp only [world] at h ⊢
    simp only [slice, h]
    cases normAxis ax v'.shape.length <;> simp [mk, h]
  aval_of_slice := by
    intro v v' ax n i h1 h2 _ h
    obtain ⟨k, k1, k2⟩ := length_of_size h1
    obtain ⟨k', k1', k2'⟩ := length_of_size h2
    have hk := normAxis_lt k1
    have hk' := normAxis_lt k1'
    simp only [world, slice, k1, k1', mk] at h ⊢
    have hlen : v.shape.length = v'.shape.length := by
      have := congrArg List.length h
      rw [List.length_eraseIdx_of_lt hk, List.length_eraseIdx_of_lt hk'] at this
      omega
    rw [hlen, k1'] at k1
    cases k1
    have e : ∀ (s : List Nat) (k : Nat), s[k]? = some n → (s.eraseIdx k).insertIdx k n = s := by
      intro s
      induction s with
      | nil => intro k h; simp at h
      | cons a s ih =>
        intro k h
        cases k with
        | zero => simp at h; simp [h]
        | succ k => simp at h; simp [ih k h]
    rw [← e v.shape k k2, h, e v'.shape k k2']

theorem norm0 (l : Nat) : normAxis 0 (l + 1) = some 0 := by simp [normAxis]
theorem norm1 (l : Nat) : normAxis 1 (l + 1 + 1) = some 1 := by
  have : (1 : Int) < (l : Int) + 1 + 1 := by omega
  simp [normAxis, this]

theorem shape_one {v : Arr} {n : Nat} (h0 : size v 0 = some n) : ∃ s, v.shape = n :: s := by
  obtain ⟨k, k1, k2⟩ := length_of_size h0
  rcases hv : v.shape with _ | ⟨a, s⟩
  · rw [hv] at k2; simp at k2
  · rw [hv] at k1 k2
    rw [List.length_cons, norm0] at k1
    cases k1
    simp at k2
    exact ⟨s, by rw [k2]⟩

theorem shape_second {v : Arr} {m : Nat} (h1 : size v 1 = some m) : ∃ n s, v.shape = n :: m :: s := by
  obtain ⟨k', k1', k2'⟩ := length_of_size h1
  rcases hv : v.shape with _ | ⟨a, _ | ⟨b, s⟩⟩
  · rw [hv] at k2'; simp at k2'
  · rw [hv] at k1'; simp [normAxis] at k1'
  · rw [hv] at k1' k2'
    rw [List.length_cons, List.length_cons, norm1] at k1'
    cases k1'
    simp at k2'
    exact ⟨a, s, by rw [k2']⟩

theorem shape_two {v : Arr} {n m : Nat} (h0 : size v 0 = some n) (h1 : size v 1 = some m) : ∃ s, v.shape = n :: m :: s := by
  obtain ⟨n', s, hs⟩ := shape_second h1
  obtain ⟨s', hs'⟩ := shape_one h0
  rw [hs'] at hs
  cases hs
  exact ⟨s, hs'⟩

/-- The first and the second axis of a slice along the first. -/
theorem slice0 {v : Arr} {n : Nat} {s : List Nat} (h : v.shape = n :: s) (i : Nat) : slice v 0 i = mk s fun idx => v.val (i :: idx) := by
  simp [slice, h, norm0]

theorem slice1 {v : Arr} {n m : Nat} {s : List Nat} (h : v.shape = n :: m :: s) (j : Nat) :
    slice v 1 j = mk (n :: s) fun idx => v.val (idx.insertIdx 1 j) := by
  simp [slice, h, norm1]

theorem grid : Grid world where
  size_rows := by
    intro v i n h _
    obtain ⟨s, hs⟩ := shape_one h
    simp only [world]
    rw [slice0 hs]
    cases s with
    | nil => simp [size, mk, hs, normAxis]
    | cons m s => simp [size, mk, hs, norm0, norm1]
  size_columns := by
    intro v j m h _
    obtain ⟨n, s, hs⟩ := shape_second h
    simp only [world]
    rw [slice1 hs]
    simp [size, mk, hs, norm0]
  entry := by
    intro v i j n m h0 h1 hi hj
    obtain ⟨s, hs⟩ := shape_two h0 h1
    simp only [world]
    rw [slice1 hs, slice0 hs, slice0 (n := n) (s := s) rfl, slice0 (n := m) (s := s) rfl]
    refine Arr.ext' ?_ ?_
    · rfl
    intro idx hidx
    simp only [mk] at hidx
    simp [mk, hidx, inb, hi, hj]
  ext := by
    intro v v' n m hn hm h0 h0' h1 h1' h
    obtain ⟨s, hs⟩ := shape_two h0 h1
    obtain ⟨s', hs'⟩ := shape_two h0' h1'
    simp only [world] at h
    have hh : ∀ i j, i < n → j < m → (mk s fun idx => if inb (m :: s) (j :: idx) then v.val (i :: j :: idx) else 0) =
        mk s' fun idx => if inb (m :: s') (j :: idx) then v'.val (i :: j :: idx) else 0 := by
      intro i j hi hj
      have := h i j hi hj
      rw [slice0 hs, slice0 hs', slice0 (n := m) (s := s) rfl, slice0 (n := m) (s := s') rfl] at this
      exact this
    have hss : s = s' := congrArg Arr.shape (hh 0 0 hn hm)
    subst hss
    apply Arr.ext'
    · rw [hs, hs']
    · intro idx hidx
      rw [hs] at hidx
      rcases idx with _ | ⟨i, _ | ⟨j, idx⟩⟩
      · simp [inb] at hidx
      · simp [inb] at hidx
      · simp only [inb, Bool.and_eq_true, decide_eq_true_eq] at hidx
        have := congrArg (fun a : Arr => a.val idx) (hh i j hidx.1 hidx.2.1)
        simpa [mk, inb, hidx.2.1, hidx.2.2] using this

/-- `def f(x): return x` -/
def ident : Fn Unit Arr Int
  | [x] => .ok x
  | _ => .error .typeError

theorem traceable_ident : Vmap.Traceable world ident := by
  intro args args' o o' h h1 h2
  rcases args with _ | ⟨x, _ | ⟨y, ys⟩⟩ <;> simp only [ident, reduceCtorEq] at h1
  rcases args' with _ | ⟨x', _ | ⟨y', ys'⟩⟩ <;> simp only [ident, reduceCtorEq] at h2
  cases h1; cases h2
  simpa [Alike] using h

/-- Both nests run on a matrix with two rows and three columns. -/
example : (∃ out, nest world () [along Unit Arr Int 0, along Unit Arr Int 0] ident [.leaf (.arr matrix)] = .ok out) ∧
    (∃ out, nest world () [along Unit Arr Int 1, along Unit Arr Int 0] ident [.leaf (.arr matrix)] = .ok out) :=
  ⟨⟨_, rfl⟩, ⟨_, rfl⟩⟩

end Ex

end Nest
end Verif.Vmap
