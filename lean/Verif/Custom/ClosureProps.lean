import Verif.Custom.Closure
import Verif.Custom.Props
import Verif.TreeEqual.Props

/-! # C49: `filter_closure_convert` and `filter_make_jaxpr` -/

namespace Verif
namespace Custom

open PT Filters
open Jit (JK)
open AD (keep drop leaves_keep exists_pair unflatten_leaves' exists_path)
open TreeEqual (TreeEq LeafEq ByJax)

variable {C ν β : Type}

/-! ### Vocabulary -/

/-- What JAX makes of an array (of NumPy). -/
def Outside.toJax (W : Outside C ν β) : Lf ν β → Lf ν β
  | .arr a => .arr { a with ty := 0, holder := .jax, dtype := W.canon a.dtype }
  | x => x

/-- Arrays with the shapes and dtypes of the structs. -/
def Outside.Suits (W : Outside C ν β) (xs : List (Lf ν β)) (structs : List Sds) : Prop :=
  xs.length = structs.length ∧ ∀ (i : Nat) x s, xs[i]? = some x → structs[i]? = some s →
    ∃ a, x = .arr a ∧ a.shape = s.shape ∧ W.canon a.dtype = W.canon s.dtype

/-- The jaxpr of a function does what the function does on all arrays with the shapes and dtypes of the example, and the function has
the recorded structure, shapes, dtypes and static output. -/
def Outside.Faithful (W : Outside C ν β) (f : List (Lf ν β) → Except Err (Tree C (Lf ν β) × Tree C (Lf ν β))) (structs : List Sds)
    (T : Traced C ν β) : Prop :=
  ∀ xs, W.Suits xs structs →
    (∀ e, f (xs.map W.toJax) = .error e → T.eval xs = .error e) ∧
    (∀ d s, f (xs.map W.toJax) = .ok (d, s) → T.eval xs = .ok (d.leaves.map W.toJax) ∧ s = T.outStatic ∧
      d.shape = T.outStruct.shape ∧ W.Suits d.leaves T.outStruct.leaves)

/-- Tracing is sound. -/
structure Outside.Sound (W : Outside C ν β) : Prop where
  canon_idem : ∀ d, W.canon (W.canon d) = W.canon d
  make : ∀ f structs T, W.make f structs = .ok T → W.Faithful f structs T

/-- A leaf of a call fits a leaf of the example: an array to an array or struct with its shape, dtype and sharding, and another object
to an object that Python finds equal. -/
inductive Outside.LeafFits (W : Outside C ν β) : Lf ν β → Lf ν β → Prop
  | array {a b} : a.shape = b.shape → W.canon a.dtype = W.canon b.dtype → W.sharding a = W.sharding b → LeafFits W (.arr a) (.arr b)
  | struct {a s ty} : a.shape = s.shape → W.canon a.dtype = W.canon s.dtype → W.sharding a = s.sharding →
      LeafFits W (.arr a) (.other ty (.struct s))
  | static {u v s t} : W.ne u v = false → LeafFits W (.other s (.val u)) (.other t (.val v))

/-- The arguments of a call fit those of the example. -/
def Outside.Fits (W : Outside C ν β) (c e : Tree C (Lf ν β)) : Prop :=
  c.shape = e.shape ∧ ∀ π x y, c.leafAt? π = some x → e.leafAt? π = some y → W.LeafFits x y

/-- The leaf which the function gets: arrays are those of the call, other objects are those of the example. -/
def Outside.mixed (W : Outside C ν β) : Lf ν β → Lf ν β → Lf ν β
  | .arr a, _ => W.toJax (.arr a)
  | _, y => y

/-! ### Lemmas -/

theorem unflatten_flatten {γ : Type} (t : Tree C γ) : unflatten (flatten t) = .ok t := by
  obtain ⟨t', h1, h2, h3⟩ := unflatten_leaves' (d := t) (ls := t.leaves) rfl
  rw [unflatten, flatten]
  simp only
  rw [h3, eq_of_shape_leaves h1 h2]

theorem shape_of_parts {α α' γ δ γ' δ' : Type} {f1 : α → Option γ} {f2 : α → Option δ} {g1 : α' → Option γ'} {g2 : α' → Option δ'}
    (hf : ∀ a, (f1 a).isSome = true ∨ (f2 a).isSome = true) (hg : ∀ a, (g1 a).isSome = true ∨ (g2 a).isSome = true)
    (s : Tree C α) (t : Tree C α') (h1 : (withNones (s.map f1)).shape = (withNones (t.map g1)).shape)
    (h2 : (withNones (s.map f2)).shape = (withNones (t.map g2)).shape) : s.shape = t.shape := by
  induction s using ind generalizing t with
  | leaf a =>
    cases t with
    | leaf b => rfl
    | none =>
      rcases hf a with h | h <;> rw [Option.isSome_iff_exists] at h <;> obtain ⟨c, hc⟩ := h <;>
        simp [withNones, PT.map, join, orNone, hc, shape] at h1 h2
    | node k cs =>
      rcases hf a with h | h <;> rw [Option.isSome_iff_exists] at h <;> obtain ⟨c, hc⟩ := h <;>
        simp [withNones, PT.map, join, orNone, hc, shape] at h1 h2
  | none =>
    cases t with
    | leaf b =>
      rcases hg b with h | h <;> rw [Option.isSome_iff_exists] at h <;> obtain ⟨c, hc⟩ := h <;>
        simp [withNones, PT.map, join, orNone, hc, shape] at h1 h2
    | none => rfl
    | node k cs => simp [withNones, PT.map, join, shape] at h1
  | node k cs ih =>
    cases t with
    | leaf b =>
      rcases hg b with h | h <;> rw [Option.isSome_iff_exists] at h <;> obtain ⟨c, hc⟩ := h <;>
        simp [withNones, PT.map, join, orNone, hc, shape] at h1 h2
    | none => simp [withNones, PT.map, join, shape] at h1
    | node k' cs' =>
      simp only [withNones, PT.map, mapL_eq, join, joinL_eq, shape, List.map_map, PT.node.injEq] at h1 h2 ih ⊢
      refine ⟨h1.1, ?_⟩
      replace h1 := h1.2
      replace h2 := h2.2
      induction cs generalizing cs' with
      | nil => cases cs' with
        | nil => rfl
        | cons c' cs' => simp at h1
      | cons c cs ih2 => cases cs' with
        | nil => simp at h1
        | cons c' cs' =>
          simp only [List.map_cons, List.cons.injEq, Function.comp] at h1 h2 ⊢
          exact ⟨ih c (by simp) c' h1.1 h2.1, ih2 (fun d hd => ih d (by simp [hd])) cs' h1.2 h2.2⟩

variable [DecidableEq C]

theorem treeEqual_static {W : Outside C ν β} {t u : Tree C (Lf ν β)} (ht : ∀ x ∈ t.leaves, isArray x = false) :
    TreeEqual.treeEqual W.env false [t, u] = .ok (.py true) ↔ TreeEq W.env false t u := by
  rw [TreeEqual.tree_equal_is_true]
  simp only [List.mem_singleton, forall_eq]
  constructor
  · exact fun h => h.1
  · intro h
    refine ⟨h, ?_⟩
    intro π x y hx _ hb
    have : x ∈ t.leaves := by
      obtain ⟨i, -, hi⟩ := index_of_leafAt? hx
      exact List.mem_of_getElem? ((hi t rfl).symm.trans hx)
    have := ht x this
    cases x with
    | arr a => cases this
    | other s v => exact hb

theorem fits_iff {W : Outside C ν β} {c e : Tree C (Lf ν β)} : W.Fits c e ↔
    TreeEq W.env false ((withNones (c.map (keep isArray))).map W.struct) ((withNones (e.map (keep isStruct))).map W.struct) ∧
    TreeEq W.env false (withNones (c.map (drop isArray))) (withNones (e.map (drop isStruct))) := by
  rw [withNones_map, withNones_map]
  constructor
  · rintro ⟨hs, hl⟩
    obtain ⟨m, rfl, rfl⟩ := exists_pair hs
    have hm : ∀ p ∈ m.leaves, W.LeafFits p.1 p.2 := by
      intro p hp
      obtain ⟨π, hπ⟩ := exists_path hp
      exact hl π p.1 p.2 (by rw [leafAt?_map, hπ]; rfl) (by rw [leafAt?_map, hπ]; rfl)
    have hpath : ∀ (π : List Nat) p, m.leafAt? π = some p → p ∈ m.leaves := by
      intro π p hp
      obtain ⟨i, -, hi⟩ := index_of_leafAt? hp
      exact List.mem_of_getElem? ((hi m rfl).symm.trans hp)
    simp only [map_map]
    refine ⟨⟨?_, ?_⟩, ⟨?_, ?_⟩⟩
    · apply shape_withNones
      intro p hp
      have := hm p hp
      obtain ⟨p1, p2⟩ := p
      simp only at this
      cases this <;> simp [keep, isArray, isStruct]
    · intro π x y hx hy
      rw [leafAt?_withNones] at hx hy
      cases hπ : m.leafAt? π with
      | none => rw [hπ] at hx; cases hx
      | some p =>
        rw [hπ] at hx hy
        refine ⟨?_, by simp⟩
        obtain ⟨p1, p2⟩ := p
        have hmp := hm _ (hpath _ _ hπ)
        simp only at hmp
        cases hmp with
        | array h1 h2 h3 =>
          simp [keep, isArray, isStruct] at hx hy
          subst hx; subst hy
          refine .other ?_
          simp [Outside.env, objNe, Outside.aval, h1, h2, h3]
        | struct h1 h2 h3 =>
          simp [keep, isArray, isStruct] at hx hy
          subst hx; subst hy
          refine .other ?_
          simp [Outside.env, objNe, Outside.aval, h1, h2, h3]
        | static h => simp [keep, isArray] at hx
    · apply shape_withNones
      intro p hp
      have := hm p hp
      obtain ⟨p1, p2⟩ := p
      simp only at this
      cases this <;> simp [drop, isArray, isStruct]
    · intro π x y hx hy
      rw [leafAt?_withNones] at hx hy
      cases hπ : m.leafAt? π with
      | none => rw [hπ] at hx; cases hx
      | some p =>
        rw [hπ] at hx hy
        refine ⟨?_, by simp⟩
        obtain ⟨p1, p2⟩ := p
        have hmp := hm _ (hpath _ _ hπ)
        simp only at hmp
        cases hmp with
        | array h1 h2 h3 => simp [drop, isArray] at hx
        | struct h1 h2 h3 => simp [drop, isArray] at hx
        | static h =>
          simp [drop, isArray, isStruct] at hx hy
          subst hx; subst hy
          refine .other ?_
          simp [Outside.env, objNe, h]
  · rintro ⟨⟨hs1, hl1⟩, ⟨hs2, hl2⟩⟩
    have hs : c.shape = e.shape := by
      refine shape_of_parts ?_ ?_ c e hs1 hs2
      · intro a; cases h : isArray a <;> simp [keep, drop, h]
      · intro a; cases h : isStruct a <;> simp [keep, drop, h]
    obtain ⟨m, rfl, rfl⟩ := exists_pair hs
    refine ⟨hs, ?_⟩
    intro π x y hx hy
    simp only [map_map] at hs1 hs2 hl1 hl2
    rw [leafAt?_map] at hx hy
    cases hπ : m.leafAt? π with
    | none => rw [hπ] at hx; cases hx
    | some p =>
      rw [hπ] at hx hy
      simp only [Option.map_some, Option.some.injEq] at hx hy
      have k1 := leafAt?_isSome_of_shape hs1 π
      have k2 := leafAt?_isSome_of_shape hs2 π
      have l1 := hl1 π
      have l2 := hl2 π
      simp only [leafAt?_withNones, hπ, Option.bind_some, hx, hy] at k1 k2 l1 l2
      cases x with
      | arr a =>
        cases y with
        | arr b =>
          have := (l1 _ _ (by simp [keep, isArray]; rfl) (by simp [keep, isStruct]; rfl)).1
          cases this with
          | other h =>
            simp [Outside.env, objNe, Outside.aval] at h
            exact .array h.1 h.2.1 h.2.2
        | other ty o =>
          cases o with
          | struct s =>
            have := (l1 _ _ (by simp [keep, isArray]; rfl) (by simp [keep, isStruct]; rfl)).1
            cases this with
            | other h =>
              simp [Outside.env, objNe, Outside.aval] at h
              exact .struct h.1 h.2.1 h.2.2
          | val v => simp [keep, isArray, isStruct] at k1
      | other ty o =>
        cases y with
        | arr b => simp [drop, isArray, isStruct] at k2
        | other ty' o' =>
          cases o' with
          | struct s => simp [drop, isArray, isStruct] at k2
          | val v =>
            have := (l2 _ _ (by simp [drop, isArray]; rfl) (by simp [drop, isStruct]; rfl)).1
            cases this with
            | other h =>
              cases o with
              | struct s => simp [Outside.env, objNe] at h
              | val u => exact .static (by simpa [Outside.env, objNe] using h)

theorem checkInput_spec (W : Outside C ν β) (e : Tree C (Lf ν β)) (args : List (Tree C (Lf ν β))) (kwargs : Kw C (Lf ν β)) :
    (W.Fits (pack args kwargs) e → checkInput W (flatten ((withNones (e.map (keep isStruct))).map W.struct))
      (flatten (withNones (e.map (drop isStruct)))) args kwargs = .ok (withNones ((pack args kwargs).map (keep isArray)))) ∧
    (¬ W.Fits (pack args kwargs) e → checkInput W (flatten ((withNones (e.map (keep isStruct))).map W.struct))
      (flatten (withNones (e.map (drop isStruct)))) args kwargs = .error .valueError) := by
  simp only [checkInput, unflatten_flatten, part_eq, bind, Except.bind]
  have t1 := treeEqual_static (W := W) (t := (withNones ((pack args kwargs).map (keep isArray))).map W.struct)
    (u := (withNones (e.map (keep isStruct))).map W.struct) (by
      intro x hx
      rw [leaves_map, List.mem_map] at hx
      obtain ⟨y, _, rfl⟩ := hx
      rfl)
  have t2 := treeEqual_static (W := W) (t := withNones ((pack args kwargs).map (drop isArray)))
    (u := withNones (e.map (drop isStruct))) (by
      intro x hx
      rw [leaves_withNones, List.mem_filterMap] at hx
      obtain ⟨y, _, hy⟩ := hx
      simp only [drop] at hy
      cases h : isArray y
      · simp [h] at hy; rw [← hy]; exact h
      · simp [h] at hy)
  rw [fits_iff, ← t1, ← t2]
  cases h1 : TreeEqual.treeEqual W.env false [(withNones ((pack args kwargs).map (keep isArray))).map W.struct,
    (withNones (e.map (keep isStruct))).map W.struct] with
  | error e => cases h1
  | ok r1 =>
    cases h2 : TreeEqual.treeEqual W.env false [withNones ((pack args kwargs).map (drop isArray)),
        withNones (e.map (drop isStruct))] with
    | error e => cases h2
    | ok r2 =>
      simp only [Except.ok.injEq]
      constructor
      · rintro ⟨rfl, rfl⟩
        rfl
      · intro h
        by_cases k1 : r1 = .py true
        · by_cases k2 : r2 = .py true
          · exact absurd ⟨k1, k2⟩ h
          · simp [k1, k2, throw, throwThe, MonadExceptOf.throw, pure, Except.pure]
        · simp [k1, throw, throwThe, MonadExceptOf.throw]

omit [DecidableEq C] in
theorem filterMap_pair {α γ δ : Type} {f : α → Option γ} {g : α → Option δ} {R : γ → δ → Prop} (l : List α)
    (h : ∀ p ∈ l, (f p).isSome = (g p).isSome ∧ ∀ x y, f p = some x → g p = some y → R x y) :
    (l.filterMap f).length = (l.filterMap g).length ∧
      ∀ (i : Nat) x y, (l.filterMap f)[i]? = some x → (l.filterMap g)[i]? = some y → R x y := by
  induction l with
  | nil => simp
  | cons p l ih =>
    obtain ⟨i1, i2⟩ := ih fun q hq => h q (by simp [hq])
    obtain ⟨h1, h2⟩ := h p (by simp)
    cases hf : f p with
    | none =>
      cases hg : g p with
      | none => simpa [List.filterMap_cons, hf, hg] using ⟨i1, i2⟩
      | some y => simp [hf, hg] at h1
    | some x =>
      cases hg : g p with
      | none => simp [hf, hg] at h1
      | some y =>
        simp only [List.filterMap_cons, hf, hg, List.length_cons, i1, true_and]
        intro i a b ha hb
        cases i with
        | zero => simp at ha hb; subst ha; subst hb; exact h2 x y hf hg
        | succ i => exact i2 i a b (by simpa using ha) (by simpa using hb)

omit [DecidableEq C] in
/-- A tree with the structure of arguments is a tree of arguments. -/
theorem exists_pack {α γ : Type} {t : Tree C α} {args : List (Tree C γ)} {kwargs : List (String × Tree C γ)}
    (h : t.shape = (pack args kwargs).shape) : ∃ args' kwargs', t = pack args' kwargs' := by
  cases t with
  | leaf a => simp [pack, shape, PT.map] at h
  | none => simp [pack, shape, PT.map] at h
  | node k cs =>
    simp only [pack, shape, PT.map, mapL_eq, List.map_cons, List.map_nil, PT.node.injEq] at h
    obtain ⟨rfl, h⟩ := h
    have hlen : cs.length = 2 := by simpa using congrArg List.length h
    match cs, hlen, h with
    | [a, b], _, h =>
      simp only [List.map_cons, List.map_nil, List.cons.injEq, and_true] at h
      obtain ⟨ha, hb⟩ := h
      cases a with
      | leaf _ => simp [PT.map] at ha
      | none => simp [PT.map] at ha
      | node k1 as =>
        cases b with
        | leaf _ => simp [PT.map] at hb
        | none => simp [PT.map] at hb
        | node k2 vs =>
          simp only [PT.map, mapL_eq, PT.node.injEq] at ha hb
          obtain ⟨rfl, -⟩ := ha
          obtain ⟨rfl, hb⟩ := hb
          have hl : vs.length = kwargs.length := by simpa using congrArg List.length hb
          refine ⟨as, (kwargs.map Prod.fst).zip vs, ?_⟩
          simp only [pack]
          rw [List.map_fst_zip (by simp [hl]), List.map_snd_zip (by simp [hl])]

/-- What the function gets: arguments with the structure of the call, whose arrays are those of the call, and whose other objects are
those of the example. -/
def Outside.Mixed (W : Outside C ν β) (c e : Tree C (Lf ν β)) (args' : List (Tree C (Lf ν β))) (kwargs' : Kw C (Lf ν β)) : Prop :=
  (pack args' kwargs').shape = c.shape ∧
    ∀ π x y, c.leafAt? π = some x → e.leafAt? π = some y → (pack args' kwargs').leafAt? π = some (W.mixed x y)

/-- **C49**, `filter_make_jaxpr`: evaluated at the arrays of arguments that fit the example, the jaxpr gives the arrays of the output
of the function, and the rest of the output is given with the jaxpr. -/
theorem make_jaxpr_spec {W : Outside C ν β} (hW : W.Sound) {fn : JFn C (Lf ν β)} {exArgs : List (Tree C (Lf ν β))}
    {exKwargs : Kw C (Lf ν β)} {T : Traced C ν β} (h : makeJaxpr W fn exArgs exKwargs = .ok T) {c : Tree C (Lf ν β)}
    (hc : W.Fits c (pack exArgs exKwargs)) :
    ∃ args' kwargs', W.Mixed c (pack exArgs exKwargs) args' kwargs' ∧
      (∀ e, fn args' kwargs' = .error e → T.eval (c.leaves.filter isArray) = .error e) ∧
      (∀ out, fn args' kwargs' = .ok out →
        T.eval (c.leaves.filter isArray) = .ok ((out.leaves.filter isArray).map W.toJax) ∧
        T.outStatic = withNones (out.map fun x => if isArray x then Option.none else some x) ∧
        T.outStruct.shape = (withNones (out.map fun x => if isArray x then some x else Option.none)).shape ∧
        W.Suits (out.leaves.filter isArray) T.outStruct.leaves) := by
  simp only [makeJaxpr, part_eq, bind, Except.bind] at h
  have hf := hW.make _ _ _ h
  have hfits := hc
  obtain ⟨hs, hl⟩ := hc
  generalize he : pack exArgs exKwargs = e at *
  obtain ⟨m, rfl, rfl⟩ := exists_pair hs
  have hm : ∀ p ∈ m.leaves, W.LeafFits p.1 p.2 := by
    intro p hp
    obtain ⟨π, hπ⟩ := exists_path hp
    exact hl π p.1 p.2 (by rw [leafAt?_map, hπ]; rfl) (by rw [leafAt?_map, hπ]; rfl)
  obtain ⟨args', kwargs', hk⟩ := exists_pack (t := m.map fun p => W.mixed p.1 p.2) (args := exArgs) (kwargs := exKwargs)
    (by rw [he, shape_map, shape_map])
  let f1 : Lf ν β × Lf ν β → Option (Lf ν β) := fun p => (keep isArray p.1).map W.toJax
  let f2 : Lf ν β × Lf ν β → Option (Lf ν β) := fun p => drop isStruct p.2
  have e1 : ((m.map Prod.fst).leaves.filter isArray) = m.leaves.filterMap fun p => keep isArray p.1 := by
    rw [← leaves_keep, map_map, leaves_withNones]
  have e2 : ((m.map Prod.fst).leaves.filter isArray).map W.toJax = (withNones (m.map f1)).leaves := by
    rw [e1, leaves_withNones, List.map_filterMap]
  have e3 : (withNones ((m.map Prod.snd).map (keep isStruct))).shape = (withNones (m.map f1)).shape := by
    rw [map_map]
    apply shape_withNones
    intro p hp
    have := hm p hp
    obtain ⟨p1, p2⟩ := p
    simp only at this
    cases this <;> simp [f1, keep, isArray, isStruct]
  have hsuit : W.Suits ((m.map Prod.fst).leaves.filter isArray) ((withNones ((m.map Prod.snd).map (keep isStruct))).leaves.map W.aval) := by
    rw [e1, map_map, leaves_withNones, List.map_filterMap]
    refine filterMap_pair (R := fun (x : Lf ν β) (s : Sds) => ∃ a, x = .arr a ∧ a.shape = s.shape ∧ W.canon a.dtype = W.canon s.dtype)
      m.leaves ?_
    intro p hp
    have := hm p hp
    obtain ⟨p1, p2⟩ := p
    simp only at this
    cases this with
    | array h1 h2 h3 => simp [keep, isArray, isStruct, Outside.aval, h1, h2, hW.canon_idem]
    | struct h1 h2 h3 => simp [keep, isArray, isStruct, Outside.aval, h1, h2, hW.canon_idem]
    | static h => simp [keep, isArray, isStruct]
  have e4 : tracedFn fn (withNones ((m.map Prod.snd).map (keep isStruct))).shape (withNones ((m.map Prod.snd).map (drop isStruct)))
      (((m.map Prod.fst).leaves.filter isArray).map W.toJax) = (fn args' kwargs').bind fun out => part isArray out := by
    have u := unflatten_flatten (withNones (m.map f1))
    simp only [unflatten, flatten] at u
    have cp := combine_parts m [f1, f2] (fun p => W.mixed p.1 p.2) (by simp) (by
      intro p hp
      have := hm p hp
      obtain ⟨p1, p2⟩ := p
      simp only at this
      cases this <;> simp [f1, f2, keep, drop, isArray, isStruct, Outside.mixed])
    simp only [List.map_cons, List.map_nil] at cp
    rw [e3, e2, tracedFn, u, map_map]
    simp only [bind, Except.bind, f2] at cp ⊢
    rw [cp, hk]
    simp only [unpack_pack]
  refine ⟨args', kwargs', ⟨by rw [← hk, shape_map, shape_map], ?_⟩, ?_, ?_⟩
  · intro π x y hx hy
    rw [← hk, leafAt?_map]
    rw [leafAt?_map] at hx hy
    cases hπ : m.leafAt? π with
    | none => rw [hπ] at hx; cases hx
    | some p =>
      rw [hπ] at hx hy
      simp only [Option.map_some, Option.some.injEq] at hx hy ⊢
      rw [hx, hy]
  · intro e h
    refine (hf _ hsuit).1 e ?_
    rw [e4, h]; rfl
  · intro out h
    have := (hf _ hsuit).2 (withNones (out.map (keep isArray))) (withNones (out.map (drop isArray))) (by rw [e4, h]; exact part_eq _ _)
    rw [leaves_keep] at this
    exact ⟨this.1, this.2.1.symm, this.2.2.1.symm, this.2.2.2⟩

/-- **C49**, `filter_closure_convert`: calling the converted function with arguments of another structure, with arrays of other shapes or
dtypes, or with other static arguments is a `ValueError`; otherwise it gives what the function gives for the arrays of the call. Static
arguments are those of the example, which Python finds equal, unless the function has no closure. -/
theorem closure_convert_call {W : Outside C ν β} (hW : W.Sound) {plain : Bool} {fn : JFn C (Lf ν β)} {exArgs : List (Tree C (Lf ν β))}
    {exKwargs : Kw C (Lf ν β)} {s : Converted C ν β} (h : closureConvert W plain fn exArgs exKwargs = .ok s)
    (args : List (Tree C (Lf ν β))) (kwargs : Kw C (Lf ν β)) :
    (¬ W.Fits (pack args kwargs) (pack exArgs exKwargs) → s.call W args kwargs = .error .valueError) ∧
    (W.Fits (pack args kwargs) (pack exArgs exKwargs) →
      (plain = true → s.call W args kwargs = fn args kwargs) ∧
      (plain = false → ∃ args' kwargs', W.Mixed (pack args kwargs) (pack exArgs exKwargs) args' kwargs' ∧
        s.call W args kwargs = (fn args' kwargs').map fun out => out.map W.toJax)) := by
  obtain ⟨c1, c2⟩ := checkInput_spec W (pack exArgs exKwargs) args kwargs
  simp only [closureConvert, part_eq, bind, Except.bind, pure, Except.pure] at h
  cases plain with
  | true =>
    simp only [if_true, Except.ok.injEq] at h
    subst h
    simp only [Converted.call, bind, Except.bind]
    refine ⟨fun hn => by rw [c2 hn], fun hy => ⟨fun _ => by rw [c1 hy], fun h => by cases h⟩⟩
  | false =>
    simp only [Bool.false_eq_true, if_false] at h
    cases hT : makeJaxpr W fn exArgs exKwargs with
    | error e => rw [hT] at h; cases h
    | ok T =>
      rw [hT] at h
      simp only [Except.ok.injEq] at h
      subst h
      simp only [Converted.call, bind, Except.bind]
      refine ⟨fun hn => by rw [c2 hn], fun hy => ⟨fun h => (by cases h), fun _ => ?_⟩⟩
      obtain ⟨args', kwargs', hm, h1, h2⟩ := make_jaxpr_spec hW hT hy
      refine ⟨args', kwargs', hm, ?_⟩
      rw [c1 hy]
      simp only [leaves_keep]
      cases hf : fn args' kwargs' with
      | error e => rw [h1 e hf]; rfl
      | ok out =>
        obtain ⟨k1, k2, k3, k4, k5⟩ := h2 out hf
        rw [k1]
        simp only [unflatten_flatten]
        rw [if_neg (by simpa using k4), if_neg]
        · have kd : (withNones (out.map fun x => if isArray x then some x else Option.none)).shape =
              ((withNones (out.map (keep isArray))).map W.toJax).shape := by rw [shape_map]; rfl
          have u := unflatten_flatten ((withNones (out.map (keep isArray))).map W.toJax)
          simp only [unflatten, flatten, leaves_map, leaves_keep] at u
          rw [k3, kd]
          simp only [pure, Except.pure, u, k2]
          rw [withNones_map]
          have cp := combine_parts out [fun x => (keep isArray x).map W.toJax, fun x => if isArray x then Option.none else some x]
            W.toJax (by simp) (by
              intro x _
              cases x <;> simp [keep, isArray, Outside.toJax])
          exact cp
        · simp only [Bool.not_eq_true', Bool.not_eq_false, Bool.not_eq_eq_eq_not, Bool.not_true, List.all_eq_true,
            Bool.eq_false_iff, ne_eq, Classical.not_not]
          intro p hp
          obtain ⟨i, hi⟩ := List.getElem?_of_mem hp
          rw [List.getElem?_zip_eq_some] at hi
          obtain ⟨i1, i2⟩ := hi
          rw [List.getElem?_map, Option.map_eq_some_iff] at i1
          obtain ⟨x, hx, hx'⟩ := i1
          obtain ⟨a, rfl, a1, a2⟩ := k5 i x p.2 hx i2
          obtain ⟨p1, p2⟩ := p
          simp only at hx' a1 a2
          subst hx'
          simp [Outside.sameAval, Outside.toJax, a1, a2, hW.canon_idem]

/-- `in_struct` is the example with structs for arrays. -/
theorem closure_convert_in_struct {W : Outside C ν β} {plain : Bool} {fn : JFn C (Lf ν β)} {exArgs : List (Tree C (Lf ν β))}
    {exKwargs : Kw C (Lf ν β)} {s : Converted C ν β} (h : closureConvert W plain fn exArgs exKwargs = .ok s) :
    s.inStruct = .ok ((pack exArgs exKwargs).map fun x => if isStruct x then W.struct x else x) := by
  have cp := combine_parts (pack exArgs exKwargs) [fun x => (keep isStruct x).map W.struct, drop isStruct]
    (fun x => if isStruct x then W.struct x else x) (by simp) (by
      intro x _
      cases h : isStruct x <;> simp [keep, drop, h])
  simp only [List.map_cons, List.map_nil] at cp
  simp only [closureConvert, part_eq, bind, Except.bind, pure, Except.pure] at h
  cases plain with
  | true =>
    simp only [if_true, Except.ok.injEq] at h
    subst h
    simp only [Converted.inStruct, bind, Except.bind, unflatten_flatten, withNones_map]
    exact cp
  | false =>
    simp only [Bool.false_eq_true, if_false] at h
    cases hT : makeJaxpr W fn exArgs exKwargs with
    | error e => rw [hT] at h; cases h
    | ok T =>
      rw [hT] at h
      simp only [Except.ok.injEq] at h
      subst h
      simp only [Converted.inStruct, bind, Except.bind, unflatten_flatten, withNones_map]
      exact cp

/-- If the static arguments are those of the example, the converted function gives what the function gives (for arrays of JAX). -/
theorem closure_convert_same {W : Outside C ν β} (hW : W.Sound) {fn : JFn C (Lf ν β)} {exArgs : List (Tree C (Lf ν β))}
    {exKwargs : Kw C (Lf ν β)} {s : Converted C ν β} (h : closureConvert W false fn exArgs exKwargs = .ok s)
    {args : List (Tree C (Lf ν β))} {kwargs : Kw C (Lf ν β)} (hf : W.Fits (pack args kwargs) (pack exArgs exKwargs))
    (he : ∀ π x y, (pack args kwargs).leafAt? π = some x → (pack exArgs exKwargs).leafAt? π = some y → isArray x = false → x = y) :
    s.call W args kwargs =
      (fn (args.map fun t => t.map W.toJax) (kwargs.map fun p => (p.1, p.2.map W.toJax))).map fun out => out.map W.toJax := by
  obtain ⟨args', kwargs', ⟨m1, m2⟩, m3⟩ := ((closure_convert_call hW h args kwargs).2 hf).2 rfl
  have : pack args' kwargs' = pack (args.map fun t => t.map W.toJax) (kwargs.map fun p => (p.1, p.2.map W.toJax)) := by
    have e : pack (args.map fun t => t.map W.toJax) (kwargs.map fun p => (p.1, p.2.map W.toJax)) = (pack args kwargs).map W.toJax := by
      simp only [pack, PT.map, mapL_eq, List.map_cons, List.map_nil, List.map_map]
      rfl
    rw [e]
    obtain ⟨m, hm1, hm2⟩ := exists_pair m1
    rw [← hm1, ← hm2, map_map]
    apply map_congr_leaves
    intro p hp
    obtain ⟨π, hπ⟩ := exists_path hp
    have h2 : (pack args kwargs).leafAt? π = some p.2 := by rw [← hm2, leafAt?_map, hπ]; rfl
    have h1 : (pack args' kwargs').leafAt? π = some p.1 := by rw [← hm1, leafAt?_map, hπ]; rfl
    have := leafAt?_isSome_of_shape hf.1 π
    rw [h2] at this
    obtain ⟨y, hy⟩ := Option.isSome_iff_exists.1 this.symm
    have h3 := m2 π p.2 y h2 hy
    rw [h1] at h3
    simp only [Option.some.injEq] at h3
    rw [h3]
    have h4 := he π p.2 y h2 hy
    cases hp2 : p.2 with
    | arr a => rfl
    | other t o =>
      rw [hp2] at h4
      rw [← h4 rfl]
      rfl
  have k := congrArg unpack this
  rw [unpack_pack, unpack_pack] at k
  simp only [Except.ok.injEq, Prod.mk.injEq] at k
  rw [m3, k.1, k.2]

/-! ### Examples -/

open Classical in
/-- Tracing which is as good as it can be: it succeeds whenever there is a faithful jaxpr. -/
noncomputable def exOutside : Outside Unit Int String where
  canon d := if d = 64 then 32 else d
  sharding _ := 0
  weak a := a.shape.isEmpty
  ne u v := u != v
  eq x y := x == y
  make f structs :=
    if h : ∃ T, Outside.Faithful (C := Unit) ⟨fun d => if d = 64 then 32 else d, fun _ => 0, fun a => a.shape.isEmpty, fun u v => u != v,
      fun x y => x == y, fun _ _ => .error .typeError⟩ f structs T then .ok (Classical.choose h) else .error .typeError

theorem exOutside_sound : exOutside.Sound := by
  constructor
  · intro d
    simp only [exOutside]
    split <;> rename_i h
    · simp
    · simp [h]
  · intro f structs T h
    simp only [exOutside] at h
    split at h
    · rename_i hT
      cases h
      exact Classical.choose_spec hT
    · cases h

/-- An array of NumPy or JAX. -/
def exArr (j : Bool) (dtype : Nat) (x : Int) : Lf Int String :=
  .arr ⟨if j then 1 else 2, if j then .jax else .ndarray, [1], dtype, [x]⟩

/-- Gives back its positional arguments. -/
def exId : JFn Unit (Lf Int String) := fun args _ => .ok (.node .tuple args)

/-- The function can be converted, -/
theorem exConvert : ∃ s, closureConvert exOutside false exId [.leaf (exArr true 32 5), .leaf (.other 3 (.val "s"))]
    [("k", .leaf (.other 3 (.val "t")))] = .ok s := by
  have : ∃ T, makeJaxpr exOutside exId [.leaf (exArr true 32 5), .leaf (.other 3 (.val "s"))]
      [("k", .leaf (.other 3 (.val "t")))] = .ok T := by
    simp only [makeJaxpr, part_eq, bind, Except.bind, exOutside]
    rw [dif_pos]
    · exact ⟨_, rfl⟩
    · refine ⟨⟨fun xs => .ok ((xs.map exOutside.toJax).map exOutside.toJax), .node .tuple [.leaf ⟨[1], 32, 0, false⟩, .none],
        .node .tuple [.none, .leaf (.other 3 (.val "s"))]⟩, ?_⟩
      rintro xs ⟨hl, hx⟩
      match xs, hl with
      | [x], _ =>
        obtain ⟨a, rfl, ha1, ha2⟩ := hx 0 x _ rfl rfl
        constructor
        · intro e he
          cases he
        · intro d s hds
          cases hds
          refine ⟨rfl, rfl, rfl, rfl, ?_⟩
          · intro i x s h1 h2
            cases i with
            | succ i => simp [leaves, leavesL_eq] at h2
            | zero =>
              cases h1
              cases h2
              refine ⟨_, rfl, ha1, ?_⟩
              simp only [Outside.aval, exArr] at ha2 ⊢
              rw [if_neg (by decide : ¬ (32 : Nat) = 64)] at ha2 ⊢
              rw [ha2]
              rfl
  obtain ⟨T, hT⟩ := this
  simp only [closureConvert, part_eq, bind, Except.bind, pure, Except.pure, Bool.false_eq_true, if_false, hT]
  exact ⟨_, rfl⟩

/-- an array of NumPy with another value and a dtype that JAX reads as 32 bits fits, -/
example : exOutside.Fits (pack [.leaf (exArr false 64 7), .leaf (.other 3 (.val "s"))] [("k", .leaf (.other 3 (.val "t")))])
    (pack [.leaf (exArr true 32 5), .leaf (.other 3 (.val "s"))] [("k", .leaf (.other 3 (.val "t")))]) := by
  refine ⟨rfl, ?_⟩
  intro π x y hx hy
  match π with
  | [] => cases hx
  | [0] => cases hx
  | [1] => cases hx
  | [0, 0] => cases hx; cases hy; exact .array rfl rfl rfl
  | [0, 1] => cases hx; cases hy; exact .static (by simp [exOutside])
  | [1, 0] => cases hx; cases hy; exact .static (by simp [exOutside])
  | 0 :: 0 :: _ :: _ => cases hx
  | 0 :: 1 :: _ :: _ => cases hx
  | 0 :: (_ + 2) :: _ => cases hx
  | 1 :: 0 :: _ :: _ => cases hx
  | 1 :: (_ + 1) :: _ => cases hx
  | (_ + 2) :: _ => cases hx

/-- and an array with another dtype does not. -/
example : ¬ exOutside.Fits (pack [.leaf (exArr true 16 7)] []) (pack [.leaf (exArr true 32 5)] []) := by
  rintro ⟨_, h⟩
  cases h [0, 0] _ _ rfl rfl with
  | array _ h _ => simp [exOutside] at h

end Custom
end Verif
