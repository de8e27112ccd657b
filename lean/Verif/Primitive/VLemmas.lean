import Verif.Primitive.VModel

/-! # Lemmas about the model of `create_vprim` -/

namespace Verif.VPrim

open Verif

theorem Arr.ext {X : Type} {a b : Arr X} (h : a.shape = b.shape) (h' : ∀ idx, a.val idx = b.val idx) :
    a = b := by
  cases a; cases b
  simp only at h h'
  subst h
  have := funext h'
  subst this
  rfl

theorem slice_stack {X : Type} {b n i : Nat} {s : Shape} {f : Nat → Option (Arr X)} {a : Arr X}
    (hi : i < n) (hf : f i = some a) (hs : a.shape = s) (hb : b ≤ s.length) :
    (Arr.stack b n s f).slice b i = a := by
  have hE : (s.insertIdx b n).eraseIdx b = s := by
    rw [List.eraseIdx_insertIdx_self]
  apply Arr.ext
  · show (s.insertIdx b n).eraseIdx b = _
    rw [hE, hs]
  · intro idx
    show (if idx.length = ((s.insertIdx b n).eraseIdx b).length then _ else none) = _
    rw [hE]
    by_cases h : idx.length = s.length
    · rw [if_pos h]
      show (if (idx.insertIdx b i).length = (s.insertIdx b n).length then _ else none) = _
      have hb' : b ≤ idx.length := by omega
      have hl : (idx.insertIdx b i).length = (s.insertIdx b n).length := by
        rw [List.length_insertIdx_of_le_length hb', List.length_insertIdx_of_le_length hb, h]
      rw [if_pos hl]
      have hg : (idx.insertIdx b i)[b]? = some i := by
        rw [List.getElem?_insertIdx_self, if_pos hb']
      rw [hg]
      simp [hi, hf, List.eraseIdx_insertIdx_self]
    · rw [if_neg h, a.rank]
      rw [hs]; exact h

theorem shape_sliceO {X : Type} (ax : Option Nat) (i : Nat) (a : Arr X) :
    (a.sliceO ax i).shape = Shape.mapped ax a.shape := by
  cases ax <;> rfl

theorem shape_stack {X : Type} (b n : Nat) (s : Shape) (f : Nat → Option (Arr X)) :
    (Arr.stack b n s f).shape = s.insertIdx b n := rfl

theorem mapped_take_drop (s : Shape) (b : Nat) : s.take b ++ s.drop (b + 1) = s.eraseIdx b :=
  (List.eraseIdx_eq_take_drop_succ s b).symm

theorem Sym.map_map {P Q S : Type} (f : P → Q) (g : Q → S) (t : Sym P) :
    (t.map f).map g = t.map (fun p => g (f p)) := by cases t <;> rfl

theorem Sym.map_id' {P : Type} (t : Sym P) : t.map (fun p => p) = t := by cases t <;> rfl

theorem zipWith_map_right' {A C D E : Type} (f : A → D → E) (g : C → D) :
    ∀ (l : List A) (m : List C), List.zipWith f l (m.map g) = List.zipWith (fun a c => f a (g c)) l m
  | [], _ => by simp
  | _ :: _, [] => by simp
  | a :: l, c :: m => by simp [zipWith_map_right' f g l m]

theorem zipWith_assoc {A A' C D E : Type} (f : A → D → E) (g : A' → C → D) (p : A'' → A) (q : A'' → A') :
    ∀ (l : List A'') (m : List C),
    List.zipWith f (l.map p) (List.zipWith g (l.map q) m) = List.zipWith (fun a c => f (p a) (g (q a) c)) l m
  | [], _ => by simp
  | _ :: _, [] => by simp
  | a :: l, c :: m => by simp [zipWith_assoc f g p q l m]

theorem map_mapIdx_eq {A C D : Type} (l : List A) (f : Nat → A → C) (g : C → D) (h : A → D)
    (hh : ∀ j a, g (f j a) = h a) : (l.mapIdx f).map g = l.map h := by
  apply List.ext_getElem?
  intro j
  rw [List.getElem?_map, List.getElem?_mapIdx, List.getElem?_map]
  cases l[j]? with
  | none => rfl
  | some a => simp [hh]

section
variable {B X : Type} {R : Rules B X}

/-- The shapes, and the symbolic pattern, of what a rule returns are those of its trace. -/
structure Rules.Lawful (R : Rules B X) : Prop where
  abs : ∀ b xs, (R.impl b xs).map (·.shape) = R.abs b (xs.map (·.shape))
  jvp1 : ∀ b xs ts, (R.jvp b xs ts).1.map (·.shape) = R.abs b (xs.map (·.shape))
  jvp2 : ∀ b xs ts, (R.jvp b xs ts).2.map (Sym.map (·.shape)) =
    R.jvpAbs b (xs.map (·.shape)) (ts.map (Sym.map (·.shape)))
  tr : ∀ b cts ins, (R.tr b cts ins).map (Sym.map (·.shape)) =
    R.trAbs b (cts.map (Sym.map (·.shape))) (ins.map (Inp.map (·.shape)))

theorem shapes_lane (axes : List (Option Nat)) (i : Nat) (xs : List (Arr X)) :
    (List.zipWith (fun ax x => x.sliceO ax i) axes xs).map (·.shape) =
      List.zipWith Shape.mapped axes (xs.map (·.shape)) := by
  rw [zipWith_map_right', List.map_zipWith]
  congr 1
  funext ax x
  exact shape_sliceO ax i x

theorem kinds_lane (axes : List (Option Nat)) (i : Nat) (ts : List (Sym (Arr X))) :
    (List.zipWith (fun ax t => t.map (Arr.sliceO ax i)) axes ts).map (Sym.map (·.shape)) =
      List.zipWith (fun ax t => t.map (Shape.mapped ax)) axes (ts.map (Sym.map (·.shape))) := by
  rw [zipWith_map_right', List.map_zipWith]
  congr 1
  funext ax t
  simp only [Sym.map_map, shape_sliceO]

theorem shape_implOf (hR : R.Lawful) : ∀ (P : Prim B) (xs : List (Arr X)),
    (implOf R P xs).map (·.shape) = absOf R P (xs.map (·.shape))
  | .base b, xs => hR.abs b xs
  | .vprim P n axes, xs => by
    rw [implOf, absOf]
    exact map_mapIdx_eq _ _ _ _ fun _ _ => rfl

/-- Lanes stacked along the first axis. -/
theorem map_slice_stack {n i : Nat} (hi : i < n) (f : Nat → List (Arr X)) (ss : List Shape)
    (hf : (f i).map (·.shape) = ss) :
    (ss.mapIdx fun j s => Arr.stack 0 n s fun i => (f i)[j]?).map (Arr.slice 0 i) = f i := by
  apply List.ext_getElem?
  intro j
  rw [List.getElem?_map, List.getElem?_mapIdx, ← hf, List.getElem?_map]
  cases h : (f i)[j]? with
  | none => rfl
  | some a =>
    simp only [Option.map_some]
    rw [slice_stack hi h rfl (Nat.zero_le _)]

theorem implOf_lane (hR : R.Lawful) {n i : Nat} (hi : i < n) (P : Prim B) (axes : List (Option Nat))
    (xs : List (Arr X)) :
    (implOf R (.vprim P n axes) xs).map (Arr.slice 0 i) =
      implOf R P (List.zipWith (fun ax x => x.sliceO ax i) axes xs) := by
  rw [implOf]
  exact map_slice_stack hi (fun i => implOf R P (List.zipWith (fun ax x => x.sliceO ax i) axes xs)) _
    (by rw [shape_implOf hR, shapes_lane])

/-! ### Tangents -/

/-- Lane `i` of a tangent. -/
def laneT (ax : Option Nat) (i : Nat) : Sym (Arr X) → Sym (Arr X)
  | .none => .none
  | .zero s => .zero (Shape.mapped ax s)
  | .arr a => .arr (a.sliceO ax i)

def laneTK (ax : Option Nat) : Sym Shape → Sym Shape
  | .none => .none
  | .zero s => .zero (Shape.mapped ax s)
  | .arr s => .arr (Shape.mapped ax s)

theorem resolve_lane {P : Type} (f : Option Nat → P → P) (g : Option Nat → Sym P → Sym P)
    (hg : ∀ ax t, (resolveZerosT t ax).map (f (resolveZerosB (resolveZerosT t ax) ax)) = g ax t) :
    ∀ (axes : List (Option Nat)) (ts : List (Sym P)),
    List.zipWith (fun ax t => t.map (f ax))
      (List.zipWith resolveZerosB (List.zipWith resolveZerosT ts axes) axes)
      (List.zipWith resolveZerosT ts axes) = List.zipWith g axes ts
  | [], _ => by simp
  | _ :: _, [] => by simp
  | ax :: axes, t :: ts => by simp [resolve_lane f g hg axes ts, hg]

theorem resolve_laneT (axes : List (Option Nat)) (i : Nat) (ts : List (Sym (Arr X))) :
    List.zipWith (fun ax t => t.map (Arr.sliceO ax i))
      (List.zipWith resolveZerosB (List.zipWith resolveZerosT ts axes) axes)
      (List.zipWith resolveZerosT ts axes) = List.zipWith (fun ax t => laneT ax i t) axes ts := by
  apply resolve_lane (fun ax a => Arr.sliceO ax i a)
  intro ax t
  cases t with
  | none => rfl
  | arr a => cases ax <;> rfl
  | zero s =>
    cases ax with
    | none => rfl
    | some b => simp only [resolveZerosT, Sym.map, laneT, Shape.mapped, mapped_take_drop]

theorem resolve_laneTK (axes : List (Option Nat)) (ts : List (Sym Shape)) :
    List.zipWith (fun ax t => t.map (Shape.mapped ax))
      (List.zipWith resolveZerosB (List.zipWith resolveZerosT ts axes) axes)
      (List.zipWith resolveZerosT ts axes) = List.zipWith laneTK axes ts := by
  apply resolve_lane (fun ax a => Shape.mapped ax a)
  intro ax t
  cases t with
  | none => rfl
  | arr a => cases ax <;> rfl
  | zero s =>
    cases ax with
    | none => rfl
    | some b => simp only [resolveZerosT, Sym.map, laneTK, Shape.mapped, mapped_take_drop]

theorem kinds_laneT (axes : List (Option Nat)) (i : Nat) (ts : List (Sym (Arr X))) :
    (List.zipWith (fun ax t => laneT ax i t) axes ts).map (Sym.map (·.shape)) =
      List.zipWith laneTK axes (ts.map (Sym.map (·.shape))) := by
  rw [zipWith_map_right', List.map_zipWith]
  congr 1
  funext ax t
  cases t <;> simp only [laneT, laneTK, Sym.map, shape_sliceO]

theorem resolveZerosB_kind (f : Arr X → Shape) (t : Sym (Arr X)) (ax : Option Nat) :
    resolveZerosB (t.map f) ax = resolveZerosB t ax := by cases t <;> rfl

theorem resolveZerosT_kind (f : Arr X → Shape) (t : Sym (Arr X)) (ax : Option Nat) :
    resolveZerosT (t.map f) ax = (resolveZerosT t ax).map f := by cases t <;> cases ax <;> rfl

theorem kinds_resolve (f : Arr X → Shape) : ∀ (axes : List (Option Nat)) (ts : List (Sym (Arr X))),
    (List.zipWith resolveZerosT ts axes).map (Sym.map f) =
      List.zipWith resolveZerosT (ts.map (Sym.map f)) axes
  | [], _ => by simp
  | _ :: _, [] => by simp
  | ax :: axes, t :: ts => by simp [kinds_resolve f axes ts, resolveZerosT_kind]

theorem kinds_resolveB (f : Arr X → Shape) : ∀ (axes : List (Option Nat)) (ts : List (Sym (Arr X))),
    List.zipWith resolveZerosB (ts.map (Sym.map f)) axes = List.zipWith resolveZerosB ts axes
  | [], _ => by simp
  | _ :: _, [] => by simp
  | ax :: axes, t :: ts => by simp [kinds_resolveB f axes ts, resolveZerosB_kind]

theorem jvpOf_vprim (P : Prim B) (n : Nat) (axes : List (Option Nat)) (xs : List (Arr X))
    (ts : List (Sym (Arr X))) :
    jvpOf R (.vprim P n axes) xs ts =
      ((absOf R P (List.zipWith Shape.mapped axes (xs.map (·.shape)))).mapIdx fun j s =>
          Arr.stack 0 n s fun i => (jvpOf R P (List.zipWith (fun ax x => x.sliceO ax i) axes xs)
            (List.zipWith (fun ax t => laneT ax i t) axes ts)).1[j]?,
        (jvpAbsOf R P (List.zipWith Shape.mapped axes (xs.map (·.shape)))
          (List.zipWith laneTK axes (ts.map (Sym.map (·.shape))))).mapIdx fun j k => match k with
            | .none => .none
            | .zero s => .zero s
            | .arr s => .arr (Arr.stack 0 n s fun i =>
              (jvpOf R P (List.zipWith (fun ax x => x.sliceO ax i) axes xs)
                (List.zipWith (fun ax t => laneT ax i t) axes ts)).2[j]?.bind Sym.arr?)) := by
  rw [jvpOf]
  simp only [resolve_laneT]
  have h : List.zipWith (fun ax t => t.map (Shape.mapped ax))
      (List.zipWith resolveZerosB (List.zipWith resolveZerosT ts axes) axes)
      ((List.zipWith resolveZerosT ts axes).map (Sym.map (·.shape))) =
      List.zipWith laneTK axes (ts.map (Sym.map (·.shape))) := by
    rw [← resolve_laneTK, ← kinds_resolve, kinds_resolveB]
  rw [h]
  rfl

theorem shape_jvpOf (hR : R.Lawful) : ∀ (P : Prim B) (xs : List (Arr X)) (ts : List (Sym (Arr X))),
    (jvpOf R P xs ts).1.map (·.shape) = absOf R P (xs.map (·.shape)) ∧
    (jvpOf R P xs ts).2.map (Sym.map (·.shape)) =
      jvpAbsOf R P (xs.map (·.shape)) (ts.map (Sym.map (·.shape)))
  | .base b, xs, ts => ⟨hR.jvp1 b xs ts, hR.jvp2 b xs ts⟩
  | .vprim P n axes, xs, ts => by
    rw [jvpOf_vprim]
    constructor
    · rw [absOf]
      exact map_mapIdx_eq _ _ _ _ fun _ _ => rfl
    · simp only [jvpAbsOf, resolve_laneTK]
      exact map_mapIdx_eq _ _ _ _ fun _ k => by cases k <;> rfl

theorem jvpOf_lane (hR : R.Lawful) {n i : Nat} (hi : i < n) (P : Prim B) (axes : List (Option Nat))
    (xs : List (Arr X)) (ts : List (Sym (Arr X))) :
    (jvpOf R (.vprim P n axes) xs ts).1.map (Arr.slice 0 i) =
      (jvpOf R P (List.zipWith (fun ax x => x.sliceO ax i) axes xs)
        (List.zipWith (fun ax t => laneT ax i t) axes ts)).1 ∧
    (jvpOf R (.vprim P n axes) xs ts).2.map (Sym.map (Arr.slice 0 i)) =
      (jvpOf R P (List.zipWith (fun ax x => x.sliceO ax i) axes xs)
        (List.zipWith (fun ax t => laneT ax i t) axes ts)).2 := by
  rw [jvpOf_vprim]
  obtain ⟨h1, h2⟩ := shape_jvpOf hR P (List.zipWith (fun ax x => x.sliceO ax i) axes xs)
    (List.zipWith (fun ax t => laneT ax i t) axes ts)
  rw [shapes_lane] at h1 h2
  rw [kinds_laneT] at h2
  constructor
  · exact map_slice_stack hi (fun i => (jvpOf R P (List.zipWith (fun ax x => x.sliceO ax i) axes xs)
      (List.zipWith (fun ax t => laneT ax i t) axes ts)).1) _ h1
  · rw [← h2]
    apply List.ext_getElem?
    intro j
    rw [List.getElem?_map, List.getElem?_mapIdx, List.getElem?_map]
    cases h : (jvpOf R P (List.zipWith (fun ax x => x.sliceO ax i) axes xs)
        (List.zipWith (fun ax t => laneT ax i t) axes ts)).2[j]? with
    | none => rfl
    | some t =>
      cases t with
      | none => rfl
      | zero s => rfl
      | arr a =>
        simp only [Option.map_some, Sym.map]
        rw [slice_stack hi (a := a) (by simp [h, Sym.arr?]) rfl (Nat.zero_le _)]

/-! ### Cotangents -/

/-- Lane `i` of an input of a transpose rule. -/
def laneI (ax : Option Nat) (i : Nat) : Inp (Arr X) → Inp (Arr X)
  | .undef s => .undef (Shape.mapped ax s)
  | .known a => .known (a.sliceO ax i)

def laneIK (ax : Option Nat) : Inp Shape → Inp Shape
  | .undef s => .undef (Shape.mapped ax s)
  | .known s => .known (Shape.mapped ax s)

theorem resolve_laneI_aux {P : Type} (f : Option Nat → P → P) (g : Option Nat → Inp P → Inp P)
    (hg : ∀ ax t, (resolveUndefinedI t ax).map (f (resolveUndefinedB t ax)) = g ax t) :
    ∀ (axes : List (Option Nat)) (ts : List (Inp P)),
    List.zipWith (fun ax t => t.map (f ax)) (List.zipWith resolveUndefinedB ts axes)
      (List.zipWith resolveUndefinedI ts axes) = List.zipWith g axes ts
  | [], _ => by simp
  | _ :: _, [] => by simp
  | ax :: axes, t :: ts => by simp [resolve_laneI_aux f g hg axes ts, hg]

theorem resolve_laneI (axes : List (Option Nat)) (i : Nat) (ts : List (Inp (Arr X))) :
    List.zipWith (fun ax t => t.map (Arr.sliceO ax i)) (List.zipWith resolveUndefinedB ts axes)
      (List.zipWith resolveUndefinedI ts axes) = List.zipWith (fun ax t => laneI ax i t) axes ts := by
  apply resolve_laneI_aux (fun ax a => Arr.sliceO ax i a)
  intro ax t
  cases t with
  | known a => cases ax <;> rfl
  | undef s =>
    cases ax with
    | none => rfl
    | some b => simp only [resolveUndefinedI, Inp.map, laneI, Shape.mapped, mapped_take_drop]

theorem resolve_laneIK (axes : List (Option Nat)) (ts : List (Inp Shape)) :
    List.zipWith (fun ax t => t.map (Shape.mapped ax)) (List.zipWith resolveUndefinedB ts axes)
      (List.zipWith resolveUndefinedI ts axes) = List.zipWith laneIK axes ts := by
  apply resolve_laneI_aux (fun ax a => Shape.mapped ax a)
  intro ax t
  cases t with
  | known a => cases ax <;> rfl
  | undef s =>
    cases ax with
    | none => rfl
    | some b => simp only [resolveUndefinedI, Inp.map, laneIK, Shape.mapped, mapped_take_drop]

theorem kinds_laneI (axes : List (Option Nat)) (i : Nat) (ts : List (Inp (Arr X))) :
    (List.zipWith (fun ax t => laneI ax i t) axes ts).map (Inp.map (·.shape)) =
      List.zipWith laneIK axes (ts.map (Inp.map (·.shape))) := by
  rw [zipWith_map_right', List.map_zipWith]
  congr 1
  funext ax t
  cases t <;> simp only [laneI, laneIK, Inp.map, shape_sliceO]

/-- Lane `i` of a cotangent under a mapped level. -/
def laneC (i : Nat) (c : Sym (Arr X)) : Sym (Arr X) := (dropZero c).map (Arr.slice 0 i)

def laneCK (c : Sym Shape) : Sym Shape := (dropZero c).map (Shape.mapped (some 0))

theorem kinds_laneC (i : Nat) (cts : List (Sym (Arr X))) :
    (cts.map (laneC i)).map (Sym.map (·.shape)) = (cts.map (Sym.map (·.shape))).map laneCK := by
  simp only [List.map_map]
  congr 1
  funext c
  cases c <;> rfl

theorem trAbsOf_vprim (P : Prim B) (n : Nat) (axes : List (Option Nat)) (cts : List (Sym Shape))
    (ins : List (Inp Shape)) :
    trAbsOf R (.vprim P n axes) cts ins = (do
      let ks ← trAbsOf R P (cts.map laneCK) (List.zipWith laneIK axes ins)
      let outs ← outAxes n (ks.map dropZero) axes
      checkOuts ins outs
      pure outs) := by
  rw [trAbsOf]
  simp only [resolve_laneIK, List.map_map]
  rfl

/-- What a vprim returns for an output of the transpose rule. -/
def stackC (n : Nat) (axes : List (Option Nat)) (lane : Nat → List (Sym (Arr X))) (j : Nat)
    (k : Sym Shape) : Sym (Arr X) :=
  match k, axes[j]? with
  | .arr s, some (some b) =>
    .arr (Arr.stack b n (s.eraseIdx b) fun i => (lane i)[j]?.bind Sym.arr?)
  | _, _ => .none

theorem trOf_vprim (P : Prim B) (n : Nat) (axes : List (Option Nat)) (cts : List (Sym (Arr X)))
    (ins : List (Inp (Arr X))) :
    trOf R (.vprim P n axes) cts ins = (do
      let outs ← trAbsOf R (.vprim P n axes) (cts.map (Sym.map (·.shape)))
        (ins.map (Inp.map (·.shape)))
      pure (outs.mapIdx (stackC n axes fun i =>
        (trOf R P (cts.map (laneC i))
          (List.zipWith (fun ax x => laneI ax i x) axes ins)).toOption.getD []))) := by
  rw [trOf]
  simp only [resolve_laneI, List.map_map]
  rfl

/-- What `outAxes` does to an element. -/
def OutRel (n : Nat) (ax : Option (Option Nat)) (o : Option (Sym Shape)) : Sym Shape → Prop
  | .arr s => ∃ b, ax = some (some b) ∧ b ≤ s.length ∧ o = some (.arr (s.insertIdx b n))
  | k => o = some k

/-- `outAxes` element by element. -/
theorem outAxes_ok {n : Nat} : ∀ {ks : List (Sym Shape)} {axes : List (Option Nat)}
    {outs : List (Sym Shape)}, outAxes n ks axes = .ok outs →
    outs.length = ks.length ∧ axes.length = ks.length ∧ ∀ (j : Nat) (k : Sym Shape),
      ks[j]? = some k → OutRel n axes[j]? outs[j]? k
  | [], [], outs, h => by
    simp only [outAxes, Except.ok.injEq] at h
    subst h
    simp
  | [], _ :: _, _, h => by simp [outAxes] at h
  | _ :: _, [], _, h => by simp [outAxes] at h
  | k :: ks, ax :: axes, outs, h => by
    have key : ∀ (o : Sym Shape), (do
          let os ← outAxes n ks axes
          pure (o :: os) : Except Err _) = .ok outs →
        ∃ os, outAxes n ks axes = .ok os ∧ outs = o :: os := by
      intro o ho
      cases hr : outAxes n ks axes with
      | error e => rw [hr] at ho; cases ho
      | ok os => rw [hr] at ho; exact ⟨os, rfl, by cases ho; rfl⟩
    have main : ∀ (o : Sym Shape) (os : List (Sym Shape)), outAxes n ks axes = .ok os →
        OutRel n (some ax) (some o) k →
        (o :: os).length = (k :: ks).length ∧ (ax :: axes).length = (k :: ks).length ∧
        ∀ (j : Nat) (k' : Sym Shape), (k :: ks)[j]? = some k' →
          OutRel n (ax :: axes)[j]? (o :: os)[j]? k' := by
      intro o os hos ho
      obtain ⟨h1, h2, h3⟩ := outAxes_ok hos
      refine ⟨by simp [h1], by simp [h2], ?_⟩
      intro j k' hj
      cases j with
      | zero =>
        simp only [List.getElem?_cons_zero, Option.some.injEq] at hj
        subst hj
        exact ho
      | succ j =>
        simp only [List.getElem?_cons_succ] at hj ⊢
        exact h3 j k' hj
    cases k with
    | none =>
      obtain ⟨os, h1, h2⟩ := key _ h
      subst h2
      exact main _ _ h1 rfl
    | zero s =>
      obtain ⟨os, h1, h2⟩ := key _ h
      subst h2
      exact main _ _ h1 rfl
    | arr s =>
      cases ax with
      | none => cases h
      | some b =>
        by_cases hb : b ≤ s.length
        · simp only [outAxes, hb, if_true] at h
          obtain ⟨os, h1, h2⟩ := key _ h
          subst h2
          exact main _ _ h1 ⟨b, rfl, hb, rfl⟩
        · simp only [outAxes, hb, if_false] at h
          cases h

theorem checkOuts_ok : ∀ {ins : List (Inp Shape)} {outs : List (Sym Shape)},
    checkOuts ins outs = .ok () →
    outs.length = ins.length ∧ ∀ (j : Nat) (o : Sym Shape), outs[j]? = some o →
      o = .none ∨ ∃ s, o = .arr s ∧ ins[j]? = some (.undef s)
  | [], [], _ => by simp
  | [], _ :: _, h => by simp [checkOuts] at h
  | _ :: _, [], h => by simp [checkOuts] at h
  | i :: ins, o :: outs, h => by
    have main : checkOuts ins outs = .ok () → (o = .none ∨ ∃ s, o = .arr s ∧ i = .undef s) →
        (o :: outs).length = (i :: ins).length ∧ ∀ (j : Nat) (o' : Sym Shape), (o :: outs)[j]? = some o' →
          o' = .none ∨ ∃ s, o' = .arr s ∧ (i :: ins)[j]? = some (.undef s) := by
      intro h ho
      obtain ⟨h1, h2⟩ := checkOuts_ok h
      refine ⟨by simp [h1], ?_⟩
      intro j o' hj
      cases j with
      | zero =>
        simp only [List.getElem?_cons_zero, Option.some.injEq] at hj ⊢
        subst hj
        exact ho
      | succ j =>
        simp only [List.getElem?_cons_succ] at hj ⊢
        exact h2 j o' hj
    cases o with
    | none => exact main h (.inl rfl)
    | zero s => cases i <;> cases h
    | arr s' =>
      cases i with
      | known p => cases h
      | undef s =>
        by_cases hs : s = s'
        · simp only [checkOuts, hs, if_true] at h
          exact main h (.inr ⟨s', rfl, by rw [hs]⟩)
        · simp only [checkOuts, hs, if_false] at h
          cases h

theorem trAbsOf_vprim_ok {P : Prim B} {n : Nat} {axes : List (Option Nat)} {cts : List (Sym Shape)}
    {ins : List (Inp Shape)} {outs : List (Sym Shape)}
    (h : trAbsOf R (.vprim P n axes) cts ins = .ok outs) :
    ∃ ks, trAbsOf R P (cts.map laneCK) (List.zipWith laneIK axes ins) = .ok ks ∧
      outAxes n (ks.map dropZero) axes = .ok outs ∧ checkOuts ins outs = .ok () := by
  rw [trAbsOf_vprim] at h
  cases hk : trAbsOf R P (cts.map laneCK) (List.zipWith laneIK axes ins) with
  | error e => rw [hk] at h; cases h
  | ok ks =>
    rw [hk] at h
    cases ho : outAxes n (ks.map dropZero) axes with
    | error e => simp only [bind, Except.bind, ho] at h; cases h
    | ok os =>
      cases hc : checkOuts ins os with
      | error e => simp only [bind, Except.bind, ho, hc] at h; cases h
      | ok u =>
        simp only [bind, Except.bind, ho, hc, pure, Except.pure, Except.ok.injEq] at h
        subst h
        exact ⟨ks, rfl, ho, hc⟩

theorem dropZero_ne_zero {P : Type} (o : Sym P) (s : Shape) : dropZero o ≠ .zero s := by
  cases o <;> simp [dropZero]

/-- The outputs of `_vprim_transpose` are `None` or arrays. -/
theorem trAbsOf_vprim_get {P : Prim B} {n : Nat} {axes : List (Option Nat)} {cts : List (Sym Shape)}
    {ins : List (Inp Shape)} {outs : List (Sym Shape)}
    (h : trAbsOf R (.vprim P n axes) cts ins = .ok outs) {j : Nat} {k : Sym Shape}
    (hj : outs[j]? = some k) :
    k = .none ∨ ∃ (b : Nat) (s : Shape), k = .arr (s.insertIdx b n) ∧ axes[j]? = some (some b) ∧ b ≤ s.length := by
  obtain ⟨ks, h1, h2, h3⟩ := trAbsOf_vprim_ok h
  obtain ⟨l1, l2, l3⟩ := outAxes_ok h2
  have hlt : j < (ks.map dropZero).length := by
    rw [← l1]
    exact (List.getElem?_eq_some_iff.1 hj).1
  have hg := l3 j _ (List.getElem?_eq_getElem hlt)
  cases hk : (ks.map dropZero)[j] with
  | none =>
    rw [hk] at hg
    simp only [OutRel, hj, Option.some.injEq] at hg
    exact .inl hg
  | zero s =>
    exfalso
    simp only [List.getElem_map] at hk
    exact dropZero_ne_zero _ _ hk
  | arr s =>
    rw [hk] at hg
    obtain ⟨b, e1, e2, e3⟩ := hg
    rw [hj, Option.some.injEq] at e3
    exact .inr ⟨b, s, e3, e1, e2⟩

theorem trOf_kinds (hR : R.Lawful) : ∀ (P : Prim B) (cts : List (Sym (Arr X))) (ins : List (Inp (Arr X))),
    (trOf R P cts ins).map (List.map (Sym.map (·.shape))) =
      trAbsOf R P (cts.map (Sym.map (·.shape))) (ins.map (Inp.map (·.shape)))
  | .base b, cts, ins => by
    simp only [trOf, trAbsOf, Except.map, hR.tr]
  | .vprim P n axes, cts, ins => by
    rw [trOf_vprim]
    cases h : trAbsOf R (.vprim P n axes) (cts.map (Sym.map (·.shape)))
      (ins.map (Inp.map (·.shape))) with
    | error e => rfl
    | ok outs =>
      show Except.ok _ = Except.ok outs
      congr 1
      apply List.ext_getElem?
      intro j
      rw [List.getElem?_map, List.getElem?_mapIdx]
      cases hj : outs[j]? with
      | none => rfl
      | some k =>
        rcases trAbsOf_vprim_get h hj with rfl | ⟨b, s, rfl, hb, hle⟩
        · rfl
        · simp only [Option.map_some, stackC, hb, Sym.map, shape_stack, List.eraseIdx_insertIdx_self]

theorem trOf_lane (hR : R.Lawful) {n i : Nat} (hi : i < n) {P : Prim B} {axes : List (Option Nat)}
    {cts : List (Sym (Arr X))} {ins : List (Inp (Arr X))} {outs : List (Sym (Arr X))}
    (h : trOf R (.vprim P n axes) cts ins = .ok outs) :
    ∃ os, trOf R P (cts.map (laneC i)) (List.zipWith (fun ax x => laneI ax i x) axes ins) = .ok os ∧
      List.zipWith (fun ax (o : Sym (Arr X)) => o.map (Arr.sliceO ax i)) axes outs = os.map dropZero ∧
      outs.length = ins.length ∧ axes.length = ins.length := by
  rw [trOf_vprim] at h
  cases ha : trAbsOf R (.vprim P n axes) (cts.map (Sym.map (·.shape)))
      (ins.map (Inp.map (·.shape))) with
  | error e => rw [ha] at h; cases h
  | ok outsK =>
    rw [ha] at h
    simp only [bind, Except.bind, pure, Except.pure, Except.ok.injEq] at h
    obtain ⟨ks, h1, h2, h3⟩ := trAbsOf_vprim_ok ha
    obtain ⟨l1, l2, l3⟩ := outAxes_ok h2
    obtain ⟨c1, c2⟩ := checkOuts_ok h3
    have hl := trOf_kinds hR P (cts.map (laneC i)) (List.zipWith (fun ax x => laneI ax i x) axes ins)
    rw [kinds_laneC, kinds_laneI, h1] at hl
    cases hos : trOf R P (cts.map (laneC i)) (List.zipWith (fun ax x => laneI ax i x) axes ins) with
    | error e => rw [hos] at hl; cases hl
    | ok os =>
      rw [hos] at hl
      have hks : os.map (Sym.map (·.shape)) = ks := by
        simp only [Except.map, Except.ok.injEq] at hl
        exact hl
      refine ⟨os, rfl, ?_, ?_, ?_⟩
      · subst h
        apply List.ext_getElem?
        intro j
        rw [List.getElem?_zipWith, List.getElem?_map, List.getElem?_mapIdx]
        have hkj : (ks.map dropZero)[j]? = (os[j]?).map (fun o => dropZero (o.map (·.shape))) := by
          rw [← hks]
          simp only [List.getElem?_map, Option.map_map]
          rfl
        cases hj : os[j]? with
        | none =>
          rw [hj, Option.map_none] at hkj
          have : axes[j]? = none := by
            rw [List.getElem?_eq_none_iff] at hkj ⊢
            simpa [l2] using hkj
          rw [this]
          cases outsK[j]? <;> rfl
        | some o =>
          rw [hj] at hkj
          have hr := l3 j _ hkj
          cases o with
          | none =>
            have hr' : outsK[j]? = some .none := hr
            have hax : ∃ ax, axes[j]? = some ax := by
              have := (List.getElem?_eq_some_iff.1 hkj).1
              rw [← l2] at this
              exact ⟨_, List.getElem?_eq_getElem this⟩
            obtain ⟨ax, hax⟩ := hax
            rw [hr', hax]
            rfl
          | zero s =>
            have hr' : outsK[j]? = some .none := hr
            have hax : ∃ ax, axes[j]? = some ax := by
              have := (List.getElem?_eq_some_iff.1 hkj).1
              rw [← l2] at this
              exact ⟨_, List.getElem?_eq_getElem this⟩
            obtain ⟨ax, hax⟩ := hax
            rw [hr', hax]
            rfl
          | arr a =>
            obtain ⟨b, e1, e2, e3⟩ := hr
            rw [e3, e1]
            simp only [Option.map_some, stackC, e1, Sym.map, dropZero, Option.some.injEq, Sym.arr.injEq,
              Arr.sliceO, List.eraseIdx_insertIdx_self]
            exact slice_stack hi (by simp [hos, Except.toOption, hj, Sym.arr?]) rfl e2
      · subst h
        rw [List.length_mapIdx, c1, List.length_map]
      · rw [l2, ← l1, c1, List.length_map]

end

end Verif.VPrim
