import Verif.Primitive.VLemmas

/-!
# C62: a vprim under any nest of `vmap`s

The specification speaks of lanes only.  Under `vmap`s of sizes `ns` (innermost first) an input
has, for each level, the axis along which it is mapped there or `none`; a lane of the whole nest
is one index per level.  Whatever the nest: the values, shapes, tangents and cotangents of the
equations that the batching rules produce are, in each lane, those that the rules of the
primitive itself give on that lane.
-/

namespace Verif.VPrim

open Verif

section
variable {B X : Type} {R : Rules B X}

/-- One lane of the nest of `vmap`s: an index for each level. -/
inductive InRange : List Nat → List Nat → Prop
  | nil : InRange [] []
  | cons {i n : Nat} {is ns : List Nat} : i < n → InRange is ns → InRange (i :: is) (n :: ns)

/-- The lane `is` of an array mapped along `axs`: the outermost level is sliced first. -/
def lane : List (Option Nat) → List Nat → Arr X → Arr X
  | ax :: axs, i :: is, a => (lane axs is a).sliceO ax i
  | _, _, a => a

/-- The shape of a lane. -/
def laneShape : List (Option Nat) → Shape → Shape
  | ax :: axs, s => Shape.mapped ax (laneShape axs s)
  | [], s => s

/-- A lane of a tangent: of a symbolic zero, the zero of the shape of the lane. -/
def laneTangent (axs : List (Option Nat)) (is : List Nat) : Sym (Arr X) → Sym (Arr X)
  | .none => .none
  | .zero s => .zero (laneShape axs s)
  | .arr a => .arr (lane axs is a)

/-- A lane of an input to transpose. -/
def laneInput (axs : List (Option Nat)) (is : List Nat) : Inp (Arr X) → Inp (Arr X)
  | .undef s => .undef (laneShape axs s)
  | .known a => .known (lane axs is a)

/-- A cotangent as the rule sees it: under a level that maps something, a symbolic zero
is `None`. -/
def seen {P : Type} (outs : List (Option Nat)) (c : Sym P) : Sym P :=
  if outs.any (·.isSome) then (match c with | .zero _ => .none | c => c) else c

/-- A lane of a cotangent of the outputs. -/
def laneCotangent (outs : List (Option Nat)) (is : List Nat) (c : Sym (Arr X)) : Sym (Arr X) :=
  (seen outs c).map (lane outs is)

/-- The shape with lanes of shape `s`. -/
def stackShape : List Nat → List (Option Nat) → Shape → Shape
  | n :: ns, some b :: outs, s => stackShape ns outs (s.insertIdx b n)
  | _ :: ns, none :: outs, s => stackShape ns outs s
  | _, _, s => s

theorem laneShape_cons (a : List (Option Nat)) (s : Shape) :
    laneShape a s = Shape.mapped (a.headD none) (laneShape a.tail s) := by
  cases a <;> rfl

theorem lane_cons (a : List (Option Nat)) (i : Nat) (is : List Nat) (x : Arr X) :
    lane a (i :: is) x = (lane a.tail is x).sliceO (a.headD none) i := by
  cases a with
  | nil => cases is <;> rfl
  | cons ax a => rfl

theorem lane_nil (a : List (Option Nat)) (x : Arr X) : lane a [] x = x := by
  cases a <;> rfl

theorem all_none {axs : List (List (Option Nat))}
    (h : (axs.map (·.headD none)).all (·.isNone) = true) {a : List (Option Nat)} (ha : a ∈ axs) :
    a.headD none = none := by
  rw [List.all_eq_true] at h
  have := h _ (List.mem_map_of_mem (f := (·.headD none)) ha)
  exact Option.isNone_iff_eq_none.1 this

theorem zipWith_congr_mem {A C D : Type} {f g : A → C → D} : ∀ (l : List A) (m : List C),
    (∀ a ∈ l, ∀ c, f a c = g a c) → List.zipWith f l m = List.zipWith g l m
  | [], _, _ => by simp
  | _ :: _, [], _ => by simp
  | a :: l, c :: m, h => by
    simp only [List.zipWith_cons_cons]
    rw [h a List.mem_cons_self c, zipWith_congr_mem l m fun a ha => h a (List.mem_cons_of_mem _ ha)]

theorem zipWith_snd {A C D : Type} (g : C → D) : ∀ (l : List A) (m : List C), l.length = m.length →
    List.zipWith (fun _ c => g c) l m = m.map g
  | [], [], _ => rfl
  | _ :: l, c :: m, h => by
    simp only [List.zipWith_cons_cons, List.map_cons]
    rw [zipWith_snd g l m (by simpa using h)]
  | [], _ :: _, h => by simp at h
  | _ :: _, [], h => by simp at h

/-! ### Which axes the outputs have -/

theorem nest_length : ∀ (ns : List Nat) (P : Prim B) (axs : List (List (Option Nat))),
    (nest ns P axs).2.length = ns.length
  | [], _, _ => rfl
  | n :: ns, P, axs => by
    simp only [nest, List.length_cons]
    rw [nest_length]

/-- An output is mapped along axis 0 at the levels that map an input, and not mapped at the
others. -/
theorem nest_axes : ∀ (ns : List Nat) (P : Prim B) (axs : List (List (Option Nat))) (k : Nat),
    k < ns.length →
    (nest ns P axs).2[k]? =
      some (if axs.any (fun a => (a.getD k none).isSome) then some 0 else none)
  | n :: ns, P, axs, 0, _ => by
    simp only [nest, List.getElem?_cons_zero, batchRule]
    have e : axs.any (fun a => (a.getD 0 none).isSome) =
        !((axs.map (·.headD none)).all (·.isNone)) := by
      rw [List.all_map, List.not_all_eq_any_not]
      congr 1
      funext a
      cases a with
      | nil => rfl
      | cons ax _ => cases ax <;> rfl
    rw [e]
    cases (axs.map (·.headD none)).all (·.isNone) <;> rfl
  | n :: ns, P, axs, k + 1, hk => by
    simp only [nest, List.getElem?_cons_succ]
    rw [nest_axes ns _ _ k (by simpa using hk), List.any_map]
    congr 4
    funext a
    cases a <;> rfl

theorem map_comp {A C D : Type} (f : A → C) (g : C → D) (l : List A) :
    l.map (fun x => g (f x)) = (l.map f).map g := by
  rw [List.map_map]; rfl

theorem lane_nil_fun : (lane [] [] : Arr X → Arr X) = fun x => x := by funext x; rfl

/-! ### Values -/

theorem impl_nest_aux (hR : R.Lawful) {xs : List (Arr X)} :
    ∀ (ns : List Nat) (P : Prim B) (axs : List (List (Option Nat))) (is : List Nat),
    InRange is ns → axs.length = xs.length →
    (implOf R (nest ns P axs).1 xs).map (lane (nest ns P axs).2 is) =
      implOf R P (List.zipWith (fun a x => lane a is x) axs xs)
  | [], P, axs, _, .nil, hl => by
    simp only [nest, lane_nil]
    rw [zipWith_snd (fun x => x) axs xs hl, lane_nil_fun]
    simp
  | n :: ns, P, axs, _, .cons (i := i) (is := is) hi hr, hl => by
    have ih := fun P1 => impl_nest_aux hR ns P1 (axs.map (·.tail)) is hr (by simpa using hl)
    simp only [nest, batchRule]
    by_cases h : (axs.map (·.headD none)).all (·.isNone) = true
    · rw [if_pos h]
      have e : (fun (x : Arr X) => lane (none :: (nest ns P (axs.map (·.tail))).2) (i :: is) x) =
          lane (nest ns P (axs.map (·.tail))).2 is := by
        funext x
        rw [lane_cons]
        rfl
      show List.map (fun x => lane (none :: (nest ns P (axs.map (·.tail))).2) (i :: is) x) _ = _
      rw [e, ih, List.zipWith_map_left]
      congr 1
      apply zipWith_congr_mem
      intro a ha x
      rw [lane_cons, all_none h ha]
      rfl
    · rw [if_neg h]
      have e : (fun (x : Arr X) => lane (some 0 :: (nest ns (.vprim P n (axs.map (·.headD none)))
            (axs.map (·.tail))).2) (i :: is) x) =
          fun x => Arr.slice 0 i (lane (nest ns (.vprim P n (axs.map (·.headD none)))
            (axs.map (·.tail))).2 is x) := by
        funext x
        rw [lane_cons]
        rfl
      show List.map (fun x => lane (some 0 :: (nest ns (.vprim P n (axs.map (·.headD none)))
            (axs.map (·.tail))).2) (i :: is) x) _ = _
      rw [e, map_comp (lane _ is) (Arr.slice 0 i), ih, implOf_lane hR hi, zipWith_assoc]
      congr 1
      apply zipWith_congr_mem
      intro a _ x
      rw [lane_cons]

/-- **Values.**  Binding a vprim under any nest of `vmap`s gives in each lane what its
implementation gives on that lane of its inputs. -/
theorem vprim_impl (hR : R.Lawful) {ns is : List Nat} (b : B) {axs : List (List (Option Nat))}
    {xs : List (Arr X)} (hi : InRange is ns) (hl : axs.length = xs.length) :
    (implOf R (nest ns (.base b) axs).1 xs).map (lane (nest ns (.base b) axs).2 is) =
      R.impl b (List.zipWith (fun a x => lane a is x) axs xs) :=
  impl_nest_aux hR ns (.base b) axs is hi hl

/-! ### Shapes -/

theorem abs_nest_aux {ss : List Shape} :
    ∀ (ns : List Nat) (P : Prim B) (axs : List (List (Option Nat))),
    axs.length = ss.length → (∀ a ∈ axs, a.length = ns.length) →
    absOf R (nest ns P axs).1 ss =
      (absOf R P (List.zipWith laneShape axs ss)).map (stackShape ns (nest ns P axs).2)
  | [], P, axs, hl, hn => by
    simp only [nest]
    have e : List.zipWith laneShape axs ss = ss := by
      rw [zipWith_congr_mem (g := fun _ s => s) axs ss, zipWith_snd (fun s => s) axs ss hl]
      · simp
      · intro a ha s
        have := hn a ha
        cases a with
        | nil => rfl
        | cons _ _ => simp at this
    rw [e]
    have e2 : (fun s : Shape => stackShape [] [] s) = fun s => s := by funext s; rfl
    show _ = List.map (fun s : Shape => stackShape [] [] s) _
    rw [e2]
    simp
  | n :: ns, P, axs, hl, hn => by
    have hn' : ∀ a ∈ axs.map (·.tail), a.length = ns.length := by
      intro a ha
      obtain ⟨a', ha', rfl⟩ := List.mem_map.1 ha
      have := hn a' ha'
      simp only [List.length_tail, this, List.length_cons]
      omega
    have ih := fun P1 => abs_nest_aux ns P1 (axs.map (·.tail)) (by simpa using hl) hn'
    simp only [nest, batchRule]
    by_cases h : (axs.map (·.headD none)).all (·.isNone) = true
    · rw [if_pos h]
      show absOf R (nest ns P (axs.map (·.tail))).1 ss = List.map (fun s =>
        stackShape (n :: ns) (none :: (nest ns P (axs.map (·.tail))).2) s) _
      have e : List.zipWith laneShape (axs.map (·.tail)) ss = List.zipWith laneShape axs ss := by
        rw [List.zipWith_map_left]
        apply zipWith_congr_mem
        intro a ha s
        rw [laneShape_cons a, all_none h ha]
        rfl
      rw [ih, e]
      rfl
    · rw [if_neg h]
      show absOf R (nest ns (.vprim P n (axs.map (·.headD none))) (axs.map (·.tail))).1 ss =
        List.map (fun s => stackShape (n :: ns) (some 0 ::
          (nest ns (.vprim P n (axs.map (·.headD none))) (axs.map (·.tail))).2) s) _
      rw [ih, absOf, zipWith_assoc, List.map_map]
      have e : (List.zipWith (fun a s => Shape.mapped (a.headD none) (laneShape a.tail s)) axs ss) =
          List.zipWith laneShape axs ss := by
        apply zipWith_congr_mem
        intro a _ s
        rw [laneShape_cons a]
      rw [e]
      rfl

/-- **Shapes.**  What `abstract_eval` says of the bound equation: the shapes that the abstract
rule gives for a lane, with the sizes of the levels that map something in front; and this is
what the implementation returns. -/
theorem vprim_abs (hR : R.Lawful) {ns : List Nat} (b : B) {axs : List (List (Option Nat))}
    {xs : List (Arr X)} (hl : axs.length = xs.length) (hn : ∀ a ∈ axs, a.length = ns.length) :
    absOf R (nest ns (.base b) axs).1 (xs.map (·.shape)) =
      (R.abs b (List.zipWith laneShape axs (xs.map (·.shape)))).map
        (stackShape ns (nest ns (.base b) axs).2) ∧
    (implOf R (nest ns (.base b) axs).1 xs).map (·.shape) =
      absOf R (nest ns (.base b) axs).1 (xs.map (·.shape)) :=
  ⟨abs_nest_aux ns (.base b) axs (by simpa using hl) hn, shape_implOf hR _ xs⟩

/-! ### Tangents -/

theorem laneTangent_cons (a : List (Option Nat)) (i : Nat) (is : List Nat) (t : Sym (Arr X)) :
    laneTangent a (i :: is) t = laneT (a.headD none) i (laneTangent a.tail is t) := by
  cases t with
  | none => rfl
  | zero s => simp only [laneTangent, laneT]; rw [laneShape_cons]
  | arr x => simp only [laneTangent, laneT]; rw [lane_cons]

theorem laneTangent_nil {a : List (Option Nat)} (h : a.length = 0) (t : Sym (Arr X)) :
    laneTangent a [] t = t := by
  cases a with
  | nil => cases t <;> rfl
  | cons _ _ => simp at h

theorem tail_length {n : Nat} {ns : List Nat} {axs : List (List (Option Nat))}
    (hn : ∀ a ∈ axs, a.length = (n :: ns).length) :
    ∀ a ∈ axs.map (·.tail), a.length = ns.length := by
  intro a ha
  obtain ⟨a', ha', rfl⟩ := List.mem_map.1 ha
  have := hn a' ha'
  simp only [List.length_tail, this, List.length_cons]
  omega

theorem laneT_none (i : Nat) (t : Sym (Arr X)) : laneT none i t = t := by
  cases t <;> rfl

theorem jvp_nest_aux (hR : R.Lawful) {xs : List (Arr X)} {ts : List (Sym (Arr X))} :
    ∀ (ns : List Nat) (P : Prim B) (axs : List (List (Option Nat))) (is : List Nat),
    InRange is ns → axs.length = xs.length → axs.length = ts.length →
    (∀ a ∈ axs, a.length = ns.length) →
    (jvpOf R (nest ns P axs).1 xs ts).1.map (lane (nest ns P axs).2 is) =
      (jvpOf R P (List.zipWith (fun a x => lane a is x) axs xs)
        (List.zipWith (fun a t => laneTangent a is t) axs ts)).1 ∧
    (jvpOf R (nest ns P axs).1 xs ts).2.map (Sym.map (lane (nest ns P axs).2 is)) =
      (jvpOf R P (List.zipWith (fun a x => lane a is x) axs xs)
        (List.zipWith (fun a t => laneTangent a is t) axs ts)).2
  | [], P, axs, _, .nil, hl, hl', hn => by
    simp only [nest, lane_nil]
    rw [zipWith_snd (fun x => x) axs xs hl,
      zipWith_congr_mem (g := fun _ t => t) axs ts fun a ha t => laneTangent_nil (hn a ha) t,
      zipWith_snd (fun x => x) axs ts hl']
    have e : (fun t : Sym (Arr X) => t.map (fun x => x)) = fun t => t := by
      funext t; exact Sym.map_id' t
    simp only [List.map_id_fun', id_eq]
    rw [lane_nil_fun]
    constructor
    · simp
    · show List.map (fun t : Sym (Arr X) => t.map (fun x => x)) _ = _
      rw [e]
      simp
  | n :: ns, P, axs, _, .cons (i := i) (is := is) hi hr, hl, hl', hn => by
    have ih := fun P1 => jvp_nest_aux hR ns P1 (axs.map (·.tail)) is hr (by simpa using hl)
      (by simpa using hl') (tail_length hn)
    simp only [nest, batchRule]
    by_cases h : (axs.map (·.headD none)).all (·.isNone) = true
    · rw [if_pos h]
      have e : (lane (none :: (nest ns P (axs.map (·.tail))).2) (i :: is) : Arr X → Arr X) =
          lane (nest ns P (axs.map (·.tail))).2 is := by
        funext x
        rw [lane_cons]
        rfl
      have e1 : List.zipWith (fun a x => lane a (i :: is) x) axs xs =
          List.zipWith (fun a x => lane a is x) (axs.map (·.tail)) xs := by
        rw [List.zipWith_map_left]
        apply zipWith_congr_mem
        intro a ha x
        rw [lane_cons, all_none h ha]
        rfl
      have e2 : List.zipWith (fun a t => laneTangent a (i :: is) t) axs ts =
          List.zipWith (fun a t => laneTangent a is t) (axs.map (·.tail)) ts := by
        rw [List.zipWith_map_left]
        apply zipWith_congr_mem
        intro a ha x
        rw [laneTangent_cons, all_none h ha, laneT_none]
      dsimp only
      rw [e, e1, e2]
      exact ih P
    · rw [if_neg h]
      dsimp only
      generalize hP : (Prim.vprim P n (axs.map (·.headD none))) = P1 at *
      have e : (lane (some 0 :: (nest ns P1 (axs.map (·.tail))).2) (i :: is) : Arr X → Arr X) =
          fun x => Arr.slice 0 i (lane (nest ns P1 (axs.map (·.tail))).2 is x) := by
        funext x
        rw [lane_cons]
        rfl
      have e' : (Sym.map (fun x => Arr.slice 0 i (lane (nest ns P1 (axs.map (·.tail))).2 is x)) :
          Sym (Arr X) → Sym (Arr X)) =
          fun t => (t.map (lane (nest ns P1 (axs.map (·.tail))).2 is)).map (Arr.slice 0 i) := by
        funext t
        rw [Sym.map_map]
      rw [e, e']
      rw [map_comp (lane _ is) (Arr.slice 0 i),
        map_comp (Sym.map (lane _ is)) (Sym.map (Arr.slice 0 i)), (ih P1).1, (ih P1).2, ← hP]
      obtain ⟨l1, l2⟩ := jvpOf_lane hR hi P (axs.map (·.headD none))
        (List.zipWith (fun a x => lane a is x) (axs.map (·.tail)) xs)
        (List.zipWith (fun a t => laneTangent a is t) (axs.map (·.tail)) ts)
      have e1 : List.zipWith (fun ax x => Arr.sliceO ax i x) (axs.map (·.headD none))
          (List.zipWith (fun a x => lane a is x) (axs.map (·.tail)) xs) =
          List.zipWith (fun a x => lane a (i :: is) x) axs xs := by
        rw [zipWith_assoc]
        apply zipWith_congr_mem
        intro a _ x
        rw [lane_cons]
      have e2 : List.zipWith (fun ax t => laneT ax i t) (axs.map (·.headD none))
          (List.zipWith (fun a t => laneTangent a is t) (axs.map (·.tail)) ts) =
          List.zipWith (fun a t => laneTangent a (i :: is) t) axs ts := by
        rw [zipWith_assoc]
        apply zipWith_congr_mem
        intro a _ x
        rw [laneTangent_cons]
      rw [e1, e2] at l1 l2
      exact ⟨l1, l2⟩

/-- **Tangents.**  Under a derivative outside any nest of `vmap`s, the primals and the tangents
of the bound equation are in each lane those that the jvp rule gives on that lane of the primals
and of the tangents, a symbolic zero being the symbolic zero of a lane.  (An output tangent which
the rule leaves symbolic keeps the shape that the rule gave it: the shape of a lane.) -/
theorem vprim_jvp (hR : R.Lawful) {ns is : List Nat} (b : B) {axs : List (List (Option Nat))}
    {xs : List (Arr X)} {ts : List (Sym (Arr X))} (hi : InRange is ns)
    (hl : axs.length = xs.length) (hl' : axs.length = ts.length)
    (hn : ∀ a ∈ axs, a.length = ns.length) :
    (jvpOf R (nest ns (.base b) axs).1 xs ts).1.map (lane (nest ns (.base b) axs).2 is) =
      (R.jvp b (List.zipWith (fun a x => lane a is x) axs xs)
        (List.zipWith (fun a t => laneTangent a is t) axs ts)).1 ∧
    (jvpOf R (nest ns (.base b) axs).1 xs ts).2.map (Sym.map (lane (nest ns (.base b) axs).2 is)) =
      (R.jvp b (List.zipWith (fun a x => lane a is x) axs xs)
        (List.zipWith (fun a t => laneTangent a is t) axs ts)).2 :=
  jvp_nest_aux hR ns (.base b) axs is hi hl hl' hn

/-! ### Cotangents -/

theorem laneInput_cons (a : List (Option Nat)) (i : Nat) (is : List Nat) (t : Inp (Arr X)) :
    laneInput a (i :: is) t = laneI (a.headD none) i (laneInput a.tail is t) := by
  cases t with
  | undef s => simp only [laneInput, laneI]; rw [laneShape_cons]
  | known x => simp only [laneInput, laneI]; rw [lane_cons]

theorem laneInput_nil {a : List (Option Nat)} (h : a.length = 0) (t : Inp (Arr X)) :
    laneInput a [] t = t := by
  cases a with
  | nil => cases t <;> rfl
  | cons _ _ => simp at h

theorem laneI_none (i : Nat) (t : Inp (Arr X)) : laneI none i t = t := by
  cases t <;> rfl

theorem seen_some {P : Type} (b : Nat) (o : List (Option Nat)) (c : Sym P) :
    seen (some b :: o) c = dropZero c := by
  cases c <;> simp [seen, dropZero]

theorem seen_none {P : Type} (o : List (Option Nat)) (c : Sym P) :
    seen (none :: o) c = seen o c := by
  simp [seen]

theorem seen_idem {P : Type} (o : List (Option Nat)) (c : Sym P) :
    dropZero (seen o c) = dropZero c := by
  unfold seen
  split
  · cases c <;> rfl
  · rfl

theorem seen_noZero {P : Type} (o : List (Option Nat)) {c : Sym P} (h : ∀ s, c ≠ .zero s) :
    seen o c = c := by
  unfold seen
  split
  · cases c with
    | zero s => exact absurd rfl (h s)
    | _ => rfl
  · rfl

theorem laneCotangent_some (o : List (Option Nat)) (i : Nat) (is : List Nat) (c : Sym (Arr X)) :
    laneCotangent (some 0 :: o) (i :: is) c = laneC i (laneCotangent o is c) := by
  have e : dropZero ((seen o c).map (lane o is)) = (dropZero (seen o c)).map (lane o is) := by
    cases seen o c <;> rfl
  simp only [laneCotangent, laneC, seen_some, e, seen_idem, Sym.map_map, lane_cons]
  rfl

theorem laneCotangent_none (o : List (Option Nat)) (i : Nat) (is : List Nat) (c : Sym (Arr X)) :
    laneCotangent (none :: o) (i :: is) c = laneCotangent o is c := by
  simp only [laneCotangent, seen_none]
  congr 1

/-- The rule gives one cotangent (or `None`, or a symbolic zero) for each input, and arrays only
for undefined inputs, of their shape. -/
def Rules.Cotangents (R : Rules B X) : Prop :=
  ∀ (b : B) (cts : List (Sym Shape)) (ins : List (Inp Shape)),
    (R.trAbs b cts ins).length = ins.length ∧
    ∀ (j : Nat) (s : Shape), (R.trAbs b cts ins)[j]? = some (.arr s) → ins[j]? = some (.undef s)

theorem trOf_vprim_ok {P : Prim B} {n : Nat} {axes : List (Option Nat)} {cts : List (Sym (Arr X))}
    {ins : List (Inp (Arr X))} {outs : List (Sym (Arr X))}
    (h : trOf R (.vprim P n axes) cts ins = .ok outs) :
    outs.length = ins.length ∧ ∀ o ∈ outs, ∀ s, o ≠ .zero s := by
  rw [trOf_vprim] at h
  cases ha : trAbsOf R (.vprim P n axes) (cts.map (Sym.map (·.shape)))
      (ins.map (Inp.map (·.shape))) with
  | error e => rw [ha] at h; cases h
  | ok outsK =>
    rw [ha] at h
    simp only [bind, Except.bind, pure, Except.pure, Except.ok.injEq] at h
    obtain ⟨ks, h1, h2, h3⟩ := trAbsOf_vprim_ok ha
    obtain ⟨c1, c2⟩ := checkOuts_ok h3
    subst h
    refine ⟨by rw [List.length_mapIdx, c1, List.length_map], ?_⟩
    intro o ho s
    obtain ⟨j, hj, rfl⟩ := List.mem_mapIdx.1 ho
    simp only [stackC]
    split <;> simp

theorem tr_nest_aux (hR : R.Lawful) {cts : List (Sym (Arr X))} {ins : List (Inp (Arr X))}
    {outs : List (Sym (Arr X))} :
    ∀ (ns : List Nat) (P : Prim B) (axs : List (List (Option Nat))) (is : List Nat),
    InRange is ns → axs.length = ins.length → (∀ a ∈ axs, a.length = ns.length) →
    (∀ cts ins outs, trOf R P cts ins = .ok outs → outs.length = ins.length) →
    trOf R (nest ns P axs).1 cts ins = .ok outs →
    ∃ os, trOf R P (cts.map (laneCotangent (nest ns P axs).2 is))
        (List.zipWith (fun a x => laneInput a is x) axs ins) = .ok os ∧
      List.zipWith (fun a (o : Sym (Arr X)) => o.map (lane a is)) axs outs =
        os.map (seen (nest ns P axs).2)
  | [], P, axs, _, .nil, hl, hn, hP, h => by
    have hlen := hP _ _ _ h
    refine ⟨outs, ?_, ?_⟩
    · rw [zipWith_congr_mem (g := fun _ t => t) axs ins fun a ha t => laneInput_nil (hn a ha) t,
        zipWith_snd (fun x => x) axs ins hl]
      have e : (laneCotangent [] [] : Sym (Arr X) → Sym (Arr X)) = fun c => c := by
        funext c
        cases c <;> rfl
      simp only [nest]
      rw [e]
      simpa [nest] using h
    · rw [zipWith_congr_mem (g := fun _ t => t) axs outs, zipWith_snd (fun x => x) axs outs]
      · congr 1
      · rw [hl, hlen]
      · intro a ha o
        have e : (lane a [] : Arr X → Arr X) = fun x => x := by funext x; exact lane_nil a x
        rw [e]
        exact Sym.map_id' o
  | n :: ns, P, axs, _, .cons (i := i) (is := is) hi hr, hl, hn, hP, h => by
    have ih := fun P1 => tr_nest_aux (cts := cts) (ins := ins) (outs := outs) hR ns P1 (axs.map (·.tail)) is hr
      (by simpa using hl) (tail_length hn)
    simp only [nest, batchRule] at h ⊢
    by_cases hm : (axs.map (·.headD none)).all (·.isNone) = true
    · rw [if_pos hm] at h ⊢
      dsimp only at h ⊢
      obtain ⟨os, h1, h2⟩ := ih P hP h
      refine ⟨os, ?_, ?_⟩
      · have e1 : (laneCotangent (none :: (nest ns P (axs.map (·.tail))).2) (i :: is) :
            Sym (Arr X) → Sym (Arr X)) = laneCotangent (nest ns P (axs.map (·.tail))).2 is := by
          funext c; exact laneCotangent_none _ _ _ c
        have e2 : List.zipWith (fun a t => laneInput a (i :: is) t) axs ins =
            List.zipWith (fun a t => laneInput a is t) (axs.map (·.tail)) ins := by
          rw [List.zipWith_map_left]
          apply zipWith_congr_mem
          intro a ha x
          rw [laneInput_cons, all_none hm ha, laneI_none]
        rw [e1, e2, h1]
      · have e1 : (seen (none :: (nest ns P (axs.map (·.tail))).2) :
            Sym (Arr X) → Sym (Arr X)) = seen (nest ns P (axs.map (·.tail))).2 := by
          funext c; exact seen_none _ c
        rw [e1, ← h2, List.zipWith_map_left]
        apply zipWith_congr_mem
        intro a ha o
        congr 1
        funext x
        rw [lane_cons, all_none hm ha]
        rfl
    · rw [if_neg hm] at h ⊢
      dsimp only at h ⊢
      obtain ⟨os1, h1, h2⟩ := ih _ (fun _ _ _ h => (trOf_vprim_ok h).1) h
      obtain ⟨os, l1, l2, l3, l4⟩ := trOf_lane hR hi h1
      refine ⟨os, ?_, ?_⟩
      · rw [← l1, List.map_map, zipWith_assoc]
        congr 1
        · congr 1
          funext c
          exact laneCotangent_some _ _ _ c
        · apply zipWith_congr_mem
          intro a _ x
          rw [laneInput_cons]
      · have e1 : (seen (some 0 :: (nest ns (.vprim P n (axs.map (·.headD none)))
            (axs.map (·.tail))).2) : Sym (Arr X) → Sym (Arr X)) = dropZero := by
          funext c; exact seen_some _ _ c
        have e2 : os1.map (seen (nest ns (.vprim P n (axs.map (·.headD none)))
            (axs.map (·.tail))).2) = os1 := by
          have : ∀ o ∈ os1, seen (nest ns (.vprim P n (axs.map (·.headD none)))
            (axs.map (·.tail))).2 o = id o := fun o ho =>
              seen_noZero _ ((trOf_vprim_ok h1).2 o ho)
          rw [List.map_congr_left this]
          simp
        rw [e1, ← l2, ← e2, ← h2, zipWith_assoc]
        apply zipWith_congr_mem
        intro a _ o
        rw [Sym.map_map]
        congr 1
        funext x
        rw [lane_cons]

/-- **Cotangents.**  If transposing the bound equation succeeds, then the cotangent of an input
is, in each lane (along the axes at which that input is mapped), the cotangent that the transpose
rule gives on that lane of the cotangents and inputs. -/
theorem vprim_transpose (hR : R.Lawful) (hC : R.Cotangents) {ns is : List Nat} (b : B)
    {axs : List (List (Option Nat))} {cts : List (Sym (Arr X))} {ins : List (Inp (Arr X))}
    {outs : List (Sym (Arr X))} (hi : InRange is ns) (hl : axs.length = ins.length)
    (hn : ∀ a ∈ axs, a.length = ns.length)
    (h : trOf R (nest ns (.base b) axs).1 cts ins = .ok outs) :
    List.zipWith (fun a (o : Sym (Arr X)) => o.map (lane a is)) axs outs =
      (R.tr b (cts.map (laneCotangent (nest ns (.base b) axs).2 is))
        (List.zipWith (fun a x => laneInput a is x) axs ins)).map
        (seen (nest ns (.base b) axs).2) := by
  obtain ⟨os, h1, h2⟩ := tr_nest_aux hR ns (.base b) axs is hi hl hn (by
    intro cts ins outs h
    simp only [trOf, Except.ok.injEq] at h
    subst h
    have := (hC b (cts.map (Sym.map (·.shape))) (ins.map (Inp.map (·.shape)))).1
    rw [← hR.tr] at this
    simpa using this) h
  simp only [trOf, Except.ok.injEq] at h1
  rw [h2, h1]

/-! ### When transposing succeeds -/

/-- The axes of an input of shape `s` exist and have the sizes of the levels. -/
def Sized : List Nat → List (Option Nat) → Shape → Prop
  | n :: ns, ax :: a, s => Sized ns a s ∧ ∀ b, ax = some b → (laneShape a s)[b]? = some n
  | _, _, _ => True

def laneInputK (a : List (Option Nat)) : Inp Shape → Inp Shape
  | .undef s => .undef (laneShape a s)
  | .known s => .known (laneShape a s)

def laneCotangentK (o : List (Option Nat)) (c : Sym Shape) : Sym Shape :=
  (seen o c).map (laneShape o)

/-- Some cotangent belongs to an input which is not mapped at a level that maps another input. -/
def Unmapped (ks : List (Sym Shape)) (axs : List (List (Option Nat))) (o : List (Option Nat)) : Prop :=
  ∃ (j k : Nat) (s : Shape) (a : List (Option Nat)), ks[j]? = some (.arr s) ∧ axs[j]? = some a ∧
    a[k]? = some none ∧ o[k]? = some (some 0)

theorem insert_erase {A : Type} : ∀ (b : Nat) (s : List A) (n : A), s[b]? = some n →
    (s.eraseIdx b).insertIdx b n = s
  | _, [], _, h => by simp at h
  | 0, x :: s, n, h => by
    simp only [List.getElem?_cons_zero, Option.some.injEq] at h
    simp [h]
  | b + 1, x :: s, n, h => by
    simp only [List.getElem?_cons_succ] at h
    simp [insert_erase b s n h]

theorem outAxes_error {n : Nat} : ∀ {ks : List (Sym Shape)} {axes : List (Option Nat)} {e : Err},
    outAxes n ks axes = .error e → e = .valueError
  | [], [], _, h => by simp [outAxes] at h
  | [], _ :: _, _, h => by simp [outAxes] at h; exact h.symm
  | _ :: _, [], _, h => by simp [outAxes] at h; exact h.symm
  | k :: ks, ax :: axes, e, h => by
    have key : ∀ (o : Sym Shape), (do
          let os ← outAxes n ks axes
          pure (o :: os) : Except Err _) = .error e → e = .valueError := by
      intro o ho
      cases hr : outAxes n ks axes with
      | error e' =>
        rw [hr] at ho
        cases ho
        exact outAxes_error hr
      | ok os => rw [hr] at ho; cases ho
    cases k with
    | none => exact key _ h
    | zero s => exact key _ h
    | arr s =>
      cases ax with
      | none => cases h; rfl
      | some b =>
        by_cases hb : b ≤ s.length
        · simp only [outAxes, hb, if_true] at h
          exact key _ h
        · simp only [outAxes, hb, if_false] at h
          cases h
          rfl

theorem level_ok {n : Nat} : ∀ (ks : List (Sym Shape)) (axes : List (Option Nat))
    (ins : List (Inp Shape)), axes.length = ins.length → ks.length = ins.length →
    (∀ (j : Nat) (s : Shape), ks[j]? = some (.arr s) →
      (List.zipWith laneIK axes ins)[j]? = some (.undef s)) →
    (∀ (j : Nat) (s : Shape) (b : Nat), ins[j]? = some (.undef s) → axes[j]? = some (some b) →
      s[b]? = some n) →
    (∀ (j : Nat) (s : Shape), ks[j]? = some (.arr s) → axes[j]? ≠ some none) →
    ∃ outs, outAxes n (ks.map dropZero) axes = .ok outs ∧ checkOuts ins outs = .ok ()
  | [], [], [], _, _, _, _, _ => ⟨[], rfl, rfl⟩
  | k :: ks, ax :: axes, x :: ins, h1, h2, h3, h4, h5 => by
    obtain ⟨outs, e1, e2⟩ := level_ok (n := n) ks axes ins (by simpa using h1) (by simpa using h2)
      (fun j s h => by simpa using h3 (j + 1) s (by simpa using h))
      (fun j s b h h' => h4 (j + 1) s b (by simpa using h) (by simpa using h'))
      (fun j s h => by simpa using h5 (j + 1) s (by simpa using h))
    have hnone : ∀ k, dropZero k = .none →
        ∃ outs, outAxes n ((k :: ks).map dropZero) (ax :: axes) = .ok outs ∧
          checkOuts (x :: ins) outs = .ok () := by
      intro k hk
      refine ⟨.none :: outs, ?_, ?_⟩
      · simp only [List.map_cons, hk, outAxes, e1]
        rfl
      · simp only [checkOuts, e2]
    cases k with
    | none => exact hnone _ rfl
    | zero s => exact hnone _ rfl
    | arr s =>
      have hx := h3 0 s rfl
      have hax := h5 0 s rfl
      cases ax with
      | none => simp at hax
      | some b =>
        cases x with
        | known _ => simp [laneIK] at hx
        | undef s0 =>
          simp only [List.zipWith_cons_cons, laneIK, List.getElem?_cons_zero, Option.some.injEq,
            Inp.undef.injEq, Shape.mapped] at hx
          have hs := h4 0 s0 b rfl rfl
          have hlt := (List.getElem?_eq_some_iff.1 hs).1
          have hb : b ≤ s.length := by
            rw [← hx, List.length_eraseIdx_of_lt hlt]
            omega
          have he : s.insertIdx b n = s0 := by rw [← hx]; exact insert_erase b s0 n hs
          refine ⟨.arr s0 :: outs, ?_, ?_⟩
          · simp only [List.map_cons, dropZero, outAxes, hb, if_true, e1, he]
            rfl
          · simp only [checkOuts, if_true, e2]
  | [], [], _ :: _, h1, _, _, _, _ => by simp at h1
  | [], _ :: _, [], h1, _, _, _, _ => by simp at h1
  | [], _ :: _, _ :: _, _, h2, _, _, _ => by simp at h2
  | _ :: _, [], [], _, h2, _, _, _ => by simp at h2
  | _ :: _, [], _ :: _, h1, _, _, _, _ => by simp at h1
  | _ :: _, _ :: _, [], h1, _, _, _, _ => by simp at h1

theorem vprim_cotangents {P : Prim B} {n : Nat} {axes : List (Option Nat)} {cts : List (Sym Shape)}
    {ins : List (Inp Shape)} {outs : List (Sym Shape)}
    (h : trAbsOf R (.vprim P n axes) cts ins = .ok outs) :
    outs.length = ins.length ∧
    ∀ (j : Nat) (s : Shape), outs[j]? = some (.arr s) → ins[j]? = some (.undef s) := by
  obtain ⟨ks, h1, h2, h3⟩ := trAbsOf_vprim_ok h
  obtain ⟨c1, c2⟩ := checkOuts_ok h3
  refine ⟨c1, ?_⟩
  intro j s hj
  rcases c2 j _ hj with e | ⟨s', e, e'⟩
  · cases e
  · cases e
    exact e'

/-- One level. -/
theorem level {P : Prim B} {n : Nat} {axes : List (Option Nat)} {cts : List (Sym Shape)}
    {ins : List (Inp Shape)} {ks : List (Sym Shape)}
    (hks : trAbsOf R P (cts.map laneCK) (List.zipWith laneIK axes ins) = .ok ks)
    (h1 : axes.length = ins.length) (h2 : ks.length = ins.length)
    (h3 : ∀ (j : Nat) (s : Shape), ks[j]? = some (.arr s) →
      (List.zipWith laneIK axes ins)[j]? = some (.undef s))
    (h4 : ∀ (j : Nat) (s : Shape) (b : Nat), ins[j]? = some (.undef s) → axes[j]? = some (some b) →
      s[b]? = some n) :
    ((∃ (j : Nat) (s : Shape), ks[j]? = some (.arr s) ∧ axes[j]? = some none) ∧
      trAbsOf R (.vprim P n axes) cts ins = .error .valueError) ∨
    ((∀ (j : Nat) (s : Shape), ks[j]? = some (.arr s) → axes[j]? ≠ some none) ∧
      ∃ outs, trAbsOf R (.vprim P n axes) cts ins = .ok outs ∧
        ∀ j : Nat, (∃ s, outs[j]? = some (.arr s)) ↔ ∃ s, ks[j]? = some (.arr s)) := by
  by_cases hb : ∃ (j : Nat) (s : Shape), ks[j]? = some (.arr s) ∧ axes[j]? = some none
  · left
    refine ⟨hb, ?_⟩
    rw [trAbsOf_vprim, hks]
    obtain ⟨j, s, e1, e2⟩ := hb
    cases ho : outAxes n (ks.map dropZero) axes with
    | error e =>
      simp only [bind, Except.bind, ho]
      rw [outAxes_error ho]
    | ok outs =>
      exfalso
      obtain ⟨b, e3, _⟩ := (outAxes_ok ho).2.2 j (.arr s) (by rw [List.getElem?_map, e1]; rfl)
      rw [e2] at e3
      cases e3
  · right
    have hb' : ∀ (j : Nat) (s : Shape), ks[j]? = some (.arr s) → axes[j]? ≠ some none :=
      fun j s h h' => hb ⟨j, s, h, h'⟩
    refine ⟨hb', ?_⟩
    obtain ⟨outs, e1, e2⟩ := level_ok (n := n) ks axes ins h1 h2 h3 h4 hb'
    refine ⟨outs, ?_, ?_⟩
    · rw [trAbsOf_vprim, hks]
      simp only [bind, Except.bind, e1, e2, pure, Except.pure]
    · obtain ⟨l1, l2, l3⟩ := outAxes_ok e1
      intro j
      constructor
      · rintro ⟨s, hs⟩
        have hlt : j < ks.length := by
          have := (List.getElem?_eq_some_iff.1 hs).1
          rw [l1] at this
          simpa using this
        have hg := l3 j (dropZero ks[j]) (by
          rw [List.getElem?_map, List.getElem?_eq_getElem hlt]; rfl)
        rw [List.getElem?_eq_getElem hlt]
        cases hk : ks[j] with
        | arr s => exact ⟨s, rfl⟩
        | none => rw [hk, hs] at hg; simp [dropZero, OutRel] at hg
        | zero s => rw [hk, hs] at hg; simp [dropZero, OutRel] at hg
      · rintro ⟨s, hs⟩
        obtain ⟨b, _, _, e⟩ := l3 j (.arr s) (by rw [List.getElem?_map, hs]; rfl)
        exact ⟨_, e⟩

theorem laneInputK_cons (a : List (Option Nat)) (t : Inp Shape) :
    laneInputK a t = laneIK (a.headD none) (laneInputK a.tail t) := by
  cases t <;> (simp only [laneInputK, laneIK]; rw [laneShape_cons])

theorem laneIK_none (t : Inp Shape) : laneIK none t = t := by
  cases t <;> rfl

theorem laneCotangentK_some (o : List (Option Nat)) (c : Sym Shape) :
    laneCotangentK (some 0 :: o) c = laneCK (laneCotangentK o c) := by
  have e : dropZero ((seen o c).map (laneShape o)) = (dropZero (seen o c)).map (laneShape o) := by
    cases seen o c <;> rfl
  simp only [laneCotangentK, laneCK, seen_some, e, seen_idem, Sym.map_map]
  rfl

theorem laneCotangentK_none (o : List (Option Nat)) (c : Sym Shape) :
    laneCotangentK (none :: o) c = laneCotangentK o c := by
  simp only [laneCotangentK, seen_none]
  congr 1

/-- What happens at the bottom of the nest, given what happens to a lane. -/
def Outcome (Q : Except Err (List (Sym Shape))) (axs : List (List (Option Nat)))
    (o : List (Option Nat)) (r : Except Err (List (Sym Shape))) : Prop :=
  (Q = .error .valueError → r = .error .valueError) ∧
  ∀ ks, Q = .ok ks → (Unmapped ks axs o ∧ r = .error .valueError) ∨
    (¬ Unmapped ks axs o ∧ ∃ outs, r = .ok outs)

theorem get_zip {A C D : Type} {f : A → C → D} {l : List A} {m : List C} {j : Nat} {d : D}
    (h : (List.zipWith f l m)[j]? = some d) : ∃ a c, l[j]? = some a ∧ m[j]? = some c ∧ d = f a c := by
  rw [List.getElem?_zipWith] at h
  cases h1 : l[j]? with
  | none => rw [h1] at h; cases h
  | some a =>
    cases h2 : m[j]? with
    | none => rw [h1, h2] at h; cases h
    | some c =>
      rw [h1, h2] at h
      cases h
      exact ⟨a, c, rfl, rfl, rfl⟩

theorem outcome_aux {cts : List (Sym Shape)} {ins : List (Inp Shape)} :
    ∀ (ns : List Nat) (P : Prim B) (axs : List (List (Option Nat))),
    axs.length = ins.length → (∀ a ∈ axs, a.length = ns.length) →
    (∀ (j : Nat) (a : List (Option Nat)) (s : Shape), axs[j]? = some a → ins[j]? = some (.undef s) →
      Sized ns a s) →
    (∀ cts ins outs, trAbsOf R P cts ins = .ok outs → outs.length = ins.length ∧
      ∀ (j : Nat) (s : Shape), outs[j]? = some (.arr s) → ins[j]? = some (.undef s)) →
    Outcome (trAbsOf R P (cts.map (laneCotangentK (nest ns P axs).2))
        (List.zipWith laneInputK axs ins)) axs (nest ns P axs).2
      (trAbsOf R (nest ns P axs).1 cts ins)
  | [], P, axs, hl, hn, hs, hP => by
    simp only [nest]
    have e1 : List.zipWith laneInputK axs ins = ins := by
      rw [zipWith_congr_mem (g := fun _ t => t) axs ins, zipWith_snd (fun x => x) axs ins hl]
      · simp
      · intro a ha t
        have := hn a ha
        cases a with
        | nil => cases t <;> rfl
        | cons _ _ => simp at this
    have e2 : (laneCotangentK [] : Sym Shape → Sym Shape) = fun c => c := by
      funext c
      cases c <;> rfl
    rw [e1, e2]
    simp only [List.map_id_fun', id_eq]
    refine ⟨fun h => h, fun ks h => .inr ⟨?_, ks, h⟩⟩
    rintro ⟨j, k, s, a, _, _, _, h⟩
    simp at h
  | n :: ns, P, axs, hl, hn, hs, hP => by
    have htail : ∀ (j : Nat) (a : List (Option Nat)) (s : Shape), (axs.map (·.tail))[j]? = some a →
        ins[j]? = some (.undef s) → Sized ns a s := by
      intro j a s ha hin
      rw [List.getElem?_map] at ha
      cases ha' : axs[j]? with
      | none => rw [ha'] at ha; cases ha
      | some a' =>
        rw [ha'] at ha
        cases ha
        have h1 := hs j a' s ha' hin
        have h2 := hn a' (List.mem_of_getElem? ha')
        cases a' with
        | nil => simp at h2
        | cons ax a' => exact h1.1
    have ih := fun P1 => outcome_aux (cts := cts) (ins := ins) ns P1 (axs.map (·.tail))
      (by simpa using hl) (tail_length hn) htail
    simp only [nest, batchRule]
    by_cases hm : (axs.map (·.headD none)).all (·.isNone) = true
    · rw [if_pos hm]
      dsimp only
      obtain ⟨i1, i2⟩ := ih P hP
      have e1 : (laneCotangentK (none :: (nest ns P (axs.map (·.tail))).2) :
          Sym Shape → Sym Shape) = laneCotangentK (nest ns P (axs.map (·.tail))).2 := by
        funext c; exact laneCotangentK_none _ c
      have e2 : List.zipWith laneInputK axs ins =
          List.zipWith laneInputK (axs.map (·.tail)) ins := by
        rw [List.zipWith_map_left]
        apply zipWith_congr_mem
        intro a ha x
        rw [laneInputK_cons, all_none hm ha, laneIK_none]
      have e3 : ∀ ks, Unmapped ks axs (none :: (nest ns P (axs.map (·.tail))).2) ↔
          Unmapped ks (axs.map (·.tail)) (nest ns P (axs.map (·.tail))).2 := by
        intro ks
        constructor
        · rintro ⟨j, k, s, a, u1, u2, u3, u4⟩
          cases k with
          | zero => simp at u4
          | succ k =>
            exact ⟨j, k, s, a.tail, u1, by rw [List.getElem?_map, u2]; rfl, by simpa using u3,
              by simpa using u4⟩
        · rintro ⟨j, k, s, a, u1, u2, u3, u4⟩
          rw [List.getElem?_map] at u2
          cases ha : axs[j]? with
          | none => rw [ha] at u2; cases u2
          | some a' =>
            rw [ha] at u2
            cases u2
            exact ⟨j, k + 1, s, a', u1, ha, by simpa using u3, by simpa using u4⟩
      rw [e1, e2]
      refine ⟨i1, fun ks hks => ?_⟩
      rw [e3]
      exact i2 ks hks
    · rw [if_neg hm]
      dsimp only
      obtain ⟨i1, i2⟩ := ih (.vprim P n (axs.map (·.headD none))) fun _ _ _ h => vprim_cotangents h
      generalize ho : (nest ns (.vprim P n (axs.map (·.headD none))) (axs.map (·.tail))).2 = o at *
      generalize (trAbsOf R (nest ns (.vprim P n (axs.map (·.headD none))) (axs.map (·.tail))).1
        cts ins) = r at *
      have e1 : cts.map (laneCotangentK (some 0 :: o)) = (cts.map (laneCotangentK o)).map laneCK := by
        rw [List.map_map]
        congr 1
        funext c; exact laneCotangentK_some _ c
      have e2 : List.zipWith laneInputK axs ins = List.zipWith laneIK (axs.map (·.headD none))
          (List.zipWith laneInputK (axs.map (·.tail)) ins) := by
        rw [zipWith_assoc]
        apply zipWith_congr_mem
        intro a _ x
        rw [laneInputK_cons]
      rw [e1, e2]
      constructor
      · intro h
        apply i1
        rw [trAbsOf_vprim, h]
        rfl
      · intro ks hks
        obtain ⟨p1, p2⟩ := hP _ _ _ hks
        have hlen : (List.zipWith laneInputK (axs.map (·.tail)) ins).length = ins.length := by
          simp [hl]
        have hlen' : (List.zipWith laneIK (axs.map (·.headD none))
            (List.zipWith laneInputK (axs.map (·.tail)) ins)).length = ins.length := by
          simp [hl]
        rcases level hks (by rw [hlen]; simpa using hl) (by rw [hlen, p1, hlen']) p2 (by
            intro j s b h h'
            obtain ⟨a, x, g1, g2, g3⟩ := get_zip h
            rw [List.getElem?_map] at g1 h'
            cases ha : axs[j]? with
            | none => rw [ha] at h'; cases h'
            | some a' =>
              rw [ha] at g1 h'
              simp only [Option.map_some, Option.some.injEq] at g1 h'
              cases x with
              | known _ => cases g3
              | undef s0 =>
                simp only [laneInputK, Inp.undef.injEq] at g3
                subst g3 g1
                have h1 := hs j a' s0 ha g2
                have h2 := hn a' (List.mem_of_getElem? ha)
                cases a' with
                | nil => simp at h2
                | cons ax a' => exact h1.2 b (by simpa using h')) with ⟨⟨j, s, u1, u2⟩, he⟩ | ⟨hb, outs, he, hiff⟩
        · left
          refine ⟨?_, i1 he⟩
          rw [List.getElem?_map] at u2
          cases ha : axs[j]? with
          | none => rw [ha] at u2; cases u2
          | some a =>
            rw [ha] at u2
            have h2 := hn a (List.mem_of_getElem? ha)
            cases a with
            | nil => simp at h2
            | cons ax a =>
              simp at u2
              exact ⟨j, 0, s, ax :: a, u1, ha, by simp [u2], rfl⟩
        · have e3 : Unmapped ks axs (some 0 :: o) ↔ Unmapped outs (axs.map (·.tail)) o := by
            constructor
            · rintro ⟨j, k, s, a, u1, u2, u3, u4⟩
              cases k with
              | zero =>
                exfalso
                apply hb j s u1
                rw [List.getElem?_map, u2]
                cases a with
                | nil => simp at u3
                | cons ax a => simpa using u3
              | succ k =>
                obtain ⟨s', hs'⟩ := (hiff j).2 ⟨s, u1⟩
                exact ⟨j, k, s', a.tail, hs', by rw [List.getElem?_map, u2]; rfl, by simpa using u3,
                  by simpa using u4⟩
            · rintro ⟨j, k, s, a, u1, u2, u3, u4⟩
              rw [List.getElem?_map] at u2
              cases ha : axs[j]? with
              | none => rw [ha] at u2; cases u2
              | some a' =>
                rw [ha] at u2
                cases u2
                obtain ⟨s', hs'⟩ := (hiff j).1 ⟨s, u1⟩
                exact ⟨j, k + 1, s', a', hs', ha, by simpa using u3, by simpa using u4⟩
          rw [e3]
          exact i2 outs he

/-- **Which transposes succeed.**  With a rule that gives cotangents of the right shapes to the
undefined inputs, transposing the bound equation fails exactly if it gives one to an input which
is not mapped at some level that maps another input; the error is a `ValueError`. -/
theorem vprim_transpose_raises (hR : R.Lawful) (hC : R.Cotangents) {ns : List Nat} (b : B)
    {axs : List (List (Option Nat))} {cts : List (Sym (Arr X))} {ins : List (Inp (Arr X))}
    (hl : axs.length = ins.length) (hn : ∀ a ∈ axs, a.length = ns.length)
    (hs : ∀ (j : Nat) (a : List (Option Nat)) (s : Shape), axs[j]? = some a →
      ins[j]? = some (.undef s) → Sized ns a s) :
    (Unmapped (R.trAbs b ((cts.map (Sym.map (·.shape))).map (laneCotangentK (nest ns (.base b) axs).2))
        (List.zipWith laneInputK axs (ins.map (Inp.map (·.shape))))) axs (nest ns (.base b) axs).2 ∧
      trOf R (nest ns (.base b) axs).1 cts ins = .error .valueError) ∨
    (¬ Unmapped (R.trAbs b ((cts.map (Sym.map (·.shape))).map (laneCotangentK (nest ns (.base b) axs).2))
        (List.zipWith laneInputK axs (ins.map (Inp.map (·.shape))))) axs (nest ns (.base b) axs).2 ∧
      ∃ outs, trOf R (nest ns (.base b) axs).1 cts ins = .ok outs) := by
  have h := (outcome_aux (R := R) (cts := cts.map (Sym.map (·.shape)))
    (ins := ins.map (Inp.map (·.shape))) ns (.base b) axs (by simpa using hl) hn (by
      intro j a s ha hj
      rw [List.getElem?_map] at hj
      cases hi : ins[j]? with
      | none => rw [hi] at hj; cases hj
      | some x =>
        rw [hi] at hj
        cases x with
        | known _ => simp [Inp.map] at hj
        | undef s' =>
          simp only [Inp.map, Option.map_some, Option.some.injEq, Inp.undef.injEq] at hj
          subst hj
          exact hs j a s' ha hi) (by
      intro cts ins outs h
      simp only [trAbsOf, Except.ok.injEq] at h
      subst h
      exact hC b cts ins)).2 _ rfl
  have hk := trOf_kinds hR (nest ns (.base b) axs).1 cts ins
  rcases h with ⟨h1, h2⟩ | ⟨h1, outs, h2⟩
  · left
    refine ⟨h1, ?_⟩
    rw [h2] at hk
    cases ht : trOf R (nest ns (.base b) axs).1 cts ins with
    | ok _ => rw [ht] at hk; cases hk
    | error e => rw [ht] at hk; cases hk; rfl
  · right
    refine ⟨h1, ?_⟩
    rw [h2] at hk
    cases ht : trOf R (nest ns (.base b) axs).1 cts ins with
    | ok outs => exact ⟨outs, rfl⟩
    | error e => rw [ht] at hk; cases hk

end

/-! ### A case: elementwise `x * y`, linear in `x` -/

/-- The product of two arrays as an array of shape `s`. -/
def caseMul (s : Shape) (x y : Arr Int) : Arr Int where
  shape := s
  val idx := if idx.length = s.length then
    (x.val idx).bind fun a => (y.val idx).map fun b => a * b else none
  rank := by intro idx h; simp [h]

/-- An array with the elements `f idx`. -/
def caseArr (s : Shape) (f : List Nat → Int) : Arr Int where
  shape := s
  val idx := if idx.length = s.length then some (f idx) else none
  rank := by intro idx h; simp [h]

def caseImpl : List (Arr Int) → List (Arr Int)
  | [x, y] => [caseMul x.shape x y]
  | _ => []

def caseAbs : List Shape → List Shape
  | [s, _] => [s]
  | _ => []

def caseJvp : List (Arr Int) → List (Sym (Arr Int)) → List (Sym (Arr Int))
  | [_, y], [.arr t, _] => [.arr (caseMul t.shape t y)]
  | [x, _], _ => [.zero x.shape]
  | _, _ => []

def caseJvpAbs : List Shape → List (Sym Shape) → List (Sym Shape)
  | [_, _], [.arr t, _] => [.arr t]
  | [s, _], _ => [.zero s]
  | _, _ => []

def caseTr : List (Sym (Arr Int)) → List (Inp (Arr Int)) → List (Sym (Arr Int))
  | [.arr c], [.undef s, .known y] => [.arr (caseMul s c y), .none]
  | _, ins => ins.map fun _ => .none

def caseTrAbs : List (Sym Shape) → List (Inp Shape) → List (Sym Shape)
  | [.arr _], [.undef s, .known _] => [.arr s, .none]
  | _, ins => ins.map fun _ => .none

def caseRules : Rules Unit Int where
  impl _ := caseImpl
  abs _ := caseAbs
  jvp _ xs ts := (caseImpl xs, caseJvp xs ts)
  jvpAbs _ := caseJvpAbs
  tr _ := caseTr
  trAbs _ := caseTrAbs

theorem caseImpl_shape (xs : List (Arr Int)) :
    (caseImpl xs).map (·.shape) = caseAbs (xs.map (·.shape)) := by
  match xs with
  | [] | [_] | [_, _] | _ :: _ :: _ :: _ => rfl

theorem caseRules_lawful : caseRules.Lawful where
  abs _ xs := caseImpl_shape xs
  jvp1 _ xs _ := caseImpl_shape xs
  jvp2 _ xs ts := by
    show (caseJvp xs ts).map _ = caseJvpAbs _ _
    match xs with
    | [] | [_] | _ :: _ :: _ :: _ => rfl
    | [x, y] =>
      match ts with
      | [] => rfl
      | [t] => cases t <;> rfl
      | [t, u] => cases t <;> rfl
      | t :: _ :: _ :: _ => cases t <;> rfl
  tr _ cts ins := by
    have key : ∀ ins : List (Inp (Arr Int)), (ins.map fun _ => (Sym.none : Sym (Arr Int))).map
        (Sym.map (·.shape)) = (ins.map (Inp.map (·.shape))).map fun _ => (Sym.none : Sym Shape) := by
      intro ins
      simp only [List.map_map]
      rfl
    show (caseTr cts ins).map _ = caseTrAbs _ _
    match cts with
    | [] => exact key ins
    | [.none] => exact key ins
    | [.zero _] => exact key ins
    | c :: _ :: _ => cases c <;> exact key ins
    | [.arr c] =>
      match ins with
      | [] => rfl
      | [x] => cases x <;> rfl
      | [.undef s, .known y] => rfl
      | [.undef s, .undef y] => rfl
      | [.known s, y] => cases y <;> rfl
      | x :: y :: z :: ins =>
        cases x <;> cases y <;> exact key _

theorem caseRules_cotangents : caseRules.Cotangents := by
  intro _ cts ins
  show (caseTrAbs cts ins).length = _ ∧ ∀ (j : Nat) (s : Shape), (caseTrAbs cts ins)[j]? = _ → _
  unfold caseTrAbs
  split
  · refine ⟨rfl, ?_⟩
    intro j s h
    match j with
    | 0 => simp at h; simp [h]
    | 1 => simp at h
    | j + 2 => simp at h
  · refine ⟨by simp, ?_⟩
    intro j s h
    rw [List.getElem?_map] at h
    cases hj : ins[j]? with
    | none => rw [hj] at h; cases h
    | some x => rw [hj] at h; cases h

/-- Two levels of sizes 2 (inner) and 3 (outer).  `x` is mapped at both, along axes 1 and 0; `y`
at the outer one only, along axis 1. -/
def caseAxs : List (List (Option Nat)) := [[some 1, some 0], [none, some 1]]

def caseX : Arr Int := caseArr [3, 5, 2] fun idx => match idx with | [o, e, i] => 100 * o + 10 * e + i | _ => 0
def caseY : Arr Int := caseArr [5, 3] fun idx => match idx with | [e, o] => e + 7 * o | _ => 0

/-- The outputs are mapped along axis 0 at both levels, and have shape `(outer, inner, 5)`. -/
example : (nest [2, 3] (.base ()) caseAxs).2 = [some 0, some 0] ∧
    (implOf caseRules (nest [2, 3] (.base ()) caseAxs).1 [caseX, caseY]).map (·.shape) = [[3, 2, 5]] :=
  ⟨rfl, rfl⟩

/-- Lane `(inner 1, outer 2)` of the product. -/
example : (implOf caseRules (nest [2, 3] (.base ()) caseAxs).1 [caseX, caseY]).map
    (fun a => (lane [some 0, some 0] [1, 2] a).val [4]) = [some (241 * 18)] := rfl

example : InRange [1, 2] [2, 3] := .cons (by decide) (.cons (by decide) .nil)

/-- Transposing with `x` undefined: its cotangent has the shape of `x`. -/
example : (match trOf caseRules (nest [2, 3] (.base ()) caseAxs).1
      [.arr (caseArr [3, 2, 5] fun _ => 1)] [.undef [3, 5, 2], .known caseY] with
    | .ok [.arr o, .none] => some (o.shape, o.val [2, 4, 1])
    | _ => none) = some ([3, 5, 2], some 18) := rfl

example : Sized [2, 3] [some 1, some 0] [3, 5, 2] :=
  ⟨⟨trivial, by intro b h; cases h; rfl⟩, by intro b h; cases h; rfl⟩

/-- With `x` mapped at the inner level only there is a `ValueError`. -/
example : trOf caseRules (nest [2, 3] (.base ()) [[some 1, none], [none, some 1]]).1
    [.arr (caseArr [3, 2, 5] fun _ => 1)] [.undef [5, 2], .known caseY] = .error .valueError := rfl

end Verif.VPrim
