import Verif.Debug.AnnounceModel
import Verif.Filters.Props
import Verif.PyTree.Closed

/-! # C84: `announce_transform` changes nothing, and announces every transform -/

namespace Verif
namespace Announce

open PT Filters

variable {K V O : Type}

/-! ### Specification -/

/-- Every array is differentiated or batched by every transform around it, and so are the tangents. -/
def Full : (ts : List Trans) → List (Tr V ts) → Prop
  | [], _ => True
  | .vmap :: ts, xs => (∀ x ∈ xs, (Prod.snd x).isSome) ∧ Full ts (xs.map Prod.fst)
  | .jvp :: ts, xs =>
    (∀ x ∈ xs, (Prod.snd x).isSome) ∧ Full ts (xs.map Prod.fst) ∧ Full ts (xs.filterMap Prod.snd)

/-- What is announced of one call in a nest of transforms. `vmap` makes of it a batched call; `jvp` makes of it one for primals and one for
tangents; `e` is what happens at the end. With `all`, the transforms are announced as they happen. -/
def announced (all : Bool) (e : String) : List Trans → List (List String)
  | [] => [[e]]
  | .vmap :: ts => (if all then [["vmap"]] else []) ++ (announced all e ts).map fun st => "vmap" :: st
  | .jvp :: ts =>
    (if all then [["jvp"]] else []) ++
      ((announced all e ts).map (fun st => "jvp_p" :: st) ++ (announced all e ts).map fun st => "jvp_t" :: st)

/-- The words of a line, separated by colons, after the name in parentheses if there is one. -/
def line (name : Option String) (words : List String) : String :=
  (name.elim "" fun n => "(" ++ n ++ ") ") ++ ":".intercalate words

/-! ### Lemmas -/

theorem refill_self {β : Type} (ts : List (Option β)) : refill ts (ts.filterMap id) = .ok ts := by
  induction ts with
  | nil => rfl
  | cons t ts ih =>
    cases t with
    | none => simp [refill, ih, Bind.bind, Except.bind, pure, Except.pure]
    | some t => simp [refill, ih, Bind.bind, Except.bind, pure, Except.pure]

theorem zip_fst_snd {α β : Type} (xs : List (α × β)) : (xs.map Prod.fst).zip (xs.map Prod.snd) = xs := by
  induction xs with
  | nil => rfl
  | cons x xs ih => simp [ih]

theorem map_none {α β : Type} {xs : List (α × Option β)} (h : (xs.map Prod.snd).all Option.isNone = true) :
    (xs.map Prod.fst).map (fun v => (v, (Option.none : Option β))) = xs := by
  induction xs with
  | nil => rfl
  | cons x xs ih =>
    obtain ⟨a, b⟩ := x
    simp only [List.map_cons, List.all_cons, Bool.and_eq_true] at h
    rw [List.map_cons, List.map_cons, ih h.2]
    cases b with
    | none => rfl
    | some b => simp at h

/-- Binding returns its arguments. -/
theorem bind_vals (c : Cfg) (ts : List Trans) (st : List String) (xs : List (Tr V ts)) :
    ∃ log eqns, bind c ts st xs = .ok ⟨xs, log, eqns⟩ := by
  induction ts generalizing st with
  | nil =>
    simp only [bind]
    split <;> exact ⟨_, _, rfl⟩
  | cons t ts ih =>
    cases t with
    | vmap =>
      simp only [bind, Bind.bind, Except.bind, pure, Except.pure]
      split
      · rename_i h
        obtain ⟨l, e, h'⟩ := ih st (xs.map Prod.fst)
        rw [h']
        exact ⟨l, e, by simp only; rw [map_none h]⟩
      · obtain ⟨l, e, h'⟩ := ih (st ++ ["vmap"]) (xs.map Prod.fst)
        rw [h']
        exact ⟨_, e, by simp only; rw [zip_fst_snd]⟩
    | jvp =>
      simp only [bind, Bind.bind, Except.bind, pure, Except.pure]
      split
      · rename_i h
        obtain ⟨l, e, h'⟩ := ih st (xs.map Prod.fst)
        rw [h']
        exact ⟨l, e, by simp only; rw [map_none h]⟩
      · obtain ⟨l, e, h'⟩ := ih (st ++ ["jvp_p"]) (xs.map Prod.fst)
        obtain ⟨l2, e2, h2⟩ := ih (st ++ ["jvp_t"]) ((xs.map Prod.snd).filterMap id)
        rw [h', h2]
        exact ⟨_, _, by simp only [refill_self]; rw [zip_fst_snd]⟩

/-- What is announced. -/
theorem bind_log (c : Cfg) (ts : List Trans) (st : List String) (xs : List (Tr V ts)) (hx : xs ≠ []) (hf : Full ts xs) :
    ∃ eqns : List (List String), lower eqns = (announced false "mlir" ts).map (fun s => st ++ s) ∧
      bind c ts st xs = .ok (if c.jit then ⟨xs, (announced c.intermediates "abstract" ts).map (fun s => st ++ s), eqns⟩
        else ⟨xs, (announced c.intermediates "impl" ts).map (fun s => st ++ s), []⟩) := by
  induction ts generalizing st with
  | nil =>
    refine ⟨[st], by simp [lower, announced], ?_⟩
    cases hj : c.jit <;> simp [bind, hj, announced]
  | cons t ts ih =>
    have hall : ∀ {β : Type} (ys : List (Tr V ts × Option β)), ys ≠ [] → (∀ y ∈ ys, (Prod.snd y).isSome) →
        (ys.map Prod.snd).all Option.isNone = false := by
      intro β ys hne hs
      cases ys with
      | nil => exact absurd rfl hne
      | cons y ys =>
        have := hs y (by simp)
        simp [List.all_cons, Option.isNone_eq_false_iff.2 this]
    cases t with
    | vmap =>
      obtain ⟨h1, h2⟩ := hf
      have := hall xs hx h1
      simp only [bind, Bind.bind, Except.bind, pure, Except.pure, this, Bool.false_eq_true, if_false]
      obtain ⟨e, he, hb⟩ := ih (st ++ ["vmap"]) (xs.map Prod.fst) (by simpa using hx) h2
      refine ⟨e, by simp [he, announced, Function.comp_def], ?_⟩
      rw [hb]
      cases hj : c.jit <;> cases hi : c.intermediates <;> simp [note, hi, zip_fst_snd, announced, Function.comp_def]
    | jvp =>
      obtain ⟨h1, h2, h3⟩ := hf
      have := hall xs hx h1
      simp only [bind, Bind.bind, Except.bind, pure, Except.pure, this, Bool.false_eq_true, if_false]
      have he : (xs.map Prod.snd).filterMap id = xs.filterMap Prod.snd := by
        rw [List.filterMap_map]; rfl
      have hne : xs.filterMap Prod.snd ≠ [] := by
        cases xs with
        | nil => exact absurd rfl hx
        | cons y ys =>
          have := h1 y (by simp)
          obtain ⟨v, hv⟩ := Option.isSome_iff_exists.1 this
          intro hn
          rw [List.filterMap_cons, hv] at hn
          simp at hn
      obtain ⟨e1, he1, hb1⟩ := ih (st ++ ["jvp_p"]) (xs.map Prod.fst) (by simpa using hx) h2
      obtain ⟨e2, he2, hb2⟩ := ih (st ++ ["jvp_t"]) (xs.filterMap Prod.snd) hne h3
      refine ⟨e1 ++ e2, by simp only [lower, List.map_append] at *; rw [he1, he2]; simp [announced, Function.comp_def], ?_⟩
      rw [hb1, he, hb2]
      have hr : refill (xs.map Prod.snd) (xs.filterMap Prod.snd) = .ok (xs.map Prod.snd) := by rw [← he, refill_self]
      cases hj : c.jit
      · simp only [Bool.false_eq_true, if_false]
        rw [hr]
        cases hi : c.intermediates <;> simp [note, hi, zip_fst_snd, announced, Function.comp_def]
      · simp only [if_true]
        rw [hr]
        cases hi : c.intermediates <;> simp [note, hi, zip_fst_snd, announced, Function.comp_def]

theorem render_eq (name : Option String) : render name = line name := by
  funext st
  cases name <;> rfl

/-- The wrapper around `bind`. -/
theorem announceTransform_eq [DecidableEq K] (c : Cfg) (ts : List Trans) (name : Option String) (x : PT K (Leaf (Tr V ts) O)) {log eqns}
    (hb : bind c ts [] (x.leaves.filterMap Leaf.arr?) = .ok ⟨x.leaves.filterMap Leaf.arr?, log, eqns⟩) :
    announceTransform c ts name x = .ok (x, (log ++ lower eqns).map (render name)) := by
  have hpart := Filters.partition_callable_closed (K := K) (fun y : PT K (Leaf (Tr V ts) O) => isArr y) x
  simp only [announceTransform, hpart]
  generalize hl : withNones (x.map fun a => if isArr (.leaf a : PT K (Leaf (Tr V ts) O)) then some a else Option.none) = l at *
  generalize hr : withNones (x.map fun a => if isArr (.leaf a : PT K (Leaf (Tr V ts) O)) then Option.none else some a) = r at *
  have hll : l.leaves = x.leaves.filterMap fun a => if isArr (.leaf a : PT K (Leaf (Tr V ts) O)) then some a else Option.none := by
    rw [← hl, leaves_withNones]
  have hsame : l.leaves.filterMap Leaf.arr? = x.leaves.filterMap Leaf.arr? := by
    rw [hll, List.filterMap_filterMap]
    congr 1
    funext a
    cases a <;> simp [isArr, Leaf.arr?]
  rw [← hsame] at hb
  have hleaves : ∀ a ∈ l.leaves, ∃ v, a = Leaf.arr v := by
    intro a ha
    rw [hll] at ha
    obtain ⟨b, -, hb⟩ := List.mem_filterMap.1 ha
    cases b with
    | arr v => exact ⟨v, by simpa [isArr, eq_comm] using hb⟩
    | obj o => simp [isArr] at hb
  have hmap : (l.leaves.filterMap Leaf.arr?).map (fun v => (PT.leaf (Leaf.arr v) : PT K (Leaf (Tr V ts) O))) = l.leaves.map PT.leaf := by
    revert hleaves
    generalize l.leaves = ls
    intro h
    induction ls with
    | nil => rfl
    | cons a ls ih =>
      obtain ⟨v, rfl⟩ := h a (by simp)
      simp only [List.filterMap_cons, Leaf.arr?, List.map_cons]
      rw [ih fun b hb => h b (by simp [hb])]
  have hun : treeUnflatten l.shape (l.leaves.map PT.leaf) = .ok l := by
    have := treeUnflatten_shape (l.map fun a => PT.leaf a)
    rw [join_map_leaf, leaves_map, shape_map] at this
    exact this
  simp only [Bind.bind, Except.bind, pure, Except.pure, hb, hmap, hun]
  rw [(Filters.combine_partition hpart).1]

/-! ### Theorems -/

/-- **C84**: under any nest of `jvp`, `vmap` and `jit`, whatever is batched or differentiated, the argument comes back unchanged. -/
theorem announce_identity [DecidableEq K] (c : Cfg) (ts : List Trans) (name : Option String) (x : PT K (Leaf (Tr V ts) O)) :
    ∃ lines, announceTransform c ts name x = .ok (x, lines) := by
  obtain ⟨log, eqns, hb⟩ := bind_vals c ts [] (x.leaves.filterMap Leaf.arr?)
  exact ⟨_, announceTransform_eq c ts name x hb⟩

/-- **C84**: what is announced, if every array is batched and differentiated by every transform around. -/
theorem announce_lines [DecidableEq K] (c : Cfg) (ts : List Trans) (name : Option String) (x : PT K (Leaf (Tr V ts) O))
    (hx : ∃ v, Leaf.arr v ∈ x.leaves) (hf : Full ts (x.leaves.filterMap fun | .arr v => some v | .obj _ => Option.none)) :
    announceTransform c ts name x = .ok (x,
      if c.jit then (announced c.intermediates "abstract" ts).map (line name) ++ (announced false "mlir" ts).map (line name)
      else (announced c.intermediates "impl" ts).map (line name)) := by
  have hfun : (fun | .arr v => some v | .obj _ => Option.none : Leaf (Tr V ts) O → Option (Tr V ts)) = Leaf.arr? := by
    funext a; cases a <;> rfl
  rw [hfun] at hf
  have hne : x.leaves.filterMap Leaf.arr? ≠ [] := by
    obtain ⟨v, hv⟩ := hx
    exact List.ne_nil_of_mem (List.mem_filterMap.2 ⟨_, hv, rfl⟩)
  obtain ⟨e, he, hb⟩ := bind_log c ts [] _ hne hf
  cases hj : c.jit
  · rw [hj] at hb
    rw [announceTransform_eq c ts name x hb]
    simp [render_eq, lower]
  · rw [hj] at hb
    rw [announceTransform_eq c ts name x hb, he]
    simp [render_eq]

/-- **C84 (part)**: if one array is differentiated, reverse mode gives its cotangent unchanged, inside any nest. -/
theorem announce_reverse_partial (c : Cfg) (ts : List Trans) (xs : List (Tr V ts × Bool)) (ct : Tr V ts)
    (h : ∃ pre x post, xs = pre ++ (x, true) :: post ∧ (∀ y ∈ pre, y.2 = false) ∧ ∀ y ∈ post, y.2 = false) :
    reverse c ts xs [ct] = .ok (xs.map Prod.fst, [ct]) := by
  obtain ⟨pre, x, post, rfl, h1, h2⟩ := h
  have hany : (pre ++ (x, true) :: post).any Prod.snd = true := by simp
  have hfil : ((pre ++ (x, true) :: post).filter Prod.snd).map Prod.fst = [x] := by
    rw [List.filter_append, List.filter_cons, List.filter_eq_nil_iff.2 (by simpa using h1), List.filter_eq_nil_iff.2 (by simpa using h2)]
    rfl
  obtain ⟨l1, e1, hb1⟩ := bind_vals c ts ["jvp_p"] ((pre ++ (x, true) :: post).map Prod.fst)
  obtain ⟨l2, e2, hb2⟩ := bind_vals c ts (["jvp_t"] ++ ["transpose"]) [ct]
  simp only [reverse, hany, if_true, hfil, transpose, Bind.bind, Except.bind, pure, Except.pure, hb1, hb2]

/-- **C84 is false** of reverse mode if two or more arrays are differentiated: there is a `TypeError`, always. -/
theorem announce_reverse_fails (c : Cfg) (ts : List Trans) (xs : List (Tr V ts × Bool)) (cts : List (Tr V ts))
    (h : ∃ pre x mid y post, xs = pre ++ (x, true) :: mid ++ (y, true) :: post) : reverse c ts xs cts = .error .typeError := by
  obtain ⟨pre, x, mid, y, post, rfl⟩ := h
  have hany : (pre ++ (x, true) :: mid ++ (y, true) :: post).any Prod.snd = true := by simp
  obtain ⟨l1, e1, hb1⟩ := bind_vals c ts ["jvp_p"] ((pre ++ (x, true) :: mid ++ (y, true) :: post).map Prod.fst)
  have hlen : 2 ≤ (((pre ++ (x, true) :: mid ++ (y, true) :: post).filter Prod.snd).map Prod.fst).length := by
    simp only [List.length_map, List.filter_append, List.filter_cons, if_true, List.length_append, List.length_cons]
    omega
  simp only [reverse, hany, if_true, Bind.bind, Except.bind, hb1]
  generalize ((pre ++ (x, true) :: mid ++ (y, true) :: post).filter Prod.snd).map Prod.fst = l at hlen ⊢
  match l, hlen with
  | _ :: _ :: _, _ => rfl

/-- The two examples of the documentation, and a forward derivative of a batched function. -/
example : ∀ b, announced b "abstract" [.vmap] ++ announced false "mlir" [.vmap] =
    if b then [["vmap"], ["vmap", "abstract"], ["vmap", "mlir"]] else [["vmap", "abstract"], ["vmap", "mlir"]] := by
  intro b; cases b <;> rfl

example : announceTransform (K := Nat) (O := Nat) (V := Nat) ⟨false, false⟩ [.vmap, .jvp] (some "f")
    (.node 0 [.leaf (.arr ((3, some 4), some 0)), .leaf (.obj 7)]) =
    .ok (.node 0 [.leaf (.arr ((3, some 4), some 0)), .leaf (.obj 7)], ["(f) vmap:jvp_p:impl", "(f) vmap:jvp_t:impl"]) := by
  rw [announce_lines _ _ _ _ ⟨_, by simp [PT.leaves, PT.leavesL]; rfl⟩ (by simp [Full, PT.leaves, PT.leavesL])]
  rfl

example : reverse (V := Nat) ⟨false, false⟩ [.vmap] [((1, some 0), false), ((2, none), true)] [(5, some 0)] =
    .ok ([(1, some 0), (2, Option.none)], [(5, some 0)]) :=
  announce_reverse_partial _ _ _ _ ⟨[((1, some 0), false)], (2, none), [], rfl, by simp, by simp⟩

example : reverse (V := Nat) ⟨true, false⟩ [] [(1, true), (2, true)] [5, 6] = .error .typeError :=
  announce_reverse_fails _ _ _ _ ⟨[], 1, [], 2, [], rfl⟩

end Announce
end Verif
