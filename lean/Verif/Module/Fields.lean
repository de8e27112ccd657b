import Verif.Module.InitOnce

/-! # C94: the fields of a module

`equinox/_better_abstract.py:dataclass` (237-255) takes the abstract annotations out of a class body, lets
`dataclasses.dataclass` collect the fields, and puts the annotations back. The model is `collectFields`, `dataclassBody`
and `newClass` in `Verif/Module/Class.lean`. Here it is compared with a description that does not mention the collecting:
which names are fields, in which order (which is the order of the parameters of the generated `__init__` and of the leaves
of the flattened module), and whether a name is a field or a class variable. -/

namespace Verif.Module.Fields

open Enum (c3 nextHead dropHead)

variable {N : Type} [DecidableEq N] {magic abstractName : N → Bool}

/-! ### Specification -/

/-- What an annotation makes of a name: a field, a class variable, or (when abstract) nothing. -/
def Declares : Ann → Option Bool
  | .plain => some true
  | .classVar => some false
  | .abstractVar | .abstractClassVar | .malformed | .stringified => none

/-- The names a module declares in its own body, in order. Other classes declare none. -/
def declared (w : World N) (j : Nat) : List N :=
  match w[j]? with
  | some c => if c.kind = .module then (c.body.ann.filter fun p => (Declares p.2).isSome).map (·.1) else []
  | none => []

/-- What a module declares a name to be in its own body. -/
def ownKind (w : World N) (j : Nat) (n : N) : Option Bool :=
  match w[j]? with
  | some c => if c.kind = .module then (c.body.ann.get? n).bind Declares else none
  | none => none

/-- The first occurrences in a list, in order. -/
def firsts : List N → List N
  | [] => []
  | n :: l => n :: (firsts l).filter (fun m => m ≠ n)

/-! ### First occurrences -/

/-- Appending what is new. -/
def addAll (acc l : List N) : List N := l.foldl (fun a n => if n ∈ a then a else a ++ [n]) acc

theorem addAll_append (acc l m : List N) : addAll acc (l ++ m) = addAll (addAll acc l) m := by
  simp [addAll]

theorem addAll_eq (acc l : List N) : addAll acc l = acc ++ (firsts l).filter (fun n => n ∉ acc) := by
  induction l generalizing acc with
  | nil => simp [addAll, firsts]
  | cons n l ih =>
    have : addAll acc (n :: l) = addAll (if n ∈ acc then acc else acc ++ [n]) l := rfl
    rw [this, firsts]
    split
    · rename_i hn
      rw [ih, List.filter_cons, if_neg (by simpa using hn), List.filter_filter]
      congr 1
      refine List.filter_congr fun m _ => ?_
      by_cases hm : m = n
      · subst hm; simp [hn]
      · simp [hm]
    · rename_i hn
      rw [ih, List.filter_cons, if_pos (by simpa using hn), List.filter_filter, List.append_assoc]
      congr 1
      simp only [List.singleton_append, List.cons.injEq, true_and]
      refine List.filter_congr fun m _ => ?_
      by_cases hm : m = n
      · subst hm; simp
      · simp [hm]

theorem firsts_eq (l : List N) : firsts l = addAll [] l := by
  rw [addAll_eq, List.nil_append, eq_comm, List.filter_eq_self]
  simp

theorem mem_firsts (l : List N) (n : N) : n ∈ firsts l ↔ n ∈ l := by
  induction l with
  | nil => simp [firsts]
  | cons m l ih =>
    simp only [firsts, List.mem_cons, List.mem_filter, ih]
    by_cases h : n = m <;> simp [h]

theorem mem_addAll (acc l : List N) (n : N) : n ∈ addAll acc l ↔ n ∈ acc ∨ n ∈ l := by
  rw [addAll_eq, List.mem_append, List.mem_filter, mem_firsts]
  by_cases h : n ∈ acc <;> simp [h]

theorem addAll_of_subset {acc l : List N} (h : ∀ n ∈ l, n ∈ acc) : addAll acc l = acc := by
  rw [addAll_eq]
  have : (firsts l).filter (fun n => n ∉ acc) = [] := by
    rw [List.filter_eq_nil_iff]
    intro n hn
    simpa using h n ((mem_firsts l n).1 hn)
  rw [this, List.append_nil]

theorem firsts_idem (l : List N) : firsts (firsts l) = firsts l := by
  have key : ∀ (k : List N) , (firsts k).Nodup := by
    intro k
    induction k with
    | nil => simp [firsts]
    | cons a k ih =>
      rw [firsts, List.nodup_cons]
      exact ⟨by simp, ih.filter _⟩
  have self : ∀ (k : List N), k.Nodup → firsts k = k := by
    intro k hk
    induction k with
    | nil => rfl
    | cons a k ih =>
      rw [List.nodup_cons] at hk
      rw [firsts, ih hk.2]
      congr 1
      rw [List.filter_eq_self]
      intro b hb
      have : b ≠ a := fun h => hk.1 (h ▸ hb)
      simpa using this
  exact self _ (key l)

theorem addAll_firsts (acc l : List N) : addAll acc (firsts l) = addAll acc l := by
  rw [addAll_eq, addAll_eq, firsts_idem]

theorem keys_insert {V : Type} (d : Dict N V) (k : N) (v : V) :
    Dict.keys (d.insert k v) = if k ∈ Dict.keys d then Dict.keys d else Dict.keys d ++ [k] := by
  split
  · rename_i h; exact Dict.keys_insert_of_mem d k v h
  · rename_i h; exact Dict.keys_insert_of_not_mem d k v h

theorem keys_update {V : Type} (d e : Dict N V) : Dict.keys (d.update e) = addAll (Dict.keys d) (Dict.keys e) := by
  induction e generalizing d with
  | nil => rfl
  | cons p e ih =>
    have h1 : d.update (p :: e) = (d.insert p.1 p.2).update e := rfl
    rw [h1, ih, keys_insert]
    rfl

/-! ### Method resolution orders -/

theorem nextHead_tail {ls : List (List Nat)} {x : Nat} (h : nextHead ls = some x) : ∀ l ∈ ls, x ∉ l.tail := by
  have := List.find?_some h
  simpa using this

theorem not_mem_dropHead {x : Nat} {l : List Nat} (h : x ∉ l.tail) : x ∉ dropHead x l := by
  unfold dropHead
  split
  · exact h
  · rename_i hh
    cases l with
    | nil => simp
    | cons a l =>
      simp at hh h
      simp only [List.mem_cons, not_or]
      exact ⟨fun h' => hh h'.symm, h⟩

theorem c3_nodup {fuel : Nat} : ∀ {ls : List (List Nat)} {l : List Nat}, c3 fuel ls = some l → l.Nodup := by
  induction fuel with
  | zero =>
    intro ls l h
    simp only [c3] at h
    split at h
    · cases h; simp
    · cases h
  | succ fuel ih =>
    intro ls l h
    simp only [c3] at h
    split at h
    · cases h; simp
    · split at h
      · cases h
      · rename_i x hx
        cases hr : c3 fuel (ls.map (dropHead x)) with
        | none => rw [hr] at h; cases h
        | some r =>
          rw [hr] at h
          cases h
          rw [List.nodup_cons]
          refine ⟨fun hm => ?_, ih hr⟩
          rw [Enum.c3_mem _ _ _ hr] at hm
          obtain ⟨q, hq, hxq⟩ := hm
          obtain ⟨q', hq', rfl⟩ := List.mem_map.1 hq
          exact not_mem_dropHead (nextHead_tail hx q' hq') hxq

theorem nodup {w : World N} (h : Built magic abstractName w) {i : Nat} {c : Cls N} (hi : w[i]? = some c) : c.mro.Nodup := by
  induction h generalizing i c with
  | root name =>
    cases i with
    | zero => simp at hi; subst hi; simp [moduleCls]
    | succ i => simp at hi
  | @step w d c' hw hd hc ih =>
    rcases built_append hi with ⟨hlt, hi'⟩ | ⟨rfl, rfl⟩
    · exact ih hi'
    · obtain ⟨rest, h1, h2, h3, -, h4⟩ := newClass_mro hc
      rw [h1, List.nodup_cons]
      refine ⟨fun hm => ?_, c3_nodup h4⟩
      rw [Enum.c3_mem _ _ _ h4] at hm
      obtain ⟨q, hq, hjq⟩ := hm
      rw [List.mem_append] at hq
      rcases hq with hq | hq
      · obtain ⟨b, hbm, rfl⟩ := List.mem_map.1 hq
        have := mroOf_le hw _ hjq
        have := h3 b hbm
        omega
      · simp at hq; subst hq
        have := h3 _ hjq
        omega

/-- The order of an ancestor is kept. -/
theorem mro_sublist {w : World N} (h : Built magic abstractName w) {i : Nat} {c : Cls N} (hi : w[i]? = some c) {j : Nat}
    (hj : j ∈ c.mro) {cj : Cls N} (hcj : w[j]? = some cj) : cj.mro.Sublist c.mro := by
  induction i using Nat.strongRecOn generalizing c with
  | _ i ih =>
    by_cases hji : j = i
    · subst hji; rw [hi] at hcj; cases hcj; exact List.Sublist.refl _
    · obtain ⟨b, hb, hor⟩ := built_ancestor h hi hj hji
      have hlt := (built_lt h hi).1 b hb
      have hbl : b < w.length := by
        have : i < w.length := (List.getElem?_eq_some_iff.1 hi).1
        omega
      have hcb := List.getElem?_eq_getElem hbl
      have hs := mro_base h hi hb hcb
      rcases hor with rfl | hjb
      · rw [hcb] at hcj; cases hcj; exact hs
      · rw [mroOf_some hcb] at hjb
        exact (ih b hlt hcb hjb).trans hs

theorem sublist_after {b : Nat} {t u v : List Nat} (h : (b :: t).Sublist (u ++ b :: v)) (hb : b ∉ u) : t.Sublist v := by
  induction u with
  | nil => simpa using h
  | cons a u ih =>
    simp only [List.mem_cons, not_or] at hb
    rw [List.cons_append] at h
    cases h with
    | cons _ h => exact ih h hb.2
    | cons_cons => exact absurd rfl hb.1

/-! ### What the fields of a class are, in the final table -/

/-- A class statement as seen in any later table. -/
theorem fields_of {w : World N} (h : Built magic abstractName w) {i : Nat} {c : Cls N} (hi : w[i]? = some c) :
    ∃ rest, c.mro = i :: rest ∧ (∀ j ∈ rest, j < i) ∧
      c.fields = if c.kind = .module then collectFields w rest c.body.ann else [] := by
  induction h generalizing i c with
  | root name =>
    cases i with
    | zero => simp at hi; subst hi; exact ⟨[], rfl, by simp, by simp [moduleCls, collectFields]⟩
    | succ i => simp at hi
  | @step w d c' hw hd hc ih =>
    have lift : ∀ (rest : List Nat), (∀ j ∈ rest, j < w.length) → ∀ ann : Dict N Ann,
        collectFields (w ++ [c']) rest ann = collectFields w rest ann := by
      intro rest hr ann
      have : ∀ (l : List Nat), (∀ j ∈ l, j < w.length) → ∀ e : Dict N Bool,
          l.foldl (fun (d : Dict N Bool) c => match (w ++ [c'])[c]? with | some cls => d.update cls.fields | none => d) e =
          l.foldl (fun (d : Dict N Bool) c => match w[c]? with | some cls => d.update cls.fields | none => d) e := by
        intro l
        induction l with
        | nil => intro _ e; rfl
        | cons j l ihl =>
          intro hl e
          simp only [List.foldl_cons]
          rw [List.getElem?_append_left (hl j (by simp))]
          exact ihl (fun j hj => hl j (List.mem_cons_of_mem _ hj)) _
      exact congrArg (fun d => List.foldl _ d ann) (this rest.reverse (fun j hj => hr j (by simpa using hj)) [])
    rcases built_append hi with ⟨hlt, hi'⟩ | ⟨rfl, rfl⟩
    · obtain ⟨rest, h1, h2, h3⟩ := ih hi'
      refine ⟨rest, h1, h2, ?_⟩
      rw [lift rest (fun j hj => by have := h2 j hj; omega)]
      exact h3
    · obtain ⟨rest, h1, h2, h3, h5, h4⟩ := newClass_mro hc
      have hlt : ∀ j ∈ rest, j < w.length := by
        intro j hj
        rw [Enum.c3_mem _ _ _ h4] at hj
        obtain ⟨q, hq, hjq⟩ := hj
        rw [List.mem_append] at hq
        rcases hq with hq | hq
        · obtain ⟨b, hbm, rfl⟩ := List.mem_map.1 hq
          have := mroOf_le hw _ hjq
          have := h3 b hbm
          omega
        · simp at hq; subst hq; exact h3 _ hjq
      refine ⟨rest, h1, hlt, ?_⟩
      rw [lift rest hlt]
      by_cases hk : d.kind = .module
      · obtain ⟨rest', s, body, h4', -, hbody, hceq, -⟩ := newClass_module hc hk
        rw [h4] at h4'
        cases h4'
        have hann : c.body.ann = d.body.ann := by rw [hceq]; exact (dataclassBody_ann hbody).1
        rw [if_pos (by rw [h5, hk]), hann, hceq]
      · obtain ⟨rest', -, -, hceq⟩ := newClass_other hc hk
        rw [if_neg (by rw [h5]; exact hk), hceq]

/-- The names of the fields collected from the body. -/
theorem keys_own (ann : Dict N Ann) (d : Dict N Bool) :
    Dict.keys (ann.foldl (fun (d : Dict N Bool) p => match p.2 with
      | .plain => d.insert p.1 true
      | .classVar => d.insert p.1 false
      | _ => d) d) = addAll (Dict.keys d) ((ann.filter fun p => (Declares p.2).isSome).map (·.1)) := by
  induction ann generalizing d with
  | nil => rfl
  | cons p ann ih =>
    obtain ⟨k, a⟩ := p
    rw [List.foldl_cons, ih]
    cases a <;> simp [Declares, keys_insert, addAll]

theorem get?_own {ann : Dict N Ann} (hn : (Dict.keys ann).Nodup) (d : Dict N Bool) (n : N) :
    Dict.get? (ann.foldl (fun (d : Dict N Bool) p => match p.2 with
      | .plain => d.insert p.1 true
      | .classVar => d.insert p.1 false
      | _ => d) d) n = ((ann.get? n).bind Declares).or (d.get? n) := by
  induction ann generalizing d with
  | nil => simp [Dict.get?]
  | cons p ann ih =>
    obtain ⟨k, a⟩ := p
    simp only [Dict.keys, List.map_cons, List.nodup_cons] at hn
    rw [List.foldl_cons, ih hn.2]
    simp only [Dict.get?]
    by_cases hk : k = n
    · subst hk
      have : Dict.get? ann k = none := (Dict.get?_eq_none_iff ann k).2 hn.1
      rw [this]
      cases a <;> simp [Declares, Dict.get?_insert]
    · rw [if_neg hk]
      cases a <;> simp [Dict.get?_insert, hk]

/-- The bases one after another. -/
def inherited (w : World N) (l : List Nat) : Dict N Bool :=
  l.foldl (fun (d : Dict N Bool) c => match w[c]? with | some cls => d.update cls.fields | none => d) []

theorem collectFields_eq (w : World N) (rest : List Nat) (ann : Dict N Ann) :
    collectFields w rest ann = ann.foldl (fun (d : Dict N Bool) p => match p.2 with
      | .plain => d.insert p.1 true
      | .classVar => d.insert p.1 false
      | _ => d) (inherited w rest.reverse) := rfl

theorem keys_fields_nodup {w : World N} (h : Built magic abstractName w) {i : Nat} {c : Cls N} (hi : w[i]? = some c) :
    (Dict.keys c.fields).Nodup := by
  obtain ⟨rest, -, -, hf⟩ := fields_of h hi
  rw [hf]
  split
  · rw [collectFields_eq, keys_own]
    have h1 : ∀ l acc : List N, acc.Nodup → (addAll acc l).Nodup := by
      intro l
      induction l with
      | nil => intro acc h; exact h
      | cons n l ih =>
        intro acc h
        refine ih _ ?_
        dsimp only
        split
        · exact h
        · rename_i hn
          rw [List.nodup_append]
          refine ⟨h, by simp, ?_⟩
          intro a ha b hb
          simp at hb; subst hb
          exact fun h' => hn (h' ▸ ha)
    refine h1 _ _ ?_
    have h2 : ∀ (l : List Nat) (d : Dict N Bool), (Dict.keys d).Nodup → (Dict.keys (l.foldl (fun (d : Dict N Bool) c =>
        match w[c]? with | some cls => d.update cls.fields | none => d) d)).Nodup := by
      intro l
      induction l with
      | nil => intro d h; exact h
      | cons j l ih =>
        intro d h
        refine ih _ ?_
        dsimp only
        split
        · exact Dict.nodup_update _ _ h
        · exact h
    exact h2 _ _ (by simp [Dict.keys])
  · simp [Dict.keys]

/-- `inherited`, name by name: the last of the bases that has the name decides. -/
theorem get?_inherited {w : World N} (h : Built magic abstractName w) (l : List Nat) (n : N) :
    (inherited w l.reverse).get? n = l.findSome? fun b => (w[b]?).bind fun c => c.fields.get? n := by
  unfold inherited
  rw [List.foldl_reverse]
  induction l with
  | nil => simp [Dict.get?]
  | cons b l ih =>
    rw [List.foldr_cons, List.findSome?_cons]
    cases hb : w[b]? with
    | none => simpa using ih
    | some c =>
      simp only [Option.bind_some]
      rw [Dict.get?_update _ _ (keys_fields_nodup h hb), ih]
      cases Dict.get? c.fields n <;> rfl

/-- The declarations of the ancestors, furthest first. -/
theorem declared_nonmodule {w : World N} {j : Nat} (hj : ∀ c, w[j]? = some c → c.kind ≠ .module) : declared w j = [] := by
  unfold declared
  cases hc : w[j]? with
  | none => rfl
  | some c => simp [hj c hc]

theorem keys_inherited {w : World N} {rest : List Nat} (hnd : rest.Nodup)
    (hk : ∀ b ∈ rest, ∃ c t, w[b]? = some c ∧ c.mro = b :: t ∧ (b :: t).Sublist rest ∧
      Dict.keys c.fields = firsts (c.mro.reverse.flatMap (declared w))) :
    Dict.keys (inherited w rest.reverse) = firsts (rest.reverse.flatMap (declared w)) := by
  rw [firsts_eq]
  suffices ∀ (p q : List Nat), rest.reverse = p ++ q →
      Dict.keys (inherited w p) = addAll [] (p.flatMap (declared w)) from this rest.reverse [] (by simp)
  intro p
  induction hp : p.length generalizing p with
  | zero =>
    intro q _
    have : p = [] := List.length_eq_zero_iff.1 hp
    subst this; rfl
  | succ m ih =>
    intro q hq
    obtain ⟨p', b, rfl⟩ : ∃ p' b, p = p' ++ [b] := by
      have hne : p ≠ [] := by intro h; subst h; simp at hp
      exact ⟨p.dropLast, p.getLast hne, (List.dropLast_concat_getLast hne).symm⟩
    have hp' : p'.length = m := by simpa using hp
    have ih' := ih p' hp' (b :: q) (by rw [hq]; simp)
    have hrest : rest = q.reverse ++ b :: p'.reverse := by
      have := congrArg List.reverse hq
      simpa using this
    obtain ⟨c, t, hc, hmro, hsub, hkeys⟩ := hk b (by rw [hrest]; simp)
    have ht : t.Sublist p'.reverse := by
      rw [hrest] at hsub hnd
      refine sublist_after hsub ?_
      intro hbq
      rw [List.nodup_append] at hnd
      exact hnd.2.2 b hbq b (by simp) rfl
    have hstep : inherited w (p' ++ [b]) = (inherited w p').update c.fields := by
      simp [inherited, hc]
    rw [hstep, keys_update, ih', hkeys, addAll_firsts, hmro, List.flatMap_append, addAll_append]
    rw [List.reverse_cons, List.flatMap_append, addAll_append]
    rw [addAll_of_subset (l := t.reverse.flatMap (declared w))]
    intro n hn
    obtain ⟨j, hj, hnj⟩ := List.mem_flatMap.1 hn
    rw [mem_addAll]
    right
    exact List.mem_flatMap.2 ⟨j, by simpa using ht.subset (by simpa using hj), hnj⟩

/-! ### Theorems -/

/-- **C94** (names and order): the fields of a class, with its class variables, are the names declared by the modules of
its method resolution order, in the order in which one first meets them going from the furthest ancestor to the class
itself. Abstract annotations do not count. -/
theorem field_order {w : World N} (h : Built magic abstractName w) {i : Nat} {c : Cls N} (hi : w[i]? = some c) :
    Dict.keys c.fields = firsts (c.mro.reverse.flatMap (declared w)) := by
  induction i using Nat.strongRecOn generalizing c with
  | _ i ih =>
    obtain ⟨rest, h1, h2, hf⟩ := fields_of h hi
    by_cases hk : c.kind = .module
    · rw [hf, if_pos hk, collectFields_eq, keys_own]
      have hnd := nodup h hi
      rw [h1, List.nodup_cons] at hnd
      rw [keys_inherited hnd.2, h1, List.reverse_cons, List.flatMap_append, firsts_eq (_ ++ _), addAll_append, ← firsts_eq]
      · congr 1
        simp [declared, hi, hk]
      · intro b hb
        have hbi := h2 b hb
        have hbl : b < w.length := by
          have : i < w.length := (List.getElem?_eq_some_iff.1 hi).1
          omega
        have hcb := List.getElem?_eq_getElem hbl
        obtain ⟨t, ht, htl, -⟩ := fields_of h hcb
        have hs := mro_sublist h hi (j := b) (by rw [h1]; simp [hb]) hcb
        refine ⟨w[b], t, hcb, ht, ?_, ih b hbi hcb⟩
        rw [h1, ht] at hs
        cases hs with
        | cons _ hs => exact hs
        | cons_cons => omega
    · rw [hf, if_neg hk]
      have : c.mro.reverse.flatMap (declared w) = [] := by
        rw [List.flatMap_eq_nil_iff]
        intro j hj
        exact declared_nonmodule fun cj hcj => nonmodule_ancestor h hi hk (by simpa using hj) hcj
      rw [this]; rfl

/-- **C94** (kind): whether a name is a field or a class variable is decided by the declaration in the body; if there is
none, by the first of the other classes of the method resolution order that has the name. -/
theorem field_kind {w : World N} (h : Built magic abstractName w) {i : Nat} {c : Cls N} (hi : w[i]? = some c)
    (hk : c.kind = .module) (n : N) :
    c.fields.get? n =
      (ownKind w i n).or (c.mro.tail.findSome? fun b => (w[b]?).bind fun cb => cb.fields.get? n) := by
  obtain ⟨rest, h1, h2, hf⟩ := fields_of h hi
  have hwf := (built_wf h) c (List.mem_of_getElem? hi)
  rw [hf, if_pos hk, collectFields_eq, get?_own hwf, get?_inherited h, h1]
  simp [ownKind, hi, hk]

theorem declared_iff {w : World N} (h : Built magic abstractName w) (j : Nat) (n : N) :
    n ∈ declared w j ↔ (ownKind w j n).isSome := by
  unfold declared ownKind
  cases hj : w[j]? with
  | none => simp
  | some c =>
    simp only
    split
    · have hwf : (Dict.keys c.body.ann).Nodup := (built_wf h) c (List.mem_of_getElem? hj)
      constructor
      · intro hn
        obtain ⟨⟨k, a⟩, hp, rfl⟩ := List.mem_map.1 hn
        rw [List.mem_filter] at hp
        rw [Dict.get?_of_mem _ hwf hp.1]
        exact hp.2
      · intro hn
        cases hg : c.body.ann.get? n with
        | none => rw [hg] at hn; simp at hn
        | some a =>
          rw [hg] at hn
          exact List.mem_map.2 ⟨(n, a), List.mem_filter.2 ⟨Dict.mem_of_get? _ hg, hn⟩, rfl⟩
    · simp

/-- **C94** (membership): a name is a field or class variable of a class exactly if some module of its method resolution
order declares it as one of the two. -/
theorem field_iff {w : World N} (h : Built magic abstractName w) {i : Nat} {c : Cls N} (hi : w[i]? = some c) (n : N) :
    n ∈ Dict.keys c.fields ↔ ∃ j ∈ c.mro, (ownKind w j n).isSome := by
  rw [field_order h hi, mem_firsts, List.mem_flatMap]
  constructor
  · rintro ⟨j, hj, hn⟩
    exact ⟨j, by simpa using hj, (declared_iff h j n).1 hn⟩
  · rintro ⟨j, hj, hn⟩
    exact ⟨j, by simpa using hj, (declared_iff h j n).2 hn⟩

/-- The kind of a name comes from some declaration of it. -/
theorem kind_from {w : World N} (h : Built magic abstractName w) {i : Nat} {c : Cls N} (hi : w[i]? = some c) {n : N}
    {b : Bool} (hb : c.fields.get? n = some b) : ∃ j ∈ c.mro, ownKind w j n = some b := by
  induction i using Nat.strongRecOn generalizing c with
  | _ i ih =>
    obtain ⟨rest, h1, h2, hf⟩ := fields_of h hi
    by_cases hk : c.kind = .module
    · rw [field_kind h hi hk] at hb
      cases ho : ownKind w i n with
      | some b' =>
        rw [ho] at hb
        simp only [Option.some_or, Option.some.injEq] at hb
        subst hb
        exact ⟨i, by rw [h1]; simp, ho⟩
      | none =>
        rw [ho, Option.none_or, List.findSome?_eq_some_iff] at hb
        obtain ⟨l₁, a, l₂, hl, ha, -⟩ := hb
        have har : a ∈ rest := by rw [h1] at hl; simp only [List.tail_cons] at hl; rw [hl]; simp
        cases hca : w[a]? with
        | none => rw [hca] at ha; cases ha
        | some ca =>
          rw [hca, Option.bind_some] at ha
          obtain ⟨j, hj, hjo⟩ := ih a (h2 a har) hca ha
          exact ⟨j, (mro_sublist h hi (by rw [h1]; simp [har]) hca).subset hj, hjo⟩
    · rw [hf, if_neg hk] at hb
      cases hb

/-- **C94** (agreement): if the modules that declare a name agree on what it is, that is what it is. -/
theorem field_agree {w : World N} (h : Built magic abstractName w) {i : Nat} {c : Cls N} (hi : w[i]? = some c) {n : N}
    {b : Bool} (hd : ∃ j ∈ c.mro, ownKind w j n = some b)
    (ha : ∀ j ∈ c.mro, ∀ b', ownKind w j n = some b' → b' = b) : c.fields.get? n = some b := by
  obtain ⟨j, hj, hjo⟩ := hd
  have hm := (field_iff h hi n).2 ⟨j, hj, by rw [hjo]; rfl⟩
  cases hg : c.fields.get? n with
  | none => exact absurd hm ((Dict.get?_eq_none_iff _ _).1 hg)
  | some b' =>
    obtain ⟨j', hj', ho⟩ := kind_from h hi hg
    rw [ha j' hj' b' ho]

/-- **C94** (single inheritance): the nearest declaration decides. -/
theorem field_nearest {w : World N} (h : Built magic abstractName w) (hs : SingleInheritance w) {i : Nat} {c : Cls N}
    (hi : w[i]? = some c) (hk : c.kind = .module) (n : N) :
    c.fields.get? n = c.mro.findSome? fun j => ownKind w j n := by
  induction i using Nat.strongRecOn generalizing c with
  | _ i ih =>
    obtain ⟨rest, h1, h2, hf⟩ := fields_of h hi
    rw [field_kind h hi hk, h1, List.tail_cons, List.findSome?_cons]
    cases ho : ownKind w i n with
    | some b => simp
    | none =>
      rw [Option.none_or]
      dsimp only
      cases hrest : rest with
      | nil => simp
      | cons b t =>
        have hbi := h2 b (by rw [hrest]; simp)
        have hbl : b < w.length := by
          have : i < w.length := (List.getElem?_eq_some_iff.1 hi).1
          omega
        have hcb := List.getElem?_eq_getElem hbl
        -- the rest of the order is the order of the base
        have hmro : w[b].mro = b :: t := by
          obtain ⟨b', hb'⟩ := hs i c hi (by omega)
          have h3 := (single_mro h hs hi).2.2 b' hb'
          rw [h1, hrest] at h3
          simp only [List.cons.injEq, true_and] at h3
          have hlt := (built_lt h hi).1 b' (by rw [hb']; simp)
          have hbl' : b' < w.length := by
            have : i < w.length := (List.getElem?_eq_some_iff.1 hi).1
            omega
          have hcb' := List.getElem?_eq_getElem hbl'
          rw [mroOf_some hcb'] at h3
          have hhead := built_head h hcb'
          rw [← h3] at hhead
          simp only [List.head?_cons, Option.some.injEq] at hhead
          subst hhead
          exact h3.symm
        rw [List.findSome?_cons]
        simp only [hcb, Option.bind_some]
        by_cases hkb : w[b].kind = .module
        · have hb := ih b hbi hcb hkb
          rw [hmro] at hb
          cases hg : w[b].fields.get? n with
          | some v =>
            rw [hg] at hb
            simpa using hb
          | none =>
            rw [hg] at hb
            rw [← hb]
            dsimp only
            rw [List.findSome?_eq_none_iff]
            intro j hj
            cases hcj : w[j]? with
            | none => rfl
            | some cj =>
              rw [Option.bind_some]
              rw [Dict.get?_eq_none_iff]
              intro hm
              obtain ⟨m, hm1, hm2⟩ := (field_iff h hcj n).1 hm
              have hmem : m ∈ w[b].mro := mro_trans h hcb (by rw [hmro]; simp [hj]) hcj hm1
              refine (Dict.get?_eq_none_iff _ _).1 hg ((field_iff h hcb n).2 ⟨m, hmem, hm2⟩)
        · have hnone : ∀ j ∈ b :: t, ∀ cj, w[j]? = some cj → cj.kind ≠ .module := fun j hj cj hcj =>
            nonmodule_ancestor h hcb hkb (by rw [hmro]; exact hj) hcj
          have e1 : (b :: t).findSome? (fun j => ownKind w j n) = none := by
            rw [List.findSome?_eq_none_iff]
            intro j hj
            unfold ownKind
            cases hcj : w[j]? with
            | none => rfl
            | some cj => simp [hnone j hj cj hcj]
          have e2 : ∀ j ∈ b :: t, ((w[j]?).bind fun cj => cj.fields.get? n) = none := by
            intro j hj
            cases hcj : w[j]? with
            | none => rfl
            | some cj =>
              obtain ⟨_, -, -, hfj⟩ := fields_of h hcj
              rw [Option.bind_some, hfj, if_neg (hnone j hj cj hcj)]
              rfl
          have hb0 := e2 b (by simp)
          rw [hcb, Option.bind_some] at hb0
          rw [e1, hb0]
          dsimp only
          rw [List.findSome?_eq_none_iff]
          exact fun j hj => e2 j (List.mem_cons_of_mem _ hj)

/-- **C94**: a class keeps all its annotations, abstract ones included. -/
theorem annotations_kept {w : World N} {d : ClassDef N} {c : Cls N} (h : newClass magic abstractName w d = .ok c) :
    c.body.ann = d.body.ann := by
  by_cases hk : d.kind = .module
  · obtain ⟨_, _, _, -, -, hb, rfl, -⟩ := newClass_module h hk
    exact (dataclassBody_ann hb).1
  · obtain ⟨_, -, -, rfl⟩ := newClass_other h hk
    rfl

/-- **C94**: a `field()` without annotation is a `TypeError`, if the class statement gets that far (bases, abstract
attributes). With an annotation, `ClassVar` or not, it is taken out of the class and the other attributes are kept. -/
theorem bare_field {w : World N} {d : ClassDef N} (hk : d.kind = .module) (hb : ∀ b ∈ d.bases, b < w.length)
    (hm : hasModuleBase w d.bases = true) {rest : List Nat} {s : Abs N}
    (hc : c3 ((d.bases.map (mroOf w) ++ [d.bases]).flatten.length) (d.bases.map (mroOf w) ++ [d.bases]) = some rest)
    (hs : abstractScan (d.body :: rest.map (layerOf w)) = .ok s) {n : N} (hn : (n, Attr.field) ∈ d.body.dict)
    (ha : n ∉ Dict.keys d.body.ann) :
    newClass magic abstractName w d = .error .typeError := by
  have hbody : dataclassBody d.body = .error .typeError := by
    rw [dataclassBody, if_pos]
    rw [List.any_eq_true]
    refine ⟨_, hn, ?_⟩
    rw [(Dict.get?_eq_none_iff _ _).2 ha]
    simp
  have h1 : ¬ d.bases.any (fun b => decide (w.length ≤ b)) = true := by
    simp only [List.any_eq_true, decide_eq_true_eq, not_exists, not_and, Nat.not_le]
    exact hb
  simp only [newClass]
  rw [if_neg h1, if_neg (by simp [hm, hk])]
  simp only [hc]
  rw [if_neg (by simp [hk])]
  simp only [hs, hbody, bind, Except.bind]

/-- **C94**: what is left of the body of a class. -/
theorem fields_removed {w : World N} {d : ClassDef N} {c : Cls N} (h : newClass magic abstractName w d = .ok c)
    (hk : d.kind = .module) (n : N) (a : Attr) : (n, a) ∈ c.body.dict ↔ (n, a) ∈ d.body.dict ∧ a ≠ .field := by
  obtain ⟨_, _, body, -, -, hb, rfl, -⟩ := newClass_module h hk
  simp only [dataclassBody] at hb
  split at hb
  · cases hb
  · cases hb
    simp

/-! ### Examples -/

namespace Ex

/-- A class that is not strict. -/
def cls (name : Nat) (bases : List Nat) (ann : Dict Nat Ann) : ClassDef Nat := ⟨.module, name, bases, ⟨[], ann⟩, false, none⟩

def build' (ds : List (ClassDef Nat)) : World Nat :=
  match build (fun _ => false) (fun _ => false) [moduleCls 99] ds with
  | .ok w => w
  | .error _ => []

/-- `class A: x: int; y: int`, `class B(A): x: ClassVar[int]; z: AbstractVar[int]`, `class C(A): w: int; y: AbstractVar[int]`,
`class D(C, B): z: int`; names `w x y z` are `0 1 2 3`. -/
def diamond : List (ClassDef Nat) :=
  [cls 10 [0] [(1, .plain), (2, .plain)], cls 11 [1] [(1, .classVar), (3, .abstractVar)],
    cls 12 [1] [(0, .plain), (2, .abstractVar)], cls 13 [3, 2] [(3, .plain)]]

end Ex

/-- `class A(Module): x = field()` is refused, `x: ClassVar[int] = field()` and `x: int = field()` are not. -/
example : (newClass (fun _ => false) (fun _ => false) [moduleCls 99] ⟨.module, 10, [0], ⟨[(1, .field)], []⟩, false, none⟩).isOk = false ∧
    (newClass (fun _ => false) (fun _ => false) [moduleCls 99]
      ⟨.module, 10, [0], ⟨[(1, .field)], [(1, .classVar)]⟩, false, none⟩).isOk = true ∧
    (newClass (fun _ => false) (fun _ => false) [moduleCls 99]
      ⟨.module, 10, [0], ⟨[(1, .field)], [(1, .plain)]⟩, false, none⟩).isOk = true := ⟨rfl, rfl, rfl⟩

/-- The hypotheses are met by a diamond, where the order is that of the declarations, furthest first. -/
example : Built (fun _ => false) (fun _ => false) (Ex.build' Ex.diamond) ∧ mroOf (Ex.build' Ex.diamond) 4 = [4, 3, 2, 1, 0] ∧
    ((Ex.build' Ex.diamond)[4]?).map (fun c => Dict.keys c.fields) = some [1, 2, 0, 3] ∧
    [0, 1, 2, 3, 4].map (declared (Ex.build' Ex.diamond)) = [[], [1, 2], [1], [0], [3]] := by
  refine ⟨built_of_build (name := 99) (ds := Ex.diamond) ?_ rfl, rfl, rfl, rfl⟩
  simp [Ex.diamond, Ex.cls, Layer.WF, Dict.keys]

/-- With several bases the nearest declaration need not decide: `B` makes `x` a class variable, and `B` comes before `A` in
the order of `D(C, B)`, yet `x` is a field of `D`, since `C` inherits it from `A` as a field. -/
theorem nearest_fails_for_diamonds :
    ∃ (w : World Nat) (c : Cls Nat), Built (fun _ => false) (fun _ => false) w ∧ w[4]? = some c ∧ c.kind = .module ∧
      c.fields.get? 1 = some true ∧ (c.mro.findSome? fun j => ownKind w j 1) = some false := by
  refine ⟨Ex.build' Ex.diamond, _, built_of_build (name := 99) (ds := Ex.diamond) ?_ rfl, rfl, rfl, rfl, rfl⟩
  simp [Ex.diamond, Ex.cls, Layer.WF, Dict.keys]

end Verif.Module.Fields
