import Verif.TreeAt.Lemmas2
import Verif.TreeAt.Spec

/-! # Properties of `tree_at` -/

namespace Verif
namespace TreeAt

open PT

variable {K α : Type} [DecidableEq K]

/-- What may be put at position `π` for the `j`-th of `n` selected nodes. -/
def New (env : Env K α) (single : Bool) (n : Nat) (t : PT K (Val α)) :
    Repl K α → Nat → List Nat → PT K (Val α) → Prop
  | .replace r, j, _, z =>
    if single then z = r else ∃ rs, env.items r = .ok rs ∧ rs.length = n ∧ rs[j]? = some z
  | .replaceFn f, _, π, z =>
    ∃ x y, t.get? π = some (restore env.tuple x) ∧ f x = .ok y ∧ z = restore env.tuple y
  | _, _, _, _ => False

omit [DecidableEq K] in
theorem replaceFns_replace {env : Env K α} {single : Bool} {n : Nat} {r : PT K (Val α)} {fns} :
    replaceFns env single n (.replace r) = .ok fns ↔ ∃ rs, (if single then .ok [r] else env.items r) = .ok rs ∧
      rs.length = n ∧ fns = rs.map (fun r _ => .ok (r.map (fun v => Raw.obj v.1 v.2))) := by
  unfold replaceFns
  have key : ∀ e : Except Err (List (PT K (Val α))),
      (do
        let rs ← e
        if n ≠ rs.length then .error .valueError
        else .ok (rs.map (fun r _ => .ok (r.map (fun v => Raw.obj v.1 v.2))) : List (Fn K α))) = Except.ok fns ↔
      ∃ rs, e = .ok rs ∧ rs.length = n ∧ fns = rs.map (fun r _ => .ok (r.map (fun v => Raw.obj v.1 v.2))) := by
    intro e
    cases e with
    | error e => simp [bind, Except.bind]
    | ok rs =>
      simp only [bind, Except.bind, Except.ok.injEq, exists_eq_left']
      split
      · rename_i hne
        constructor
        · intro h; exact absurd h (by simp)
        · rintro ⟨rfl, _⟩; exact absurd rfl hne
      · rename_i hne
        rw [Except.ok.injEq]
        constructor
        · rintro rfl; exact ⟨by omega, rfl⟩
        · rintro ⟨_, rfl⟩; rfl
  cases single with
  | true => exact key (.ok [r])
  | false => exact key (env.items r)

omit [DecidableEq K] in
theorem replaceFns_length {env : Env K α} {single : Bool} {n : Nat} {repl : Repl K α} {fns}
    (h : replaceFns env single n repl = .ok fns) : fns.length = n := by
  cases repl with
  | neither => simp [replaceFns] at h
  | both => simp [replaceFns] at h
  | replaceFn f => simp only [replaceFns, Except.ok.injEq] at h; subst h; simp
  | replace r =>
    obtain ⟨rs, _, rfl, rfl⟩ := replaceFns_replace.1 h
    simp

theorem treeAt_ok {env : Env K α} {wh isLeaf} {t : PT K (Val α)} {repl out} :
    treeAt env wh isLeaf t repl = .ok out ↔ ∃ r1 r2 single nodes fns,
      wh (plain (seen1 env t)) = .ok r1 ∧ wh (seen2 env isLeaf t) = .ok r2 ∧ checkWhere isLeaf r1 r2 = .ok () ∧
      selected env (seen2 env isLeaf t) r2 = .ok (single, nodes) ∧
      replaceFns env single nodes.length repl = .ok fns ∧
      replaceNodes env (seen2 env isLeaf t) (nodes.map idOf) fns = .ok out := by
  simp only [treeAt, bind, Except.bind]
  constructor
  · intro h
    split at h
    · exact absurd h (by simp)
    rename_i r1 h1
    split at h
    · exact absurd h (by simp)
    rename_i r2 h2
    split at h
    · exact absurd h (by simp)
    rename_i u h3
    split at h
    · exact absurd h (by simp)
    rename_i sn h4
    obtain ⟨single, nodes⟩ := sn
    simp only at h
    split at h
    · exact absurd h (by simp)
    rename_i fns h5
    exact ⟨r1, r2, single, nodes, fns, h1, h2, h3, h4, h5, h⟩
  · rintro ⟨r1, r2, single, nodes, fns, h1, h2, h3, h4, h5, h6⟩
    simp only [h1, h2, h3, h4, h5, h6]

/-- **Soundness of `tree_at`** for every `where`: if a tree is returned, then it is the original tree with the selected
nodes replaced, each of them exactly once, by what was asked for. -/
theorem tree_at_replaces {env : Env K α} {wh isLeaf} {t : PT K (Val α)} {repl out} (hodd : NoOddTuples env t)
    (h : treeAt env wh isLeaf t repl = .ok out) :
    ∃ r2 single nodes, wh (seen2 env isLeaf t) = .ok r2 ∧
      ((single = true ∧ nodes = [r2] ∧ ∃ π, At (seen2 env isLeaf t) (idOf r2) π) ∨
       (single = false ∧ env.nodes r2 = .ok nodes ∧ ∀ π, ¬ At (seen2 env isLeaf t) (idOf r2) π)) ∧
      Replaced (seen2 env isLeaf t) t out (nodes.map idOf) (New env single nodes.length t repl) := by
  obtain ⟨r1, r2, single, nodes, fns, h1, h2, h3, h4, h5, h6⟩ := treeAt_ok.1 h
  refine ⟨r2, single, nodes, h2, ?_, ?_⟩
  · unfold selected at h4
    split at h4
    · rename_i ho
      simp only [Except.ok.injEq, Prod.mk.injEq] at h4
      exact .inl ⟨h4.1.symm, h4.2.symm, (occurs_iff _ _).1 ho⟩
    · rename_i ho
      split at h4
      · rename_i ns hns
        simp only [Except.ok.injEq, Prod.mk.injEq] at h4
        refine .inr ⟨h4.1.symm, by rw [hns, h4.2], ?_⟩
        intro π hπ
        exact ho ((occurs_iff _ _).2 ⟨π, hπ⟩)
      · exact absurd h4 (by simp)
  · have hR := replaceNodes_ok hodd (by simpa using replaceFns_length h5) h6
    refine ⟨hR.once, ?_, hR.frame⟩
    intro j i π hj hlast htop
    obtain ⟨z, ⟨f, y, w, hf, hy, hw, rfl⟩, hz⟩ := hR.put j i π hj hlast htop
    refine ⟨_, ?_, hz⟩
    cases repl with
    | neither => simp [replaceFns] at h5
    | both => simp [replaceFns] at h5
    | replaceFn g =>
      simp only [replaceFns, Except.ok.injEq] at h5
      subst h5
      rw [List.getElem?_replicate] at hf
      split at hf
      · simp only [Option.some.injEq] at hf; subst hf
        obtain ⟨x, hx, hx'⟩ := unwrapped hodd hy
        simp only [bind, Except.bind, hx] at hw
        exact ⟨x, w, hx', hw, rfl⟩
      · exact absurd hf (by simp)
    | replace r =>
      obtain ⟨rs, hrs, hlen, rfl⟩ := replaceFns_replace.1 h5
      rw [List.getElem?_map, Option.map_eq_some_iff] at hf
      obtain ⟨r', hr', rfl⟩ := hf
      simp only [Except.ok.injEq] at hw
      subst hw
      rw [restore_obj]
      simp only [New]
      cases single with
      | true =>
        simp only [if_true, Except.ok.injEq] at hrs
        subst hrs
        simp only [if_true]
        cases j with
        | zero => simpa using hr'.symm
        | succ j => simp at hr'
      | false =>
        simp only [Bool.false_eq_true, if_false] at hrs ⊢
        exact ⟨rs, hrs, hlen, hr'⟩

/-! ### Selecting one position -/

/-- The position `p` can be reached by `where` (it is not strictly inside something that `is_leaf` accepts), and if
`None` is there then there is no other `None` in sight. -/
def Reachable (env : Env K α) (isLeaf : Obj K α → Bool) (t : PT K (Val α)) (p : List Nat) : Prop :=
  ∃ y, (seen2 env isLeaf t).get? p = some y ∧
    (y = .none → ∀ p', (seen2 env isLeaf t).get? p' = some .none → p' = p)

theorem at_of_get {env : Env K α} {isLeaf : Obj K α → Bool} {t : PT K (Val α)} {p y}
    (h : (seen2 env isLeaf t).get? p = some y)
    (hn : y = .none → ∀ p', (seen2 env isLeaf t).get? p' = some .none → p' = p) :
    ∀ π, At (seen2 env isLeaf t) (idOf y) π ↔ π = p := by
  intro π
  constructor
  · rintro ⟨y', hy', e⟩
    by_cases hc : y = .none
    · have h0 := (at_none h).2 hc
      rw [h0] at e
      have := (at_none hy').1 e
      rw [this] at hy'
      exact hn hc π hy'
    · rcases at_seen2 ⟨y, h, rfl⟩ with h0 | h0
      · exact absurd ((at_none h).1 h0) hc
      · rcases at_seen2 ⟨y', hy', rfl⟩ with h1 | h1
        · rw [e, h0] at h1; exact absurd h1 (by simp)
        · rw [e, h0] at h1
          simp only [Id.made.injEq, true_and] at h1
          exact h1.symm
  · rintro rfl
    exact ⟨y, h, rfl⟩

omit [DecidableEq K] in
theorem topmost_single {x : Obj K α} {i : Id} {p : List Nat} (h : ∀ π, At x i π ↔ π = p) :
    ∀ π, Topmost x [i] i π ↔ π = p := by
  intro π
  constructor
  · intro ht; exact (h π).1 ht.1
  · rintro rfl
    refine ⟨(h π).2 rfl, ?_⟩
    intro ρ σ j hρ hσ hj hat
    simp only [List.mem_singleton] at hj; subst hj
    have := (h ρ).1 hat
    rw [this] at hρ
    have h3 := congrArg List.length hρ
    rw [List.length_append] at h3
    exact hσ (List.eq_nil_of_length_eq_zero (by omega))

/-- When selecting one position and `tree_at` returns, only one place holds the selected object, namely `p`. -/
theorem single_position {env : Env K α} {isLeaf : Obj K α → Bool} {t : PT K (Val α)} {p repl out}
    (hodd : NoOddTuples env t) (h : treeAt env (selectOne p) isLeaf t repl = .ok out) :
    ∃ y, (seen2 env isLeaf t).get? p = some y ∧ (∀ π, Topmost (seen2 env isLeaf t) [idOf y] (idOf y) π ↔ π = p) ∧
      Replaced (seen2 env isLeaf t) t out [idOf y] (New env true 1 t repl) := by
  obtain ⟨r2, single, nodes, h2, hsel, hR⟩ := tree_at_replaces hodd h
  unfold selectOne at h2
  split at h2
  · rename_i y hy
    simp only [Except.ok.injEq] at h2; subst h2
    rcases hsel with ⟨rfl, rfl, _⟩ | ⟨_, _, hno⟩
    · refine ⟨y, hy, ?_, hR⟩
      obtain ⟨π0, ht, hu⟩ := hR.once (idOf y) (by simp)
      -- every position of the object is topmost
      have htop : ∀ π, At (seen2 env isLeaf t) (idOf y) π → Topmost (seen2 env isLeaf t) [idOf y] (idOf y) π := by
        intro π hπ
        refine ⟨hπ, ?_⟩
        intro ρ σ j hρ hσ hj hat
        simp only [List.mem_singleton] at hj; subst hj
        rcases at_seen2 hπ with h0 | h0
        · -- nothing is inside `None`
          rw [h0] at hat
          obtain ⟨z, hz, e⟩ := hat
          have := (at_none hz).1 e
          subst this
          obtain ⟨w, hw, _⟩ := hπ
          rw [hρ, get?_append, hz] at hw
          cases σ with
          | nil => exact hσ rfl
          | cons => simp [get?] at hw
        · rcases at_seen2 hat with h1 | h1
          · rw [h0] at h1; exact absurd h1 (by simp)
          · rw [h0] at h1
            simp only [Id.made.injEq, true_and] at h1
            rw [h1] at hρ
            have h3 := congrArg List.length hρ
            rw [List.length_append] at h3
            exact hσ (List.eq_nil_of_length_eq_zero (by omega))
      have hp := hu p (htop p ⟨y, hy, rfl⟩)
      intro π
      constructor
      · intro hπ; rw [hu π hπ, hp]
      · rintro rfl; exact htop _ ⟨y, hy, rfl⟩
    · exact absurd ⟨y, hy, rfl⟩ (hno p)
  · exact absurd h2 (by simp)

/-- **put-get and frame**: after replacing the node at `p` by `r`, `r` is at `p`, and all positions outside of the
subtree at `p` are as before. -/
theorem tree_at_put_get {env : Env K α} {isLeaf : Obj K α → Bool} {t r : PT K (Val α)} {p out}
    (hodd : NoOddTuples env t) (h : treeAt env (selectOne p) isLeaf t (.replace r) = .ok out) :
    out.get? p = some r ∧ ∀ π, ¬ p <+: π → out.headAt? π = t.headAt? π := by
  obtain ⟨y, hy, htop, hR⟩ := single_position hodd h
  constructor
  · obtain ⟨z, hz, hz'⟩ := hR.put 0 (idOf y) p rfl (by intro j hj; cases j with
      | zero => omega
      | succ j => simp) ((htop p).2 rfl)
    simp only [New, if_true] at hz
    rw [hz', hz]
  · intro π hπ
    apply hR.frame
    intro i hi σ ρ hσ ht
    simp only [List.mem_singleton] at hi; subst hi
    exact hπ ⟨ρ, by rw [hσ, (htop σ).1 ht]⟩

/-- With `replace_fn` the node at `p` becomes `replace_fn(x)`, where `x` is the original subtree: in it, empty tuples
appear as `_DistinctTuple` objects, which `restore` turns back. -/
theorem tree_at_replace_fn {env : Env K α} {isLeaf : Obj K α → Bool} {t : PT K (Val α)} {f p out}
    (hodd : NoOddTuples env t) (h : treeAt env (selectOne p) isLeaf t (.replaceFn f) = .ok out) :
    (∃ x y, t.get? p = some (restore env.tuple x) ∧ f x = .ok y ∧ out.get? p = some (restore env.tuple y)) ∧
      ∀ π, ¬ p <+: π → out.headAt? π = t.headAt? π := by
  obtain ⟨y, hy, htop, hR⟩ := single_position hodd h
  constructor
  · obtain ⟨z, hz, hz'⟩ := hR.put 0 (idOf y) p rfl (by intro j hj; cases j with
      | zero => omega
      | succ j => simp) ((htop p).2 rfl)
    simp only [New] at hz
    obtain ⟨x, w, hx, hw, rfl⟩ := hz
    exact ⟨x, w, hx, hw, hz'⟩
  · intro π hπ
    apply hR.frame
    intro i hi σ ρ hσ ht
    simp only [List.mem_singleton] at hi; subst hi
    exact hπ ⟨ρ, by rw [hσ, (htop σ).1 ht]⟩

omit [DecidableEq K] in
/-- A tree is determined by what is outside of position `p` and by the subtree there. -/
theorem eq_of_outside {t u : PT K (Val α)} {p : List Nat} (h : t.get? p = u.get? p)
    (ho : ∀ π, ¬ p <+: π → t.headAt? π = u.headAt? π) : t = u := by
  apply ext_headAt?
  intro π
  by_cases hp : p <+: π
  · obtain ⟨ρ, rfl⟩ := hp
    simp only [headAt?, get?_append, h]
  · exact ho π hp

/-- **get-put**: putting back what is there gives the original tree. -/
theorem tree_at_get_put {env : Env K α} {isLeaf : Obj K α → Bool} {t r : PT K (Val α)} {p out}
    (hodd : NoOddTuples env t) (hr : t.get? p = some r)
    (h : treeAt env (selectOne p) isLeaf t (.replace r) = .ok out) : out = t := by
  obtain ⟨h1, h2⟩ := tree_at_put_get hodd h
  exact eq_of_outside (by rw [h1, hr]) h2

/-- **put-put**: replacing twice is replacing once. -/
theorem tree_at_put_put {env : Env K α} {isLeaf isLeaf' isLeaf'' : Obj K α → Bool} {t r r' : PT K (Val α)}
    {p out out' out''} (hodd : NoOddTuples env t) (hodd' : NoOddTuples env out)
    (h : treeAt env (selectOne p) isLeaf t (.replace r) = .ok out)
    (h' : treeAt env (selectOne p) isLeaf' out (.replace r') = .ok out')
    (h'' : treeAt env (selectOne p) isLeaf'' t (.replace r') = .ok out'') : out' = out'' := by
  obtain ⟨a1, a2⟩ := tree_at_put_get hodd h
  obtain ⟨b1, b2⟩ := tree_at_put_get hodd' h'
  obtain ⟨c1, c2⟩ := tree_at_put_get hodd h''
  refine eq_of_outside (by rw [b1, c1]) ?_
  intro π hπ
  rw [b2 π hπ, a2 π hπ, c2 π hπ]

/-- Replacing at a reachable position succeeds. -/
theorem tree_at_succeeds {env : Env K α} {isLeaf : Obj K α → Bool} {t r : PT K (Val α)} {p}
    (h : Reachable env isLeaf t p) : Except.Ok (treeAt env (selectOne p) isLeaf t (.replace r)) := by
  obtain ⟨y, hy, hn⟩ := h
  obtain ⟨r1, h1, hc⟩ := checkWhere_one hy
  have hat := at_of_get hy hn
  have htop := topmost_single hat
  obtain ⟨out, hout⟩ := replaceNodes_complete (env := env) (isLeaf := isLeaf) (t := t) (ids := [idOf y])
    (fns := [fun _ => .ok (r.map (fun v => Raw.obj v.1 v.2))]) rfl
    (by
      intro i hi
      simp only [List.mem_singleton] at hi; subst hi
      exact ⟨p, (htop p).2 rfl, fun π' h' => (htop π').1 h'⟩)
    (by
      intro f hf π y' _ _
      simp only [List.mem_singleton] at hf; subst hf
      exact ⟨_, rfl⟩)
  refine ⟨out, treeAt_ok.2 ⟨r1, y, true, [y], _, ?_, ?_, hc, ?_, ?_, hout⟩⟩
  · simp [selectOne, h1]
  · simp [selectOne, hy]
  · simp [selected, (occurs_iff (idOf y) _).2 ⟨p, (hat p).2 rfl⟩]
  · simp [replaceFns, bind, Except.bind]

/-- Applying a function at a reachable position succeeds if the function does. -/
theorem tree_at_fn_succeeds {env : Env K α} {isLeaf : Obj K α → Bool} {t : PT K (Val α)} {p f}
    (hodd : NoOddTuples env t) (h : Reachable env isLeaf t p)
    (hf : ∀ x, t.get? p = some (restore env.tuple x) → Except.Ok (f x)) :
    Except.Ok (treeAt env (selectOne p) isLeaf t (.replaceFn f)) := by
  obtain ⟨y, hy, hn⟩ := h
  obtain ⟨r1, h1, hc⟩ := checkWhere_one hy
  have hat := at_of_get hy hn
  have htop := topmost_single hat
  obtain ⟨out, hout⟩ := replaceNodes_complete (env := env) (isLeaf := isLeaf) (t := t) (ids := [idOf y])
    (fns := [fun x => do f (← omap PT.noLeaf removeWrapper' x)]) rfl
    (by
      intro i hi
      simp only [List.mem_singleton] at hi; subst hi
      exact ⟨p, (htop p).2 rfl, fun π' h' => (htop π').1 h'⟩)
    (by
      intro g hg π y' hy' hid
      simp only [List.mem_singleton] at hg; subst hg
      simp only [List.mem_singleton] at hid
      obtain ⟨x, hx, hx'⟩ := unwrapped hodd hy'
      have : π = p := (hat π).1 ⟨y', hy', hid⟩
      subst this
      obtain ⟨z, hz⟩ := hf x hx'
      exact ⟨z, by simp [bind, Except.bind, hx, hz]⟩)
  refine ⟨out, treeAt_ok.2 ⟨r1, y, true, [y], _, ?_, ?_, hc, ?_, ?_, hout⟩⟩
  · simp [selectOne, h1]
  · simp [selectOne, hy]
  · simp [selected, (occurs_iff (idOf y) _).2 ⟨p, (hat p).2 rfl⟩]
  · simp [replaceFns]

/-- Without `is_leaf`, every position of the tree except `None`s is reachable, the inside of empty tuples aside
(which have no inside). -/
theorem reachable_of_get {env : Env K α} {t x : PT K (Val α)} {p} (hx : t.get? p = some x) (hn : x ≠ .none) :
    Reachable env noLeaf t p := by
  have h1 : (cutTree env noLeaf t).get? p =
      some (retag Prod.snd ((label (newId env.tuple 1) (fun _ r => r) p (distinct env p x)).cut (fun x => noLeaf (plain x)))) := by
    have h0 : cutTree env noLeaf t = (retag Prod.snd (seen1 env t)).map PT.leaf := by
      have : (seen1 env t).cut (fun x => noLeaf (plain x)) = (seen1 env t).map PT.leaf := cut_noLeaf _
      rw [cutTree, this, map_retag]
    rw [h0]
    have h2 : (label (newId env.tuple 1) (fun _ r => r) p (distinct env p x)).cut (fun x => noLeaf (plain x)) =
        (label (newId env.tuple 1) (fun _ r => r) p (distinct env p x)).map PT.leaf := cut_noLeaf _
    rw [h2, ← map_retag, get?_map', get?_retag, get?_seen1, hx]
    rfl
  refine ⟨_, by rw [get?_seen2, h1]; rfl, ?_⟩
  intro h
  exfalso
  cases x with
  | leaf a =>
    obtain ⟨n, v⟩ := a
    simp only [distinct] at h
    split at h <;> simp [label, cut, retag, wrapAll] at h
  | none => exact hn rfl
  | node k cs =>
    simp only [distinct] at h
    split at h <;> simp [label, cut, noLeaf, retag, wrapAll] at h

/-! ### Selecting several positions -/

/-- The positions `ps` can be reached by `where`, none of them is inside another one, and if `None` is at one of them
then there is no other `None` in sight. -/
structure ReachableAll (env : Env K α) (isLeaf : Obj K α → Bool) (t : PT K (Val α)) (ps : List (List Nat)) : Prop where
  each : ∀ p ∈ ps, Reachable env isLeaf t p
  apart : ∀ p ∈ ps, ∀ p' ∈ ps, p <+: p' → p = p'

omit [DecidableEq K] in
theorem getAll_eq {x : Obj K α} {ps : List (List Nat)} {ys} : getAll x ps = some ys ↔
    ys.length = ps.length ∧ ∀ (j : Nat) p, ps[j]? = some p → ∃ y, ys[j]? = some y ∧ x.get? p = some y := by
  induction ps generalizing ys with
  | nil =>
    simp only [getAll, Option.some.injEq, List.length_nil, List.getElem?_nil]
    constructor
    · rintro rfl; exact ⟨rfl, by simp⟩
    · rintro ⟨h, _⟩; exact (List.eq_nil_of_length_eq_zero h).symm
  | cons p ps ih =>
    simp only [getAll, Option.bind_eq_some_iff, Option.map_eq_some_iff]
    constructor
    · rintro ⟨y, hy, ys', hys, rfl⟩
      obtain ⟨hl, hr⟩ := ih.1 hys
      refine ⟨by simp [hl], ?_⟩
      intro j q hq
      cases j with
      | zero => simp only [List.getElem?_cons_zero, Option.some.injEq] at hq; subst hq; exact ⟨y, rfl, hy⟩
      | succ j => simpa using hr j q (by simpa using hq)
    · rintro ⟨hl, hr⟩
      obtain ⟨y, hy, hy'⟩ := hr 0 p rfl
      cases ys with
      | nil => simp at hl
      | cons y' ys =>
        simp only [List.getElem?_cons_zero, Option.some.injEq] at hy; subst hy
        refine ⟨y', hy', ys, ih.2 ⟨by simpa using hl, ?_⟩, rfl⟩
        intro j q hq
        simpa using hr (j + 1) q (by simpa using hq)

/-- In the tree that `where` sees, no object is inside an object with the same identity. -/
theorem at_not_above {env : Env K α} {isLeaf : Obj K α → Bool} {t : PT K (Val α)} {i ρ σ}
    (h : At (seen2 env isLeaf t) i ρ) (h' : At (seen2 env isLeaf t) i (ρ ++ σ)) : σ = [] := by
  rcases at_seen2 h with h0 | h0
  · subst h0
    obtain ⟨z, hz, e⟩ := h
    have := (at_none hz).1 e
    subst this
    obtain ⟨w, hw, _⟩ := h'
    rw [get?_append, hz] at hw
    cases σ with
    | nil => rfl
    | cons => simp [get?] at hw
  · rcases at_seen2 h' with h1 | h1
    · rw [h0] at h1; exact absurd h1 (by simp)
    · rw [h0] at h1
      simp only [Id.made.injEq, true_and] at h1
      have h3 := congrArg List.length h1
      rw [List.length_append] at h3
      exact List.eq_nil_of_length_eq_zero (by omega)

/-- The tree which `where` sees contains no object made by the caller. -/
theorem not_at_given {env : Env K α} {isLeaf : Obj K α → Bool} {t : PT K (Val α)} {n π} :
    ¬ At (seen2 env isLeaf t) (.given n) π := by
  intro h
  rcases at_seen2 h with h | h <;> simp at h

/-- Where the objects at several positions are, if nothing is selected inside something selected. -/
theorem topmost_many {env : Env K α} {isLeaf : Obj K α → Bool} {t : PT K (Val α)} {ps ys}
    (hys : getAll (seen2 env isLeaf t) ps = some ys)
    (hapart : ∀ p ∈ ps, ∀ p' ∈ ps, p <+: p' → p = p')
    {j : Nat} {p y} (hp : ps[j]? = some p) (hy : ys[j]? = some y)
    (hn : ∀ q ∈ ps, ∀ p', (seen2 env isLeaf t).get? q = some .none → (seen2 env isLeaf t).get? p' = some .none → p' = q) :
    ∀ π, Topmost (seen2 env isLeaf t) (ys.map idOf) (idOf y) π ↔ π = p := by
  obtain ⟨hl, hall⟩ := getAll_eq.1 hys
  have hpm := List.mem_of_getElem? hp
  have hat : ∀ (k : Nat) q z, ps[k]? = some q → ys[k]? = some z → ∀ π, At (seen2 env isLeaf t) (idOf z) π ↔ π = q := by
    intro k q z hq hz
    obtain ⟨z', hz', hg⟩ := hall k q hq
    rw [hz] at hz'; cases hz'
    exact at_of_get hg (fun e p' hp' => hn q (List.mem_of_getElem? hq) p' (by rw [hg, e]) hp')
  intro π
  constructor
  · intro ht; exact (hat j p y hp hy π).1 ht.1
  · rintro rfl
    refine ⟨(hat j π y hp hy π).2 rfl, ?_⟩
    intro ρ σ i hρ hσ hi hatρ
    rw [List.mem_map] at hi
    obtain ⟨z, hz, rfl⟩ := hi
    obtain ⟨k, hk, hk'⟩ := List.getElem_of_mem hz
    have hk2 : ps[k]? = some (ps[k]'(by omega)) := List.getElem?_eq_getElem (by omega)
    have e := (hat k _ z hk2 (by rw [List.getElem?_eq_getElem hk, hk']) ρ).1 hatρ
    have := hapart (ps[k]'(by omega)) (List.getElem_mem _) π hpm ⟨σ, by rw [← e, hρ]⟩
    rw [← e] at this
    rw [this] at hρ
    have h3 := congrArg List.length hρ
    rw [List.length_append] at h3
    exact hσ (List.eq_nil_of_length_eq_zero (by omega))

/-- Selecting several positions and replacing them succeeds, ... -/
theorem tree_at_many_succeeds {env : Env K α} {isLeaf : Obj K α → Bool} {t r : PT K (Val α)} {ps rs n k}
    (h : ReachableAll env isLeaf t ps)
    (htuple : ∀ ys, env.nodes (.node (.given n, k) ys) = .ok ys)
    (hleaf : ∀ ys, isLeaf (.node (.given n, k) ys) = false)
    (hrs : env.items r = .ok rs) (hlen : rs.length = ps.length) :
    Except.Ok (treeAt env (selectMany k n ps) isLeaf t (.replace r)) := by
  have hget : ∃ ys, getAll (seen2 env isLeaf t) ps = some ys := by
    have : ∀ qs : List (List Nat), (∀ q ∈ qs, q ∈ ps) → ∃ ys, getAll (seen2 env isLeaf t) qs = some ys := by
      intro qs
      induction qs with
      | nil => intro _; exact ⟨[], rfl⟩
      | cons q qs ih =>
        intro hq
        obtain ⟨y, hy, _⟩ := h.each q (hq q (by simp))
        obtain ⟨ys, hys⟩ := ih (fun a ha => hq a (List.mem_cons_of_mem _ ha))
        exact ⟨y :: ys, by simp [getAll, hy, hys]⟩
    exact this ps (fun _ h => h)
  obtain ⟨ys, hys⟩ := hget
  obtain ⟨rs1, hrs1, hc⟩ := checkWhere_many hys k n hleaf
  obtain ⟨hl, hall⟩ := getAll_eq.1 hys
  have hnone : ∀ q ∈ ps, ∀ p', (seen2 env isLeaf t).get? q = some .none → (seen2 env isLeaf t).get? p' = some .none → p' = q := by
    intro q hq p' h1 h2
    obtain ⟨y, hy, hn⟩ := h.each q hq
    rw [h1] at hy; cases hy
    exact hn rfl p' h2
  obtain ⟨out, hout⟩ := replaceNodes_complete (env := env) (isLeaf := isLeaf) (t := t) (ids := ys.map idOf)
    (fns := rs.map (fun r _ => .ok (r.map (fun v => Raw.obj v.1 v.2)))) (by simp; omega)
    (by
      intro i hi
      rw [List.mem_map] at hi
      obtain ⟨y, hy, rfl⟩ := hi
      obtain ⟨j, hj, hj'⟩ := List.getElem_of_mem hy
      have hjp : ps[j]? = some (ps[j]'(by omega)) := List.getElem?_eq_getElem (by omega)
      have := topmost_many hys h.apart hjp (by rw [List.getElem?_eq_getElem hj, hj']) hnone
      exact ⟨ps[j]'(by omega), (this _).2 rfl, fun π' h' => (this π').1 h'⟩)
    (by
      intro f hf π y' _ _
      rw [List.mem_map] at hf
      obtain ⟨r', _, rfl⟩ := hf
      exact ⟨_, rfl⟩)
  refine ⟨out, treeAt_ok.2 ⟨_, _, false, ys, _, ?_, ?_, hc, ?_, ?_, hout⟩⟩
  · simp [selectMany, hrs1]
  · simp [selectMany, hys]
  · have : ¬ occurs (idOf (.node (.given n, k) ys)) (seen2 env isLeaf t) = true := by
      rw [occurs_iff]; rintro ⟨π, hπ⟩; exact not_at_given hπ
    unfold selected
    rw [if_neg this, htuple]
  · exact replaceFns_replace.2 ⟨rs, by simp [hrs], by omega, rfl⟩

/-- What happens at several positions, none inside another. -/
theorem many_positions {env : Env K α} {isLeaf : Obj K α → Bool} {t : PT K (Val α)} {repl ps n out k}
    (hodd : NoOddTuples env t) (hps : ps.Nodup) (hapart : ∀ p ∈ ps, ∀ p' ∈ ps, p <+: p' → p = p')
    (htuple : ∀ ys, env.nodes (.node (.given n, k) ys) = .ok ys)
    (h : treeAt env (selectMany k n ps) isLeaf t repl = .ok out) :
    (∀ (j : Nat) p, ps[j]? = some p → ∃ z, New env false ps.length t repl j p z ∧ out.get? p = some z) ∧
    (∀ π, (∀ p ∈ ps, ¬ p <+: π) → out.headAt? π = t.headAt? π) := by
  obtain ⟨r2, single, nodes, h2, hsel, hR⟩ := tree_at_replaces hodd h
  unfold selectMany at h2
  split at h2
  · rename_i ys hys
    simp only [Except.ok.injEq] at h2; subst h2
    rcases hsel with ⟨_, _, π, hπ⟩ | ⟨rfl, hns, _⟩
    · exact absurd hπ not_at_given
    · rw [htuple] at hns
      simp only [Except.ok.injEq] at hns; subst hns
      obtain ⟨hl, hall⟩ := getAll_eq.1 hys
      -- every selected position is topmost
      have htop : ∀ (j : Nat) p y, ps[j]? = some p → ys[j]? = some y →
          Topmost (seen2 env isLeaf t) (ys.map idOf) (idOf y) p := by
        intro j p y hp hy
        obtain ⟨y', hy', hg⟩ := hall j p hp
        rw [hy] at hy'; cases hy'
        refine ⟨⟨y, hg, rfl⟩, ?_⟩
        intro ρ σ i hρ hσ hi hatρ
        rw [List.mem_map] at hi
        obtain ⟨z, hz, rfl⟩ := hi
        obtain ⟨k, hk, hk'⟩ := List.getElem_of_mem hz
        have hk2 : ps[k]? = some (ps[k]'(by omega)) := List.getElem?_eq_getElem (by omega)
        obtain ⟨z', hz', hgz⟩ := hall k _ hk2
        rw [List.getElem?_eq_getElem hk, hk'] at hz'; cases hz'
        rcases at_seen2 hatρ with h0 | h0
        · -- nothing is inside `None`
          obtain ⟨w, hw, e⟩ := hatρ
          rw [h0] at e
          have := (at_none hw).1 e
          subst this
          rw [hρ, get?_append, hw] at hg
          cases σ with
          | nil => exact hσ rfl
          | cons => simp [get?] at hg
        · rcases at_seen2 ⟨_, hgz, rfl⟩ with h1 | h1
          · rw [h0] at h1; exact absurd h1 (by simp)
          · rw [h0] at h1
            simp only [Id.made.injEq, true_and] at h1
            have := hapart (ps[k]'(by omega)) (List.getElem_mem _) p (List.mem_of_getElem? hp) ⟨σ, by rw [← h1, hρ]⟩
            rw [← h1] at this
            rw [this] at hρ
            have h3 := congrArg List.length hρ
            rw [List.length_append] at h3
            exact hσ (List.eq_nil_of_length_eq_zero (by omega))
      have hidx : ∀ (j : Nat) i, (ys.map idOf)[j]? = some i → ∃ p y, ps[j]? = some p ∧ ys[j]? = some y ∧ idOf y = i := by
        intro j i hj
        rw [List.getElem?_map, Option.map_eq_some_iff] at hj
        obtain ⟨y, hy, rfl⟩ := hj
        have hjl : j < ys.length := (List.getElem?_eq_some_iff.1 hy).1
        exact ⟨ps[j]'(by omega), y, List.getElem?_eq_getElem (by omega), hy, rfl⟩
      constructor
      · intro j p hp
        obtain ⟨y, hy, hg⟩ := hall j p hp
        have := hR.put j (idOf y) p (by simp [hy]) (by
          intro j' hj' e
          obtain ⟨p', y', hp', hy', e'⟩ := hidx j' _ e
          obtain ⟨π0, _, hu⟩ := hR.once (idOf y) (List.mem_map.2 ⟨y, List.mem_of_getElem? hy, rfl⟩)
          have e1 := hu p (htop j p y hp hy)
          have e2 := hu p' (e' ▸ htop j' p' y' hp' hy')
          rw [← e1] at e2
          subst e2
          have hlt : j < ps.length := (List.getElem?_eq_some_iff.1 hp).1
          have hlt' : j' < ps.length := (List.getElem?_eq_some_iff.1 hp').1
          rw [List.getElem?_eq_getElem hlt] at hp
          rw [List.getElem?_eq_getElem hlt'] at hp'
          have : ps[j] = ps[j'] := by rw [Option.some.injEq] at hp hp'; rw [hp, hp']
          have := (List.getElem_inj hps).1 this
          omega) (htop j p y hp hy)
        rw [hl] at this
        exact this
      · intro π hπ
        apply hR.frame
        intro i hi σ ρ hσ ht
        obtain ⟨j, hj, hj'⟩ := List.getElem_of_mem hi
        obtain ⟨p, y, hp, hy, e⟩ := hidx j i (by rw [List.getElem?_eq_getElem hj, hj'])
        subst e
        obtain ⟨π0, _, hu⟩ := hR.once _ hi
        have e1 := hu σ ht
        have e2 := hu p (htop j p y hp hy)
        exact hπ p (List.mem_of_getElem? hp) ⟨ρ, by rw [hσ, e1, e2]⟩
  · exact absurd h2 (by simp)

/-- ... and then each of them has been replaced by its replacement, and nothing else has changed. -/
theorem tree_at_many_put_get {env : Env K α} {isLeaf : Obj K α → Bool} {t r : PT K (Val α)} {ps rs n out k}
    (hodd : NoOddTuples env t) (hps : ps.Nodup) (hapart : ∀ p ∈ ps, ∀ p' ∈ ps, p <+: p' → p = p')
    (htuple : ∀ ys, env.nodes (.node (.given n, k) ys) = .ok ys) (hrs : env.items r = .ok rs)
    (h : treeAt env (selectMany k n ps) isLeaf t (.replace r) = .ok out) :
    (∀ (j : Nat) p, ps[j]? = some p → ∃ z, rs[j]? = some z ∧ out.get? p = some z) ∧
    (∀ π, (∀ p ∈ ps, ¬ p <+: π) → out.headAt? π = t.headAt? π) := by
  obtain ⟨h1, h2⟩ := many_positions hodd hps hapart htuple h
  refine ⟨?_, h2⟩
  intro j p hp
  obtain ⟨z, hz, hz'⟩ := h1 j p hp
  simp only [New, Bool.false_eq_true, if_false] at hz
  obtain ⟨rs', h3, _, h4⟩ := hz
  rw [hrs, Except.ok.injEq] at h3; subst h3
  exact ⟨z, h4, hz'⟩

/-- With `replace_fn`, each of them is replaced by the function's value on the original node. -/
theorem tree_at_many_replace_fn {env : Env K α} {isLeaf : Obj K α → Bool} {t : PT K (Val α)} {f ps n out k}
    (hodd : NoOddTuples env t) (hps : ps.Nodup) (hapart : ∀ p ∈ ps, ∀ p' ∈ ps, p <+: p' → p = p')
    (htuple : ∀ ys, env.nodes (.node (.given n, k) ys) = .ok ys)
    (h : treeAt env (selectMany k n ps) isLeaf t (.replaceFn f) = .ok out) :
    (∀ p ∈ ps, ∃ x y, t.get? p = some (restore env.tuple x) ∧ f x = .ok y ∧ out.get? p = some (restore env.tuple y)) ∧
    (∀ π, (∀ p ∈ ps, ¬ p <+: π) → out.headAt? π = t.headAt? π) := by
  obtain ⟨h1, h2⟩ := many_positions hodd hps hapart htuple h
  refine ⟨?_, h2⟩
  intro p hp
  obtain ⟨j, hj, rfl⟩ := List.getElem_of_mem hp
  obtain ⟨z, hz, hz'⟩ := h1 j _ (List.getElem?_eq_getElem hj)
  simp only [New] at hz
  obtain ⟨x, w, hx, hw, rfl⟩ := hz
  exact ⟨x, w, hx, hw, hz'⟩

omit [DecidableEq K] in
/-- A tree is determined by what is outside of some positions and by the subtrees there. -/
theorem eq_of_outside_all {t u : PT K (Val α)} {ps : List (List Nat)} (h : ∀ p ∈ ps, t.get? p = u.get? p)
    (ho : ∀ π, (∀ p ∈ ps, ¬ p <+: π) → t.headAt? π = u.headAt? π) : t = u := by
  apply ext_headAt?
  intro π
  by_cases hp : ∃ p ∈ ps, p <+: π
  · obtain ⟨p, hp, ρ, rfl⟩ := hp
    simp only [headAt?, get?_append, h p hp]
  · exact ho π (fun p hpm hpre => hp ⟨p, hpm, hpre⟩)

/-- Putting back what is at several positions gives the original tree. -/
theorem tree_at_many_get_put {env : Env K α} {isLeaf : Obj K α → Bool} {t r : PT K (Val α)} {ps rs n out k}
    (hodd : NoOddTuples env t) (hps : ps.Nodup) (hapart : ∀ p ∈ ps, ∀ p' ∈ ps, p <+: p' → p = p')
    (htuple : ∀ ys, env.nodes (.node (.given n, k) ys) = .ok ys) (hrs : env.items r = .ok rs)
    (hget : ∀ (j : Nat) p, ps[j]? = some p → t.get? p = rs[j]?)
    (h : treeAt env (selectMany k n ps) isLeaf t (.replace r) = .ok out) : out = t := by
  obtain ⟨h1, h2⟩ := tree_at_many_put_get hodd hps hapart htuple hrs h
  refine eq_of_outside_all ?_ h2
  intro p hp
  obtain ⟨j, hj, rfl⟩ := List.getElem_of_mem hp
  obtain ⟨z, hz, hz'⟩ := h1 j _ (List.getElem?_eq_getElem hj)
  rw [hz', hget j _ (List.getElem?_eq_getElem hj), hz]

/-- Replacing several positions twice is replacing them once. -/
theorem tree_at_many_put_put {env : Env K α} {isLeaf isLeaf' isLeaf'' : Obj K α → Bool} {t r r' : PT K (Val α)}
    {ps rs rs' n out out' out''} (hodd : NoOddTuples env t) (hodd' : NoOddTuples env out)
    (hps : ps.Nodup) (hapart : ∀ p ∈ ps, ∀ p' ∈ ps, p <+: p' → p = p')
    (htuple : ∀ ys, env.nodes (.node (.given n, k) ys) = .ok ys)
    (hrs : env.items r = .ok rs) (hrs' : env.items r' = .ok rs')
    (h : treeAt env (selectMany k n ps) isLeaf t (.replace r) = .ok out)
    (h' : treeAt env (selectMany k n ps) isLeaf' out (.replace r') = .ok out')
    (h'' : treeAt env (selectMany k n ps) isLeaf'' t (.replace r') = .ok out'') : out' = out'' := by
  obtain ⟨a1, a2⟩ := tree_at_many_put_get hodd hps hapart htuple hrs h
  obtain ⟨b1, b2⟩ := tree_at_many_put_get hodd' hps hapart htuple hrs' h'
  obtain ⟨c1, c2⟩ := tree_at_many_put_get hodd hps hapart htuple hrs' h''
  refine eq_of_outside_all (ps := ps) ?_ ?_
  · intro p hp
    obtain ⟨j, hj, rfl⟩ := List.getElem_of_mem hp
    obtain ⟨z, hz, hz'⟩ := b1 j _ (List.getElem?_eq_getElem hj)
    obtain ⟨w, hw, hw'⟩ := c1 j _ (List.getElem?_eq_getElem hj)
    rw [hz', hw', ← hz, hw]
  · intro π hπ
    rw [b2 π hπ, a2 π hπ, c2 π hπ]

/-! ### Errors -/

theorem raises_iff {env : Env K α} {wh isLeaf} {t : PT K (Val α)} {repl} :
    (∃ e, treeAt env wh isLeaf t repl = .error e) ↔ ∀ out, treeAt env wh isLeaf t repl ≠ .ok out := by
  cases treeAt env wh isLeaf t repl <;> simp

/-- If a tree is returned, every selected node was found exactly once, ... -/
theorem tree_at_once {env : Env K α} {wh isLeaf} {t : PT K (Val α)} {repl out r2 single nodes}
    (h : treeAt env wh isLeaf t repl = .ok out) (h2 : wh (seen2 env isLeaf t) = .ok r2)
    (hsel : selected env (seen2 env isLeaf t) r2 = .ok (single, nodes)) :
    ∀ y ∈ nodes, ∃ π, Topmost (seen2 env isLeaf t) (nodes.map idOf) (idOf y) π ∧
      ∀ π', Topmost (seen2 env isLeaf t) (nodes.map idOf) (idOf y) π' → π' = π := by
  obtain ⟨r1', r2', single', nodes', fns, h1', h2', h3, h4, h5, h6⟩ := treeAt_ok.1 h
  rw [h2] at h2'; cases h2'
  rw [hsel] at h4; cases h4
  intro y hy
  exact replaceNodes_once h6 (idOf y) (List.mem_map.2 ⟨y, hy, rfl⟩)

/-- so an error is raised if something selected is not in the tree, -/
theorem tree_at_raises_not_a_node {env : Env K α} {wh isLeaf} {t : PT K (Val α)} {repl r2 single nodes y}
    (h2 : wh (seen2 env isLeaf t) = .ok r2) (hsel : selected env (seen2 env isLeaf t) r2 = .ok (single, nodes))
    (hy : y ∈ nodes) (hno : ∀ π, ¬ At (seen2 env isLeaf t) (idOf y) π) :
    ∃ e, treeAt env wh isLeaf t repl = .error e := by
  rw [raises_iff]
  intro out h
  obtain ⟨π, ht, _⟩ := tree_at_once h h2 hsel y hy
  exact hno π ht.1

/-- or if something selected, other than `None`, is inside something selected, -/
theorem tree_at_raises_nested_partial {env : Env K α} {wh isLeaf} {t : PT K (Val α)} {repl r2 single nodes y y' ρ σ}
    (h2 : wh (seen2 env isLeaf t) = .ok r2) (hsel : selected env (seen2 env isLeaf t) r2 = .ok (single, nodes))
    (hy : y ∈ nodes) (hy' : y' ∈ nodes) (hat : At (seen2 env isLeaf t) (idOf y) ρ)
    (hat' : At (seen2 env isLeaf t) (idOf y') (ρ ++ σ)) (hσ : σ ≠ []) (hnone : idOf y' ≠ .none) :
    ∃ e, treeAt env wh isLeaf t repl = .error e := by
  rw [raises_iff]
  intro out h
  obtain ⟨π, ht, _⟩ := tree_at_once h h2 hsel y' hy'
  have e : π = ρ ++ σ := by
    rcases at_seen2 hat' with h0 | h0
    · exact absurd h0 hnone
    · rcases at_seen2 ht.1 with h1 | h1
      · exact absurd h1 hnone
      · rw [h0] at h1
        simp only [Id.made.injEq, true_and] at h1
        exact h1.symm
  exact ht.2 ρ σ (idOf y) e hσ (List.mem_map.2 ⟨y, hy, rfl⟩) hat

/-- or if a selected `None` is at two places (neither of them inside something else selected). -/
theorem tree_at_raises_ambiguous_partial {env : Env K α} {wh isLeaf} {t : PT K (Val α)} {repl r2 single nodes y π π'}
    (h2 : wh (seen2 env isLeaf t) = .ok r2) (hsel : selected env (seen2 env isLeaf t) r2 = .ok (single, nodes))
    (hy : y ∈ nodes) (hat : Topmost (seen2 env isLeaf t) (nodes.map idOf) (idOf y) π)
    (hat' : Topmost (seen2 env isLeaf t) (nodes.map idOf) (idOf y) π') (hne : π ≠ π') :
    ∃ e, treeAt env wh isLeaf t repl = .error e := by
  rw [raises_iff]
  intro out h
  obtain ⟨π0, _, hu⟩ := tree_at_once h h2 hsel y hy
  exact hne ((hu π hat).trans (hu π' hat').symm)

/-- In particular selecting just a `None` which is not the only one in sight is an error. -/
theorem tree_at_raises_none_twice {env : Env K α} {isLeaf} {t : PT K (Val α)} {repl p p'}
    (hp : (seen2 env isLeaf t).get? p = some .none) (hp' : (seen2 env isLeaf t).get? p' = some .none) (hne : p ≠ p') :
    ∃ e, treeAt env (selectOne p) isLeaf t repl = .error e := by
  have hat : At (seen2 env isLeaf t) Id.none p := ⟨_, hp, rfl⟩
  have hat' : At (seen2 env isLeaf t) Id.none p' := ⟨_, hp', rfl⟩
  have htop : ∀ q, At (seen2 env isLeaf t) Id.none q → Topmost (seen2 env isLeaf t) [Id.none] Id.none q := by
    intro q hq
    refine ⟨hq, ?_⟩
    intro ρ σ j hρ hσ hj hatρ
    simp only [List.mem_singleton] at hj; subst hj
    exact hσ (at_not_above hatρ (hρ ▸ hq))
  refine tree_at_raises_ambiguous_partial (r2 := .none) (single := true) (nodes := [.none]) (y := .none)
    (π := p) (π' := p') ?_ ?_ (by simp) (htop p hat) (htop p' hat') hne
  · simp [selectOne, hp]
  · have : occurs Id.none (seen2 env isLeaf t) = true := (occurs_iff _ _).2 ⟨p, hat⟩
    simp only [selected, idOf, this, if_true]

/-- For one position, these are all the errors. -/
theorem tree_at_one_iff {env : Env K α} {isLeaf} {t r : PT K (Val α)} {p} :
    Except.Ok (treeAt env (selectOne p) isLeaf t (.replace r)) ↔ Reachable env isLeaf t p := by
  refine ⟨?_, tree_at_succeeds⟩
  rintro ⟨out, h⟩
  obtain ⟨r1', r2', single', nodes', fns, h1', h2', h3, h4, h5, h6⟩ := treeAt_ok.1 h
  unfold selectOne at h2'
  split at h2'
  · rename_i y hy
    refine ⟨y, hy, ?_⟩
    rintro rfl p' hp'
    apply Decidable.byContradiction
    intro hne
    obtain ⟨e, he⟩ := tree_at_raises_none_twice (repl := .replace r) hy hp' (fun h => hne h.symm)
    rw [h] at he
    exact absurd he (by simp)
  · exact absurd h2' (by simp)

/-- An error is raised if neither or both of `replace` and `replace_fn` are given, -/
theorem tree_at_raises_neither_both {env : Env K α} {wh isLeaf} {t : PT K (Val α)} {repl}
    (h : repl = .neither ∨ repl = .both) : ∃ e, treeAt env wh isLeaf t repl = .error e := by
  rw [raises_iff]
  intro out ho
  obtain ⟨_, _, _, _, _, _, _, _, _, h5, _⟩ := treeAt_ok.1 ho
  rcases h with rfl | rfl <;> simp [replaceFns] at h5

/-- or if the number of replacements is not the number of nodes, -/
theorem tree_at_raises_count {env : Env K α} {wh isLeaf} {t r : PT K (Val α)} {r2 nodes rs}
    (h2 : wh (seen2 env isLeaf t) = .ok r2) (hsel : selected env (seen2 env isLeaf t) r2 = .ok (false, nodes))
    (hrs : env.items r = .ok rs) (hne : rs.length ≠ nodes.length) :
    ∃ e, treeAt env wh isLeaf t (.replace r) = .error e := by
  rw [raises_iff]
  intro out ho
  obtain ⟨r1', r2', single', nodes', fns, h1', h2', h3, h4, h5, h6⟩ := treeAt_ok.1 ho
  rw [h2] at h2'; cases h2'
  rw [hsel] at h4; cases h4
  obtain ⟨rs', h7, h8, _⟩ := replaceFns_replace.1 h5
  simp only [Bool.false_eq_true, if_false, hrs, Except.ok.injEq] at h7
  subst h7
  exact hne h8

/-- or if what `where` returns depends on whether the leaves are wrapped: the second time it must return wrapped leaves,
with the same structure around, and the objects inside of the wrappers must be those that it returned the first
time. -/
theorem tree_at_where_agrees {env : Env K α} {wh isLeaf} {t : PT K (Val α)} {repl out r1 r2}
    (h1 : wh (plain (seen1 env t)) = .ok r1) (h2 : wh (seen2 env isLeaf t) = .ok r2)
    (h : treeAt env wh isLeaf t repl = .ok out) :
    structureOf isLeaf r1 = structureOf noLeaf r2 ∧
    (r1.treeLeaves isLeaf).length = r2.leaves.length ∧
    ∀ (j : Nat) l, r2.leaves[j]? = some l → ∃ i c l1, l = .wrap i c ∧ (r1.treeLeaves isLeaf)[j]? = some l1 ∧
      idOf l1 = idOf (plain c) := by
  obtain ⟨r1', r2', single', nodes', fns, h1', h2', h3, h4, h5, h6⟩ := treeAt_ok.1 h
  rw [h1] at h1'; cases h1'
  rw [h2] at h2'; cases h2'
  simp only [checkWhere, bind, Except.bind] at h3
  split at h3
  · exact absurd h3 (by simp)
  · rename_i cs hcs
    have hl : r2.treeLeaves noLeaf = r2.leaves.map PT.leaf := by
      unfold treeLeaves; rw [cut_noLeaf, leaves_map]
    rw [hl, mapE_ok] at hcs
    split at h3
    · exact absurd h3 (by simp)
    · rename_i hn
      have hs : structureOf isLeaf r1 = structureOf noLeaf r2 :=
        Decidable.byContradiction (fun hne => hn (.inl hne))
      have hi : (r1.treeLeaves isLeaf).map idOf = cs.map (fun c => idOf (plain c)) :=
        Decidable.byContradiction (fun hne => hn (.inr hne))
      have hlen := congrArg List.length hi
      simp only [List.length_map] at hlen hcs
      refine ⟨hs, by rw [hlen]; exact hcs.1, ?_⟩
      intro j l hj
      obtain ⟨c, hc, hw⟩ := hcs.2 j (.leaf l) (by simp [hj])
      cases l with
      | plain r => simp [removeWrapper] at hw
      | wrap i c' =>
        simp only [removeWrapper, Except.ok.injEq] at hw
        subst hw
        have hjl : j < (r1.treeLeaves isLeaf).length := by
          rw [hlen]; exact (List.getElem?_eq_some_iff.1 hc).1
        refine ⟨i, c', _, rfl, List.getElem?_eq_getElem hjl, ?_⟩
        have := congrArg (·[j]?) hi
        simp only [List.getElem?_map, hc, List.getElem?_eq_getElem hjl, Option.map_some, Option.some.injEq] at this
        exact this

/-- A `where` that returns nothing to replace leaves the tree alone. -/
theorem tree_at_nothing {env : Env K α} {wh isLeaf} {t : PT K (Val α)} {repl out r2 single}
    (hodd : NoOddTuples env t) (h2 : wh (seen2 env isLeaf t) = .ok r2)
    (hsel : selected env (seen2 env isLeaf t) r2 = .ok (single, []))
    (h : treeAt env wh isLeaf t repl = .ok out) : out = t := by
  obtain ⟨r1', r2', single', nodes', fns, h1', h2', h3, h4, h5, h6⟩ := treeAt_ok.1 h
  rw [h2] at h2'; cases h2'
  rw [hsel] at h4; cases h4
  have hR := replaceNodes_ok hodd (by simpa using replaceFns_length h5) h6
  apply ext_headAt?
  intro π
  exact hR.frame π (by simp)

/-! ### Examples and counterexamples -/

/-- Tags are names of types, leaves are numbers; the number `999` stands for an empty instance of a subclass of
`tuple`. -/
def exEnv : Env String Nat where
  tuple := "tuple"
  emptyTuple := fun v => v == 999
  nodes := fun x => match x with | .node _ ys => .ok ys | _ => .error .typeError
  items := fun x => match x with | .node _ ys => .ok ys | _ => .error .typeError

/-- `{"a": (None, 1), "b": None, "c": [(), ()], "d": 1}`, where both `1`s are the same object. -/
def exTree : PT String (Val Nat) :=
  .node "dict" [.node "tuple" [.none, .leaf (1, 1)], .none, .node "list" [.node "tuple" [], .node "tuple" []],
    .leaf (1, 1)]

example : NoOddTuples exEnv exTree := by
  intro π v hv
  have : ∀ (t : PT String (Val Nat)), (∀ v ∈ t.leaves, v.2 ≠ 999) → NoOddTuples exEnv t := by
    intro t h π v hv
    obtain ⟨i, _, hi⟩ := index_of_leafAt? hv
    have := h v (List.mem_of_getElem? (i := i) (by rw [← hi t rfl, hv]))
    simpa [exEnv] using this
  exact this exTree (by simp [exTree, leaves, leavesL]) π v hv

/-- Replacing one of two aliased leaves. -/
example : treeAt exEnv (selectOne [3]) noLeaf exTree (.replace (.leaf (7, 7))) =
    .ok (.node "dict" [.node "tuple" [.none, .leaf (1, 1)], .none,
      .node "list" [.node "tuple" [], .node "tuple" []], .leaf (7, 7)]) := by rfl

/-- Replacing one of two empty tuples. -/
example : treeAt exEnv (selectOne [2, 1]) noLeaf exTree (.replace (.leaf (7, 7))) =
    .ok (.node "dict" [.node "tuple" [.none, .leaf (1, 1)], .none,
      .node "list" [.node "tuple" [], .leaf (7, 7)], .leaf (1, 1)]) := by rfl

/-- Two nodes at once, and a function. -/
example : treeAt exEnv (selectMany "tuple" 50 [[0, 1], [2]]) noLeaf exTree
    (.replace (.node "list" [.leaf (7, 7), .none])) =
    .ok (.node "dict" [.node "tuple" [.none, .leaf (7, 7)], .none, .none, .leaf (1, 1)]) := by rfl
example : treeAt exEnv (selectMany "tuple" 50 [[0, 1], [3]]) noLeaf exTree
    (.replaceFn (fun x => .ok (.node "list" [x]))) =
    .ok (.node "dict" [.node "tuple" [.none, .node "list" [.leaf (1, 1)]], .none,
      .node "list" [.node "tuple" [], .node "tuple" []], .node "list" [.leaf (1, 1)]]) := by rfl

/-- A `None` can be replaced if `is_leaf` makes it a leaf, and not otherwise. -/
example : treeAt exEnv (selectOne [1]) isNone exTree (.replace (.leaf (7, 7))) =
    .ok (.node "dict" [.node "tuple" [.none, .leaf (1, 1)], .leaf (7, 7),
      .node "list" [.node "tuple" [], .node "tuple" []], .leaf (1, 1)]) := by rfl
example : treeAt exEnv (selectOne [1]) noLeaf exTree (.replace (.leaf (7, 7))) = .error .valueError := by rfl

/-- Nested selections, a wrong number of replacements, something which is not in the tree, a `where` that looks at the
leaves. -/
example : treeAt exEnv (selectMany "tuple" 50 [[0], [0, 1]]) noLeaf exTree
    (.replace (.node "list" [.leaf (7, 7), .leaf (8, 8)])) = .error .valueError := by rfl
example : treeAt exEnv (selectMany "tuple" 50 [[0], [3]]) noLeaf exTree
    (.replace (.node "list" [.leaf (7, 7)])) = .error .valueError := by rfl
example : treeAt exEnv (fun _ => .ok (.leaf (.plain (.obj 1 1)))) noLeaf exTree (.replace (.leaf (7, 7))) =
    .error .typeError := by rfl
example : treeAt exEnv (fun x => match x.get? [3] with
    | some (.leaf (.plain _)) => selectOne [0] x
    | _ => selectOne [2] x) noLeaf exTree (.replace (.leaf (7, 7))) = .error .valueError := by rfl

example : Reachable exEnv noLeaf exTree [2, 0] := reachable_of_get (x := .node "tuple" []) rfl (by simp)

example : ReachableAll exEnv noLeaf exTree [[0, 1], [2]] where
  each := by
    intro p hp
    simp only [List.mem_cons, List.not_mem_nil, or_false] at hp
    rcases hp with rfl | rfl
    · exact reachable_of_get (x := .leaf (1, 1)) rfl (by simp)
    · exact reachable_of_get (x := .node "list" [.node "tuple" [], .node "tuple" []]) rfl (by simp)
  apart := by decide

/-- **Finding**: a selected `None` inside another selected node is not noticed if there is one other `None`, which is
then replaced although it was not selected. Here `where` is `lambda t: (t["a"], t["a"][0])`, and `t["b"]` changes. So
`tree_at_raises_nested_partial` and `tree_at_raises_ambiguous_partial` do not hold without their hypotheses about
`None`. -/
theorem tree_at_nested_none_misedits :
    treeAt exEnv (selectMany "tuple" 50 [[0], [0, 0]]) noLeaf exTree
      (.replace (.node "list" [.leaf (7, 7), .leaf (8, 8)])) =
    .ok (.node "dict" [.leaf (7, 7), .leaf (8, 8), .node "list" [.node "tuple" [], .node "tuple" []], .leaf (1, 1)]) := by
  rfl

/-- **Finding**: a leaf which is an empty instance of a subclass of `tuple` is turned into `()` even though it was not
selected. So `NoOddTuples` cannot be dropped. -/
theorem tree_at_changes_odd_tuples :
    treeAt exEnv (selectOne [0]) noLeaf (.node "list" [.leaf (1, 1), .leaf (2, 999)]) (.replace (.leaf (7, 7))) =
    .ok (.node "list" [.leaf (7, 7), .node "tuple" []]) := by rfl

/-- Selecting a node twice is no error: the last replacement counts. -/
theorem tree_at_selected_twice :
    treeAt exEnv (selectMany "tuple" 50 [[0], [0]]) noLeaf exTree
      (.replace (.node "list" [.leaf (7, 7), .leaf (8, 8)])) =
    .ok (.node "dict" [.leaf (8, 8), .none, .node "list" [.node "tuple" [], .node "tuple" []], .leaf (1, 1)]) := by rfl

end TreeAt
end Verif
