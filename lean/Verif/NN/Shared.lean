import Verif.TreeAt.Props

/-!
# `Shared` (`equinox/nn/_shared.py`)

`where` is a function on objects as for `tree_at`; `get` is a function on trees. `filter_eval_shape(f, t)` is modelled as
evaluating `f` and replacing arrays by their shape and dtype, and `tree_equal(a, b) is True` on such trees as equality.
-/

namespace Verif
namespace Shared

open TreeAt PT

variable {K α σ : Type} [DecidableEq K] [DecidableEq σ]

/-- The three fields of `Shared` (83-85). -/
structure Shared (K α : Type) where
  pytree : PT K (Val α)
  wh : Obj K α → Except Err (Obj K α)
  get : PT K (Val α) → Except Err (PT K (Val α))

/-- A `SharedNode()` (10-14), an object which JAX regards as a leaf. -/
structure Placeholder (α : Type) where
  ident : Nat
  val : α

/-- The object that a leaf stands for. -/
def content : TreeAt.Leaf K α → PT (Id × K) (Raw α)
  | .plain r => .leaf r
  | .wrap _ c => c

/-- What `where` returned, as a tree of the caller. -/
def unplain (env : Env K α) (x : Obj K α) : PT K (Val α) := restore env.tuple (retag Prod.snd (x.map content).join)

/-- `where(pytree)`. -/
def wherePlain (env : Env K α) (wh : Obj K α → Except Err (Obj K α)) (t : PT K (Val α)) : Except Err (PT K (Val α)) := do
  let r ← wh (plain (seen1 env t))
  pure (unplain env r)

/-- `Shared.__init__` (87-146). `spec` gives shape and dtype of arrays, and other objects themselves. -/
def init (env : Env K α) (spec : α → σ) (ph : Placeholder α) (t : PT K (Val α)) (wh : Obj K α → Except Err (Obj K α))
    (get : PT K (Val α) → Except Err (PT K (Val α))) : Except Err (Shared K α) := do
  let source ← get t
  let dest ← wherePlain env wh t
  if source.map (fun v => spec v.2) = dest.map (fun v => spec v.2) then
    let stored ← treeAt env wh noLeaf t (.replaceFn (fun _ => .ok (.leaf (.obj ph.ident ph.val))))
    pure ⟨stored, wh, get⟩
  else .error .valueError

/-- `Shared.__call__` (148-158). -/
def call (env : Env K α) (s : Shared K α) : Except Err (PT K (Val α)) := do
  let v ← s.get s.pytree
  treeAt env s.wh noLeaf s.pytree (.replace v)

/-! ### Lemmas -/

omit [DecidableEq K] in
theorem unplain_plain (env : Env K α) (x : PT (Id × K) (Raw α)) :
    unplain env (plain x) = restore env.tuple (retag Prod.snd x) := by
  unfold unplain plain
  congr 2
  have h1 : (x.map TreeAt.Leaf.plain).map content = x.map (PT.leaf : Raw α → PT (Id × K) (Raw α)) := by
    induction x using PT.ind with
    | leaf a => simp [PT.map, content]
    | none => simp [PT.map]
    | node k cs ih =>
      simp only [PT.map, mapL_eq, List.map_map, PT.node.injEq, true_and]
      exact List.map_congr_left (fun c hc => ih c hc)
  rw [h1, ← cut_noLeaf, join_cut]

theorem seen1_get {env : Env K α} {t x : PT K (Val α)} {p : List Nat} (hodd : NoOddTuples env t) (h : t.get? p = some x) :
    ∃ y, (plain (seen1 env t)).get? p = some y ∧ unplain env y = x := by
  refine ⟨plain (label (newId env.tuple 1) (fun _ r => r) p (distinct env p x)), ?_, ?_⟩
  · rw [get?_plain, get?_seen1, h]; rfl
  · rw [unplain_plain, restore_seen1 env p x (hodd.get? h)]

theorem wherePlain_one {env : Env K α} {t x : PT K (Val α)} {p : List Nat} (hodd : NoOddTuples env t) (h : t.get? p = some x) :
    wherePlain env (selectOne p) t = .ok x := by
  obtain ⟨y, h1, h2⟩ := seen1_get hodd h
  simp [wherePlain, selectOne, h1, h2, bind, Except.bind, pure, Except.pure]

theorem wherePlain_many {env : Env K α} {t : PT K (Val α)} {ps : List (List Nat)} {xs : List (PT K (Val α))} {n : Nat}
    (hodd : NoOddTuples env t) (h : ps.map t.get? = xs.map some) :
    wherePlain env (selectMany env.tuple n ps) t = .ok (.node env.tuple xs) := by
  have : ∃ ys, getAll (plain (seen1 env t)) ps = some ys ∧ ys.map (unplain env) = xs := by
    induction ps generalizing xs with
    | nil =>
      cases xs with
      | nil => exact ⟨[], rfl, rfl⟩
      | cons => simp at h
    | cons p ps ih =>
      cases xs with
      | nil => simp at h
      | cons x xs =>
        simp only [List.map_cons, List.cons.injEq] at h
        obtain ⟨ys, h1, h2⟩ := ih h.2
        obtain ⟨y, h3, h4⟩ := seen1_get hodd h.1
        exact ⟨y :: ys, by simp [getAll, h1, h3], by simp [h2, h4]⟩
  obtain ⟨ys, h1, h2⟩ := this
  simp only [wherePlain, selectMany, h1, bind, Except.bind, pure, Except.pure, Except.ok.injEq]
  rw [← h2]
  simp only [unplain, PT.map, mapL_eq, join, joinL_eq, retag, retagL_eq, restore, restoreL_eq, List.map_map, PT.node.injEq,
    true_and]
  exact List.map_congr_left (fun y _ => rfl)

/-- Applying a function at several positions succeeds if it always returns. -/
theorem tree_at_many_fn_succeeds {env : Env K α} {isLeaf : Obj K α → Bool} {t : PT K (Val α)} {ps n f k}
    (hodd : NoOddTuples env t) (h : ReachableAll env isLeaf t ps)
    (htuple : ∀ ys, env.nodes (.node (.given n, k) ys) = .ok ys)
    (hleaf : ∀ ys, isLeaf (.node (.given n, k) ys) = false) (hf : ∀ x, ∃ z, f x = .ok z) :
    ∃ out, treeAt env (selectMany k n ps) isLeaf t (.replaceFn f) = .ok out := by
  have hget : ∃ ys, getAll (seen2 env isLeaf t) ps = some ys := by
    have : ∀ qs : List (List Nat), (∀ q ∈ qs, q ∈ ps) → ∃ ys, getAll (seen2 env isLeaf t) qs = some ys := by
      intro qs
      induction qs with
      | nil => intro _; exact ⟨[], rfl⟩
      | cons q qs ih =>
        intro hq
        obtain ⟨y, hy, _⟩ := h.each q (hq q (by simp))
        obtain ⟨ys, hys⟩ := ih (fun a ha => hq a (List.mem_cons_of_mem _ ha))
        exact ⟨y :: ys, by simp [getAll, hy, hys]⟩
    exact this ps (fun _ h => h)
  obtain ⟨ys, hys⟩ := hget
  obtain ⟨rs1, hrs1, hc⟩ := checkWhere_many hys k n hleaf
  obtain ⟨hl, hall⟩ := getAll_eq.1 hys
  have hnone : ∀ q ∈ ps, ∀ p', (seen2 env isLeaf t).get? q = some .none → (seen2 env isLeaf t).get? p' = some .none → p' = q := by
    intro q hq p' h1 h2
    obtain ⟨y, hy, hn⟩ := h.each q hq
    rw [h1] at hy; cases hy
    exact hn rfl p' h2
  obtain ⟨out, hout⟩ := replaceNodes_complete (env := env) (isLeaf := isLeaf) (t := t) (ids := ys.map idOf)
    (fns := List.replicate ys.length (fun x => do f (← omap PT.noLeaf removeWrapper' x))) (by simp)
    (by
      intro i hi
      rw [List.mem_map] at hi
      obtain ⟨y, hy, rfl⟩ := hi
      obtain ⟨j, hj, hj'⟩ := List.getElem_of_mem hy
      have hjp : ps[j]? = some (ps[j]'(by omega)) := List.getElem?_eq_getElem (by omega)
      have := topmost_many hys h.apart hjp (by rw [List.getElem?_eq_getElem hj, hj']) hnone
      exact ⟨ps[j]'(by omega), (this _).2 rfl, fun π' h' => (this π').1 h'⟩)
    (by
      intro g hg π y' hy' _
      have hg := (List.mem_replicate.1 hg).2
      subst hg
      obtain ⟨x, hx, -⟩ := unwrapped hodd hy'
      obtain ⟨z, hz⟩ := hf x
      exact ⟨z, by simp [bind, Except.bind, hx, hz]⟩)
  refine ⟨out, treeAt_ok.2 ⟨_, _, false, ys, _, ?_, ?_, hc, ?_, ?_, hout⟩⟩
  · simp [selectMany, hrs1]
  · simp [selectMany, hys]
  · have : ¬ occurs (idOf (.node (.given n, k) ys)) (seen2 env isLeaf t) = true := by
      rw [occurs_iff]; rintro ⟨π, hπ⟩; exact not_at_given hπ
    unfold selected
    rw [if_neg this, htuple]
  · simp [replaceFns]

/-! ### Properties: one position -/

/-- **C40**: construction succeeds exactly if the two nodes agree in structure, shapes and dtypes; it then keeps a tree with
a placeholder for the tied node, and otherwise the same. -/
theorem shared_init {env : Env K α} {spec : α → σ} {ph : Placeholder α} {t x v : PT K (Val α)} {p : List Nat}
    {get : PT K (Val α) → Except Err (PT K (Val α))} (hodd : NoOddTuples env t) (hp : Reachable env noLeaf t p)
    (hx : t.get? p = some x) (hg : get t = .ok v) :
    (v.map (fun a => spec a.2) = x.map (fun a => spec a.2) →
      ∃ s, init env spec ph t (selectOne p) get = .ok ⟨s, selectOne p, get⟩ ∧ s.get? p = some (.leaf (ph.ident, ph.val)) ∧
        ∀ π, ¬ p <+: π → s.headAt? π = t.headAt? π) ∧
    (v.map (fun a => spec a.2) ≠ x.map (fun a => spec a.2) →
      init env spec ph t (selectOne p) get = .error .valueError) := by
  have hinit : init env spec ph t (selectOne p) get =
      if v.map (fun a => spec a.2) = x.map (fun a => spec a.2) then do
        let stored ← treeAt env (selectOne p) noLeaf t (.replaceFn (fun _ => .ok (.leaf (.obj ph.ident ph.val))))
        pure ⟨stored, selectOne p, get⟩
      else .error .valueError := by
    simp only [init, hg, wherePlain_one hodd hx, bind, Except.bind]
  constructor
  · intro he
    obtain ⟨s, hs⟩ := tree_at_fn_succeeds (f := fun _ => .ok (.leaf (.obj ph.ident ph.val))) hodd hp (fun x _ => ⟨_, rfl⟩)
    obtain ⟨⟨x', y, -, hy, hg'⟩, hfr⟩ := tree_at_replace_fn hodd hs
    refine ⟨s, ?_, ?_, hfr⟩
    · rw [hinit, if_pos he, hs]; rfl
    · cases hy; exact hg'
  · intro hne
    rw [hinit, if_neg hne]

/-- **C40**: calling puts `get` of the stored tree at the place of the tied node, and changes nothing else. The stored tree
may have been changed in any way that leaves something other than `None` at that place. -/
theorem shared_call {env : Env K α} {u y v : PT K (Val α)} {p : List Nat}
    {get : PT K (Val α) → Except Err (PT K (Val α))} (hodd : NoOddTuples env u) (hy : u.get? p = some y) (hn : y ≠ .none)
    (hg : get u = .ok v) :
    ∃ out, call env ⟨u, selectOne p, get⟩ = .ok out ∧ out.get? p = some v ∧ ∀ π, ¬ p <+: π → out.headAt? π = u.headAt? π := by
  obtain ⟨out, h⟩ := tree_at_succeeds (r := v) (reachable_of_get (env := env) hy hn)
  obtain ⟨h1, h2⟩ := tree_at_put_get hodd h
  exact ⟨out, by simp only [call, hg, bind, Except.bind]; exact h, h1, h2⟩

omit [DecidableEq K] in
theorem get?_of_outside {t u : PT K (Val α)} {p q : List Nat} (ho : ∀ π, ¬ p <+: π → t.headAt? π = u.headAt? π)
    (hpq : ¬ p <+: q) (hqp : ¬ q <+: p) : t.get? q = u.get? q := by
  have hout : ∀ ρ, t.headAt? (q ++ ρ) = u.headAt? (q ++ ρ) := by
    intro ρ
    refine ho _ ?_
    intro h
    rcases List.prefix_or_prefix_of_prefix h (List.prefix_append q ρ) with h' | h'
    · exact hpq h'
    · exact hqp h'
  have h0 := hout []
  rw [List.append_nil] at h0
  cases ht : t.get? q with
  | none =>
    cases hu : u.get? q with
    | none => rfl
    | some b => simp [headAt?, ht, hu] at h0
  | some a =>
    cases hu : u.get? q with
    | none => simp [headAt?, ht, hu] at h0
    | some b =>
      congr 1
      refine ext_headAt? (fun ρ => ?_)
      have := hout ρ
      simpa [headAt?, get?_append, ht, hu] using this

/-- **C40**, tying: if `get` selects another node, then after any change of the stored tree both places hold what the stored
tree has there. -/
theorem shared_tied {env : Env K α} {u y z : PT K (Val α)} {p q : List Nat}
    {get : PT K (Val α) → Except Err (PT K (Val α))} (hodd : NoOddTuples env u) (hy : u.get? p = some y) (hn : y ≠ .none)
    (hz : u.get? q = some z) (hg : get u = .ok z) (hpq : ¬ p <+: q) (hqp : ¬ q <+: p) :
    ∃ out, call env ⟨u, selectOne p, get⟩ = .ok out ∧ out.get? p = some z ∧ out.get? q = some z := by
  obtain ⟨out, h1, h2, h3⟩ := shared_call (get := get) hodd hy hn hg
  exact ⟨out, h1, h2, by rw [get?_of_outside h3 hpq hqp, hz]⟩

omit [DecidableEq K] in
theorem shape_of_outside {t u x v : PT K (Val α)} {p : List Nat} (ho : ∀ π, ¬ p <+: π → t.shape.headAt? π = u.shape.headAt? π)
    (ht : t.get? p = some x) (hu : u.get? p = some v) (h : x.shape = v.shape) : t.shape = u.shape := by
  apply ext_headAt?
  intro π
  by_cases hp : p <+: π
  · obtain ⟨ρ, rfl⟩ := hp
    have ht' : t.shape.get? p = some x.shape := by simp only [shape, get?_map', ht]; rfl
    have hu' : u.shape.get? p = some v.shape := by simp only [shape, get?_map', hu]; rfl
    simp only [headAt?, get?_append, ht', hu', h]
  · exact ho π hp

omit [DecidableEq K] in
theorem headAt?_shape_congr {t u : PT K (Val α)} {π : List Nat} (h : t.headAt? π = u.headAt? π) :
    t.shape.headAt? π = u.shape.headAt? π := by
  simp only [shape, headAt?_map, h]

/-- **C40**, structure: after an update of the leaves, calling returns a tree of the structure of the original one, if `get`
returns a node of the structure of the one it replaces. -/
theorem shared_structure {env : Env K α} {spec : α → σ} {ph : Placeholder α} {t x u v : PT K (Val α)} {p : List Nat}
    {get : PT K (Val α) → Except Err (PT K (Val α))} {s : Shared K α} (hodd : NoOddTuples env t)
    (hx : t.get? p = some x) (hi : init env spec ph t (selectOne p) get = .ok s) (hu : u.shape = s.pytree.shape)
    (hodd' : NoOddTuples env u) (hg : get u = .ok v) (hv : v.shape = x.shape) :
    ∃ out, call env { s with pytree := u } = .ok out ∧ out.shape = t.shape := by
  simp only [init, bind, Except.bind] at hi
  split at hi
  · cases hi
  · split at hi
    · cases hi
    · split at hi
      · split at hi
        · cases hi
        · rename_i stored hs
          cases hi
          obtain ⟨⟨x', y, -, hy, hg'⟩, hfr⟩ := tree_at_replace_fn hodd hs
          cases hy
          have hup : ∃ a, u.get? p = some (.leaf a) := by
            have h1 : u.shape.get? p = some (.leaf ()) := by
              rw [hu]; simp only [shape, get?_map', hg', restore, Option.map_some, PT.map]
            simp only [shape, get?_map', Option.map_eq_some_iff] at h1
            obtain ⟨a, ha, he⟩ := h1
            cases a with
            | leaf a => exact ⟨a, ha⟩
            | none => cases he
            | node => cases he
          obtain ⟨a, ha⟩ := hup
          obtain ⟨out, h1, h2, h3⟩ := shared_call (get := get) hodd' ha (by simp) hg
          refine ⟨out, h1, ?_⟩
          refine shape_of_outside (p := p) ?_ h2 hx hv
          intro π hπ
          rw [headAt?_shape_congr (h3 π hπ), hu, headAt?_shape_congr (hfr π hπ)]
      · cases hi

/-- **C40**, round trip: if `get` returns on the stored tree what was at the tied place, then calling gives the original
tree. -/
theorem shared_round_trip {env : Env K α} {spec : α → σ} {ph : Placeholder α} {t x : PT K (Val α)} {p : List Nat}
    {get : PT K (Val α) → Except Err (PT K (Val α))} {s : Shared K α} (hodd : NoOddTuples env t)
    (hx : t.get? p = some x) (hi : init env spec ph t (selectOne p) get = .ok s) (hodd' : NoOddTuples env s.pytree)
    (hg : get s.pytree = .ok x) : call env s = .ok t := by
  simp only [init, bind, Except.bind] at hi
  split at hi
  · cases hi
  · split at hi
    · cases hi
    · split at hi
      · split at hi
        · cases hi
        · rename_i stored hs
          cases hi
          obtain ⟨⟨x', y, -, hy, hg'⟩, hfr⟩ := tree_at_replace_fn hodd hs
          cases hy
          obtain ⟨out, h1, h2, h3⟩ := shared_call (get := get) hodd' hg' (by simp [restore]) hg
          rw [h1]
          congr 1
          refine eq_of_outside (p := p) (by rw [h2, hx]) ?_
          intro π hπ
          rw [h3 π hπ, hfr π hπ]
      · cases hi

/-! ### Properties: several positions -/

/-- **C40** for several nodes, construction. -/
theorem shared_many_init {env : Env K α} {spec : α → σ} {ph : Placeholder α} {t v : PT K (Val α)} {ps : List (List Nat)}
    {xs : List (PT K (Val α))} {n : Nat} {get : PT K (Val α) → Except Err (PT K (Val α))} (hodd : NoOddTuples env t)
    (hps : ps.Nodup) (hp : ReachableAll env noLeaf t ps) (hx : ps.map t.get? = xs.map some) (hg : get t = .ok v)
    (htuple : ∀ ys, env.nodes (.node (.given n, env.tuple) ys) = .ok ys) :
    (v.map (fun a => spec a.2) = (PT.node env.tuple xs).map (fun a => spec a.2) →
      ∃ s, init env spec ph t (selectMany env.tuple n ps) get = .ok ⟨s, selectMany env.tuple n ps, get⟩ ∧
        (∀ p ∈ ps, s.get? p = some (.leaf (ph.ident, ph.val))) ∧
        ∀ π, (∀ p ∈ ps, ¬ p <+: π) → s.headAt? π = t.headAt? π) ∧
    (v.map (fun a => spec a.2) ≠ (PT.node env.tuple xs).map (fun a => spec a.2) →
      init env spec ph t (selectMany env.tuple n ps) get = .error .valueError) := by
  have hinit : init env spec ph t (selectMany env.tuple n ps) get =
      if v.map (fun a => spec a.2) = (PT.node env.tuple xs).map (fun a => spec a.2) then do
        let stored ← treeAt env (selectMany env.tuple n ps) noLeaf t (.replaceFn (fun _ => .ok (.leaf (.obj ph.ident ph.val))))
        pure ⟨stored, selectMany env.tuple n ps, get⟩
      else .error .valueError := by
    simp only [init, hg, wherePlain_many hodd hx, bind, Except.bind]
  constructor
  · intro he
    obtain ⟨s, hs⟩ := tree_at_many_fn_succeeds (f := fun _ => .ok (.leaf (.obj ph.ident ph.val))) hodd hp htuple
      (fun _ => rfl) (fun x => ⟨_, rfl⟩)
    obtain ⟨h1, h2⟩ := tree_at_many_replace_fn hodd hps hp.apart htuple hs
    refine ⟨s, ?_, ?_, h2⟩
    · rw [hinit, if_pos he, hs]; rfl
    · intro p hp
      obtain ⟨x', y, -, hy, hg'⟩ := h1 p hp
      cases hy; exact hg'
  · intro hne
    rw [hinit, if_neg hne]

/-- **C40** for several nodes, calling. -/
theorem shared_many_call {env : Env K α} {u : PT K (Val α)} {ps : List (List Nat)} {rs : List (PT K (Val α))} {n : Nat}
    {get : PT K (Val α) → Except Err (PT K (Val α))} (hodd : NoOddTuples env u) (hps : ps.Nodup)
    (hy : ∀ p ∈ ps, ∃ y, u.get? p = some y ∧ y ≠ .none) (hapart : ∀ p ∈ ps, ∀ p' ∈ ps, p <+: p' → p = p')
    (htuple : ∀ ys, env.nodes (.node (.given n, env.tuple) ys) = .ok ys)
    (hitems : ∀ ys, env.items (.node env.tuple ys) = .ok ys)
    (hg : get u = .ok (.node env.tuple rs)) (hl : rs.length = ps.length) :
    ∃ out, call env ⟨u, selectMany env.tuple n ps, get⟩ = .ok out ∧
      (∀ (j : Nat) p, ps[j]? = some p → ∃ z, rs[j]? = some z ∧ out.get? p = some z) ∧
      ∀ π, (∀ p ∈ ps, ¬ p <+: π) → out.headAt? π = u.headAt? π := by
  obtain ⟨out, h⟩ := tree_at_many_succeeds (env := env) (isLeaf := noLeaf) (t := u) (r := .node env.tuple rs) (ps := ps)
    (rs := rs) (n := n) ⟨fun p hp => by
      obtain ⟨y, h1, h2⟩ := hy p hp
      exact reachable_of_get h1 h2, hapart⟩ htuple (fun _ => rfl) (hitems rs) hl
  obtain ⟨h1, h2⟩ := tree_at_many_put_get hodd hps hapart htuple (hitems rs) h
  exact ⟨out, by simp only [call, hg, bind, Except.bind]; exact h, h1, h2⟩

/-! ### Examples -/

/-- An embedding with a weight (array 5), a linear layer with a weight and a bias; the placeholder is 0. Shapes are given
by the parity. -/
def exTree : PT String (Val Nat) := .node "tuple" [.node "Embedding" [.leaf (1, 5)], .node "Linear" [.leaf (2, 7), .leaf (3, 8)]]

def exGet (t : PT String (Val Nat)) : Except Err (PT String (Val Nat)) :=
  match t.get? [0, 0] with
  | some x => .ok x
  | Option.none => .error .attributeError

theorem odd_of_leaves {t : PT String (Val Nat)} (h : ∀ v ∈ t.leaves, v.2 ≠ 999) : NoOddTuples exEnv t := by
  intro π v hv
  obtain ⟨i, _, hi⟩ := index_of_leafAt? hv
  have := h v (List.mem_of_getElem? (i := i) (by rw [← hi t rfl, hv]))
  simpa [exEnv] using this

/-- The hypotheses of the theorems above can be met. -/
example : NoOddTuples exEnv exTree ∧ Reachable exEnv noLeaf exTree [1, 0] ∧ exTree.get? [1, 0] = some (.leaf (2, 7)) ∧
    exGet exTree = .ok (.leaf (1, 5)) ∧ (¬ [1, 0] <+: [0, 0]) ∧ (¬ [0, 0] <+: [1, 0]) :=
  ⟨odd_of_leaves (by simp [exTree, leaves, leavesL]), reachable_of_get (x := .leaf (2, 7)) rfl (by simp), rfl, rfl,
    by decide, by decide⟩
example : init exEnv (· % 2) ⟨9, 0⟩ exTree (selectOne [1, 0]) exGet =
    .ok ⟨.node "tuple" [.node "Embedding" [.leaf (1, 5)], .node "Linear" [.leaf (9, 0), .leaf (3, 8)]], selectOne [1, 0], exGet⟩ := by
  rfl
example : init exEnv (· % 2) ⟨9, 0⟩ exTree (selectOne [1, 1]) exGet = .error .valueError := by rfl
/-- After an update of the weight. -/
example : call exEnv ⟨.node "tuple" [.node "Embedding" [.leaf (4, 55)], .node "Linear" [.leaf (9, 0), .leaf (3, 8)]],
    selectOne [1, 0], exGet⟩ =
    .ok (.node "tuple" [.node "Embedding" [.leaf (4, 55)], .node "Linear" [.leaf (4, 55), .leaf (3, 8)]]) := by rfl

end Shared
end Verif
