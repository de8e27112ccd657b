import Verif.NN.RopeModel
/-!
# C41: rotary embeddings do not depend on call history

The specification of one output entry is `entry`. `rope_value_partial` shows that after any history
in which every call sharing the module's embedding size and dtype also shares its `theta`, a call
returns exactly these entries; `rope_history_partial` is the resulting history independence.

Missing from the full claim: calls of modules with different `theta`. There the claim is false, see
`Verif.Rope.rope_theta_leak` in `Verif.NN.RopeReal`.
-/

namespace Verif.Rope

variable {F D : Type}

/-! ## Specification -/

/-- `t * 1 / theta ** (2 i / e)` -/
def angle (o : Ops F D) (cfg : Cfg F D) (t i : Nat) : F :=
  o.mul (o.ofNat t) (o.div (o.ofNat 1)
    (o.pow cfg.theta (o.div (o.ofNat (2 * i)) (o.ofNat cfg.embeddingSize))))

/-- Entry `j` of the output row for position `t`, given the input row `x`: coordinate `j` is paired
with coordinate `j ± e/2`, and the pair is rotated. `xd` is the dtype of the input, `p` the dtype of
the computation. -/
def entry (o : Ops F D) (cfg : Cfg F D) (xd p : D) (x : Nat → F) (t j : Nat) : F :=
  let h := cfg.embeddingSize / 2
  let i := if j < h then j else j - h
  let partner := if j < h then o.neg (x (j + h)) else x (j - h)
  let c := o.cast cfg.dtype (o.cos (angle o cfg t i))
  let s := o.cast cfg.dtype (o.sin (angle o cfg t i))
  o.cast xd (o.cast p (o.add
    (o.cast p (o.mul (o.cast p (x j)) (o.cast p c)))
    (o.cast p (o.mul (o.cast p partner) (o.cast p s)))))

/-- The output of the module on `x` when nothing else has ever been evaluated in the process. -/
def expected (o : Ops F D) (promote : D → D → Option D) (cfg : Cfg F D) (x : Arr F D) :
    Except Err (Arr F D) :=
  if x.width ≠ cfg.embeddingSize then .error .valueError
  else match promote x.dtype cfg.dtype with
    | none => .error .valueError
    | some p => .ok ⟨x.dtype, x.width, x.rows.mapIdx fun t row =>
        (List.range x.width).map (entry o cfg x.dtype p (fun k => row[k]?.getD (o.ofNat 0)) t)⟩

/-- In the history, every call sharing the module's cache slot (embedding size and dtype) shares its
`theta`. -/
def SameTheta (cfg : Cfg F D) (h : List (Event F D)) : Prop :=
  ∀ pr cfg' x, Event.call pr cfg' x ∈ h → cfg'.embeddingSize = cfg.embeddingSize →
    cfg'.dtype = cfg.dtype → cfg'.theta = cfg.theta

/-! ## Proof -/

theorem precompute_take (o : Ops F D) (e m n : Nat) (th : F) (d : D) (h : m ≤ n) :
    ((precompute o e n th d).1.take m, (precompute o e n th d).2.take m) = precompute o e m th d := by
  simp only [precompute, ← List.map_take, List.take_range, Nat.min_eq_left h]

theorem precompute_length (o : Ops F D) (e n : Nat) (th : F) (d : D) :
    (precompute o e n th d).1.length = n := by simp [precompute]

/-- The slot of the cache belonging to `cfg` is empty or holds a table computed with `cfg.theta`. -/
def CacheOk [DecidableEq D] (o : Ops F D) (cfg : Cfg F D) (c : Cache F D) : Prop :=
  ∀ tab, c.get? (cfg.embeddingSize, cfg.dtype) = some tab →
    ∃ n, tab = precompute o cfg.embeddingSize n cfg.theta cfg.dtype

theorem lookup_fst [DecidableEq D] (o : Ops F D) (cfg : Cfg F D) (n : Nat) (c : Cache F D)
    (h : CacheOk o cfg c) :
    (lookup o cfg cfg.embeddingSize n c).1 = precompute o cfg.embeddingSize n cfg.theta cfg.dtype := by
  simp only [lookup]
  cases hg : c.get? (cfg.embeddingSize, cfg.dtype) with
  | none =>
    simp only [Dict.get?_insert, if_true, Option.getD_some, precompute_length, gt_iff_lt,
      Nat.lt_irrefl, if_false]
    exact precompute_take o _ _ _ _ _ (Nat.le_refl _)
  | some tab =>
    obtain ⟨k, rfl⟩ := h tab hg
    simp only [hg, Option.getD_some, precompute_length]
    by_cases hk : n > k
    · simp only [hk, if_true]
      exact precompute_take o _ _ _ _ _ (Nat.le_refl _)
    · simp only [hk, if_false]
      exact precompute_take o _ _ _ _ _ (by omega)

theorem lookup_snd [DecidableEq D] (o : Ops F D) (cfg cfg' : Cfg F D) (n : Nat) (c : Cache F D)
    (h : CacheOk o cfg c)
    (hs : cfg'.embeddingSize = cfg.embeddingSize → cfg'.dtype = cfg.dtype → cfg'.theta = cfg.theta) :
    CacheOk o cfg (lookup o cfg' cfg'.embeddingSize n c).2 := by
  have ins : ∀ c : Cache F D, CacheOk o cfg c → CacheOk o cfg (c.insert
      (cfg'.embeddingSize, cfg'.dtype)
      (precompute o cfg'.embeddingSize n cfg'.theta cfg'.dtype)) := by
    intro c hc tab ht
    rw [Dict.get?_insert] at ht
    by_cases hk : (cfg'.embeddingSize, cfg'.dtype) = (cfg.embeddingSize, cfg.dtype)
    · rw [if_pos hk] at ht
      injection hk with h1 h2
      injection ht with ht
      exact ⟨n, by rw [← ht, h1, h2, hs h1 h2]⟩
    · rw [if_neg hk] at ht; exact hc tab ht
  simp only [lookup]
  cases hg : c.get? (cfg'.embeddingSize, cfg'.dtype) with
  | none =>
    dsimp only
    split
    · exact ins _ (ins c h)
    · exact ins c h
  | some _ =>
    dsimp only
    split
    · exact ins c h
    · exact h

theorem call_snd [DecidableEq D] (o : Ops F D) (pr : D → D → Option D) (cfg : Cfg F D) (x : Arr F D)
    (c : Cache F D) : (call o pr cfg x c).2 =
      if x.width ≠ cfg.embeddingSize then c else (lookup o cfg x.width x.rows.length c).2 := by
  simp only [call]
  split
  · rfl
  · cases pr x.dtype cfg.dtype <;> rfl

theorem cacheOk_after [DecidableEq D] (o : Ops F D) (cfg : Cfg F D) (h : List (Event F D))
    (hs : SameTheta cfg h) : CacheOk o cfg (cacheAfter o h) := by
  suffices H : ∀ (h : List (Event F D)) (c : Cache F D), CacheOk o cfg c → SameTheta cfg h →
      CacheOk o cfg (h.foldl (fun c ev => match ev with
      | .call pr cfg x => (call o pr cfg x c).2
      | .clear => []) c) from H h [] (by intro tab ht; simp [Dict.get?] at ht) hs
  intro h
  induction h with
  | nil => intro c hc _; exact hc
  | cons ev h ih =>
    intro c hc hs
    refine ih _ ?_ fun pr cfg' x hm => hs pr cfg' x (List.mem_cons_of_mem _ hm)
    cases ev with
    | clear => intro tab ht; simp [Dict.get?] at ht
    | call pr cfg' x =>
      simp only [call_snd]
      split
      · exact hc
      · rename_i hw
        have hw : x.width = cfg'.embeddingSize := by simpa using hw
        rw [hw]
        exact lookup_snd o cfg cfg' _ c hc (hs pr cfg' x (List.mem_cons_self ..))

theorem rowwise_same (f : F → F → F) (a b : List (List F)) (h : a.length = b.length) :
    rowwise f a b = .ok (List.zipWith (List.zipWith f) a b) := by simp [rowwise, h]

/-- The rows of the result of a call whose table is the right one. -/
theorem rows_eq (o : Ops F D) (cfg : Cfg F D) (xd p : D) (x : List (List F)) (w : Nat)
    (hw : w = cfg.embeddingSize) (he : w % 2 = 0) (hx : ∀ r ∈ x, r.length = w) :
    (do
        let a ← rowwise (fun a b => o.cast p (o.mul (o.cast p a) (o.cast p b))) x
          ((precompute o w x.length cfg.theta cfg.dtype).1.map fun row => row ++ row)
        let b ← rowwise (fun a b => o.cast p (o.mul (o.cast p a) (o.cast p b)))
          (x.map (rotateHalf o w))
          ((precompute o w x.length cfg.theta cfg.dtype).2.map fun row => row ++ row)
        let s ← rowwise (fun a b => o.cast p (o.add a b)) a b
        pure (⟨xd, w, s.map fun row => row.map (o.cast xd)⟩ : Arr F D) : Except Err (Arr F D)) =
    .ok ⟨xd, w, x.mapIdx fun t row => (List.range w).map
      (entry o cfg xd p (fun k => row[k]?.getD (o.ofNat 0)) t)⟩ := by
  rw [rowwise_same _ _ _ (by simp [precompute]), rowwise_same _ _ _ (by simp [precompute])]
  simp only [bind, Except.bind]
  rw [rowwise_same _ _ _ (by simp [precompute])]
  simp only [pure, Except.pure, Except.ok.injEq, Arr.mk.injEq, true_and]
  apply List.ext_getElem
  · simp [precompute]
  intro t h1 h2
  have ht : t < x.length := by simpa using h2
  have hl : x[t].length = w := hx _ (List.getElem_mem ht)
  have hf : (freqs o w cfg.theta).length = w / 2 := by simp [freqs]; omega
  simp only [List.getElem_map, List.getElem_zipWith, List.getElem_mapIdx]
  apply List.ext_getElem
  · simp [precompute, rotateHalf, hl, hf]; omega
  intro j h3 h4
  have hj : j < w := by simpa using h4
  simp only [List.getElem_map, List.getElem_zipWith, List.getElem_range, entry, ← hw]
  by_cases hlt : j < w / 2
  · simp only [hlt, if_true]
    congr 2
    simp only [precompute, List.getElem_map, List.getElem_range, rotateHalf]
    rw [List.getElem_append_left (by simp [hf, hl]; omega),
      List.getElem_append_left (by simp [hf, hl]; omega),
      List.getElem_append_left (by simp [hf, hl]; omega)]
    have e1 : x[t][j]?.getD (o.ofNat 0) = x[t][j]'(by omega) := by
      rw [List.getElem?_eq_getElem (by omega)]; rfl
    have e2 : x[t][j + w / 2]?.getD (o.ofNat 0) = x[t][j + w / 2]'(by omega) := by
      rw [List.getElem?_eq_getElem (by omega)]; rfl
    rw [e1, e2]
    simp only [List.getElem_map, freqs, List.getElem_range, List.getElem_drop, angle, ← hw,
      Nat.add_comm (w / 2) j]
  · simp only [hlt, if_false]
    congr 2
    simp only [precompute, List.getElem_map, List.getElem_range, rotateHalf]
    rw [List.getElem_append_right (by simp [hf, hl]; omega),
      List.getElem_append_right (by simp [hf, hl]; omega),
      List.getElem_append_right (by simp [hf, hl]; omega)]
    have e1 : x[t][j]?.getD (o.ofNat 0) = x[t][j]'(by omega) := by
      rw [List.getElem?_eq_getElem (by omega)]; rfl
    have e2 : x[t][j - w / 2]?.getD (o.ofNat 0) = x[t][j - w / 2]'(by omega) := by
      rw [List.getElem?_eq_getElem (by omega)]; rfl
    rw [e1, e2]
    have e3 : w - w / 2 = w / 2 := by omega
    simp only [List.getElem_map, freqs, List.getElem_range, List.getElem_take, angle, ← hw,
      List.length_map, List.length_drop, List.length_range, hl, e3,
      show (w + 1) / 2 = w / 2 by omega]

/-! ## Theorems -/

/-- **C41** (equal `theta`). After any history in which the calls sharing the module's cache slot
share its `theta`, a call of the module returns exactly the specified rotation of its input, or the
specified error. -/
theorem rope_value_partial [DecidableEq D] (o : Ops F D) (promote : D → D → Option D) (cfg : Cfg F D)
    (he : cfg.embeddingSize % 2 = 0) (x : Arr F D) (hx : x.WF) (h : List (Event F D))
    (hs : SameTheta cfg h) :
    (call o promote cfg x (cacheAfter o h)).1 = expected o promote cfg x := by
  simp only [call, expected]
  by_cases hw : x.width ≠ cfg.embeddingSize
  · simp only [hw, if_true, not_false_eq_true, ne_eq]
  · have hw' : x.width = cfg.embeddingSize := Decidable.not_not.mp hw
    simp only [hw', ne_eq, not_true_eq_false, if_false]
    rw [lookup_fst o cfg _ _ (cacheOk_after o cfg h hs)]
    cases promote x.dtype cfg.dtype with
    | none => rfl
    | some p =>
      exact rows_eq o cfg x.dtype p x.rows cfg.embeddingSize rfl he
        (fun r hr => (hx r hr).trans hw')

/-- **C41** (equal `theta`), as history independence: two processes give the same result. -/
theorem rope_history_partial [DecidableEq D] (o : Ops F D) (promote : D → D → Option D)
    (cfg : Cfg F D) (he : cfg.embeddingSize % 2 = 0) (x : Arr F D) (hx : x.WF)
    (h h' : List (Event F D)) (hs : SameTheta cfg h) (hs' : SameTheta cfg h') :
    (call o promote cfg x (cacheAfter o h)).1 = (call o promote cfg x (cacheAfter o h')).1 := by
  rw [rope_value_partial o promote cfg he x hx h hs, rope_value_partial o promote cfg he x hx h' hs']

/-- The history before the last `eqx.clear_caches()` never matters, whatever `theta`s it used. -/
theorem rope_clear [DecidableEq D] (o : Ops F D) (promote : D → D → Option D)
    (cfg : Cfg F D) (he : cfg.embeddingSize % 2 = 0) (x : Arr F D) (hx : x.WF)
    (h h' : List (Event F D)) (hs : SameTheta cfg h') :
    (call o promote cfg x (cacheAfter o (h ++ .clear :: h'))).1 = expected o promote cfg x := by
  have : cacheAfter o (h ++ .clear :: h') = cacheAfter o h' := by
    simp [cacheAfter, List.foldl_append]
  rw [this]
  exact rope_value_partial o promote cfg he x hx h' hs

/-- Modules that can be constructed have an even embedding size; the constructor rejects exactly
negative and odd sizes. -/
theorem mk_ok_iff (e : Int) (theta : F) (dtype : D) (cfg : Cfg F D) :
    mk e theta dtype = .ok cfg ↔
      0 ≤ e ∧ e % 2 = 0 ∧ cfg = ⟨e.toNat, theta, dtype⟩ := by
  simp only [mk]
  split
  · simp; omega
  · split
    · simp; omega
    · simp only [Except.ok.injEq]
      constructor
      · rintro rfl; exact ⟨by omega, by omega, rfl⟩
      · rintro ⟨_, _, h⟩; exact h.symm

theorem mk_even (e : Int) (theta : F) (dtype : D) (cfg : Cfg F D) (h : mk e theta dtype = .ok cfg) :
    cfg.embeddingSize % 2 = 0 := by
  obtain ⟨h1, h2, rfl⟩ := (mk_ok_iff e theta dtype cfg).mp h
  simp only; omega

end Verif.Rope
