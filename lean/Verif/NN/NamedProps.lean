import Verif.NN.Named
import Mathlib.Order.BoundedOrder.Lattice
import Mathlib.Tactic.Tauto
/-!
# C104: the layers named after their number of dimensions

`conv1d_eq`, `conv2d_eq`, `conv3d_eq`: a call of `Conv2d` does what the call of `Conv` does which has the
additional first argument `2`, whatever the arguments are, errors included. `convT1d_partial`,
`convT2d_partial`, `convT3d_partial`: so does a call of `ConvTranspose2d` with at most four positional
arguments, and for `ConvTranspose3d` only if `dtype` is not passed. `convT1d_swapped` ... say what the fifth
and sixth positional argument mean; `convT3d_dtype` that the dtype has no effect. The pools are
`pool_eq`, `avg_value`, `max_value`, the adaptive pools `adaptive_avg_value`, `adaptive_max_value`,
`adaptive_init`.
-/

namespace Verif.NN.Named

variable {α ρ D K R : Type}

/-! ## Matching arguments with parameters -/

theorem lookup_cons (p : Param) (v : Val α ρ D K) (l : List (Param × Val α ρ D K)) (r : Param) :
    ((p, v) :: l).lookup r = if r = p then some v else l.lookup r := by
  rw [List.lookup_cons]
  by_cases h : r = p
  · subst h; simp
  · have : (r == p) = false := by simpa using h
    rw [this, if_neg h]

/-- The environment with one more parameter. -/
def withArg (p : Param) (v : Val α ρ D K) (e : Param → Option (Val α ρ D K)) :
    Param → Option (Val α ρ D K) := fun r => if r = p then some v else e r

/-- One more parameter in front, and one more positional argument. -/
theorem bind_cons (p : Param) (ps ko rs : List Param) (v : Val α ρ D K) (pos : List (Val α ρ D K))
    (kw : List (Param × Val α ρ D K)) (h1 : p ∉ ps) (h2 : p ∉ ko) (h3 : p ∉ rs) :
    bind ⟨p :: ps, ko⟩ (p :: rs) (v :: pos) kw = (bind ⟨ps, ko⟩ rs pos kw).map (withArg p v) := by
  unfold bind
  simp only [List.length_cons, Nat.add_lt_add_iff_right, List.take_succ_cons, List.zip_cons_cons,
    List.cons_append, List.any_cons, lookup_cons, if_true, Option.isNone_some, Bool.false_or]
  by_cases c1 : ps.length < pos.length
  · simp only [if_pos c1]; rfl
  simp only [if_neg c1]
  have e4 : (rs.any fun r => (if r = p then some v else
      (ps.zip pos ++ kw).lookup r).isNone) = rs.any fun r => ((ps.zip pos ++ kw).lookup r).isNone := by
    rw [Bool.eq_iff_iff]
    simp only [List.any_eq_true]
    constructor
    · rintro ⟨r, hr, h⟩
      exact ⟨r, hr, by rwa [if_neg (fun hh : r = p => h3 (hh ▸ hr))] at h⟩
    · rintro ⟨r, hr, h⟩
      exact ⟨r, hr, by rwa [if_neg (fun hh : r = p => h3 (hh ▸ hr))]⟩
  rw [e4]
  by_cases hp : ∃ a ∈ kw, a.1 = p
  · obtain ⟨a, ha, rfl⟩ := hp
    have c2 : (kw.any fun q => !ps.contains q.1 && !ko.contains q.1) = true :=
      List.any_eq_true.mpr ⟨a, ha, by simp [h1, h2]⟩
    have c3 : (kw.any fun q => (a.1 :: ps.take pos.length).contains q.1) = true :=
      List.any_eq_true.mpr ⟨a, ha, by simp⟩
    rw [if_pos c2, if_pos c3]
    split <;> rfl
  · have hne : ∀ q ∈ kw, q.1 ≠ p := fun q hq h => hp ⟨q, hq, h⟩
    have e2 : (kw.any fun q => !(p :: ps).contains q.1 && !ko.contains q.1) =
        kw.any fun q => !ps.contains q.1 && !ko.contains q.1 := by
      rw [Bool.eq_iff_iff]
      simp only [List.any_eq_true, Bool.and_eq_true, Bool.not_eq_true', List.contains_eq_mem,
        decide_eq_false_iff_not, List.mem_cons, not_or]
      exact ⟨fun ⟨q, hq, h⟩ => ⟨q, hq, h.1.2, h.2⟩, fun ⟨q, hq, h⟩ => ⟨q, hq, ⟨hne q hq, h.1⟩, h.2⟩⟩
    have e3 : (kw.any fun q => (p :: ps.take pos.length).contains q.1) =
        kw.any fun q => (ps.take pos.length).contains q.1 := by
      rw [Bool.eq_iff_iff]
      simp only [List.any_eq_true, List.contains_eq_mem, decide_eq_true_eq, List.mem_cons]
      exact ⟨fun ⟨q, hq, h⟩ => ⟨q, hq, h.resolve_left (hne q hq)⟩, fun ⟨q, hq, h⟩ => ⟨q, hq, .inr h⟩⟩
    rw [e2, e3]
    split <;> rename_i g1
    · rfl
    split <;> rename_i g2
    · rfl
    split <;> rename_i g3
    · rfl
    rfl

/-- Parameters after those which are passed by position may come in any order. -/
theorem bind_reorder (as bs cs ko rs : List Param) (pos : List (Val α ρ D K))
    (kw : List (Param × Val α ρ D K)) (h : pos.length ≤ as.length) (hl : bs.length = cs.length)
    (hm : ∀ p, p ∈ bs ↔ p ∈ cs) :
    bind ⟨as ++ bs, ko⟩ rs pos kw = bind ⟨as ++ cs, ko⟩ rs pos kw := by
  have hz : ∀ ds : List Param, (as ++ ds).zip pos = as.zip pos := by
    intro ds
    clear hm hl
    induction as generalizing pos with
    | nil => simp at h; subst h; simp
    | cons a as ih =>
      cases pos with
      | nil => simp
      | cons v pos => simp only [List.cons_append, List.zip_cons_cons, ih pos (by simpa using h)]
  have ht : ∀ ds : List Param, (as ++ ds).take pos.length = as.take pos.length :=
    fun ds => List.take_append_of_le_length h
  have hmem : ∀ p, (as ++ bs).contains p = (as ++ cs).contains p := by
    intro p; rw [Bool.eq_iff_iff]; simp only [List.contains_eq_mem, decide_eq_true_eq, List.mem_append, hm]
  unfold bind
  simp only [hz, ht, List.length_append, hl, hmem]

/-- Exchanging two parameters and the corresponding positional arguments. -/
theorem bind_swap (as bs ko rs : List Param) (p q : Param) (us pos : List (Val α ρ D K))
    (u v : Val α ρ D K) (kw : List (Param × Val α ρ D K)) (hl : us.length = as.length) (hpq : p ≠ q) :
    bind ⟨as ++ p :: q :: bs, ko⟩ rs (us ++ u :: v :: pos) kw =
      bind ⟨as ++ q :: p :: bs, ko⟩ rs (us ++ v :: u :: pos) kw := by
  have hz : ∀ (xs : List Param) (ys : List (Val α ρ D K)),
      (as ++ xs).zip (us ++ ys) = as.zip us ++ xs.zip ys := by
    intro xs ys; exact List.zip_append hl.symm
  have ht : ∀ (x y : Param) (a b : Val α ρ D K),
      (as ++ x :: y :: bs).take (us ++ a :: b :: pos).length = as ++ x :: y :: bs.take pos.length := by
    intro x y a b
    simp [List.take_append, hl, show as.length + (pos.length + 1 + 1) - as.length = pos.length + 1 + 1 by omega]
  have hmem : ∀ (cs : List Param) (r : Param),
      (as ++ p :: q :: cs).contains r = (as ++ q :: p :: cs).contains r := by
    intro cs r
    rw [Bool.eq_iff_iff]
    simp only [List.contains_eq_mem, decide_eq_true_eq, List.mem_append, List.mem_cons]
    tauto
  have hlook : ∀ r, ((as.zip us ++ (p, u) :: (q, v) :: bs.zip pos) ++ kw).lookup r =
      ((as.zip us ++ (q, v) :: (p, u) :: bs.zip pos) ++ kw).lookup r := by
    intro r
    rw [List.append_assoc, List.append_assoc, List.lookup_append, List.lookup_append (l₁ := as.zip us)]
    congr 1
    simp only [List.cons_append, lookup_cons]
    by_cases h1 : r = p
    · subst h1; simp [hpq]
    · simp [h1]
  unfold bind
  simp only [hz, ht, List.zip_cons_cons, hlook, hmem]
  simp only [List.length_append, List.length_cons]

/-! ## Default values -/

theorem ntuple_default (n : Nat) (c : Int) (o : Option (Val α ρ D K)) :
    ntuple n (o.getD (.seq (List.replicate n c))).toIntOrSeq = ntuple n (o.getD (.int c)).toIntOrSeq := by
  cases o with
  | none => simp [Val.toIntOrSeq, ntuple]
  | some v => rfl

theorem padding_default (n : Nat) (c : Int) (o : Option (Val α ρ D K)) :
    paddingInit n (o.getD (.seq (List.replicate n c))).toConvPad =
      paddingInit n (o.getD (.int c)).toConvPad := by
  cases o with
  | none => simp [Val.toConvPad, Val.toPadArg, paddingInit]
  | some v => rfl

theorem dim2 (c : Int) : [c, c] = List.replicate 2 c := rfl
theorem dim3 (c : Int) : [c, c, c] = List.replicate 3 c := rfl

/-! ## Convolutions -/

/-- A call of `Conv` with keyword arguments only. -/
theorem conv_kw (J : Jax R D K) (n i o k s p d g b m t r : Val α ρ D K) :
    conv J [] [(.numSpatialDims, n), (.inChannels, i), (.outChannels, o), (.kernelSize, k), (.stride, s),
      (.padding, p), (.dilation, d), (.groups, g), (.useBias, b), (.paddingMode, m), (.dtype, t),
      (.key, r)] =
    convBody J ⟨n, i, o, k, s, p, .none, d, g, b, m, t, r⟩ := rfl

/-- A call of `ConvTranspose` with keyword arguments only. -/
theorem convT_kw (J : Jax R D K) (n i o k s a p d g b m t r : Val α ρ D K) :
    convT J [] [(.numSpatialDims, n), (.inChannels, i), (.outChannels, o), (.kernelSize, k), (.stride, s),
      (.outputPadding, a), (.padding, p), (.dilation, d), (.groups, g), (.useBias, b), (.paddingMode, m),
      (.dtype, t), (.key, r)] =
    convTBody J ⟨n, i, o, k, s, p, a, d, g, b, m, t, r⟩ := rfl

theorem convT_kw' (J : Jax R D K) (n i o k s a p d g b m r : Val α ρ D K) :
    convT J [] [(.numSpatialDims, n), (.inChannels, i), (.outChannels, o), (.kernelSize, k), (.stride, s),
      (.outputPadding, a), (.padding, p), (.dilation, d), (.groups, g), (.useBias, b), (.paddingMode, m),
      (.key, r)] =
    convTBody J ⟨n, i, o, k, s, p, a, d, g, b, m, .none, r⟩ := rfl

/-- **C104** (`Conv1d`). -/
theorem conv1d_eq (J : Jax R D K) (pos : List (Val α ρ D K)) (kw : List (Param × Val α ρ D K)) :
    conv1d J pos kw = conv J (.int 1 :: pos) kw := by
  unfold conv1d
  conv => rhs; unfold conv
  rw [bind_cons _ _ _ _ _ _ _ (by decide) (by decide) (by decide)]
  cases bind (α := α) (ρ := ρ) (D := D) (K := K) _ _ pos kw with
  | error e => rfl
  | ok e =>
    simp only [Except.map, Bind.bind, Except.bind, withArg, conv_kw, reduceCtorEq, if_true, if_false, need]

/-- **C104** (`Conv2d`). -/
theorem conv2d_eq (J : Jax R D K) (pos : List (Val α ρ D K)) (kw : List (Param × Val α ρ D K)) :
    conv2d J pos kw = conv J (.int 2 :: pos) kw := by
  unfold conv2d
  conv => rhs; unfold conv
  rw [bind_cons _ _ _ _ _ _ _ (by decide) (by decide) (by decide)]
  cases bind (α := α) (ρ := ρ) (D := D) (K := K) _ _ pos kw with
  | error e => rfl
  | ok e =>
    simp only [Except.map, Bind.bind, Except.bind, withArg, conv_kw, reduceCtorEq, if_true, if_false, need,
      convBody, Conv.mk', Val.toNat, dim2, show (0 : Int) ≤ 2 from by decide, show (2 : Int).toNat = 2 from rfl,
      ntuple_default, padding_default]

/-- **C104** (`Conv3d`). -/
theorem conv3d_eq (J : Jax R D K) (pos : List (Val α ρ D K)) (kw : List (Param × Val α ρ D K)) :
    conv3d J pos kw = conv J (.int 3 :: pos) kw := by
  unfold conv3d
  conv => rhs; unfold conv
  rw [bind_cons _ _ _ _ _ _ _ (by decide) (by decide) (by decide)]
  cases bind (α := α) (ρ := ρ) (D := D) (K := K) _ _ pos kw with
  | error e => rfl
  | ok e =>
    simp only [Except.map, Bind.bind, Except.bind, withArg, conv_kw, reduceCtorEq, if_true, if_false, need,
      convBody, Conv.mk', Val.toNat, dim3, show (0 : Int) ≤ 3 from by decide, show (3 : Int).toNat = 3 from rfl,
      ntuple_default, padding_default]

/-! ## Transposed convolutions -/

/-- The order of the parameters does not matter for calls with at most four positional arguments. -/
theorem bind_T (pos : List (Val α ρ D K)) (kw : List (Param × Val α ρ D K)) (h : pos.length ≤ 4) :
    bind ⟨[.inChannels, .outChannels, .kernelSize, .stride, .outputPadding, .padding, .dilation,
      .groups, .useBias, .paddingMode, .dtype], [.key]⟩
      [.inChannels, .outChannels, .kernelSize, .key] pos kw =
    bind ⟨[.inChannels, .outChannels, .kernelSize, .stride, .padding, .outputPadding, .dilation,
      .groups, .useBias, .paddingMode, .dtype], [.key]⟩
      [.inChannels, .outChannels, .kernelSize, .key] pos kw :=
  bind_reorder [.inChannels, .outChannels, .kernelSize, .stride]
    [.outputPadding, .padding, .dilation, .groups, .useBias, .paddingMode, .dtype]
    [.padding, .outputPadding, .dilation, .groups, .useBias, .paddingMode, .dtype] _ _ pos kw h rfl
    (by intro p; simp only [List.mem_cons, List.not_mem_nil]; tauto)

/-- The same for two positional arguments more, if the fifth and the sixth are exchanged. -/
theorem bind_T' (a b c d u v : Val α ρ D K) (pos : List (Val α ρ D K)) (kw : List (Param × Val α ρ D K)) :
    bind ⟨[.inChannels, .outChannels, .kernelSize, .stride, .outputPadding, .padding, .dilation,
      .groups, .useBias, .paddingMode, .dtype], [.key]⟩
      [.inChannels, .outChannels, .kernelSize, .key] (a :: b :: c :: d :: u :: v :: pos) kw =
    bind ⟨[.inChannels, .outChannels, .kernelSize, .stride, .padding, .outputPadding, .dilation,
      .groups, .useBias, .paddingMode, .dtype], [.key]⟩
      [.inChannels, .outChannels, .kernelSize, .key] (a :: b :: c :: d :: v :: u :: pos) kw :=
  bind_swap [.inChannels, .outChannels, .kernelSize, .stride]
    [.dilation, .groups, .useBias, .paddingMode, .dtype] _ _ .outputPadding .padding [a, b, c, d] pos u v kw
    rfl (by decide)

theorem convT1d_aux (J : Jax R D K) (pos pos' : List (Val α ρ D K)) (kw : List (Param × Val α ρ D K))
    (h : bind ⟨[.inChannels, .outChannels, .kernelSize, .stride, .outputPadding, .padding, .dilation,
      .groups, .useBias, .paddingMode, .dtype], [.key]⟩
      [.inChannels, .outChannels, .kernelSize, .key] pos kw =
    bind ⟨[.inChannels, .outChannels, .kernelSize, .stride, .padding, .outputPadding, .dilation,
      .groups, .useBias, .paddingMode, .dtype], [.key]⟩
      [.inChannels, .outChannels, .kernelSize, .key] pos' kw) :
    convT1d J pos kw = convT J (.int 1 :: pos') kw := by
  unfold convT1d
  conv => rhs; unfold convT
  rw [bind_cons _ _ _ _ _ _ _ (by decide) (by decide) (by decide), h]
  cases bind (α := α) (ρ := ρ) (D := D) (K := K) _ _ pos' kw with
  | error e => rfl
  | ok e =>
    simp only [Except.map, Bind.bind, Except.bind, withArg, convT_kw, reduceCtorEq, if_true, if_false, need]

theorem convT2d_aux (J : Jax R D K) (pos pos' : List (Val α ρ D K)) (kw : List (Param × Val α ρ D K))
    (h : bind ⟨[.inChannels, .outChannels, .kernelSize, .stride, .outputPadding, .padding, .dilation,
      .groups, .useBias, .paddingMode, .dtype], [.key]⟩
      [.inChannels, .outChannels, .kernelSize, .key] pos kw =
    bind ⟨[.inChannels, .outChannels, .kernelSize, .stride, .padding, .outputPadding, .dilation,
      .groups, .useBias, .paddingMode, .dtype], [.key]⟩
      [.inChannels, .outChannels, .kernelSize, .key] pos' kw) :
    convT2d J pos kw = convT J (.int 2 :: pos') kw := by
  unfold convT2d
  conv => rhs; unfold convT
  rw [bind_cons _ _ _ _ _ _ _ (by decide) (by decide) (by decide), h]
  cases bind (α := α) (ρ := ρ) (D := D) (K := K) _ _ pos' kw with
  | error e => rfl
  | ok e =>
    simp only [Except.map, Bind.bind, Except.bind, withArg, convT_kw, reduceCtorEq, if_true, if_false, need,
      convTBody, Conv.mkTranspose, Val.toNat, dim2, show (0 : Int) ≤ 2 from by decide,
      show (2 : Int).toNat = 2 from rfl, ntuple_default, padding_default]

/-- What `ConvTranspose3d` does, for all arguments: `e` are the arguments of `ConvTranspose`, but
without the dtype. -/
theorem convT3d_aux (J : Jax R D K) (pos pos' : List (Val α ρ D K)) (kw : List (Param × Val α ρ D K))
    (h : bind ⟨[.inChannels, .outChannels, .kernelSize, .stride, .outputPadding, .padding, .dilation,
      .groups, .useBias, .paddingMode, .dtype], [.key]⟩
      [.inChannels, .outChannels, .kernelSize, .key] pos kw =
    bind ⟨[.inChannels, .outChannels, .kernelSize, .stride, .padding, .outputPadding, .dilation,
      .groups, .useBias, .paddingMode, .dtype], [.key]⟩
      [.inChannels, .outChannels, .kernelSize, .key] pos' kw)
    (hd : ∀ e, bind ⟨[.inChannels, .outChannels, .kernelSize, .stride, .padding, .outputPadding, .dilation,
      .groups, .useBias, .paddingMode, .dtype], [.key]⟩
      [.inChannels, .outChannels, .kernelSize, .key] pos' kw = .ok e →
      (e .dtype).getD .none = .none) :
    convT3d J pos kw = convT J (.int 3 :: pos') kw := by
  unfold convT3d
  conv => rhs; unfold convT
  rw [bind_cons _ _ _ _ _ _ _ (by decide) (by decide) (by decide), h]
  cases hb : bind (α := α) (ρ := ρ) (D := D) (K := K) _ _ pos' kw with
  | error e => rfl
  | ok e =>
    simp only [Except.map, Bind.bind, Except.bind, withArg, convT_kw', reduceCtorEq, if_true, if_false, need,
      convTBody, Conv.mkTranspose, Val.toNat, dim3, show (0 : Int) ≤ 3 from by decide,
      show (3 : Int).toNat = 3 from rfl, ntuple_default, padding_default, hd e hb]

/-- **C104** (`ConvTranspose1d`). The full claim would be without the bound on the number of positional
arguments; it is false, see `convT1d_swapped`. -/
theorem convT1d_partial (J : Jax R D K) (pos : List (Val α ρ D K)) (kw : List (Param × Val α ρ D K))
    (h : pos.length ≤ 4) : convT1d J pos kw = convT J (.int 1 :: pos) kw :=
  convT1d_aux J pos pos kw (bind_T pos kw h)

/-- **C104** (`ConvTranspose2d`). -/
theorem convT2d_partial (J : Jax R D K) (pos : List (Val α ρ D K)) (kw : List (Param × Val α ρ D K))
    (h : pos.length ≤ 4) : convT2d J pos kw = convT J (.int 2 :: pos) kw :=
  convT2d_aux J pos pos kw (bind_T pos kw h)

theorem bind_dtype (ps ko rs : List Param) (pos : List (Val α ρ D K)) (kw : List (Param × Val α ρ D K))
    (e : Param → Option (Val α ρ D K)) (h : bind ⟨ps, ko⟩ rs pos kw = .ok e)
    (h1 : Param.dtype ∉ ps.take pos.length)
    (h2 : ∀ v, (Param.dtype, v) ∈ kw → v = .none) : (e .dtype).getD .none = .none := by
  unfold bind at h
  split at h
  · cases h
  split at h
  · cases h
  split at h
  · cases h
  split at h
  · cases h
  injection h with h
  subst h
  simp only
  cases hl : (ps.zip pos ++ kw).lookup .dtype with
  | none => rfl
  | some v =>
    simp only [Option.getD_some]
    have hm : (Param.dtype, v) ∈ ps.zip pos ++ kw := by
      clear h1 h2
      generalize ps.zip pos ++ kw = l at hl
      induction l with
      | nil => simp at hl
      | cons a l ih =>
        obtain ⟨p, w⟩ := a
        rw [lookup_cons] at hl
        split at hl
        · rename_i heq; cases hl; subst heq; exact List.mem_cons_self ..
        · exact List.mem_cons_of_mem _ (ih hl)
    rcases List.mem_append.mp hm with hm | hm
    · exfalso
      apply h1
      have : ∀ (ps : List Param) (pos : List (Val α ρ D K)), (Param.dtype, v) ∈ ps.zip pos →
          Param.dtype ∈ ps.take pos.length := by
        intro ps
        induction ps with
        | nil => intro pos h; simp at h
        | cons p ps ih =>
          intro pos h
          cases pos with
          | nil => simp at h
          | cons w pos =>
            simp only [List.zip_cons_cons, List.mem_cons] at h
            simp only [List.length_cons, List.take_succ_cons, List.mem_cons]
            rcases h with h | h
            · left; cases h; rfl
            · right; exact ih pos h
      exact this ps pos hm
    · exact h2 v hm

/-- **C104** (`ConvTranspose3d`). The full claim would be without the bound on the number of positional
arguments and for every dtype; both are false, see `convT3d_swapped` and `convT3d_dtype`. -/
theorem convT3d_partial (J : Jax R D K) (pos : List (Val α ρ D K)) (kw : List (Param × Val α ρ D K))
    (h : pos.length ≤ 4) (hd : ∀ v, (Param.dtype, v) ∈ kw → v = .none) :
    convT3d J pos kw = convT J (.int 3 :: pos) kw := by
  refine convT3d_aux J pos pos kw (bind_T pos kw h) fun e he => bind_dtype _ _ _ pos kw e he ?_ hd
  intro hm
  have : Param.dtype ∈ ([.inChannels, .outChannels, .kernelSize, .stride, .padding, .outputPadding,
      .dilation, .groups, .useBias, .paddingMode, .dtype] : List Param).take 4 := by
    have hsub := List.take_subset_take_left ([.inChannels, .outChannels, .kernelSize, .stride, .padding,
      .outputPadding, .dilation, .groups, .useBias, .paddingMode, .dtype] : List Param) h
    exact hsub hm
  revert this
  decide

/-- **C104** (positional arguments). With six or more positional arguments, the fifth argument of
`ConvTranspose1d` is what the sixth is for `ConvTranspose` (not counting the number of dimensions), and the
other way round. -/
theorem convT1d_swapped (J : Jax R D K) (a b c d u v : Val α ρ D K) (pos : List (Val α ρ D K))
    (kw : List (Param × Val α ρ D K)) :
    convT1d J (a :: b :: c :: d :: u :: v :: pos) kw =
      convT J (.int 1 :: a :: b :: c :: d :: v :: u :: pos) kw :=
  convT1d_aux J _ _ kw (bind_T' a b c d u v pos kw)

theorem convT2d_swapped (J : Jax R D K) (a b c d u v : Val α ρ D K) (pos : List (Val α ρ D K))
    (kw : List (Param × Val α ρ D K)) :
    convT2d J (a :: b :: c :: d :: u :: v :: pos) kw =
      convT J (.int 2 :: a :: b :: c :: d :: v :: u :: pos) kw :=
  convT2d_aux J _ _ kw (bind_T' a b c d u v pos kw)

theorem convT3d_swapped (J : Jax R D K) (a b c d u v : Val α ρ D K) (pos : List (Val α ρ D K))
    (kw : List (Param × Val α ρ D K)) (h : pos.length ≤ 4)
    (hd : ∀ v, (Param.dtype, v) ∈ kw → v = .none) :
    convT3d J (a :: b :: c :: d :: u :: v :: pos) kw =
      convT J (.int 3 :: a :: b :: c :: d :: v :: u :: pos) kw := by
  refine convT3d_aux J _ _ kw (bind_T' a b c d u v pos kw) fun e he => bind_dtype _ _ _ _ kw e he ?_ hd
  intro hm
  have : Param.dtype ∈ ([.inChannels, .outChannels, .kernelSize, .stride, .padding, .outputPadding,
      .dilation, .groups, .useBias, .paddingMode, .dtype] : List Param).take 10 := by
    have hsub := List.take_subset_take_left ([.inChannels, .outChannels, .kernelSize, .stride, .padding,
      .outputPadding, .dilation, .groups, .useBias, .paddingMode, .dtype] : List Param)
      (show (a :: b :: c :: d :: v :: u :: pos).length ≤ 10 by simp; omega)
    exact hsub hm
  revert this
  decide

/-- **C104** (the dtype of `ConvTranspose3d`). Whatever is passed, the weights have the default dtype. -/
theorem convT3d_dtype (J : Jax R D K) (pos : List (Val α ρ D K)) (kw : List (Param × Val α ρ D K))
    (l : Layer R D) (h : convT3d J pos kw = .ok l) : l.dtype = J.float := by
  unfold convT3d at h
  cases hb : bind (α := α) (ρ := ρ) (D := D) (K := K) _ _ pos kw with
  | error e => rw [hb] at h; cases h
  | ok e =>
    rw [hb] at h
    simp only [Bind.bind, Except.bind] at h
    cases h1 : need (e .inChannels) with
    | error _ => rw [h1] at h; cases h
    | ok i =>
    cases h2 : need (e .outChannels) with
    | error _ => rw [h1, h2] at h; cases h
    | ok o =>
    cases h3 : need (e .kernelSize) with
    | error _ => rw [h1, h2, h3] at h; cases h
    | ok ks =>
    cases h4 : need (e .key) with
    | error _ => rw [h1, h2, h3, h4] at h; cases h
    | ok k =>
    rw [h1, h2, h3, h4] at h
    simp only [convT_kw', convTBody, Bind.bind, Except.bind, Val.toDtype] at h
    repeat' split at h
    all_goals first
      | (cases h; rfl)
      | cases h

/-! ## Pools -/

theorem pool_kw (i f n k s p c : Val α (α → α → α) D K) :
    pool [] [(.init, i), (.operation, f), (.numSpatialDims, n), (.kernelSize, k), (.stride, s), (.padding, p),
      (.useCeil, c)] = (do
        let n ← n.toNat
        let i ← i.toElem
        let f ← f.toFn
        Pool.mk' i f n k.toIntOrSeq s.toIntOrSeq p.toPadArg c.truth) := rfl

theorem superPool_eq (i : α) (f : α → α → α) (n : Int) (pos : List (Val α (α → α → α) D K))
    (kw : List (Param × Val α (α → α → α) D K)) :
    superPool i f n pos kw = pool (.elem i :: .fn f :: .int n :: pos) kw := by
  unfold superPool
  conv => rhs; unfold pool
  rw [bind_cons _ _ _ _ _ _ _ (by decide) (by decide) (by decide),
    bind_cons _ _ _ _ _ _ _ (by decide) (by decide) (by decide),
    bind_cons _ _ _ _ _ _ _ (by decide) (by decide) (by decide)]
  cases bind (α := α) (D := D) (K := K) _ _ pos kw with
  | error e => rfl
  | ok e =>
    simp only [Except.map, Bind.bind, Except.bind, withArg, pool_kw, reduceCtorEq, if_true, if_false, need]

/-- **C104** (pools). A named pool is made like `Pool` with the initial value, the operation and the
number of dimensions in front, whatever the other arguments are, errors included. -/
theorem pool_eq [Zero α] [Add α] [Max α] [Bot α] (pos : List (Val α (α → α → α) D K))
    (kw : List (Param × Val α (α → α → α) D K)) :
    avgPool1d pos kw = pool (.elem 0 :: .fn (· + ·) :: .int 1 :: pos) kw ∧
    avgPool2d pos kw = pool (.elem 0 :: .fn (· + ·) :: .int 2 :: pos) kw ∧
    avgPool3d pos kw = pool (.elem 0 :: .fn (· + ·) :: .int 3 :: pos) kw ∧
    maxPool1d pos kw = pool (.elem ⊥ :: .fn max :: .int 1 :: pos) kw ∧
    maxPool2d pos kw = pool (.elem ⊥ :: .fn max :: .int 2 :: pos) kw ∧
    maxPool3d pos kw = pool (.elem ⊥ :: .fn max :: .int 3 :: pos) kw :=
  ⟨superPool_eq .., superPool_eq .., superPool_eq .., superPool_eq .., superPool_eq .., superPool_eq ..⟩

theorem mk'_fields (i : α) (f : α → α → α) (n : Nat) (k s : IntOrSeq) (pd : PadArg) (c : Bool) (p : Pool α)
    (h : Pool.mk' i f n k s pd c = .ok p) : p.init = i ∧ p.operation = f ∧ p.numSpatialDims = n := by
  unfold Pool.mk' at h
  simp only [Bind.bind, Except.bind] at h
  repeat' split at h
  all_goals first
    | (cases h; done)
    | (cases h; exact ⟨rfl, rfl, rfl⟩)

theorem superPool_fields (i : α) (f : α → α → α) (n : Nat) (pos : List (Val α (α → α → α) D K))
    (kw : List (Param × Val α (α → α → α) D K)) (p : Pool α) (h : superPool i f n pos kw = .ok p) :
    p.init = i ∧ p.operation = f ∧ p.numSpatialDims = n := by
  unfold superPool at h
  cases hb : bind (α := α) (D := D) (K := K) _ _ pos kw with
  | error e => rw [hb] at h; cases h
  | ok e =>
    rw [hb] at h
    simp only [Bind.bind, Except.bind] at h
    cases h1 : need (e .kernelSize) with
    | error _ => rw [h1] at h; cases h
    | ok k =>
      rw [h1] at h
      simp only [pool_kw, Bind.bind, Except.bind, Val.toNat, Val.toElem, Val.toFn, Int.natCast_nonneg,
        if_true, Int.toNat_natCast] at h
      exact mk'_fields _ _ _ _ _ _ _ p h

/-- **C104** (average pools). An `AvgPool1d`, `AvgPool2d` or `AvgPool3d`, however it was made, takes inputs
with that number of spatial dimensions, and each element of what it returns is the sum of its window
divided by the size of the kernel. -/
theorem avg_value {M : Type} [AddCommMonoid M] (divInt : M → Int → M) (n : Nat)
    (make : List (Val M (M → M → M) D K) → List (Param × Val M (M → M → M) D K) → Except Err (Pool M))
    (hmake : (n, make) ∈ [(1, avgPool1d), (2, avgPool2d), (3, avgPool3d)])
    (pos : List (Val M (M → M → M) D K)) (kw : List (Param × Val M (M → M → M) D K)) (p : Pool M)
    (h : make pos kw = .ok p) (x y : NArr M) (hc : p.avgCall divInt x = .ok y) :
    ∃ c ns pad, x.shape = c :: ns ∧ ns.length = n ∧ effPad p ns = .ok pad ∧
      ∀ (ch : Nat) (is : List Nat), is.length = n →
        y.at_ (ch :: is) = divInt (boxSum ns fun q =>
          if InWin pad p.stride p.kernelSize is q then x.at_ (ch :: q) else 0)
          (p.kernelSize.foldl (· * ·) 1) := by
  have hs : superPool 0 (· + ·) (n : Int) pos kw = .ok p := by
    simp only [List.mem_cons, List.not_mem_nil, or_false, Prod.mk.injEq] at hmake
    rcases hmake with ⟨rfl, rfl⟩ | ⟨rfl, rfl⟩ | ⟨rfl, rfl⟩ <;> exact h
  obtain ⟨h1, h2, h3⟩ := superPool_fields 0 _ n pos kw p hs
  obtain ⟨c, ns, pad, g1, g2, g3⟩ := avgpool_value divInt p h2 h1 x y hc
  have hl : ns.length = n := by
    unfold Pool.avgCall at hc
    cases hcall : p.call x with
    | error e => rw [hcall] at hc; cases hc
    | ok z =>
      unfold Pool.call at hcall
      split at hcall
      · cases hcall
      · rename_i hr
        rw [g1, h3] at hr
        simp only [List.length_cons, ne_eq, Decidable.not_not] at hr
        omega
  exact ⟨c, ns, pad, g1, hl, g2, fun ch is hi => g3 ch is (by omega)⟩

/-- **C104** (maximum pools). An element of what a `MaxPool1d`, `MaxPool2d` or `MaxPool3d` returns is at
least every input element of its window, and one of them if there is any; if there is none it is the least
element. -/
theorem max_value [LinearOrder α] [OrderBot α] (n : Nat)
    (make : List (Val α (α → α → α) D K) → List (Param × Val α (α → α → α) D K) → Except Err (Pool α))
    (hmake : (n, make) ∈ [(1, maxPool1d), (2, maxPool2d), (3, maxPool3d)])
    (pos : List (Val α (α → α → α) D K)) (kw : List (Param × Val α (α → α → α) D K)) (p : Pool α)
    (h : make pos kw = .ok p) (x y : NArr α) (hc : p.call x = .ok y) :
    ∃ c ns pad, x.shape = c :: ns ∧ ns.length = n ∧ effPad p ns = .ok pad ∧
      ∀ (ch : Nat) (is : List Nat),
        (∀ q, InB q ns → InWin pad p.stride p.kernelSize is q → x.at_ (ch :: q) ≤ y.at_ (ch :: is)) ∧
        ((∃ q, InB q ns ∧ InWin pad p.stride p.kernelSize is q) →
          ∃ q, InB q ns ∧ InWin pad p.stride p.kernelSize is q ∧ y.at_ (ch :: is) = x.at_ (ch :: q)) ∧
        ((¬ ∃ q, InB q ns ∧ InWin pad p.stride p.kernelSize is q) → y.at_ (ch :: is) = ⊥) := by
  have hs : superPool ⊥ max (n : Int) pos kw = .ok p := by
    simp only [List.mem_cons, List.not_mem_nil, or_false, Prod.mk.injEq] at hmake
    rcases hmake with ⟨rfl, rfl⟩ | ⟨rfl, rfl⟩ | ⟨rfl, rfl⟩ <;> exact h
  obtain ⟨h1, h2, h3⟩ := superPool_fields ⊥ _ n pos kw p hs
  obtain ⟨c, ns, pad, g1, g2, g3⟩ := pool_max p h2 x y hc
  have hl : ns.length = n := by
    unfold Pool.call at hc
    split at hc
    · cases hc
    · rename_i hr
      rw [g1, h3] at hr
      simp only [List.length_cons, ne_eq, Decidable.not_not] at hr
      omega
  refine ⟨c, ns, pad, g1, hl, g2, fun ch is => ⟨(g3 ch is).1, ?_, ?_⟩⟩
  · rintro ⟨q, hq, hw⟩
    rcases (g3 ch is).2 with hb | hb
    · have := (g3 ch is).1 q hq hw
      rw [hb, h1] at this
      exact ⟨q, hq, hw, by rw [hb, h1, le_bot_iff.mp this]⟩
    · exact hb
  · intro hn
    rcases (g3 ch is).2 with hb | ⟨q, hq, hw, _⟩
    · rw [hb, h1]
    · exact absurd ⟨q, hq, hw⟩ hn

/-! ## Adaptive pools -/

/-- The target sizes which an argument stands for, in `n` dimensions. -/
inductive Sizes (n : Nat) : Target → List Nat → Prop
  | int (t : Nat) : Sizes n (.int t) (List.replicate n t)
  | seq (ts : List Nat) (h : ts.length = n) : Sizes n (.seq (ts.map Int.ofNat)) ts

theorem init_ok (op : List α → α) (op0 : α → α) (n : Nat) (target : Target) (ts : List Nat)
    (h : Sizes n target ts) :
    ts.length = n ∧ adaptiveInit op op0 n target = .ok ⟨.inl (ts.map Int.ofNat), op, op0⟩ := by
  cases h with
  | int t => simp [adaptiveInit]
  | seq _ h => exact ⟨h, by simp [adaptiveInit, h]⟩

theorem call_ok' [Inhabited α] (op : List α → α) (op0 : α → α) (ts : List Nat) (x : NArr α)
    (h : x.shape.length = ts.length + 1) :
    (AdaptiveLayer.mk (.inl (ts.map Int.ofNat)) op op0).call x = adaptivePool op op0 ts x := by
  unfold AdaptiveLayer.call
  simp only [List.length_map]
  rw [if_neg (by omega), if_neg (by simp), List.map_map]
  congr 1
  conv => rhs; rw [← List.map_id ts]
  apply List.map_congr_left
  intro a _
  rfl

/-- **C104** (adaptive average pools). -/
theorem adaptive_avg_value {F : Type} [Field F] [Inhabited F] (n : Nat)
    (make : Target → Except Err (AdaptiveLayer F))
    (hmake : (n, make) ∈ [(1, adaptiveAvgPool1d), (2, adaptiveAvgPool2d), (3, adaptiveAvgPool3d)])
    (target : Target) (ts : List Nat) (ht : Sizes n target ts) (x : NArr F) (c : Nat) (ns : List Nat)
    (hx : x.shape = c :: ns) (hn : ns.length = n)
    (hs : ∀ d t m : Nat, ts[d]? = some t → ns[d]? = some m → 0 < t ∧ t ≤ m) :
    ∃ layer y, make target = .ok layer ∧ layer.call x = .ok y ∧ y.shape = c :: ts ∧
      ∀ (ch : Nat) (js : List Nat), InB (ch :: js) (c :: ts) →
        ∃ l : List (List Nat), l.Nodup ∧ (∀ q, q ∈ l ↔ Adaptive.InBox ns ts js q) ∧
          y.at_ (ch :: js) = (l.map fun q => x.at_ (ch :: q)).sum / l.length := by
  have hm : make target = adaptiveInit Adaptive.mean Adaptive.mean0 n target := by
    simp only [List.mem_cons, List.not_mem_nil, or_false, Prod.mk.injEq] at hmake
    rcases hmake with ⟨rfl, rfl⟩ | ⟨rfl, rfl⟩ | ⟨rfl, rfl⟩ <;> rfl
  obtain ⟨hl, hi⟩ := init_ok (Adaptive.mean (K := F)) Adaptive.mean0 n target ts ht
  obtain ⟨y, h1, h2, h3⟩ := Adaptive.adaptive_avg ts x c ns hx (by omega) hs
  refine ⟨_, y, hm.trans hi, ?_, h2, fun ch js hb => ?_⟩
  · rw [call_ok' _ _ _ _ (by simp [hx]; omega)]; exact h1
  · obtain ⟨l, g1, _, g3, g4⟩ := h3 ch js hb
    exact ⟨l, g1, g3, g4⟩

/-- **C104** (adaptive maximum pools). -/
theorem adaptive_max_value [LinearOrder α] [Inhabited α] (n : Nat)
    (make : Target → Except Err (AdaptiveLayer α))
    (hmake : (n, make) ∈ [(1, adaptiveMaxPool1d), (2, adaptiveMaxPool2d), (3, adaptiveMaxPool3d)])
    (target : Target) (ts : List Nat) (ht : Sizes n target ts) (x : NArr α) (c : Nat) (ns : List Nat)
    (hx : x.shape = c :: ns) (hn : ns.length = n)
    (hs : ∀ d t m : Nat, ts[d]? = some t → ns[d]? = some m → 0 < t ∧ t ≤ m) :
    ∃ layer y, make target = .ok layer ∧ layer.call x = .ok y ∧ y.shape = c :: ts ∧
      ∀ (ch : Nat) (js : List Nat), InB (ch :: js) (c :: ts) →
        (∃ q, Adaptive.InBox ns ts js q ∧ y.at_ (ch :: js) = x.at_ (ch :: q)) ∧
        ∀ q, Adaptive.InBox ns ts js q → x.at_ (ch :: q) ≤ y.at_ (ch :: js) := by
  have hm : make target = adaptiveInit Adaptive.maxl id n target := by
    simp only [List.mem_cons, List.not_mem_nil, or_false, Prod.mk.injEq] at hmake
    rcases hmake with ⟨rfl, rfl⟩ | ⟨rfl, rfl⟩ | ⟨rfl, rfl⟩ <;> rfl
  obtain ⟨hl, hi⟩ := init_ok (Adaptive.maxl (α := α)) id n target ts ht
  obtain ⟨y, h1, h2, h3⟩ := Adaptive.adaptive_max ts x c ns hx (by omega) hs
  refine ⟨_, y, hm.trans hi, ?_, h2, h3⟩
  rw [call_ok' _ _ _ _ (by simp [hx]; omega)]; exact h1

/-- **C104** (adaptive pools, errors). Making one raises a ValueError if the argument is neither an
integer nor a sequence with as many entries as the layer has dimensions, and otherwise succeeds; a call
returns only if the argument stands for natural numbers, the input has the right rank, and every target size
is positive and at most the size of its dimension. -/
theorem adaptive_errors {F : Type} [Field F] [LinearOrder F] [Inhabited F] (n : Nat)
    (make : Target → Except Err (AdaptiveLayer F))
    (hmake : (n, make) ∈ [(1, adaptiveAvgPool1d), (2, adaptiveAvgPool2d), (3, adaptiveAvgPool3d),
      (1, adaptiveMaxPool1d), (2, adaptiveMaxPool2d), (3, adaptiveMaxPool3d)]) (target : Target) :
    ((∃ t, target = .int t) ∨ (∃ l, target = .seq l ∧ l.length = n) ∨ target = .otherSeq n →
      Except.Ok (make target)) ∧
    (¬ ((∃ t, target = .int t) ∨ (∃ l, target = .seq l ∧ l.length = n) ∨ target = .otherSeq n) →
      make target = .error .valueError) ∧
    ∀ layer x y, make target = .ok layer → layer.call x = .ok y →
      ∃ ts c ns, Sizes n target ts ∧ x.shape = c :: ns ∧ ns.length = n ∧
        ∀ d t m : Nat, ts[d]? = some t → ns[d]? = some m → 0 < t ∧ t ≤ m := by
  have hm : 0 < n ∧ ∃ op op0, make = adaptiveInit op op0 n := by
    simp only [List.mem_cons, List.not_mem_nil, or_false, Prod.mk.injEq] at hmake
    rcases hmake with ⟨rfl, rfl⟩ | ⟨rfl, rfl⟩ | ⟨rfl, rfl⟩ | ⟨rfl, rfl⟩ | ⟨rfl, rfl⟩ | ⟨rfl, rfl⟩ <;>
      exact ⟨by decide, _, _, rfl⟩
  obtain ⟨hn0, op, op0, rfl⟩ := hm
  refine ⟨?_, ?_, ?_⟩
  · rintro (⟨t, rfl⟩ | ⟨l, rfl, hl⟩ | rfl)
    · exact ⟨_, rfl⟩
    · exact ⟨_, by simp [adaptiveInit, hl]; rfl⟩
    · exact ⟨_, by simp [adaptiveInit]; rfl⟩
  · intro h
    cases target with
    | int t => exact absurd (.inl ⟨t, rfl⟩) h
    | seq l =>
      simp only [adaptiveInit]
      rw [if_neg fun hl => h (.inr (.inl ⟨l, rfl, hl⟩))]
    | otherSeq len =>
      simp only [adaptiveInit]
      rw [if_neg fun hl => h (.inr (.inr (by rw [hl])))]
    | other => rfl
  · intro layer x y hmk hc
    have key : ∃ l : List Int, layer.targetShape = .inl l ∧ l.length = n ∧
        (target = .seq l ∨ ∃ t, target = .int t ∧ l = List.replicate n t) := by
      cases target with
      | int t =>
        cases hmk
        exact ⟨_, rfl, by simp, .inr ⟨t, rfl, rfl⟩⟩
      | seq l =>
        simp only [adaptiveInit] at hmk
        split at hmk
        · rename_i hl; cases hmk; exact ⟨l, rfl, hl, .inl rfl⟩
        · cases hmk
      | otherSeq len =>
        simp only [adaptiveInit] at hmk
        split at hmk
        · cases hmk
          simp only [AdaptiveLayer.call] at hc
          split at hc <;> cases hc
        · cases hmk
      | other => cases hmk
    obtain ⟨l, h1, h2, h3⟩ := key
    unfold AdaptiveLayer.call at hc
    rw [h1] at hc
    simp only at hc
    split at hc
    · cases hc
    split at hc
    · cases hc
    rename_i hrank hneg
    have hnn : ∀ a ∈ l, 0 ≤ a := by
      intro a ha
      by_cases h : 0 ≤ a
      · exact h
      · exact absurd (List.any_eq_true.mpr ⟨a, ha, by simpa using h⟩) hneg
    have hmap : (l.map Int.toNat).map Int.ofNat = l := by
      rw [List.map_map]
      conv => rhs; rw [← List.map_id l]
      apply List.map_congr_left
      intro a ha
      exact Int.toNat_of_nonneg (hnn a ha)
    obtain ⟨g1, g2⟩ := (adaptive_ok_iff layer.op layer.op0 (l.map Int.toNat) x).mp ⟨y, hc⟩
    cases hx : x.shape with
    | nil => rw [hx] at g1; simp at g1
    | cons c ns =>
      refine ⟨l.map Int.toNat, c, ns, ?_, rfl, ?_, ?_⟩
      · rcases h3 with rfl | ⟨t, rfl, rfl⟩
        · conv => arg 2; rw [← hmap]
          exact .seq _ (by simpa using h2)
        · have ht : 0 ≤ t := hnn t (by simp; omega)
          have := Sizes.int (n := n) t.toNat
          rw [Int.toNat_of_nonneg ht] at this
          simpa using this
      · rw [hx] at g1; simp only [List.length_cons, List.length_map] at g1; omega
      · intro d t m a b
        exact g2 d t m a (by simpa [hx] using b)

/-! ## The missing parts are false, and the hypotheses are met -/

/-- Two dtypes, `0` being the default; the weights are all zero. -/
def exJax : Jax Int Nat Nat := ⟨0, fun _ _ => ⟨[], fun _ => 0⟩, fun _ _ _ => 0⟩

abbrev V := Val Int (Int → Int → Int) Nat Nat

/-- What an example shows of a layer. -/
def view (r : Except Err (Layer Int Nat)) : Except Err (List HDim × Pad × Nat) :=
  r.map fun l => (l.conv.dims, l.conv.padding, l.dtype)

/-- `ConvTranspose3d(2, 2, 3, dtype=1, key=k)` has the default dtype `0`, `ConvTranspose(3, ...)` has dtype
`1`. -/
theorem convT3d_ignores_dtype :
    view (convT3d exJax [.int 2, .int 2, .int 3] [(.dtype, (.dtype 1 : V)), (.key, .key 0)]) =
      .ok (List.replicate 3 ⟨3, 1, 1, 0⟩, .pairs (List.replicate 3 (0, 0)), 0) ∧
    view (convT exJax [.int 3, .int 2, .int 2, .int 3] [(.dtype, (.dtype 1 : V)), (.key, .key 0)]) =
      .ok (List.replicate 3 ⟨3, 1, 1, 0⟩, .pairs (List.replicate 3 (0, 0)), 1) := ⟨rfl, rfl⟩

/-- `ConvTranspose2d(2, 2, 3, 2, 1, 0, key=k)` has output padding 1 and no padding,
`ConvTranspose(2, 2, 2, 3, 2, 1, 0, key=k)` the other way round. -/
theorem convT2d_positional :
    view (convT2d exJax [.int 2, .int 2, .int 3, .int 2, .int 1, .int 0] [(.key, (.key 0 : V))]) =
      .ok ([⟨3, 2, 1, 1⟩, ⟨3, 2, 1, 1⟩], .pairs [(0, 0), (0, 0)], 0) ∧
    view (convT exJax [.int 2, .int 2, .int 2, .int 3, .int 2, .int 1, .int 0] [(.key, (.key 0 : V))]) =
      .ok ([⟨3, 2, 1, 0⟩, ⟨3, 2, 1, 0⟩], .pairs [(1, 1), (1, 1)], 0) := ⟨rfl, rfl⟩

/-- Calls of `Conv2d` that succeed and that raise. -/
example :
    view (conv2d exJax [.int 2, .int 4, .seq [3, 5]] [(.padding, (.padding .same : V)), (.key, .key 0)]) =
      .ok ([⟨3, 1, 1, 0⟩, ⟨5, 1, 1, 0⟩], .same, 0) ∧
    view (conv2d exJax [.int 2, .int 4, .seq [3, 5, 1]] [(.key, (.key 0 : V))]) = .error .valueError ∧
    view (conv2d exJax [.int 2, .int 4] [(.key, (.key 0 : V))]) = .error .typeError ∧
    view (conv2d exJax [.int 2, .int 4, .int 3] [(.numSpatialDims, (.int 2 : V)), (.key, .key 0)]) =
      .error .typeError := ⟨rfl, rfl, rfl, rfl⟩

/-- An `AvgPool2d` and a call of it. -/
example : ((avgPool2d (D := Nat) (K := Nat) [.int 2, .int 2] [] >>= fun p =>
    p.avgCall (fun a k => a / k) exImage).map fun y => (y.shape, y.at_ [1, 1, 1])) =
    .ok ([2, 2, 2], 28) := by decide

/-- The argument `(3, 2)` stands for the sizes `3, 2`, the argument `2` for `2, 2`. -/
example : Sizes 2 (.seq [3, 2]) [3, 2] ∧ Sizes 2 (.int 2) [2, 2] :=
  ⟨.seq [3, 2] rfl, .int 2⟩

end Verif.NN.Named
