import Verif.NN.ConvSizes
/-!
# C44: the shapes of whole calls, and the constructor checks
-/

namespace Verif.NN

variable {R : Type}

/-! ## Lists of dimensions -/

theorem allPads_get (pad : Pad) (j0 : Nat) (ns : List Nat) (hs : List HDim) (j n : Nat) (h : HDim)
    (hn : ns[j]? = some n) (hh : hs[j]? = some h) :
    (allPads pad j0 ns hs)[j]? = some (convPads pad n h (pad.entry (j0 + j))) := by
  induction ns generalizing j0 hs j with
  | nil => simp at hn
  | cons n' ns ih =>
    cases hs with
    | nil => simp at hh
    | cons h' hs =>
      cases j with
      | zero => simp at hn hh; subst hn; subst hh; simp [allPads]
      | succ j =>
        simp only [List.getElem?_cons_succ, allPads] at *
        rw [ih (j0 + 1) hs j hn hh, show j0 + 1 + j = j0 + (j + 1) by omega]

theorem allPads_length (pad : Pad) (j0 : Nat) (ns : List Nat) (hs : List HDim)
    (h : ns.length = hs.length) : (allPads pad j0 ns hs).length = ns.length := by
  induction ns generalizing j0 hs with
  | nil => simp [allPads]
  | cons n ns ih =>
    cases hs with
    | nil => simp at h
    | cons h' hs => simp [allPads, ih (j0 + 1) hs (by simpa using h)]

theorem allPadsT_get (pad : Pad) (j0 : Nat) (hs : List HDim) (j : Nat) (h : HDim)
    (hh : hs[j]? = some h) :
    (allPadsT pad j0 hs)[j]? = some (padTranspose pad h (pad.entry (j0 + j))) := by
  induction hs generalizing j0 j with
  | nil => simp at hh
  | cons h' hs ih =>
    cases j with
    | zero => simp at hh; subst hh; simp [allPadsT]
    | succ j =>
      simp only [List.getElem?_cons_succ, allPadsT] at *
      rw [ih (j0 + 1) j hh, show j0 + 1 + j = j0 + (j + 1) by omega]

theorem allPadsT_length (pad : Pad) (j0 : Nat) (hs : List HDim) :
    (allPadsT pad j0 hs).length = hs.length := by
  induction hs generalizing j0 with
  | nil => rfl
  | cons h hs ih => simp [allPadsT, ih]

theorem convDims_get (ns : List Nat) (hs : List HDim) (ps : List (Int × Int)) (j n : Nat) (h : HDim)
    (p : Int × Int) (hn : ns[j]? = some n) (hh : hs[j]? = some h) (hp : ps[j]? = some p) :
    (convDims ns hs ps)[j]? = some ⟨n, h.k, h.s, h.d, p.1, p.2, 1⟩ := by
  induction ns generalizing hs ps j with
  | nil => simp at hn
  | cons n' ns ih =>
    cases hs with
    | nil => simp at hh
    | cons h' hs =>
    cases ps with
    | nil => simp at hp
    | cons p' ps =>
      cases j with
      | zero => simp at hn hh hp; subst hn; subst hh; subst hp; simp [convDims]
      | succ j =>
        simp only [List.getElem?_cons_succ, convDims] at *
        exact ih hs ps j hn hh hp

theorem convDims_length (ns : List Nat) (hs : List HDim) (ps : List (Int × Int))
    (h1 : hs.length = ns.length) (h2 : ps.length = ns.length) :
    (convDims ns hs ps).length = ns.length := by
  induction ns generalizing hs ps with
  | nil => simp [convDims]
  | cons n ns ih =>
    cases hs with
    | nil => simp at h1
    | cons h hs =>
    cases ps with
    | nil => simp at h2
    | cons p ps => simp [convDims, ih hs ps (by simpa using h1) (by simpa using h2)]

theorem convDimsT_get (ns : List Nat) (hs : List HDim) (ps : List (Int × Int)) (j n : Nat) (h : HDim)
    (p : Int × Int) (hn : ns[j]? = some n) (hh : hs[j]? = some h) (hp : ps[j]? = some p) :
    (convDimsT ns hs ps)[j]? = some ⟨n, h.k, 1, h.d, p.1, p.2, h.s⟩ := by
  induction ns generalizing hs ps j with
  | nil => simp at hn
  | cons n' ns ih =>
    cases hs with
    | nil => simp at hh
    | cons h' hs =>
    cases ps with
    | nil => simp at hp
    | cons p' ps =>
      cases j with
      | zero => simp at hn hh hp; subst hn; subst hh; subst hp; simp [convDimsT]
      | succ j =>
        simp only [List.getElem?_cons_succ, convDimsT] at *
        exact ih hs ps j hn hh hp

theorem convDimsT_length (ns : List Nat) (hs : List HDim) (ps : List (Int × Int))
    (h1 : hs.length = ns.length) (h2 : ps.length = ns.length) :
    (convDimsT ns hs ps).length = ns.length := by
  induction ns generalizing hs ps with
  | nil => simp [convDimsT]
  | cons n ns ih =>
    cases hs with
    | nil => simp at h1
    | cons h hs =>
    cases ps with
    | nil => simp at h2
    | cons p ps => simp [convDimsT, ih hs ps (by simpa using h1) (by simpa using h2)]

theorem padShape_get (ns : List Nat) (ps : List (Int × Int)) (j n : Nat) (p : Int × Int)
    (hn : ns[j]? = some n) (hp : ps[j]? = some p) :
    (padShape ns ps)[j]? = some ((n : Int) + p.1 + p.2).toNat := by
  induction ns generalizing ps j with
  | nil => simp at hn
  | cons n' ns ih =>
    cases ps with
    | nil => simp at hp
    | cons p' ps =>
      cases j with
      | zero => simp at hn hp; subst hn; subst hp; simp [padShape]
      | succ j =>
        simp only [List.getElem?_cons_succ, padShape] at *
        exact ih ps j hn hp

theorem padShape_length (ns : List Nat) (ps : List (Int × Int)) (h : ps.length = ns.length) :
    (padShape ns ps).length = ns.length := by
  induction ns generalizing ps with
  | nil => simp [padShape]
  | cons n ns ih =>
    cases ps with
    | nil => simp at h
    | cons p ps => simp [padShape, ih ps (by simpa using h)]

/-! ## The primitives -/

theorem convGeneral_ok [CommSemiring R] (x w y : NArr R) (inC outC groups : Nat) (dims : List CDim)
    (h : convGeneral x w inC outC groups dims = .ok y) :
    (∀ c ∈ dims, 0 < c.s ∧ 0 < c.d ∧ 0 < c.ld ∧ 0 < c.k) ∧ x.shape.head? = some inC ∧
      0 < groups ∧ inC % groups = 0 ∧ outC % groups = 0 ∧
      y.shape = outC :: dims.map CDim.out ∧
      ∀ co o, y.at_ (co :: o) = ∑ ci ∈ Finset.range (inC / groups),
        boxSum (dims.map fun c => c.k.toNat) fun kk =>
          match gather dims o kk with
          | some i => w.at_ (co :: ci :: kk) *
              x.at_ ((co / (outC / groups) * (inC / groups) + ci) :: i)
          | none => 0 := by
  simp only [convGeneral] at h
  split at h
  · simp at h
  rename_i h1
  split at h
  · simp at h
  rename_i h2
  split at h
  · simp at h
  rename_i h3
  simp only [Except.ok.injEq] at h
  subst h
  simp only [List.any_eq_true, decide_eq_true_eq, not_exists, not_and, not_or] at h1
  simp only [not_or, ne_eq, Decidable.not_not] at h2 h3
  refine ⟨fun c hc => ?_, h2, by omega, h3.2.1, h3.2.2, rfl, fun _ _ => rfl⟩
  have := h1 c hc
  omega

theorem padArr_ok (m : Mode) (x y : NArr R) (ps : List (Int × Int)) (h : padArr m x ps = .ok y) :
    ∃ c ns, x.shape = c :: ns ∧ (∀ p ∈ ps, 0 ≤ p.1 ∧ 0 ≤ p.2) ∧
      (∀ (j n : Nat) (p : Int × Int), ns[j]? = some n → ps[j]? = some p → n = 0 → p = (0, 0)) ∧
      y.shape = c :: padShape ns ps ∧ ∀ ch i, y.at_ (ch :: i) = x.at_ (ch :: padIndices m ns ps i) := by
  simp only [padArr] at h
  cases hx : x.shape with
  | nil => simp [hx] at h
  | cons c ns =>
    simp only [hx] at h
    split at h
    · simp at h
    rename_i h1
    split at h
    · simp at h
    rename_i h2
    simp only [Except.ok.injEq] at h
    subst h
    refine ⟨c, ns, rfl, ?_, ?_, rfl, fun _ _ => rfl⟩
    · simp only [List.any_eq_true, decide_eq_true_eq, not_exists, not_and, not_or] at h1
      intro p hp
      have := h1 p hp
      omega
    · intro j n p hn hp h0
      simp only [List.any_eq_true, decide_eq_true_eq, not_exists, not_and, not_or] at h2
      have hm : (n, p) ∈ ns.zip ps := by
        apply List.mem_of_getElem? (i := j)
        rw [List.getElem?_zip_eq_some]
        exact ⟨hn, hp⟩
      have := h2 (n, p) hm h0
      have a1 := Decidable.not_not.mp this.1
      have a2 := Decidable.not_not.mp this.2
      exact Prod.ext a1 a2

/-! ## Shapes of calls -/

theorem dims_good_conv (ns : List Nat) (hs : List HDim) (ps : List (Int × Int))
    (h1 : hs.length = ns.length) (h2 : ps.length = ns.length)
    (hg : ∀ c ∈ convDims ns hs ps, 0 < c.s ∧ 0 < c.d ∧ 0 < c.ld ∧ 0 < c.k) :
    ∀ (j : Nat) (h : HDim), hs[j]? = some h → h.Good := by
  intro j h hh
  have hj : j < hs.length := (List.getElem?_eq_some_iff.mp hh).1
  have := convDims_get ns hs ps j ns[j] h ps[j] (List.getElem?_eq_getElem (by omega)) hh
    (List.getElem?_eq_getElem (by omega))
  have := hg _ (List.mem_of_getElem? this)
  exact ⟨this.2.2.2, this.1, this.2.1⟩

/-- **C44** (shape of a convolution). If a call returns, every spatial dimension of size `n` becomes
one of size `convSize`, with the padding asked for, whatever the padding mode. -/
theorem conv_shape [CommSemiring R] (c : Conv R) (x y : NArr R) (h : c.call x = .ok y) :
    ∃ ns, x.shape = c.inChannels :: ns ∧ ns.length = c.dims.length ∧
      y.shape.length = x.shape.length ∧ y.shape[0]? = some c.outChannels ∧
      ∀ (j n : Nat) (h : HDim), ns[j]? = some n → c.dims[j]? = some h → h.Good ∧
        ∃ m : Nat, y.shape[j + 1]? = some m ∧
          (m : Int) = convSize n h (convPads c.padding n h (c.padding.entry j)) := by
  simp only [Conv.call] at h
  split at h
  · simp at h
  rename_i hr
  have hr : x.shape.length = c.dims.length + 1 := by omega
  cases hx : x.shape with
  | nil => simp [hx] at hr
  | cons ch ns =>
    have hl : ns.length = c.dims.length := by simpa [hx] using hr
    have hpl := allPads_length c.padding 0 ns c.dims hl
    simp only [hx, List.tail_cons] at h
    split at h
    · rename_i hm
      cases hc : convGeneral x c.weight c.inChannels c.outChannels c.groups
          (convDims ns c.dims (allPads c.padding 0 ns c.dims)) with
      | error e => simp [hc, bind, Except.bind] at h
      | ok z =>
        simp only [hc, bind, Except.bind, Except.ok.injEq] at h
        obtain ⟨h1, h2, _, _, _, h3, _⟩ := convGeneral_ok _ _ _ _ _ _ _ hc
        have hgood := dims_good_conv ns c.dims _ (by omega) (by omega) h1
        have hys : y.shape = z.shape := by
          rw [← h]; cases c.bias <;> rfl
        rw [hx] at h2; simp at h2; subst h2
        refine ⟨ns, rfl, hl, ?_, ?_, ?_⟩
        · rw [hys, h3]; simp [convDims_length ns c.dims _ hl.symm hpl]
        · rw [hys, h3]; rfl
        · intro j n hd hn hh
          refine ⟨hgood j hd hh, _, ?_, convDim_out n hd _ (hgood j hd hh)⟩
          rw [hys, h3, List.getElem?_cons_succ, List.getElem?_map,
            convDims_get ns c.dims _ j n hd _ hn hh (allPads_get c.padding 0 ns c.dims j n hd hn hh)]
          simp
    · rename_i hm
      cases hp : padArr c.mode x (allPads c.padding 0 ns c.dims) with
      | error e => simp [hp, bind, Except.bind] at h
      | ok x' =>
        simp only [hp, bind, Except.bind] at h
        obtain ⟨ch', ns', e1, e2, e3, e4, _⟩ := padArr_ok _ _ _ _ hp
        rw [hx] at e1; injection e1 with e1a e1b; subst e1a; subst e1b
        simp only [e4, List.tail_cons] at h
        cases hc : convGeneral x' c.weight c.inChannels c.outChannels c.groups
          (convDims (padShape ns (allPads c.padding 0 ns c.dims)) c.dims (c.dims.map fun _ => (0, 0))) with
        | error e => rw [hc] at h; exact absurd h (by simp)
        | ok z =>
          simp only [hc, Except.ok.injEq] at h
          obtain ⟨h1, h2, _, _, _, h3, _⟩ := convGeneral_ok _ _ _ _ _ _ _ hc
          have hsl := padShape_length ns (allPads c.padding 0 ns c.dims) hpl
          have hgood := dims_good_conv _ c.dims _ (by omega) (by simp; omega) h1
          have hys : y.shape = z.shape := by
            rw [← h]; cases c.bias <;> rfl
          rw [e4] at h2; simp at h2; subst h2
          refine ⟨ns, rfl, hl, ?_, ?_, ?_⟩
          · rw [hys, h3]
            simp only [List.length_cons, List.length_map]
            rw [convDims_length _ c.dims _ (by omega) (by simp; omega), hsl]
          · rw [hys, h3]; rfl
          · intro j n hd hn hh
            have gp := allPads_get c.padding 0 ns c.dims j n hd hn hh
            have gs := padShape_get ns _ j n _ hn gp
            refine ⟨hgood j hd hh, (⟨((n : Int) + (convPads c.padding n hd (c.padding.entry (0 + j))).1 +
              (convPads c.padding n hd (c.padding.entry (0 + j))).2).toNat, hd.k, hd.s, hd.d, 0, 0, 1⟩ :
              CDim).out, ?_, ?_⟩
            · rw [hys, h3, List.getElem?_cons_succ, List.getElem?_map,
                convDims_get _ c.dims _ j _ hd (0, 0) gs hh (by rw [List.getElem?_map, hh]; rfl)]
              rfl
            · rw [convDim_out _ hd (0, 0) (hgood j hd hh)]
              have := e2 _ (List.mem_of_getElem? gp)
              simp only [Nat.zero_add, convSize] at this ⊢
              congr 3
              omega

/-- **C44** (`"SAME"` convolutions). -/
theorem conv_shape_same [CommSemiring R] (c : Conv R) (x y : NArr R) (h : c.call x = .ok y)
    (hp : c.padding = .same ∨ c.padding = .sameLower) :
    ∃ ns, x.shape = c.inChannels :: ns ∧ ns.length = c.dims.length ∧
      y.shape.length = x.shape.length ∧ y.shape[0]? = some c.outChannels ∧
      ∀ (j n : Nat) (h : HDim), ns[j]? = some n → c.dims[j]? = some h →
        ∃ m : Nat, y.shape[j + 1]? = some m ∧ (m : Int) = ceilDiv n h.s := by
  obtain ⟨ns, h1, h2, h3, h4, h5⟩ := conv_shape c x y h
  refine ⟨ns, h1, h2, h3, h4, fun j n hd hn hh => ?_⟩
  obtain ⟨g, m, hm, he⟩ := h5 j n hd hn hh
  refine ⟨m, hm, ?_⟩
  rcases hp with hp | hp
  · rw [he, hp]; exact same_size n hd g false
  · rw [he, hp]; exact same_size n hd g true

/-- **C44** (shape of a transposed convolution). If a call on non-empty dimensions returns, a
dimension of size `o` becomes one of size `o s - a` with `"SAME"` padding, and of size
`(o-1) s + d (k-1) + 1 - p0 - p1 + a` otherwise (never less than zero). -/
theorem convT_shape [CommSemiring R] (c : Conv R) (x y : NArr R) (h : c.callT x = .ok y)
    (ha : ∀ h ∈ c.dims, h.a < h.s) :
    ∃ os, x.shape = c.inChannels :: os ∧ os.length = c.dims.length ∧
      y.shape.length = x.shape.length ∧ y.shape[0]? = some c.outChannels ∧
      ∀ (j o : Nat) (h : HDim), os[j]? = some o → c.dims[j]? = some h → 0 < o → h.Good ∧
        ∃ m : Nat, y.shape[j + 1]? = some m ∧
          (m : Int) = (match c.padding with
            | .same => (o : Int) * h.s - h.a
            | .sameLower => (o : Int) * h.s - h.a
            | .valid => max 0 (convTSize o h (0, 0))
            | .pairs _ => max 0 (convTSize o h (c.padding.entry j))) ∧
          m = (⟨o, h.k, 1, h.d, (padTranspose c.padding h (c.padding.entry j)).1,
            (padTranspose c.padding h (c.padding.entry j)).2, h.s⟩ : CDim).out := by
  have closed : ∀ (o : Nat) (hd : HDim) (j : Nat), hd ∈ c.dims → hd.Good → 0 < o →
      ((⟨o, hd.k, 1, hd.d, (padTranspose c.padding hd (c.padding.entry j)).1,
            (padTranspose c.padding hd (c.padding.entry j)).2, hd.s⟩ : CDim).out : Int) =
        (match c.padding with
            | .same => (o : Int) * hd.s - hd.a
            | .sameLower => (o : Int) * hd.s - hd.a
            | .valid => max 0 (convTSize o hd (0, 0))
            | .pairs _ => max 0 (convTSize o hd (c.padding.entry j))) := by
    intro o hd j hm g ho
    cases hp : c.padding with
    | same => exact convT_same_size o ho hd g (ha hd hm) .same (.inl rfl) _
    | sameLower => exact convT_same_size o ho hd g (ha hd hm) .sameLower (.inr rfl) _
    | valid => exact (convT_explicit_size o ho hd [] _).2
    | pairs l => exact (convT_explicit_size o ho hd l _).1
  have good : ∀ (ns : List Nat) (ps : List (Int × Int)), c.dims.length = ns.length →
      ps.length = ns.length →
      (∀ q ∈ convDimsT ns c.dims ps, 0 < q.s ∧ 0 < q.d ∧ 0 < q.ld ∧ 0 < q.k) →
      ∀ (j : Nat) (h : HDim), c.dims[j]? = some h → h.Good := by
    intro ns ps h1 h2 hg j h hh
    have hj : j < c.dims.length := (List.getElem?_eq_some_iff.mp hh).1
    have := convDimsT_get ns c.dims ps j ns[j] h ps[j] (List.getElem?_eq_getElem (by omega)) hh
      (List.getElem?_eq_getElem (by omega))
    have := hg _ (List.mem_of_getElem? this)
    exact ⟨this.2.2.2, this.2.2.1, this.2.1⟩
  simp only [Conv.callT] at h
  split at h
  · simp at h
  rename_i hr
  have hr : x.shape.length = c.dims.length + 1 := by omega
  cases hx : x.shape with
  | nil => simp [hx] at hr
  | cons ch os =>
    have hl : os.length = c.dims.length := by simpa [hx] using hr
    have hpl := allPadsT_length c.padding 0 c.dims
    simp only [hx, List.tail_cons] at h
    split at h
    · rename_i hm
      have hwl : (List.zipWith (fun (p : Int × Int) (h : HDim) => (p.1 / h.s, p.2 / h.s))
          (allPadsT c.padding 0 c.dims) c.dims).length = os.length := by simp [hpl, hl]
      have hrl : (List.zipWith (fun (p : Int × Int) (h : HDim) => (p.1 % h.s, p.2 % h.s))
          (allPadsT c.padding 0 c.dims) c.dims).length = os.length := by simp [hpl, hl]
      cases hp : padArr .circular x (List.zipWith (fun p h => (p.1 / h.s, p.2 / h.s))
          (allPadsT c.padding 0 c.dims) c.dims) with
      | error e => simp [hp, bind, Except.bind] at h
      | ok x' =>
        simp only [hp, bind, Except.bind] at h
        obtain ⟨ch', ns', e1, e2, e3, e4, _⟩ := padArr_ok _ _ _ _ hp
        rw [hx] at e1; injection e1 with e1a e1b; subst e1a; subst e1b
        simp only [e4, List.tail_cons] at h
        split at h
        · simp at h
        rename_i z hc
        simp only [Except.ok.injEq] at h
        obtain ⟨h1, h2, _, _, _, h3, _⟩ := convGeneral_ok _ _ _ _ _ _ _ hc
        have hsl := padShape_length os _ hwl
        have hgood := good _ _ (by omega) (by omega) h1
        have hys : y.shape = z.shape := by
          rw [← h]; cases c.bias <;> rfl
        rw [e4] at h2; simp at h2; subst h2
        refine ⟨os, rfl, hl, ?_, ?_, ?_⟩
        · rw [hys, h3]
          simp only [List.length_cons, List.length_map]
          rw [convDimsT_length _ c.dims _ (by omega) (by omega), hsl]
        · rw [hys, h3]; rfl
        · intro j o hd ho hh hpos
          have g := hgood j hd hh
          have gp := allPadsT_get c.padding 0 c.dims j hd hh
          rw [Nat.zero_add] at gp
          have gw : (List.zipWith (fun (p : Int × Int) (h : HDim) => (p.1 / h.s, p.2 / h.s))
              (allPadsT c.padding 0 c.dims) c.dims)[j]? = some
              ((padTranspose c.padding hd (c.padding.entry j)).1 / hd.s,
               (padTranspose c.padding hd (c.padding.entry j)).2 / hd.s) := by
            simp [List.getElem?_zipWith, gp, hh]
          have gr : (List.zipWith (fun (p : Int × Int) (h : HDim) => (p.1 % h.s, p.2 % h.s))
              (allPadsT c.padding 0 c.dims) c.dims)[j]? = some
              ((padTranspose c.padding hd (c.padding.entry j)).1 % hd.s,
               (padTranspose c.padding hd (c.padding.entry j)).2 % hd.s) := by
            simp [List.getElem?_zipWith, gp, hh]
          have gs := padShape_get os _ j o _ ho gw
          have hnn := e2 _ (List.mem_of_getElem? gw)
          have key : (⟨((o : Int) + (padTranspose c.padding hd (c.padding.entry j)).1 / hd.s +
                (padTranspose c.padding hd (c.padding.entry j)).2 / hd.s).toNat, hd.k, 1, hd.d,
              (padTranspose c.padding hd (c.padding.entry j)).1 % hd.s,
              (padTranspose c.padding hd (c.padding.entry j)).2 % hd.s, hd.s⟩ : CDim).out =
              (⟨o, hd.k, 1, hd.d, (padTranspose c.padding hd (c.padding.entry j)).1,
            (padTranspose c.padding hd (c.padding.entry j)).2, hd.s⟩ : CDim).out := by
            generalize padTranspose c.padding hd (c.padding.entry j) = p at *
            simp only at hnn
            have f1 := convTDim_out o hpos hd p
            have f2 := convTDim_out ((o : Int) + p.1 / hd.s + p.2 / hd.s).toNat (by omega) hd
              (p.1 % hd.s, p.2 % hd.s)
            simp only at f2
            have m1 := Int.mul_ediv_add_emod p.1 hd.s
            have m2 := Int.mul_ediv_add_emod p.2 hd.s
            have e5 : ((((o : Int) + p.1 / hd.s + p.2 / hd.s).toNat : Nat) : Int) =
              (o : Int) + p.1 / hd.s + p.2 / hd.s := by omega
            rw [e5] at f2
            have e6 : ((o : Int) + p.1 / hd.s + p.2 / hd.s - 1) * hd.s + 1 + p.1 % hd.s + p.2 % hd.s -
                hd.d * (hd.k - 1) = ((o : Int) - 1) * hd.s + 1 + p.1 + p.2 - hd.d * (hd.k - 1) := by
              have : ((o : Int) + p.1 / hd.s + p.2 / hd.s - 1) * hd.s =
                ((o : Int) - 1) * hd.s + hd.s * (p.1 / hd.s) + hd.s * (p.2 / hd.s) := by ring
              omega
            rw [e6] at f2
            omega
          refine ⟨g, _, ?_, closed o hd j (List.mem_of_getElem? hh) g hpos, rfl⟩
          rw [hys, h3, List.getElem?_cons_succ, List.getElem?_map,
            convDimsT_get _ c.dims _ j _ hd _ gs hh gr, ← key]
          rfl
    · rename_i hm
      simp only [bind, Except.bind] at h
      split at h
      · simp at h
      rename_i z hc
      simp only [Except.ok.injEq] at h
      obtain ⟨h1, h2, _, _, _, h3, _⟩ := convGeneral_ok _ _ _ _ _ _ _ hc
      have hgood := good _ _ (by omega) (by omega) h1
      have hys : y.shape = z.shape := by
        rw [← h]; cases c.bias <;> rfl
      rw [hx] at h2; simp at h2; subst h2
      refine ⟨os, rfl, hl, ?_, ?_, ?_⟩
      · rw [hys, h3]
        simp only [List.length_cons, List.length_map]
        rw [convDimsT_length _ c.dims _ (by omega) (by omega)]
      · rw [hys, h3]; rfl
      · intro j o hd ho hh hpos
        have g := hgood j hd hh
        have gp := allPadsT_get c.padding 0 c.dims j hd hh
        rw [Nat.zero_add] at gp
        refine ⟨g, _, ?_, closed o hd j (List.mem_of_getElem? hh) g hpos, rfl⟩
        rw [hys, h3, List.getElem?_cons_succ, List.getElem?_map,
          convDimsT_get _ c.dims _ j _ hd _ ho hh gp]
        rfl

/-! ## The check of `output_padding` -/

theorem tupleGe_of_all (as bs : List Int) (h : as.length = bs.length) (hge : tupleGe as bs = true) :
    as = [] ∨ ∃ (j : Nat) (a b : Int), as[j]? = some a ∧ bs[j]? = some b ∧ a ≥ b := by
  induction as generalizing bs with
  | nil => exact .inl rfl
  | cons a as ih =>
    cases bs with
    | nil => simp at h
    | cons b bs =>
      right
      simp only [tupleGe] at hge
      split at hge
      · rename_i heq
        exact ⟨0, a, b, rfl, rfl, by omega⟩
      · exact ⟨0, a, b, rfl, rfl, by have := of_decide_eq_true hge; omega⟩

/-- **C44** (the check rejects only what it says). If the constructor's check raises, then
`output_padding` is not elementwise less than `stride`. -/
theorem output_padding_check (stride outputPadding : List Int)
    (hl : outputPadding.length = stride.length)
    (h : outputPaddingCheck stride outputPadding = .error .valueError) :
    ∃ (j : Nat) (a s : Int), outputPadding[j]? = some a ∧ stride[j]? = some s ∧ a ≥ s := by
  simp only [outputPaddingCheck] at h
  split at h
  · rename_i hany
    obtain ⟨q, hq, hge⟩ := List.any_eq_true.mp hany
    rcases tupleGe_of_all outputPadding stride hl hge with hnil | hex
    · subst hnil
      have : stride = [] := List.length_eq_zero_iff.mp (by simpa using hl.symm)
      subst this
      simp at hq
    · exact hex
  · simp at h

/-- **C44** (the check is complete in one dimension). -/
theorem output_padding_check_one (a s : Int) :
    outputPaddingCheck [s] [a] = .error .valueError ↔ a ≥ s := by
  simp only [outputPaddingCheck, List.zip_cons_cons, List.zip_nil_right, List.any_cons, List.any_nil,
    Bool.or_false, tupleGe]
  by_cases h : a = s
  · simp [h]
  · simp only [h, if_false, decide_eq_true_eq]
    split <;> simp <;> omega

/-- **C44** (the check is not elementwise). In two dimensions the constructor accepts an
`output_padding` larger than the stride. -/
theorem output_padding_not_elementwise :
    ∃ (c : Conv Int), Conv.mkTranspose 2 1 1 (.int 3) (.seq [2, 2]) (.str .valid) (.seq [1, 5]) (.int 1) 1
      (some .zeros) ⟨[1, 1, 3, 3], fun _ => 1⟩ none = .ok c ∧ ∃ h ∈ c.dims, h.s ≤ h.a :=
  ⟨_, rfl, ⟨3, 2, 1, 5⟩, by simp [zipDims, List.replicate], by decide⟩

/-! ## The constructors -/

theorem ntuple_ok (n : Nat) (x : IntOrSeq) (l : List Int) (h : ntuple n x = .ok l) :
    l.length = n ∧ ∀ j, j < n → l[j]? = x.entry j := by
  cases x with
  | int q =>
    simp only [ntuple, Except.ok.injEq] at h
    subst h
    exact ⟨by simp, fun j hj => by simp [IntOrSeq.entry, hj]⟩
  | seq q =>
    simp only [ntuple] at h
    split at h
    · simp only [Except.ok.injEq] at h
      subst h
      exact ⟨by assumption, fun j _ => rfl⟩
    · simp at h
  | other => simp [ntuple] at h

theorem zipDims_get (ks ss ds as : List Int) (n : Nat) (h1 : ks.length = n) (h2 : ss.length = n)
    (h3 : ds.length = n) (h4 : as.length = n) :
    (zipDims ks ss ds as).length = n ∧ ∀ (j : Nat) (h : HDim), (zipDims ks ss ds as)[j]? = some h →
      ks[j]? = some h.k ∧ ss[j]? = some h.s ∧ ds[j]? = some h.d ∧ as[j]? = some h.a := by
  induction ks generalizing ss ds as n with
  | nil => simp at h1; subst h1; exact ⟨by simp [zipDims], fun j h hh => by simp [zipDims] at hh⟩
  | cons k ks ih =>
    match ss, ds, as, n, h1, h2, h3, h4 with
    | s :: ss, d :: ds, a :: as, n + 1, h1, h2, h3, h4 =>
      obtain ⟨i1, i2⟩ := ih ss ds as n (by simpa using h1) (by simpa using h2) (by simpa using h3)
        (by simpa using h4)
      refine ⟨by simp [zipDims, i1], fun j h hh => ?_⟩
      cases j with
      | zero => simp [zipDims] at hh; subst hh; simp
      | succ j => simp only [zipDims, List.getElem?_cons_succ] at hh ⊢; exact i2 j h hh

/-- The padding a `padding` argument asks for: one of the strings, or explicit widths. -/
def ConvPadArg.Means (n : Nat) : ConvPadArg → Pad → Prop
  | .str p, q => q = p
  | .badStr, _ => False
  | .arg a, q => (∃ l, q = .pairs l ∧ l.length = n) ∧ ∀ j, j < n → some (q.entry j) = a.entry j

theorem paddingInit_ok (n : Nat) (a : ConvPadArg) (p : Pad) (h : paddingInit n a = .ok p) :
    a.Means n p := by
  cases a with
  | str q => simp only [paddingInit, Except.ok.injEq] at h; exact h.symm
  | badStr => simp [paddingInit] at h
  | arg a =>
    cases a with
    | int q =>
      simp only [paddingInit, Except.ok.injEq] at h
      subst h
      exact ⟨⟨_, rfl, by simp⟩, fun j hj => by simp [Pad.entry, PadArg.entry, hj]⟩
    | ints l =>
      simp only [paddingInit] at h
      split at h
      · rename_i hl
        simp only [Except.ok.injEq] at h
        subst h
        refine ⟨⟨_, rfl, by simpa using hl⟩, fun j hj => ?_⟩
        have : l[j]? = some l[j] := List.getElem?_eq_getElem (by omega)
        simp [Pad.entry, PadArg.entry, this]
      · simp at h
    | pairs l =>
      simp only [paddingInit] at h
      split at h
      · rename_i hl
        simp only [Except.ok.injEq] at h
        subst h
        refine ⟨⟨_, rfl, hl⟩, fun j hj => ?_⟩
        have : l[j]? = some l[j] := List.getElem?_eq_getElem (by omega)
        simp [Pad.entry, PadArg.entry, this]
      · simp at h
    | other => simp [paddingInit] at h

/-- **C44** (constructor of `Conv`). -/
theorem conv_mk (n inC outC : Nat) (kernel stride : IntOrSeq) (padding : ConvPadArg)
    (dilation : IntOrSeq) (groups : Nat) (mode : Option Mode) (weight : NArr R) (bias : Option (Nat → R))
    (c : Conv R) (h : Conv.mk' n inC outC kernel stride padding dilation groups mode weight bias = .ok c) :
    c.dims.length = n ∧ c.inChannels = inC ∧ c.outChannels = outC ∧ c.groups = groups ∧ 0 < groups ∧
      inC % groups = 0 ∧ some c.mode = mode ∧ padding.Means n c.padding ∧ c.weight = weight ∧ c.bias = bias ∧
      ∀ (j : Nat) (h : HDim), c.dims[j]? = some h → kernel.entry j = some h.k ∧
        stride.entry j = some h.s ∧ dilation.entry j = some h.d ∧ h.a = 0 := by
  simp only [Conv.mk', bind, Except.bind] at h
  split at h
  · simp at h
  rename_i k hk
  split at h
  · simp at h
  rename_i s hs
  split at h
  · simp at h
  rename_i d hd
  split at h
  · simp at h
  rename_i g1
  split at h
  · simp at h
  rename_i g2
  split at h
  · simp at h
  rename_i hlim
  split at h
  · simp at h
  rename_i p hp
  split at h
  · simp at h
  rename_i m hm
  simp only [Except.ok.injEq] at h
  obtain ⟨k1, k2⟩ := ntuple_ok n _ _ hk
  obtain ⟨s1, s2⟩ := ntuple_ok n _ _ hs
  obtain ⟨d1, d2⟩ := ntuple_ok n _ _ hd
  obtain ⟨z1, z2⟩ := zipDims_get k s d (List.replicate n 0) n k1 s1 d1 (by simp)
  subst h
  refine ⟨z1, rfl, rfl, rfl, by omega, by omega, ?_, paddingInit_ok n _ _ hp, rfl, rfl, fun j h hh => ?_⟩
  · cases mode with
    | none => simp [modeInit] at hm
    | some m' => simp only [modeInit, Except.ok.injEq] at hm; rw [hm]
  · have hj : j < n := by rw [← z1]; exact (List.getElem?_eq_some_iff.mp hh).1
    obtain ⟨e1, e2, e3, e4⟩ := z2 j h hh
    refine ⟨by rw [← k2 j hj, e1], by rw [← s2 j hj, e2], by rw [← d2 j hj, e3], ?_⟩
    rw [List.getElem?_replicate, if_pos hj] at e4
    injection e4 with e4
    exact e4.symm

/-- **C44** (constructor of `ConvTranspose`). -/
theorem convT_mk (n inC outC : Nat) (kernel stride : IntOrSeq) (padding : ConvPadArg)
    (outputPadding dilation : IntOrSeq) (groups : Nat) (mode : Option Mode) (weight : NArr R)
    (bias : Option (Nat → R)) (c : Conv R)
    (h : Conv.mkTranspose n inC outC kernel stride padding outputPadding dilation groups mode weight bias =
      .ok c) :
    c.dims.length = n ∧ c.inChannels = inC ∧ c.outChannels = outC ∧ c.groups = groups ∧ 0 < groups ∧
      some c.mode = mode ∧ padding.Means n c.padding ∧ c.weight = weight ∧ c.bias = bias ∧
      (∀ (j : Nat) (h : HDim), c.dims[j]? = some h → kernel.entry j = some h.k ∧
        stride.entry j = some h.s ∧ dilation.entry j = some h.d ∧ outputPadding.entry j = some h.a) ∧
      ∀ h : HDim, c.dims = [h] → h.a < h.s := by
  simp only [Conv.mkTranspose, bind, Except.bind] at h
  split at h
  · simp at h
  rename_i k hk
  split at h
  · simp at h
  rename_i s hs
  split at h
  · simp at h
  rename_i a ha
  split at h
  · simp at h
  rename_i d hd
  split at h
  · simp at h
  rename_i hchk
  split at h
  · simp at h
  rename_i g1
  split at h
  · simp at h
  rename_i hlim
  split at h
  · simp at h
  rename_i p hp
  split at h
  · simp at h
  rename_i m hm
  have hc : c = ⟨zipDims k s d a, p, m, inC, outC, groups, weight, bias⟩ := by
    cases m with
    | reflect => simp at h
    | replicate => simp at h
    | zeros => simp only [Except.ok.injEq] at h; exact h.symm
    | circular =>
      simp only at h
      split at h
      · simp at h
      split at h
      · simp at h
      simp only [Except.ok.injEq] at h
      exact h.symm
  obtain ⟨k1, k2⟩ := ntuple_ok n _ _ hk
  obtain ⟨s1, s2⟩ := ntuple_ok n _ _ hs
  obtain ⟨d1, d2⟩ := ntuple_ok n _ _ hd
  obtain ⟨a1, a2⟩ := ntuple_ok n _ _ ha
  obtain ⟨z1, z2⟩ := zipDims_get k s d a n k1 s1 d1 a1
  subst hc
  refine ⟨z1, rfl, rfl, rfl, by omega, ?_, paddingInit_ok n _ _ hp, rfl, rfl, fun j h hh => ?_, fun h hh => ?_⟩
  · cases mode with
    | none => simp [modeInit] at hm
    | some m' => simp only [modeInit, Except.ok.injEq] at hm; rw [hm]
  · have hj : j < n := by rw [← z1]; exact (List.getElem?_eq_some_iff.mp hh).1
    obtain ⟨e1, e2, e3, e4⟩ := z2 j h hh
    exact ⟨by rw [← k2 j hj, e1], by rw [← s2 j hj, e2], by rw [← d2 j hj, e3], by rw [← a2 j hj, e4]⟩
  · simp only at hh
    have hn : n = 1 := by rw [← z1, hh]; rfl
    obtain ⟨_, e2, _, e4⟩ := z2 0 h (by rw [hh]; rfl)
    subst hn
    match s, a, s1, a1, e2, e4 with
    | [s], [a], _, _, e2, e4 =>
      simp at e2 e4
      subst e2; subst e4
      by_contra hge
      rw [(output_padding_check_one _ _).mpr (not_lt.mp hge)] at hchk
      simp at hchk

end Verif.NN
