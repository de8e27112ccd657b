import Verif.Loop.Checkpoint.Props
import Verif.Loop.Checkpoint.KeepSpec
import Mathlib.Data.List.Perm.Subperm

/-! The forward pass keeps the checkpoints of `KeepSpec`. -/

namespace Verif
namespace Checkpoint

variable {W V : Type}

theorem dropLatest_some {g : Nat → Nat × Nat} {P : Nat → Prop} {e : Nat} {post : List Nat} (pre : List Nat) :
    ∀ later : List Nat, (∀ p x q, pre ++ e :: post = p ++ x :: q → (P x ↔ ∃ y ∈ later ++ p, (g x).2 + 2 ≤ (g y).2)) →
    P e → (∀ x ∈ pre, ¬ P x) → dropLatest (later.map g) ((pre ++ e :: post).map g) = some ((later ++ pre ++ post).map g) := by
  induction pre with
  | nil =>
    intro later h he _
    have := (h [] e post rfl).1 he
    simp only [List.append_nil] at this
    obtain ⟨y, hy, hle⟩ := this
    simp only [List.nil_append, List.map_cons, dropLatest, List.append_nil]
    rw [if_pos]
    · simp
    · simp only [List.any_map, List.any_eq_true, Function.comp, decide_eq_true_eq]
      exact ⟨y, hy, hle⟩
  | cons a pre ih =>
    intro later h he hpre
    have hna := hpre a (by simp)
    rw [h [] a (pre ++ e :: post) rfl] at hna
    simp only [List.append_nil] at hna
    simp only [List.cons_append, List.map_cons, dropLatest]
    rw [if_neg]
    · have := ih (later ++ [a]) (by
        intro p x q hpq
        have := h (a :: p) x q (by simp [hpq])
        simpa using this) he (fun x hx => hpre x (by simp [hx]))
      simpa using this
    · simp only [List.any_map, List.any_eq_true, Function.comp, decide_eq_true_eq]
      exact hna

theorem dropLatest_none {g : Nat → Nat × Nat} {P : Nat → Prop} (rest : List Nat) :
    ∀ later : List Nat, (∀ p x q, rest = p ++ x :: q → (P x ↔ ∃ y ∈ later ++ p, (g x).2 + 2 ≤ (g y).2)) →
    (∀ x ∈ rest, ¬ P x) → dropLatest (later.map g) (rest.map g) = none := by
  induction rest with
  | nil => intro later _ _; rfl
  | cons a rest ih =>
    intro later h hno
    have hna := hno a (by simp)
    rw [h [] a rest rfl] at hna
    simp only [List.append_nil] at hna
    simp only [List.map_cons, dropLatest]
    rw [if_neg]
    · have := ih (later ++ [a]) (by
        intro p x q hpq
        have := h (a :: p) x q (by simp [hpq])
        simpa using this) (fun x hx => hno x (by simp [hx]))
      simpa using this
    · simp only [List.any_map, List.any_eq_true, Function.comp, decide_eq_true_eq]
      exact hna

/-- The slots in `σ`, the latest first, hold the checkpoints in `l`. -/
structure Keeps (c : Nat) (wm : WM) (rs : Nat → Int) (l : List (Nat × Nat)) (σ : List Nat) : Prop where
  mem : ∀ j, j ∈ σ ↔ 1 ≤ j ∧ j < c
  desc : σ.Pairwise fun a b => rs b < rs a
  nonneg : ∀ j ∈ σ, 0 ≤ wm.levels j
  eq : l = σ.map fun j => ((rs j).toNat, (wm.levels j).toNat)
  zero : wm.disp 0 = false
  disp : ∀ j ∈ σ, wm.disp j = true ↔ ∃ i ∈ σ, rs j < rs i ∧ wm.levels j + 2 ≤ wm.levels i

theorem Keeps.split {c : Nat} {wm : WM} {rs : Nat → Int} {l : List (Nat × Nat)} {σ : List Nat} (h : Keeps c wm rs l σ)
    (p : List Nat) (x : Nat) (q : List Nat) (hσ : σ = p ++ x :: q) :
    wm.disp x = true ↔ ∃ y ∈ p, (wm.levels x).toNat + 2 ≤ (wm.levels y).toNat := by
  have hd := h.desc
  rw [hσ, List.pairwise_append, List.pairwise_cons] at hd
  obtain ⟨-, ⟨hd1, -⟩, hd2⟩ := hd
  have hx := h.nonneg x (by simp [hσ])
  rw [h.disp x (by simp [hσ])]
  constructor
  · rintro ⟨i, hi, h1, h2⟩
    rw [hσ] at hi
    simp only [List.mem_append, List.mem_cons] at hi
    rcases hi with hi | hi | hi
    · exact ⟨i, hi, by omega⟩
    · subst hi; omega
    · have := hd1 i hi; omega
  · rintro ⟨y, hy, h2⟩
    have hyσ : y ∈ σ := by simp [hσ, hy]
    have hyn := h.nonneg y hyσ
    exact ⟨y, hyσ, hd2 y hy x (by simp), by omega⟩

theorem keeps_step {M : Int} {c k : Nat} (hc : 2 ≤ c) (hck : c ≤ k) {f : Nat → V} {wm : WM} {rs : Nat → Int} {resid : Nat → V}
    (hm : MemInv M c k f rs resid) (hM : (k : Int) < M) (hw : WMInv M k wm) {l : List (Nat × Nat)} {σ : List Nat} (h : Keeps c wm rs l σ) :
    ∃ σ', Keeps c (wangMoin c wm rs).2.2
      (maybeUpdate c (wangMoin c wm rs).1 (wangMoin c wm rs).2.1 rs k) (keep k l) σ' := by
  have h0 : rs 0 = 0 := hm.zero (by omega)
  have hlt : ∀ i, i < c → 0 ≤ rs i ∧ rs i < k := by
    intro i hi
    obtain ⟨j, hj, hjk, -⟩ := hm.used i hi (by omega)
    omega
  have hpos : ∀ i, i < c → 1 ≤ i → 0 < rs i := by
    intro i hi h1i
    have h1 := (hlt i hi).1
    rcases Int.lt_or_eq_of_le h1 with h2 | h2
    · exact h2
    · have := hm.inj i 0 hi (by omega) (by omega) (by omega) (by rw [← h2, h0])
      omega
  simp only [wangMoin, if_neg (show ¬ c = 1 by omega)]
  by_cases hany : (List.range c).any wm.disp = true
  · simp only [hany, if_true, anyDispensable]
    generalize hidx : argmax (fun j => if wm.disp j = true then rs j else 0) c = e
    have hec : e < c := hidx ▸ argmax_lt _ (by omega)
    have hmaxi : ∀ j, j < c → (if wm.disp j = true then rs j else 0) ≤ (if wm.disp e = true then rs e else 0) :=
      fun j hj => hidx ▸ le_argmax (fun j => if wm.disp j = true then rs j else 0) hj
    have hd : wm.disp e = true ∧ 1 ≤ e := by
      obtain ⟨j, hj, hjd⟩ := List.any_eq_true.1 hany
      have hj : j < c := List.mem_range.1 hj
      have hj1 : 1 ≤ j := by
        rcases Nat.eq_zero_or_pos j with rfl | h'
        · simp [h.zero] at hjd
        · exact h'
      have h1 := hmaxi j hj
      have h2 := hpos j hj hj1
      rw [if_pos hjd] at h1
      by_cases hde : wm.disp e = true
      · refine ⟨hde, ?_⟩
        rcases Nat.eq_zero_or_pos e with rfl | h'
        · simp [h.zero] at hde
        · exact h'
      · rw [if_neg hde] at h1; omega
    obtain ⟨hde, he1⟩ := hd
    have heσ : e ∈ σ := (h.mem e).2 ⟨he1, hec⟩
    obtain ⟨pre, post, hσ⟩ := List.append_of_mem heσ
    have hdesc := h.desc
    rw [hσ, List.pairwise_append, List.pairwise_cons] at hdesc
    obtain ⟨hdp, ⟨hdq1, hdq⟩, hdpq⟩ := hdesc
    have hpre : ∀ x ∈ pre, ¬ wm.disp x = true := by
      intro x hx hxd
      have h1 := hdpq x hx e (by simp)
      have hxc := (h.mem x).1 (by simp [hσ, hx])
      have h2 := hmaxi x hxc.2
      rw [if_pos hxd, if_pos hde] at h2
      omega
    have hdrop := dropLatest_some (g := fun j => ((rs j).toNat, (wm.levels j).toNat)) (P := fun j => wm.disp j = true)
      (e := e) (post := post) pre [] (by
        intro p x q hpq
        have := h.split p x q (hσ.trans hpq)
        simpa using this) hde hpre
    have hne : ∀ j ∈ pre ++ post, j ≠ e := by
      intro j hj hje
      subst hje
      rcases List.mem_append.1 hj with h' | h'
      · have := hdpq j h' j (by simp); omega
      · have := hdq1 j h'; omega
    have hin : ∀ j, j ∈ e :: (pre ++ post) ↔ j ∈ σ := by
      intro j; rw [hσ]; simp only [List.mem_cons, List.mem_append]; tauto
    refine ⟨e :: (pre ++ post), ?_⟩
    have hcl : clamp c ((e : Nat) : Int) = e := clamp_eq rfl hec
    have hdc : decide (c > 1) = true := by simp; omega
    simp only [hdc, maybeUpdate_true, hcl]
    refine ⟨fun j => (hin j).trans (h.mem j), ?_, ?_, ?_, ?_, ?_⟩
    · rw [List.pairwise_cons]
      constructor
      · intro j hj
        have hjc := (h.mem j).1 ((hin j).1 (by simp [List.mem_append.1 hj]))
        rw [if_neg (hne j hj), if_pos rfl]
        exact (hlt j hjc.2).2
      · have : (pre ++ post).Pairwise fun a b => rs b < rs a := by
          rw [List.pairwise_append]
          exact ⟨hdp, hdq, fun a ha b hb => hdpq a ha b (by simp [hb])⟩
        refine this.imp_of_mem ?_
        intro a b ha hb hab
        rw [if_neg (hne a ha), if_neg (hne b hb)]; exact hab
    · intro j hj
      simp only
      split
      · omega
      · exact h.nonneg j ((hin j).1 hj)
    · simp only [List.nil_append, List.map_nil] at hdrop
      rw [h.eq, hσ]
      simp only [keep, hdrop, List.map_cons, if_true]
      congr 1
      apply List.map_congr_left
      intro j hj
      rw [if_neg (hne j hj), if_neg (hne j hj)]
    · simp only [h.zero]; split <;> rfl
    · intro j hj
      have hjσ := (hin j).1 hj
      have hjc := (h.mem j).1 hjσ
      have hnj := h.nonneg j hjσ
      by_cases hje : j = e
      · subst hje
        simp only [if_true]
        refine ⟨by simp, ?_⟩
        rintro ⟨i, hi, h1, h2⟩
        exfalso
        by_cases hij : i = j
        · subst hij; simp at h1
        · rw [if_neg hij] at h1
          have := (hlt i ((h.mem i).1 ((hin i).1 hi)).2).2
          omega
      · simp only [if_neg hje]
        rw [h.disp j hjσ]
        constructor
        · rintro ⟨i, hi, h1, h2⟩
          by_cases hie : i = e
          · subst hie
            obtain ⟨i', hi', h1', h2'⟩ := (h.disp i hi).1 hde
            have : i' ≠ i := by rintro rfl; omega
            exact ⟨i', (hin i').2 hi', by rw [if_neg this]; omega, by rw [if_neg this]; omega⟩
          · exact ⟨i, (hin i).2 hi, by rw [if_neg hie]; omega, by rw [if_neg hie]; omega⟩
        · rintro ⟨i, hi, h1, h2⟩
          by_cases hie : i = e
          · rw [if_pos hie] at h2; omega
          · rw [if_neg hie] at h1 h2
            exact ⟨i, (hin i).1 hi, h1, h2⟩
  · simp only [hany]
    simp only [Bool.false_eq_true, if_false, noneDispensable]
    generalize hidx : argmax rs c = e
    have hec : e < c := hidx ▸ argmax_lt _ (by omega)
    have hmaxi : ∀ j, j < c → rs j ≤ rs e := fun j hj => hidx ▸ le_argmax rs hj
    have he1 : 1 ≤ e := by
      rcases Nat.eq_zero_or_pos e with rfl | h'
      · have h1 := hmaxi 1 (by omega)
        have h2 := hpos 1 (by omega) (by omega)
        omega
      · exact h'
    have hno : ∀ j ∈ σ, ¬ wm.disp j = true := by
      intro j hj hjd
      apply hany
      exact List.any_eq_true.2 ⟨j, List.mem_range.2 ((h.mem j).1 hj).2, hjd⟩
    have heσ : e ∈ σ := (h.mem e).2 ⟨he1, hec⟩
    obtain ⟨rest, hσ⟩ : ∃ rest, σ = e :: rest := by
      cases hs : σ with
      | nil => rw [hs] at heσ; simp at heσ
      | cons a rest =>
        refine ⟨rest, ?_⟩
        rw [hs] at heσ
        rcases List.mem_cons.1 heσ with h' | h'
        · rw [h']
        · have hd := h.desc
          rw [hs, List.pairwise_cons] at hd
          have h1 := hd.1 e h'
          have h2 := hmaxi a ((h.mem a).1 (by simp [hs])).2
          omega
    have hdesc := h.desc
    rw [hσ, List.pairwise_cons] at hdesc
    have hdrop := dropLatest_none (g := fun j => ((rs j).toNat, (wm.levels j).toNat)) (P := fun j => wm.disp j = true)
      σ [] (by
        intro p x q hpq
        have := h.split p x q hpq
        simpa using this) hno
    have hne : ∀ j ∈ rest, j ≠ e := by
      rintro j hj rfl
      have := hdesc.1 j hj; omega
    have hcl : clamp c ((e : Nat) : Int) = e := clamp_eq rfl hec
    have hdc : decide (c > 1) = true := by simp; omega
    have hle := h.nonneg e heσ
    simp only [hdc, maybeUpdate_true, hcl]
    refine ⟨σ, h.mem, ?_, ?_, ?_, ?_, ?_⟩
    · rw [hσ, List.pairwise_cons]
      constructor
      · intro j hj
        rw [if_neg (hne j hj), if_pos rfl]
        exact (hlt j ((h.mem j).1 (by simp [hσ, hj])).2).2
      · refine hdesc.2.imp_of_mem ?_
        intro a b ha hb hab
        rw [if_neg (hne a ha), if_neg (hne b hb)]; exact hab
    · intro j hj
      have := h.nonneg j hj
      simp only
      split <;> omega
    · rw [h.eq]
      simp only [List.map_nil] at hdrop
      simp only [keep, hdrop]
      rw [hσ]
      simp only [List.map_cons, if_true]
      congr 1
      · simp; omega
      · apply List.map_congr_left
        intro j hj
        rw [if_neg (hne j hj), if_neg (hne j hj)]
    · simp only
      by_cases h' : wm.levels 0 < wm.levels e
      · have h1 := hw.zero
        have h2 := hw.le e he1
        omega
      · rw [if_neg h']; exact h.zero
    · intro j hj
      have hjc := (h.mem j).1 hj
      have hnj := hno j hj
      by_cases hje : j = e
      · subst hje
        simp only [Int.lt_irrefl, if_false, if_true]
        refine ⟨fun h' => absurd h' hnj, ?_⟩
        rintro ⟨i, hi, h1, h2⟩
        exfalso
        by_cases hij : i = j
        · subst hij; simp at h1
        · rw [if_neg hij] at h1
          have := (hlt i ((h.mem i).1 hi).2).2
          omega
      · simp only [if_neg hje]
        by_cases hl : wm.levels j < wm.levels e
        · simp only [if_pos hl, true_iff]
          exact ⟨e, heσ, by rw [if_pos rfl]; exact (hlt j hjc.2).2, by rw [if_pos rfl]; omega⟩
        · rw [if_neg hl]
          refine ⟨fun h' => absurd h' hnj, ?_⟩
          rintro ⟨i, hi, h1, h2⟩
          by_cases hie : i = e
          · rw [if_pos hie] at h2; omega
          · rw [if_neg hie] at h1 h2
            exact (h.disp j hj).2 ⟨i, hi, h1, h2⟩

theorem u2m1_nat (c : Nat) : u2m1 c = ((c * (c + 3) / 2 : Nat) : Int) := by
  unfold u2m1
  have : ((c : Int) + 1) * (c + 2) = ((c * (c + 3) : Nat) : Int) + 2 := by push_cast; ring
  rw [this]
  omega

theorem Q_nat (c i : Nat) (hi : i < c) : Q c (c - 1 - i) = (((c - 1 - i) * (c + 4 + i) / 2 : Nat) : Int) := by
  have h := two_Q c (c - 1 - i)
  have h2 : ((c - 1 - i : Nat) : Int) * (2 * c - (c - 1 - i : Nat) + 3) = (((c - 1 - i) * (c + 4 + i) : Nat) : Int) := by
    have : ((c - 1 - i : Nat) : Int) = (c : Int) - 1 - i := by omega
    push_cast
    rw [this]
    ring
  rw [h2] at h
  omega

/-- When the second phase starts. -/
theorem keeps_start {c : Nat} (hc : 2 ≤ c) {sw : SW} {wm : WM} {rs : Nat → Int} {j t : Nat} (hp : PhaseInv c (c * (c + 3) / 2) sw rs j t)
    (hl : ∀ j, 1 ≤ j → wm.levels j = 0) (hd : ∀ j, wm.disp j = false) :
    Keeps c wm rs (kept c 0) ((List.range (c - 1)).map (· + 1)) := by
  have hstep := hp.step
  rw [← u2m1_nat, u2m1_eq] at hstep
  have hjc : j = c := by
    by_contra hne
    have hlt : j + 1 ≤ c := by have := hp.le; omega
    have hmono : ∀ d, j + 1 + d ≤ c → Q c (j + 1) ≤ Q c (j + 1 + d) := by
      intro d
      induction d with
      | zero => intro _; exact Int.le_refl _
      | succ d ih =>
        intro h
        have h1 := ih (by omega)
        have h2 : Q c (j + 1 + (d + 1)) = Q c (j + 1 + d) + ((c : Int) - (j + 1 + d : Nat) + 1) := rfl
        omega
    have h1 := hmono (c - (j + 1)) (by omega)
    rw [show j + 1 + (c - (j + 1)) = c by omega] at h1
    have h2 : Q c (j + 1) = Q c j + ((c : Int) - j + 1) := rfl
    have := hp.tle
    omega
  subst hjc
  have hrs : ∀ i, i < j - 1 → rs (i + 1) = Q j (j - 1 - i) := by
    intro i hi
    rw [hp.mem _ (by omega), Mem, if_neg (by omega), if_pos (by omega)]
    congr 1; omega
  refine ⟨?_, ?_, ?_, ?_, hd 0, ?_⟩
  · intro i
    simp only [List.mem_map, List.mem_range]
    constructor
    · rintro ⟨a, ha, rfl⟩; omega
    · intro h; exact ⟨i - 1, by omega, by omega⟩
  · rw [List.pairwise_map, List.pairwise_iff_getElem]
    intro a b ha hb hab
    simp only [List.length_range] at ha hb
    simp only [List.getElem_range]
    rw [hrs a ha, hrs b hb]
    have hmono : ∀ x d, x + d < j → 1 ≤ d → Q j x < Q j (x + d) := by
      intro x d
      induction d with
      | zero => intro _ h; omega
      | succ d ih =>
        intro h _
        have h2 : Q j (x + (d + 1)) = Q j (x + d) + ((j : Int) - (x + d : Nat) + 1) := rfl
        rcases Nat.eq_zero_or_pos d with rfl | hd
        · simp only [Nat.add_zero] at h2; simp only [Nat.zero_add]; simp only [Nat.zero_add] at h2; omega
        · have := ih (by omega) hd; omega
    have := hmono (j - 1 - b) (b - a) (by omega) (by omega)
    rwa [show j - 1 - b + (b - a) = j - 1 - a by omega] at this
  · intro i hi
    simp only [List.mem_map, List.mem_range] at hi
    obtain ⟨a, -, rfl⟩ := hi
    rw [hl _ (by omega)]
  · simp only [kept, List.map_map]
    apply List.map_congr_left
    intro i hi
    have hi := List.mem_range.1 hi
    simp only [Function.comp]
    rw [hrs i hi, Q_nat j i (by omega), hl _ (by omega)]
    rfl
  · intro i hi
    rw [hd i]
    refine ⟨by simp, ?_⟩
    rintro ⟨a, ha, -, h2⟩
    simp only [List.mem_map, List.mem_range] at hi ha
    obtain ⟨i', -, rfl⟩ := hi
    obtain ⟨a', -, rfl⟩ := ha
    rw [hl _ (by omega), hl _ (by omega)] at h2
    omega

/-- The first schedule leaves the state of the second one alone. -/
theorem wm_untouched {M : Int} {c n : Nat} (hc : 1 ≤ c) (hM : (n : Int) < M) {maxSteps : Option Nat} (hmax : ∀ m, maxSteps = some m → n ≤ m)
    (hcm : maxSteps ≠ some c) (hn : (n : Int) ≤ u2m1 c) (strip : W → V) (body : W → W) (fill : V) (init : W) :
    (iter (fwdBody body strip c maxSteps) n (fwdInit M c fill init)).wm = (fwdInit M c fill init).wm := by
  induction n with
  | zero => rfl
  | succ n ih =>
    have hinv := fwdInv_iter hc (show (n : Int) < M by omega) (fun m hm => by have := hmax m hm; omega) strip body fill init (c := c) (maxSteps := maxSteps)
    rw [iter_succ', ← ih (by omega) (fun m hm => by have := hmax m hm; omega) (by omega)]
    generalize iter (fwdBody body strip c maxSteps) n (fwdInit M c fill init) = s at *
    have hss := shouldSave_sw (c := c) (maxSteps := maxSteps) (k := n) (sw := s.sw) (wm := s.wm) (rsteps := s.rsteps) hcm (by omega)
    rw [← hinv.step] at hss
    simp only [fwdBody, hss]

theorem keeps_iter {M : Int} {c d : Nat} (hc : 2 ≤ c) (hM : ((c * (c + 3) / 2 + d : Nat) : Int) < M) {maxSteps : Option Nat}
    (hmax : ∀ m, maxSteps = some m → c * (c + 3) / 2 + d ≤ m) (strip : W → V) (body : W → W) (fill : V) (init : W) :
    ∃ σ, Keeps c (iter (fwdBody body strip c maxSteps) (c * (c + 3) / 2 + d) (fwdInit M c fill init)).wm
      (iter (fwdBody body strip c maxSteps) (c * (c + 3) / 2 + d) (fwdInit M c fill init)).rsteps (kept c d) σ := by
  have hu : c < c * (c + 3) / 2 := by
    have : c * 5 ≤ c * (c + 3) := Nat.mul_le_mul_left _ (by omega)
    omega
  have hcm : maxSteps ≠ some c := fun h => by have := hmax c h; omega
  induction d with
  | zero =>
    obtain ⟨j, t, hp⟩ := phase_iter (by omega) hM hmax hcm (by omega) (by rw [u2m1_nat]; omega) strip body fill init
    refine ⟨_, keeps_start hc hp ?_ ?_⟩
    · intro j hj
      rw [wm_untouched (by omega) hM hmax hcm (by rw [u2m1_nat]; omega)]
      simp [fwdInit, show j ≠ 0 by omega]
    · intro j
      rw [wm_untouched (by omega) hM hmax hcm (by rw [u2m1_nat]; omega)]
      rfl
  | succ d ih =>
    have hM' : ((c * (c + 3) / 2 + d : Nat) : Int) < M := by omega
    have hmax' : ∀ m, maxSteps = some m → c * (c + 3) / 2 + d ≤ m := fun m hm => by have := hmax m hm; omega
    obtain ⟨σ, hσ⟩ := ih hM' hmax'
    have hinv := fwdInv_iter (show 1 ≤ c by omega) hM' hmax' strip body fill init
    rw [show c * (c + 3) / 2 + (d + 1) = (c * (c + 3) / 2 + d) + 1 by omega, iter_succ']
    generalize iter (fwdBody body strip c maxSteps) (c * (c + 3) / 2 + d) (fwdInit M c fill init) = s at *
    have hss : shouldSave c maxSteps (u2m1 c) s.step s.sw s.wm s.rsteps =
        ((wangMoin c s.wm s.rsteps).1, (wangMoin c s.wm s.rsteps).2.1, s.sw, (wangMoin c s.wm s.rsteps).2.2) := by
      have hge : s.step ≥ u2m1 c := by rw [hinv.step, u2m1_nat]; omega
      simp only [shouldSave, if_neg hcm]
      cases hms : maxSteps with
      | none => simp [hge]
      | some m =>
        have := hmax m hms
        have hno : ¬ (m : Int) ≤ u2m1 c := by rw [u2m1_nat]; omega
        simp [hge, hno]
    simp only [fwdBody, hss, kept]
    rw [hinv.step]
    exact keeps_step hc (by omega) hinv.mem hM' (hinv.wm hcm) hσ

/-- **C82.** With at least `c (c + 3) / 2` steps, the checkpoints that the forward pass leaves behind are the initial value and those of `kept`. -/
theorem forward_kept (cond : W → Bool) (body : W → W) (strip : W → V) (M : Int) (c : Nat)
    (maxSteps : Option Nat) (fill : V) (init : W) (d : Nat)
    (hc : 2 ≤ c) (hM : ((c * (c + 3) / 2 + d : Nat) : Int) < M) (hmax : ∀ m, maxSteps = some m → c * (c + 3) / 2 + d ≤ m)
    (s : Fwd W V) (hfwd : WhileRuns (fwdCond cond) (fwdBody body strip c maxSteps) (c * (c + 3) / 2 + d) (fwdInit M c fill init) s) :
    (fwdFinish c maxSteps s).rsteps 0 = 0 ∧
    (List.range (c - 1)).map (fun i => (fwdFinish c maxSteps s).rsteps (c - 1 - i)) = (kept c d).map fun x => (x.1 : Int) := by
  have hu : c < c * (c + 3) / 2 := by
    have : c * 5 ≤ c * (c + 3) := Nat.mul_le_mul_left _ (by omega)
    omega
  have hcm : maxSteps ≠ some c := fun h => by have := hmax c h; omega
  obtain ⟨-, hused, hsorted, hzero, -⟩ := forward_checkpoints_valid cond body strip M c maxSteps fill init _ (by omega) hM hmax s hfwd
  have hs := (whileRuns_iff.1 hfwd).1
  obtain ⟨σ, hσ⟩ := keeps_iter hc hM hmax strip body fill init
  have hinv := fwdInv_iter (show 1 ≤ c by omega) hM hmax strip body fill init
  rw [← hs] at hσ hinv
  have hmin : min (c * (c + 3) / 2 + d) c = c := by omega
  rw [hmin] at hsorted hused
  refine ⟨hzero (by omega), ?_⟩
  have hnn : ∀ j ∈ σ, 0 ≤ s.rsteps j := by
    intro j hj
    obtain ⟨a, ha, -, -⟩ := hinv.mem.used j ((hσ.mem j).1 hj).2 (by have := ((hσ.mem j).1 hj).2; omega)
    omega
  have hB : (kept c d).map (fun x => (x.1 : Int)) = σ.map s.rsteps := by
    rw [hσ.eq, List.map_map]
    apply List.map_congr_left
    intro j hj
    have := hnn j hj
    simp only [Function.comp]; omega
  rw [hB]
  have hdA : ((List.range (c - 1)).map (fun i => (fwdFinish c maxSteps s).rsteps (c - 1 - i))).Pairwise (fun a b => b < a) := by
    rw [List.pairwise_map, List.pairwise_iff_getElem]
    intro a b ha hb hab
    simp only [List.length_range] at ha hb
    simp only [List.getElem_range]
    exact hsorted _ _ (by omega) (by omega)
  have hdB : (σ.map s.rsteps).Pairwise (fun a b => b < a) := by rw [List.pairwise_map]; exact hσ.desc
  have hndA : ((List.range (c - 1)).map (fun i => (fwdFinish c maxSteps s).rsteps (c - 1 - i))).Nodup :=
    hdA.imp (fun h => by omega)
  have hndσ : σ.Nodup := hσ.desc.imp (fun h => by rintro rfl; omega)
  have hsub : (List.range (c - 1)).map (fun i => (fwdFinish c maxSteps s).rsteps (c - 1 - i)) ⊆ σ.map s.rsteps := by
    intro x hx
    simp only [List.mem_map, List.mem_range] at hx
    obtain ⟨i, hi, rfl⟩ := hx
    have hlt0 := hsorted 0 (c - 1 - i) (by omega) (by omega)
    rw [hzero (by omega)] at hlt0
    have he : (fwdFinish c maxSteps s).rsteps (c - 1 - i) = s.rsteps ((argsort c s.rsteps).getD (c - 1 - i) 0) := by
      simp [fwdFinish, if_neg hcm]
    have hin : (argsort c s.rsteps).getD (c - 1 - i) 0 < c := by
      generalize hidx : argsort c _ = idx
      have hperm : idx.Perm (List.range c) := hidx ▸ List.mergeSort_perm _ _
      have hlen : idx.length = c := by rw [hperm.length_eq]; simp
      rw [List.getD_eq_getElem?_getD, List.getElem?_eq_getElem (by omega)]
      have : idx[c - 1 - i]'(by omega) ∈ List.range c := hperm.mem_iff.1 (List.getElem_mem _)
      simpa using this
    rw [he] at hlt0 ⊢
    refine List.mem_map.2 ⟨_, (hσ.mem _).2 ⟨?_, hin⟩, rfl⟩
    rcases Nat.eq_zero_or_pos ((argsort c s.rsteps).getD (c - 1 - i) 0) with h' | h'
    · rw [h', hinv.mem.zero (by omega)] at hlt0; omega
    · exact h'
  have hlen : σ.length = c - 1 := by
    have hp : σ.Perm ((List.range (c - 1)).map (· + 1)) := by
      rw [List.perm_ext_iff_of_nodup hndσ]
      · intro j
        rw [hσ.mem]
        simp only [List.mem_map, List.mem_range]
        constructor
        · intro h; exact ⟨j - 1, by omega, by omega⟩
        · rintro ⟨a, ha, rfl⟩; omega
      · exact List.nodup_range.map (fun a b h => by simpa using h)
    rw [hp.length_eq]; simp
  have hperm := (List.subperm_of_subset hndA hsub).perm_of_length_le (by simp [hlen])
  exact hperm.eq_of_pairwise (fun a b _ _ h1 h2 => by omega) hdA hdB

/-- Four checkpoints and 17 steps: `d = 3`. The slots hold the steps of `kept 4 3`. -/
example : WhileRuns (fwdCond fun x : Int => decide (x < 17)) (fwdBody (fun x => x + 1) id 4 none) (4 * (4 + 3) / 2 + 3) (fwdInit 1000 4 0 0)
    (iter (fwdBody (fun x => x + 1) id 4 none) 17 (fwdInit 1000 4 0 0)) := whileRuns_iff.2 ⟨rfl, by decide, by decide⟩
example : (List.range 4).map (iter (fwdBody (fun x : Int => x + 1) id 4 none) 17 (fwdInit 1000 4 0 0)).rsteps = [0, 15, 16, 5] := by decide

end Checkpoint
end Verif
