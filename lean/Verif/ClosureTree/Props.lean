import Verif.ClosureTree.Model

/-!
# C70: closures as pytrees
-/

namespace Verif
namespace ClosureTree

open PT (mapE mapE_ok)

variable {K B D : Type}

/-! ## Specification -/

/-- What Python values mean: an object, `None`, a container of things that mean something, and a function, which is given by what it runs (code, globals and
defaults) and by what the variables it closes over mean.  That the closure enters through meanings only says that the code of a function does not ask whether
something it calls is a function or another callable. -/
structure Sem (K B D : Type) where
  base : B → D
  none : D
  cont : K → List D → D
  func : (code globals defaults : Nat) → (kwdefaults : Option Nat) → Option (List D) → D

def Sem.of (S : Sem K B D) (f : Fun) : Option (List D) → D := S.func f.code f.globals f.defaults f.kwdefaults

mutual
/-- The value `v` means `d` with this heap. -/
inductive Den (S : Sem K B D) (h : Heap K B) : Val K B → D → Prop
  | obj (b : B) : Den S h (.obj b) (S.base b)
  | none : Den S h .none S.none
  | node (k : K) (cs : List (Val K B)) (ds : List D) : DenL S h cs ds → Den S h (.node k cs) (S.cont k ds)
  | plain (f : Fun) : Den S h (.plain f) (S.of f Option.none)
  | fn (f : Fun) (cells : List Nat) (ds : List D) : DenC S h cells ds → Den S h (.fn f cells) (S.of f (some ds))
  | clo0 (f : Fun) : Den S h (.clo0 f) (S.of f Option.none)
  | clo (f : Fun) (cs : List (Val K B)) (ds : List D) : DenL S h cs ds → Den S h (.clo f cs) (S.of f (some ds))
/-- Values of a list, one by one. -/
inductive DenL (S : Sem K B D) (h : Heap K B) : List (Val K B) → List D → Prop
  | lnil : DenL S h [] []
  | lcons (v : Val K B) (d : D) (vs : List (Val K B)) (ds : List D) : Den S h v d → DenL S h vs ds → DenL S h (v :: vs) (d :: ds)
/-- Values of cells, one by one. -/
inductive DenC (S : Sem K B D) (h : Heap K B) : List Nat → List D → Prop
  | cnil : DenC S h [] []
  | ccons (a : Nat) (v : Val K B) (d : D) (as : List Nat) (ds : List D) : h a = some v → Den S h v d → DenC S h as ds → DenC S h (a :: as) (d :: ds)
end

mutual
/-- There is no function in it (other than inside of a `_FunctionWithEquality`). -/
def NoFn : Val K B → Prop
  | .obj _ => True
  | .none => True
  | .node _ cs => NoFnL cs
  | .plain _ => False
  | .fn _ _ => False
  | .clo0 _ => True
  | .clo _ cs => NoFnL cs
def NoFnL : List (Val K B) → Prop
  | [] => True
  | c :: cs => NoFn c ∧ NoFnL cs
end

/-! ## Lemmas -/

theorem Val.ind {P : Val K B → Prop} (obj : ∀ b, P (.obj b)) (none : P .none) (node : ∀ k cs, (∀ c ∈ cs, P c) → P (.node k cs))
    (plain : ∀ f, P (.plain f)) (fn : ∀ f cells, P (.fn f cells)) (clo0 : ∀ f, P (.clo0 f)) (clo : ∀ f cs, (∀ c ∈ cs, P c) → P (.clo f cs)) (v : Val K B) :
    P v := by
  induction v using Val.rec (motive_2 := fun l => ∀ c ∈ l, P c) with
  | obj b => exact obj b
  | none => exact none
  | node k cs ih => exact node k cs ih
  | plain f => exact plain f
  | fn f cells => exact fn f cells
  | clo0 f => exact clo0 f
  | clo f cs ih => exact clo f cs ih
  | nil => rename_i c hc; simp at hc
  | cons c cs h1 h2 =>
    rename_i c' hc
    rcases List.mem_cons.1 hc with rfl | hc
    · exact h1
    · exact h2 c' hc

theorem noFnL_iff (cs : List (Val K B)) : NoFnL cs ↔ ∀ c ∈ cs, NoFn c := by
  induction cs with
  | nil => simp [NoFnL]
  | cons c cs ih => simp [NoFnL, ih]

theorem mapFnL_eq (g : Val K B → Except Err (Val K B)) (cs : List (Val K B)) : mapFnL g cs = mapE (mapFn g) cs := by
  induction cs with
  | nil => rfl
  | cons c cs ih => simp only [mapFnL, mapE, ih]

theorem mapE_cons_ok {α β : Type} {f : α → Except Err β} {x : α} {xs : List α} {ys : List β} (h : mapE f (x :: xs) = .ok ys) :
    ∃ y ys', f x = .ok y ∧ mapE f xs = .ok ys' ∧ ys = y :: ys' := by
  simp only [mapE, bind, Except.bind] at h
  cases hx : f x with
  | error e => rw [hx] at h; simp at h
  | ok y =>
    rw [hx] at h
    simp only at h
    cases hxs : mapE f xs with
    | error e => rw [hxs] at h; simp at h
    | ok ys' =>
      rw [hxs] at h
      simp only [pure, Except.pure, Except.ok.injEq] at h
      exact ⟨y, ys', rfl, rfl, h.symm⟩

theorem mapE_cons_of {α β : Type} {f : α → Except Err β} {x : α} {xs : List α} {y : β} {ys : List β} (h1 : f x = .ok y) (h2 : mapE f xs = .ok ys) :
    mapE f (x :: xs) = .ok (y :: ys) := by
  simp only [mapE, bind, Except.bind, h1, h2, pure, Except.pure]

/-- The possible successes of `mapFn`. -/
theorem mapFn_node {g : Val K B → Except Err (Val K B)} {k : K} {cs : List (Val K B)} {w : Val K B} :
    mapFn g (.node k cs) = .ok w ↔ ∃ ws, mapE (mapFn g) cs = .ok ws ∧ w = .node k ws := by
  simp only [mapFn, mapFnL_eq, bind, Except.bind]
  cases mapE (mapFn g) cs with
  | error e => simp
  | ok ws => simp [pure, Except.pure, eq_comm]

theorem mapFn_clo {g : Val K B → Except Err (Val K B)} {f : Fun} {cs : List (Val K B)} {w : Val K B} :
    mapFn g (.clo f cs) = .ok w ↔ ∃ ws, mapE (mapFn g) cs = .ok ws ∧ w = .clo f ws := by
  simp only [mapFn, mapFnL_eq, bind, Except.bind]
  cases mapE (mapFn g) cs with
  | error e => simp
  | ok ws => simp [pure, Except.pure, eq_comm]

theorem fixup_fn {conv : Val K B → Except Err (Val K B)} {h : Heap K B} {f : Fun} {cells : List Nat} {w : Val K B} :
    fixup conv h (.fn f cells) = .ok w ↔ ∃ ws, mapE (cellContents conv h) cells = .ok ws ∧ w = .clo f ws := by
  simp only [fixup, bind, Except.bind]
  cases mapE (cellContents conv h) cells with
  | error e => simp
  | ok ws => simp [pure, Except.pure, eq_comm]

theorem cellContents_ok {conv : Val K B → Except Err (Val K B)} {h : Heap K B} {a : Nat} {w : Val K B} :
    cellContents conv h a = .ok w ↔ ∃ v, h a = some v ∧ conv v = .ok w := by
  simp only [cellContents]
  cases h a <;> simp

/-! ## What converting does to the meaning -/

section meaning
variable (S : Sem K B D)

/-- A value means at most one thing. -/
theorem den_unique (h : Heap K B) (v : Val K B) (d : D) (hd : Den S h v d) : ∀ d', Den S h v d' → d' = d := by
  refine Den.rec (motive_1 := fun v d _ => ∀ d', Den S h v d' → d' = d) (motive_2 := fun vs ds _ => ∀ ds', DenL S h vs ds' → ds' = ds)
    (motive_3 := fun as ds _ => ∀ ds', DenC S h as ds' → ds' = ds) ?_ ?_ ?_ ?_ ?_ ?_ ?_ ?_ ?_ ?_ ?_ hd
  · intro b d' h'; cases h'; rfl
  · intro d' h'; cases h'; rfl
  · intro k cs ds _ ih d' h'; cases h' with | node _ _ ds' h'' => rw [ih ds' h'']
  · intro f d' h'; cases h'; rfl
  · intro f cells ds _ ih d' h'; cases h' with | fn _ _ ds' h'' => rw [ih ds' h'']
  · intro f d' h'; cases h'; rfl
  · intro f cs ds _ ih d' h'; cases h' with | clo _ _ ds' h'' => rw [ih ds' h'']
  · intro ds' h'; cases h'; rfl
  · intro v d vs ds _ _ ih1 ih2 ds' h'; cases h' with | lcons _ d' _ ds'' h1 h2 => rw [ih1 d' h1, ih2 ds'' h2]
  · intro ds' h'; cases h'; rfl
  · intro a v d as ds ha _ _ ih1 ih2 ds' h'
    cases h' with
    | ccons _ v' d' _ ds'' ha' h1 h2 =>
      rw [ha] at ha'
      injection ha' with ha'
      subst ha'
      rw [ih1 d' h1, ih2 ds'' h2]

/-- The same for lists, given for the elements. -/
theorem denL_of_all {h : Heap K B} {cs ws : List (Val K B)} {F : Val K B → Except Err (Val K B)} (hws : mapE F cs = .ok ws)
    (hF : ∀ c ∈ cs, ∀ w, F c = .ok w → ∃ d, Den S h c d ∧ ∀ h', Den S h' w d) : ∃ ds, DenL S h cs ds ∧ ∀ h', DenL S h' ws ds := by
  induction cs generalizing ws with
  | nil =>
    simp only [mapE, Except.ok.injEq] at hws
    subst hws
    exact ⟨[], .lnil, fun _ => .lnil⟩
  | cons c cs ih =>
    obtain ⟨y, ys, h1, h2, rfl⟩ := mapE_cons_ok hws
    obtain ⟨d, g1, g2⟩ := hF c (by simp) y h1
    obtain ⟨ds, g3, g4⟩ := ih h2 fun c hc => hF c (by simp [hc])
    exact ⟨d :: ds, .lcons _ _ _ _ g1 g3, fun h' => .lcons _ _ _ _ (g2 h') (g4 h')⟩

/-- **C70**: what `closure_to_pytree` returns means what the original means, and goes on to mean that whatever is written to the cells later. -/
theorem convert_den (h : Heap K B) (n : Nat) (v w : Val K B) (hw : convert h n v = .ok w) : ∃ d, Den S h v d ∧ ∀ h', Den S h' w d := by
  induction n generalizing v w with
  | zero => simp [convert] at hw
  | succ n ihn =>
    simp only [convert] at hw
    induction v using Val.ind generalizing w with
    | obj b => simp only [mapFn, Except.ok.injEq] at hw; subst hw; exact ⟨_, .obj b, fun _ => .obj b⟩
    | none => simp only [mapFn, Except.ok.injEq] at hw; subst hw; exact ⟨_, .none, fun _ => .none⟩
    | node k cs ih =>
      obtain ⟨ws, h1, rfl⟩ := mapFn_node.1 hw
      obtain ⟨ds, g1, g2⟩ := denL_of_all S h1 ih
      exact ⟨_, .node k cs ds g1, fun h' => .node k ws ds (g2 h')⟩
    | plain f => simp only [mapFn, fixup, Except.ok.injEq] at hw; subst hw; exact ⟨_, .plain f, fun _ => .clo0 f⟩
    | fn f cells =>
      obtain ⟨ws, h1, rfl⟩ := fixup_fn.1 hw
      have : ∃ ds, DenC S h cells ds ∧ ∀ h', DenL S h' ws ds := by
        clear hw
        induction cells generalizing ws with
        | nil =>
          simp only [mapE, Except.ok.injEq] at h1
          subst h1
          exact ⟨[], .cnil, fun _ => .lnil⟩
        | cons a as ih =>
          obtain ⟨y, ys, h5, h2, rfl⟩ := mapE_cons_ok h1
          obtain ⟨v, h3, h4⟩ := cellContents_ok.1 h5
          obtain ⟨d, g1, g2⟩ := ihn v y h4
          obtain ⟨ds, g3, g4⟩ := ih ys h2
          exact ⟨d :: ds, .ccons _ v _ _ _ h3 g1 g3, fun h' => .lcons _ _ _ _ (g2 h') (g4 h')⟩
      obtain ⟨ds, g1, g2⟩ := this
      exact ⟨_, .fn f cells ds g1, fun h' => .clo f ws ds (g2 h')⟩
    | clo0 f => simp only [mapFn, Except.ok.injEq] at hw; subst hw; exact ⟨_, .clo0 f, fun _ => .clo0 f⟩
    | clo f cs ih =>
      obtain ⟨ws, h1, rfl⟩ := mapFn_clo.1 hw
      obtain ⟨ds, g1, g2⟩ := denL_of_all S h1 ih
      exact ⟨_, .clo f cs ds g1, fun h' => .clo f ws ds (g2 h')⟩

/-- **C70**: every value that means something can be converted, if Python allows enough nested calls.  (No cell below it is empty, and no function can be
reached from itself.) -/
theorem convert_total (h : Heap K B) (v : Val K B) (d : D) (hd : Den S h v d) : ∃ n₀, ∀ n, n₀ ≤ n → ∃ w, convert h n v = .ok w := by
  have hnode : ∀ (cs : List (Val K B)), (∃ n₀, ∀ n, n₀ ≤ n → ∃ ws, mapE (convert h n) cs = .ok ws) →
      ∃ n₀, ∀ n, n₀ ≤ n → ∃ n' ws, n = n' + 1 ∧ mapE (mapFn (fixup (convert h n') h)) cs = .ok ws := by
    rintro cs ⟨n₀, hn⟩
    refine ⟨n₀ + 1, fun n hle => ?_⟩
    obtain ⟨ws, hws⟩ := hn n (by omega)
    obtain ⟨n', rfl⟩ : ∃ n', n = n' + 1 := ⟨n - 1, by omega⟩
    exact ⟨n', ws, rfl, hws⟩
  refine Den.rec (motive_1 := fun v _ _ => ∃ n₀, ∀ n, n₀ ≤ n → ∃ w, convert h n v = .ok w)
    (motive_2 := fun vs _ _ => ∃ n₀, ∀ n, n₀ ≤ n → ∃ ws, mapE (convert h n) vs = .ok ws)
    (motive_3 := fun as _ _ => ∃ n₀, ∀ n, n₀ ≤ n → ∃ ws, mapE (cellContents (convert h n) h) as = .ok ws) ?_ ?_ ?_ ?_ ?_ ?_ ?_ ?_ ?_ ?_ ?_ hd
  · intro b
    exact ⟨1, fun n hn => by obtain ⟨n, rfl⟩ : ∃ m, n = m + 1 := ⟨n - 1, by omega⟩; exact ⟨_, rfl⟩⟩
  · exact ⟨1, fun n hn => by obtain ⟨n, rfl⟩ : ∃ m, n = m + 1 := ⟨n - 1, by omega⟩; exact ⟨_, rfl⟩⟩
  · intro k cs ds _ ih
    obtain ⟨n₀, hn⟩ := hnode cs ih
    refine ⟨n₀, fun n hle => ?_⟩
    obtain ⟨n', ws, rfl, hws⟩ := hn n hle
    exact ⟨.node k ws, mapFn_node.2 ⟨ws, hws, rfl⟩⟩
  · intro f
    exact ⟨1, fun n hn => by obtain ⟨n, rfl⟩ : ∃ m, n = m + 1 := ⟨n - 1, by omega⟩; exact ⟨_, rfl⟩⟩
  · intro f cells ds _ ih
    obtain ⟨n₀, hn⟩ := ih
    refine ⟨n₀ + 1, fun n hle => ?_⟩
    obtain ⟨n, rfl⟩ : ∃ m, n = m + 1 := ⟨n - 1, by omega⟩
    obtain ⟨ws, hws⟩ := hn n (by omega)
    exact ⟨.clo f ws, fixup_fn.2 ⟨ws, hws, rfl⟩⟩
  · intro f
    exact ⟨1, fun n hn => by obtain ⟨n, rfl⟩ : ∃ m, n = m + 1 := ⟨n - 1, by omega⟩; exact ⟨_, rfl⟩⟩
  · intro f cs ds _ ih
    obtain ⟨n₀, hn⟩ := hnode cs ih
    refine ⟨n₀, fun n hle => ?_⟩
    obtain ⟨n', ws, rfl, hws⟩ := hn n hle
    exact ⟨.clo f ws, mapFn_clo.2 ⟨ws, hws, rfl⟩⟩
  · exact ⟨0, fun n _ => ⟨[], rfl⟩⟩
  · rintro v d vs ds _ _ ⟨n₁, h1⟩ ⟨n₂, h2⟩
    refine ⟨n₁ + n₂, fun n hn => ?_⟩
    obtain ⟨w, hw⟩ := h1 n (by omega)
    obtain ⟨ws, hws⟩ := h2 n (by omega)
    exact ⟨w :: ws, mapE_cons_of hw hws⟩
  · exact ⟨0, fun n _ => ⟨[], rfl⟩⟩
  · rintro a v d as ds ha _ _ ⟨n₁, h1⟩ ⟨n₂, h2⟩
    refine ⟨n₁ + n₂, fun n hn => ?_⟩
    obtain ⟨w, hw⟩ := h1 n (by omega)
    obtain ⟨ws, hws⟩ := h2 n (by omega)
    exact ⟨w :: ws, mapE_cons_of (cellContents_ok.2 ⟨v, ha, hw⟩) hws⟩

end meaning

/-! ## Calling -/

theorem alloc_below (h : Heap K B) (a : Nat) (vs : List (Val K B)) (b : Nat) (hb : b < a) : alloc h a vs b = h b := by
  induction vs generalizing h a with
  | nil => rfl
  | cons v vs ih =>
    rw [alloc, ih _ _ (by omega), if_neg (by omega)]

theorem alloc_at (h : Heap K B) (a : Nat) (vs : List (Val K B)) (i : Nat) (v : Val K B) (hi : vs[i]? = some v) : alloc h a vs (a + i) = some v := by
  induction vs generalizing h a i with
  | nil => simp at hi
  | cons u vs ih =>
    cases i with
    | zero =>
      simp only [List.getElem?_cons_zero, Option.some.injEq] at hi
      subst hi
      rw [alloc, alloc_below _ _ _ _ (by omega)]
      simp
    | succ i =>
      rw [alloc]
      have := ih (fun b => if b = a then some u else h b) (a + 1) i (by simpa using hi)
      rw [show a + (i + 1) = a + 1 + i by omega]
      exact this

theorem denL_heap (S : Sem K B D) (h h' : Heap K B) (cs : List (Val K B)) (ds : List D) (hc : ∀ c ∈ cs, ∀ d, Den S h c d → Den S h' c d)
    (hd : DenL S h cs ds) : DenL S h' cs ds := by
  induction cs generalizing ds with
  | nil => cases hd; exact .lnil
  | cons c cs ih =>
    cases hd with
    | lcons _ d _ ds h1 h2 => exact .lcons _ _ _ _ (hc c (by simp) d h1) (ih ds (fun c hc' => hc c (by simp [hc'])) h2)

/-- The meaning of a value without functions does not depend on the heap. -/
theorem den_heap (S : Sem K B D) (h h' : Heap K B) (v : Val K B) (hv : NoFn v) (d : D) (hd : Den S h v d) : Den S h' v d := by
  induction v using Val.ind generalizing d with
  | obj b => cases hd; exact .obj b
  | none => cases hd; exact .none
  | node k cs ih =>
    cases hd with
    | node _ _ ds hl => exact .node k cs ds (denL_heap S h h' cs ds (fun c hc d hd => ih c hc ((noFnL_iff cs).1 hv c hc) d hd) hl)
  | plain f => exact absurd hv (by simp [NoFn])
  | fn f cells => exact absurd hv (by simp [NoFn])
  | clo0 f => cases hd; exact .clo0 f
  | clo f cs ih =>
    cases hd with
    | clo _ _ ds hl => exact .clo f cs ds (denL_heap S h h' cs ds (fun c hc d hd => ih c hc ((noFnL_iff cs).1 hv c hc) d hd) hl)

/-- **C70**: the result of `closure_to_pytree` contains no functions. -/
theorem convert_noFn (h : Heap K B) (n : Nat) (v w : Val K B) (hw : convert h n v = .ok w) : NoFn w := by
  have hL : ∀ {α : Type} (F : α → Except Err (Val K B)) (cs : List α) (ws : List (Val K B)), mapE F cs = .ok ws →
      (∀ c ∈ cs, ∀ w, F c = .ok w → NoFn w) → NoFnL ws := by
    intro α F cs
    induction cs with
    | nil => intro ws hws _; simp only [mapE, Except.ok.injEq] at hws; subst hws; trivial
    | cons c cs ih =>
      intro ws hws hc
      obtain ⟨y, ys, h1, h2, rfl⟩ := mapE_cons_ok hws
      exact ⟨hc c (by simp) y h1, ih ys h2 fun c hc' => hc c (by simp [hc'])⟩
  induction n generalizing v w with
  | zero => simp [convert] at hw
  | succ n ihn =>
    simp only [convert] at hw
    induction v using Val.ind generalizing w with
    | obj b => simp only [mapFn, Except.ok.injEq] at hw; subst hw; trivial
    | none => simp only [mapFn, Except.ok.injEq] at hw; subst hw; trivial
    | node k cs ih =>
      obtain ⟨ws, h1, rfl⟩ := mapFn_node.1 hw
      exact hL _ cs ws h1 ih
    | plain f => simp only [mapFn, fixup, Except.ok.injEq] at hw; subst hw; trivial
    | fn f cells =>
      obtain ⟨ws, h1, rfl⟩ := fixup_fn.1 hw
      refine hL _ cells ws h1 fun a _ w ha => ?_
      obtain ⟨v, _, hv⟩ := cellContents_ok.1 ha
      exact ihn v w hv
    | clo0 f => simp only [mapFn, Except.ok.injEq] at hw; subst hw; trivial
    | clo f cs ih =>
      obtain ⟨ws, h1, rfl⟩ := mapFn_clo.1 hw
      exact hL _ cs ws h1 ih

/-- **C70**: calling a `_Closure` calls a function which means what the `_Closure` does: it has the same code, globals, defaults and keyword defaults as the
original, and new cells with the contents. Here `a` is an address from which on the new cells are made. -/
theorem rebuild_den (S : Sem K B D) (h h' : Heap K B) (a fresh : Nat) (w v : Val K B) (hw : NoFn w) (hr : rebuild h a fresh w = some (h', v)) (d : D)
    (hd : Den S h w d) : Den S h' v d ∧ (∀ b, b < a → h' b = h b) := by
  cases w with
  | clo0 f =>
    simp only [rebuild, Option.some.injEq, Prod.mk.injEq] at hr
    obtain ⟨rfl, rfl⟩ := hr
    cases hd
    exact ⟨.plain (adjust fresh f), fun _ _ => rfl⟩
  | clo f cs =>
    simp only [rebuild, Option.some.injEq, Prod.mk.injEq] at hr
    obtain ⟨rfl, rfl⟩ := hr
    refine ⟨?_, fun b hb => alloc_below h a cs b hb⟩
    cases hd with
    | clo _ _ ds hl =>
      refine .fn (adjust fresh f) _ ds ?_
      have key : ∀ (vs : List (Val K B)) (k : Nat) (ds : List D) (H : Heap K B), (∀ i v, vs[i]? = some v → H (a + (k + i)) = some v) → (∀ v ∈ vs, NoFn v) →
          DenL S h vs ds → DenC S H ((List.range' k vs.length).map (a + ·)) ds := by
        intro vs
        induction vs with
        | nil => intro k ds H _ _ hl; cases hl; exact .cnil
        | cons v vs ih =>
          intro k ds H hH hn hl
          cases hl with
          | lcons _ d _ ds h1 h2 =>
            simp only [List.length_cons, List.range'_succ, List.map_cons]
            refine .ccons _ v _ _ _ (by simpa using hH 0 v rfl) (den_heap S h H v (hn v (by simp)) d h1) ?_
            refine ih (k + 1) ds H (fun i u hi => ?_) (fun u hu => hn u (by simp [hu])) h2
            have := hH (i + 1) u (by simpa using hi)
            rwa [show k + (i + 1) = k + 1 + i by omega] at this
      rw [List.range_eq_range']
      exact key cs 0 ds _ (fun i v hi => by rw [Nat.zero_add]; exact alloc_at h a cs i v hi) ((noFnL_iff cs).1 hw) hl
  | obj b => simp [rebuild] at hr
  | none => simp [rebuild] at hr
  | node k cs => simp [rebuild] at hr
  | plain f => simp [rebuild] at hr
  | fn f cells => simp [rebuild] at hr

/-- **C70**: converting twice is the same as converting once. -/
theorem convert_again (h h' : Heap K B) (n m : Nat) (v w : Val K B) (hw : convert h n v = .ok w) : convert h' (m + 1) w = .ok w := by
  have hn := convert_noFn h n v w hw
  clear hw
  simp only [convert]
  have hL : ∀ cs : List (Val K B), (∀ c ∈ cs, mapFn (fixup (convert h' m) h') c = .ok c) → mapE (mapFn (fixup (convert h' m) h')) cs = .ok cs := by
    intro cs
    induction cs with
    | nil => intro _; rfl
    | cons c cs ih => intro hc; exact mapE_cons_of (hc c (by simp)) (ih fun c hc' => hc c (by simp [hc']))
  induction w using Val.ind with
  | obj b => rfl
  | none => rfl
  | node k cs ih => exact mapFn_node.2 ⟨cs, hL cs fun c hc => ih c hc ((noFnL_iff cs).1 hn c hc), rfl⟩
  | plain f => exact absurd hn (by simp [NoFn])
  | fn f cells => exact absurd hn (by simp [NoFn])
  | clo0 f => rfl
  | clo f cs ih => exact mapFn_clo.2 ⟨cs, hL cs fun c hc => ih c hc ((noFnL_iff cs).1 hn c hc), rfl⟩

/-- **C70**: a function becomes a node with the contents of its cells below it, and with one more leaf, for its code. -/
theorem convert_leaves (h : Heap K B) (n : Nat) (f : Fun) (cells : List Nat) (w : Val K B) (hw : convert h n (.fn f cells) = .ok w) :
    ∃ ws : List (Val K B), (toPT w).leaves = .wrapped f :: ws.flatMap (fun w => (toPT w).leaves) ∧ ws.length = cells.length ∧
      ∀ (i a : Nat), cells[i]? = some a → ∃ v w, h a = some v ∧ ws[i]? = some w ∧ convert h (n - 1) v = .ok w := by
  cases n with
  | zero => simp [convert] at hw
  | succ n =>
    obtain ⟨ws, h1, rfl⟩ := fixup_fn.1 hw
    have h2 := mapE_ok.1 h1
    refine ⟨ws, ?_, h2.1, fun i a hi => ?_⟩
    · have : ∀ ws : List (Val K B), toPTL ws = ws.map toPT := by
        intro ws
        induction ws with
        | nil => rfl
        | cons w ws ih => simp [toPTL, ih]
      simp [toPT, PT.leaves, PT.leavesL_eq, this, List.flatMap_map]
    · obtain ⟨w, h3, h4⟩ := h2.2 i a hi
      obtain ⟨v, h5, h6⟩ := cellContents_ok.1 h4
      exact ⟨v, w, h5, h3, h6⟩

/-! ## Errors -/

/-- An empty cell: a ValueError. -/
theorem convert_empty (h : Heap K B) (n : Nat) (f : Fun) (a : Nat) (as : List Nat) (ha : h a = Option.none) :
    convert h (n + 1) (.fn f (a :: as)) = .error .valueError := by
  simp [convert, mapFn, fixup, mapE, cellContents, ha, bind, Except.bind]

/-- A function which refers to itself through a cell can never be converted: a RecursionError. -/
theorem convert_recursive (h : Heap K B) (f : Fun) (a : Nat) (as : List Nat) (ha : h a = some (.fn f (a :: as))) (n : Nat) :
    convert h n (.fn f (a :: as)) = .error .runtimeError := by
  induction n with
  | zero => rfl
  | succ n ih => simp [convert, mapFn, fixup, mapE, cellContents, ha, ih, bind, Except.bind]

/-! ## Changing leaves -/

mutual
/-- Changing the objects in a value. -/
def mapObj (g : B → B) : Val K B → Val K B
  | .obj b => .obj (g b)
  | .none => .none
  | .node k cs => .node k (mapObjL g cs)
  | .plain f => .plain f
  | .fn f cells => .fn f cells
  | .clo0 f => .clo0 f
  | .clo f cs => .clo f (mapObjL g cs)
def mapObjL (g : B → B) : List (Val K B) → List (Val K B)
  | [] => []
  | c :: cs => mapObj g c :: mapObjL g cs
end

theorem mapObjL_eq (g : B → B) (cs : List (Val K B)) : mapObjL g cs = cs.map (mapObj g) := by
  induction cs with
  | nil => rfl
  | cons c cs ih => simp [mapObjL, ih]

/-- **C70**: changing leaves of the pytree (a learning rate, say) is the same as having closed over other objects. -/
theorem convert_map (g : B → B) (h : Heap K B) (n : Nat) (v w : Val K B) (hw : convert h n v = .ok w) :
    convert (fun a => (h a).map (mapObj g)) n (mapObj g v) = .ok (mapObj g w) := by
  have hL : ∀ {α β : Type} (F : α → Except Err (Val K B)) (G : β → Except Err (Val K B)) (m : α → β) (cs : List α) (ws : List (Val K B)), mapE F cs = .ok ws →
      (∀ c ∈ cs, ∀ w, F c = .ok w → G (m c) = .ok (mapObj g w)) → mapE G (cs.map m) = .ok (mapObjL g ws) := by
    intro α β F G m cs
    induction cs with
    | nil => intro ws hws _; simp only [mapE, Except.ok.injEq] at hws; subst hws; rfl
    | cons c cs ih =>
      intro ws hws hc
      obtain ⟨y, ys, h1, h2, rfl⟩ := mapE_cons_ok hws
      exact mapE_cons_of (hc c (by simp) y h1) (ih ys h2 fun c hc' => hc c (by simp [hc']))
  induction n generalizing v w with
  | zero => simp [convert] at hw
  | succ n ihn =>
    simp only [convert] at hw ⊢
    induction v using Val.ind generalizing w with
    | obj b => simp only [mapFn, Except.ok.injEq] at hw; subst hw; rfl
    | none => simp only [mapFn, Except.ok.injEq] at hw; subst hw; rfl
    | node k cs ih =>
      obtain ⟨ws, h1, rfl⟩ := mapFn_node.1 hw
      exact mapFn_node.2 ⟨mapObjL g ws, by rw [mapObjL_eq]; exact hL _ _ (mapObj g) cs ws h1 ih, rfl⟩
    | plain f => simp only [mapFn, fixup, Except.ok.injEq] at hw; subst hw; rfl
    | fn f cells =>
      obtain ⟨ws, h1, rfl⟩ := fixup_fn.1 hw
      refine fixup_fn.2 ⟨mapObjL g ws, ?_, rfl⟩
      have := hL _ (cellContents (convert (fun a => (h a).map (mapObj g)) n) (fun a => (h a).map (mapObj g))) id cells ws h1 (fun a _ w ha => by
        obtain ⟨v, h2, h3⟩ := cellContents_ok.1 ha
        exact cellContents_ok.2 ⟨mapObj g v, by simp [h2], ihn v w h3⟩)
      simpa using this
    | clo0 f => simp only [mapFn, Except.ok.injEq] at hw; subst hw; rfl
    | clo f cs ih =>
      obtain ⟨ws, h1, rfl⟩ := mapFn_clo.1 hw
      exact mapFn_clo.2 ⟨mapObjL g ws, by rw [mapObjL_eq]; exact hL _ _ (mapObj g) cs ws h1 ih, rfl⟩

/-! ## Equality -/

/-- What a leaf is compared by: a `_FunctionWithEquality` has its own `__eq__`, functions are compared by identity. -/
inductive LKey (B : Type) where
  | obj (b : B)
  | fn (ident : Nat)
  | wrapped (i : Info)

def Leaf.key : Leaf B → LKey B
  | .obj b => .obj b
  | .fn f => .fn f.ident
  | .wrapped f => .wrapped (information f)

/-- Equal structures and equal leaves. -/
def EqTree (w w' : Val K B) : Prop := (toPT w).map Leaf.key = (toPT w').map Leaf.key

/-- **C70**: two converted values which are equal as pytrees mean the same, so that `filter_jit` may use the one compiled for the other.

Here `hid` says that the same object is the same function. Missing: this without the assumption `hsrc` that functions of the same qualified name, module and
source run the same code with the same defaults: see `equal_defaults` and `equal_lambdas`. -/
theorem equal_den_partial (S : Sem K B D) (h : Heap K B) (w w' : Val K B) (hw : NoFn w) (hw' : NoFn w') (he : EqTree w w')
    (hid : ∀ f f', .wrapped f ∈ (toPT w).leaves → .wrapped f' ∈ (toPT w').leaves → f.ident = f'.ident → f = f')
    (hsrc : ∀ f f', .wrapped f ∈ (toPT w).leaves → .wrapped f' ∈ (toPT w').leaves → f.source.isSome → f.source = f'.source → f.qualname = f'.qualname →
      f.modul = f'.modul → f.code = f'.code ∧ f.globals = f'.globals ∧ f.defaults = f'.defaults ∧ f.kwdefaults = f'.kwdefaults)
    (d : D) (hd : Den S h w d) : Den S h w' d := by
  have hf : ∀ f f', .wrapped f ∈ (toPT w).leaves → .wrapped f' ∈ (toPT w').leaves → information f = information f' →
      f.code = f'.code ∧ f.globals = f'.globals ∧ f.defaults = f'.defaults ∧ f.kwdefaults = f'.kwdefaults := by
    intro f f' h1 h2 hi
    simp only [information] at hi
    cases hs : f.source with
    | none =>
      cases hs' : f'.source with
      | none =>
        rw [hs, hs'] at hi
        injection hi with hi
        rw [hid f f' h1 h2 hi]
        exact ⟨rfl, rfl, rfl, rfl⟩
      | some s' => rw [hs, hs'] at hi; simp at hi
    | some s =>
      cases hs' : f'.source with
      | none => rw [hs, hs'] at hi; simp at hi
      | some s' =>
        rw [hs, hs'] at hi
        injection hi with e1 e2 e3
        exact hsrc f f' h1 h2 (by rw [hs]; rfl) (by rw [hs, hs', e3]) e1 e2
  clear hid hsrc
  have hPT : ∀ ws : List (Val K B), toPTL ws = ws.map toPT := by
    intro ws
    induction ws with
    | nil => rfl
    | cons w ws ih => simp [toPTL, ih]
  have hL : ∀ (cs cs' : List (Val K B)) (ds : List D), cs.map (fun c => (toPT c).map Leaf.key) = cs'.map (fun c => (toPT c).map Leaf.key) →
      (∀ c ∈ cs, ∀ c' ∈ cs', ∀ d, EqTree c c' → Den S h c d → Den S h c' d) → DenL S h cs ds → DenL S h cs' ds := by
    intro cs
    induction cs with
    | nil => intro cs' ds hm _ hd; cases hd; cases cs' with | nil => exact .lnil | cons _ _ => simp at hm
    | cons c cs ih =>
      intro cs' ds hm hc hd
      cases cs' with
      | nil => simp at hm
      | cons c' cs' =>
        simp only [List.map_cons, List.cons.injEq] at hm
        cases hd with
        | lcons _ d _ ds h1 h2 =>
          exact .lcons _ _ _ _ (hc c (by simp) c' (by simp) d hm.1 h1) (ih cs' ds hm.2 (fun c hc1 c' hc2 => hc c (by simp [hc1]) c' (by simp [hc2])) h2)
  induction w using Val.ind generalizing w' d with
  | obj b =>
    cases w' <;> simp [EqTree, toPT, PT.map, Leaf.key, PT.mapL] at he
    subst he; exact hd
  | none => cases w' <;> simp [EqTree, toPT, PT.map, Leaf.key, PT.mapL] at he; exact hd
  | node k cs ih =>
    cases w' <;> simp [EqTree, toPT, PT.map, Leaf.key, PT.mapL] at he
    rename_i k' cs'
    obtain ⟨rfl, he⟩ := he
    rw [PT.mapL_eq, PT.mapL_eq, hPT, hPT, List.map_map, List.map_map] at he
    cases hd with
    | node _ _ ds hl =>
      refine .node k cs' ds (hL cs cs' ds he (fun c hc c' hc' d hcc hdc => ?_) hl)
      refine ih c hc c' ((noFnL_iff cs).1 hw c hc) ((noFnL_iff cs').1 hw' c' hc') hcc d hdc (fun f f' h1 h2 => hf f f' ?_ ?_)
      · simp only [toPT, PT.leaves, PT.leavesL_eq, hPT, List.flatMap_map, List.mem_flatMap]; exact ⟨c, hc, h1⟩
      · simp only [toPT, PT.leaves, PT.leavesL_eq, hPT, List.flatMap_map, List.mem_flatMap]; exact ⟨c', hc', h2⟩
  | plain f => exact absurd hw (by simp [NoFn])
  | fn f cells => exact absurd hw (by simp [NoFn])
  | clo0 f =>
    cases w' <;> simp [EqTree, toPT, PT.map, Leaf.key, PT.mapL] at he
    rename_i f'
    obtain ⟨e1, e2, e3, e4⟩ := hf f f' (by simp [toPT, PT.leaves, PT.leavesL]) (by simp [toPT, PT.leaves, PT.leavesL]) he
    cases hd
    have : S.of f Option.none = S.of f' Option.none := by simp only [Sem.of, e1, e2, e3, e4]
    rw [this]
    exact .clo0 f'
  | clo f cs ih =>
    cases w' <;> simp [EqTree, toPT, PT.map, Leaf.key, PT.mapL] at he
    rename_i f' cs'
    obtain ⟨hi, he⟩ := he
    rw [PT.mapL_eq, PT.mapL_eq, hPT, hPT, List.map_map, List.map_map] at he
    obtain ⟨e1, e2, e3, e4⟩ := hf f f' (by simp [toPT, PT.leaves, PT.leavesL]) (by simp [toPT, PT.leaves, PT.leavesL]) hi
    cases hd with
    | clo _ _ ds hl =>
      have : S.of f (some ds) = S.of f' (some ds) := by simp only [Sem.of, e1, e2, e3, e4]
      rw [this]
      refine .clo f' cs' ds (hL cs cs' ds he (fun c hc c' hc' d hcc hdc => ?_) hl)
      refine ih c hc c' ((noFnL_iff cs).1 hw c hc) ((noFnL_iff cs').1 hw' c' hc') hcc d hdc (fun f f' h1 h2 => hf f f' ?_ ?_)
      · simp only [toPT, PT.leaves, PT.leavesL_eq, hPT, List.flatMap_cons, List.flatMap_nil, List.flatMap_map, List.mem_append, List.mem_flatMap]
        exact .inr (.inl ⟨c, hc, h1⟩)
      · simp only [toPT, PT.leaves, PT.leavesL_eq, hPT, List.flatMap_cons, List.flatMap_nil, List.flatMap_map, List.mem_append, List.mem_flatMap]
        exact .inr (.inl ⟨c', hc', h2⟩)

/-- A semantics: a function does what its code and its defaults say. -/
def exSem : Sem Unit Nat (List Nat) where
  base b := [b]
  none := []
  cont _ ds := ds.flatten
  func c _ d _ cl := c :: d :: (cl.getD []).flatten

/-- Two functions made by the same `def` with different defaults, `def f(x, lr=lr)`, become equal pytrees, and mean different things. -/
theorem equal_defaults : ∃ f f' : Fun, f.code = f'.code ∧ f.source = f'.source ∧ f.source.isSome ∧ f.defaults ≠ f'.defaults ∧
    ∀ h : Heap Unit Nat, ∃ w w' d d', convert h 1 (.plain f) = .ok w ∧ convert h 1 (.plain f') = .ok w' ∧ EqTree w w' ∧
      Den exSem h w d ∧ Den exSem h w' d' ∧ d ≠ d' :=
  ⟨⟨1, 7, 0, 10, Option.none, 3, 4, some 5⟩, ⟨2, 7, 0, 20, Option.none, 3, 4, some 5⟩, rfl, rfl, rfl, by simp, fun _ =>
    ⟨_, _, _, _, rfl, rfl, rfl, .clo0 _, .clo0 _, by simp [exSem, Sem.of]⟩⟩

/-- Two lambdas on one line have the same source, which is that line, and the same qualified name: they become equal pytrees, and mean different things. -/
theorem equal_lambdas : ∃ f f' : Fun, f.code ≠ f'.code ∧ f.source = f'.source ∧ f.source.isSome ∧ f.qualname = f'.qualname ∧
    ∀ h : Heap Unit Nat, ∃ w w' d d', convert h 1 (.plain f) = .ok w ∧ convert h 1 (.plain f') = .ok w' ∧ EqTree w w' ∧
      Den exSem h w d ∧ Den exSem h w' d' ∧ d ≠ d' :=
  ⟨⟨1, 7, 0, 0, Option.none, 3, 4, some 5⟩, ⟨2, 8, 0, 0, Option.none, 3, 4, some 5⟩, by simp, rfl, rfl, rfl, fun _ =>
    ⟨_, _, _, _, rfl, rfl, rfl, .clo0 _, .clo0 _, by simp [exSem, Sem.of]⟩⟩

/-- A function closing over an object and over another function. -/
def exHeap : Heap Unit Nat := fun a => if a = 0 then some (.obj 42) else if a = 1 then some (.fn ⟨1, 7, 0, 0, Option.none, 3, 4, some 5⟩ [0]) else Option.none

theorem ex_convert : ∃ w : Val Unit Nat, convert exHeap 3 (.fn ⟨2, 8, 0, 0, Option.none, 3, 4, some 6⟩ [1, 0]) = .ok w ∧
    Den exSem exHeap (.fn ⟨2, 8, 0, 0, Option.none, 3, 4, some 6⟩ [1, 0]) [8, 0, 7, 0, 42, 42] ∧
    (toPT w).leaves = [.wrapped ⟨2, 8, 0, 0, Option.none, 3, 4, some 6⟩, .wrapped ⟨1, 7, 0, 0, Option.none, 3, 4, some 5⟩, .obj 42, .obj 42] := by
  refine ⟨_, rfl, ?_, by simp [toPT, toPTL, PT.leaves, PT.leavesL]⟩
  have h1 : Den exSem exHeap (.fn ⟨1, 7, 0, 0, Option.none, 3, 4, some 5⟩ [0]) [7, 0, 42] := .fn _ _ [[42]] (.ccons 0 (.obj 42) _ _ _ rfl (.obj 42) .cnil)
  exact .fn _ _ [[7, 0, 42], [42]] (.ccons 1 _ _ _ _ rfl h1 (.ccons 0 (.obj 42) _ _ _ rfl (.obj 42) .cnil))

end ClosureTree
end Verif
