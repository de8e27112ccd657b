import Verif.Vmap.Props
/-! # Arrays which satisfy the laws, and `filter_vmap` on them -/

namespace Verif.Vmap.Ex

open PT Filters

/-- Is an index within a shape? -/
def inb : List Nat → List Nat → Bool
  | [], [] => true
  | n :: s, i :: is => decide (i < n) && inb s is
  | _, _ => false

/-- An array of integers: zero outside of its shape. -/
structure Arr where
  shape : List Nat
  val : List Nat → Int
  zero : ∀ idx, inb shape idx = false → val idx = 0

theorem Arr.ext' {a b : Arr} (h1 : a.shape = b.shape) (h2 : ∀ idx, inb a.shape idx = true → a.val idx = b.val idx) : a = b := by
  have : a.val = b.val := by
    funext idx
    cases h : inb a.shape idx with
    | true => exact h2 idx h
    | false => rw [a.zero idx h, b.zero idx (by rw [← h1, h])]
  obtain ⟨s, v, z⟩ := a
  obtain ⟨s', v', z'⟩ := b
  simp only at h1 this
  subst h1; subst this; rfl

def mk (shape : List Nat) (f : List Nat → Int) : Arr :=
  ⟨shape, fun idx => if inb shape idx then f idx else 0, by intro idx h; simp [h]⟩

/-- An axis of an array of given rank. -/
def normAxis (ax : Int) (rank : Nat) : Option Nat :=
  if 0 ≤ ax ∧ ax < rank then some ax.toNat
  else if -(rank : Int) ≤ ax ∧ ax < 0 then some (ax + rank).toNat
  else Option.none

theorem normAxis_lt {ax : Int} {rank k : Nat} (h : normAxis ax rank = some k) : k < rank := by
  unfold normAxis at h
  split at h
  · simp at h; omega
  · split at h
    · simp at h; omega
    · cases h

def size (a : Arr) (ax : Int) : Option Nat := (normAxis ax a.shape.length).bind fun k => a.shape[k]?

def slice (a : Arr) (ax : Int) (i : Nat) : Arr :=
  match normAxis ax a.shape.length with
  | some k => mk (a.shape.eraseIdx k) fun idx => a.val (idx.insertIdx k i)
  | Option.none => a

def stackVal (xs : List Arr) : List Nat → Int
  | [] => 0
  | i :: idx => match xs[i]? with
    | some x => x.val idx
    | Option.none => 0

def stack (xs : List Arr) : Arr := mk (xs.length :: (xs.head?.map Arr.shape).getD []) (stackVal xs)

def moveaxis (a : Arr) (ax : Int) : Except Err Arr :=
  match a.shape, normAxis ax a.shape.length with
  | n :: s, some k => .ok (mk (s.insertIdx k n) fun idx => a.val ((idx[k]?).getD 0 :: idx.eraseIdx k))
  | _, _ => .error .valueError

open Classical in
noncomputable def world : World Unit Arr (List Nat) Int where
  aval := Arr.shape
  size := size
  slice := slice
  stack := stack
  moveaxis := moveaxis
  asArray o := some (mk [] fun _ => o)
  batched f lanes π := decide (¬ ∀ outs, mapE f lanes = .ok outs → ∀ o ∈ outs, ∀ o' ∈ outs, o.leafAt? π = o'.leafAt? π)

theorem inb_insert {s idx : List Nat} (h : inb s idx = true) {n i k : Nat} (hi : i < n) (hk : k ≤ s.length) :
    inb (s.insertIdx k n) (idx.insertIdx k i) = true := by
  induction k generalizing s idx with
  | zero => simp [inb, hi, h]
  | succ k ih =>
    cases s with
    | nil => simp at hk
    | cons a s =>
      cases idx with
      | nil => simp [inb] at h
      | cons b idx =>
        simp only [inb, Bool.and_eq_true, decide_eq_true_eq] at h
        simp only [List.insertIdx_succ_cons, inb, Bool.and_eq_true, decide_eq_true_eq]
        exact ⟨h.1, ih h.2 (by simpa using hk)⟩

theorem inb_length {s idx : List Nat} (h : inb s idx = true) : idx.length = s.length := by
  induction s generalizing idx with
  | nil => cases idx <;> simp [inb] at h ⊢
  | cons a s ih =>
    cases idx with
    | nil => simp [inb] at h
    | cons b idx => simp [inb] at h ⊢; exact ih h.2

theorem moveaxis_ok {v u : Arr} {ax : Int} (h : moveaxis v ax = .ok u) : ∃ n s k, v.shape = n :: s ∧
    normAxis ax v.shape.length = some k ∧ k ≤ s.length ∧
    u = mk (s.insertIdx k n) fun idx => v.val ((idx[k]?).getD 0 :: idx.eraseIdx k) := by
  unfold moveaxis at h
  split at h
  · rename_i n s k hs hk
    cases h
    have := normAxis_lt hk
    rw [hs] at this
    exact ⟨n, s, k, hs, hk, by simpa [Nat.lt_succ_iff] using this, rfl⟩
  · cases h

/-- These arrays satisfy the laws. -/
theorem lawful : Lawful world where
  slice_aval := by
    intro v ax n i j h _ _
    simp only [world, slice]
    cases normAxis ax v.shape.length <;> rfl
  stack_size := by
    intro xs hne h
    simp only [world, size, stack, mk, normAxis, List.length_cons]
    simp
  slice_stack := by
    intro xs i x h hx
    have hi := (List.getElem?_eq_some_iff.1 hx).1
    have hsh : (xs.head?.map Arr.shape).getD [] = x.shape := by
      cases xs with
      | nil => simp at hx
      | cons y ys => exact h y (by simp) x (List.mem_of_getElem? hx)
    have h0 : normAxis 0 (stack xs).shape.length = some 0 := by
      simp [stack, mk, normAxis]
    simp only [world, slice, h0]
    apply Arr.ext'
    · simp [mk, stack, hsh]
    · intro idx hidx
      simp only [mk, stack, List.eraseIdx_cons_zero, hsh] at hidx
      have hx' := (List.getElem?_eq_some_iff.1 hx).2
      simp [mk, stack, stackVal, hsh, hidx, inb, hi, hx']
  move_size := by
    intro v ax u h
    obtain ⟨n, s, k, h1, h2, h3, rfl⟩ := moveaxis_ok h
    simp only [world, size, mk]
    have hl : (s.insertIdx k n).length = v.shape.length := by
      rw [h1, List.length_insertIdx_of_le_length h3]; simp
    rw [hl, h2]
    have : normAxis 0 v.shape.length = some 0 := by simp [normAxis, h1]
    rw [this, h1]
    simp [List.getElem?_insertIdx_self, h3]
  slice_move := by
    intro v ax u i n h hsz hi
    obtain ⟨n', s, k, h1, h2, h3, rfl⟩ := moveaxis_ok h
    have h0 : normAxis 0 v.shape.length = some 0 := by simp [normAxis, h1]
    have hn : n' = n := by
      simp only [world, size] at hsz
      rw [h0, h1] at hsz
      simpa using hsz
    subst hn
    have hl : (mk (s.insertIdx k n') fun idx => v.val ((idx[k]?).getD 0 :: idx.eraseIdx k)).shape.length = v.shape.length := by
      rw [h1]; simp only [mk]; rw [List.length_insertIdx_of_le_length h3]; simp
    simp only [world, slice, h0, hl, h2]
    have hs : (s.insertIdx k n').eraseIdx k = s := List.eraseIdx_insertIdx_self _
    apply Arr.ext'
    · simp [mk, h1, hs]
    · intro idx hidx
      simp only [mk, hs] at hidx
      have hk : k ≤ idx.length := by rw [inb_length hidx]; exact h3
      simp [mk, h1, hs, hidx, inb_insert hidx hi h3, List.getElem?_insertIdx_self, hk,
        List.eraseIdx_insertIdx_self]
  batched_sound := by
    intro f lanes outs π h1 h2
    simp only [world, decide_eq_false_iff_not, Classical.not_not] at h2
    exact h2 outs h1

/-- `def f(x, y): return x, y` -/
def f : Fn Unit Arr Int
  | [x, y] => .ok (.node () [x, y])
  | _ => .error .typeError

/-- A matrix with two rows and three columns. -/
def matrix : Arr := mk [2, 3] fun idx => match idx with
  | [i, j] => 10 * (i : Int) + j
  | _ => 0

/-- `in_axes=(1, None)` -/
def spec : PT Unit (AxSpec Arr Int) := .node () [.leaf (.int 1), .none]

theorem traceable_f : Traceable world f := by
  intro args args' o o' h h1 h2
  rcases args with _ | ⟨x, _ | ⟨y, _ | ⟨z, zs⟩⟩⟩ <;> simp only [f, reduceCtorEq] at h1
  rcases args' with _ | ⟨x', _ | ⟨y', _ | ⟨z', zs'⟩⟩⟩ <;> simp only [f, reduceCtorEq] at h2
  cases h1; cases h2
  simpa [Alike, PT.map, mapL] using h

theorem traceable_axes : TraceableAxes world (spec : PT Unit (AxSpec Arr Int)) := by
  intro σ g h
  rcases σ with _ | ⟨i, σ⟩
  · simp [spec] at h
  · rcases i with _ | _ | i
    · rcases σ with _ | ⟨j, σ⟩ <;> simp [spec, leafAt?_node] at h
    · rcases σ with _ | ⟨j, σ⟩ <;> simp [spec, leafAt?_node] at h
    · simp [spec, leafAt?_node] at h

theorem axisAt_spec (k : Unit) (x : Leaf Arr Int) (y : Leaf Arr Int) (π : List Nat) (a : Option Int) :
    AxisAt spec (.node k [.leaf x, .leaf y]) π a ↔ (π = [0] ∧ a = some 1) ∨ (π = [1] ∧ a = Option.none) := by
  have h0 : AxisAt spec (.node k [.leaf x, .leaf y]) [0] (some 1) :=
    ⟨[0], [], .leaf (.int 1), x, rfl, rfl, rfl, .inr (.inl ⟨1, rfl, rfl⟩)⟩
  have h1 : AxisAt spec (.node k [.leaf x, .leaf y]) [1] Option.none :=
    ⟨[1], [], .none, y, rfl, rfl, rfl, .inl ⟨rfl, rfl⟩⟩
  constructor
  · intro h
    obtain ⟨σ, ρ, s, l, e1, e2, e3, e4⟩ := id h
    have hπ : π = [0] ∨ π = [1] := by
      rcases π with _ | ⟨i, π⟩
      · simp at e2
      · rcases i with _ | _ | i
        · rcases π with _ | ⟨j, π⟩
          · exact .inl rfl
          · simp [leafAt?_node] at e2
        · rcases π with _ | ⟨j, π⟩
          · exact .inr rfl
          · simp [leafAt?_node] at e2
        · simp [leafAt?_node] at e2
    rcases hπ with rfl | rfl
    · exact .inl ⟨rfl, axisAt_unique h h0⟩
    · exact .inr ⟨rfl, axisAt_unique h h1⟩
  · rintro (⟨rfl, rfl⟩ | ⟨rfl, rfl⟩)
    · exact h0
    · exact h1

theorem resolvable_spec (x y : Leaf Arr Int) : Resolvable spec (.node () [.leaf x, .leaf y]) := by
  refine ⟨?_, ?_, ?_⟩
  · rw [isPrefix_iff]
    exact ⟨.node () [.leaf (.leaf x), .leaf (.leaf y)], rfl, rfl⟩
  · intro σ h
    rcases σ with _ | ⟨i, σ⟩
    · simp [spec] at h
    · rcases i with _ | _ | i
      · rcases σ with _ | ⟨j, σ⟩ <;> simp [spec, leafAt?_node] at h
      · rcases σ with _ | ⟨j, σ⟩ <;> simp [spec, leafAt?_node] at h
      · simp [spec, leafAt?_node] at h
  · intro π l h
    rcases π with _ | ⟨i, π⟩
    · simp at h
    · rcases i with _ | _ | i
      · rcases π with _ | ⟨j, π⟩
        · exact ⟨_, (axisAt_spec _ _ _ _ _).2 (.inl ⟨rfl, rfl⟩)⟩
        · simp [leafAt?_node] at h
      · rcases π with _ | ⟨j, π⟩
        · exact ⟨_, (axisAt_spec _ _ _ _ _).2 (.inr ⟨rfl, rfl⟩)⟩
        · simp [leafAt?_node] at h
      · simp [leafAt?_node] at h

/-- `filter_vmap(f, in_axes=(1, None), out_axes=(1, None))(matrix, 7)` returns: three lanes. -/
theorem vmap_runs : ∃ out, filterVmap world () f [] (.tree spec) spec Option.none [.leaf (.arr matrix), .leaf (.obj 7)] [] =
    .ok out := by
  have hl : ∀ i, IsLane world spec (.node () [.leaf (.arr matrix), .leaf (.obj 7)]) i
      (.node () [.leaf (.arr (slice matrix 1 i)), .leaf (.obj 7)]) := by
    intro i
    refine ⟨by rw [sameStructure_iff]; rfl, ?_⟩
    intro π l h
    rcases π with _ | ⟨i, π⟩
    · simp at h
    · rcases i with _ | _ | i
      · rcases π with _ | ⟨j, π⟩
        · refine ⟨_, (axisAt_spec _ _ _ _ _).2 (.inl ⟨rfl, rfl⟩), ?_⟩
          simp [leafAt?_node] at h; subst h; rfl
        · simp [leafAt?_node] at h
      · rcases π with _ | ⟨j, π⟩
        · refine ⟨_, (axisAt_spec _ _ _ _ _).2 (.inr ⟨rfl, rfl⟩), ?_⟩
          simp [leafAt?_node] at h; subst h; rfl
        · simp [leafAt?_node] at h
      · simp [leafAt?_node] at h
  refine filter_vmap_succeeds lawful traceable_f traceable_axes (n := 3) (by omega) (resolvable_spec _ _) ?_
    (.inr ⟨[0], 1, (axisAt_spec _ _ _ _ _).2 (.inl ⟨rfl, rfl⟩)⟩)
    ((List.range 3).map fun i => [.leaf (.arr (slice matrix 1 i)), .leaf (.obj 7)]) (by simp) ?_ ?_ ?_ ?_
  · refine ⟨by simp, ?_⟩
    intro π ax h
    rcases (axisAt_spec _ _ _ _ _).1 h with ⟨rfl, ha⟩ | ⟨_, ha⟩
    · cases ha; exact ⟨matrix, rfl, by simp [world, size, normAxis, matrix, mk]⟩
    · cases ha
  · intro i l h
    rw [List.getElem?_map, Option.map_eq_some_iff] at h
    obtain ⟨j, hj, rfl⟩ := h
    have : j = i := by
      have := (List.getElem?_eq_some_iff.1 hj).2
      simpa using this.symm
    subst this
    exact hl j
  · intro l hm
    obtain ⟨j, hj, rfl⟩ := List.mem_map.1 hm
    refine ⟨_, rfl, resolvable_spec _ _, ?_⟩
    intro π l ax h1 h2
    rcases (axisAt_spec _ _ _ _ _).1 h2 with ⟨rfl, h⟩ | ⟨_, h⟩
    · simp [leafAt?_node] at h1; subst h1; exact ⟨_, .inl rfl⟩
    · cases h
  · intro l hm o π _ ho h2 _
    obtain ⟨j, hj, rfl⟩ := List.mem_map.1 hm
    cases ho
    rcases (axisAt_spec _ _ _ _ _).1 h2 with ⟨_, h⟩ | ⟨rfl, _⟩
    · cases h
    · simp only [world, decide_eq_false_iff_not, Classical.not_not]
      intro outs houts o h3 o' h4
      have : ∀ o ∈ outs, o.leafAt? [1] = some (.obj 7) := by
        intro o ho
        obtain ⟨k, hk⟩ := List.getElem?_of_mem ho
        have hlen := (mapE_ok.1 houts).1
        have hk' := (List.getElem?_eq_some_iff.1 hk).1
        rw [hlen] at hk'
        obtain ⟨y, y1, y2⟩ := (mapE_ok.1 houts).2 k _ (List.getElem?_eq_getElem hk')
        rw [hk] at y1; cases y1
        simp only [List.getElem_map, f, Except.ok.injEq] at y2
        rw [← y2]; rfl
      rw [this o h3, this o' h4]
  · intro l hm o π x u us ax ho h2 h3 h4 h5 h6
    obtain ⟨j, hj, rfl⟩ := List.mem_map.1 hm
    cases ho
    rcases (axisAt_spec _ _ _ _ _).1 h2 with ⟨rfl, h⟩ | ⟨_, h⟩
    · cases h
      simp only [leafAt?_node, List.getElem?_cons_zero, Option.bind_some, leafAt?_leaf_nil, Option.some.injEq] at h3
      subst h3
      have hu : u = slice matrix 1 j := by simpa [IsArr, eq_comm] using h4
      subst hu
      cases us with
      | nil => simp at h6
      | cons y ys =>
        have hy : y.shape = [2] := h5 y (by simp)
        have : (stack (y :: ys)).shape = [ys.length + 1, 2] := by simp [stack, mk, hy]
        simp only [world, moveaxis, this]
        exact ⟨_, rfl⟩
    · cases h

end Verif.Vmap.Ex
