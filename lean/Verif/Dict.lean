/-!
# Python dictionaries

Insertion-ordered association lists: assigning to an existing key keeps its place, assigning to a new
key appends. Well-formed dictionaries have distinct keys; every dictionary built by `insert` from the
empty one is well-formed.
-/

namespace Verif

/-- A Python `dict`. -/
abbrev Dict (K V : Type) := List (K × V)

namespace Dict

variable {K V : Type} [DecidableEq K]

/-- `d.get(k)` -/
def get? : Dict K V → K → Option V
  | [], _ => none
  | (k', v) :: d, k => if k' = k then some v else get? d k

/-- `d[k] = v` -/
def insert : Dict K V → K → V → Dict K V
  | [], k, v => [(k, v)]
  | (k', v') :: d, k, v => if k' = k then (k', v) :: d else (k', v') :: insert d k v

/-- `list(d.keys())` -/
def keys (d : Dict K V) : List K := d.map (·.1)

/-- `dict(pairs)` / a dict comprehension: the pairs are assigned in order. -/
def ofList (l : List (K × V)) : Dict K V := l.foldl (fun d p => insert d p.1 p.2) []

/-- `d.update(e)` -/
def update (d e : Dict K V) : Dict K V := e.foldl (fun d p => insert d p.1 p.2) d

theorem get?_insert (d : Dict K V) (k k' : K) (v : V) :
    get? (insert d k v) k' = if k = k' then some v else get? d k' := by
  induction d with
  | nil => simp [insert, get?]
  | cons p d ih =>
    obtain ⟨a, b⟩ := p
    simp only [insert]
    by_cases h : a = k
    · subst h
      simp only [if_true, get?]
      split <;> simp_all
    · simp only [if_neg h, get?, ih]
      by_cases h2 : a = k'
      · subst h2; simp [Ne.symm h]
      · simp [h2]

theorem get?_isSome_iff (d : Dict K V) (k : K) : (get? d k).isSome ↔ k ∈ keys d := by
  induction d with
  | nil => simp [get?, keys]
  | cons p d ih =>
    obtain ⟨a, b⟩ := p
    simp only [get?, keys, List.map_cons, List.mem_cons]
    split
    · simp_all
    · rename_i h; rw [ih]; simp [keys, Ne.symm h]

theorem get?_eq_none_iff (d : Dict K V) (k : K) : get? d k = none ↔ k ∉ keys d := by
  rw [← get?_isSome_iff]; cases get? d k <;> simp

theorem keys_insert_of_mem (d : Dict K V) (k : K) (v : V) (h : k ∈ keys d) : keys (insert d k v) = keys d := by
  induction d with
  | nil => simp [keys] at h
  | cons p d ih =>
    obtain ⟨a, b⟩ := p
    simp only [insert]
    by_cases h2 : a = k
    · simp [h2, keys]
    · simp only [if_neg h2]
      have : k ∈ keys d := by
        simp only [keys, List.map_cons, List.mem_cons] at h
        rcases h with h | h
        · exact absurd h.symm h2
        · exact h
      have ih' := ih this
      simp only [keys, List.map_cons] at *
      rw [ih']

theorem keys_insert_of_not_mem (d : Dict K V) (k : K) (v : V) (h : k ∉ keys d) :
    keys (insert d k v) = keys d ++ [k] := by
  induction d with
  | nil => simp [insert, keys]
  | cons p d ih =>
    obtain ⟨a, b⟩ := p
    simp only [keys, List.map_cons, List.mem_cons, not_or] at h
    have h2 : a ≠ k := fun h' => h.1 h'.symm
    have ih' := ih h.2
    simp only [insert, if_neg h2]
    simp only [keys, List.map_cons, List.cons_append] at *
    rw [ih']

theorem insert_of_not_mem (d : Dict K V) (k : K) (v : V) (h : k ∉ keys d) : insert d k v = d ++ [(k, v)] := by
  induction d with
  | nil => simp [insert]
  | cons p d ih =>
    obtain ⟨a, b⟩ := p
    simp only [keys, List.map_cons, List.mem_cons, not_or] at h
    have h2 : a ≠ k := fun h' => h.1 h'.symm
    simp only [insert, if_neg h2, List.cons_append, ih h.2]

theorem mem_keys_insert (d : Dict K V) (k k' : K) (v : V) : k' ∈ keys (insert d k v) ↔ k' = k ∨ k' ∈ keys d := by
  by_cases h : k ∈ keys d
  · rw [keys_insert_of_mem d k v h]
    constructor
    · exact Or.inr
    · rintro (rfl | h')
      · exact h
      · exact h'
  · rw [keys_insert_of_not_mem d k v h]; simp [or_comm]

theorem nodup_insert (d : Dict K V) (k : K) (v : V) (h : (keys d).Nodup) : (keys (insert d k v)).Nodup := by
  by_cases hk : k ∈ keys d
  · rwa [keys_insert_of_mem d k v hk]
  · rw [keys_insert_of_not_mem d k v hk]
    rw [List.nodup_append]
    refine ⟨h, by simp, ?_⟩
    intro a ha b hb
    simp at hb; subst hb
    exact fun h' => hk (h' ▸ ha)

theorem nodup_update (d e : Dict K V) (h : (keys d).Nodup) : (keys (update d e)).Nodup := by
  induction e generalizing d with
  | nil => exact h
  | cons p e ih => exact ih _ (nodup_insert d p.1 p.2 h)

theorem nodup_ofList (l : List (K × V)) : (keys (ofList l)).Nodup := nodup_update [] l (by simp [keys])

theorem mem_keys_update (d e : Dict K V) (k : K) : k ∈ keys (update d e) ↔ k ∈ keys d ∨ k ∈ keys e := by
  induction e generalizing d with
  | nil => simp [update, keys]
  | cons p e ih =>
    have := ih (insert d p.1 p.2)
    simp only [update, List.foldl_cons] at *
    rw [this, mem_keys_insert]
    simp only [keys, List.map_cons, List.mem_cons]
    constructor
    · rintro ((h | h) | h)
      · exact Or.inr (Or.inl h)
      · exact Or.inl h
      · exact Or.inr (Or.inr h)
    · rintro (h | h | h)
      · exact Or.inl (Or.inr h)
      · exact Or.inl (Or.inl h)
      · exact Or.inr h

/-- In a well-formed dictionary the value of a key is the one in its pair. -/
theorem get?_of_mem (d : Dict K V) (h : (keys d).Nodup) {k : K} {v : V} (hm : (k, v) ∈ d) : get? d k = some v := by
  induction d with
  | nil => simp at hm
  | cons p d ih =>
    obtain ⟨a, b⟩ := p
    simp only [keys, List.map_cons, List.nodup_cons] at h
    simp only [List.mem_cons, Prod.mk.injEq] at hm
    simp only [get?]
    rcases hm with ⟨rfl, rfl⟩ | hm
    · simp
    · have : a ≠ k := by
        rintro rfl
        exact h.1 (List.mem_map.2 ⟨(a, v), hm, rfl⟩)
      rw [if_neg this]
      exact ih h.2 hm

theorem mem_of_get? (d : Dict K V) {k : K} {v : V} (h : get? d k = some v) : (k, v) ∈ d := by
  induction d with
  | nil => simp [get?] at h
  | cons p d ih =>
    obtain ⟨a, b⟩ := p
    simp only [get?] at h
    split at h
    · simp_all
    · exact List.mem_cons_of_mem _ (ih h)

theorem get?_update (d e : Dict K V) (h : (keys e).Nodup) (k : K) :
    get? (update d e) k = (get? e k).or (get? d k) := by
  induction e generalizing d with
  | nil => simp [update, get?]
  | cons p e ih =>
    obtain ⟨a, b⟩ := p
    simp only [keys, List.map_cons, List.nodup_cons] at h
    have := ih (insert d a b) h.2
    simp only [update, List.foldl_cons] at *
    rw [this, get?_insert]
    simp only [get?]
    by_cases hak : a = k
    · subst hak
      have : get? e a = none := (get?_eq_none_iff e a).2 h.1
      simp [this]
    · simp [hak]

/-- Building a dictionary from pairs with distinct keys gives those pairs. -/
theorem update_disjoint (d e : Dict K V) (h : (keys (d ++ e)).Nodup) : update d e = d ++ e := by
  induction e generalizing d with
  | nil => simp [update]
  | cons p e ih =>
    obtain ⟨a, b⟩ := p
    have hna : a ∉ keys d := by
      simp only [keys, List.map_append, List.map_cons, List.nodup_append] at h
      intro hm
      exact h.2.2 a hm a (by simp) rfl
    have h2 : update d ((a, b) :: e) = update (insert d a b) e := rfl
    rw [h2, insert_of_not_mem d a b hna, ih]
    · simp
    · simpa [keys] using h

theorem ofList_of_nodup (l : List (K × V)) (h : (keys l).Nodup) : ofList l = l := by
  have := update_disjoint [] l (by simpa using h)
  simpa [ofList, update] using this

theorem ext_of_keys {d e : Dict K V} (hd : (keys d).Nodup) (hk : keys d = keys e) (hg : ∀ k, get? d k = get? e k) : d = e := by
  induction d generalizing e with
  | nil => cases e with
    | nil => rfl
    | cons p e => simp [keys] at hk
  | cons p d ih => cases e with
    | nil => simp [keys] at hk
    | cons q e =>
      obtain ⟨a, b⟩ := p
      obtain ⟨a', b'⟩ := q
      simp only [keys, List.map_cons, List.cons.injEq] at hk
      obtain ⟨rfl, hk⟩ := hk
      simp only [keys, List.map_cons, List.nodup_cons] at hd
      have h1 := hg a
      simp [get?] at h1
      subst h1
      congr 1
      apply ih hd.2 hk
      intro k
      have h2 := hg k
      simp only [get?] at h2
      by_cases hak : a = k
      · subst hak
        rw [(get?_eq_none_iff d a).2 hd.1, (get?_eq_none_iff e a).2]
        simp only [keys]; rw [← hk]; exact hd.1
      · simpa [hak] using h2

end Dict
end Verif
