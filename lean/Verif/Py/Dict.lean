/-!
# Python dictionaries

Insertion-ordered Python `dict`s as association lists.  Library code used by all
areas; `d[k] = v` overwrites in place or appends, `d[k]` looks up the first (and,
for dictionaries built with `set`, only) entry.
-/

namespace Verif

/-- A Python `dict`: insertion-ordered association list. -/
abbrev Dict (K V : Type) := List (K × V)

namespace Dict

variable {K V : Type} [DecidableEq K]

/-- `d.get(k)`. -/
def get? : Dict K V → K → Option V
  | [], _ => none
  | (k', v) :: d, k => if k' = k then some v else get? d k

/-- `d[k] = v`. -/
def set : Dict K V → K → V → Dict K V
  | [], k, v => [(k, v)]
  | (k', v') :: d, k, v => if k' = k then (k, v) :: d else (k', v') :: set d k v

/-- `list(d.keys())`. -/
def keys (d : Dict K V) : List K := d.map (·.1)

/-- `k in d`. -/
def contains (d : Dict K V) (k : K) : Bool := (get? d k).isSome

/-- `d.pop(k, None)`. -/
def erase (d : Dict K V) (k : K) : Dict K V := d.filter (fun e => e.1 ≠ k)

@[simp] theorem get?_nil (k : K) : get? ([] : Dict K V) k = none := rfl

theorem get?_cons (k' : K) (v : V) (d : Dict K V) (k : K) :
    get? ((k', v) :: d) k = if k' = k then some v else get? d k := rfl

theorem get?_set (d : Dict K V) (k : K) (v : V) (q : K) :
    get? (set d k v) q = if k = q then some v else get? d q := by
  induction d with
  | nil => simp [set, get?]
  | cons e d ih =>
    obtain ⟨k', v'⟩ := e
    by_cases h : k' = k
    · subst h; simp [set, get?]
      split <;> rfl
    · simp only [set, h, if_false, get?_cons, ih]
      by_cases h2 : k' = q
      · subst h2; simp [Ne.symm h]
      · simp [h2]

theorem get?_set_self (d : Dict K V) (k : K) (v : V) : get? (set d k v) k = some v := by
  simp [get?_set]

theorem get?_set_ne (d : Dict K V) {k q : K} (v : V) (h : k ≠ q) :
    get? (set d k v) q = get? d q := by simp [get?_set, h]

theorem mem_keys_iff (d : Dict K V) (k : K) : k ∈ keys d ↔ (get? d k).isSome := by
  induction d with
  | nil => simp [keys]
  | cons e d ih =>
    obtain ⟨k', v'⟩ := e
    simp only [keys, List.map_cons, List.mem_cons, get?_cons]
    by_cases h : k' = k
    · simp [h]
    · simp only [h, if_false]
      rw [← ih]; simp [keys, Ne.symm h]

theorem keys_set_of_mem (d : Dict K V) (k : K) (v : V) (h : k ∈ keys d) :
    keys (set d k v) = keys d := by
  induction d with
  | nil => simp [keys] at h
  | cons e d ih =>
    obtain ⟨k', v'⟩ := e
    by_cases hk : k' = k
    · subst hk; simp [set, keys]
    · have h' : k ∈ keys d := by
        simp only [keys, List.map_cons, List.mem_cons] at h
        rcases h with h | h
        · exact absurd h.symm hk
        · exact h
      have := ih h'
      simp only [keys] at this
      simp only [set, hk, if_false, keys, List.map_cons, this]

theorem keys_set_of_not_mem (d : Dict K V) (k : K) (v : V) (h : k ∉ keys d) :
    keys (set d k v) = keys d ++ [k] := by
  induction d with
  | nil => simp [set, keys]
  | cons e d ih =>
    obtain ⟨k', v'⟩ := e
    simp only [keys, List.map_cons, List.mem_cons, not_or] at h
    simp only [set, Ne.symm h.1, if_false, keys, List.map_cons, List.cons_append]
    rw [show List.map (·.1) (set d k v) = keys (set d k v) from rfl, ih h.2]; rfl

theorem mem_keys_set (d : Dict K V) (k : K) (v : V) (q : K) :
    q ∈ keys (set d k v) ↔ q = k ∨ q ∈ keys d := by
  rw [mem_keys_iff, mem_keys_iff, get?_set]
  by_cases h : k = q
  · simp [h]
  · simp [h, Ne.symm h]

theorem nodup_keys_set (d : Dict K V) (k : K) (v : V) (h : (keys d).Nodup) :
    (keys (set d k v)).Nodup := by
  by_cases hk : k ∈ keys d
  · rw [keys_set_of_mem d k v hk]; exact h
  · rw [keys_set_of_not_mem d k v hk]
    refine List.nodup_append.2 ⟨h, by simp, ?_⟩
    intro a ha b hb
    simp only [List.mem_singleton] at hb
    subst hb; intro hab; subst hab; exact hk ha

theorem get?_erase (d : Dict K V) (k q : K) :
    get? (erase d k) q = if k = q then none else get? d q := by
  induction d with
  | nil => simp [erase]
  | cons e d ih =>
    obtain ⟨k', v'⟩ := e
    simp only [erase, List.filter_cons] at *
    by_cases hk : k' = k
    · subst hk
      simp only [ne_eq, not_true_eq_false, decide_false, Bool.false_eq_true, if_false]
      rw [ih]; split <;> simp_all [get?_cons]
    · simp only [ne_eq, hk, not_false_eq_true, decide_true, if_true, get?_cons, ih]
      by_cases h2 : k' = q
      · subst h2; simp [Ne.symm hk]
      · simp [h2]

theorem mem_of_get? {d : Dict K V} {k : K} {v : V} (h : get? d k = some v) : (k, v) ∈ d := by
  induction d with
  | nil => simp at h
  | cons e d ih =>
    obtain ⟨k', v'⟩ := e
    rw [get?_cons] at h
    by_cases hk : k' = k
    · simp [hk] at h; simp [hk, h]
    · simp [hk] at h; exact List.mem_cons_of_mem _ (ih h)

theorem get?_of_mem {d : Dict K V} (hn : (keys d).Nodup) {k : K} {v : V} (h : (k, v) ∈ d) :
    get? d k = some v := by
  induction d with
  | nil => simp at h
  | cons e d ih =>
    obtain ⟨k', v'⟩ := e
    rw [get?_cons]
    simp only [keys, List.map_cons, List.nodup_cons] at hn
    simp only [List.mem_cons, Prod.mk.injEq] at h
    rcases h with ⟨rfl, rfl⟩ | h
    · simp
    · have : k' ≠ k := by
        intro hk; subst hk
        exact hn.1 (List.mem_map.2 ⟨_, h, rfl⟩)
      simp [this, ih hn.2 h]

end Dict
end Verif
