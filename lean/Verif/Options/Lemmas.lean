import Verif.Options.Model

/-! # Helper lemmas for the option tree -/

namespace Verif.Options

variable {V : Type}

/-- Value and default stored at a path (`none`: no option there). -/
def entry : Tree V → List String → Option (V × V)
  | _, [] => none
  | t, [leaf] =>
    match Dict.get? t leaf with
    | some (.opt v d) => some (v, d)
    | _ => none
  | t, part :: rest =>
    match Dict.get? t part with
    | some (.cat c) => entry c rest
    | _ => none

/-- The path leads to a category. -/
def isCat : Tree V → List String → Bool
  | _, [] => true
  | t, part :: rest =>
    match Dict.get? t part with
    | some (.cat c) => isCat c rest
    | _ => false

theorem entry_cons_cons (t : Tree V) (a b : String) (r : List String) :
    entry t (a :: b :: r) = match Dict.get? t a with
      | some (.cat c) => entry c (b :: r)
      | _ => none := by
  simp [entry]

theorem getOption_eq (t : Tree V) (p : List String) :
    getOption t p = match entry t p with
      | some (v, _) => .ok v
      | none => .error .invalidOption := by
  fun_induction getOption t p <;> simp_all [entry]

theorem setOption_spec (t : Tree V) (p : List String) (v : V) :
    match entry t p with
    | none => setOption t p v = .error .invalidOption
    | some (_, d) => ∃ t', setOption t p v = .ok t' ∧
        (∀ q, entry t' q = if q = p then some (v, d) else entry t q) ∧
        (∀ q, isCat t' q = isCat t q) := by
  induction p generalizing t with
  | nil => simp [entry, setOption]
  | cons a r ih =>
    cases r with
    | nil =>
      simp only [entry, setOption]
      cases hg : Dict.get? t a with
      | none => simp
      | some n =>
        cases n with
        | cat c => simp
        | opt w d =>
          refine ⟨_, rfl, ?_, ?_⟩
          · intro q
            cases q with
            | nil => simp [entry]
            | cons b q' =>
              cases q' with
              | nil =>
                by_cases hb : a = b
                · subst hb; simp [entry, Dict.get?_set_self]
                · simp [entry, Dict.get?_set_ne _ _ hb, Ne.symm hb]
              | cons b' q'' =>
                by_cases hb : a = b
                · subst hb; simp [entry, Dict.get?_set_self, hg]
                · simp [entry, Dict.get?_set_ne _ _ hb]
          · intro q
            cases q with
            | nil => simp [isCat]
            | cons b q' =>
              by_cases hb : a = b
              · subst hb; simp [isCat, Dict.get?_set_self, hg]
              · simp [isCat, Dict.get?_set_ne _ _ hb]
    | cons a' r' =>
      simp only [entry, setOption]
      cases hg : Dict.get? t a with
      | none => simp
      | some n =>
        cases n with
        | opt w d => simp
        | cat c =>
          have h := ih c
          simp only
          cases he : entry c (a' :: r') with
          | none => simp only [he] at h; simp [h]
          | some wd =>
            obtain ⟨w, d⟩ := wd
            simp only [he] at h
            obtain ⟨c', h1, h2, h3⟩ := h
            refine ⟨_, by simp only [h1]; rfl, ?_, ?_⟩
            · intro q
              cases q with
              | nil => simp [entry]
              | cons b q' =>
                by_cases hb : a = b
                · subst hb
                  cases q' with
                  | nil => simp [entry, Dict.get?_set_self, hg]
                  | cons b' q'' => simp [entry, Dict.get?_set_self, hg, h2]
                · cases q' with
                  | nil => simp [entry, Dict.get?_set_ne _ _ hb]
                  | cons b' q'' => simp [entry, Dict.get?_set_ne _ _ hb, Ne.symm hb]
            · intro q
              cases q with
              | nil => simp [isCat]
              | cons b q' =>
                by_cases hb : a = b
                · subst hb; simp [isCat, Dict.get?_set_self, hg, h3]
                · simp [isCat, Dict.get?_set_ne _ _ hb]

theorem get?_resetAll (t : Tree V) (k : String) :
    Dict.get? (resetAll t) k = (Dict.get? t k).map resetNode := by
  induction t with
  | nil => simp [resetAll]
  | cons e t ih =>
    obtain ⟨k', n⟩ := e
    simp only [resetAll, Dict.get?_cons, ih]
    split <;> simp

theorem entry_resetAll (t : Tree V) (p : List String) :
    entry (resetAll t) p = (entry t p).map (fun e => (e.2, e.2)) := by
  induction p generalizing t with
  | nil => simp [entry]
  | cons a r ih =>
    cases r with
    | nil =>
      simp only [entry, get?_resetAll]
      rcases Dict.get? t a with _ | ⟨v, d⟩ | c <;> simp [resetNode]
    | cons b r' =>
      simp only [entry, get?_resetAll]
      rcases Dict.get? t a with _ | ⟨v, d⟩ | c <;> simp [resetNode, ih]

theorem isCat_resetAll (t : Tree V) (p : List String) :
    isCat (resetAll t) p = isCat t p := by
  induction p generalizing t with
  | nil => simp [isCat]
  | cons a r ih =>
    simp only [isCat, get?_resetAll]
    rcases Dict.get? t a with _ | ⟨v, d⟩ | c <;> simp [resetNode, ih]

@[simp] theorem entry_nil (p : List String) : entry ([] : Tree V) p = none := by
  cases p with
  | nil => simp [entry]
  | cons a r => cases r <;> simp [entry]

@[simp] theorem isCat_nil (p : List String) : isCat ([] : Tree V) p = p.isEmpty := by
  cases p <;> simp [isCat]

/-- An option at a path excludes a category at the path and everything below. -/
theorem entry_isCat (t : Tree V) (p s : List String) (h : (entry t p).isSome) :
    isCat t (p ++ s) = false := by
  induction p generalizing t with
  | nil => simp [entry] at h
  | cons a r ih =>
    cases r with
    | nil =>
      simp only [entry] at h
      simp only [List.cons_append, isCat]
      rcases hg : Dict.get? t a with _ | ⟨v, d⟩ | c <;> simp_all
    | cons b r' =>
      simp only [entry] at h
      rw [List.cons_append, isCat]
      rcases hg : Dict.get? t a with _ | ⟨v, d⟩ | c <;> simp_all

/-- Above an option there are only categories. -/
theorem isCat_prefix (t : Tree V) (p s : List String) (h : (entry t (p ++ s)).isSome)
    (hs : s ≠ []) : isCat t p = true := by
  induction p generalizing t with
  | nil => simp [isCat]
  | cons a r ih =>
    have hne : r ++ s ≠ [] := by simp [hs]
    obtain ⟨b, r', hr⟩ := List.exists_cons_of_ne_nil hne
    rw [List.cons_append, hr, entry_cons_cons] at h
    rw [isCat]
    rcases hg : Dict.get? t a with _ | ⟨v, d⟩ | c
    · simp [hg] at h
    · simp [hg] at h
    · simp only [hg] at h; exact ih c (by rw [hr]; exact h)

theorem isCat_prefix' (t : Tree V) (p s : List String) (h : isCat t (p ++ s)) :
    isCat t p = true := by
  induction p generalizing t with
  | nil => simp [isCat]
  | cons a r ih =>
    rw [List.cons_append, isCat] at h
    rw [isCat]
    rcases hg : Dict.get? t a with _ | ⟨v, d⟩ | c
    · simp [hg] at h
    · simp [hg] at h
    · simp only [hg] at h; exact ih c h

/-- Some proper prefix of the path is an option: `_add_option` meets it on its way. -/
def blockedAbove (t : Tree V) (p : List String) : Prop :=
  ∃ q s, s ≠ [] ∧ p = q ++ s ∧ (entry t q).isSome

theorem blockedAbove_cons (t : Tree V) (a : String) (r : List String) :
    blockedAbove t (a :: r) ↔ (r ≠ [] ∧ (entry t [a]).isSome) ∨
      (∃ c, Dict.get? t a = some (.cat c) ∧ blockedAbove c r) := by
  constructor
  · rintro ⟨q, s, hs, hp, he⟩
    cases q with
    | nil => simp [entry] at he
    | cons b q' =>
      simp only [List.cons_append, List.cons.injEq] at hp
      obtain ⟨rfl, rfl⟩ := hp
      cases q' with
      | nil => left; simp [hs, he]
      | cons b' q'' =>
        right
        rw [entry_cons_cons] at he
        rcases hg : Dict.get? t a with _ | ⟨v, d⟩ | c
        · simp [hg] at he
        · simp [hg] at he
        · simp only [hg] at he
          exact ⟨c, rfl, _, _, hs, rfl, he⟩
  · rintro (⟨hr, he⟩ | ⟨c, hg, q, s, hs, rfl, he⟩)
    · exact ⟨[a], r, hr, rfl, he⟩
    · refine ⟨a :: q, s, hs, rfl, ?_⟩
      cases q with
      | nil => simp [entry] at he
      | cons b q' => rw [entry_cons_cons, hg]; exact he

theorem not_blockedAbove_nil (p : List String) : ¬ blockedAbove ([] : Tree V) p := by
  rintro ⟨q, s, _, _, h⟩; simp at h

/-- Writing a leaf where no category sits. -/
theorem setLeaf_spec (t : Tree V) (a : String) (v d : V)
    (h : ∀ c, Dict.get? t a ≠ some (.cat c)) (q : List String) :
    entry (Dict.set t a (.opt v d)) q = (if q = [a] then some (v, d) else entry t q) ∧
    isCat (Dict.set t a (.opt v d)) q = isCat t q := by
  cases q with
  | nil => simp [entry, isCat]
  | cons b q' =>
    by_cases hb : a = b
    · subst hb
      constructor
      · cases q' with
        | nil => simp [entry, Dict.get?_set_self]
        | cons b' q'' =>
          rw [entry_cons_cons, entry_cons_cons, Dict.get?_set_self]
          rcases hg : Dict.get? t a with _ | ⟨w, d'⟩ | c <;> simp_all
      · rw [isCat, isCat, Dict.get?_set_self]
        rcases hg : Dict.get? t a with _ | ⟨w, d'⟩ | c <;> simp_all
    · constructor
      · cases q' with
        | nil => simp [entry, Dict.get?_set_ne _ _ hb, Ne.symm hb]
        | cons b' q'' => simp [entry_cons_cons, Dict.get?_set_ne _ _ hb]
      · simp [isCat, Dict.get?_set_ne _ _ hb]

/-- Writing a category whose content is `c'` where `c` (or nothing) was. -/
theorem setCat_spec (t : Tree V) (a : String) (c c' : Tree V) (r : List String) (v d : V)
    (hr : r ≠ [])
    (h : Dict.get? t a = some (.cat c) ∨ (Dict.get? t a = none ∧ c = []))
    (he : ∀ q, entry c' q = if q = r then some (v, d) else entry c q) (q : List String) :
    entry (Dict.set t a (.cat c')) q =
      (if q = a :: r then some (v, d) else entry t q) := by
  cases q with
  | nil => simp [entry]
  | cons b q' =>
    by_cases hb : a = b
    · subst hb
      cases q' with
      | nil =>
        rcases h with h | ⟨h, _⟩ <;> simp [entry, Dict.get?_set_self, h, Ne.symm hr]
      | cons b' q'' =>
        rw [entry_cons_cons, entry_cons_cons, Dict.get?_set_self]
        simp only [List.cons.injEq, true_and, he]
        rcases h with h | ⟨h, rfl⟩ <;> simp [h]
    · cases q' with
      | nil => simp [entry, Dict.get?_set_ne _ _ hb, Ne.symm hb]
      | cons b' q'' => simp [entry_cons_cons, Dict.get?_set_ne _ _ hb, Ne.symm hb]

theorem setCat_isCat (t : Tree V) (a : String) (c c' : Tree V) (r : List String)
    (h : Dict.get? t a = some (.cat c) ∨ (Dict.get? t a = none ∧ c = [])) (hr : r ≠ [])
    (hc : ∀ q, isCat c' q = true ↔ (isCat c q = true ∨ ∃ s, s ≠ [] ∧ r = q ++ s))
    (q : List String) :
    isCat (Dict.set t a (.cat c')) q = true ↔
      (isCat t q = true ∨ ∃ s, s ≠ [] ∧ a :: r = q ++ s) := by
  cases q with
  | nil => simp [isCat]
  | cons b q' =>
    by_cases hb : a = b
    · subst hb
      rw [isCat, isCat, Dict.get?_set_self]
      simp only [List.cons_append, List.cons.injEq, true_and, hc]
      rcases h with h | ⟨h, rfl⟩
      · simp [h]
      · simp only [isCat_nil, h]
        constructor
        · rintro (h1 | h1)
          · right; simp at h1; subst h1; exact ⟨r, hr, rfl⟩
          · right; exact h1
        · rintro (h1 | h1)
          · simp at h1
          · right; exact h1
    · simp [isCat, Dict.get?_set_ne _ _ hb, hb]

theorem addOption_spec (t : Tree V) (p : List String) (v : V) (hp : p ≠ []) :
    ((blockedAbove t p ∨ isCat t p = true) → addOption t p v = .error .valueError) ∧
    (¬ (blockedAbove t p ∨ isCat t p = true) → ∃ t', addOption t p v = .ok t' ∧
        (∀ q, entry t' q = if q = p then some (v, v) else entry t q) ∧
        (∀ q, isCat t' q = true ↔ (isCat t q = true ∨ ∃ s, s ≠ [] ∧ p = q ++ s))) := by
  induction p generalizing t with
  | nil => exact absurd rfl hp
  | cons a r ih =>
    cases r with
    | nil =>
      have hnb : ∀ c : Tree V, ¬ blockedAbove c [] := by
        rintro c ⟨q, s, hs, h, _⟩
        have := List.append_eq_nil_iff.1 h.symm
        exact hs this.2
      have key : ∀ q : List String, (∃ s, s ≠ [] ∧ [a] = q ++ s) → q = [] := by
        rintro q ⟨s, hs, h⟩
        cases q with
        | nil => rfl
        | cons b q' =>
          simp only [List.cons_append, List.cons.injEq] at h
          have := List.append_eq_nil_iff.1 h.2.symm
          exact absurd this.2 hs
      simp only [blockedAbove_cons, addOption]
      rcases hg : Dict.get? t a with _ | ⟨w, d⟩ | c
      · simp only [isCat, hg]
        refine ⟨by simp, fun _ => ⟨_, rfl, fun q => (setLeaf_spec t a v v (by simp [hg]) q).1, ?_⟩⟩
        intro q
        rw [(setLeaf_spec t a v v (by simp [hg]) q).2]
        refine ⟨Or.inl, ?_⟩
        rintro (h | h)
        · exact h
        · rw [key q h]; rfl
      · simp only [isCat, hg]
        refine ⟨by simp, fun _ => ⟨_, rfl, fun q => (setLeaf_spec t a v v (by simp [hg]) q).1, ?_⟩⟩
        intro q
        rw [(setLeaf_spec t a v v (by simp [hg]) q).2]
        refine ⟨Or.inl, ?_⟩
        rintro (h | h)
        · exact h
        · rw [key q h]; rfl
      · simp [isCat, hg]
    | cons b r' =>
      have hr : b :: r' ≠ [] := by simp
      rw [blockedAbove_cons t a (b :: r')]
      simp only [addOption]
      rcases hg : Dict.get? t a with _ | ⟨w, d⟩ | c
      · have h := (ih [] hr).2 (by simp [not_blockedAbove_nil])
        obtain ⟨c', h1, h2, h3⟩ := h
        refine ⟨?_, fun _ => ⟨_, by simp only [h1]; rfl, ?_, ?_⟩⟩
        · simp [entry, isCat, hg]
        · exact setCat_spec t a [] c' _ v v hr (Or.inr ⟨hg, rfl⟩) h2
        · exact setCat_isCat t a [] c' _ (Or.inr ⟨hg, rfl⟩) hr h3
      · simp [entry, isCat, hg]
      · have h := ih c hr
        refine ⟨?_, ?_⟩
        · intro hb
          have : blockedAbove c (b :: r') ∨ isCat c (b :: r') = true := by
            rcases hb with (⟨_, hb⟩ | ⟨c2, hc2, hb⟩) | hb
            · simp [entry, hg] at hb
            · simp at hc2; subst hc2; exact Or.inl hb
            · rw [isCat, hg] at hb; exact Or.inr hb
          simp only [h.1 this]
        · intro hb
          have hn : ¬ (blockedAbove c (b :: r') ∨ isCat c (b :: r') = true) := by
            rintro (h' | h')
            · exact hb (Or.inl (Or.inr ⟨c, rfl, h'⟩))
            · exact hb (Or.inr (by rw [isCat, hg]; exact h'))
          obtain ⟨c', h1, h2, h3⟩ := h.2 hn
          refine ⟨_, by simp only [h1]; rfl, ?_, ?_⟩
          · exact setCat_spec t a c c' _ v v hr (Or.inl hg) h2
          · exact setCat_isCat t a c c' _ (Or.inl hg) hr h3

end Verif.Options
