import Verif.Options.Lemmas

/-!
# Properties C01 and C02: options

Specification state: a partial map from names (lists of dotted parts) to
(value, default).
-/

namespace Verif.Options

variable {V : Type}

/-! ## C02: the option tree refines a map with defaults -/

/-- Calls on the options object. -/
inductive Op (V : Type) where
  | get (p : List String)
  | set (p : List String) (v : V)
  | add (p : List String) (v : V)
  | reset

/-- What a call returns to the caller. -/
inductive Out (V : Type) where
  | value (v : V)
  | done
  | raised (e : Err)

/-- One call on the model. -/
def step (t : Tree V) : Op V → Tree V × Out V
  | .get p => (t, match getOption t p with | .ok v => .value v | .error e => .raised e)
  | .set p v => match setOption t p v with
    | .ok t' => (t', .done)
    | .error e => (t, .raised e)
  | .add p v => match addOption t p v with
    | .ok t' => (t', .done)
    | .error e => (t, .raised e)
  | .reset => (resetAll t, .done)

/-- A sequence of calls on the model. -/
def steps (t : Tree V) : List (Op V) → Tree V × List (Out V)
  | [] => (t, [])
  | o :: os =>
    let (t1, r) := step t o
    let (t2, rs) := steps t1 os
    (t2, r :: rs)

/-- Specification state: name ↦ (value, default). -/
abbrev Spec (V : Type) := List String → Option (V × V)

/-- A name clashes with a registered one if one is a proper prefix of the other:
it would have to be an option and a category at the same time. -/
def Spec.clash (s : Spec V) (p : List String) : Prop :=
  ∃ q e, s q = some e ∧ ∃ r, r ≠ [] ∧ (p = q ++ r ∨ q = p ++ r)

open Classical in
/-- One call on the specification map. -/
noncomputable def Spec.step (s : Spec V) : Op V → Spec V × Out V
  | .get p => match s p with
    | some (v, _) => (s, .value v)
    | none => (s, .raised .invalidOption)
  | .set p v => match s p with
    | some (_, d) => (fun q => if q = p then some (v, d) else s q, .done)
    | none => (s, .raised .invalidOption)
  | .add p v =>
    if s.clash p then (s, .raised .valueError)
    else (fun q => if q = p then some (v, v) else s q, .done)
  | .reset => (fun q => match s q with | some (_, d) => some (d, d) | none => none, .done)

/-- A sequence of calls on the specification map. -/
noncomputable def Spec.steps (s : Spec V) : List (Op V) → Spec V × List (Out V)
  | [] => (s, [])
  | o :: os =>
    let (s1, r) := s.step o
    let (s2, rs) := s1.steps os
    (s2, r :: rs)

/-- Names passed to the functions are results of `split(".")`, hence not empty. -/
def Op.Valid : Op V → Prop
  | .add p _ => p ≠ []
  | _ => True

/-- Invariant: below every category (except the root) there is an option. -/
def Inv (t : Tree V) : Prop :=
  ∀ p, p ≠ [] → isCat t p = true → ∃ s, s ≠ [] ∧ (entry t (p ++ s)).isSome

theorem clash_iff (t : Tree V) (h : Inv t) (p : List String) (hp : p ≠ []) :
    Spec.clash (entry t) p ↔ (blockedAbove t p ∨ isCat t p = true) := by
  constructor
  · rintro ⟨q, e, he, r, hr, h1 | h1⟩
    · exact Or.inl ⟨q, r, hr, h1, by simp [he]⟩
    · subst h1; exact Or.inr (isCat_prefix t p r (by simp [he]) hr)
  · rintro (⟨q, s, hs, h1, h2⟩ | h1)
    · obtain ⟨e, he⟩ := Option.isSome_iff_exists.1 h2
      exact ⟨q, e, he, s, hs, Or.inl h1⟩
    · obtain ⟨s, hs, h2⟩ := h p hp h1
      obtain ⟨e, he⟩ := Option.isSome_iff_exists.1 h2
      exact ⟨p ++ s, e, he, s, hs, Or.inr rfl⟩

theorem step_refines (t : Tree V) (h : Inv t) (o : Op V) (ho : o.Valid) :
    Spec.step (entry t) o = (entry (step t o).1, (step t o).2) ∧ Inv (step t o).1 := by
  cases o with
  | get p =>
    refine ⟨?_, h⟩
    simp only [Spec.step, step, getOption_eq]
    rcases entry t p with _ | ⟨v, d⟩ <;> rfl
  | set p v =>
    have hs := setOption_spec t p v
    simp only [Spec.step, step]
    rcases he : entry t p with _ | ⟨w, d⟩
    · simp only [he] at hs; simp only [hs]; exact ⟨trivial, h⟩
    · simp only [he] at hs
      obtain ⟨t', h1, h2, h3⟩ := hs
      simp only [h1]
      refine ⟨by rw [Prod.mk.injEq]; exact ⟨(funext h2).symm, rfl⟩, ?_⟩
      intro q hq hc
      obtain ⟨s, hs, h4⟩ := h q hq (by rw [← h3]; exact hc)
      refine ⟨s, hs, ?_⟩
      rw [h2]; split
      · rfl
      · exact h4
  | add p v =>
    have hs := addOption_spec t p v ho
    have hcl := clash_iff t h p ho
    simp only [Spec.step, step]
    by_cases hb : blockedAbove t p ∨ isCat t p = true
    · rw [hs.1 hb, if_pos (hcl.2 hb)]; exact ⟨rfl, h⟩
    · obtain ⟨t', h1, h2, h3⟩ := hs.2 hb
      rw [if_neg (fun h' => hb (hcl.1 h'))]
      simp only [h1]
      refine ⟨by rw [Prod.mk.injEq]; exact ⟨(funext h2).symm, rfl⟩, ?_⟩
      intro q hq hc
      rcases (h3 q).1 hc with hc | ⟨s, hs', rfl⟩
      · obtain ⟨s, hs, h4⟩ := h q hq hc
        refine ⟨s, hs, ?_⟩
        rw [h2]; split
        · rfl
        · exact h4
      · exact ⟨s, hs', by rw [h2]; simp⟩
  | reset =>
    simp only [Spec.step, step]
    refine ⟨?_, ?_⟩
    · rw [Prod.mk.injEq]; refine ⟨funext fun q => ?_, rfl⟩
      rw [entry_resetAll]
      rcases entry t q with _ | ⟨v, d⟩ <;> rfl
    · intro q hq hc
      rw [isCat_resetAll] at hc
      obtain ⟨s, hs, h4⟩ := h q hq hc
      exact ⟨s, hs, by rw [entry_resetAll]; simpa using h4⟩

theorem inv_nil : Inv ([] : Tree V) := by
  intro p hp hc; simp at hc; exact absurd hc hp

/-- **C02.** Any sequence of registrations, gets, sets and resets, started on the
empty options object, returns to the caller exactly what a map from names to
(value, default) would return, and raises exactly when the map says so. -/
theorem options_refine_map (ops : List (Op V)) (h : ∀ o ∈ ops, o.Valid) :
    (Spec.steps (fun _ => none) ops).2 = (steps ([] : Tree V) ops).2 := by
  have gen : ∀ (ops : List (Op V)) (t : Tree V), Inv t → (∀ o ∈ ops, o.Valid) →
      Spec.steps (entry t) ops = (entry (steps t ops).1, (steps t ops).2) := by
    intro ops
    induction ops with
    | nil => intro t _ _; rfl
    | cons o os ih =>
      intro t ht hv
      have hstep := step_refines t ht o (hv o (by simp))
      have h2 := ih (step t o).1 hstep.2 (fun o' ho' => hv o' (by simp [ho']))
      simp only [Spec.steps, steps, hstep.1, h2]
  have h0 : (fun _ => none : Spec V) = entry ([] : Tree V) := by
    funext q; simp
  rw [h0, gen ops [] inv_nil h]

/-- **C02, frame form.** A successful `set_option` is read back, and no other option
(value or default) changes; a failing one raises `InvalidOptionError`. -/
theorem get_set_option (t : Tree V) (p : List String) (v : V) :
    (∀ t', setOption t p v = .ok t' →
      getOption t' p = .ok v ∧ ∀ q, q ≠ p → getOption t' q = getOption t q) ∧
    ((∃ t', setOption t p v = .ok t') ↔ ∃ w, getOption t p = .ok w) := by
  have hs := setOption_spec t p v
  rcases he : entry t p with _ | ⟨w, d⟩
  · simp only [he] at hs
    constructor
    · intro t' h; simp [hs] at h
    · simp [hs, getOption_eq, he]
  · simp only [he] at hs
    obtain ⟨t', h1, h2, _⟩ := hs
    constructor
    · intro t'' h; rw [h1] at h; cases h
      refine ⟨by simp [getOption_eq, h2], fun q hq => by simp [getOption_eq, h2, hq]⟩
    · simp [h1, getOption_eq, he]

/-- Non-vacuity: the default option tree of the package can be built, is changed by
a set and restored by a reset. -/
example : ∃ t t', defaultOptions = .ok t ∧
    setOption t ["params", "statistics", "round"] 3 = .ok t' ∧
    getOption t' ["params", "statistics", "round"] = .ok 3 ∧
    getOption (resetAll t') ["params", "statistics", "round"] = .ok 5 ∧
    getOption t' ["params", "statistics"] = .error .invalidOption ∧
    addOption t' ["params"] 0 = .error .valueError :=
  ⟨_, _, rfl, rfl, rfl, rfl, rfl, rfl⟩

/-! ## C01: `option_context` -/

/-- The options that can be read. -/
def HasOption (t : Tree V) (p : List String) : Prop := ∃ v, getOption t p = .ok v

theorem hasOption_iff (t : Tree V) (p : List String) :
    HasOption t p ↔ (entry t p).isSome := by
  unfold HasOption; rw [getOption_eq]
  rcases entry t p with _ | ⟨v, d⟩ <;> simp

/-- What `enter` does: with distinct names, the remembered values are the ones before
the block; other options are untouched; all options stay available. -/
theorem enter_spec (pairs : List (List String × V)) (t : Tree V)
    (orig : Dict (List String) V)
    (hn : (pairs.map (·.1)).Nodup)
    (hd : ∀ n ∈ pairs.map (·.1), n ∉ Dict.keys orig) :
    ∀ t1 o1 f, enter t pairs orig = (t1, o1, f) →
      (∀ q, HasOption t1 q ↔ HasOption t q) ∧
      (∀ q, q ∈ Dict.keys orig → Dict.get? o1 q = Dict.get? orig q) ∧
      (∀ q, q ∉ Dict.keys o1 → getOption t1 q = getOption t q) ∧
      (∀ q v, q ∉ Dict.keys orig → Dict.get? o1 q = some v → getOption t q = .ok v) ∧
      (∀ q, q ∈ Dict.keys o1 → q ∈ Dict.keys orig ∨ HasOption t q) ∧
      (∀ q, q ∈ Dict.keys o1 → q ∈ Dict.keys orig ∨ q ∈ pairs.map (·.1)) ∧
      (∀ q, q ∈ Dict.keys orig → q ∈ Dict.keys o1) ∧
      (f = false → ∀ q ∈ pairs.map (·.1), q ∈ Dict.keys o1) ∧
      ((Dict.keys orig).Nodup → (Dict.keys o1).Nodup) := by
  induction pairs generalizing t orig with
  | nil =>
    intro t1 o1 f h
    simp only [enter, Prod.mk.injEq] at h
    obtain ⟨rfl, rfl, rfl⟩ := h
    refine ⟨fun q => Iff.rfl, fun q _ => rfl, fun q _ => rfl, ?_, fun q hq => Or.inl hq,
      fun q hq => Or.inl hq, fun q hq => hq, by simp, fun h => h⟩
    intro q v hq hv
    exact absurd ((Dict.mem_keys_iff _ _).2 (by simp [hv])) hq
  | cons e ps ih =>
    obtain ⟨name, v⟩ := e
    intro t1 o1 f h
    simp only [List.map_cons, List.nodup_cons] at hn
    have hname : name ∉ Dict.keys orig := hd name (by simp)
    simp only [enter] at h
    cases hg : getOption t name with
    | error e =>
      simp only [hg, Prod.mk.injEq] at h
      obtain ⟨rfl, rfl, rfl⟩ := h
      refine ⟨by simp, by simp, by simp, ?_, fun q hq => Or.inl hq, fun q hq => Or.inl hq,
        by simp, by simp, by simp⟩
      intro q v hq hv
      exact absurd ((Dict.mem_keys_iff _ _).2 (by simp [hv])) hq
    | ok old =>
      simp only [hg] at h
      obtain ⟨t', ht'⟩ := (get_set_option t name v).2.2 ⟨old, hg⟩
      simp only [ht'] at h
      have hgs := (get_set_option t name v).1 t' ht'
      have hhas : ∀ q, HasOption t' q ↔ HasOption t q := by
        intro q
        by_cases hq : q = name
        · subst hq; simp [HasOption, hg, hgs.1]
        · simp [HasOption, hgs.2 q hq]
      have hd' : ∀ n ∈ ps.map (·.1), n ∉ Dict.keys (Dict.set orig name old) := by
        intro n hn' hmem
        rw [Dict.mem_keys_set] at hmem
        rcases hmem with rfl | hmem
        · exact hn.1 hn'
        · exact hd n (List.mem_cons_of_mem _ hn') hmem
      obtain ⟨i1, i2, i3, i4, i5, i6, i7, i8, i9⟩ :=
        ih t' (Dict.set orig name old) hn.2 hd' t1 o1 f h
      have hmem1 : name ∈ Dict.keys o1 := i7 name (by rw [Dict.mem_keys_set]; simp)
      refine ⟨fun q => (i1 q).trans (hhas q), ?_, ?_, ?_, ?_, ?_, ?_, ?_, ?_⟩
      · intro q hq
        rw [i2 q (by rw [Dict.mem_keys_set]; exact Or.inr hq)]
        have : name ≠ q := fun h => hname (h ▸ hq)
        rw [Dict.get?_set_ne _ _ this]
      · intro q hq
        have hne : q ≠ name := fun h => hq (h ▸ hmem1)
        rw [i3 q hq, hgs.2 q hne]
      · intro q w hq hw
        by_cases hqn : q = name
        · subst hqn
          rw [i2 q (by rw [Dict.mem_keys_set]; simp), Dict.get?_set_self] at hw
          cases hw; exact hg
        · have hq' : q ∉ Dict.keys (Dict.set orig name old) := by
            rw [Dict.mem_keys_set]; simp [hqn, hq]
          rw [← hgs.2 q hqn]; exact i4 q w hq' hw
      · intro q hq
        rcases i5 q hq with h' | h'
        · rw [Dict.mem_keys_set] at h'
          rcases h' with rfl | h'
          · exact Or.inr ⟨old, hg⟩
          · exact Or.inl h'
        · exact Or.inr ((hhas q).1 h')
      · intro q hq
        rcases i6 q hq with h' | h'
        · rw [Dict.mem_keys_set] at h'
          rcases h' with rfl | h'
          · exact Or.inr (by simp)
          · exact Or.inl h'
        · exact Or.inr (by simp only [List.map_cons, List.mem_cons]; exact Or.inr h')
      · intro q hq
        exact i7 q (by rw [Dict.mem_keys_set]; exact Or.inr hq)
      · intro hf q hq
        simp only [List.map_cons, List.mem_cons] at hq
        rcases hq with rfl | hq
        · exact hmem1
        · exact i8 hf q hq
      · intro hno
        exact i9 (Dict.nodup_keys_set _ _ _ hno)

/-- What `restore` does when all remembered options still exist. -/
theorem restore_spec (os : Dict (List String) V) (t : Tree V)
    (hn : (Dict.keys os).Nodup) (hex : ∀ q ∈ Dict.keys os, HasOption t q) :
    (restore t os).2 = false ∧
    (∀ q v, Dict.get? os q = some v → getOption (restore t os).1 q = .ok v) ∧
    (∀ q, q ∉ Dict.keys os → getOption (restore t os).1 q = getOption t q) := by
  induction os generalizing t with
  | nil => simp [restore]
  | cons e os ih =>
    obtain ⟨name, v⟩ := e
    simp only [Dict.keys, List.map_cons, List.nodup_cons] at hn
    obtain ⟨t', ht'⟩ := (get_set_option t name v).2.2 (hex name (by simp [Dict.keys]))
    have hgs := (get_set_option t name v).1 t' ht'
    have hex' : ∀ q ∈ Dict.keys os, HasOption t' q := by
      intro q hq
      by_cases hqn : q = name
      · subst hqn; exact ⟨v, hgs.1⟩
      · obtain ⟨w, hw⟩ := hex q (by simp only [Dict.keys, List.map_cons, List.mem_cons]; exact Or.inr hq)
        exact ⟨w, by rw [hgs.2 q hqn, hw]⟩
    obtain ⟨j1, j2, j3⟩ := ih t' hn.2 hex'
    simp only [restore, ht']
    refine ⟨j1, ?_, ?_⟩
    · intro q w hw
      rw [Dict.get?_cons] at hw
      by_cases hqn : name = q
      · subst hqn; simp at hw; subst hw
        rw [j3 name (by simpa [Dict.keys] using hn.1), hgs.1]
      · simp [hqn] at hw; exact j2 q w hw
    · intro q hq
      simp only [Dict.keys, List.map_cons, List.mem_cons, not_or] at hq
      rw [j3 q hq.2, hgs.2 q hq.1]

/-- Programs never remove an option. -/
theorem run_keeps (p : Prog V) (t : Tree V) (q : List String) (h : HasOption t q) :
    HasOption (run p t).1 q := by
  have hset : ∀ (t : Tree V) n v t', setOption t n v = .ok t' → HasOption t q → HasOption t' q := by
    intro t n v t' h1 h2
    have hgs := (get_set_option t n v).1 t' h1
    by_cases hq : q = n
    · subst hq; exact ⟨v, hgs.1⟩
    · obtain ⟨w, hw⟩ := h2; exact ⟨w, by rw [hgs.2 q hq, hw]⟩
  have hent : ∀ ps (t : Tree V) o, HasOption t q → HasOption (enter t ps o).1 q := by
    intro ps
    induction ps with
    | nil => intro t o h; exact h
    | cons e ps ih =>
      intro t o h
      obtain ⟨n, v⟩ := e
      simp only [enter]
      split
      · exact h
      · split
        · exact h
        · rename_i h1; exact ih _ _ (hset _ _ _ _ h1 h)
  have hres : ∀ (os : Dict (List String) V) (t : Tree V), HasOption t q →
      HasOption (restore t os).1 q := by
    intro os
    induction os with
    | nil => intro t h; exact h
    | cons e ps ih =>
      intro t h
      obtain ⟨n, v⟩ := e
      simp only [restore]
      split
      · exact h
      · rename_i h1; exact ih _ (hset _ _ _ _ h1 h)
  induction p generalizing t with
  | skip => exact h
  | raise => exact h
  | set n v =>
    simp only [run]; split
    · rename_i h1; exact hset _ _ _ _ h1 h
    · exact h
  | add n v =>
    simp only [run]; split
    · rename_i t' h1
      by_cases hn : n = []
      · subst hn; simp [addOption] at h1
      · by_cases hb : blockedAbove t n ∨ isCat t n = true
        · rw [(addOption_spec t n v hn).1 hb] at h1; simp at h1
        · obtain ⟨t2, h2, h3, _⟩ := (addOption_spec t n v hn).2 hb
          rw [h2] at h1; cases h1
          rw [hasOption_iff] at h ⊢
          rw [h3]; split
          · rfl
          · exact h
    · exact h
  | reset =>
    rw [hasOption_iff] at h ⊢
    simp only [run, entry_resetAll]; simpa using h
  | branch n test p q ihp ihq =>
    simp only [run]; split
    · split
      · exact ihp t h
      · exact ihq t h
    · exact h
  | seq p q ihp ihq =>
    simp only [run]
    split
    · exact ihp t h
    · exact ihq _ (ihp t h)
  | tryExcept p ih => exact ih t h
  | context ps body ih =>
    simp only [run, optionContext]
    apply hres
    split
    · exact hent _ _ _ h
    · exact ih _ (hent _ _ _ h)

/-- **C01 (partial: argument names pairwise distinct).**  Whatever the body does -
set, reset, register, nest contexts, raise or swallow exceptions - and also when
entering fails half way because some given name is invalid: every option that exists
before and is named in the arguments before the first invalid name has its old value
afterwards; when entering succeeds all named options do, and when it fails *every*
option does.  Missing for the full statement: repeated names (see
`option_context_duplicate_not_restored`). -/
theorem option_context_restores_partial (pairs : List (List String × V)) (body : Prog V)
    (t : Tree V) (hn : (pairs.map (·.1)).Nodup) :
    ((∀ q ∈ pairs.map (·.1), HasOption t q) →
      ∀ q ∈ pairs.map (·.1), getOption (run (.context pairs body) t).1 q = getOption t q) ∧
    ((∃ q ∈ pairs.map (·.1), ¬ HasOption t q) →
      (run (.context pairs body) t).2 = true ∧
      ∀ q, getOption (run (.context pairs body) t).1 q = getOption t q) := by
  rcases he : enter t pairs [] with ⟨t1, o1, f⟩
  obtain ⟨i1, i2, i3, i4, i5, i6, i7, i8, i9⟩ :=
    enter_spec pairs t [] hn (by simp [Dict.keys]) t1 o1 f he
  have hno : (Dict.keys o1).Nodup := i9 (by simp [Dict.keys])
  have hfail : ∀ (ps : List (List String × V)) (t : Tree V) o, (enter t ps o).2.2 = true →
      ∃ q ∈ ps.map (·.1), ¬ HasOption t q := by
    intro ps
    induction ps with
    | nil => intro t o h; simp [enter] at h
    | cons e ps ih =>
      intro t o h
      obtain ⟨n, v⟩ := e
      simp only [enter] at h
      cases hg : getOption t n with
      | error e => exact ⟨n, by simp, by simp [HasOption, hg]⟩
      | ok old =>
        obtain ⟨t', ht'⟩ := (get_set_option t n v).2.2 ⟨old, hg⟩
        simp only [hg, ht'] at h
        obtain ⟨q, hq, hq2⟩ := ih t' _ h
        refine ⟨q, by simp only [List.map_cons, List.mem_cons]; exact Or.inr hq, ?_⟩
        intro ⟨w, hw⟩
        apply hq2
        have hgs := (get_set_option t n v).1 t' ht'
        by_cases hqn : q = n
        · subst hqn; exact ⟨v, hgs.1⟩
        · exact ⟨w, by rw [hgs.2 q hqn, hw]⟩
  have hrun : run (.context pairs body) t =
      ((restore (if f then (t1, true) else run body t1).1 o1).1,
        (if f then (t1, true) else run body t1).2 ||
        (restore (if f then (t1, true) else run body t1).1 o1).2) := by
    simp only [run, optionContext, he]
  have hbody : ∀ q ∈ Dict.keys o1,
      HasOption (if f then (t1, true) else run body t1).1 q := by
    intro q hq
    have h1 : HasOption t q := by
      rcases i5 q hq with h | h
      · simp [Dict.keys] at h
      · exact h
    have h2 : HasOption t1 q := (i1 q).2 h1
    split
    · exact h2
    · exact run_keeps body t1 q h2
  obtain ⟨r1, r2, r3⟩ := restore_spec o1 _ hno hbody
  have old_of_mem : ∀ q ∈ Dict.keys o1, getOption
      (restore (if f then (t1, true) else run body t1).1 o1).1 q = getOption t q := by
    intro q hq
    obtain ⟨v, hv⟩ := Option.isSome_iff_exists.1 ((Dict.mem_keys_iff _ _).1 hq)
    rw [r2 q v hv, i4 q v (by simp [Dict.keys]) hv]
  constructor
  · intro hall q hq
    rw [hrun]
    have hf : f = false := by
      cases f with
      | false => rfl
      | true =>
        obtain ⟨q', hq', hq2⟩ := hfail pairs t [] (by simp [he])
        exact absurd (hall q' hq') hq2
    exact old_of_mem q (i8 hf q hq)
  · rintro ⟨q, hq, hq2⟩
    have hf : f = true := by
      cases f with
      | true => rfl
      | false =>
        rcases i5 q (i8 rfl q hq) with h | h
        · simp [Dict.keys] at h
        · exact absurd h hq2
    subst hf
    rw [hrun]
    refine ⟨by simp, ?_⟩
    intro q'
    by_cases hm : q' ∈ Dict.keys o1
    · exact old_of_mem q' hm
    · have := r3 q' hm
      simp only [if_true] at this ⊢
      rw [this, i3 q' hm]

/-- Non-vacuity of `option_context_restores_partial`: a context with two distinct
names whose body overwrites one of them and raises. -/
example : ∃ t, defaultOptions = .ok t ∧
    (run (.context [(["params", "statistics", "round"], 2),
        (["params", "statistics", "drop_zero"], 0)]
      (.seq (.set ["params", "statistics", "round"] 9) .raise)) t).2 = true ∧
    getOption (run (.context [(["params", "statistics", "round"], 2),
        (["params", "statistics", "drop_zero"], 0)]
      (.seq (.set ["params", "statistics", "round"] 9) .raise)) t).1
      ["params", "statistics", "round"] = .ok 5 :=
  ⟨_, rfl, rfl, rfl⟩

/-- **C01 fails for repeated names** (finding): `option_context(k, 1, k, 2)` remembers
the temporary value 1 as the "original" and leaves it behind, although nothing in the
block failed. -/
theorem option_context_duplicate_not_restored :
    ∃ (t : Tree Nat) (k : List String), getOption t k = .ok 5 ∧
      (run (.context [(k, 1), (k, 2)] .skip) t).2 = false ∧
      getOption (run (.context [(k, 1), (k, 2)] .skip) t).1 k = .ok 1 := by
  refine ⟨[("round", .opt 5 5)], ["round"], rfl, rfl, rfl⟩

end Verif.Options
