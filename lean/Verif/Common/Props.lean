import Mathlib.Data.List.Perm.Basic
import Mathlib.Data.List.Nodup
import Verif.Common.Model

/-!
# Properties of renamed keywords (C80) and of selections of snapshots (C81)
-/

namespace Verif.Common

/-! ## Renamed keywords: spec -/

section Kwargs

variable {K V : Type} [DecidableEq K]

/-- The table of renamed keywords has no chains: no new keyword is itself an old one. -/
def NoChain (al : Dict K K) : Prop := ∀ e ∈ al, e.2 ∉ Dict.keys al

/-- The keyword `new` is what `k` is called today: it is `k` itself, or `k` is an old
keyword that was renamed to it. -/
def Means (al : Dict K K) (k new : K) : Prop := (k, new) ∈ al ∨ k ∉ Dict.keys al ∧ new = k

/-- Two different keywords that mean the same parameter were both given. -/
def Conflict (al : Dict K K) (kw : Dict K V) : Prop :=
  ∃ a ∈ Dict.keys kw, ∃ b ∈ Dict.keys kw, a ≠ b ∧ ∃ n, Means al a n ∧ Means al b n

/-- `kw'` gives the parameter `n` the value `v` exactly if `kw` gave it to a keyword
that means `n`. -/
def Translates (al : Dict K K) (kw kw' : Dict K V) : Prop :=
  ∀ n v, Dict.get? kw' n = some v ↔ ∃ k, Means al k n ∧ Dict.get? kw k = some v

/-! ## Renamed keywords: proofs -/

/-- The name that a keyword stands for, as a function. -/
def newName (al : Dict K K) (k : K) : K := (Dict.get? al k).getD k

/-- The keywords as the user would write them today. -/
def translated (al : Dict K K) (kw : Dict K V) : Dict K V :=
  kw.map (fun e => (newName al e.1, e.2))

/-- One renaming. -/
def sub (old new k : K) : K := if k = old then new else k

theorem means_iff (al : Dict K K) (hn : (Dict.keys al).Nodup) (k n : K) :
    Means al k n ↔ n = newName al k := by
  unfold Means newName
  cases h : Dict.get? al k with
  | none =>
    have : k ∉ Dict.keys al := by rw [Dict.mem_keys_iff]; simp [h]
    have h2 : (k, n) ∉ al := fun hm => this (by
      simp only [Dict.keys]; exact List.mem_map_of_mem (f := (·.1)) hm)
    simp [this, h2]
  | some m =>
    have h1 : k ∈ Dict.keys al := by rw [Dict.mem_keys_iff]; simp [h]
    simp only [h1, not_true_eq_false, false_and, or_false, Option.getD_some]
    constructor
    · intro hm
      have := Dict.get?_of_mem hn hm
      rw [h] at this; exact (Option.some.inj this).symm
    · rintro rfl; exact Dict.mem_of_get? h

theorem erase_perm (kw : Dict K V) (old : K) (v : V) (hn : (Dict.keys kw).Nodup)
    (h : Dict.get? kw old = some v) : kw.Perm ((old, v) :: Dict.erase kw old) := by
  induction kw with
  | nil => simp at h
  | cons e kw ih =>
    obtain ⟨k, w⟩ := e
    simp only [Dict.keys, List.map_cons, List.nodup_cons] at hn
    rw [Dict.get?_cons] at h
    by_cases hk : k = old
    · subst hk
      simp only [if_true, Option.some.injEq] at h
      subst h
      have : Dict.erase ((k, w) :: kw) k = kw := by
        simp only [Dict.erase, List.filter_cons]
        simp only [ne_eq, not_true_eq_false, decide_false, Bool.false_eq_true, if_false]
        rw [List.filter_eq_self]
        intro e he
        simp only [ne_eq, decide_eq_true_eq]
        intro hh; exact hn.1 (by rw [← hh]; exact List.mem_map_of_mem he)
      rw [this]
    · simp only [hk, if_false] at h
      have : Dict.erase ((k, w) :: kw) old = (k, w) :: Dict.erase kw old := by
        simp [Dict.erase, hk]
      rw [this]
      exact ((ih hn.2 h).cons _).trans (List.Perm.swap _ _ _)

theorem set_new (d : Dict K V) (k : K) (v : V) (h : k ∉ Dict.keys d) :
    Dict.set d k v = d ++ [(k, v)] := by
  induction d with
  | nil => rfl
  | cons e d ih =>
    obtain ⟨k', v'⟩ := e
    simp only [Dict.keys, List.map_cons, List.mem_cons, not_or] at h
    simp only [Dict.set, if_neg (Ne.symm h.1), List.cons_append]
    rw [ih h.2]

/-- One step of the loop renames one keyword and moves it to the end. -/
theorem step_perm (kw : Dict K V) (old new : K) (v : V) (hn : (Dict.keys kw).Nodup)
    (h : Dict.get? kw old = some v) (hnew : new ∉ Dict.keys kw) :
    (Dict.set (Dict.erase kw old) new v).Perm (kw.map (fun e => (sub old new e.1, e.2))) := by
  have h1 : new ∉ Dict.keys (Dict.erase kw old) := by
    rw [Dict.mem_keys_iff, Dict.get?_erase]
    rw [Dict.mem_keys_iff] at hnew
    split <;> simp_all
  rw [set_new _ _ _ h1]
  have h2 : (Dict.erase kw old).map (fun e => (sub old new e.1, e.2)) = Dict.erase kw old := by
    conv_rhs => rw [← List.map_id (Dict.erase kw old)]
    apply List.map_congr_left
    intro e he
    simp only [Dict.erase, List.mem_filter, ne_eq, decide_eq_true_eq] at he
    simp [sub, he.2]
  have h3 := (erase_perm kw old v hn h).map (fun e => (sub old new e.1, e.2))
  rw [List.map_cons, h2] at h3
  refine (List.perm_append_comm.trans ?_).trans h3.symm
  simp [sub]

theorem newName_cons (al : Dict K K) (old new : K) (hc : new ∉ Dict.keys al)
    (k : K) : newName ((old, new) :: al) k = newName al (sub old new k) := by
  unfold newName sub
  rw [Dict.get?_cons]
  by_cases h : k = old
  · subst h
    have : Dict.get? al new = none := by
      rw [Dict.mem_keys_iff] at hc; simpa using hc
    simp [this]
  · simp [h, Ne.symm h]

theorem translated_cons (al : Dict K K) (old new : K) (hc : new ∉ Dict.keys al)
    (kw : Dict K V) : translated ((old, new) :: al) kw =
      translated al (kw.map (fun e => (sub old new e.1, e.2))) := by
  unfold translated
  rw [List.map_map]
  apply List.map_congr_left
  intro e _
  simp [newName_cons al old new hc]

theorem keys_perm {a b : Dict K V} (h : a.Perm b) :
    (Dict.keys a).Nodup ↔ (Dict.keys b).Nodup := (h.map _).nodup_iff

/-- The loop, for every table without chains: it succeeds exactly if the translated
keywords are pairwise different, and then has them as result, in some order. -/
theorem renameLoop_spec (al : Dict K K) (hc : NoChain al) (kw : Dict K V)
    (hk : (Dict.keys kw).Nodup) :
    (∀ kw', renameLoop al kw = .ok kw' → kw'.Perm (translated al kw) ∧ (Dict.keys kw').Nodup) ∧
      ((∃ kw', renameLoop al kw = .ok kw') ↔ (Dict.keys (translated al kw)).Nodup) ∧
      ((∃ kw', renameLoop al kw = .ok kw') ∨ renameLoop al kw = .error .both) := by
  induction al generalizing kw with
  | nil =>
    have : translated ([] : Dict K K) kw = kw := by simp [translated, newName]
    refine ⟨?_, ?_, Or.inl ⟨kw, rfl⟩⟩
    · intro kw' h; simp [renameLoop] at h; subst h; rw [this]; exact ⟨List.Perm.refl _, hk⟩
    · rw [this]; exact ⟨fun _ => hk, fun _ => ⟨kw, rfl⟩⟩
  | cons e al ih =>
    obtain ⟨old, new⟩ := e
    have hc' : NoChain al := fun e he hh => hc e (by simp [he]) (by
      simp only [Dict.keys, List.map_cons, List.mem_cons]; exact Or.inr hh)
    have hnk : new ∉ Dict.keys al := fun hh => hc (old, new) (by simp) (by
      simp only [Dict.keys, List.map_cons, List.mem_cons]; exact Or.inr hh)
    have hne : new ≠ old := by
      intro hh; exact hc (old, new) (by simp) (by simp [Dict.keys, hh])
    rw [translated_cons al old new hnk]
    cases hg : Dict.get? kw old with
    | none =>
      have h1 : kw.map (fun e => (sub old new e.1, e.2)) = kw := by
        conv_rhs => rw [← List.map_id kw]
        apply List.map_congr_left
        intro e he
        have : e.1 ≠ old := by
          intro hh
          have : old ∈ Dict.keys kw := by
            rw [← hh]; exact List.mem_map_of_mem he
          rw [Dict.mem_keys_iff] at this; simp [hg] at this
        simp [sub, this]
      rw [h1]
      simp only [renameLoop, hg]
      exact ih hc' kw hk
    | some v =>
      by_cases hnew : new ∈ Dict.keys kw
      · have hcont : Dict.contains kw new = true := by
          rw [Dict.mem_keys_iff] at hnew; exact hnew
        have hno : ¬ (Dict.keys (translated al
            (kw.map (fun e => (sub old new e.1, e.2))))).Nodup := by
          intro hh
          simp only [translated, Dict.keys, List.map_map] at hh
          have hinj := List.inj_on_of_nodup_map hh
          rw [Dict.mem_keys_iff, Option.isSome_iff_exists] at hnew
          obtain ⟨w, hw⟩ := hnew
          have := hinj (Dict.mem_of_get? hg) (Dict.mem_of_get? hw) (by
            simp [sub, hne])
          simp only [Prod.mk.injEq] at this
          exact hne this.1.symm
        simp only [renameLoop, hg, hcont, if_true]
        refine ⟨?_, ⟨?_, fun h => absurd h hno⟩, Or.inr trivial⟩
        · intro _ h; cases h
        · rintro ⟨_, h⟩; cases h
      · have hcont : Dict.contains kw new = false := by
          rw [Dict.mem_keys_iff] at hnew; simpa [Dict.contains] using hnew
        have hp := step_perm kw old new v hk hg hnew
        have hk1 : (Dict.keys (Dict.set (Dict.erase kw old) new v)).Nodup := by
          apply Dict.nodup_keys_set
          unfold Dict.keys Dict.erase at *
          exact (List.filter_sublist.map _).nodup hk
        have hpt : (translated al (Dict.set (Dict.erase kw old) new v)).Perm
            (translated al (kw.map (fun e => (sub old new e.1, e.2)))) := hp.map _
        obtain ⟨i1, i2, i3⟩ := ih hc' _ hk1
        simp only [renameLoop, hg, hcont, Bool.false_eq_true, if_false]
        exact ⟨fun kw' h => ⟨(i1 kw' h).1.trans hpt, (i1 kw' h).2⟩,
          i2.trans (keys_perm hpt), i3⟩

theorem conflict_iff (al : Dict K K) (hn : (Dict.keys al).Nodup) (kw : Dict K V)
    (hk : (Dict.keys kw).Nodup) :
    (Dict.keys (translated al kw)).Nodup ↔ ¬ Conflict al kw := by
  have h0 : Dict.keys (translated al kw) = (Dict.keys kw).map (newName al) := by
    simp [translated, Dict.keys]
  rw [h0]
  constructor
  · rintro h ⟨a, ha, b, hb, hab, n, h1, h2⟩
    rw [means_iff al hn] at h1 h2
    exact hab (List.inj_on_of_nodup_map h ha hb (h1.symm.trans h2))
  · intro h
    apply List.Nodup.map_on _ hk
    intro a ha b hb hab
    by_contra hne
    exact h ⟨a, ha, b, hb, hne, newName al a, (means_iff al hn _ _).2 rfl,
      (means_iff al hn _ _).2 hab⟩

/-- **C80.** For every table of renamed keywords without chains and every call: the call
raises exactly if two keywords were given that mean the same parameter, and otherwise
the function is called with each value under today's keyword and nothing else. -/
theorem rename_spec (al : Dict K K) (hn : (Dict.keys al).Nodup) (hc : NoChain al)
    (kw : Dict K V) (hk : (Dict.keys kw).Nodup) :
    (rename false al kw = .error .both ↔ Conflict al kw) ∧
      (¬ Conflict al kw → ∃ kw', rename false al kw = .ok kw' ∧ Translates al kw kw') := by
  obtain ⟨s1, s2, s3⟩ := renameLoop_spec al hc kw hk
  rw [conflict_iff al hn kw hk] at s2
  have hr : rename false al kw = renameLoop al kw := by simp [rename]
  rw [hr]
  constructor
  · constructor
    · intro h
      by_contra hcf
      obtain ⟨kw', h'⟩ := s2.2 hcf
      rw [h] at h'; cases h'
    · intro h
      rcases s3 with h' | h'
      · exact absurd h (s2.1 h')
      · exact h'
  · intro hcf
    obtain ⟨kw', h'⟩ := s2.2 hcf
    refine ⟨kw', h', ?_⟩
    obtain ⟨hp, hkn⟩ := s1 kw' h'
    intro n v
    constructor
    · intro hg
      have := hp.mem_iff.1 (Dict.mem_of_get? hg)
      simp only [translated, List.mem_map, Prod.mk.injEq] at this
      obtain ⟨e, he, h1, h2⟩ := this
      refine ⟨e.1, (means_iff al hn _ _).2 h1.symm, ?_⟩
      rw [← h2]; exact Dict.get?_of_mem hk he
    · rintro ⟨k, hm, hg⟩
      rw [means_iff al hn] at hm
      apply Dict.get?_of_mem hkn
      apply hp.mem_iff.2
      simp only [translated, List.mem_map, Prod.mk.injEq]
      exact ⟨(k, v), Dict.mem_of_get? hg, hm.symm, rfl⟩

theorem renameLoop_none (al : Dict K K) (kw : Dict K V)
    (h : ∀ k ∈ Dict.keys al, k ∉ Dict.keys kw) : renameLoop al kw = .ok kw := by
  induction al with
  | nil => rfl
  | cons e al ih =>
    obtain ⟨old, new⟩ := e
    have h1 := h old (by simp [Dict.keys])
    have h2 : Dict.get? kw old = none := by
      rw [Dict.mem_keys_iff] at h1; simpa using h1
    simp only [renameLoop, h2]
    exact ih (fun k hk => h k (by
      simp only [Dict.keys, List.map_cons, List.mem_cons]; exact Or.inr hk))

/-- **C80.** A call without an old keyword is passed on as it is, for every table. -/
theorem no_alias (al : Dict K K) (params : List K) (args : List V) (kw : Dict K V)
    (h : ∀ k ∈ Dict.keys al, k ∉ Dict.keys kw) :
    call false al params args kw = bind params args kw := by
  simp [call, rename, renameLoop_none al kw h]

/-- **C80.** No value is lost or doubled, for every table, with chains or without. -/
theorem values_kept (al : Dict K K) (kw kw' : Dict K V) (hk : (Dict.keys kw).Nodup)
    (h : renameLoop al kw = .ok kw') : (kw'.map (·.2)).Perm (kw.map (·.2)) := by
  induction al generalizing kw with
  | nil => simp [renameLoop] at h; subst h; exact List.Perm.refl _
  | cons e al ih =>
    obtain ⟨old, new⟩ := e
    simp only [renameLoop] at h
    cases hg : Dict.get? kw old with
    | none => rw [hg] at h; exact ih kw hk h
    | some v =>
      rw [hg] at h
      simp only at h
      split at h
      · cases h
      · rename_i hcont
        have hnew : new ∉ Dict.keys kw := by
          rw [Dict.mem_keys_iff]; simpa [Dict.contains] using hcont
        have hk1 : (Dict.keys (Dict.set (Dict.erase kw old) new v)).Nodup := by
          apply Dict.nodup_keys_set
          unfold Dict.keys Dict.erase at *
          exact (List.filter_sublist.map _).nodup hk
        refine (ih _ hk1 h).trans ?_
        have := (step_perm kw old new v hk hg hnew).map (fun e => e.2)
        simpa [List.map_map, Function.comp_def] using this

theorem keys_mem_get {d : Dict K V} {k : K} (h : k ∈ Dict.keys d) : ∃ v, Dict.get? d k = some v := by
  rw [Dict.mem_keys_iff, Option.isSome_iff_exists] at h; exact h

/-- **C80.** A call with an old keyword whose parameter is also given by position
raises, like the call with the new keyword does. -/
theorem positional_and_alias (al : Dict K K) (hn : (Dict.keys al).Nodup) (hc : NoChain al)
    (params : List K) (args : List V) (kw : Dict K V) (hk : (Dict.keys kw).Nodup)
    (old new : K) (ho : (old, new) ∈ al) (hg : old ∈ Dict.keys kw)
    (hp : new ∈ params.take args.length) : ∃ e, call false al params args kw = .error e := by
  obtain ⟨h1, h2⟩ := rename_spec al hn hc kw hk
  by_cases hcf : Conflict al kw
  · exact ⟨_, by simp [call, h1.2 hcf]; rfl⟩
  · obtain ⟨kw', hr, ht⟩ := h2 hcf
    obtain ⟨v, hv⟩ := keys_mem_get hg
    have hnew : Dict.get? kw' new = some v := (ht new v).2 ⟨old, Or.inl ho, hv⟩
    simp only [call, hr, bind]
    split
    · exact ⟨_, rfl⟩
    · rw [if_pos]
      · exact ⟨_, rfl⟩
      · rw [List.any_eq_true]
        exact ⟨new, hp, by simp [Dict.contains, hnew]⟩

theorem keys_of_get (a b : Dict K V) (h : ∀ k, Dict.get? a k = Dict.get? b k) (k : K) :
    k ∈ Dict.keys a ↔ k ∈ Dict.keys b := by
  rw [Dict.mem_keys_iff, Dict.mem_keys_iff, h]

theorem bind_congr (params : List K) (args : List V) (a b : Dict K V)
    (h : ∀ k, Dict.get? a k = Dict.get? b k) : bind params args a = bind params args b := by
  have hc : ∀ p, Dict.contains a p = Dict.contains b p := fun p => by simp [Dict.contains, h]
  have hk : (Dict.keys a).any (fun k => decide (k ∉ params)) =
      (Dict.keys b).any (fun k => decide (k ∉ params)) := by
    rw [Bool.eq_iff_iff, List.any_eq_true, List.any_eq_true]
    constructor
    · rintro ⟨k, h1, h2⟩; exact ⟨k, (keys_of_get a b h k).1 h1, h2⟩
    · rintro ⟨k, h1, h2⟩; exact ⟨k, (keys_of_get a b h k).2 h1, h2⟩
  unfold bind
  rw [hk]
  simp only [hc, h]

/-- **C80.** The call with an old keyword is the call with the new one: whatever
positional arguments and whatever other keywords are given. -/
theorem alias_call (al : Dict K K) (hn : (Dict.keys al).Nodup) (hc : NoChain al)
    (params : List K) (args : List V) (kw : Dict K V) (hk : (Dict.keys kw).Nodup)
    (old new : K) (v : V) (ho : (old, new) ∈ al) (hkw : ∀ k ∈ Dict.keys al, k ∉ Dict.keys kw)
    (hnew : new ∉ Dict.keys kw) :
    call false al params args (kw ++ [(old, v)]) = call false al params args (kw ++ [(new, v)]) := by
  have holdk : old ∈ Dict.keys al := List.mem_map_of_mem (f := (·.1)) ho
  have hold : old ∉ Dict.keys kw := hkw old holdk
  have happ : ∀ k w, k ∉ Dict.keys kw → ∀ q,
      Dict.get? (kw ++ [(k, w)]) q = if q = k then some w else Dict.get? kw q := by
    intro k w hkk q
    rw [← set_new kw k w hkk, Dict.get?_set]
    simp only [eq_comm]
  have hnd : ∀ (k : K) (w : V), k ∉ Dict.keys kw → (Dict.keys (kw ++ [(k, w)])).Nodup := by
    intro k w hkk
    rw [← set_new kw k w hkk]; exact Dict.nodup_keys_set _ _ _ hk
  have hmem : ∀ (k : K) (w : V) q, q ∈ Dict.keys (kw ++ [(k, w)]) ↔ q ∈ Dict.keys kw ∨ q = k := by
    intro k w q; simp [Dict.keys]
  have hnewal : new ∉ Dict.keys al := hc _ ho
  -- the right-hand side has no old keyword
  rw [no_alias al params args (kw ++ [(new, v)]) (by
    intro k hk1 hk2
    rcases (hmem new v k).1 hk2 with h | h
    · exact hkw k hk1 h
    · subst h; exact hnewal hk1)]
  obtain ⟨-, h2⟩ := rename_spec al hn hc (kw ++ [(old, v)]) (hnd old v hold)
  have hother : ∀ k ∈ Dict.keys kw, ∀ n, Means al k n → n = k := by
    intro k hk1 n hm
    rcases hm with hm | hm
    · exact absurd hk1 (hkw k (List.mem_map_of_mem (f := (·.1)) hm))
    · exact hm.2
  have holdm : ∀ n, Means al old n → n = new := by
    intro n hm
    rw [means_iff al hn] at hm
    have := (means_iff al hn old new).1 (Or.inl ho)
    rw [hm, this]
  have hcf : ¬ Conflict al (kw ++ [(old, v)]) := by
    rintro ⟨a, ha, b, hb, hab, n, ma, mb⟩
    rcases (hmem old v a).1 ha with ha' | ha' <;> rcases (hmem old v b).1 hb with hb' | hb'
    · exact hab ((hother a ha' n ma).symm.trans (hother b hb' n mb))
    · have e1 := hother a ha' n ma
      have e2 := holdm n (by rw [← hb']; exact mb)
      exact hnew (by rw [← e2, e1]; exact ha')
    · have e1 := hother b hb' n mb
      have e2 := holdm n (by rw [← ha']; exact ma)
      exact hnew (by rw [← e2, e1]; exact hb')
    · exact hab (ha'.trans hb'.symm)
  obtain ⟨kw', hr, ht⟩ := h2 hcf
  simp only [call, hr]
  apply bind_congr
  intro q
  apply Option.ext
  intro w
  rw [ht q w, happ new v hnew q]
  constructor
  · rintro ⟨k, hm, hg⟩
    rw [happ old v hold] at hg
    by_cases hko : k = old
    · subst hko
      have := holdm q hm
      simp only [if_true] at hg
      simp [this, hg]
    · simp only [hko, if_false] at hg
      have hkk : k ∈ Dict.keys kw := by rw [Dict.mem_keys_iff]; simp [hg]
      have e := hother k hkk q hm
      subst e
      rw [if_neg (fun hh => hnew (by rw [← hh]; exact hkk))]; exact hg
  · intro hg
    by_cases hqn : q = new
    · subst hqn
      simp only [if_true] at hg
      exact ⟨old, Or.inl ho, by rw [happ old v hold]; simpa using hg⟩
    · simp only [hqn, if_false] at hg
      have hkk : q ∈ Dict.keys kw := by rw [Dict.mem_keys_iff]; simp [hg]
      refine ⟨q, Or.inr ⟨fun hh => hkw q hh hkk, rfl⟩, ?_⟩
      rw [happ old v hold, if_neg (fun hh => hold (by rw [← hh]; exact hkk))]; exact hg

/-- The decorator checks its own version at every call: with one from the future, calls
that use no old keyword raise as well. -/
theorem future_raises (al : Dict K K) (params : List K) (args : List V) (kw : Dict K V) :
    call true al params args kw = .error .valueError := rfl

end Kwargs

namespace Demo

/-- The table of `pypsa/plot/maps/static.py` 1305-1312 in small. -/
def norms : Dict String String :=
  [("bus_norm", "bus_cmap_norm"), ("line_norm", "line_cmap_norm")]

def given : Dict String Nat := [("bus_norm", 1), ("alpha", 2)]

example : (Dict.keys norms).Nodup ∧ NoChain norms ∧ (Dict.keys given).Nodup ∧
    ¬ Conflict norms given := by
  refine ⟨by decide +kernel, ?_, by decide +kernel, ?_⟩
  · unfold NoChain; decide +kernel
  · rw [← conflict_iff norms (by decide +kernel) given (by decide +kernel)]
    decide +kernel

example : rename false norms given = .ok [("alpha", 2), ("bus_cmap_norm", 1)] := by
  decide +kernel

example : rename false norms [("bus_norm", 1), ("bus_cmap_norm", 2)] = .error .both := by
  decide +kernel

/-- With a chain the order of the table decides: here `a` ends as `c` ... -/
theorem chain_followed :
    rename false [("a", "b"), ("b", "c")] [("a", 1)] = .ok [("c", 1)] := by decide +kernel

/-- ... and here as `b`, which the table says is an old keyword.  So `NoChain` is needed
in `rename_spec`. -/
theorem chain_not_followed :
    rename false [("b", "c"), ("a", "b")] [("a", 1)] = .ok [("b", 1)] := by decide +kernel

/-- The hypotheses of `alias_call` and `positional_and_alias`: `f(n, network=...)`. -/
example : ("network", "n") ∈ [("network", "n")] ∧ "n" ∈ (["n", "c"] : List String).take 1 := by
  decide +kernel

end Demo

/-! ## Selections of snapshots (C81) -/

section Index

variable {L N : Type} [DecidableEq L]

/-- The labels that the caller asked for. -/
def Values.asked (attr : Index N L) : Values N L → List (List L)
  | .none => attr.labels
  | .multi i => i.labels
  | .flat i => i.labels
  | .scalar l => [[l]]
  | .list l => l.map (fun x => [x])

/-- A MultiIndex or an index handed over has labels of its own levels. -/
def Values.WF : Values N L → Prop
  | .multi i => i.WF
  | .flat i => i.WF ∧ i.names.length = 1
  | _ => True

/-- **C81.** Without values the index of the network itself is returned. -/
theorem asIndex_none (attr : Index N L) (force : Bool) :
    ∃ o, asIndex attr .none force = some o ∧ o.result = attr := by
  refine ⟨⟨attr, none⟩, ?_, rfl⟩
  simp [asIndex, pick]

/-- **C81.** What is returned are the labels asked for, in the order given, as often as
given, named like the network's levels. -/
theorem asIndex_labels (attr : Index N L) (v : Values N L) (force : Bool) (o : Outcome N L)
    (h : asIndex attr v force = some o) :
    o.result.labels = v.asked attr ∧ o.result.names <+: attr.names := by
  unfold asIndex at h
  split at h
  · cases h
  · rename_i o' hp
    split at h
    · cases h
    · simp only [Option.some.injEq] at h
      subst h
      cases v with
      | none => simp [pick] at hp; subst hp; exact ⟨rfl, List.prefix_refl _⟩
      | multi i =>
        simp only [pick] at hp
        split at hp
        · simp only [Option.some.injEq] at hp; subst hp; exact ⟨rfl, List.prefix_refl _⟩
        · cases hp
      | flat i => simp [pick] at hp; subst hp; exact ⟨rfl, List.take_prefix _ _⟩
      | scalar l => simp [pick] at hp; subst hp; exact ⟨rfl, List.take_prefix _ _⟩
      | list l => simp [pick] at hp; subst hp; exact ⟨rfl, List.take_prefix _ _⟩

/-- **C81.** For every index of the network and everything asked for, if it is not empty:
the call is accepted exactly if each label asked for is one of the network's. -/
theorem asIndex_accepts (attr : Index N L) (ha : attr.WF) (v : Values N L) (hv : v.WF)
    (hne : v.asked attr ≠ []) :
    (∃ o, asIndex attr v true = some o) ↔ ∀ l ∈ v.asked attr, l ∈ attr.labels := by
  have key : ∀ o, pick attr v = some o → o.result.labels = v.asked attr →
      ((∃ o, asIndex attr v true = some o) ↔ ∀ l ∈ v.asked attr, l ∈ attr.labels) := by
    intro o hp hl
    unfold asIndex
    rw [hp]
    simp only [Bool.true_and, hl]
    by_cases hall : ∀ l ∈ v.asked attr, l ∈ attr.labels
    · have h1 : (v.asked attr).all (fun l => decide (l ∈ attr.labels)) = true := by
        rw [List.all_eq_true]; intro l h; simpa using hall l h
      rw [h1]
      simp only [Bool.not_true, Bool.false_eq_true, if_false, iff_true_intro hall, iff_true]
      exact ⟨o, rfl⟩
    · have h1 : (v.asked attr).all (fun l => decide (l ∈ attr.labels)) = false := by
        rw [Bool.eq_false_iff, ne_eq, List.all_eq_true]
        intro hh; exact hall (fun l h => by simpa using hh l h)
      rw [h1]
      simp only [Bool.not_false, if_true, hall, iff_false]
      rintro ⟨_, h⟩; cases h
  cases v with
  | none => exact key _ rfl rfl
  | flat i => exact key _ rfl rfl
  | scalar l => exact key _ rfl rfl
  | list l => exact key _ rfl rfl
  | multi i =>
    by_cases hlen : i.names.length = attr.names.length
    · exact key _ (by simp only [pick, hlen, if_true]; rfl) rfl
    · have : asIndex attr (.multi i) true = none := by simp [asIndex, pick, hlen]
      rw [this]
      constructor
      · rintro ⟨_, h⟩; cases h
      · intro hall
        obtain ⟨l, hl⟩ := List.exists_mem_of_ne_nil _ hne
        exact absurd ((hv l hl).symm.trans (ha l (hall l hl))) hlen

/-- **C81.** With `force_subset=False` labels are not looked at. -/
theorem asIndex_unforced (attr : Index N L) (v : Values N L) :
    (∃ o, asIndex attr v false = some o) ↔
      ∀ i, v = .multi i → i.names.length = attr.names.length := by
  cases v with
  | multi i =>
    by_cases h : i.names.length = attr.names.length <;> simp [asIndex, pick, h]
  | _ => simp [asIndex, pick]

/-- A list of timesteps is never accepted by a network with investment periods, unless
it is empty. -/
theorem timesteps_refused (attr : Index N L) (ha : attr.WF) (h2 : attr.names.length = 2)
    (l : List L) (hl : l ≠ []) : asIndex attr (.list l) true = none := by
  have h := asIndex_accepts attr ha (.list l) trivial (by simp [Values.asked, hl])
  cases he : asIndex attr (.list l) true with
  | none => rfl
  | some o =>
    have := h.1 ⟨o, he⟩
    obtain ⟨x, hx⟩ := List.exists_mem_of_ne_nil l hl
    have hm := ha _ (this [x] (by simp [Values.asked, hx]))
    simp [h2] at hm

/-- An index object that the caller passes gets the names of the network's levels: the
caller's own object is changed. -/
theorem argument_renamed (attr : Index N L) (i : Index N L) (force : Bool) (o : Outcome N L)
    (h : asIndex attr (.flat i) force = some o) :
    o.caller = some ⟨attr.names.take 1, i.labels⟩ := by
  unfold asIndex at h
  simp only [pick] at h
  split at h
  · cases h
  · simp only [Option.some.injEq] at h; subst h; rfl

end Index

namespace Demo

def hours : Index String Nat := ⟨["snapshot"], [[0], [1], [2]]⟩
def periods : Index String Nat := ⟨["period", "timestep"], [[2020, 0], [2020, 1], [2030, 0]]⟩

example : hours.WF ∧ periods.WF ∧ (Values.list [2, 0] : Values String Nat).asked hours ≠ [] := by
  unfold Index.WF hours periods
  exact ⟨by decide, by decide, by decide⟩

example : (asIndex hours (.list [2, 0]) true).map (·.result.labels) = some [[2], [0]] := by decide
example : (asIndex hours (.scalar 1) true).map (·.result.labels) = some [[1]] := by decide
example : (asIndex hours (.list [2, 5]) true).map (·.result.labels) = none := by decide
example : (asIndex periods (.multi ⟨["a", "b"], [[2030, 0]]⟩) true).map (·.result.names) =
    some ["period", "timestep"] := by decide

/-- A label may be asked for twice; it is then optimised or solved twice. -/
theorem repeated_accepted :
    (asIndex hours (.list [0, 0]) true).map (·.result.labels) = some [[0], [0]] := by decide

/-- The caller's index named `time` is called `snapshot` afterwards. -/
theorem caller_renamed :
    (asIndex hours (.flat ⟨["time"], [[1]]⟩) true).bind (·.caller.map (·.names)) =
      some ["snapshot"] := by decide

end Demo

end Verif.Common
