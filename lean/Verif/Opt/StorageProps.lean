import Verif.Opt.Storage
import Mathlib.Tactic.Linarith
import Mathlib.Tactic.Ring
import Mathlib.Tactic.LinearCombination
import Mathlib.Tactic.FieldSimp
import Mathlib.Data.Rat.Defs
import Mathlib.Algebra.Order.Ring.Rat

/-!
# Storage energy balance (C46, C47)
-/

namespace Verif.Opt

variable {F : Type} [Field F] [LinearOrder F]

/-! ## Specification -/

/-- `s` is the latest snapshot before `t` with `ok`. -/
def PrevIn (ok : Nat → Prop) (t s : Nat) : Prop := s < t ∧ ok s ∧ ∀ r, s < r → r < t → ¬ ok r

/-- `s` is the last snapshot of the horizon with `ok`. -/
def LastIn (ok : Nat → Prop) (n s : Nat) : Prop := s < n ∧ ok s ∧ ∀ r, s < r → r < n → ¬ ok r

/-- The balance of a storage with level `x`, retention `keep` and net gain `gain`: every active
snapshot starts from the previous level in its horizon `ok` (all active snapshots, or those of the
same period); where there is none, a cyclic storage continues from the last level of the horizon,
any other one from the initial level. -/
def Balanced (active : Nat → Bool) (samePeriod : Nat → Nat → Prop) (cyclic : Bool) (initial : F)
    (keep x gain : Nat → F) (n : Nat) : Prop :=
  ∀ t < n, active t = true →
    (∀ s, PrevIn (fun s => active s = true ∧ samePeriod s t) t s → x t = keep t * x s + gain t) ∧
    ((¬ ∃ s, PrevIn (fun s => active s = true ∧ samePeriod s t) t s) →
      if cyclic then
        ∀ s, LastIn (fun s => active s = true ∧ samePeriod s t) n s → x t = keep t * x s + gain t
      else x t = initial + gain t)

/-! ## Labels -/

theorem ffill_some {α : Type} (f : Nat → Option α) (t : Nat) (x : α) :
    ffill f t = some x ↔ ∃ s ≤ t, f s = some x ∧ ∀ r, s < r → r ≤ t → f r = none := by
  induction t with
  | zero =>
    simp only [ffill]
    constructor
    · intro h; exact ⟨0, le_rfl, h, fun r h1 h2 => by omega⟩
    · rintro ⟨s, hs, h, -⟩
      obtain rfl : s = 0 := by omega
      exact h
  | succ t ih =>
    unfold ffill
    cases hf : f (t + 1) with
    | some y =>
      simp only
      constructor
      · intro h; exact ⟨t + 1, le_rfl, by rw [hf, h], fun r h1 h2 => by omega⟩
      · rintro ⟨s, hs, h, hn⟩
        by_cases e : s = t + 1
        · rw [← h, e, hf]
        · have := hn (t + 1) (by omega) le_rfl
          rw [hf] at this; cases this
    | none =>
      simp only [ih]
      constructor
      · rintro ⟨s, hs, h, hn⟩
        refine ⟨s, by omega, h, fun r h1 h2 => ?_⟩
        by_cases e : r = t + 1
        · rw [e, hf]
        · exact hn r h1 (by omega)
      · rintro ⟨s, hs, h, hn⟩
        have : s ≠ t + 1 := by rintro rfl; rw [hf] at h; cases h
        exact ⟨s, by omega, h, fun r h1 h2 => hn r h1 (by omega)⟩

theorem ffill_none {α : Type} (f : Nat → Option α) (t : Nat) :
    ffill f t = none ↔ ∀ s ≤ t, f s = none := by
  induction t with
  | zero => simp [ffill]
  | succ t ih =>
    unfold ffill
    cases hf : f (t + 1) with
    | some y =>
      simp only [reduceCtorEq, false_iff, not_forall]
      exact ⟨t + 1, le_rfl, by simp [hf]⟩
    | none =>
      simp only [ih]
      constructor
      · intro h s hs
        by_cases e : s = t + 1
        · rw [e, hf]
        · exact h s (by omega)
      · intro h s hs; exact h s (by omega)

def lab (active : Nat → Bool) (s : Nat) : Option Nat := if active s then some s else none

theorem lab_some {active : Nat → Bool} {s x : Nat} :
    lab active s = some x ↔ active s = true ∧ s = x := by
  unfold lab; split <;> simp_all

theorem lab_none {active : Nat → Bool} {s : Nat} : lab active s = none ↔ active s = false := by
  unfold lab; split <;> simp_all

/-- The chained label operations give the latest earlier active snapshot. -/
theorem labels_prev (active : Nat → Bool) (n t s : Nat) (h : PrevIn (fun s => active s = true) t s) :
    ffill (roll n (ffill (lab active))) t = some s := by
  obtain ⟨h1, h2, h3⟩ := h
  rw [ffill_some]
  refine ⟨t, le_rfl, ?_, fun r a b => by omega⟩
  obtain ⟨u, rfl⟩ : ∃ u, t = u + 1 := ⟨t - 1, by omega⟩
  simp only [roll]
  rw [ffill_some]
  refine ⟨s, by omega, by simp [lab, h2], fun r a b => ?_⟩
  rw [lab_none]
  simpa using h3 r a (by omega)

/-- Where there is no earlier one, they give the last active snapshot. -/
theorem labels_wrap (active : Nat → Bool) (n t s : Nat)
    (hno : ∀ r < t, active r = false) (h : LastIn (fun s => active s = true) n s) :
    ffill (roll n (ffill (lab active))) t = some s := by
  obtain ⟨h1, h2, h3⟩ := h
  rw [ffill_some]
  refine ⟨0, by omega, ?_, fun r a b => ?_⟩
  · simp only [roll]
    rw [ffill_some]
    refine ⟨s, by omega, by simp [lab, h2], fun r a b => ?_⟩
    rw [lab_none]
    simpa using h3 r a (by omega)
  · obtain ⟨u, rfl⟩ : ∃ u, r = u + 1 := ⟨r - 1, by omega⟩
    simp only [roll]
    rw [ffill_none]
    intro q hq
    rw [lab_none]
    exact hno q (by omega)

theorem prevIn_or (ok : Nat → Prop) (t : Nat) :
    (∃ s, PrevIn ok t s) ∨ ∀ r < t, ¬ ok r := by
  classical
  induction t with
  | zero => right; intro r h; omega
  | succ t ih =>
    by_cases h : ok t
    · left; exact ⟨t, by omega, h, fun r a b => by omega⟩
    · rcases ih with ⟨s, a, b, c⟩ | hn
      · left
        refine ⟨s, by omega, b, fun r h1 h2 => ?_⟩
        by_cases e : r = t
        · subst e; exact h
        · exact c r h1 (by omega)
      · right
        intro r hr
        by_cases e : r = t
        · subst e; exact h
        · exact hn r (by omega)

theorem lastIn_exists (ok : Nat → Prop) (n t : Nat) (ht : t < n) (hok : ok t) :
    ∃ s, LastIn ok n s := by
  rcases prevIn_or ok n with ⟨s, a, b, c⟩ | h
  · exact ⟨s, a, b, c⟩
  · exact absurd hok (h t ht)

theorem cumActive_first (active : Nat → Bool) (t : Nat) (ha : active t = true) :
    cumActive active t = 1 ↔ ∀ r < t, active r = false := by
  unfold cumActive
  rw [List.range_succ, List.filter_append, List.length_append]
  simp only [List.filter_cons, ha, if_true, List.filter_nil, List.length_cons, List.length_nil]
  constructor
  · intro h r hr
    have : (List.range t).filter active = [] := List.length_eq_zero_iff.mp (by omega)
    rw [List.filter_eq_nil_iff] at this
    simpa using this r (List.mem_range.mpr hr)
  · intro h
    have : (List.range t).filter active = [] := by
      rw [List.filter_eq_nil_iff]
      intro r hr
      simp [h r (List.mem_range.mp hr)]
    rw [this]; rfl

/-- Without division into periods: what `previous` and `included` are. -/
theorem previous_whole (a : Storage F) (w : Window) (hpp : perPeriod a w = false) (t : Nat)
    (ht : t < w.len) (ha : a.active t = true) :
    (∀ s, PrevIn (fun s => a.active s = true) t s →
      previous a w t = some s ∧ included a w t = true) ∧
    ((¬ ∃ s, PrevIn (fun s => a.active s = true) t s) →
      if a.cyclic then ∀ s, LastIn (fun s => a.active s = true) w.len s →
        previous a w t = some s ∧ included a w t = true
      else previous a w t = none ∧ included a w t = false) := by
  unfold previous included prevLabel
  rw [hpp]
  simp only [Bool.false_eq_true, if_false]
  constructor
  · intro s hs
    have hi : includePrev a t = true := by
      unfold includePrev
      rw [Bool.or_eq_true]
      right
      simp only [decide_eq_true_eq]
      rw [ne_eq, cumActive_first _ _ ha]
      intro h
      have := h s hs.1
      rw [hs.2.1] at this; cases this
    rw [hi]
    exact ⟨by rw [if_pos rfl]; exact labels_prev a.active w.len t s hs, rfl⟩
  · intro hno
    have hn : ∀ r < t, a.active r = false := by
      rcases prevIn_or (fun s => a.active s = true) t with h | h
      · exact absurd h hno
      · intro r hr; simpa using h r hr
    cases hc : a.cyclic with
    | true =>
      simp only [if_true]
      intro s hs
      have hi : includePrev a t = true := by simp [includePrev, hc]
      rw [hi]
      exact ⟨by rw [if_pos rfl]; exact labels_wrap a.active w.len t s hn hs, rfl⟩
    | false =>
      have hi : includePrev a t = false := by
        simp [includePrev, hc, (cumActive_first a.active t ha).mpr hn]
      rw [hi]
      simp

/-- The snapshots of a period are consecutive, and activity depends on the period only. -/
def Regular (active : Nat → Bool) (w : Window) : Prop :=
  (∀ i j k, i ≤ j → j ≤ k → k < w.len → w.period i = w.period k → w.period j = w.period i) ∧
  (∀ i j, i < w.len → j < w.len → w.period i = w.period j → active i = active j)

theorem lastOf_spec (w : Window) (t : Nat) (ht : t < w.len) :
    LastIn (fun s => w.period s = w.period t) w.len (lastOf w t) := by
  unfold lastOf
  have key : ∀ n, t < n → LastIn (fun s => w.period s = w.period t) n
      (((List.range n).filter (fun s => decide (w.period s = w.period t))).getLastD t) := by
    intro n hn
    induction n with
    | zero => omega
    | succ n ih =>
      rw [List.range_succ, List.filter_append]
      by_cases hp : w.period n = w.period t
      · simp only [List.filter_cons, hp, decide_true, if_true, List.filter_nil,
          List.getLastD_concat]
        exact ⟨by omega, hp, fun r a b => by omega⟩
      · simp only [List.filter_cons, hp, decide_false, Bool.false_eq_true, if_false, List.filter_nil,
          List.append_nil]
        have htn : t < n := by
          by_contra hh
          have : t = n := by omega
          subst this; exact hp rfl
        obtain ⟨a, b, c⟩ := ih htn
        refine ⟨by omega, b, fun r h1 h2 => ?_⟩
        by_cases e : r = n
        · subst e; exact hp
        · exact c r h1 (by omega)
  exact key w.len ht

/-- With division into periods. -/
theorem previous_perPeriod (a : Storage F) (w : Window) (hreg : Regular a.active w)
    (hpp : perPeriod a w = true) (t : Nat) (ht : t < w.len) (ha : a.active t = true) :
    (∀ s, PrevIn (fun s => a.active s = true ∧ w.period s = w.period t) t s →
      previous a w t = some s ∧ included a w t = true) ∧
    ((¬ ∃ s, PrevIn (fun s => a.active s = true ∧ w.period s = w.period t) t s) →
      if a.cyclic then
        ∀ s, LastIn (fun s => a.active s = true ∧ w.period s = w.period t) w.len s →
          previous a w t = some s ∧ included a w t = true
      else previous a w t = none ∧ included a w t = false) := by
  obtain ⟨hcons, hact⟩ := hreg
  unfold previous included
  rw [hpp]
  simp only [if_true]
  constructor
  · rintro s ⟨h1, ⟨h2, h3⟩, h4⟩
    obtain ⟨u, rfl⟩ : ∃ u, t = u + 1 := ⟨t - 1, by omega⟩
    have hpu : w.period u = w.period (u + 1) := by
      rw [← h3]; exact hcons s u (u + 1) (by omega) (by omega) ht h3
    have hau : a.active u = true := by rw [hact u (u + 1) (by omega) ht hpu, ha]
    have hsu : s = u := by
      by_contra hne
      exact h4 u (by omega) (by omega) ⟨hau, hpu⟩
    subst hsu
    have hi : includePrevPP a w (s + 1) = true := by simp [includePrevPP, ha, hpu]
    rw [hi]
    simp [prevLabelPP, hpu, hau]
  · intro hno
    have hfirst : t = 0 ∨ ∃ u, t = u + 1 ∧ w.period u ≠ w.period (u + 1) := by
      cases t with
      | zero => exact Or.inl rfl
      | succ u =>
        refine Or.inr ⟨u, rfl, fun hpu => hno ⟨u, by omega, ⟨?_, hpu⟩, fun r a b => by omega⟩⟩
        rw [hact u (u + 1) (by omega) ht hpu, ha]
    cases hc : a.cyclic with
    | true =>
      simp only [if_true]
      intro s hs
      have hi : includePrevPP a w t = true := by simp [includePrevPP, hc]
      rw [hi]
      have hlast := lastOf_spec w t ht
      have hal : a.active (lastOf w t) = true := by
        rw [hact (lastOf w t) t hlast.1 ht hlast.2.1, ha]
      have hsl : s = lastOf w t := by
        rcases Nat.lt_trichotomy s (lastOf w t) with h | h | h
        · exact absurd ⟨hal, hlast.2.1⟩ (hs.2.2 _ h hlast.1)
        · exact h
        · exact absurd hs.2.1.2 (hlast.2.2 _ h hs.1)
      subst hsl
      refine ⟨?_, rfl⟩
      rcases hfirst with rfl | ⟨u, rfl, hne⟩
      · simp [prevLabelPP, hal]
      · simp [prevLabelPP, hal, hne]
    | false =>
      have hi : includePrevPP a w t = false := by
        rcases hfirst with rfl | ⟨u, rfl, hne⟩
        · simp [includePrevPP, hc]
        · simp [includePrevPP, hc, hne]
      rw [hi]
      simp

/-! ## Rows -/

section rows
variable [IsStrictOrderedRing F]

omit [IsStrictOrderedRing F] in
theorem store_row {a : Storage F} {w : Window} {val : EVar → F}
    (h : Feasible val (storeCons a w)) (t : Nat) (ht : t < w.len) (ha : a.active t = true) :
    val (.e t) = (match previous a w t with | some s => a.keep t * val (.e s) | none => 0) +
      (if included a w t then 0 else a.initial) + (- (a.eh t * val (.p t))) := by
  unfold storeCons at h
  rw [feasible_flatMap] at h
  have := h t (List.mem_range.mpr ht)
  simp only [ha, if_true, feasible_cons, feasible_nil, and_true, Con.holds, lin_append, lin_cons,
    lin_nil] at this
  have e : (if included a w t = true then (0 : F) else - a.initial) =
      - (if included a w t = true then 0 else a.initial) := by split <;> simp
  rw [e] at this
  cases hp : previous a w t <;> simp only [hp, lin_cons, lin_nil] at this ⊢ <;>
    linear_combination -this

omit [IsStrictOrderedRing F] in
theorem storageUnit_row {a : StorUnit F} {w : Window} {val : SVar → F}
    (h : Feasible val (storageUnitCons a w)) (t : Nat) (ht : t < w.len) (ha : a.active t = true) :
    val (.soc t) =
      (match previous a.toStorage w t with | some s => a.keep t * val (.soc s) | none => 0) +
      (if included a.toStorage w t then 0 else a.initial) +
      a.eh t * (a.effStore t * val (.pStore t) - val (.pDispatch t) / a.effDispatch t + a.inflow t -
        (if 0 < a.inflow t then val (.spill t) else 0)) := by
  unfold storageUnitCons at h
  rw [feasible_flatMap] at h
  have := h t (List.mem_range.mpr ht)
  simp only [ha, if_true, feasible_cons, feasible_nil, and_true, Con.holds, lin_append, lin_cons,
    lin_nil] at this
  have e : lin val (if hasSpill a t = true then [(- a.eh t, SVar.spill t)] else []) =
      - (a.eh t * (if 0 < a.inflow t then val (.spill t) else 0)) := by
    by_cases hi : 0 < a.inflow t <;> simp [hasSpill, ha, hi]
  rw [e] at this
  cases hp : previous a.toStorage w t <;> simp only [hp, lin_cons, lin_nil] at this ⊢ <;>
    linear_combination -this

omit [LinearOrder F] [IsStrictOrderedRing F] in
/-- From rows to the balance of the specification. -/
theorem balanced_of_rows {a : Storage F} {w : Window} {x gain : Nat → F} {same : Nat → Nat → Prop}
    (hrow : ∀ t < w.len, a.active t = true →
      x t = (match previous a w t with | some s => a.keep t * x s | none => 0) +
        (if included a w t then 0 else a.initial) + gain t)
    (hprev : ∀ t < w.len, a.active t = true →
      (∀ s, PrevIn (fun s => a.active s = true ∧ same s t) t s →
        previous a w t = some s ∧ included a w t = true) ∧
      ((¬ ∃ s, PrevIn (fun s => a.active s = true ∧ same s t) t s) →
        if a.cyclic then ∀ s, LastIn (fun s => a.active s = true ∧ same s t) w.len s →
          previous a w t = some s ∧ included a w t = true
        else previous a w t = none ∧ included a w t = false)) :
    Balanced a.active same a.cyclic a.initial a.keep x gain w.len := by
  intro t ht ha
  have r := hrow t ht ha
  obtain ⟨p1, p2⟩ := hprev t ht ha
  constructor
  · intro s hs
    obtain ⟨e1, e2⟩ := p1 s hs
    rw [e1, e2] at r
    simpa using r
  · intro hno
    have := p2 hno
    cases hc : a.cyclic with
    | true =>
      simp only [hc, if_true] at this ⊢
      intro s hs
      obtain ⟨e1, e2⟩ := this s hs
      rw [e1, e2] at r
      simpa using r
    | false =>
      simp only [hc, Bool.false_eq_true, if_false] at this ⊢
      rw [this.1, this.2] at r
      simpa using r

/-- The net gain of a storage unit in one snapshot. -/
def unitGain (a : StorUnit F) (val : SVar → F) (t : Nat) : F :=
  a.eh t * (a.effStore t * val (.pStore t) - val (.pDispatch t) / a.effDispatch t + a.inflow t -
    (if 0 < a.inflow t then val (.spill t) else 0))

/-! ## C47 several investment periods -/

/-- With several investment periods, stores and storage units restart (or close their cycle) in
each period or over the whole horizon, as their flags say: `initial_per_period` for non-cyclic
ones, `cyclic_per_period` for cyclic ones.  Missing from the full claim: the flag which does not
apply must not be set without the other one (`default_store_restarts`,
`cyclic_store_closed_by_initial_flag`). -/
theorem storage_periods_partial (w : Window) (hm : w.multi = true) :
    (∀ (a : Storage F) (val : EVar → F), Regular a.active w → Feasible val (storeCons a w) →
      (a.cyclic = true → a.initialPerPeriod = true → a.cyclicPerPeriod = true) →
      (a.cyclic = false → a.cyclicPerPeriod = true → a.initialPerPeriod = true) →
      Balanced a.active
        (fun s t => (if a.cyclic then a.cyclicPerPeriod else a.initialPerPeriod) = true →
          w.period s = w.period t)
        a.cyclic a.initial a.keep (fun t => val (.e t)) (fun t => - (a.eh t * val (.p t))) w.len) ∧
    (∀ (a : StorUnit F) (val : SVar → F), Regular a.active w → Feasible val (storageUnitCons a w) →
      (a.cyclic = true → a.initialPerPeriod = true → a.cyclicPerPeriod = true) →
      (a.cyclic = false → a.cyclicPerPeriod = true → a.initialPerPeriod = true) →
      Balanced a.active
        (fun s t => (if a.cyclic then a.cyclicPerPeriod else a.initialPerPeriod) = true →
          w.period s = w.period t)
        a.cyclic a.initial a.keep (fun t => val (.soc t)) (unitGain a val) w.len) := by
  have core : ∀ (a : Storage F), Regular a.active w →
      (a.cyclic = true → a.initialPerPeriod = true → a.cyclicPerPeriod = true) →
      (a.cyclic = false → a.cyclicPerPeriod = true → a.initialPerPeriod = true) →
      ∀ t < w.len, a.active t = true →
      (∀ s, PrevIn (fun s => a.active s = true ∧
          ((if a.cyclic then a.cyclicPerPeriod else a.initialPerPeriod) = true →
            w.period s = w.period t)) t s →
        previous a w t = some s ∧ included a w t = true) ∧
      ((¬ ∃ s, PrevIn (fun s => a.active s = true ∧
          ((if a.cyclic then a.cyclicPerPeriod else a.initialPerPeriod) = true →
            w.period s = w.period t)) t s) →
        if a.cyclic then ∀ s, LastIn (fun s => a.active s = true ∧
          ((if a.cyclic then a.cyclicPerPeriod else a.initialPerPeriod) = true →
            w.period s = w.period t)) w.len s →
          previous a w t = some s ∧ included a w t = true
        else previous a w t = none ∧ included a w t = false) := by
    intro a hreg h1 h2 t ht ha
    by_cases hf : (if a.cyclic then a.cyclicPerPeriod else a.initialPerPeriod) = true
    · have hpp : perPeriod a w = true := by
        unfold perPeriod
        rw [hm]
        cases hc : a.cyclic <;> simp_all
      simp only [hf, true_implies]
      exact previous_perPeriod a w hreg hpp t ht ha
    · have hpp : perPeriod a w = false := by
        unfold perPeriod
        rw [hm]
        cases hc : a.cyclic <;> simp_all
      simp only [hf, Bool.false_eq_true, false_implies, and_true]
      exact previous_whole a w hpp t ht ha
  constructor
  · intro a val hreg h h1 h2
    exact balanced_of_rows (fun t ht ha => store_row h t ht ha) (core a hreg h1 h2)
  · intro a val hreg h h1 h2
    exact balanced_of_rows (fun t ht ha => storageUnit_row h t ht ha) (core a.toStorage hreg h1 h2)

/-- Two periods of two snapshots each. -/
def exWindow : Window := ⟨4, true, fun t => t / 2⟩

/-- A store with the default flags: not cyclic, `e_cyclic_per_period` set, `e_initial_per_period`
not set. -/
def exStore : Storage ℚ :=
  { active := fun _ => true, cyclic := false, cyclicPerPeriod := true, initialPerPeriod := false,
    initial := 10, eh := fun _ => 1, keep := fun _ => 1 }

/-- C47 fails for the default flags: a non-cyclic store that was emptied in the first period has to
start the second one with its initial energy, although `e_initial_per_period` is not set. -/
theorem default_store_restarts :
    ∃ (a : Storage ℚ) (w : Window) (val : EVar → ℚ), Regular a.active w ∧ a.cyclic = false ∧
      a.initialPerPeriod = false ∧ a.cyclicPerPeriod = true ∧ Feasible val (storeCons a w) ∧
      val (.e 1) = 0 ∧ val (.p 2) = 0 ∧ val (.e 2) = 10 := by
  refine ⟨exStore, exWindow, fun v => match v with
    | .e 0 => 5 | .e 1 => 0 | .e 2 => 10 | .e 3 => 10 | .p 0 => 5 | .p 1 => 5 | _ => 0,
    ⟨?_, fun _ _ _ _ _ => rfl⟩, rfl, rfl, rfl, by decide +kernel, rfl, rfl, rfl⟩
  intro i j k h1 h2 _ h4
  simp only [exWindow] at h4 ⊢
  omega

/-- C47 fails for a cyclic store with `e_initial_per_period` set and `e_cyclic_per_period` not set:
the cycle is closed in each period, so a point that is balanced over the whole horizon is
excluded. -/
theorem cyclic_store_closed_by_initial_flag :
    ∃ (a : Storage ℚ) (w : Window) (val : EVar → ℚ), Regular a.active w ∧ a.cyclic = true ∧
      a.initialPerPeriod = true ∧ a.cyclicPerPeriod = false ∧
      Balanced a.active (fun _ _ => True) true a.initial a.keep (fun t => val (.e t))
        (fun t => - (a.eh t * val (.p t))) w.len ∧
      ¬ Feasible val (storeCons a w) := by
  refine ⟨{ exStore with cyclic := true, initialPerPeriod := true, cyclicPerPeriod := false },
    exWindow, fun v => match v with
    | .e 0 => 5 | .e 1 => 0 | .e 2 => 5 | .e 3 => 10 | .p 0 => 5 | .p 1 => 5 | .p 2 => -5
    | .p 3 => -5 | _ => 0,
    ⟨?_, fun _ _ _ _ _ => rfl⟩, rfl, rfl, rfl, ?_, by decide +kernel⟩
  · intro i j k h1 h2 _ h4
    simp only [exWindow] at h4 ⊢
    omega
  · intro t ht _
    simp only [exWindow] at ht
    constructor
    · rintro s ⟨h1, -, h3⟩
      have : s + 1 = t := by
        by_contra hne
        exact h3 (s + 1) (by omega) (by omega) ⟨rfl, trivial⟩
      subst this
      match s, ht with
      | 0, _ => simp [exStore]
      | 1, _ => simp [exStore]
      | 2, _ => simp [exStore]; norm_num
    · intro hno
      have ht0 : t = 0 := by
        by_contra hne
        exact hno ⟨t - 1, by omega, ⟨rfl, trivial⟩, fun r a b => by omega⟩
      subst ht0
      simp only [if_true]
      rintro s ⟨h1, -, h3⟩
      simp only [exWindow] at h1 h3
      have : s = 3 := by
        by_contra hne
        exact h3 3 (by omega) (by omega) ⟨rfl, trivial⟩
      subst this
      simp [exStore]; norm_num

/-! ## C46 telescoping -/

/-- Product of the retention factors over a list of snapshots. -/
def retained (keep : Nat → F) (l : List Nat) : F := (l.map keep).prod

/-- What the gains at the snapshots of a list are worth at its end. -/
def accumulated (keep gain : Nat → F) : List Nat → F
  | [] => 0
  | t :: r => gain t * retained keep r + accumulated keep gain r

/-- Active snapshots up to and including `t`. -/
def upTo (active : Nat → Bool) (t : Nat) : List Nat := (List.range (t + 1)).filter active

omit [LinearOrder F] [IsStrictOrderedRing F] in
theorem accumulated_snoc (keep gain : Nat → F) (l : List Nat) (t : Nat) :
    accumulated keep gain (l ++ [t]) = keep t * accumulated keep gain l + gain t := by
  induction l with
  | nil => simp [accumulated, retained]
  | cons s r ih =>
    simp only [List.cons_append, accumulated, ih, retained, List.map_append, List.prod_append,
      List.map_cons, List.map_nil, List.prod_cons, List.prod_nil]
    ring

theorem upTo_eq (active : Nat → Bool) (t : Nat) (ha : active t = true) :
    upTo active t = (List.range t).filter active ++ [t] := by
  unfold upTo
  rw [List.range_succ, List.filter_append]
  simp [ha]

theorem filter_prev (active : Nat → Bool) (t s : Nat) (h : PrevIn (fun s => active s = true) t s) :
    (List.range t).filter active = upTo active s := by
  obtain ⟨h1, h2, h3⟩ := h
  obtain ⟨d, rfl⟩ : ∃ d, t = s + 1 + d := ⟨t - (s + 1), by omega⟩
  unfold upTo
  rw [List.range_add, List.filter_append]
  have : (List.map (fun x => s + 1 + x) (List.range d)).filter active = [] := by
    rw [List.filter_eq_nil_iff]
    intro r hr
    obtain ⟨x, hx, rfl⟩ := List.mem_map.mp hr
    have hx := List.mem_range.mp hx
    exact h3 _ (by omega) (by omega)
  rw [this, List.append_nil]

omit [LinearOrder F] [IsStrictOrderedRing F] in
/-- The level after any active snapshot: the initial level after losses plus the accumulated
gains, for a storage that is balanced over the whole horizon; for a cyclic one the last level of
the horizon takes the place of the initial one. -/
theorem balanced_level {active : Nat → Bool} {cyclic : Bool} {initial : F} {keep x gain : Nat → F}
    {n : Nat} (h : Balanced active (fun _ _ => True) cyclic initial keep x gain n) (t : Nat)
    (ht : t < n) (ha : active t = true) :
    (cyclic = false → x t = initial * retained keep (upTo active t).tail +
      accumulated keep gain (upTo active t)) ∧
    (cyclic = true → ∀ l, LastIn (fun s => active s = true) n l →
      x t = x l * retained keep (upTo active t) + accumulated keep gain (upTo active t)) := by
  induction t using Nat.strong_induction_on with
  | _ t ih =>
    obtain ⟨b1, b2⟩ := h t ht ha
    simp only [and_true] at b1 b2
    rw [upTo_eq active t ha]
    rcases prevIn_or (fun s => active s = true) t with ⟨s, hs⟩ | hno
    · obtain ⟨i1, i2⟩ := ih s hs.1 (by have := hs.1; omega) hs.2.1
      rw [filter_prev active t s hs, accumulated_snoc]
      have hne : upTo active s ≠ [] := by rw [upTo_eq active s hs.2.1]; simp
      constructor
      · intro hc
        rw [b1 s hs, i1 hc, List.tail_append_of_ne_nil hne]
        simp only [retained, List.map_append, List.prod_append, List.map_cons, List.map_nil,
          List.prod_cons, List.prod_nil]
        ring
      · intro hc l hl
        rw [b1 s hs, i2 hc l hl]
        simp only [retained, List.map_append, List.prod_append, List.map_cons, List.map_nil,
          List.prod_cons, List.prod_nil]
        ring
    · have hnil : (List.range t).filter active = [] := by
        rw [List.filter_eq_nil_iff]
        intro r hr
        exact hno r (List.mem_range.mp hr)
      rw [hnil]
      have hn : ¬ ∃ s, PrevIn (fun s => active s = true) t s := by
        rintro ⟨s, hs⟩
        exact hno s hs.1 hs.2.1
      have b := b2 hn
      constructor
      · intro hc
        simp only [hc, Bool.false_eq_true, if_false] at b
        rw [b]
        simp [retained, accumulated]
      · intro hc l hl
        simp only [hc, if_true] at b
        rw [b l hl]
        simp [retained, accumulated]
        ring

/-- In a window without division into periods, the level of a store after any active snapshot is
the initial energy after standing losses minus what has been withdrawn so far (each withdrawal
counted with the losses since), and likewise for storage units with their efficiencies, inflow and
spillage. -/
theorem storage_telescopes (w : Window) (hm : w.multi = false) :
    (∀ (a : Storage F) (val : EVar → F), Feasible val (storeCons a w) → a.cyclic = false →
      ∀ t < w.len, a.active t = true →
        val (.e t) = a.initial * retained a.keep (upTo a.active t).tail +
          accumulated a.keep (fun s => - (a.eh s * val (.p s))) (upTo a.active t)) ∧
    (∀ (a : StorUnit F) (val : SVar → F), Feasible val (storageUnitCons a w) → a.cyclic = false →
      ∀ t < w.len, a.active t = true →
        val (.soc t) = a.initial * retained a.keep (upTo a.active t).tail +
          accumulated a.keep (unitGain a val) (upTo a.active t)) := by
  have hpp : ∀ a : Storage F, perPeriod a w = false := fun a => by simp [perPeriod, hm]
  constructor
  · intro a val h hc t ht ha
    have hb : Balanced a.active (fun _ _ => True) a.cyclic a.initial a.keep
        (fun t => val (.e t)) (fun t => - (a.eh t * val (.p t))) w.len :=
      balanced_of_rows (fun t ht ha => store_row h t ht ha)
        (fun t ht ha => by simpa only [and_true] using previous_whole a w (hpp a) t ht ha)
    exact (balanced_level hb t ht ha).1 hc
  · intro a val h hc t ht ha
    have hb : Balanced a.active (fun _ _ => True) a.cyclic a.initial a.keep
        (fun t => val (.soc t)) (unitGain a val) w.len :=
      balanced_of_rows (fun t ht ha => storageUnit_row h t ht ha)
        (fun t ht ha => by simpa only [and_true] using previous_whole a.toStorage w (hpp _) t ht ha)
    exact (balanced_level hb t ht ha).1 hc

omit [LinearOrder F] [IsStrictOrderedRing F] in
theorem accumulated_lossless (keep gain : Nat → F) (l : List Nat) (hk : ∀ t ∈ l, keep t = 1) :
    accumulated keep gain l = (l.map gain).sum ∧ retained keep l = 1 := by
  induction l with
  | nil => simp [accumulated, retained]
  | cons t r ih =>
    obtain ⟨i1, i2⟩ := ih (fun s hs => hk s (by simp [hs]))
    constructor
    · simp [accumulated, i1, i2]
    · have : retained keep (t :: r) = keep t * retained keep r := by simp [retained]
      rw [this, i2, hk t (by simp), mul_one]

theorem upTo_last (active : Nat → Bool) (n l : Nat) (h : LastIn (fun s => active s = true) n l) :
    upTo active l = (List.range n).filter active := (filter_prev active n l ⟨h.1, h.2.1, h.2.2⟩).symm

/-- The weighted net withdrawal of a cyclic store without standing losses is zero over the
horizon. -/
theorem cyclic_store_nets_zero (w : Window) (hm : w.multi = false) (a : Storage F)
    (val : EVar → F) (h : Feasible val (storeCons a w)) (hc : a.cyclic = true)
    (hk : ∀ t, a.keep t = 1) :
    (((List.range w.len).filter a.active).map (fun t => a.eh t * val (.p t))).sum = 0 := by
  have hpp : perPeriod a w = false := by simp [perPeriod, hm]
  have hb : Balanced a.active (fun _ _ => True) a.cyclic a.initial a.keep
      (fun t => val (.e t)) (fun t => - (a.eh t * val (.p t))) w.len :=
    balanced_of_rows (fun t ht ha => store_row h t ht ha)
      (fun t ht ha => by simpa only [and_true] using previous_whole a w hpp t ht ha)
  rcases prevIn_or (fun s => a.active s = true) w.len with ⟨l, hl⟩ | hno
  · have hlast : LastIn (fun s => a.active s = true) w.len l := hl
    have := (balanced_level hb l hl.1 hl.2.1).2 hc l hlast
    obtain ⟨e1, e2⟩ := accumulated_lossless a.keep (fun t => - (a.eh t * val (.p t)))
      (upTo a.active l) (fun t _ => hk t)
    rw [e1, e2, upTo_last a.active w.len l hlast] at this
    have hneg : ∀ L : List Nat, (L.map (fun t => - (a.eh t * val (.p t)))).sum =
        - (L.map (fun t => a.eh t * val (.p t))).sum := by
      intro L
      induction L with
      | nil => simp
      | cons t r ih => simp only [List.map_cons, List.sum_cons, ih]; ring
    rw [hneg] at this
    linear_combination this
  · have : (List.range w.len).filter a.active = [] := by
      rw [List.filter_eq_nil_iff]
      intro r hr
      exact hno r (List.mem_range.mp hr)
    rw [this]; rfl

/-- A non-cyclic storage unit with efficiencies and retention at most one dispatches no more
energy than its initial content, what it stored and its inflow. -/
theorem storage_creates_no_energy (w : Window) (hm : w.multi = false) (a : StorUnit F)
    (val : SVar → F) (h : Feasible val (storageUnitCons a w)) (hc : a.cyclic = false)
    (hkeep : ∀ t, 0 ≤ a.keep t ∧ a.keep t ≤ 1) (heh : ∀ t, 0 ≤ a.eh t)
    (hes : ∀ t, 0 ≤ a.effStore t ∧ a.effStore t ≤ 1)
    (hed : ∀ t, 0 < a.effDispatch t ∧ a.effDispatch t ≤ 1)
    (hin : ∀ t, 0 ≤ a.inflow t) (hinit : 0 ≤ a.initial)
    (hvar : ∀ t, 0 ≤ val (.pDispatch t) ∧ 0 ≤ val (.pStore t) ∧ 0 ≤ val (.spill t) ∧ 0 ≤ val (.soc t)) :
    (((List.range w.len).filter a.active).map (fun t => a.eh t * val (.pDispatch t))).sum ≤
      a.initial +
      (((List.range w.len).filter a.active).map
        (fun t => a.eh t * (val (.pStore t) + a.inflow t))).sum := by
  have hpp : perPeriod a.toStorage w = false := by simp [perPeriod, hm]
  have hb : Balanced a.active (fun _ _ => True) a.cyclic a.initial a.keep
      (fun t => val (.soc t)) (unitGain a val) w.len :=
    balanced_of_rows (fun t ht ha => storageUnit_row h t ht ha)
      (fun t ht ha => by simpa only [and_true] using previous_whole a.toStorage w hpp t ht ha)
  have hgain : ∀ t, unitGain a val t + a.eh t * val (.pDispatch t) ≤
      a.eh t * (val (.pStore t) + a.inflow t) := by
    intro t
    obtain ⟨v1, v2, v3, v4⟩ := hvar t
    have g1 : a.effStore t * val (.pStore t) ≤ val (.pStore t) := by
      have := mul_le_mul_of_nonneg_right (hes t).2 v2; linarith
    have g2 : val (.pDispatch t) ≤ val (.pDispatch t) / a.effDispatch t := by
      rw [le_div_iff₀ (hed t).1]
      have := mul_le_mul_of_nonneg_left (hed t).2 v1; linarith
    have g3 : 0 ≤ (if 0 < a.inflow t then val (.spill t) else 0) := by
      split
      · exact v3
      · exact le_rfl
    have : a.eh t * (a.effStore t * val (.pStore t) - val (.pDispatch t) / a.effDispatch t +
        a.inflow t - (if 0 < a.inflow t then val (.spill t) else 0) + val (.pDispatch t)) ≤
        a.eh t * (val (.pStore t) + a.inflow t) :=
      mul_le_mul_of_nonneg_left (by linarith) (heh t)
    unfold unitGain
    linarith
  have key : ∀ t < w.len, a.active t = true →
      val (.soc t) + ((upTo a.active t).map (fun t => a.eh t * val (.pDispatch t))).sum ≤
      a.initial + ((upTo a.active t).map (fun t => a.eh t * (val (.pStore t) + a.inflow t))).sum := by
    intro t ht ha
    induction t using Nat.strong_induction_on with
    | _ t ih =>
      obtain ⟨b1, b2⟩ := hb t ht ha
      simp only [and_true] at b1 b2
      rw [upTo_eq a.active t ha]
      have hg := hgain t
      rcases prevIn_or (fun s => a.active s = true) t with ⟨s, hs⟩ | hno
      · have i := ih s hs.1 (by have := hs.1; omega) hs.2.1
        rw [filter_prev a.active t s hs]
        have e := b1 s hs
        have hk : a.keep t * val (.soc s) ≤ val (.soc s) := by
          have := mul_le_mul_of_nonneg_right (hkeep t).2 (hvar s).2.2.2; linarith
        simp only [List.map_append, List.sum_append, List.map_cons, List.map_nil, List.sum_cons,
          List.sum_nil]
        linarith
      · have hnil : (List.range t).filter a.active = [] := by
          rw [List.filter_eq_nil_iff]
          intro r hr
          exact hno r (List.mem_range.mp hr)
        have b := b2 (fun ⟨s, hs⟩ => hno s hs.1 hs.2.1)
        simp only [hc, Bool.false_eq_true, if_false] at b
        rw [hnil]
        simp only [List.nil_append, List.map_cons, List.map_nil, List.sum_cons, List.sum_nil]
        linarith
  rcases prevIn_or (fun s => a.active s = true) w.len with ⟨l, hl⟩ | hno
  · have := key l hl.1 hl.2.1
    rw [upTo_last a.active w.len l hl] at this
    have := (hvar l).2.2.2
    linarith
  · have : (List.range w.len).filter a.active = [] := by
      rw [List.filter_eq_nil_iff]
      intro r hr
      exact hno r (List.mem_range.mp hr)
    rw [this]
    simpa using hinit

end rows

/-! ## Examples -/

/-- A store with losses in a window in which it is not active at the second snapshot. -/
example : Feasible (fun v => match v with
      | .e 0 => 8 | .e 2 => 3 | .e 3 => 5 / 2 | .p 0 => 2 | .p 2 => 1 | .p 3 => -1 | _ => 0)
    (storeCons { exStore with active := fun t => t ≠ 1, keep := fun _ => 1 / 2 }
      ⟨4, false, fun _ => 0⟩ : List (Con EVar ℚ)) := by decide +kernel

/-- A cyclic store. -/
example : Feasible (fun v => match v with
      | .e 0 => 5 | .e 1 => 0 | .e 2 => 5 | .e 3 => 10 | .p 0 => 5 | .p 1 => 5 | .p 2 => -5
      | .p 3 => -5 | _ => 0)
    (storeCons { exStore with cyclic := true } ⟨4, false, fun _ => 0⟩ : List (Con EVar ℚ)) := by
  decide +kernel

/-- A storage unit with inflow, efficiencies and two periods, starting afresh in each. -/
example : Feasible (fun v => match v with
      | .soc 0 => 10 | .soc 1 => 8 | .soc 2 => 12 | .soc 3 => 12
      | .pDispatch 0 => 1 | .pDispatch 1 => 1 | .spill 3 => 2 | _ => 0)
    (storageUnitCons { exStore with
      initialPerPeriod := true, effStore := fun _ => 1 / 2, effDispatch := fun _ => 1 / 2,
      inflow := fun t => if t = 1 then 0 else 2 }
      exWindow : List (Con SVar ℚ)) := by decide +kernel

end Verif.Opt
