import Verif.Opt.Unit
import Mathlib.Tactic.Linarith
import Mathlib.Tactic.Ring
import Mathlib.Tactic.FieldSimp
import Mathlib.Data.Rat.Defs
import Mathlib.Algebra.Order.Ring.Rat

/-!
# Unit commitment, dispatch limits and ramp limits (C40-C45, C84-C86)
-/

namespace Verif.Opt

variable {F : Type} [Field F] [LinearOrder F] [IsStrictOrderedRing F]

/-! ## Specification -/

/-- Value of a per-snapshot quantity of the unit: 0 while the unit is not active. -/
def level (u : Unit' F) (x : Nat → F) (t : Nat) : F := if u.active t then x t else 0

/-- The value one snapshot earlier, `init` before the window. -/
def before (init : F) (x : Nat → F) : Nat → F
  | 0 => init
  | t + 1 => x t

/-- On/off state and dispatch. -/
def onOff (u : Unit' F) (val : UVar → F) (t : Nat) : F := level u (fun t => val (.status t)) t
def dispatch (u : Unit' F) (val : UVar → F) (t : Nat) : F := level u (fun t => val (.p t)) t

/-- The domain of the commitment variables, relaxed to the unit interval. -/
def RelaxedDomain (val : UVar → F) : Prop :=
  ∀ t, (0 ≤ val (.status t) ∧ val (.status t) ≤ 1) ∧ (0 ≤ val (.startUp t) ∧ val (.startUp t) ≤ 1) ∧
    (0 ≤ val (.shutDown t) ∧ val (.shutDown t) ≤ 1)

/-- The integral domain. -/
def BinaryDomain (val : UVar → F) : Prop :=
  ∀ t, (val (.status t) = 0 ∨ val (.status t) = 1) ∧ (val (.startUp t) = 0 ∨ val (.startUp t) = 1) ∧
    (val (.shutDown t) = 0 ∨ val (.shutDown t) = 1)

theorem BinaryDomain.relaxed {val : UVar → F} (h : BinaryDomain val) : RelaxedDomain val := by
  intro t
  obtain ⟨h1, h2, h3⟩ := h t
  refine ⟨?_, ?_, ?_⟩
  · rcases h1 with h | h <;> rw [h] <;> simp
  · rcases h2 with h | h <;> rw [h] <;> simp
  · rcases h3 with h | h <;> rw [h] <;> simp

/-! ## Reading the rows -/

theorem feasible_rowsAt (val : UVar → F) (u : Unit' F) (ts : List Nat) (f : Nat → List (Con UVar F)) :
    Feasible val (rowsAt u ts f) ↔ ∀ t ∈ ts, u.active t = true → Feasible val (f t) := by
  unfold rowsAt
  rw [feasible_flatMap]
  refine forall₂_congr (fun t _ => ?_)
  simp

theorem mem_tail {T t : Nat} : t ∈ List.range' 1 (T - 1) ↔ 1 ≤ t ∧ t < T := by
  simp only [List.mem_range'_1]; omega

omit [LinearOrder F] [IsStrictOrderedRing F] in
theorem lin_prevTm (u : Unit' F) (val : UVar → F) (a : F) (mk : Nat → UVar)
    (hp : ∀ t, present u (mk t) = u.active t) (t : Nat) :
    lin val (prevTm u a mk t) = a * before 0 (level u (fun t => val (mk t))) t := by
  cases t with
  | zero => simp [prevTm, before]
  | succ t => simp [prevTm, before, orZero, level, hp]

omit [LinearOrder F] [IsStrictOrderedRing F] in
theorem lin_windowTm (u : Unit' F) (val : UVar → F) (mk : Nat → UVar)
    (hp : ∀ t, present u (mk t) = u.active t) (w t : Nat) :
    lin val (windowTm u mk w t) = ((List.range w).map (fun k =>
      if k ≤ t then level u (fun t => val (mk t)) (t - k) else 0)).sum := by
  unfold windowTm
  rw [lin_flatMap]
  congr 1
  apply List.map_congr_left
  intro k _
  by_cases h : k ≤ t <;> simp [h, orZero, level, hp]

omit [LinearOrder F] [IsStrictOrderedRing F] in
theorem lin_pDiff (u : Unit' F) (val : UVar → F) (t : Nat) :
    lin val (pDiff u t) = dispatch u val t - before 0 (dispatch u val) t := by
  unfold pDiff
  rw [lin_append, lin_tm, lin_prevTm _ _ _ _ (fun _ => rfl)]
  have e : (level u fun t => val (.p t)) = dispatch u val := rfl
  have e' : orZero (present u) val (.p t) = dispatch u val t := rfl
  rw [e, e']
  ring

/-- The rows of a committed unit, read as inequalities. -/
theorem com_rows {u : Unit' F} {T : Nat} {rolling : Bool} {val : UVar → F}
    (hc : u.committable = true) (h : Feasible val (comCons u T rolling)) :
    (∀ t < T, u.active t = true →
      u.minPu t * u.nom * onOff u val t ≤ dispatch u val t ∧
      dispatch u val t ≤ u.maxPu t * u.nom * onOff u val t) ∧
    (∀ t < T, u.active t = true →
      onOff u val t - before (if initUp u rolling then 1 else 0) (onOff u val) t ≤ val (.startUp t) ∧
      before (if initUp u rolling then 1 else 0) (onOff u val) t - onOff u val t ≤ val (.shutDown t)) ∧
    (∀ t, 1 ≤ t → t < T → u.active t = true →
      (u.minUp ≠ 0 → ((List.range u.minUp).map (fun k =>
        if k ≤ t then level u (fun t => val (.startUp t)) (t - k) else 0)).sum ≤ onOff u val t) ∧
      (u.minDown ≠ 0 → ((List.range u.minDown).map (fun k =>
        if k ≤ t then level u (fun t => val (.shutDown t)) (t - k) else 0)).sum ≤ 1 - onOff u val t)) ∧
    (∀ t < T, u.active t = true →
      (initUp u rolling = true → ((t + 1 : Nat) : F) ≤ max ((u.minUp : F) - upTimeSet u rolling) 0 →
        onOff u val t = 1) ∧
      (initDown u rolling = true →
        ((t + 1 : Nat) : F) ≤ max ((u.minDown : F) - downTimeSet u rolling) 0 →
        onOff u val t = 0)) := by
  unfold comCons at h
  simp only [hc, Bool.not_true, Bool.false_eq_true, if_false, feasible_append, feasible_rowsAt,
    List.mem_range, mem_tail, feasible_cons, feasible_nil, and_true, feasible_ite, Con.holds,
    lin_append, lin_tm, statusDiff, implies_true] at h
  obtain ⟨⟨⟨h1, h2⟩, h3⟩, h4⟩ := h
  refine ⟨fun t ht ha => ?_, fun t ht ha => ?_, fun t h1t ht ha => ?_, fun t ht ha => ?_⟩
  · obtain ⟨a, b⟩ := h1 t ht ha
    simp only [orZero, present, ha, if_true] at a b
    simp only [onOff, dispatch, level, ha, if_true]
    constructor <;> linarith
  · obtain ⟨a, b⟩ := h2 t ht ha
    rw [lin_prevTm _ _ _ _ (fun _ => rfl)] at a b
    simp only [orZero, present, ha, if_true] at a b
    have he : onOff u val t = val (.status t) := by simp [onOff, level, ha]
    rw [he]
    have hb : (level u fun t => val (.status t)) = onOff u val := rfl
    rw [hb] at a b
    cases t with
    | zero =>
      cases hi : initUp u rolling <;> simp [before, hi] at a b ⊢ <;> constructor <;> linarith
    | succ t =>
      simp [before] at a b ⊢
      constructor <;> linarith
  · obtain ⟨a, b⟩ := h3 t ⟨h1t, ht⟩ ha
    constructor
    · intro hm
      have := a hm
      rw [lin_windowTm _ _ _ (fun _ => rfl)] at this
      simp only [orZero, present, ha, if_true] at this
      have he : onOff u val t = val (.status t) := by simp [onOff, level, ha]
      rw [he]; linarith
    · intro hm
      have := b hm
      rw [lin_windowTm _ _ _ (fun _ => rfl)] at this
      simp only [orZero, present, ha, if_true] at this
      have he : onOff u val t = val (.status t) := by simp [onOff, level, ha]
      rw [he]; linarith
  · obtain ⟨a, b⟩ := h4 t ht ha
    have he : onOff u val t = val (.status t) := by simp [onOff, level, ha]
    rw [he]
    simp only [orZero, present, ha, if_true, one_mul] at a b
    exact ⟨fun i j => a ⟨i, j⟩, fun i j => b ⟨i, j⟩⟩

theorem unit_parts {cls : List (Unit' F)} {u : Unit' F} {T : Nat} {rolling lin' : Bool}
    {val : UVar → F} (h : Feasible val (unitCons cls u T rolling lin')) :
    Feasible val (nonExtCons u T) ∧ Feasible val (extCons u T) ∧ Feasible val (comCons u T rolling) ∧
      Feasible val (rampCons cls u T rolling) := by
  unfold unitCons at h
  simp only [feasible_append] at h
  exact ⟨h.1.1.1.1, h.1.1.1.2, h.1.1.2, h.2⟩

/-! ## C40 dispatch limits -/

/-- Dispatch of an active unit is within its per-unit bounds times the capacity (the given one for
fixed units, the optimised one for extendable units); a committed unit is within the bounds while
on, and at zero while off. -/
theorem dispatch_limits (cls : List (Unit' F)) (u : Unit' F) (T : Nat) (rolling lin' : Bool)
    (val : UVar → F) (h : Feasible val (unitCons cls u T rolling lin')) (t : Nat) (ht : t < T)
    (ha : u.active t = true) :
    (u.extendable = false → u.committable = false →
      u.minPu t * u.nom ≤ val (.p t) ∧ val (.p t) ≤ u.maxPu t * u.nom) ∧
    (u.extendable = true →
      u.minPu t * val .cap ≤ val (.p t) ∧ val (.p t) ≤ u.maxPu t * val .cap) ∧
    (u.committable = true →
      (val (.status t) = 0 → val (.p t) = 0) ∧
      (val (.status t) = 1 →
        u.minPu t * u.nom ≤ val (.p t) ∧ val (.p t) ≤ u.maxPu t * u.nom)) := by
  obtain ⟨h1, h2, h3, -⟩ := unit_parts h
  refine ⟨fun he hc => ?_, fun he => ?_, fun hc => ?_⟩
  · unfold nonExtCons at h1
    simp only [he, hc, Bool.or_false, Bool.false_eq_true, if_false, feasible_rowsAt,
      List.mem_range, feasible_cons, feasible_nil, and_true, Con.holds, lin_tm, orZero,
      present] at h1
    have := h1 t ht ha
    simpa [ha] using this
  · unfold extCons at h2
    simp only [he, Bool.not_true, Bool.false_eq_true, if_false, feasible_rowsAt,
      List.mem_range, feasible_cons, feasible_nil, and_true, Con.holds, lin_append, lin_tm, orZero,
      present, if_true] at h2
    have := h2 t ht ha
    simp only [ha, if_true] at this
    constructor <;> linarith [this.1, this.2]
  · have := (com_rows hc h3).1 t ht ha
    simp only [onOff, dispatch, level, ha, if_true] at this
    obtain ⟨a, b⟩ := this
    constructor
    · intro hs; rw [hs] at a b; linarith
    · intro hs; rw [hs] at a b; constructor <;> linarith

/-! ## C41 start-up and shut-down -/

/-- Start-up and shut-down variables are at least the change of status; before the window the unit
is on exactly if `up_time_before` is positive. -/
theorem start_shut_track (cls : List (Unit' F)) (u : Unit' F) (T : Nat) (lin' : Bool)
    (val : UVar → F) (hc : u.committable = true)
    (h : Feasible val (unitCons cls u T false lin')) (t : Nat) (ht : t < T)
    (ha : u.active t = true) :
    onOff u val t - before (if 0 < u.upBefore then 1 else 0) (onOff u val) t ≤ val (.startUp t) ∧
    before (if 0 < u.upBefore then 1 else 0) (onOff u val) t - onOff u val t ≤ val (.shutDown t) := by
  have := (com_rows hc (unit_parts h).2.2.1).2.1 t ht ha
  have e : (initUp u false = true) ↔ 0 < u.upBefore := by
    simp [initUp, upTimeSet, Nat.pos_iff_ne_zero]
  simpa [e] using this

/-! ## C42, C43 minimum up and down times -/

omit [LinearOrder F] [IsStrictOrderedRing F] in
theorem sum_window_ge [LinearOrder F] [IsStrictOrderedRing F] (f : Nat → F) (hf : ∀ k, 0 ≤ f k) (w k : Nat) (hk : k < w) :
    f k ≤ ((List.range w).map f).sum := by
  induction w with
  | zero => omega
  | succ w ih =>
    rw [List.range_succ, List.map_append, List.sum_append]
    simp only [List.map_cons, List.map_nil, List.sum_cons, List.sum_nil, add_zero]
    have hs : 0 ≤ ((List.range w).map f).sum := by
      clear ih hk
      induction w with
      | zero => simp
      | succ w ih =>
        rw [List.range_succ, List.map_append, List.sum_append]
        simp only [List.map_cons, List.map_nil, List.sum_cons, List.sum_nil, add_zero]
        linarith [hf w]
    rcases Nat.lt_succ_iff_lt_or_eq.mp hk with h | h
    · linarith [ih h, hf w]
    · subst h; linarith

/-- Minimum up time, also for relaxed commitments: having come on by some amount at `k` the unit is
on by at least that amount during the following `min_up_time` snapshots. -/
theorem min_up_relaxed (u : Unit' F) (T : Nat) (rolling : Bool) (val : UVar → F)
    (hc : u.committable = true) (hd : RelaxedDomain val) (h : Feasible val (comCons u T rolling))
    (k j : Nat) (hkj : k ≤ j) (hj : j < k + u.minUp) (hT : j < T) (hak : u.active k = true)
    (haj : u.active j = true) :
    onOff u val k - before (if initUp u rolling then 1 else 0) (onOff u val) k ≤ onOff u val j := by
  obtain ⟨-, h2, h3, -⟩ := com_rows hc h
  by_cases hj0 : j = 0
  · have : k = 0 := by omega
    subst hj0; subst this
    simp only [before]
    split <;> linarith
  · have hw := (h3 j (by omega) hT haj).1 (by omega)
    have hs := (h2 k (by omega) hak).1
    have := sum_window_ge (fun i => if i ≤ j then level u (fun t => val (.startUp t)) (j - i) else 0)
      (fun i => by
        simp only [level]
        split_ifs
        · exact (hd _).2.1.1
        · exact le_refl _
        · exact le_refl _) u.minUp (j - k) (by omega)
    simp only [Nat.sub_le, if_true, Nat.sub_sub_self hkj, level, hak] at this
    have hl := le_trans this hw
    linarith

/-- Minimum down time, relaxed. -/
theorem min_down_relaxed (u : Unit' F) (T : Nat) (rolling : Bool) (val : UVar → F)
    (hc : u.committable = true) (hd : RelaxedDomain val) (h : Feasible val (comCons u T rolling))
    (k j : Nat) (hkj : k ≤ j) (hj : j < k + u.minDown) (hT : j < T) (hak : u.active k = true)
    (haj : u.active j = true) :
    before (if initUp u rolling then 1 else 0) (onOff u val) k - onOff u val k ≤ 1 - onOff u val j := by
  obtain ⟨-, h2, h3, -⟩ := com_rows hc h
  by_cases hj0 : j = 0
  · have : k = 0 := by omega
    subst hj0; subst this
    simp only [before]
    split <;> linarith
  · have hw := (h3 j (by omega) hT haj).2 (by omega)
    have hs := (h2 k (by omega) hak).2
    have := sum_window_ge (fun i => if i ≤ j then level u (fun t => val (.shutDown t)) (j - i) else 0)
      (fun i => by
        simp only [level]
        split_ifs
        · exact (hd _).2.2.1
        · exact le_refl _
        · exact le_refl _) u.minDown (j - k) (by omega)
    simp only [Nat.sub_le, if_true, Nat.sub_sub_self hkj, level, hak] at this
    have hl := le_trans this hw
    linarith

/-- Minimum up time: a unit switched on at `k` (off before, where before the window it is on iff
`up_time_before` is positive) is on during the next `min_up_time` snapshots, and a unit that has
been on for `up_time_before` snapshots stays on for the rest of its minimum up time. -/
theorem min_up_time (cls : List (Unit' F)) (u : Unit' F) (T : Nat) (lin' : Bool) (val : UVar → F)
    (hc : u.committable = true) (hd : BinaryDomain val)
    (h : Feasible val (unitCons cls u T false lin')) :
    (∀ k j, k ≤ j → j < k + u.minUp → j < T → u.active k = true → u.active j = true →
      onOff u val k = 1 → before (if 0 < u.upBefore then 1 else 0) (onOff u val) k = 0 →
      onOff u val j = 1) ∧
    (0 < u.upBefore → ∀ j, u.upBefore + j < u.minUp → j < T → u.active j = true →
      onOff u val j = 1) := by
  have hcom := (unit_parts h).2.2.1
  have e : (initUp u false = true) ↔ 0 < u.upBefore := by
    simp [initUp, upTimeSet, Nat.pos_iff_ne_zero]
  constructor
  · intro k j hkj hj hT hak haj h1 h0
    have := min_up_relaxed u T false val hc hd.relaxed hcom k j hkj hj hT hak haj
    simp only [e, h0, h1] at this
    have hle : onOff u val j = 0 ∨ onOff u val j = 1 := by
      simp only [onOff, level, haj, if_true]; exact (hd j).1
    rcases hle with hz | hz
    · rw [hz] at this; linarith
    · exact hz
  · intro hu j hj hT haj
    refine ((com_rows hc hcom).2.2.2 j hT haj).1 (e.mpr hu) (le_trans ?_ (le_max_left _ _))
    have : ((u.upBefore + (j + 1) : Nat) : F) ≤ (u.minUp : F) := by exact_mod_cast hj
    simp only [upTimeSet, Bool.false_eq_true, if_false]
    push_cast at this ⊢
    linarith

/-- Minimum down time: a unit switched off at `k` is off during the next `min_down_time`
snapshots, and a unit that has been off for `down_time_before` snapshots stays off for the rest of
its minimum down time. -/
theorem min_down_time (cls : List (Unit' F)) (u : Unit' F) (T : Nat) (lin' : Bool) (val : UVar → F)
    (hc : u.committable = true) (hd : BinaryDomain val)
    (h : Feasible val (unitCons cls u T false lin')) :
    (∀ k j, k ≤ j → j < k + u.minDown → j < T → u.active k = true → u.active j = true →
      onOff u val k = 0 → before (if 0 < u.upBefore then 1 else 0) (onOff u val) k = 1 →
      onOff u val j = 0) ∧
    (0 < u.downBefore → ∀ j, u.downBefore + j < u.minDown → j < T → u.active j = true →
      onOff u val j = 0) := by
  have hcom := (unit_parts h).2.2.1
  have e : (initUp u false = true) ↔ 0 < u.upBefore := by
    simp [initUp, upTimeSet, Nat.pos_iff_ne_zero]
  have e' : (initDown u false = true) ↔ 0 < u.downBefore := by
    simp [initDown, downTimeSet, Nat.pos_iff_ne_zero]
  constructor
  · intro k j hkj hj hT hak haj h0 h1
    have := min_down_relaxed u T false val hc hd.relaxed hcom k j hkj hj hT hak haj
    simp only [e, h0, h1] at this
    have hle : onOff u val j = 0 ∨ onOff u val j = 1 := by
      simp only [onOff, level, haj, if_true]; exact (hd j).1
    rcases hle with hz | hz
    · exact hz
    · rw [hz] at this; linarith
  · intro hu j hj hT haj
    refine ((com_rows hc hcom).2.2.2 j hT haj).2 (e'.mpr hu) (le_trans ?_ (le_max_left _ _))
    have : ((u.downBefore + (j + 1) : Nat) : F) ≤ (u.minDown : F) := by exact_mod_cast hj
    simp only [downTimeSet, Bool.false_eq_true, if_false]
    push_cast at this ⊢
    linarith

/-! ## C44 rolling horizon -/

/-- Number of snapshots the unit has been continuously in state `b`, counted back from the end of
the recorded history. -/
def trailing (b : F) (hist : List F) : Nat := (hist.reverse.takeWhile (fun s => s = b)).length

theorem runLength_behind (l : List F) (h : ∀ x ∈ l, x = 0 ∨ x = 1) (k : Nat) (acc : F)
    (ha : acc < (k : F)) : runLength l k acc = 0 := by
  induction l generalizing k acc with
  | nil => rfl
  | cons x r ih =>
    have hx : x ≤ 1 := by rcases h x (by simp) with e | e <;> rw [e]; exact zero_le_one
    have hlt : acc + x < ((k + 1 : Nat) : F) := by push_cast; linarith
    unfold runLength
    rw [if_neg hlt.ne, ih (fun y hy => h y (by simp [hy])) _ _ hlt, add_zero]

theorem runLength_run (l : List F) (h : ∀ x ∈ l, x = 0 ∨ x = 1) (k : Nat) :
    runLength l k (k : F) = ((l.takeWhile (fun s => s = 1)).length : F) := by
  induction l generalizing k with
  | nil => simp [runLength]
  | cons x r ih =>
    have hr : ∀ y ∈ r, y = 0 ∨ y = 1 := fun y hy => h y (by simp [hy])
    rcases h x (by simp) with e | e
    · subst e
      unfold runLength
      have hne : (k : F) + 0 ≠ ((k + 1 : Nat) : F) := by push_cast; simp
      rw [if_neg hne, runLength_behind r hr (k + 1) _ (by push_cast; linarith)]
      simp
    · subst e
      unfold runLength
      have hc : (k : F) + 1 = ((k + 1 : Nat) : F) := by push_cast; rfl
      rw [if_pos hc, hc, ih hr (k + 1)]
      simp only [decide_true, List.takeWhile_cons_of_pos, List.length_cons]
      push_cast; ring

theorem runLength_off (l : List F) (h : ∀ x ∈ l, x = 0 ∨ x = 1) :
    runLength (l.map (fun s => if s = 0 then (1 : F) else 0)) 0 0 =
      ((l.takeWhile (fun s => s = 0)).length : F) := by
  have := runLength_run (l.map (fun s => if s = 0 then (1 : F) else 0))
    (by intro x hx; obtain ⟨s, -, rfl⟩ := List.mem_map.mp hx; split <;> simp) 0
  simp only [Nat.cast_zero] at this
  rw [this]
  congr 1
  rw [List.takeWhile_map, List.length_map]
  congr 2
  funext s
  simp only [Function.comp]
  by_cases hs : s = 0 <;> simp [hs]

theorem trailing_pos (b : F) (hist : List F) :
    0 < trailing b hist ↔ hist.getLast? = some b := by
  unfold trailing
  rw [← List.head?_reverse]
  cases hist.reverse with
  | nil => simp
  | cons x r => by_cases hx : x = b <;> simp [hx]

/-- For a unit with a positive minimum up time, a window which continues an earlier one treats the
unit as on exactly if it was on at the last snapshot before the window; transitions are measured
from that state; and the rests of minimum up and down times begun before the window are
respected.  Missing from the full claim: units whose `min_up_time` is 0
(`rolling_without_min_up`). -/
theorem rolling_state_partial (cls : List (Unit' F)) (u : Unit' F) (T : Nat) (lin' : Bool)
    (val : UVar → F) (hc : u.committable = true) (hd : BinaryDomain val)
    (hh : ∀ x ∈ u.histStatus, x = 0 ∨ x = 1) (hm : 0 < u.minUp)
    (h : Feasible val (unitCons cls u T true lin')) :
    (∀ t < T, u.active t = true →
      onOff u val t - before (u.histStatus.getLastD 0) (onOff u val) t ≤ val (.startUp t) ∧
      before (u.histStatus.getLastD 0) (onOff u val) t - onOff u val t ≤ val (.shutDown t)) ∧
    (∀ k j, k ≤ j → j < k + u.minUp → j < T → u.active k = true → u.active j = true →
      onOff u val k = 1 → before (u.histStatus.getLastD 0) (onOff u val) k = 0 →
      onOff u val j = 1) ∧
    (∀ k j, k ≤ j → j < k + u.minDown → j < T → u.active k = true → u.active j = true →
      onOff u val k = 0 → before (u.histStatus.getLastD 0) (onOff u val) k = 1 →
      onOff u val j = 0) ∧
    (u.histStatus.getLast? = some 1 → ∀ j, trailing 1 u.histStatus + j < u.minUp → j < T →
      u.active j = true → onOff u val j = 1) ∧
    (u.histStatus.getLast? = some 0 → ∀ j, trailing 0 u.histStatus + j < u.minDown → j < T →
      u.active j = true → onOff u val j = 0) := by
  have hcom := (unit_parts h).2.2.1
  have hr : ∀ x ∈ u.histStatus.reverse, x = 0 ∨ x = 1 := fun x hx => hh x (List.mem_reverse.mp hx)
  have hup : upTimeSet u true = min (trailing 1 u.histStatus : F) (u.minUp : F) := by
    have := runLength_run u.histStatus.reverse hr 0
    simp only [Nat.cast_zero] at this
    simp [upTimeSet, this, trailing]
  have hdn : downTimeSet u true = min (trailing 0 u.histStatus : F) (u.minDown : F) := by
    simp only [downTimeSet, runLength_off _ hr, trailing, if_true]
  have hlast : (if initUp u true = true then (1 : F) else 0) = u.histStatus.getLastD 0 := by
    have e : initUp u true = true ↔ u.histStatus.getLast? = some 1 := by
      rw [← trailing_pos]
      simp only [initUp, hup, decide_eq_true_eq]
      constructor
      · intro hne
        by_contra h0
        have h0 : trailing 1 u.histStatus = 0 := by omega
        exact hne (by simp [h0])
      · intro hp
        have h1 : (0 : F) < (trailing 1 u.histStatus : F) := by exact_mod_cast hp
        have h2 : (0 : F) < (u.minUp : F) := by exact_mod_cast hm
        exact (lt_min h1 h2).ne'
    simp only [e]
    rw [List.getLastD_eq_getLast?]
    cases hl : u.histStatus.getLast? with
    | none => simp
    | some x =>
      rcases hh x (List.mem_of_getLast? hl) with e | e <;> simp [e]
  refine ⟨?_, ?_, ?_, ?_, ?_⟩
  · intro t ht ha
    have := (com_rows hc hcom).2.1 t ht ha
    rwa [hlast] at this
  · intro k j hkj hj hT hak haj h1 h0
    have := min_up_relaxed u T true val hc hd.relaxed hcom k j hkj hj hT hak haj
    rw [hlast, h0, h1] at this
    have hle : onOff u val j = 0 ∨ onOff u val j = 1 := by
      simp only [onOff, level, haj, if_true]; exact (hd j).1
    rcases hle with hz | hz
    · rw [hz] at this; linarith
    · exact hz
  · intro k j hkj hj hT hak haj h0 h1
    have := min_down_relaxed u T true val hc hd.relaxed hcom k j hkj hj hT hak haj
    rw [hlast, h0, h1] at this
    have hle : onOff u val j = 0 ∨ onOff u val j = 1 := by
      simp only [onOff, level, haj, if_true]; exact (hd j).1
    rcases hle with hz | hz
    · exact hz
    · rw [hz] at this; linarith
  · intro hl j hj hT haj
    have hp := (trailing_pos 1 u.histStatus).mpr hl
    have hlt : (trailing 1 u.histStatus : F) ≤ (u.minUp : F) := by
      have : trailing 1 u.histStatus ≤ u.minUp := by omega
      exact_mod_cast this
    refine ((com_rows hc hcom).2.2.2 j hT haj).1 ?_ (le_trans ?_ (le_max_left _ _))
    · simp only [initUp, hup, min_eq_left hlt, decide_eq_true_eq]
      exact_mod_cast hp.ne'
    · rw [hup, min_eq_left hlt]
      have : ((trailing 1 u.histStatus + (j + 1) : Nat) : F) ≤ (u.minUp : F) := by exact_mod_cast hj
      push_cast at this ⊢
      linarith
  · intro hl j hj hT haj
    have hp := (trailing_pos 0 u.histStatus).mpr hl
    have hlt : (trailing 0 u.histStatus : F) ≤ (u.minDown : F) := by
      have : trailing 0 u.histStatus ≤ u.minDown := by omega
      exact_mod_cast this
    refine ((com_rows hc hcom).2.2.2 j hT haj).2 ?_ (le_trans ?_ (le_max_left _ _))
    · simp only [initDown, hdn, min_eq_left hlt, decide_eq_true_eq]
      exact_mod_cast hp.ne'
    · rw [hdn, min_eq_left hlt]
      have : ((trailing 0 u.histStatus + (j + 1) : Nat) : F) ≤ (u.minDown : F) := by exact_mod_cast hj
      push_cast at this ⊢
      linarith

/-- A unit of capacity 10 that was on before the window, with the default `min_up_time` of 0. -/
def exUnit : Unit' ℚ :=
  { nom := 10, extendable := false, committable := true, active := fun _ => true,
    minPu := fun _ => 0, maxPu := fun _ => 1, minUp := 0, minDown := 0, upBefore := 1,
    downBefore := 0, rampUp := fun _ => none, rampDown := fun _ => none, rampUpStatic := none,
    rampDownStatic := none, rampStart := 1, rampShut := 1, startUpCost := 0, shutDownCost := 0,
    histStatus := [1, 1], histP := 5 }

/-- C44 fails for `min_up_time = 0`: a unit that is on before the window and stays on has to count
a start-up, and one that is switched off counts no shut-down. -/
theorem rolling_without_min_up :
    (∃ u : Unit' ℚ, u.committable = true ∧ u.histStatus.getLast? = some 1 ∧ u.minUp = 0 ∧
      (∀ val, RelaxedDomain val → Feasible val (comCons u 2 true) → val (.status 0) = 1 →
        val (.startUp 0) = 1) ∧
      (∃ val, BinaryDomain val ∧ Feasible val (comCons u 2 true) ∧ val (.status 0) = 0 ∧
        val (.shutDown 0) = 0)) := by
  refine ⟨exUnit, rfl, rfl, rfl, ?_, ?_⟩
  · intro val hd h hs
    have := ((com_rows rfl h).2.1 0 (by omega) rfl).1
    have e : initUp exUnit true = false := by decide +kernel
    simp only [e, before, onOff, level] at this
    simp only [exUnit, if_true, hs] at this
    have := (hd 0).2.1.2
    simp at *
    linarith
  · exact ⟨fun _ => 0, fun _ => by simp, by decide +kernel, rfl, rfl⟩

/-! ## C45 ramp limits -/

/-- The per-snapshot reading of the ramp rows. -/
theorem ramp_rows {cls : List (Unit' F)} {u : Unit' F} {T : Nat} {rolling : Bool} {val : UVar → F}
    (hns : rampSkip cls T = false) (h : Feasible val (rampCons cls u T rolling)) (t : Nat)
    (ht : t < T) (hs : rolling = true ∨ 1 ≤ t) (ha : u.active t = true) :
    Feasible val (rampRows u rolling t) := by
  unfold rampCons at h
  rw [hns] at h
  simp only [Bool.false_eq_true, if_false, feasible_rowsAt] at h
  refine h t ?_ ha
  cases rolling with
  | true => simpa using ht
  | false =>
    simp only [Bool.false_eq_true, if_false, mem_tail]
    exact ⟨by simpa using hs, ht⟩

omit [LinearOrder F] [IsStrictOrderedRing F] in
theorem before_split (init : F) (x : Nat → F) (t : Nat) :
    before init x t = before 0 x t + (if t = 0 then init else 0) := by
  cases t <;> simp [before]

/-- Ramp limits.  Between consecutive snapshots, including from the recorded dispatch before the
window to its first snapshot if the window continues an earlier one, the dispatch of a fixed or
extendable unit rises by at most `ramp_limit_up` and falls by at most `ramp_limit_down` times the
capacity; a committed unit that stays on obeys its (static) limits, one that starts rises by at
most `ramp_limit_start_up`, one that stops falls by at most `ramp_limit_shut_down` times the
capacity.
Missing from the full claim: classes in which all limits are 1 (`ramp_all_ones`) and the
time-dependent limits of committed units (`ramp_series_of_committed_ignored`). -/
theorem ramp_limits_partial (cls : List (Unit' F)) (u : Unit' F) (T : Nat) (rolling lin' : Bool)
    (val : UVar → F) (h : Feasible val (unitCons cls u T rolling lin'))
    (hu : u ∈ cls)
    (hone : ∃ v ∈ cls, ∃ t < T, v.rampUp t ≠ some 1 ∨ v.rampDown t ≠ some 1)
    (hstat : ∀ t, u.committable = true → u.rampUp t = u.rampUpStatic ∧ u.rampDown t = u.rampDownStatic)
    (t : Nat) (ht : t < T) (hs : rolling = true ∨ 1 ≤ t) (ha : u.active t = true) :
    (u.committable = false → ∀ r, u.rampUp t = some r →
      dispatch u val t - before u.histP (dispatch u val) t ≤
        r * (if u.extendable then val .cap else u.nom)) ∧
    (u.committable = false → ∀ r, u.rampDown t = some r →
      before u.histP (dispatch u val) t - dispatch u val t ≤
        r * (if u.extendable then val .cap else u.nom)) ∧
    (u.committable = true → ∀ r, u.rampUp t = some r →
      (before (u.histStatus.getLastD 0) (onOff u val) t = 1 → onOff u val t = 1 →
        dispatch u val t - before u.histP (dispatch u val) t ≤ r * u.nom) ∧
      (before (u.histStatus.getLastD 0) (onOff u val) t = 0 → onOff u val t = 1 →
        dispatch u val t - before u.histP (dispatch u val) t ≤ u.rampStart * u.nom)) ∧
    (u.committable = true → ∀ r, u.rampDown t = some r →
      (before (u.histStatus.getLastD 0) (onOff u val) t = 1 → onOff u val t = 1 →
        before u.histP (dispatch u val) t - dispatch u val t ≤ r * u.nom) ∧
      (before (u.histStatus.getLastD 0) (onOff u val) t = 1 → onOff u val t = 0 →
        before u.histP (dispatch u val) t - dispatch u val t ≤ u.rampShut * u.nom)) := by
  have hr := (unit_parts h).2.2.2
  have hsp : ∀ (init : F) x, before init x t = before 0 x t +
      (if rolling = true ∧ t = 0 then init else 0) := by
    intro init x
    rw [before_split init x t]
    rcases hs with h | h
    · simp [h]
    · have : t ≠ 0 := by omega
      simp [this]
  rw [hsp u.histP, hsp (u.histStatus.getLastD 0)]
  have hskip : ∀ r, (u.rampUp t = some r ∨ u.rampDown t = some r) → rampSkip cls T = false := by
    intro r hor
    unfold rampSkip
    rw [Bool.or_eq_false_iff]
    constructor
    · rw [← Bool.not_eq_true, List.all_eq_true]
      intro hall
      have := hall u hu
      rw [List.all_eq_true] at this
      have := this t (List.mem_range.mpr ht)
      simp only [decide_eq_true_eq] at this
      rcases hor with e | e <;> simp [this] at e
    · rw [← Bool.not_eq_true, List.all_eq_true]
      intro hall
      obtain ⟨v, hv, s, hs', hne⟩ := hone
      have := hall v hv
      rw [List.all_eq_true] at this
      have := this s (List.mem_range.mpr hs')
      simp only [decide_eq_true_eq] at this
      rcases hne with e | e
      · exact e this.1
      · exact e this.2
  have hprev : ∀ a, lin val (prevTm u a .status t) = a * before 0 (onOff u val) t :=
    fun a => lin_prevTm u val a .status (fun _ => rfl) t
  have ho : orZero (present u) val (.status t) = onOff u val t := rfl
  refine ⟨?_, ?_, ?_, ?_⟩
  · intro hc r hup
    have rows := ramp_rows (hskip r (Or.inl hup)) hr t ht hs ha
    unfold rampRows at rows
    cases he : u.extendable with
    | false =>
      simp only [hc, he, Bool.not_false, Bool.and_self, if_true, hup, feasible_append, feasible_cons,
        feasible_nil, and_true, Con.holds, lin_pDiff, Bool.false_eq_true, if_false] at rows
      have := rows.1
      simp only [rampStartRhs] at this
      simp only [Bool.false_eq_true, if_false]
      linarith
    | true =>
      simp only [hc, he, Bool.not_true, Bool.false_and, if_true, hup, feasible_append, feasible_cons,
        feasible_nil, and_true, Con.holds, lin_append, lin_pDiff, Bool.false_eq_true, if_false,
        true_and, lin_tm, orZero, present] at rows
      have := rows.1
      simp only [rampStartRhs] at this
      simp only [if_true]
      linarith
  · intro hc r hdn
    have rows := ramp_rows (hskip r (Or.inr hdn)) hr t ht hs ha
    unfold rampRows at rows
    cases he : u.extendable with
    | false =>
      simp only [hc, he, Bool.not_false, Bool.and_self, if_true, hdn, feasible_append, feasible_cons,
        feasible_nil, and_true, Con.holds, lin_pDiff, Bool.false_eq_true, if_false] at rows
      have := rows.2
      simp only [rampStartRhs] at this
      simp only [Bool.false_eq_true, if_false]
      linarith
    | true =>
      simp only [hc, he, Bool.not_true, Bool.false_and, if_true, hdn, feasible_append, feasible_cons,
        feasible_nil, and_true, Con.holds, lin_append, lin_pDiff, Bool.false_eq_true, if_false,
        true_and, lin_tm, orZero, present] at rows
      have := rows.2
      simp only [rampStartRhs] at this
      simp only [if_true]
      linarith
  · intro hc r hup
    have rows := ramp_rows (hskip r (Or.inl hup)) hr t ht hs ha
    have hst := (hstat t hc).1
    rw [hup] at hst
    unfold rampRows at rows
    simp only [hc, ← hst, feasible_append, if_true, feasible_cons, feasible_nil, and_true, Con.holds,
      lin_append, lin_pDiff, lin_tm, hprev, ho] at rows
    have := rows.2.1
    simp only [rampStartRhs, lastStatus] at this
    constructor
    · intro h1 h2
      rw [h2] at this
      by_cases hz : rolling = true ∧ t = 0
      · simp only [if_pos hz] at this h1 ⊢
        have e : before 0 (onOff u val) t = 1 - u.histStatus.getLastD 0 := by linarith
        rw [e] at this; linarith
      · simp only [if_neg hz] at this h1 ⊢
        have e : before 0 (onOff u val) t = 1 := by linarith
        rw [e] at this; linarith
    · intro h1 h2
      rw [h2] at this
      by_cases hz : rolling = true ∧ t = 0
      · simp only [if_pos hz] at this h1 ⊢
        have e : before 0 (onOff u val) t = - u.histStatus.getLastD 0 := by linarith
        rw [e] at this; linarith
      · simp only [if_neg hz] at this h1 ⊢
        have e : before 0 (onOff u val) t = 0 := by linarith
        rw [e] at this; linarith
  · intro hc r hdn
    have rows := ramp_rows (hskip r (Or.inr hdn)) hr t ht hs ha
    have hst := (hstat t hc).2
    rw [hdn] at hst
    unfold rampRows at rows
    simp only [hc, ← hst, feasible_append, if_true, feasible_cons, feasible_nil, and_true, Con.holds,
      lin_append, lin_pDiff, lin_tm, hprev, ho] at rows
    have := rows.2.2
    simp only [rampStartRhs, lastStatus] at this
    constructor
    · intro h1 h2
      rw [h2] at this
      by_cases hz : rolling = true ∧ t = 0
      · simp only [if_pos hz] at this h1 ⊢
        have e : before 0 (onOff u val) t = 1 - u.histStatus.getLastD 0 := by linarith
        rw [e] at this; linarith
      · simp only [if_neg hz] at this h1 ⊢
        have e : before 0 (onOff u val) t = 1 := by linarith
        rw [e] at this; linarith
    · intro h1 h2
      rw [h2] at this
      by_cases hz : rolling = true ∧ t = 0
      · simp only [if_pos hz] at this h1 ⊢
        have e : before 0 (onOff u val) t = 1 - u.histStatus.getLastD 0 := by linarith
        rw [e] at this; linarith
      · simp only [if_neg hz] at this h1 ⊢
        have e : before 0 (onOff u val) t = 1 := by linarith
        rw [e] at this; linarith

/-- A fixed unit of capacity 10 that may also consume, with ramp limits of 1. -/
def exOnes : Unit' ℚ :=
  { exUnit with
    committable := false, minPu := fun _ => -1, rampUp := fun _ => some 1,
    rampDown := fun _ => some 1, rampUpStatic := some 1, rampDownStatic := some 1 }

/-- C45 fails if every limit of the class is 1: the rows are left out, so a unit that can consume
may change by twice its capacity, and start-up limits of committed units are not applied. -/
theorem ramp_all_ones :
    (∃ (u : Unit' ℚ) (val : UVar → ℚ), Feasible val (unitCons [u] u 2 false false) ∧
      u.rampUp 1 = some 1 ∧ 1 * u.nom < val (.p 1) - val (.p 0)) ∧
    (∃ (u : Unit' ℚ) (val : UVar → ℚ), BinaryDomain val ∧ u.committable = true ∧
      Feasible val (unitCons [u] u 2 false false) ∧ u.rampUp 1 = some 1 ∧
      u.rampUpStatic = some 1 ∧ val (.status 0) = 0 ∧ val (.status 1) = 1 ∧
      u.rampStart * u.nom < val (.p 1) - val (.p 0)) := by
  refine ⟨⟨exOnes, fun v => match v with | .p 0 => -10 | .p _ => 10 | _ => 0,
    by decide +kernel, rfl, by decide +kernel⟩, ?_⟩
  refine ⟨{ exOnes with committable := true, minPu := fun _ => 0, rampStart := 2 / 5 },
    fun v => match v with
      | .p 1 => 10
      | .status 1 => 1
      | .startUp 1 => 1
      | .shutDown 0 => 1
      | _ => 0, ?_, rfl, by decide +kernel, rfl, rfl, rfl, rfl, by decide +kernel⟩
  intro t
  refine ⟨?_, ?_, ?_⟩ <;> (match t with | 0 => simp | 1 => simp | n + 2 => simp)

/-- C45 fails for the time-dependent limits of a committed unit: only the static column is used. -/
theorem ramp_series_of_committed_ignored :
    ∃ (u : Unit' ℚ) (val : UVar → ℚ), BinaryDomain val ∧ u.committable = true ∧
      Feasible val (unitCons [u] u 2 false false) ∧ u.rampUp 1 = some (1 / 10) ∧
      val (.status 0) = 1 ∧ val (.status 1) = 1 ∧
      1 / 10 * u.nom < val (.p 1) - val (.p 0) := by
  refine ⟨{ exUnit with rampUp := fun _ => some (1 / 10) },
    fun v => match v with | .p 1 => 10 | .status _ => 1 | _ => 0,
    fun t => by simp, rfl, by decide +kernel, rfl, rfl, rfl, by decide +kernel⟩

/-! ## C84 ramp limits of committed units exclude nothing else -/

/-- A committed unit's schedule keeps the ramp limits: within the limits while it stays on, below
the start-up limit after a start, below the shut-down limit before a stop, zero while off. -/
def KeepsRamps (T : Nat) (on p : Nat → F) (up down start shut : F) : Prop :=
  ∀ t, t + 1 < T →
    (on t = 1 → on (t + 1) = 1 → p (t + 1) - p t ≤ up ∧ p t - p (t + 1) ≤ down) ∧
    (on t = 0 → on (t + 1) = 1 → p (t + 1) ≤ start) ∧
    (on t = 1 → on (t + 1) = 0 → p t ≤ shut)

/-- Dispatch is between the bounds while on and zero while off. -/
def KeepsBounds (T : Nat) (on p lo up : Nat → F) : Prop :=
  ∀ t < T, (on t = 0 ∧ p t = 0) ∨ (on t = 1 ∧ lo t ≤ p t ∧ p t ≤ up t)

/-- Every schedule that keeps bounds and ramp limits satisfies the ramp rows.  Missing from the
full claim: start-up (shut-down) limits above the ramp limits, which is the default
(`ramp_excludes_allowed_schedule`). -/
theorem ramp_rows_complete_partial (cls : List (Unit' F)) (u : Unit' F) (T : Nat) (val : UVar → F)
    (hc : u.committable = true) (he : u.extendable = false) (ha : ∀ t < T, u.active t = true)
    (up down : F) (hup : u.rampUpStatic = some up) (hdn : u.rampDownStatic = some down)
    (hpos : ∀ t, 0 ≤ u.minPu t * u.nom)
    (hb : KeepsBounds T (fun t => val (.status t)) (fun t => val (.p t))
      (fun t => u.minPu t * u.nom) (fun t => u.maxPu t * u.nom))
    (hr : KeepsRamps T (fun t => val (.status t)) (fun t => val (.p t)) (up * u.nom)
      (down * u.nom) (u.rampStart * u.nom) (u.rampShut * u.nom))
    (h1 : u.rampStart * u.nom ≤ up * u.nom) (h2 : u.rampShut * u.nom ≤ down * u.nom) :
    Feasible val (rampCons cls u T false) := by
  unfold rampCons
  simp only [feasible_ite, feasible_nil, implies_true, true_and, Bool.false_eq_true, if_false,
    feasible_rowsAt, mem_tail]
  rintro - t ⟨h1t, htT⟩ hat
  obtain ⟨s, rfl⟩ : ∃ s, t = s + 1 := ⟨t - 1, by omega⟩
  have has := ha s (by omega)
  have hprev : ∀ a, lin val (prevTm u a .status (s + 1)) = a * val (.status s) := by
    intro a
    simp [prevTm, orZero, present, has]
  have hpd : lin val (pDiff u (s + 1)) = val (.p (s + 1)) - val (.p s) := by
    rw [lin_pDiff]
    simp [dispatch, before, level, hat, has]
  unfold rampRows
  simp only [hc, he, hup, hdn, Bool.not_true, Bool.and_false, Bool.false_eq_true, if_false, if_true,
    feasible_append, feasible_cons, feasible_nil, and_true, Con.holds, lin_append, lin_tm, hprev, hpd,
    rampStartRhs, orZero, present, hat, false_and, true_and, add_zero]
  obtain ⟨r1, r2, r3⟩ := hr s htT
  have p1 := hpos s
  have p2 := hpos (s + 1)
  rcases hb s (by omega) with ⟨o, q⟩ | ⟨o, q1, q2⟩ <;>
    rcases hb (s + 1) htT with ⟨o', q'⟩ | ⟨o', q1', q2'⟩
  · simp only [o, q, o', q']; simp
  · have := r2 o o'
    simp only [o, q, o'] at *
    constructor <;> linarith
  · have := r3 o o'
    simp only [o, q', o'] at *
    constructor <;> linarith
  · have := r1 o o'
    simp only [o, o'] at *
    constructor <;> linarith [this.1, this.2]

/-- A committed unit with ramp limits of one half and the default start-up and shut-down limits. -/
def exRamp : Unit' ℚ :=
  { exUnit with
    rampUp := fun _ => some (1 / 2), rampDown := fun _ => some (1 / 2),
    rampUpStatic := some (1 / 2), rampDownStatic := some (1 / 2) }

/-- C84 fails for the default start-up and shut-down limits of 1: a unit of capacity 10 with ramp
limits of one half may not start at an output of 2, although this is within every limit. -/
theorem ramp_excludes_allowed_schedule :
    ∃ (u : Unit' ℚ) (val : UVar → ℚ), u.committable = true ∧ u.rampStart = 1 ∧ u.rampShut = 1 ∧
      KeepsBounds 2 (fun t => val (.status t)) (fun t => val (.p t))
        (fun t => u.minPu t * u.nom) (fun t => u.maxPu t * u.nom) ∧
      KeepsRamps 2 (fun t => val (.status t)) (fun t => val (.p t)) (1 / 2 * u.nom)
        (1 / 2 * u.nom) (u.rampStart * u.nom) (u.rampShut * u.nom) ∧
      u.rampUpStatic = some (1 / 2) ∧ u.rampDownStatic = some (1 / 2) ∧
      ¬ Feasible val (rampCons [u] u 2 false) := by
  refine ⟨exRamp, fun v => match v with | .p 1 => 2 | .status 1 => 1 | _ => 0, rfl, rfl, rfl,
    ?_, ?_, rfl, rfl, by decide +kernel⟩
  · intro t ht
    match t, ht with
    | 0, _ => left; simp
    | 1, _ => right; simp [exRamp, exUnit]; norm_num
  · intro t ht
    match t, ht with
    | 0, _ => simp [exRamp, exUnit]; norm_num

example : ∃ (u : Unit' ℚ) (val : UVar → ℚ), u.committable = true ∧
    KeepsBounds 2 (fun t => val (.status t)) (fun t => val (.p t))
      (fun t => u.minPu t * u.nom) (fun t => u.maxPu t * u.nom) ∧
    KeepsRamps 2 (fun t => val (.status t)) (fun t => val (.p t)) (1 / 2 * u.nom)
      (1 / 2 * u.nom) (u.rampStart * u.nom) (u.rampShut * u.nom) ∧
    u.rampStart * u.nom ≤ 1 / 2 * u.nom ∧ u.rampShut * u.nom ≤ 1 / 2 * u.nom := by
  refine ⟨{ exRamp with rampStart := 2 / 5, rampShut := 2 / 5 },
    fun v => match v with | .p 1 => 2 | .status 1 => 1 | _ => 0, rfl, ?_, ?_, ?_, ?_⟩
  · intro t ht
    match t, ht with
    | 0, _ => left; simp
    | 1, _ => right; simp [exRamp, exUnit]; norm_num
  · intro t ht
    match t, ht with
    | 0, _ => simp [exRamp, exUnit]; norm_num
  · simp [exRamp, exUnit]; norm_num
  · simp [exRamp, exUnit]; norm_num

/-! ## C85 commitment rows exclude no admissible schedule -/

/-- An on/off schedule keeps minimum up and down times, including what is left of those that began
before the window (`a`/`b` snapshots on/off before it; on before the window iff `a > 0`). -/
def KeepsTimes (T minUp minDown a b : Nat) (s : Nat → Bool) : Prop :=
  (∀ k j, k ≤ j → j < k + minUp → j < T → s k = true →
    (match k with | 0 => decide (0 < a) | k + 1 => s k) = false → s j = true) ∧
  (∀ k j, k ≤ j → j < k + minDown → j < T → s k = false →
    (match k with | 0 => decide (0 < a) | k + 1 => s k) = true → s j = false) ∧
  (0 < a → ∀ j, a + j < minUp → j < T → s j = true) ∧
  (0 < b → ∀ j, b + j < minDown → j < T → s j = false)

/-- State before snapshot `t`. -/
def prevOn (a : Nat) (s : Nat → Bool) : Nat → Bool
  | 0 => decide (0 < a)
  | k + 1 => s k

omit [LinearOrder F] [IsStrictOrderedRing F] in
theorem window_shift (f : Nat → F) (w t : Nat) :
    ((List.range (w + 1)).map (fun k => if k ≤ t + 1 then f (t + 1 - k) else 0)).sum =
      f (t + 1) + ((List.range w).map (fun k => if k ≤ t then f (t - k) else 0)).sum := by
  rw [List.range_succ_eq_map, List.map_cons, List.sum_cons, List.map_map]
  simp only [Nat.zero_le, if_true, Nat.sub_zero]
  congr 3
  funext k
  simp [Nat.succ_eq_add_one, Nat.add_le_add_iff_right, Nat.add_sub_add_right]

omit [LinearOrder F] [IsStrictOrderedRing F] in
theorem window_zero (f : Nat → F) (w : Nat) :
    ((List.range (w + 1)).map (fun k => if k ≤ 0 then f (0 - k) else 0)).sum = f 0 := by
  rw [List.range_succ_eq_map, List.map_cons, List.sum_cons, List.map_map]
  have : ((fun k => if k ≤ 0 then f (0 - k) else 0) ∘ Nat.succ) = fun _ => (0 : F) := by
    funext k; simp
  rw [this]
  simp

/-- If events of a signal are followed by `g = 1` for `m` snapshots, at most `g t` of them are in
any window of at most `m` snapshots ending at `t`. -/
theorem window_le (f g : Nat → F) (m T : Nat)
    (hf : ∀ t, f t = 0 ∨ f t = 1) (hg : ∀ t, g t = 0 ∨ g t = 1)
    (hev : ∀ k j, k ≤ j → j < k + m → j < T → f k = 1 → g j = 1)
    (hon : ∀ t, f (t + 1) = 1 → g t = 0) (w t : Nat) (hw : w ≤ m) (ht : t < T) :
    ((List.range w).map (fun k => if k ≤ t then f (t - k) else 0)).sum ≤ g t := by
  induction t using Nat.strong_induction_on generalizing w with
  | _ t ih' =>
  have ih : ∀ w' t', w' ≤ m → t' < T → t' < t →
      ((List.range w').map (fun k => if k ≤ t' then f (t' - k) else 0)).sum ≤ g t' :=
    fun w' t' hw' hT hlt => ih' t' hlt w' hw' hT
  clear ih'
  rcases hg t with h0 | h1
  · -- no event can be in the window
    have : ((List.range w).map (fun k => if k ≤ t then f (t - k) else 0)) =
        (List.range w).map (fun _ => (0 : F)) := by
      apply List.map_congr_left
      intro k hk
      have hk := List.mem_range.mp hk
      split
      · rcases hf (t - k) with e | e
        · exact e
        · have := hev (t - k) t (by omega) (by omega) ht e
          rw [h0] at this
          exact absurd this zero_ne_one
      · rfl
    rw [this, h0]; simp
  · rw [h1]
    cases w with
    | zero => simp
    | succ w =>
      cases t with
      | zero =>
        rw [window_zero]
        rcases hf 0 with e | e <;> rw [e]
        exact zero_le_one
      | succ t =>
        rw [window_shift]
        have := ih w t (by omega) (by omega) (by omega)
        rcases hf (t + 1) with e | e
        · rw [e, zero_add]
          rcases hg t with g0 | g1
          · rw [g0] at this; exact le_trans this zero_le_one
          · rw [g1] at this; exact this
        · rw [e]
          rw [hon t e] at this
          linarith

/-- Every on/off schedule that keeps minimum up and down times, with any dispatch within the bounds
of the snapshots where it is on, satisfies all commitment rows, with start-ups and shut-downs
exactly at the changes of state. -/
theorem commitment_complete (u : Unit' F) (T : Nat) (hc : u.committable = true)
    (ha : ∀ t, u.active t = true) (s : Nat → Bool) (p : Nat → F)
    (hk : KeepsTimes T u.minUp u.minDown u.upBefore u.downBefore s)
    (hp : ∀ t < T, if s t then u.minPu t * u.nom ≤ p t ∧ p t ≤ u.maxPu t * u.nom else p t = 0) :
    ∃ val : UVar → F, BinaryDomain val ∧ Feasible val (comCons u T false) ∧
      (∀ t, val (.p t) = p t) ∧ (∀ t, val (.status t) = if s t then 1 else 0) ∧
      (∀ t, val (.startUp t) = if s t && !prevOn u.upBefore s t then 1 else 0) ∧
      (∀ t, val (.shutDown t) = if !s t && prevOn u.upBefore s t then 1 else 0) := by
  refine ⟨fun v => match v with
    | .p t => p t
    | .status t => if s t then 1 else 0
    | .startUp t => if s t && !prevOn u.upBefore s t then 1 else 0
    | .shutDown t => if !s t && prevOn u.upBefore s t then 1 else 0
    | .cap => 0, ?_, ?_, fun _ => rfl, fun _ => rfl, fun _ => rfl, fun _ => rfl⟩
  · intro t
    refine ⟨?_, ?_, ?_⟩ <;> dsimp only <;> split <;> simp
  · obtain ⟨k1, k2, k3, k4⟩ := hk
    have hprevOn : ∀ k, (match k with | 0 => decide (0 < u.upBefore) | k + 1 => s k) =
        prevOn u.upBefore s k := by intro k; cases k <;> rfl
    have e : (initUp u false = true) ↔ 0 < u.upBefore := by
      simp [initUp, upTimeSet, Nat.pos_iff_ne_zero]
    have e' : (initDown u false = true) ↔ 0 < u.downBefore := by
      simp [initDown, downTimeSet, Nat.pos_iff_ne_zero]
    unfold comCons
    simp only [hc, Bool.not_true, Bool.false_eq_true, if_false, feasible_append, feasible_rowsAt,
      List.mem_range, mem_tail, feasible_cons, feasible_nil, and_true, feasible_ite, Con.holds,
      lin_append, lin_tm, statusDiff, implies_true, orZero, present, ha, if_true, true_implies]
    refine ⟨⟨⟨fun t ht => ?_, fun t ht => ?_⟩, fun t ht => ⟨fun hm => ?_, fun hm => ?_⟩⟩,
      fun t ht => ⟨fun hi => ?_, fun hi => ?_⟩⟩
    · have := hp t ht
      cases hs : s t
      · rw [hs] at this
        simp only [Bool.false_eq_true, if_false] at this ⊢
        rw [this]; constructor <;> simp
      · rw [hs] at this
        simp only [if_true] at this ⊢
        constructor <;> linarith [this.1, this.2]
    · rw [lin_prevTm _ _ _ _ (fun _ => rfl), lin_prevTm _ _ _ _ (fun _ => rfl)]
      cases t with
      | zero =>
        simp only [before, prevOn, e, true_and]
        cases hs : s 0 <;> by_cases hu : 0 < u.upBefore <;> simp [hu]
      | succ t =>
        simp only [before, prevOn, level, ha, if_true]
        by_cases hs : s (t + 1) = true <;> by_cases hs' : s t = true <;> simp [hs, hs']
    · have := window_le (fun t => if s t && !prevOn u.upBefore s t then (1 : F) else 0)
        (fun t => if s t then 1 else 0) u.minUp T
        (fun t => by split <;> simp) (fun t => by split <;> simp)
        (fun k j hkj hj hT hf => by
          have hf : s k = true ∧ prevOn u.upBefore s k = false := by
            by_contra hn
            simp only [ite_eq_left_iff, zero_ne_one, imp_false, not_not, Bool.and_eq_true,
              Bool.not_eq_true', ] at hf
            exact hn hf
          have := k1 k j hkj hj hT hf.1 (by rw [hprevOn]; exact hf.2)
          simp [this])
        (fun t hf => by
          simp only [prevOn, ite_eq_left_iff, zero_ne_one, imp_false, not_not, Bool.and_eq_true,
            Bool.not_eq_true'] at hf
          simp [hf.2]) u.minUp t le_rfl ht.2
      rw [lin_windowTm _ _ _ (fun _ => rfl)]
      simp only [level, ha, if_true]
      linarith
    · have := window_le (fun t => if !s t && prevOn u.upBefore s t then (1 : F) else 0)
        (fun t => if s t then 0 else 1) u.minDown T
        (fun t => by split <;> simp) (fun t => by split <;> simp)
        (fun k j hkj hj hT hf => by
          have hf : s k = false ∧ prevOn u.upBefore s k = true := by
            by_contra hn
            simp only [ite_eq_left_iff, zero_ne_one, imp_false, not_not, Bool.and_eq_true,
              Bool.not_eq_true'] at hf
            exact hn hf
          have := k2 k j hkj hj hT hf.1 (by rw [hprevOn]; exact hf.2)
          simp [this])
        (fun t hf => by
          simp only [prevOn, ite_eq_left_iff, zero_ne_one, imp_false, not_not, Bool.and_eq_true,
            Bool.not_eq_true'] at hf
          simp [hf.2]) u.minDown t le_rfl ht.2
      rw [lin_windowTm _ _ _ (fun _ => rfl)]
      simp only [level, ha, if_true]
      have hs : (if s t then (0 : F) else 1) = 1 - (if s t then 1 else 0) := by
        cases s t <;> simp
      rw [hs] at this
      linarith
    · have hu := e.mp hi.1
      have hle := hi.2
      rw [le_max_iff] at hle
      have : u.upBefore + t < u.minUp := by
        rcases hle with h | h
        · simp only [upTimeSet, Bool.false_eq_true, if_false] at h
          have : ((u.upBefore + t + 1 : Nat) : F) ≤ (u.minUp : F) := by push_cast at h ⊢; linarith
          exact_mod_cast this
        · have : (0 : F) < ((t + 1 : Nat) : F) := by exact_mod_cast Nat.succ_pos t
          linarith
      simp [k3 hu t this ht]
    · have hu := e'.mp hi.1
      have hle := hi.2
      rw [le_max_iff] at hle
      have : u.downBefore + t < u.minDown := by
        rcases hle with h | h
        · simp only [downTimeSet, Bool.false_eq_true, if_false] at h
          have : ((u.downBefore + t + 1 : Nat) : F) ≤ (u.minDown : F) := by
            push_cast at h ⊢; linarith
          exact_mod_cast this
        · have : (0 : F) < ((t + 1 : Nat) : F) := by exact_mod_cast Nat.succ_pos t
          linarith
      simp [k4 hu t this ht]

/-- A schedule on, off, off, on with minimum up time 1 and minimum down time 2. -/
example : KeepsTimes 4 1 2 1 0 (fun t => t = 0 ∨ t = 3) := by
  refine ⟨?_, ?_, ?_, ?_⟩
  · intro k j h1 h2 h3 h4 _
    have : k = j := by omega
    subst this; exact h4
  · intro k j h1 h2 h3 h4 h5
    match k, h4, h5 with
    | 0, h4, _ => simp at h4
    | 1, _, _ => simp; omega
    | n + 2, h4, h5 => simp at h5 h4; omega
  · intro _ j h; omega
  · intro h; omega

/-! ## C86 linearised unit commitment is a relaxation -/

/-- A schedule with constant bounds which keeps bounds and ramp limits (missing ones count as 1)
satisfies the additional rows of the linearised unit commitment, if the shut-down limit is not
above the ramp-down limit.  Missing from the full claim: time-dependent bounds and shut-down limits
above the ramp-down limit (`linearized_excludes`). -/
theorem linearized_valid_partial (u : Unit' F) (T : Nat) (val : UVar → F)
    (ha : ∀ t < T, u.active t = true) (lo up : F)
    (hlo : ∀ t, u.minPu t * u.nom = lo) (hup : ∀ t, u.maxPu t * u.nom = up) (hpos : 0 ≤ lo)
    (hb : KeepsBounds T (fun t => val (.status t)) (fun t => val (.p t)) (fun _ => lo) (fun _ => up))
    (hr : KeepsRamps T (fun t => val (.status t)) (fun t => val (.p t))
      (u.nom * u.rampUpStatic.getD 1) (u.nom * u.rampDownStatic.getD 1)
      (u.nom * u.rampStart) (u.nom * u.rampShut))
    (hs : ∀ t, t + 1 < T → val (.startUp (t + 1)) =
      if val (.status t) = 0 ∧ val (.status (t + 1)) = 1 then 1 else 0)
    (h2 : u.nom * u.rampShut ≤ u.nom * u.rampDownStatic.getD 1) :
    Feasible val (linearizedCons u T) := by
  unfold linearizedCons
  simp only [feasible_ite, feasible_nil, implies_true, true_and, feasible_rowsAt, mem_tail]
  rintro - t ⟨h1t, htT⟩ hat
  obtain ⟨s, rfl⟩ : ∃ s, t = s + 1 := ⟨t - 1, by omega⟩
  have has := ha s (by omega)
  have hprev : ∀ a, lin val (prevTm u a .status (s + 1)) = a * val (.status s) := by
    intro a; simp [prevTm, orZero, present, has]
  have hprevp : ∀ a, lin val (prevTm u a .p (s + 1)) = a * val (.p s) := by
    intro a; simp [prevTm, orZero, present, has]
  simp only [feasible_cons, feasible_nil, and_true, Con.holds, lin_append, lin_tm, hprev, hprevp,
    orZero, present, hat, if_true, hlo, hup, hs s htT]
  obtain ⟨r1, r2, r3⟩ := hr s htT
  rcases hb s (by omega) with ⟨o, q⟩ | ⟨o, q1, q2⟩ <;>
    rcases hb (s + 1) htT with ⟨o', q'⟩ | ⟨o', q1', q2'⟩
  · simp only [o, q, o', q']; simp
  · have := r2 o o'
    simp only [o, q, o', and_self, if_true] at *
    refine ⟨?_, ?_, ?_, ?_⟩ <;> linarith
  · have := r3 o o'
    simp only [o, q', o', one_ne_zero, zero_ne_one, and_self, if_false] at *
    refine ⟨?_, ?_, ?_, ?_⟩ <;> linarith
  · have := r1 o o'
    simp only [o, o', one_ne_zero, false_and, if_false] at *
    refine ⟨?_, ?_, ?_, ?_⟩ <;> linarith [this.1, this.2]

/-- C86 fails: on/off schedules that satisfy every row of the exact unit commitment violate the
rows added by the linearised one. First because the dispatch of the previous snapshot is compared
with the bound of the current one (available capacity falls from 10 to 5), then because of the
start-up term in the last row (ramp-down limit one half; the unit starts at an output of 8 out of
10, which the exact rows allow). -/
theorem linearized_excludes :
    (∃ (u : Unit' ℚ) (val : UVar → ℚ), BinaryDomain val ∧ u.rampUpStatic = none ∧
      Feasible val (unitCons [u] u 2 false false) ∧ ¬ Feasible val (unitCons [u] u 2 false true)) ∧
    (∃ (u : Unit' ℚ) (val : UVar → ℚ), BinaryDomain val ∧
      (∀ t, u.maxPu t = 1) ∧ (∀ t, u.minPu t = 0) ∧
      Feasible val (unitCons [u] u 2 false false) ∧ ¬ Feasible val (unitCons [u] u 2 false true)) := by
  refine ⟨⟨{ exUnit with maxPu := fun t => if t = 0 then 1 else 1 / 2 },
    fun v => match v with | .p 0 => 10 | .p _ => 5 | .status _ => 1 | _ => 0,
    fun t => by simp, rfl, by decide +kernel, by decide +kernel⟩,
    ⟨exRamp, fun v => match v with
      | .p 1 => 8 | .status 1 => 1 | .startUp 1 => 1 | .shutDown 0 => 1 | _ => 0, ?_,
      fun _ => rfl, fun _ => rfl, by decide +kernel, by decide +kernel⟩⟩
  intro t
  refine ⟨?_, ?_, ?_⟩ <;> (match t with | 0 => simp | 1 => simp | n + 2 => simp)

/-! ## Examples -/

/-- A committed unit with minimum times and ramp limits, on, then off for two snapshots, then on. -/
def exCommitted : Unit' ℚ :=
  { exRamp with minUp := 2, minDown := 2, rampStart := 1 / 2, rampShut := 1 / 2 }

def exPoint : UVar → ℚ
  | .p 0 => 5 | .p 3 => 4 | .p 4 => 9
  | .status 0 => 1 | .status 3 => 1 | .status 4 => 1
  | .startUp 3 => 1 | .shutDown 1 => 1
  | _ => 0

example : Feasible exPoint (unitCons [exCommitted] exCommitted 5 false false) := by decide +kernel

/-- The same unit in a window that continues an earlier one, where it has been on for one
snapshot and therefore has to stay on for one more. -/
example : Feasible exPoint
    (unitCons [exCommitted] { exCommitted with histStatus := [0, 1], histP := 2 } 5 true false) := by
  decide +kernel

example : BinaryDomain exPoint := by
  intro t
  refine ⟨?_, ?_, ?_⟩ <;>
    (match t with | 0 | 1 | 2 | 3 | 4 => simp [exPoint] | n + 5 => simp [exPoint])

/-- A fixed unit and an extendable unit with ramp limits, in the same class. -/
example : ∃ (a b : Unit' ℚ) (va vb : UVar → ℚ), a.extendable = false ∧ b.extendable = true ∧
    Feasible va (unitCons [a, b] a 3 false false) ∧ Feasible vb (unitCons [a, b] b 3 false false) ∧
    a.rampUp 1 = some (1 / 2) ∧ b.rampUp 1 = some (1 / 2) := by
  refine ⟨{ exRamp with committable := false },
    { exRamp with committable := false, extendable := true },
    fun v => match v with | .p 1 => 5 | .p 2 => 10 | _ => 0,
    fun v => match v with | .p 1 => 4 | .p 2 => 7 | .cap => 8 | _ => 0,
    rfl, rfl, by decide +kernel, by decide +kernel, rfl, rfl⟩

end Verif.Opt
