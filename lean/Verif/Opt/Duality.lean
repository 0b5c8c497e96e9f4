import Verif.Opt.LP
import Mathlib.Algebra.Order.BigOperators.Group.List
import Mathlib.Algebra.BigOperators.Ring.Finset
import Mathlib.Algebra.BigOperators.Ring.List
import Mathlib.Tactic.Linarith
import Mathlib.Tactic.Ring
import Mathlib.Tactic.LinearCombination

/-!
# What a solver of linear problems answers

A pair of solutions of a linear problem and its dual with equal values, and what follows from it.  The dual of a row is the derivative of
the optimal value with respect to its right-hand side, as `linopy` defines it: not positive for an upper limit and not negative for a
lower limit of a minimisation.  That such pairs exist for every optimum is shown in `Farkas.lean` and `ExistProps.lean`; that solvers return one is assumed.
-/

namespace Verif.Opt

variable {V F : Type} [Field F]

/-- Coefficient of a variable. -/
def coef [DecidableEq V] (ts : List (F × V)) (v : V) : F := (ts.map (fun e => if e.2 = v then e.1 else 0)).sum

/-- `val` solves the problem, the second entries of `rows` solve its dual, and both have the same value. -/
structure Answer [LinearOrder F] [DecidableEq V] (obj : List (F × V)) (rows : List (Con V F × F)) (val : V → F) : Prop where
  feasible : ∀ r ∈ rows, r.1.holds val
  upper : ∀ r ∈ rows, r.1.sense = .le → r.2 ≤ 0
  lower : ∀ r ∈ rows, r.1.sense = .ge → 0 ≤ r.2
  stationary : ∀ v, coef obj v = (rows.map (fun r => r.2 * coef r.1.terms v)).sum
  noGap : lin val obj = (rows.map (fun r => r.2 * r.1.rhs)).sum

theorem lin_coef [DecidableEq V] (x : V → F) (ts : List (F × V)) (s : Finset V) (hs : ∀ e ∈ ts, e.2 ∈ s) :
    lin x ts = ∑ v ∈ s, coef ts v * x v := by
  induction ts with
  | nil => simp [coef]
  | cons e t ih =>
    have ih := ih (fun a ha => hs a (List.mem_cons_of_mem _ ha))
    have hc : ∀ v, coef (e :: t) v = (if e.2 = v then e.1 else 0) + coef t v := fun v => by simp [coef]
    simp only [lin_cons, hc, add_mul, Finset.sum_add_distrib, ih, ite_mul, zero_mul, Finset.sum_ite_eq]
    rw [if_pos (hs e (List.mem_cons_self ..))]

theorem list_sum_finset {α : Type} (l : List α) (s : Finset V) (f : α → V → F) :
    (l.map (fun a => ∑ v ∈ s, f a v)).sum = ∑ v ∈ s, (l.map (fun a => f a v)).sum := by
  induction l with
  | nil => simp
  | cons a t ih => simp [ih, Finset.sum_add_distrib]

/-- Equal coefficients mean equal values at every point. -/
theorem lin_of_stationary [DecidableEq V] (obj : List (F × V)) (rows : List (Con V F × F))
    (h : ∀ v, coef obj v = (rows.map (fun r => r.2 * coef r.1.terms v)).sum) (x : V → F) :
    lin x obj = (rows.map (fun r => r.2 * lin x r.1.terms)).sum := by
  classical
  let s : Finset V := ((obj ++ rows.flatMap (fun r => r.1.terms)).map (·.2)).toFinset
  have h1 : ∀ e ∈ obj, e.2 ∈ s := by
    intro e he
    simp only [s, List.mem_toFinset, List.mem_map, List.mem_append]
    exact ⟨e, Or.inl he, rfl⟩
  have h2 : ∀ r ∈ rows, ∀ e ∈ r.1.terms, e.2 ∈ s := by
    intro r hr e he
    simp only [s, List.mem_toFinset, List.mem_map, List.mem_append, List.mem_flatMap]
    exact ⟨e, Or.inr ⟨r, hr, he⟩, rfl⟩
  rw [lin_coef x obj s h1]
  have h3 : rows.map (fun r => r.2 * lin x r.1.terms) =
      rows.map (fun r => ∑ v ∈ s, r.2 * coef r.1.terms v * x v) := by
    apply List.map_congr_left
    intro r hr
    rw [lin_coef x r.1.terms s (h2 r hr), Finset.mul_sum]
    exact Finset.sum_congr rfl (fun v _ => (mul_assoc ..).symm)
  rw [h3, list_sum_finset]
  apply Finset.sum_congr rfl
  intro v _
  rw [h v, ← List.sum_map_mul_right]

section order
variable [LinearOrder F] [IsStrictOrderedRing F] [DecidableEq V]

/-- A row has a dual of its sign. -/
theorem dual_gap {obj : List (F × V)} {rows : List (Con V F × F)} {val : V → F} (h : Answer obj rows val)
    (r : Con V F × F) (hr : r ∈ rows) (terms : List (F × V)) (rhs : F) (x : V → F)
    (hx : (⟨terms, r.1.sense, rhs⟩ : Con V F).holds x) : 0 ≤ r.2 * (lin x terms - rhs) := by
  have h1 := h.upper r hr
  have h2 := h.lower r hr
  unfold Con.holds at hx
  simp only at hx
  cases hs : r.1.sense with
  | le =>
    rw [hs] at hx
    exact mul_nonneg_of_nonpos_of_nonpos (h1 hs) (sub_nonpos.mpr hx)
  | ge =>
    rw [hs] at hx
    exact mul_nonneg (h2 hs) (sub_nonneg.mpr hx)
  | eq =>
    rw [hs] at hx
    simp only at hx
    rw [hx, sub_self, mul_zero]

theorem sum_sub_map {α : Type} (l : List α) (f g : α → F) :
    (l.map (fun a => f a - g a)).sum = (l.map f).sum - (l.map g).sum := by
  induction l with
  | nil => simp
  | cons a t ih => simp only [List.map_cons, List.sum_cons, ih]; ring

theorem eq_zero_of_sum {α : Type} (l : List α) (f : α → F) (h0 : ∀ a ∈ l, 0 ≤ f a) (hs : (l.map f).sum = 0) :
    ∀ a ∈ l, f a = 0 := by
  induction l with
  | nil => simp
  | cons b t ih =>
    simp only [List.map_cons, List.sum_cons] at hs
    have hb := h0 b (List.mem_cons_self ..)
    have ht : 0 ≤ (t.map f).sum := List.sum_nonneg (fun y hy => by
      obtain ⟨a, ha, rfl⟩ := List.mem_map.mp hy
      exact h0 a (List.mem_cons_of_mem _ ha))
    intro a ha
    rcases List.mem_cons.mp ha with rfl | ha
    · linarith
    · exact ih (fun a ha => h0 a (List.mem_cons_of_mem _ ha)) (by linarith) a ha

/-- The dual of a row is zero unless the row is met with equality. -/
theorem slackness {obj : List (F × V)} {rows : List (Con V F × F)} {val : V → F} (h : Answer obj rows val) :
    ∀ r ∈ rows, r.2 * lin val r.1.terms = r.2 * r.1.rhs := by
  have h1 := lin_of_stationary obj rows h.stationary val
  rw [h.noGap] at h1
  have h2 : (rows.map (fun r => r.2 * lin val r.1.terms - r.2 * r.1.rhs)).sum = 0 := by
    rw [sum_sub_map, ← h1, sub_self]
  have h3 := eq_zero_of_sum rows _ (fun r hr => by
    have := dual_gap h r hr r.1.terms r.1.rhs val (h.feasible r hr)
    rw [mul_sub] at this; exact this) h2
  intro r hr
  exact sub_eq_zero.mp (h3 r hr)

/-- Other right-hand sides: no solution of the changed problem is cheaper than the duals say. -/
theorem cost_bound {obj : List (F × V)} {rows : List (Con V F × F)} {val : V → F} (h : Answer obj rows val)
    (rhs : Con V F × F → F) (x : V → F)
    (hx : ∀ r ∈ rows, (⟨r.1.terms, r.1.sense, rhs r⟩ : Con V F).holds x) :
    lin val obj + (rows.map (fun r => r.2 * (rhs r - r.1.rhs))).sum ≤ lin x obj := by
  rw [lin_of_stationary obj rows h.stationary x, h.noGap]
  have h1 : ∀ r : Con V F × F, r.2 * (rhs r - r.1.rhs) = r.2 * rhs r - r.2 * r.1.rhs := fun r => by ring
  simp only [h1]
  rw [sum_sub_map]
  have h2 : 0 ≤ (rows.map (fun r => r.2 * lin x r.1.terms - r.2 * rhs r)).sum := by
    apply List.sum_nonneg
    intro y hy
    obtain ⟨r, hr, rfl⟩ := List.mem_map.mp hy
    have := dual_gap h r hr r.1.terms (rhs r) x (hx r hr)
    rw [mul_sub] at this; exact this
  rw [sum_sub_map] at h2
  linarith

end order

end Verif.Opt
