import Verif.PowerFlow.PerUnit
import Verif.PowerFlow.JacobianProps
import Verif.PowerFlow.LinearProps
import Verif.PowerFlow.TypesProps
import Mathlib.Analysis.SpecialFunctions.Trigonometric.Bounds
import Mathlib.Analysis.SpecialFunctions.Trigonometric.Deriv
import Mathlib.LinearAlgebra.FiniteDimensional.Lemmas

/-! # How the linear power flow approximates the power flow (C142) -/

namespace Verif.PowerFlow.Flat

open Matrix Verif.PowerFlow.AC Verif.PowerFlow.PerUnit

variable {nb n m : Nat}

/-! ### Specifications -/

/-- Branches and shunts without losses. -/
structure Lossless (P : Problem nb m) : Prop where
  r : ∀ l, (P.br l).r = 0
  g : ∀ l, (P.br l).g = 0
  shunt : ∀ s ∈ P.shunts, s.g = 0

/-- The reactance between the buses as seen by the power flow: the series reactance times the ratios of
the taps on both sides. -/
noncomputable def reactance (l : Branch nb) : ℝ := l.x * (tauLv l * tauHv l)

/-- The phase shift of a branch in radians. -/
noncomputable def angleShift (l : Branch nb) : ℝ := l.phase.getD 0 * Real.pi / 180

/-- `gs'` is a Newton step from `gs` (one slack bus): the matrix of derivatives times the change is
minus the mismatch, for the active power of all buses but the slack bus and the reactive power of the
PQ buses. -/
def NewtonStep (P : Problem nb m) (gs gs' : Guess nb) : Prop :=
  (∀ i : Fin nb, i.val ≠ 0 →
    (∑ j with j.val ≠ 0, jac P gs (.active i) (.ang j) * (gs'.ang j - gs.ang j)) +
      (∑ j with 1 + P.npv ≤ j.val, jac P gs (.active i) (.mag j) * (gs'.mag j - gs.mag j)) =
      - (mismatch P gs i).re) ∧
  (∀ i : Fin nb, 1 + P.npv ≤ i.val →
    (∑ j with j.val ≠ 0, jac P gs (.reactive i) (.ang j) * (gs'.ang j - gs.ang j)) +
      (∑ j with 1 + P.npv ≤ j.val, jac P gs (.reactive i) (.mag j) * (gs'.mag j - gs.mag j)) =
      - (mismatch P gs i).im)

/-- The flat start (`pf.py` 605-607): angle 0 and magnitude 1. -/
def flat : Guess nb := ⟨fun _ => 0, fun _ => 1, 0⟩

/-- Power leaving bus `i` over the branches. -/
noncomputable def leaving (br : Fin m → Branch nb) (f : Fin m → ℝ) (i : Fin nb) : ℝ :=
  (∑ l with (br l).bus0 = i, f l) - ∑ l with (br l).bus1 = i, f l

/-! ### Flow over a branch without losses -/

/-- Active power over a branch without losses. -/
noncomputable def sineFlow (P : Problem nb m) (gs : Guess nb) (l : Fin m) : ℝ :=
  vMag P gs (P.br l).bus0 * vMag P gs (P.br l).bus1 / reactance (P.br l) *
    Real.sin (vAng gs (P.br l).bus0 - vAng gs (P.br l).bus1 - angleShift (P.br l))

theorem voltage_pair (P : Problem nb m) (gs : Guess nb) (i j : Fin nb) :
    voltage P gs i * (starRingEnd ℂ) (voltage P gs j) =
      ((vMag P gs i * vMag P gs j : ℝ) : ℂ) *
        Complex.exp (((vAng gs i - vAng gs j : ℝ) : ℂ) * Complex.I) := by
  unfold voltage
  rw [map_mul, Complex.conj_ofReal, ← Complex.exp_conj, map_mul, Complex.conj_I, Complex.conj_ofReal]
  have : Complex.exp (((vAng gs i - vAng gs j : ℝ) : ℂ) * Complex.I) =
      Complex.exp (Complex.I * (vAng gs i : ℂ)) * Complex.exp (-Complex.I * (vAng gs j : ℂ)) := by
    rw [← Complex.exp_add]; congr 1; push_cast; ring
  rw [this]; push_cast; ring

theorem ySe_lossless {l : Branch nb} (hr : l.r = 0) : ySe l = ((-1 / l.x : ℝ) : ℂ) * Complex.I := by
  unfold ySe
  rw [hr]
  by_cases hx : l.x = 0
  · simp [hx]
  · have hx' : (l.x : ℂ) ≠ 0 := by exact_mod_cast hx
    push_cast
    field_simp
    rw [zero_add]
    field_simp
    rw [Complex.I_sq]
    ring

theorem s0_re (P : Problem nb m) (h : Lossless P) (gs : Guess nb) (l : Fin m) :
    (s0 P gs l).re = sineFlow P gs l := by
  set b := P.br l with hb
  have hself : ∀ z : ℂ, (starRingEnd ℂ) (y00 b) = z → z.re = 0 := by
    rintro z rfl
    rw [y00, ySe_lossless (h.r l), ySh, h.g l]
    have : ((((-1 / b.x : ℝ) : ℂ) * Complex.I + 1 / 2 * (((0 : ℝ) : ℂ) + Complex.I * b.b)) /
        (tauHv b : ℂ) ^ 2) = (((-1 / b.x + b.b / 2) / tauHv b ^ 2 : ℝ) : ℂ) * Complex.I := by
      push_cast; ring
    rw [this, map_mul, Complex.conj_ofReal, Complex.conj_I, Complex.re_ofReal_mul]; simp
  have hphase : (starRingEnd ℂ) (y01 b) = ((-1 / reactance b : ℝ) : ℂ) * Complex.I *
      Complex.exp (((-angleShift b : ℝ) : ℂ) * Complex.I) := by
    rw [y01, ySe_lossless (h.r l), phaseFactor]
    simp only [map_div₀, map_neg, map_mul, Complex.conj_ofReal, Complex.conj_I, Complex.conj_conj]
    rw [div_eq_mul_inv _ (Complex.exp _), ← Complex.exp_neg]
    have : -(Complex.I * ((b.phase.getD 0 * Real.pi / 180 : ℝ) : ℂ)) =
        ((-angleShift b : ℝ) : ℂ) * Complex.I := by
      unfold angleShift; push_cast; ring
    rw [this]
    congr 1
    unfold reactance
    rw [← hb]
    push_cast
    ring
  have e : s0 P gs l = ((vMag P gs b.bus0 ^ 2 : ℝ) : ℂ) * (starRingEnd ℂ) (y00 b) +
      ((-(vMag P gs b.bus0 * vMag P gs b.bus1 / reactance b) : ℝ) : ℂ) * (Complex.I *
        Complex.exp (((vAng gs b.bus0 - vAng gs b.bus1 - angleShift b : ℝ) : ℂ) * Complex.I)) := by
    unfold s0
    rw [matY0_mulVec, map_add, map_mul, map_mul, ← hb, hphase, ← norm_voltage]
    have hv := voltage_pair P gs b.bus0 b.bus1
    have hx : Complex.exp (((vAng gs b.bus0 - vAng gs b.bus1 - angleShift b : ℝ) : ℂ) * Complex.I) =
        Complex.exp (((vAng gs b.bus0 - vAng gs b.bus1 : ℝ) : ℂ) * Complex.I) *
          Complex.exp (((-angleShift b : ℝ) : ℂ) * Complex.I) := by
      rw [← Complex.exp_add]; congr 1; push_cast; ring
    rw [hx]
    push_cast at hv ⊢
    linear_combination (-1 / (reactance b : ℂ)) * Complex.I *
      Complex.exp (-(angleShift b : ℂ) * Complex.I) * hv
  rw [e, Complex.add_re, Complex.re_ofReal_mul, hself _ rfl, Complex.re_ofReal_mul, Complex.exp_mul_I,
    ← Complex.ofReal_cos, ← Complex.ofReal_sin]
  simp only [Complex.mul_re, Complex.add_re, Complex.add_im, Complex.mul_im, Complex.ofReal_re,
    Complex.ofReal_im, Complex.I_re, Complex.I_im, sineFlow, ← hb]
  ring

theorem s1_re (P : Problem nb m) (h : Lossless P) (gs : Guess nb) (l : Fin m) :
    (s1 P gs l).re = - sineFlow P gs l := by
  set b := P.br l with hb
  have hself : ∀ z : ℂ, (starRingEnd ℂ) (y11 b) = z → z.re = 0 := by
    rintro z rfl
    rw [y11, ySe_lossless (h.r l), ySh, h.g l]
    have : ((((-1 / b.x : ℝ) : ℂ) * Complex.I + 1 / 2 * (((0 : ℝ) : ℂ) + Complex.I * b.b)) /
        (tauLv b : ℂ) ^ 2) = (((-1 / b.x + b.b / 2) / tauLv b ^ 2 : ℝ) : ℂ) * Complex.I := by
      push_cast; ring
    rw [this, map_mul, Complex.conj_ofReal, Complex.conj_I, Complex.re_ofReal_mul]; simp
  have hphase : (starRingEnd ℂ) (y10 b) = ((-1 / reactance b : ℝ) : ℂ) * Complex.I *
      Complex.exp (((angleShift b : ℝ) : ℂ) * Complex.I) := by
    rw [y10, ySe_lossless (h.r l), phaseFactor]
    simp only [map_div₀, map_neg, map_mul, Complex.conj_ofReal, Complex.conj_I, ← Complex.exp_conj]
    rw [div_eq_mul_inv _ (Complex.exp _), ← Complex.exp_neg]
    have : -(-Complex.I * ((b.phase.getD 0 * Real.pi / 180 : ℝ) : ℂ)) =
        ((angleShift b : ℝ) : ℂ) * Complex.I := by
      unfold angleShift; push_cast; ring
    rw [this]
    congr 1
    unfold reactance
    rw [← hb]
    push_cast
    ring
  have e : s1 P gs l = ((vMag P gs b.bus1 ^ 2 : ℝ) : ℂ) * (starRingEnd ℂ) (y11 b) +
      ((-(vMag P gs b.bus0 * vMag P gs b.bus1 / reactance b) : ℝ) : ℂ) * (Complex.I *
        Complex.exp (((-(vAng gs b.bus0 - vAng gs b.bus1 - angleShift b) : ℝ) : ℂ) * Complex.I)) := by
    unfold s1
    rw [matY1_mulVec, map_add, map_mul, map_mul, ← hb, hphase, ← norm_voltage]
    have hv := voltage_pair P gs b.bus1 b.bus0
    have hx : Complex.exp (((-(vAng gs b.bus0 - vAng gs b.bus1 - angleShift b) : ℝ) : ℂ) * Complex.I) =
        Complex.exp (((vAng gs b.bus1 - vAng gs b.bus0 : ℝ) : ℂ) * Complex.I) *
          Complex.exp (((angleShift b : ℝ) : ℂ) * Complex.I) := by
      rw [← Complex.exp_add]; congr 1; push_cast; ring
    rw [hx]
    push_cast at hv ⊢
    linear_combination (-1 / (reactance b : ℂ)) * Complex.I *
      Complex.exp ((angleShift b : ℂ) * Complex.I) * hv
  rw [e, Complex.add_re, Complex.re_ofReal_mul, hself _ rfl, Complex.re_ofReal_mul, Complex.exp_mul_I,
    ← Complex.ofReal_cos, ← Complex.ofReal_sin]
  simp only [Complex.mul_re, Complex.add_re, Complex.add_im, Complex.mul_im, Complex.ofReal_re,
    Complex.ofReal_im, Complex.I_re, Complex.I_im, sineFlow, ← hb, Real.sin_neg]
  ring

theorem power_re (P : Problem nb m) (h : Lossless P) (gs : Guess nb) (i : Fin nb) :
    (power P gs i).re = leaving P.br (sineFlow P gs) i := by
  rw [power_split, Complex.add_re, Complex.add_re, Complex.re_sum, Complex.re_sum]
  have hsh : ∀ L : List (Shunt nb), (∀ s ∈ L, s.g = 0) → ((L.map
      (fun s => ((shuntP P gs s : ℂ) - Complex.I * shuntQ P gs s))).sum).re = 0 := by
    intro L hL
    induction L with
    | nil => simp
    | cons a t ih =>
      have := ih fun s hs => hL s (List.mem_cons_of_mem _ hs)
      rw [List.map_cons, List.sum_cons, Complex.add_re, this]
      simp [shuntP, hL a List.mem_cons_self]
  rw [hsh _ fun s hs => h.shunt s (List.mem_filter.1 hs).1]
  simp only [s0_re P h, s1_re P h, leaving, Finset.sum_neg_distrib]
  ring

/-! ### The first step -/

/-- Derivative of an angle. -/
theorem vAng_deriv (gs : Guess nb) (j : Fin nb) (hj : j.val ≠ 0) (i : Fin nb) (t : ℝ) :
    HasDerivAt (fun t => vAng (gs.set t (.ang j)) i) (if i = j then 1 else 0) t := by
  by_cases h : i = j
  · subst h
    simp only [vAng, Guess.set, hj, if_false, Function.update_self, if_true]
    exact hasDerivAt_id t
  · have e : (fun t => vAng (gs.set t (.ang j)) i) = fun _ => vAng gs i := by
      funext t; simp [vAng, Guess.set, Function.update_of_ne h]
    rw [e, if_neg h]; exact hasDerivAt_const _ _

theorem leaving_deriv (br : Fin m → Branch nb) (f : ℝ → Fin m → ℝ) (f' : Fin m → ℝ) (t : ℝ)
    (h : ∀ l, HasDerivAt (fun t => f t l) (f' l) t) (i : Fin nb) :
    HasDerivAt (fun t => leaving br (f t) i) (leaving br f' i) t := by
  unfold leaving
  exact (HasDerivAt.fun_sum fun l _ => h l).sub (HasDerivAt.fun_sum fun l _ => h l)

variable {P : Problem nb m}

/-- At the flat start with voltages 1 and no phase shift. -/
structure AtFlat (P : Problem nb m) : Prop where
  lossless : Lossless P
  single : P.weights = none
  set : ∀ i, P.vSet i = 1
  noShift : ∀ l, angleShift (P.br l) = 0

theorem flat_mag (h : AtFlat P) (i : Fin nb) : vMag P flat i = 1 := by
  unfold vMag flat; split <;> simp [h.set]

theorem flat_ang (i : Fin nb) : vAng (flat : Guess nb) i = 0 := by
  unfold vAng flat; split <;> rfl

theorem flat_power (h : AtFlat P) (i : Fin nb) : (power P flat i).re = 0 := by
  rw [power_re P h.lossless]
  simp [leaving, sineFlow, flat_ang, h.noShift]

theorem mismatch_re (h : AtFlat P) (gs : Guess nb) (i : Fin nb) :
    (mismatch P gs i).re = leaving P.br (sineFlow P gs) i - (P.s i).re := by
  simp only [mismatch, h.single, Complex.sub_re, power_re P h.lossless]

theorem jac_ang (h : AtFlat P) (i j : Fin nb) (hj : j.val ≠ 0) :
    jac P flat (.active i) (.ang j) = leaving P.br (fun l => 1 / reactance (P.br l) *
      ((if (P.br l).bus0 = j then 1 else 0) - (if (P.br l).bus1 = j then 1 else 0))) i := by
  have h1 := jacobian_is_derivative P flat (fun j _ => by simp [flat]) (.active i) (.ang j) hj
  refine h1.unique ?_
  simp only [mismatchAt, mismatch_re h]
  refine HasDerivAt.sub_const _ (leaving_deriv P.br (fun t => sineFlow P (flat.set t (.ang j))) _ _ ?_ i)
  intro l
  have hd := (((vAng_deriv flat j hj (P.br l).bus0 (flat.get (.ang j))).fun_sub
    (vAng_deriv flat j hj (P.br l).bus1 (flat.get (.ang j)))).sub_const (angleShift (P.br l))).sin
  have hm : ∀ t i, vMag P (flat.set t (.ang j)) i = 1 := fun t i => flat_mag h i
  simp only [sineFlow, hm, mul_one]
  refine (hd.const_mul (1 / reactance (P.br l))).congr_deriv ?_
  rw [Guess.set_get]
  simp [flat_ang, h.noShift]

theorem jac_mag (h : AtFlat P) (i j : Fin nb) (hj : 1 + P.npv ≤ j.val) :
    jac P flat (.active i) (.mag j) = 0 := by
  have h1 := jacobian_is_derivative P flat (fun j _ => by simp [flat]) (.active i) (.mag j) hj
  refine h1.unique ?_
  simp only [mismatchAt, mismatch_re h]
  have e : ∀ t, leaving P.br (sineFlow P (flat.set t (.mag j))) i = 0 := by
    intro t
    have ha : ∀ k, vAng ((flat : Guess nb).set t (.mag j)) k = 0 := fun k => flat_ang k
    simp [leaving, sineFlow, ha, h.noShift]
  simp only [e]
  exact hasDerivAt_const _ _

theorem leaving_grid {br : Fin m → Branch (n + 1)} {g : Grid ℝ n m}
    (h0 : ∀ l, g.bus0 l = (br l).bus0) (h1 : ∀ l, g.bus1 l = (br l).bus1) (f : Fin m → ℝ)
    (i : Fin (n + 1)) : leaving br f i = outflow g f i := by
  simp only [leaving, outflow, Finset.sum_filter, h0, h1]

/-- **First step.** Without losses, phase shifts and voltage set points other than 1, the angles after
the first Newton step from the flat start are those of the linear power flow with the reactances of the
branches, whatever taps, charging, shunt susceptances and reactive powers. -/
theorem first_step {P : Problem (n + 1) m} (h : AtFlat P) (solve : Solve ℝ) (hs : Solves solve)
    (g : Grid ℝ n m) (h0 : ∀ l, g.bus0 l = (P.br l).bus0) (h1 : ∀ l, g.bus1 l = (P.br l).bus1)
    (hz : ∀ l, g.z l = reactance (P.br l)) (hsh : ∀ l, g.shift l = 0) (hreg : g.Bred.det ≠ 0)
    (gs : Guess (n + 1)) (hstep : NewtonStep P flat gs) (i : Fin (n + 1)) :
    vAng gs i = vDiff solve g (fun i => (P.s i).re) i := by
  have hJ : ∀ i j : Fin (n + 1), j.val ≠ 0 → jac P flat (.active i) (.ang j) = g.B i j := by
    intro i j hj
    rw [jac_ang h i j hj, leaving_grid h0 h1, ← K_mulVec]
    have : g.B i j = (g.B *ᵥ Pi.single j 1) i := by rw [Matrix.mulVec_single_one]; rfl
    rw [this, B_mulVec]
    congr 1
    congr 1
    funext l
    rw [H_mulVec, Grid.b, hz, h0, h1]
    simp [Pi.single_apply]
  have hB : g.Bred *ᵥ (fun j => gs.ang j.succ) = fun i => (P.s i.succ).re := by
    funext i
    have e := hstep.1 i.succ (by simp)
    rw [mismatch_re h, ← power_re P h.lossless, flat_power h] at e
    rw [Finset.sum_eq_zero (s := Finset.univ.filter fun j : Fin (n + 1) => 1 + P.npv ≤ j.val)
      (fun j hj => by rw [jac_mag h _ _ (Finset.mem_filter.1 hj).2, zero_mul])] at e
    rw [Finset.sum_filter, Fin.sum_univ_succ] at e
    simp only [Matrix.mulVec, dotProduct, Grid.Bred, Matrix.submatrix_apply]
    have e2 : ∑ j : Fin n, g.B i.succ j.succ * gs.ang j.succ = (P.s i.succ).re := by
      have : ∀ j : Fin n, (if (j.succ : Fin (n + 1)).val ≠ 0 then
          jac P flat (.active i.succ) (.ang j.succ) * (gs.ang j.succ - (flat : Guess (n + 1)).ang j.succ)
          else 0) = g.B i.succ j.succ * gs.ang j.succ := by
        intro j
        rw [if_pos (by simp), hJ _ _ (by simp)]
        simp [flat]
      simp only [this] at e
      simpa using e
    exact e2
  have hbus : g.pBusShift = 0 := by
    have : g.pBranchShift = 0 := by funext l; simp [Grid.pBranchShift, hsh]
    simp [Grid.pBusShift, this]
  unfold vDiff
  by_cases hm : m = 0
  · have : n = 0 := by
      subst hm; exact no_buses_of_no_branches g hreg
    subst this
    rw [if_pos hm]
    simp [vAng]
  · rw [if_neg hm, hbus, sub_zero, solve_unique solve hs g.Bred hreg _ _ hB]
    refine Fin.cases ?_ (fun j => ?_) i
    · simp [vAng]
    · simp [vAng]

/-! ### Transformers and lines of the network -/

/-- Branches for which both power flows see the same reactance. -/
def Plain : Raw nb → Prop
  | .line _ _ _ _ _ _ _ => True
  | .trafo _ _ _ _ _ b _ t side _ isT => t ≠ 0 ∧ (side = 0 ∨ side = 1) ∧ (isT = false ∨ b = 0)

/-- Resistance and conductance zero. -/
def NoLoss : Raw nb → Prop
  | .line _ _ r _ g _ _ => r = 0 ∧ g = 0
  | .trafo _ _ r _ g _ _ _ _ _ _ => r = 0 ∧ g = 0

theorem tModel_lossless (p : Types.PU) (hr : p.r = 0) (hg : p.g = 0) :
    (Types.tModel p).r = 0 ∧ (Types.tModel p).g = 0 ∧
      (p.isT = true → p.b ≠ 0 → (Types.tModel p).x = p.x * (1 - p.x * p.b / 4)) := by
  have hz : Types.zSeries p = (p.x : ℂ) * Complex.I := by simp [Types.zSeries, hr, mul_comm]
  have hy : Types.yShunt p = (p.b : ℂ) * Complex.I := by simp [Types.yShunt, hg, mul_comm]
  unfold Types.tModel
  split
  · rename_i h
    have hb : (p.b : ℂ) ≠ 0 := by
      intro h0; apply h.2; rw [hy, h0, zero_mul]
    rw [hz, hy]
    have e3 : (Types.wyeToDelta ((p.x : ℂ) * Complex.I / 2) ((p.x : ℂ) * Complex.I / 2)
        (1 / ((p.b : ℂ) * Complex.I))).2.2 = ((p.x * (1 - p.x * p.b / 4) : ℝ) : ℂ) * Complex.I := by
      simp only [Types.wyeToDelta]
      have hI : Complex.I ≠ 0 := Complex.I_ne_zero
      push_cast
      field_simp
      linear_combination (4 * (p.x : ℂ) ^ 2 * p.b) * Complex.I_sq
    have e1 : ∃ c : ℝ, 2 / (Types.wyeToDelta ((p.x : ℂ) * Complex.I / 2) ((p.x : ℂ) * Complex.I / 2)
        (1 / ((p.b : ℂ) * Complex.I))).1 = (c : ℂ) * Complex.I := by
      have e : (Types.wyeToDelta ((p.x : ℂ) * Complex.I / 2) ((p.x : ℂ) * Complex.I / 2)
        (1 / ((p.b : ℂ) * Complex.I))).1 = (((p.x * (p.b * p.x - 4)) / (2 * p.b * p.x) : ℝ) : ℂ)
          * Complex.I := by
        simp only [Types.wyeToDelta]
        by_cases hx : (p.x : ℂ) = 0
        · simp [show p.x = 0 by exact_mod_cast hx]
        · have hI : Complex.I ≠ 0 := Complex.I_ne_zero
          push_cast
          field_simp
          ring_nf
          rw [Complex.I_sq]
          ring
      refine ⟨-2 / ((p.x * (p.b * p.x - 4)) / (2 * p.b * p.x)), ?_⟩
      rw [e]
      rw [div_mul_eq_div_div_swap, Complex.div_I]
      push_cast
      ring
    obtain ⟨c, e1⟩ := e1
    refine ⟨?_, ?_, ?_⟩
    · simp only [e3]; simp
    · simp only [e1]; simp
    · intro _ _; simp only [e3]; simp
  · rename_i h
    refine ⟨hr, hg, fun hT hb => absurd ⟨hT, ?_⟩ h⟩
    rw [hy]
    exact mul_ne_zero (by exact_mod_cast hb) Complex.I_ne_zero

theorem branch_ends (l : Raw nb) : l.branch.bus0 = l.bus0 ∧ l.branch.bus1 = l.bus1 ∧
    angleShift l.branch = l.shift := by
  cases l <;> simp [Raw.branch, Raw.bus0, Raw.bus1, Raw.shift, angleShift]

theorem branch_lossless (l : Raw nb) (h : NoLoss l) : l.branch.r = 0 ∧ l.branch.g = 0 := by
  have hp : l.pu.r = 0 ∧ l.pu.g = 0 := by
    cases l <;> simp_all [NoLoss, Raw.pu]
  obtain ⟨h1, h2, _⟩ := tModel_lossless _ hp.1 hp.2
  cases l <;> exact ⟨h1, h2⟩

theorem branch_reactance (l : Raw nb) (h : NoLoss l) (hp : Plain l) : reactance l.branch = l.xEff := by
  cases l with
  | line b0 b1 r x g b v =>
    simp [Raw.branch, reactance, Raw.xEff, tauLv, tauHv, Types.tModel, Raw.pu]
  | trafo b0 b1 r x g b s t side ph isT =>
    obtain ⟨ht, hside, hT⟩ := hp
    obtain ⟨rfl, rfl⟩ := h
    have hq : Types.tModel (Raw.pu (.trafo b0 b1 0 x 0 b s t side ph isT)) =
        Raw.pu (.trafo b0 b1 0 x 0 b s t side ph isT) := by
      rcases hT with rfl | rfl
      · simp [Types.tModel, Raw.pu]
      · simp [Types.tModel, Raw.pu, Types.yShunt]
    rcases hside with rfl | rfl <;>
      simp [Raw.branch, reactance, hq, Raw.xEff, tauLv, tauHv, tau, ht]

/-- A power flow over the branches of a network without losses and phase shifts, with one slack bus and
all voltage set points 1. -/
structure Simple (raw : Fin m → Raw nb) (P : Problem nb m) : Prop where
  br : ∀ l, P.br l = (raw l).branch
  noLoss : ∀ l, NoLoss (raw l)
  noShift : ∀ l, (raw l).shift = 0
  shunt : ∀ s ∈ P.shunts, s.g = 0
  single : P.weights = none
  set : ∀ i, P.vSet i = 1

theorem atFlat_of_simple {raw : Fin m → Raw nb} {P : Problem nb m} (h : Simple raw P) : AtFlat P where
  lossless := ⟨fun l => by rw [h.br]; exact (branch_lossless _ (h.noLoss l)).1,
    fun l => by rw [h.br]; exact (branch_lossless _ (h.noLoss l)).2, h.shunt⟩
  single := h.single
  set := h.set
  noShift := fun l => by rw [h.br, (branch_ends _).2.2, h.noShift]

/-- **C142, first step.** In a network without losses and phase shifts, with voltage set points 1 and
transformers whose tap is on side 0 or 1 and which have the model "pi" or no susceptance, the first Newton
step of the power flow from the flat start arrives at the angles of the linear power flow. -/
theorem first_step_is_lpf_partial {raw : Fin m → Raw (n + 1)} {P : Problem (n + 1) m} (h : Simple raw P)
    (hplain : ∀ l, Plain (raw l)) (solve : Solve ℝ) (hs : Solves solve) (hreg : (grid raw).Bred.det ≠ 0)
    (gs : Guess (n + 1)) (hstep : NewtonStep P flat gs) (i : Fin (n + 1)) :
    vAng gs i = vDiff solve (grid raw) (fun i => (P.s i).re) i :=
  first_step (atFlat_of_simple h) solve hs (grid raw)
    (fun l => by rw [h.br, (branch_ends _).1]; rfl) (fun l => by rw [h.br, (branch_ends _).2.1]; rfl)
    (fun l => by rw [h.br, branch_reactance _ (h.noLoss l) (hplain l)]; rfl)
    (fun l => h.noShift l) hreg gs hstep i

/-! ### Flows at the same angles -/

theorem sin_near (x : ℝ) : |Real.sin x - x| ≤ |x| ^ 3 / 6 := by
  have key : ∀ y : ℝ, 0 ≤ y → |Real.sin y - y| ≤ y ^ 3 / 6 := by
    intro y hy
    rw [abs_le]
    constructor
    · have := Real.sin_ge_sub_cube hy; linarith
    · have := Real.sin_le hy
      have h3 : 0 ≤ y ^ 3 := by positivity
      linarith
  rcases le_total 0 x with h | h
  · rw [abs_of_nonneg h]; exact key x h
  · have := key (-x) (by linarith)
    rw [Real.sin_neg] at this
    rw [abs_of_nonpos h]
    have e : |Real.sin x - x| = |-Real.sin x - -x| := by rw [← abs_neg]; congr 1; ring
    rw [e]; exact this

/-- **C142, branch flows.** At the same angles and with voltages 1, the active flow of the power flow over
a branch without losses is the flow of the linear power flow up to the cube of the angle difference over
six times the reactance, and what enters at one end leaves at the other; phase shifts are allowed. -/
theorem flow_near {raw : Fin m → Raw (n + 1)} {P : Problem (n + 1) m} (hbr : ∀ l, P.br l = (raw l).branch)
    (hl : ∀ l, NoLoss (raw l)) (hsh : ∀ s ∈ P.shunts, s.g = 0) (gs : Guess (n + 1)) (l : Fin m)
    (hp : Plain (raw l)) (hv0 : vMag P gs (raw l).bus0 = 1) (hv1 : vMag P gs (raw l).bus1 = 1) :
    let d := vAng gs (raw l).bus0 - vAng gs (raw l).bus1 - (raw l).shift
    |(s0 P gs l).re - ((grid raw).H *ᵥ vAng gs + (grid raw).pBranchShift) l| ≤
      |d| ^ 3 / (6 * |(raw l).xEff|) ∧
    (s1 P gs l).re = - (s0 P gs l).re := by
  intro d
  have hL : Lossless P := ⟨fun l => by rw [hbr]; exact (branch_lossless _ (hl l)).1,
    fun l => by rw [hbr]; exact (branch_lossless _ (hl l)).2, hsh⟩
  refine ⟨?_, by rw [s1_re P hL, s0_re P hL]⟩
  rw [s0_re P hL, Pi.add_apply, H_mulVec]
  have e1 : sineFlow P gs l = 1 / (raw l).xEff * Real.sin d := by
    simp only [sineFlow, hbr, (branch_ends _).1, (branch_ends _).2.1, (branch_ends _).2.2, hv0, hv1,
      branch_reactance _ (hl l) hp, mul_one, d]
  have e2 : (grid raw).b l * (vAng gs ((grid raw).bus0 l) - vAng gs ((grid raw).bus1 l)) +
      (grid raw).pBranchShift l = 1 / (raw l).xEff * d := by
    simp only [Grid.b, Grid.pBranchShift, grid, d]; ring
  rw [e1, e2, ← mul_sub, abs_mul, abs_div, abs_one]
  have := mul_le_mul_of_nonneg_left (sin_near d) (show (0 : ℝ) ≤ 1 / |(raw l).xEff| by positivity)
  refine this.trans (le_of_eq ?_)
  rw [div_mul_div_comm, one_mul, mul_comm |(raw l).xEff|]

/-- **C142, units.** In kilovolts, ohms and megawatts: a line without losses carries the product of the
voltages over its reactance times the sine of the angle difference; a transformer carries its rating over
reactance and tap ratio, times the voltages in per unit and the sine. -/
theorem flow_in_units {P : Problem nb m} (hL : Lossless P) (gs : Guess nb) (l : Fin m) :
    (∀ b0 b1 r x g b v, P.br l = (Raw.line b0 b1 r x g b v).branch → v ≠ 0 →
      (s0 P gs l).re = (vMag P gs b0 * v) * (vMag P gs b1 * v) / x * Real.sin (vAng gs b0 - vAng gs b1)) ∧
    (∀ b0 b1 x b s t side ph isT, P.br l = (Raw.trafo b0 b1 0 x 0 b s t side ph isT).branch →
      t ≠ 0 → (side = 0 ∨ side = 1) → (isT = false ∨ b = 0) →
      (s0 P gs l).re = vMag P gs b0 * vMag P gs b1 * s / (x * t) *
        Real.sin (vAng gs b0 - vAng gs b1 - ph * Real.pi / 180)) := by
  constructor
  · intro b0 b1 r x g b v hb hv
    rw [s0_re P hL, sineFlow, hb]
    have e : reactance (Raw.line b0 b1 r x g b v).branch = x / v ^ 2 := by
      simp [Raw.branch, reactance, tauLv, tauHv, Types.tModel, Raw.pu]
    rw [e, (branch_ends _).1, (branch_ends _).2.1, (branch_ends _).2.2]
    simp only [Raw.bus0, Raw.bus1, Raw.shift, sub_zero]
    congr 1
    rw [div_div_eq_mul_div]
    ring
  · intro b0 b1 x b s t side ph isT hb ht hside hT
    have e := branch_reactance (.trafo b0 b1 0 x 0 b s t side ph isT) ⟨rfl, rfl⟩ ⟨ht, hside, hT⟩
    rw [s0_re P hL, sineFlow, hb, e, (branch_ends _).1, (branch_ends _).2.1, (branch_ends _).2.2]
    simp only [Raw.bus0, Raw.bus1, Raw.shift, Raw.xEff, Raw.pu]
    congr 1
    rw [div_mul_eq_mul_div, div_div_eq_mul_div]

/-! ### Radial networks -/

/-- In a connected network with as many branches as buses other than the slack bus, every branch
separates the buses: a function of the buses which is 0 at the slack bus, differs by 1 between the ends of
the branch, not between the ends of the others, and lies between -1 and 1. -/
theorem cut (g : Grid ℝ n n) (hc : Connected g) (l : Fin n) :
    ∃ θ : Fin (n + 1) → ℝ, θ 0 = 0 ∧ (∀ k, θ (g.bus0 k) - θ (g.bus1 k) = if k = l then 1 else 0) ∧
      ∀ i, |θ i| ≤ 1 := by
  let T : (Fin n → ℝ) →ₗ[ℝ] (Fin n → ℝ) :=
    { toFun := fun v k => (Fin.cons 0 v : Fin (n + 1) → ℝ) (g.bus0 k) -
        (Fin.cons 0 v : Fin (n + 1) → ℝ) (g.bus1 k)
      map_add' := by
        intro v w
        have e : ∀ i, (Fin.cons 0 (v + w) : Fin (n + 1) → ℝ) i =
            (Fin.cons 0 v : Fin (n + 1) → ℝ) i + (Fin.cons 0 w : Fin (n + 1) → ℝ) i := by
          intro i; refine Fin.cases ?_ (fun j => ?_) i <;> simp
        funext k; simp only [e, Pi.add_apply]; ring
      map_smul' := by
        intro c v
        have e : ∀ i, (Fin.cons 0 (c • v) : Fin (n + 1) → ℝ) i =
            c * (Fin.cons 0 v : Fin (n + 1) → ℝ) i := by
          intro i; refine Fin.cases ?_ (fun j => ?_) i <;> simp
        funext k; simp only [e, Pi.smul_apply, smul_eq_mul, RingHom.id_apply]; ring }
  have hinj : Function.Injective T := by
    rw [← LinearMap.ker_eq_bot, LinearMap.ker_eq_bot']
    intro v hv
    have := angles_const g hc (Fin.cons 0 v) (fun k => congrFun hv k)
    funext j
    simpa using this j.succ
  obtain ⟨v, hv⟩ := (LinearMap.injective_iff_surjective.1 hinj) (fun k => if k = l then 1 else 0)
  refine ⟨Fin.cons 0 v, by simp, fun k => congrFun hv k, ?_⟩
  set θ : Fin (n + 1) → ℝ := Fin.cons 0 v with hθ
  have hd : ∀ k, θ (g.bus0 k) - θ (g.bus1 k) = if k = l then 1 else 0 := fun k => congrFun hv k
  have claim : ∀ i, θ i = 0 ∨ ((θ (g.bus0 l) = 0 ∨ θ (g.bus1 l) = 0) ∧
      (θ i = θ (g.bus0 l) ∨ θ i = θ (g.bus1 l))) := by
    intro i
    induction hc i with
    | refl => left; simp [hθ]
    | tail _ hstep ih =>
      obtain ⟨k, hk⟩ := hstep
      by_cases hkl : k = l
      · subst hkl
        rcases hk with ⟨rfl, rfl⟩ | ⟨rfl, rfl⟩
        · rcases ih with ih | ih
          · exact Or.inr ⟨Or.inl ih, Or.inr rfl⟩
          · exact Or.inr ⟨ih.1, Or.inr rfl⟩
        · rcases ih with ih | ih
          · exact Or.inr ⟨Or.inr ih, Or.inl rfl⟩
          · exact Or.inr ⟨ih.1, Or.inl rfl⟩
      · have := hd k
        rw [if_neg hkl, sub_eq_zero] at this
        rcases hk with ⟨rfl, rfl⟩ | ⟨rfl, rfl⟩
        · rw [← this]; exact ih
        · rw [this]; exact ih
  have hl := hd l
  rw [if_pos rfl] at hl
  intro i
  rcases claim i with h | ⟨h | h, h' | h'⟩
  · rw [h]; simp
  · rw [h', h]; simp
  · rw [h', show θ (g.bus1 l) = -1 by linarith]; simp
  · rw [h', show θ (g.bus0 l) = 1 by linarith]; simp
  · rw [h', h]; simp

/-- **C142, radial networks.** If a connected network without losses has no cycles, the active flows
reported by a power flow which converged are those of the linear power flow up to the tolerance times the
number of buses, whatever voltages, reactances, phase shifts, taps and models of the transformers. -/
theorem radial_flows {raw : Fin n → Raw (n + 1)} {P : Problem (n + 1) n}
    (hbr : ∀ l, P.br l = (raw l).branch) (hl : ∀ l, NoLoss (raw l)) (hsh : ∀ s ∈ P.shunts, s.g = 0)
    (hw : P.weights = none) (hc : Connected (grid raw)) (solve : Solve ℝ) (hs : Solves solve)
    (hreg : (grid raw).Bred.det ≠ 0) (next : Guess (n + 1) → Guess (n + 1)) (tol : ℝ)
    (guess : Guess (n + 1)) (hconv : (solvePF P next tol guess).converged = true) (l : Fin n) :
    let gs := (solvePF P next tol guess).root
    |(s0 P gs l).re - flows solve (grid raw) (fun i => (P.s i).re) l| ≤ n * tol ∧
    |(s1 P gs l).re + flows solve (grid raw) (fun i => (P.s i).re) l| ≤ n * tol := by
  intro gs
  have hL : Lossless P := ⟨fun l => by rw [hbr]; exact (branch_lossless _ (hl l)).1,
    fun l => by rw [hbr]; exact (branch_lossless _ (hl l)).2, hsh⟩
  set f := flows solve (grid raw) (fun i => (P.s i).re) with hf
  set d : Fin n → ℝ := fun l => (s0 P gs l).re - f l with hd
  have h0 : ∀ l, (grid raw).bus0 l = (P.br l).bus0 := fun l => by rw [hbr, (branch_ends _).1]; rfl
  have h1 : ∀ l, (grid raw).bus1 l = (P.br l).bus1 := fun l => by rw [hbr, (branch_ends _).2.1]; rfl
  have hres : ∀ i : Fin (n + 1), i ≠ 0 → |outflow (grid raw) d i| ≤ tol := by
    intro i hi
    have hv : i.val ≠ 0 := fun h => hi (Fin.ext h)
    have hr := solvePF_residual P next tol guess hconv _ (residual_re P gs i (Or.inr hv))
    have hm : (mismatch P gs i).re = (power P gs i).re - (P.s i).re := by
      simp [mismatch, hw]
    rw [hm, power_re P hL, leaving_grid h0 h1] at hr
    have hb := lpf_balance solve hs (grid raw) hreg (fun i => (P.s i).re)
    have hbi : outflow (grid raw) f i = (P.s i).re := by
      rw [hf, hb.1 i]
      obtain ⟨j, rfl⟩ := Fin.exists_succ_eq.2 hi
      exact hb.2.1 j
    have e : outflow (grid raw) d i = outflow (grid raw) (sineFlow P gs) i - outflow (grid raw) f i := by
      simp only [← K_mulVec]
      rw [← Pi.sub_apply, ← Matrix.mulVec_sub]
      congr 2
      funext k
      simp only [hd, s0_re P hL, Pi.sub_apply]
    rw [e, hbi]
    exact hr
  have hbound : |d l| ≤ n * tol := by
    obtain ⟨θ, ht0, ht1, ht2⟩ := cut (grid raw) hc l
    have hp := outflow_pair (grid raw) d θ
    simp only [ht1, mul_ite, mul_one, mul_zero, Finset.sum_ite_eq', Finset.mem_univ, if_true] at hp
    rw [← hp, Fin.sum_univ_succ, ht0, mul_zero, zero_add]
    refine (Finset.abs_sum_le_sum_abs _ _).trans ?_
    have : ∀ i ∈ (Finset.univ : Finset (Fin n)),
        |outflow (grid raw) d i.succ * θ i.succ| ≤ tol := by
      intro i _
      rw [abs_mul]
      have a := hres i.succ (Fin.succ_ne_zero i)
      have b := ht2 i.succ
      calc _ ≤ |outflow (grid raw) d i.succ| * 1 := mul_le_mul_of_nonneg_left b (abs_nonneg _)
        _ ≤ tol := by rw [mul_one]; exact a
    refine (Finset.sum_le_sum this).trans (le_of_eq ?_)
    simp
  refine ⟨hbound, ?_⟩
  rw [s1_re P hL, ← s0_re P hL]
  have : -(s0 P gs l).re + f l = - d l := by simp only [hd]; ring
  rw [this, abs_neg]
  exact hbound

/-! ### Where the two power flows see different reactances -/

/-- **Finding** (`pf.py` 1013, 1016): the reactance of the linear power flow is written before T models are
converted.  A transformer without losses with the model "t" (the default) has in the power flow the
reactance times `1 - x b / 4`. -/
theorem t_model_reactance (b0 b1 : Fin nb) (x b s t : ℝ) (side : Int) (ph : ℝ) (ht : t ≠ 0)
    (hside : side = 0 ∨ side = 1) (hb : b * s ≠ 0) :
    let l : Raw nb := .trafo b0 b1 0 x 0 b s t side ph true
    reactance l.branch = l.xEff * (1 - (x / s) * (b * s) / 4) := by
  intro l
  have h := (tModel_lossless l.pu (by simp [l, Raw.pu]) (by simp [l, Raw.pu])).2.2 rfl hb
  have hx : l.pu.x = x / s := rfl
  have hb' : l.pu.b = b * s := rfl
  rw [hx, hb'] at h
  have e : reactance l.branch = (Types.tModel l.pu).x * t := by
    rcases hside with rfl | rfl <;> simp [reactance, Raw.branch, l, tauLv, tauHv, tau, ht]
  rw [e, h]
  show _ = x / s * t * _
  ring

/-- Both cases of `flow_in_units` occur. -/
example : ∃ P : Problem 2 2, Lossless P ∧
    P.br 0 = (Raw.line 0 1 0 2 0 1 380).branch ∧ P.br 1 = (Raw.trafo 0 1 0 (1 / 10) 0 0 500 (9 / 10) 1 30 true).branch := by
  refine ⟨⟨0, ![(Raw.line 0 1 0 2 0 1 380).branch, (Raw.trafo 0 1 0 (1 / 10) 0 0 500 (9 / 10) 1 30 true).branch], [],
    0, fun _ => 1, none⟩, ⟨?_, ?_, by simp⟩, rfl, rfl⟩ <;> intro l
  · fin_cases l
    · exact (branch_lossless (.line 0 1 0 2 0 1 380) ⟨rfl, rfl⟩).1
    · exact (branch_lossless (.trafo 0 1 0 (1 / 10) 0 0 500 (9 / 10) 1 30 true) ⟨rfl, rfl⟩).1
  · fin_cases l
    · exact (branch_lossless (.line 0 1 0 2 0 1 380) ⟨rfl, rfl⟩).2
    · exact (branch_lossless (.trafo 0 1 0 (1 / 10) 0 0 500 (9 / 10) 1 30 true) ⟨rfl, rfl⟩).2

/-- **Finding** (`pf.py` 1013, 1236, 1241-1245): a tap ratio of 0 counts as 1 in the power flow but gives
the linear power flow the reactance 0; a ratio given for a side other than 0 and 1 counts in the linear
power flow only. -/
theorem tap_differs (b0 b1 : Fin nb) (r x g b s t : ℝ) (side : Int) (ph : ℝ) :
    let l : Raw nb := .trafo b0 b1 r x g b s t side ph false
    (t = 0 → l.xEff = 0 ∧ reactance l.branch = x / s) ∧
    (side ≠ 0 → side ≠ 1 → l.xEff = x / s * t ∧ reactance l.branch = x / s) := by
  refine ⟨?_, ?_⟩
  · rintro rfl
    refine ⟨by simp [Raw.xEff], ?_⟩
    simp [reactance, Raw.branch, Types.tModel, Raw.pu, tauLv, tauHv, tau]
  · intro h0 h1
    refine ⟨rfl, ?_⟩
    simp [reactance, Raw.branch, Types.tModel, Raw.pu, tauLv, tauHv, h0, h1]

/-- Two buses with fixed voltages joined by a transformer with reactance 1 and susceptance 1; one unit of
power is taken at the second bus. -/
noncomputable def pair (isT : Bool) : Fin 1 → Raw 2 := fun _ => .trafo 0 1 0 1 0 1 1 1 0 0 isT

noncomputable def pairPF (isT : Bool) : Problem 2 1 :=
  { npv := 1, br := fun l => (pair isT l).branch, shunts := [⟨1, 0, 5, true⟩],
    s := fun i => if i = 1 then -1 else 0, vSet := fun _ => 1, weights := none }

theorem pair_simple (isT : Bool) : Simple (pair isT) (pairPF isT) where
  br := fun _ => rfl
  noLoss := fun _ => ⟨rfl, rfl⟩
  noShift := fun _ => by simp [pair, Raw.shift]
  shunt := by simp [pairPF]
  single := rfl
  set := fun _ => rfl

theorem pair_reactance (isT : Bool) (l : Fin 1) :
    reactance ((pairPF isT).br l) = if isT then 3 / 4 else 1 := by
  cases isT with
  | true =>
    have := t_model_reactance (nb := 2) 0 1 1 1 1 1 0 0 one_ne_zero (Or.inl rfl) (by norm_num)
    simp only at this
    show reactance ((pair true l).branch) = _
    rw [show pair true l = .trafo 0 1 0 1 0 1 1 1 0 0 true from rfl, this]
    norm_num [Raw.xEff, Raw.pu]
  | false =>
    show reactance ((pair false l).branch) = _
    rw [branch_reactance (pair false l) ⟨rfl, rfl⟩ ⟨one_ne_zero, Or.inl rfl, Or.inl rfl⟩]
    norm_num [pair, Raw.xEff, Raw.pu]

/-- The grid of two buses. -/
noncomputable def pairGrid (z : ℝ) : Grid ℝ 1 1 := ⟨fun _ => 0, fun _ => 1, fun _ => z, fun _ => 0⟩

theorem pairGrid_eq (isT : Bool) : grid (pair isT) = pairGrid 1 := by
  simp [grid, pairGrid, pair, Raw.bus0, Raw.bus1, Raw.xEff, Raw.pu, Raw.shift]

theorem pairGrid_Bred (z : ℝ) : (pairGrid z).Bred = fun _ _ => 1 / z := by
  funext i j
  have hi : i = 0 := Subsingleton.elim _ _
  have hj : j = 0 := Subsingleton.elim _ _
  subst hi hj
  simp [Grid.Bred, Grid.B, Grid.H, Grid.K, Matrix.mul_apply, pairGrid, Grid.b]

theorem pairGrid_reg (z : ℝ) (hz : z ≠ 0) : (pairGrid z).Bred.det ≠ 0 := by
  rw [Matrix.det_unique, pairGrid_Bred]
  exact one_div_ne_zero hz

theorem pair_lpf (solve : Solve ℝ) (hs : Solves solve) (z : ℝ) (hz : z ≠ 0) (p : Fin 2 → ℝ) :
    vDiff solve (pairGrid z) p 1 = z * p 1 := by
  have hb : (pairGrid z).pBusShift = 0 := by
    have : (pairGrid z).pBranchShift = 0 := by funext l; simp [Grid.pBranchShift, pairGrid]
    simp [Grid.pBusShift, this]
  have h := solve_unique solve hs (pairGrid z).Bred (pairGrid_reg z hz)
    (fun i => (p - (pairGrid z).pBusShift) i.succ) (fun _ => z * p 1) (by
      funext i
      have hi : i = 0 := Subsingleton.elim _ _
      subst hi
      simp [Matrix.mulVec, dotProduct, pairGrid_Bred, hb]
      field_simp)
  unfold vDiff
  rw [if_neg (by decide), h]
  rfl

theorem pair_step (isT : Bool) (gs : Guess 2) :
    NewtonStep (pairPF isT) flat gs ↔ gs.ang 1 = - reactance ((pairPF isT).br 0) := by
  have hA := atFlat_of_simple (pair_simple isT)
  have hne : reactance ((pairPF isT).br 0) ≠ 0 := by
    rw [pair_reactance]; split <;> norm_num
  have hj : jac (pairPF isT) flat (.active 1) (.ang 1) = 1 / reactance ((pairPF isT).br 0) := by
    rw [jac_ang hA _ _ (by decide)]
    simp [leaving, pairPF, pair, Raw.branch, Finset.filter_true_of_mem]
  have hm : (mismatch (pairPF isT) flat 1).re = 1 := by
    rw [mismatch_re hA, ← power_re _ hA.lossless, flat_power hA]
    simp [pairPF]
  have hf : (Finset.univ.filter fun j : Fin 2 => j.val ≠ 0) = {1} := by decide
  have hn : (Finset.univ.filter fun j : Fin 2 => 1 + (pairPF isT).npv ≤ j.val) = ∅ := by
    show (Finset.univ.filter fun j : Fin 2 => 1 + 1 ≤ j.val) = ∅
    decide
  have hz : (flat : Guess 2).ang 1 = 0 := rfl
  unfold NewtonStep
  rw [hf, hn]
  constructor
  · rintro ⟨h, _⟩
    have := h 1 (by decide)
    simp only [Finset.sum_singleton, Finset.sum_empty, hj, hm, hz, sub_zero, add_zero] at this
    field_simp at this
    linarith
  · intro h
    refine ⟨fun i hi => ?_, fun i hi => ?_⟩
    · have : i = 1 := by ext; simp; omega
      subst this
      simp only [Finset.sum_singleton, Finset.sum_empty, hj, hm, hz, sub_zero, add_zero, h]
      field_simp
    · have hi' : 1 + 1 ≤ i.val := hi
      omega

/-- **C142 fails for T models.** With a T model the first step of the power flow misses the angle of the
linear power flow by a quarter. -/
theorem t_model_differs : ∃ (raw : Fin 1 → Raw 2) (P : Problem 2 1), Simple raw P ∧
    (grid raw).Bred.det ≠ 0 ∧ (∃ gs, NewtonStep P flat gs) ∧
    ∀ solve : Solve ℝ, Solves solve → ∀ gs, NewtonStep P flat gs →
      vAng gs 1 = 3 / 4 * vDiff solve (grid raw) (fun i => (P.s i).re) 1 ∧
      vAng gs 1 ≠ vDiff solve (grid raw) (fun i => (P.s i).re) 1 := by
  refine ⟨pair true, pairPF true, pair_simple true, ?_, ?_, ?_⟩
  · rw [pairGrid_eq]; exact pairGrid_reg 1 one_ne_zero
  · exact ⟨⟨fun _ => - reactance ((pairPF true).br 0), fun _ => 1, 0⟩, (pair_step true _).2 rfl⟩
  · intro solve hs gs h
    have h1 := (pair_step true gs).1 h
    rw [pair_reactance] at h1
    rw [pairGrid_eq, pair_lpf solve hs 1 one_ne_zero]
    have e : ((pairPF true).s 1).re = -1 := by simp [pairPF]
    rw [e]
    simp only [vAng, h1]
    norm_num

/-- `first_step_is_lpf_partial` is not empty: the same transformer with the model "pi". -/
example : Simple (pair false) (pairPF false) ∧ (∀ l, Plain (pair false l)) ∧
    (grid (pair false)).Bred.det ≠ 0 ∧ ∃ gs, NewtonStep (pairPF false) flat gs ∧ gs.ang 1 = -1 := by
  refine ⟨pair_simple false, fun l => ⟨one_ne_zero, Or.inl rfl, Or.inl rfl⟩, ?_, ?_⟩
  · rw [pairGrid_eq]; exact pairGrid_reg 1 one_ne_zero
  · refine ⟨⟨fun _ => -1, fun _ => 1, 0⟩, (pair_step false _).2 ?_, rfl⟩
    rw [pair_reactance]; norm_num

theorem pair_connected (isT : Bool) : Connected (grid (pair isT)) := by
  rw [pairGrid_eq]
  intro i
  refine Fin.cases .refl (fun j => .tail .refl ⟨0, Or.inl ⟨rfl, ?_⟩⟩) i
  have : j = 0 := Subsingleton.elim _ _
  subst this; rfl

/-- The hypotheses of `radial_flows` can be met, here with a T model and a power flow which starts at its
solution, with an angle of 30 degrees. -/
example : ∃ (P : Problem 2 1) (guess : Guess 2),
    (∀ l, P.br l = (pair true l).branch) ∧ (∀ l, NoLoss (pair true l)) ∧ (∀ s ∈ P.shunts, s.g = 0) ∧
    P.weights = none ∧ Connected (grid (pair true)) ∧ (grid (pair true)).Bred.det ≠ 0 ∧
    (solvePF P id 0 guess).converged = true ∧ (P.s 1).re = -2 / 3 := by
  let P : Problem 2 1 := { pairPF true with s := fun i => if i = 1 then -2 / 3 else 0 }
  let gs : Guess 2 := ⟨fun _ => -(Real.pi / 6), fun _ => 1, 0⟩
  have hL : Lossless P := ⟨fun l => (branch_lossless (pair true l) ⟨rfl, rfl⟩).1,
    fun l => (branch_lossless (pair true l) ⟨rfl, rfl⟩).2, (pair_simple true).shunt⟩
  have hp : (power P gs 1).re = -2 / 3 := by
    rw [power_re P hL]
    have hr : ∀ l, reactance (P.br l) = 3 / 4 := fun l => by
      have := pair_reactance true l
      simpa using this
    have h0 : ∀ l, (P.br l).bus0 = 0 := fun l => rfl
    have h1 : ∀ l, (P.br l).bus1 = 1 := fun l => rfl
    have hsh : ∀ l, angleShift (P.br l) = 0 := fun l => (atFlat_of_simple (pair_simple true)).noShift l
    have hv : ∀ i, vMag P gs i = 1 := by intro i; simp [vMag, P, pairPF, gs]
    have ha : vAng gs 0 = 0 ∧ vAng gs 1 = -(Real.pi / 6) := by simp [vAng, gs]
    simp only [leaving, sineFlow, hr, h0, h1, hsh, hv, ha.1, ha.2,
      show ¬ ((0 : Fin 2) = 1) by decide, Finset.filter_false, Finset.filter_true, Finset.sum_empty]
    simp only [Finset.univ_unique, Finset.sum_singleton]
    rw [show (0 : ℝ) - -(Real.pi / 6) - 0 = Real.pi / 6 by ring, Real.sin_pi_div_six]
    norm_num
  have hm : (mismatch P gs 1).re = 0 := by
    have hs1 : (P.s 1).re = -2 / 3 := by
      have : P.s 1 = ((-2 / 3 : ℝ) : ℂ) := by simp [P]
      rw [this, Complex.ofReal_re]
    show (power P gs 1 - P.s 1).re = 0
    rw [Complex.sub_re, hp, hs1]; norm_num
  have hres : normInf (residual P gs) = 0 := by
    have e : residual P gs = [0] := by
      simp [AC.residual, List.ofFn_succ, hm, show P.weights = none from rfl, show P.npv = 1 from rfl]
    rw [e]; simp [normInf]
  refine ⟨P, gs, fun _ => rfl, fun _ => ⟨rfl, rfl⟩, (pair_simple true).shunt, rfl, pair_connected true,
    ?_, ?_, ?_⟩
  · rw [pairGrid_eq]; exact pairGrid_reg 1 one_ne_zero
  · have hstop : exceeds (some (normInf (residual P gs))) (0 : ℝ) = false := by
      simp [exceeds, hres]
    have hl : loop (fun gs => some (normInf (residual P gs))) id (0 : ℝ) 100 gs 0 = (gs, 0) := by
      unfold loop; simp only [hstop]; rfl
    simp [solvePF, newton, hl, hstop]
  · have : P.s 1 = ((-2 / 3 : ℝ) : ℂ) := by simp [P]
    rw [this, Complex.ofReal_re]

end Verif.PowerFlow.Flat
