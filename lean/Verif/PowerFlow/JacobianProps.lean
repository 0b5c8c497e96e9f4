import Verif.PowerFlow.Jacobian
import Verif.PowerFlow.AdmittanceProps
import Mathlib.Analysis.Calculus.Deriv.Star
import Mathlib.Analysis.Calculus.Deriv.Add
import Mathlib.Analysis.Calculus.Deriv.Mul
import Mathlib.Analysis.SpecialFunctions.ExpDeriv
import Mathlib.Analysis.Complex.RealDeriv

/-! # The Jacobian is the derivative of the power mismatch (C83) -/

namespace Verif.PowerFlow.AC

open Matrix

variable {nb m : Nat}

/-- A component of the mismatch. -/
noncomputable def mismatchAt (P : Problem nb m) (gs : Guess nb) : Row nb → ℝ
  | .active i => (mismatch P gs i).re
  | .reactive i => (mismatch P gs i).im

/-- The value of an unknown. -/
def Guess.get (gs : Guess nb) : Col nb → ℝ
  | .ang j => gs.ang j
  | .mag j => gs.mag j
  | .slack => gs.slack

/-- The point with one unknown changed to `t`. -/
def Guess.set (gs : Guess nb) (t : ℝ) : Col nb → Guess nb
  | .ang j => { gs with ang := Function.update gs.ang j t }
  | .mag j => { gs with mag := Function.update gs.mag j t }
  | .slack => { gs with slack := t }

/-- The unknowns of the problem: angles of all buses but the slack, magnitudes of the PQ buses. -/
def IsUnknown (P : Problem nb m) : Col nb → Prop
  | .ang j => j.val ≠ 0
  | .mag j => 1 + P.npv ≤ j.val
  | .slack => True

theorem Guess.set_get (gs : Guess nb) (c : Col nb) : gs.set (gs.get c) c = gs := by
  cases c <;> simp [Guess.set, Guess.get]

/-- If the voltages move with velocities `V'`, the power moves accordingly. -/
theorem hasDerivAt_power (P : Problem nb m) (c : Col nb) (gs : Guess nb) (V' : Fin nb → ℂ)
    (hV : ∀ k, HasDerivAt (fun t => voltage P (gs.set t c) k) (V' k) (gs.get c)) (i : Fin nb) :
    HasDerivAt (fun t => power P (gs.set t c) i)
      (V' i * (starRingEnd ℂ) ((matY P.br P.shunts *ᵥ voltage P gs) i) +
        voltage P gs i * (starRingEnd ℂ) ((matY P.br P.shunts *ᵥ V') i)) (gs.get c) := by
  have hI : HasDerivAt (fun t => (matY P.br P.shunts *ᵥ voltage P (gs.set t c)) i)
      ((matY P.br P.shunts *ᵥ V') i) (gs.get c) := by
    simp only [mulVec, dotProduct]
    exact HasDerivAt.fun_sum (fun k _ => (hV k).const_mul _)
  have := (hV i).fun_mul hI.star
  rw [Guess.set_get] at this
  exact this

theorem hasDerivAt_voltage_ang (P : Problem nb m) (gs : Guess nb) (j : Fin nb) (hj : j.val ≠ 0)
    (k : Fin nb) : HasDerivAt (fun t => voltage P (gs.set t (.ang j)) k)
      (if k = j then Complex.I * voltage P gs j else 0) (gs.get (.ang j)) := by
  by_cases h : k = j
  · subst h
    simp only [if_true, voltage, vMag, vAng, Guess.set, Guess.get, hj, if_false,
      Function.update_self]
    have h1 : HasDerivAt (fun t : ℝ => Complex.I * (t : ℂ)) (Complex.I * 1) (gs.ang k) :=
      ((hasDerivAt_id (gs.ang k)).ofReal_comp).const_mul Complex.I
    have h2 := h1.cexp.const_mul ((if k.val < 1 + P.npv then P.vSet k else gs.mag k : ℝ) : ℂ)
    refine HasDerivAt.congr_deriv (f' := _) h2 ?_
    ring
  · simp only [if_neg h]
    have e : (fun t => voltage P (gs.set t (.ang j)) k) = fun _ => voltage P gs k := by
      funext t
      simp [voltage, vMag, vAng, Guess.set, Function.update_of_ne h]
    rw [e]; exact hasDerivAt_const _ _

theorem hasDerivAt_voltage_mag (P : Problem nb m) (gs : Guess nb) (j : Fin nb)
    (hj : 1 + P.npv ≤ j.val) (hm : 0 < gs.mag j)
    (k : Fin nb) : HasDerivAt (fun t => voltage P (gs.set t (.mag j)) k)
      (if k = j then voltage P gs j / (‖voltage P gs j‖ : ℂ) else 0) (gs.get (.mag j)) := by
  by_cases h : k = j
  · subst h
    have hn : ‖voltage P gs k‖ = gs.mag k := by
      unfold voltage vMag
      rw [if_neg (by omega), norm_mul, Complex.norm_exp_I_mul_ofReal, mul_one]
      simp [abs_of_pos hm]
    have hne : (gs.mag k : ℂ) ≠ 0 := by exact_mod_cast hm.ne'
    rw [hn]
    simp only [if_true, voltage, vMag, vAng, Guess.set, Guess.get, if_neg (show ¬ k.val < 1 + P.npv
      by omega), Function.update_self]
    have h1 : HasDerivAt (fun t : ℝ => (t : ℂ)) 1 (gs.mag k) :=
      (hasDerivAt_id (gs.mag k)).ofReal_comp
    have h2 := h1.mul_const (Complex.exp (Complex.I *
      ((if k.val = 0 then 0 else gs.ang k : ℝ) : ℂ)))
    refine HasDerivAt.congr_deriv (f' := _) h2 ?_
    field_simp
  · simp only [if_neg h]
    have e : (fun t => voltage P (gs.set t (.mag j)) k) = fun _ => voltage P gs k := by
      funext t
      simp [voltage, vMag, vAng, Guess.set, Function.update_of_ne h]
    rw [e]; exact hasDerivAt_const _ _

theorem dSdVa_apply (Y : Matrix (Fin nb) (Fin nb) ℂ) (V : Fin nb → ℂ) (i j : Fin nb) :
    dSdVa Y V i j = (if i = j then Complex.I * V j else 0) * (starRingEnd ℂ) ((Y *ᵥ V) i) +
      V i * (starRingEnd ℂ) ((Y *ᵥ fun k => if k = j then Complex.I * V j else 0) i) := by
  have h1 : (Y *ᵥ fun k => if k = j then Complex.I * V j else 0) i = Y i j * (Complex.I * V j) := by
    simp [mulVec, dotProduct]
  rw [h1]
  simp only [dSdVa, Matrix.smul_apply, diagonal_mul, Matrix.map_apply, Matrix.sub_apply,
    mul_diagonal, smul_eq_mul, map_sub, map_mul, Complex.conj_I]
  by_cases h : i = j
  · subst h; simp [diagonal_apply_eq]; ring
  · simp [diagonal_apply_ne _ h, h]; ring

theorem dSdVm_apply (Y : Matrix (Fin nb) (Fin nb) ℂ) (V : Fin nb → ℂ) (i j : Fin nb) :
    dSdVm Y V i j = (if i = j then V j / (‖V j‖ : ℂ) else 0) * (starRingEnd ℂ) ((Y *ᵥ V) i) +
      V i * (starRingEnd ℂ) ((Y *ᵥ fun k => if k = j then V j / (‖V j‖ : ℂ) else 0) i) := by
  have h1 : (Y *ᵥ fun k => if k = j then V j / (‖V j‖ : ℂ) else 0) i =
      Y i j * (V j / (‖V j‖ : ℂ)) := by
    simp [mulVec, dotProduct]
  rw [h1]
  simp only [dSdVm, Matrix.add_apply, diagonal_mul, Matrix.map_apply, mul_diagonal]
  by_cases h : i = j
  · subst h; simp [diagonal_apply_eq]
  · simp [diagonal_apply_ne _ h, h]

/-- C83: every entry of the matrix used for the Newton step is the derivative of the mismatch with
respect to the unknown, at every point with positive voltage magnitudes at the PQ buses, for all
networks, tap settings, shunts and slack weights. -/
theorem jacobian_is_derivative (P : Problem nb m) (gs : Guess nb)
    (hmag : ∀ j : Fin nb, 1 + P.npv ≤ j.val → 0 < gs.mag j) (r : Row nb) (c : Col nb)
    (hc : IsUnknown P c) :
    HasDerivAt (fun t => mismatchAt P (gs.set t c) r) (jac P gs r c) (gs.get c) := by
  -- the complex mismatch
  have key : ∀ i, ∃ d : ℂ, HasDerivAt (fun t => mismatch P (gs.set t c) i) d (gs.get c) ∧
      jac P gs (.active i) c = d.re ∧ jac P gs (.reactive i) c = d.im := by
    intro i
    cases c with
    | ang j =>
      refine ⟨dSdVa (matY P.br P.shunts) (voltage P gs) i j, ?_, rfl, rfl⟩
      rw [dSdVa_apply]
      have h := hasDerivAt_power P (.ang j) gs _ (hasDerivAt_voltage_ang P gs j hc) i
      unfold mismatch
      cases P.weights with
      | none => exact h.sub_const _
      | some w => exact (h.sub_const (P.s i)).add_const ((w i * gs.slack : ℝ) : ℂ)
    | mag j =>
      refine ⟨dSdVm (matY P.br P.shunts) (voltage P gs) i j, ?_, rfl, rfl⟩
      rw [dSdVm_apply]
      have h := hasDerivAt_power P (.mag j) gs _ (hasDerivAt_voltage_mag P gs j hc (hmag j hc)) i
      unfold mismatch
      cases P.weights with
      | none => exact h.sub_const _
      | some w => exact (h.sub_const (P.s i)).add_const ((w i * gs.slack : ℝ) : ℂ)
    | slack =>
      have hp : (fun t => power P (gs.set t .slack) i) = fun _ => power P gs i := rfl
      have hpt : ∀ t, power P (gs.set t .slack) i = power P gs i := fun _ => rfl
      unfold mismatch
      cases hw : P.weights with
      | none =>
        refine ⟨0, ?_, by simp [jac, hw], by simp [jac]⟩
        simp only [hpt]
        exact hasDerivAt_const _ _
      | some w =>
        refine ⟨(w i : ℂ), ?_, by simp [jac, hw], by simp [jac]⟩
        simp only [hpt]
        have h1 : HasDerivAt (fun t : ℝ => ((w i * t : ℝ) : ℂ)) ((w i * 1 : ℝ) : ℂ) gs.slack :=
          ((hasDerivAt_id gs.slack).const_mul (w i)).ofReal_comp
        rw [mul_one] at h1
        exact h1.const_add _
  cases r with
  | active i =>
    obtain ⟨d, h1, h2, _⟩ := key i
    rw [h2]
    exact (Complex.reCLM.hasFDerivAt.comp_hasDerivAt _ h1)
  | reactive i =>
    obtain ⟨d, h1, _, h3⟩ := key i
    rw [h3]
    exact (Complex.imCLM.hasFDerivAt.comp_hasDerivAt _ h1)

/-- The example network has unknowns and positive magnitudes. -/
example : (∀ j : Fin 2, 1 + exPF.npv ≤ j.val → 0 < exGuess.mag j) ∧ IsUnknown exPF (.mag 1) ∧
    IsUnknown exPF (.ang 1) := by
  refine ⟨fun j _ => by simp [exGuess], ?_, ?_⟩ <;> simp [IsUnknown, exPF]

end Verif.PowerFlow.AC
