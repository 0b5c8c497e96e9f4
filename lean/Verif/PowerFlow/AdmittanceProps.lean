import Verif.PowerFlow.Admittance
import Mathlib.Algebra.Order.Archimedean.Real.Basic
import Mathlib.Tactic.Ring
import Mathlib.Tactic.FieldSimp
import Mathlib.Tactic.Linarith
import Mathlib.Tactic.NormNum
import Mathlib.Tactic.LinearCombination

/-!
# Properties of the Newton iteration, the admittance matrix and the AC power flow
(C31, C32, C82)
-/

namespace Verif.PowerFlow.AC

open Matrix

/-! ## C31: Newton iteration -/

section Newton
variable {X F : Type} [LinearOrder F]

theorem loop_spec (err : X → Option F) (next : X → X) (tol : F) (fuel : Nat) (x : X) (k : Nat) :
    ∃ j, j ≤ fuel ∧ loop err next tol fuel x k = (next^[j] x, k + j) ∧
      (∀ i, i < j → ∃ d, err (next^[i] x) = some d ∧ tol < d) ∧
      (j < fuel → ∀ d, err (next^[j] x) = some d → d ≤ tol) := by
  induction fuel generalizing x k with
  | zero => exact ⟨0, le_refl _, rfl, by simp, by simp⟩
  | succ n ih =>
    unfold loop
    by_cases h : exceeds (err x) tol = true
    · obtain ⟨j, hj, heq, hbef, haft⟩ := ih (next x) (k + 1)
      refine ⟨j + 1, by omega, ?_, ?_, ?_⟩
      · rw [if_pos h, heq]; simp [Function.iterate_succ_apply]; omega
      · intro i hi
        cases i with
        | zero =>
          cases he : err x with
          | none => simp [exceeds, he] at h
          | some d => exact ⟨d, by simpa using he, by simpa [exceeds, he] using h⟩
        | succ i => simpa [Function.iterate_succ_apply] using hbef i (by omega)
      · intro hlt; simpa [Function.iterate_succ_apply] using haft (by omega)
    · refine ⟨0, by omega, by simp [h], by simp, ?_⟩
      intro _ d hd
      simp only [Function.iterate_zero, id_eq] at hd
      simpa [exceeds, hd] using h

/-- C31: for every residual, every step and every start, the iteration makes at most `lim` steps
(100 in every call); the reported error is that of the returned point; convergence is reported
exactly when that error is a number at most the tolerance; and the iteration stops at the first
point which is good enough, so giving up means that the error is NaN or all steps were used. -/
theorem newton_honest (err : X → Option F) (next : X → X) (tol : F) (lim : Nat) (guess : X) :
    let r := newton err next tol lim guess
    r.nIter ≤ lim ∧ r.root = next^[r.nIter] guess ∧ r.diff = err r.root ∧
    (r.converged = true ↔ ∃ d, r.diff = some d ∧ d ≤ tol) ∧
    (∀ i, i < r.nIter → ∃ d, err (next^[i] guess) = some d ∧ tol < d) ∧
    (r.converged = false → r.diff = none ∨ r.nIter = lim) := by
  obtain ⟨j, hj, heq, hbef, haft⟩ := loop_spec err next tol lim guess 0
  simp only [newton, heq, Nat.zero_add]
  refine ⟨hj, trivial, trivial, ?_, hbef, ?_⟩
  · cases he : err (next^[j] guess) with
    | none => simp [exceeds]
    | some d => simp [exceeds]
  · intro hc
    by_cases hlt : j < lim
    · left
      cases he : err (next^[j] guess) with
      | none => rfl
      | some d =>
        have := haft hlt d he
        simp only [he, exceeds, Option.isSome_some] at hc
        simp [not_lt.mpr this] at hc
    · right; omega

/-- Halving towards zero: converges in three steps; an error of NaN never counts as converged. -/
example : newton (X := Nat) (F := Nat) some (· / 2) 2 100 20 =
    { root := 2, nIter := 3, diff := some 2, converged := true } := by decide
example : newton (X := Nat) (F := Nat) (fun x => if x = 5 then none else some x) (· / 2) 2 100 20 =
    { root := 5, nIter := 2, diff := none, converged := false } := by decide
example : newton (X := Nat) (F := Nat) some (· + 1) 2 100 20 =
    { root := 120, nIter := 100, diff := some 120, converged := false } := by decide +kernel

end Newton

/-! ## C32: admittance matrix -/

variable {nb m : Nat}

/-- The tap ratio of a branch at bus `side`, as the documentation gives it: the tap ratio applies
at the side `tap_side`; no tap ratio (or 0) is the nominal ratio 1. -/
def TapAt (l : Branch nb) (side : Int) (t : ℝ) : Prop :=
  (l.tapSide = some side ∧ ((l.tap = some t ∧ t ≠ 0) ∨ ((l.tap = none ∨ l.tap = some 0) ∧ t = 1))) ∨
  (l.tapSide ≠ some side ∧ t = 1)

/-- The circuit of a branch: an ideal transformer of complex ratio `t0 e^{jφ}` at bus 0, an ideal
transformer of ratio `t1` at bus 1, and between them the series impedance `r + jx` with half of
the shunt admittance `g + jb` at either end.  Ideal transformers conserve complex power. -/
def PiCircuit (l : Branch nb) (V0 V1 I0 I1 : ℂ) : Prop :=
  ∃ (t0 t1 : ℝ) (a u0 u1 j0 j1 : ℂ), TapAt l 0 t0 ∧ TapAt l 1 t1 ∧
    a = t0 * Complex.exp (Complex.I * ((l.phase.getD 0 / 180 * Real.pi : ℝ) : ℂ)) ∧
    V0 = a * u0 ∧ j0 = (starRingEnd ℂ) a * I0 ∧
    V1 = t1 * u1 ∧ j1 = t1 * I1 ∧
    (l.r + Complex.I * l.x) * (j0 - (l.g + Complex.I * l.b) / 2 * u0) = u0 - u1 ∧
    (l.r + Complex.I * l.x) * (j1 - (l.g + Complex.I * l.b) / 2 * u1) = u1 - u0

theorem tapAt_hv (l : Branch nb) : TapAt l 0 (tauHv l) := by
  unfold TapAt tauHv tau
  by_cases h : l.tapSide = some 0
  · left
    cases ht : l.tap with
    | none => simp [h]
    | some t =>
      by_cases h0 : t = 0 <;> simp [h, h0]
  · right; simp [h]

theorem tapAt_lv (l : Branch nb) : TapAt l 1 (tauLv l) := by
  unfold TapAt tauLv tau
  by_cases h : l.tapSide = some 1
  · left
    cases ht : l.tap with
    | none => simp [h]
    | some t =>
      by_cases h0 : t = 0 <;> simp [h, h0]
  · right; simp [h]

theorem tau_ne (l : Branch nb) : tau l ≠ 0 := by
  unfold tau; cases l.tap with
  | none => simp
  | some t => by_cases h0 : t = 0 <;> simp [h0]

theorem tauHv_ne (l : Branch nb) : (tauHv l : ℂ) ≠ 0 := by
  unfold tauHv; split
  · exact_mod_cast tau_ne l
  · simp

theorem tauLv_ne (l : Branch nb) : (tauLv l : ℂ) ≠ 0 := by
  unfold tauLv; split
  · exact_mod_cast tau_ne l
  · simp

theorem phaseFactor_ne (l : Branch nb) : phaseFactor l ≠ 0 := Complex.exp_ne_zero _

theorem phaseFactor_conj (l : Branch nb) :
    (starRingEnd ℂ) (phaseFactor l) * phaseFactor l = 1 := by
  unfold phaseFactor
  rw [← Complex.exp_conj, ← Complex.exp_add]
  rw [map_mul, Complex.conj_I, Complex.conj_ofReal, neg_mul, neg_add_cancel, Complex.exp_zero]

theorem conj_phaseFactor_ne (l : Branch nb) : (starRingEnd ℂ) (phaseFactor l) ≠ 0 := by
  intro h; have := phaseFactor_conj l; rw [h] at this; simp at this

/-- Currents into a branch according to the entries of the matrices. -/
theorem branch_pi (l : Branch nb) (hz : (l.r : ℂ) + Complex.I * l.x ≠ 0) (V0 V1 : ℂ) :
    PiCircuit l V0 V1 (y00 l * V0 + y01 l * V1) (y10 l * V0 + y11 l * V1) := by
  have h1 := tauHv_ne l
  have h2 := tauLv_ne l
  have h3 := phaseFactor_ne l
  have h4 := conj_phaseFactor_ne l
  have h5 := phaseFactor_conj l
  refine ⟨tauHv l, tauLv l, tauHv l * phaseFactor l, V0 / (tauHv l * phaseFactor l), V1 / tauLv l,
    _, _, tapAt_hv l, tapAt_lv l, ?_, ?_, rfl, ?_, rfl, ?_, ?_⟩
  · unfold phaseFactor; congr 4; ring
  · field_simp
  · field_simp
  · simp only [map_mul, Complex.conj_ofReal]
    generalize (starRingEnd ℂ) (phaseFactor l) = q at *
    have hq : q = 1 / phaseFactor l := by field_simp; exact h5
    unfold y00 y01 ySe ySh
    rw [show (starRingEnd ℂ) (phaseFactor l) = q from by
      rw [hq]; field_simp; exact phaseFactor_conj l]
    subst hq
    field_simp
    ring
  · unfold y10 y11 ySe ySh
    field_simp
    ring

theorem matY0_mulVec (br : Fin m → Branch nb) (V : Fin nb → ℂ) (l : Fin m) :
    (matY0 br *ᵥ V) l = y00 (br l) * V (br l).bus0 + y01 (br l) * V (br l).bus1 := by
  simp [mulVec, dotProduct, matY0, add_mul, Finset.sum_add_distrib, ite_mul]

theorem matY1_mulVec (br : Fin m → Branch nb) (V : Fin nb → ℂ) (l : Fin m) :
    (matY1 br *ᵥ V) l = y10 (br l) * V (br l).bus0 + y11 (br l) * V (br l).bus1 := by
  simp [mulVec, dotProduct, matY1, add_mul, Finset.sum_add_distrib, ite_mul]

theorem matY_mulVec (br : Fin m → Branch nb) (shunts : List (Shunt nb)) (V : Fin nb → ℂ)
    (i : Fin nb) :
    (matY br shunts *ᵥ V) i =
      (∑ l, if (br l).bus0 = i then (matY0 br *ᵥ V) l else 0) +
      (∑ l, if (br l).bus1 = i then (matY1 br *ᵥ V) l else 0) + shuntY shunts i * V i := by
  simp only [matY, add_mulVec, Pi.add_apply, ← mulVec_mulVec, mulVec_diagonal]
  congr 1
  congr 1
  · simp [mulVec, dotProduct, matC0, Matrix.transpose]
  · simp [mulVec, dotProduct, matC1, Matrix.transpose]

/-- C32 (currents): for all branches with non-zero impedance, all taps, tap sides and phase
shifts, all shunts and all voltages, `Y0 V` and `Y1 V` are the terminal currents of the circuits of
the branches, and `Y V` is at every bus the sum of the currents into the branches which start or
end there and into its shunts. -/
theorem admittance_pi_model (br : Fin m → Branch nb) (shunts : List (Shunt nb)) (V : Fin nb → ℂ)
    (hz : ∀ l, (br l).r ≠ 0 ∨ (br l).x ≠ 0) :
    ∃ I0 I1 : Fin m → ℂ, (∀ l, PiCircuit (br l) (V (br l).bus0) (V (br l).bus1) (I0 l) (I1 l)) ∧
      matY0 br *ᵥ V = I0 ∧ matY1 br *ᵥ V = I1 ∧
      ∀ i, (matY br shunts *ᵥ V) i =
        (∑ l with (br l).bus0 = i, I0 l) + (∑ l with (br l).bus1 = i, I1 l) +
        ((shunts.filter (fun s => s.bus = i)).map
          (fun s => ((s.g : ℂ) + Complex.I * s.b) * V i)).sum := by
  refine ⟨matY0 br *ᵥ V, matY1 br *ᵥ V, ?_, rfl, rfl, ?_⟩
  · intro l
    rw [matY0_mulVec, matY1_mulVec]
    apply branch_pi
    intro h
    have hr := congrArg Complex.re h
    have hi := congrArg Complex.im h
    simp at hr hi
    rcases hz l with h | h
    · exact h hr
    · exact h hi
  · intro i
    rw [matY_mulVec, Finset.sum_filter, Finset.sum_filter, shuntY, List.sum_map_mul_right]

/-- The terminal currents of a circuit are determined by its voltages, so `admittance_pi_model`
leaves no freedom. -/
theorem piCircuit_unique (l : Branch nb) (hz : l.r ≠ 0 ∨ l.x ≠ 0) (V0 V1 I0 I1 I0' I1' : ℂ)
    (h : PiCircuit l V0 V1 I0 I1) (h' : PiCircuit l V0 V1 I0' I1') : I0 = I0' ∧ I1 = I1' := by
  have hzz : (l.r : ℂ) + Complex.I * l.x ≠ 0 := by
    intro h
    have hr := congrArg Complex.re h
    have hi := congrArg Complex.im h
    simp at hr hi
    rcases hz with h | h
    · exact h hr
    · exact h hi
  have tap_unique : ∀ (side : Int) (t t' : ℝ), TapAt l side t → TapAt l side t' → t = t' := by
    intro side t t' h h'
    unfold TapAt at h h'
    rcases h with ⟨hs, h⟩ | ⟨hs, h⟩ <;> rcases h' with ⟨hs', h'⟩ | ⟨hs', h'⟩
    · rcases h with ⟨h1, h2⟩ | ⟨h1 | h1, h2⟩ <;> rcases h' with ⟨h1', h2'⟩ | ⟨h1' | h1', h2'⟩ <;>
        simp_all
    · exact absurd hs hs'
    · exact absurd hs' hs
    · rw [h, h']
  have tap_ne : ∀ (side : Int) (t : ℝ), TapAt l side t → t ≠ 0 := by
    intro side t h
    rcases h with ⟨hs, ⟨h1, h2⟩ | ⟨h1, h2⟩⟩ | ⟨hs, h⟩ <;> simp_all
  obtain ⟨t0, t1, a, u0, u1, j0, j1, ht0, ht1, ha, hV0, hj0, hV1, hj1, he0, he1⟩ := h
  obtain ⟨t0', t1', a', u0', u1', j0', j1', ht0', ht1', ha', hV0', hj0', hV1', hj1', he0', he1'⟩ := h'
  obtain rfl := tap_unique _ _ _ ht0 ht0'
  obtain rfl := tap_unique _ _ _ ht1 ht1'
  obtain rfl : a = a' := by rw [ha, ha']
  have h1 : (t1 : ℂ) ≠ 0 := by exact_mod_cast tap_ne _ _ ht1
  have ha0 : a ≠ 0 := by
    rw [ha]; exact mul_ne_zero (by exact_mod_cast tap_ne _ _ ht0) (Complex.exp_ne_zero _)
  have hca : (starRingEnd ℂ) a ≠ 0 := by simpa using ha0
  obtain rfl : u0 = u0' := mul_left_cancel₀ ha0 (hV0.symm.trans hV0')
  obtain rfl : u1 = u1' := mul_left_cancel₀ h1 (hV1.symm.trans hV1')
  have e0 := mul_left_cancel₀ hzz (he0.trans he0'.symm)
  have e1 := mul_left_cancel₀ hzz (he1.trans he1'.symm)
  constructor
  · apply mul_left_cancel₀ hca; rw [← hj0, ← hj0']; linear_combination e0
  · apply mul_left_cancel₀ h1; rw [← hj1, ← hj1']; linear_combination e1

/-- C32 (symmetry): without phase shifts the admittance matrix is symmetric. -/
theorem admittance_symmetric (br : Fin m → Branch nb) (shunts : List (Shunt nb))
    (hp : ∀ l, (br l).phase = none ∨ (br l).phase = some 0) : (matY br shunts).IsSymm := by
  have h01 : ∀ l, y01 (br l) = y10 (br l) := by
    intro l
    have : phaseFactor (br l) = 1 := by
      unfold phaseFactor; rcases hp l with h | h <;> simp [h]
    unfold y01 y10; rw [this]; simp
  unfold Matrix.IsSymm
  ext i j
  simp only [matY, transpose_apply, Matrix.add_apply, mul_apply, matC0, matC1, matY0, matY1, h01]
  rw [← Finset.sum_add_distrib, ← Finset.sum_add_distrib]
  congr 1
  · refine Finset.sum_congr rfl fun l _ => ?_
    split_ifs <;> ring
  · by_cases h : i = j
    · rw [h]
    · rw [diagonal_apply_ne _ h, diagonal_apply_ne _ (Ne.symm h)]

/-- C32 (row sums): if all branches have nominal taps, no phase shift and no shunt admittance and
there are no shunts, every row of the admittance matrix sums to zero: equal voltages drive no
current. -/
theorem admittance_row_sums (br : Fin m → Branch nb)
    (hp : ∀ l, (br l).phase = none ∨ (br l).phase = some 0)
    (ht : ∀ l, (br l).tap = none ∨ (br l).tap = some 0 ∨ (br l).tap = some 1)
    (hs : ∀ l, (br l).g = 0 ∧ (br l).b = 0) (i : Fin nb) : ∑ j, matY br [] i j = 0 := by
  have := matY_mulVec br [] (fun _ => 1) i
  have hL : (matY br [] *ᵥ (fun _ => 1)) i = ∑ j, matY br [] i j := by
    simp [mulVec, dotProduct]
  rw [← hL, this]
  have htau : ∀ l, tau (br l) = 1 := by
    intro l; unfold tau; rcases ht l with h | h | h <;> simp [h]
  have hph : ∀ l, phaseFactor (br l) = 1 := by
    intro l; unfold phaseFactor; rcases hp l with h | h <;> simp [h]
  have hhv : ∀ l, tauHv (br l) = 1 := by intro l; simp [tauHv, htau]
  have hlv : ∀ l, tauLv (br l) = 1 := by intro l; simp [tauLv, htau]
  simp [matY0_mulVec, matY1_mulVec, y00, y01, y10, y11, hhv, hlv, hph, ySh, hs, shuntY]

/-- A transformer with a tap ratio of 1.05 at bus 1, 30 degrees phase shift and shunts. -/
example : ∃ (br : Fin 1 → Branch 2) (sh : List (Shunt 2)), sh ≠ [] ∧
    (∀ l, ((br l).r ≠ 0 ∨ (br l).x ≠ 0) ∧ (br l).tap = some 1.05 ∧ (br l).tapSide = some 1 ∧
      (br l).phase = some 30) :=
  ⟨fun _ => ⟨0, 1, 0, 1 / 10, 1 / 100, 1 / 20, some 1.05, some 1, some 30⟩, [⟨0, 1, 2, true⟩],
    by simp, fun _ => ⟨Or.inr (by norm_num), rfl, rfl, rfl⟩⟩

/-- Finding (C32): a shunt which is not in service changes the admittance matrix like one which
is. -/
theorem inactive_shunt_counts :
    matY (m := 0) (nb := 1) (fun l => l.elim0) [⟨0, 1, 0, false⟩] 0 0 = 1 := by
  simp [matY, shuntY, mul_apply]

/-! ## C82: a converged power flow satisfies the power balance -/

theorem normInf_ge (l : List ℝ) : ∀ a ∈ l, |a| ≤ normInf l := by
  induction l with
  | nil => simp
  | cons b t ih =>
    intro a ha
    simp only [normInf, List.foldr_cons]
    rcases List.mem_cons.mp ha with rfl | h
    · exact le_max_left _ _
    · exact le_trans (ih a h) (le_max_right _ _)

theorem mem_drop_ofFn {α : Type} {n : Nat} (f : Fin n → α) (k : Nat) (i : Fin n) (h : k ≤ i.val) :
    f i ∈ (List.ofFn f).drop k := by
  rw [List.mem_iff_getElem]
  refine ⟨i.val - k, by simp; omega, ?_⟩
  simp [List.getElem_drop, show k + (i.val - k) = i.val by omega]

theorem residual_re (P : Problem nb m) (gs : Guess nb) (i : Fin nb)
    (h : P.weights.isSome = true ∨ i.val ≠ 0) : (mismatch P gs i).re ∈ residual P gs := by
  unfold residual
  simp only [List.mem_append]
  left
  split
  · simp
  · rename_i hw
    rcases h with h | h
    · exact absurd h hw
    · exact mem_drop_ofFn (fun i => (mismatch P gs i).re) 1 i (by omega)

theorem residual_im (P : Problem nb m) (gs : Guess nb) (i : Fin nb) (h : 1 + P.npv ≤ i.val) :
    (mismatch P gs i).im ∈ residual P gs := by
  unfold residual
  simp only [List.mem_append]
  right
  exact mem_drop_ofFn (fun i => (mismatch P gs i).im) _ i h

theorem solvePF_residual (P : Problem nb m) (next : Guess nb → Guess nb) (tol : ℝ)
    (guess : Guess nb) (hc : (solvePF P next tol guess).converged = true) :
    ∀ a ∈ residual P (solvePF P next tol guess).root, |a| ≤ tol := by
  obtain ⟨_, _, h3, h4, _, _⟩ :=
    newton_honest (fun gs => some (normInf (residual P gs))) next tol 100 guess
  obtain ⟨d, hd, hle⟩ := h4.mp hc
  intro a ha
  refine le_trans (normInf_ge _ a ha) ?_
  rw [h3] at hd
  simp only [Option.some.injEq] at hd
  unfold solvePF
  rw [hd]; exact hle

theorem solvePF_tol (P : Problem nb m) (next : Guess nb → Guess nb) (tol : ℝ)
    (guess : Guess nb) (hc : (solvePF P next tol guess).converged = true) : 0 ≤ tol := by
  obtain ⟨_, _, h3, h4, _, _⟩ :=
    newton_honest (fun gs => some (normInf (residual P gs))) next tol 100 guess
  obtain ⟨d, hd, hle⟩ := h4.mp hc
  rw [h3] at hd
  simp only [Option.some.injEq] at hd
  refine le_trans ?_ (hd ▸ hle)
  unfold normInf
  generalize residual P _ = L
  cases L with
  | nil => simp
  | cons a t => simp only [List.foldr_cons]; exact le_trans (abs_nonneg a) (le_max_left _ _)

theorem norm_voltage (P : Problem nb m) (gs : Guess nb) (i : Fin nb) :
    voltage P gs i * (starRingEnd ℂ) (voltage P gs i) = ((vMag P gs i ^ 2 : ℝ) : ℂ) := by
  unfold voltage
  rw [map_mul, Complex.conj_ofReal, ← Complex.exp_conj]
  have : Complex.exp (Complex.I * (vAng gs i : ℂ)) *
      Complex.exp ((starRingEnd ℂ) (Complex.I * (vAng gs i : ℂ))) = 1 := by
    rw [← Complex.exp_add, map_mul, Complex.conj_I, Complex.conj_ofReal, neg_mul, add_neg_cancel,
      Complex.exp_zero]
  push_cast
  linear_combination (vMag P gs i : ℂ) ^ 2 * this

/-- The net power injected at a bus is what leaves through branches and shunts. -/
theorem power_split (P : Problem nb m) (gs : Guess nb) (i : Fin nb) :
    power P gs i = (∑ l with (P.br l).bus0 = i, s0 P gs l) + (∑ l with (P.br l).bus1 = i, s1 P gs l)
      + ((P.shunts.filter (fun s => s.bus = i)).map
          (fun s => ((shuntP P gs s : ℂ) - Complex.I * shuntQ P gs s))).sum := by
  unfold power
  rw [matY_mulVec, map_add, map_add, mul_add, mul_add, map_sum, map_sum, Finset.mul_sum,
    Finset.mul_sum, Finset.sum_filter, Finset.sum_filter]
  congr 1
  · congr 1
    · refine Finset.sum_congr rfl fun l _ => ?_
      by_cases h : (P.br l).bus0 = i
      · simp only [h, if_true, s0]
      · simp [h]
    · refine Finset.sum_congr rfl fun l _ => ?_
      by_cases h : (P.br l).bus1 = i
      · simp only [h, if_true, s1]
      · simp [h]
  · rw [map_mul, mul_comm ((starRingEnd ℂ) (shuntY P.shunts i)), ← mul_assoc, norm_voltage]
    unfold shuntY
    rw [map_list_sum, List.map_map, mul_comm, ← List.sum_map_mul_right]
    congr 1
    apply List.map_congr_left
    intro s hs
    have hsb : s.bus = i := by simpa using (List.mem_filter.mp hs).2
    simp only [Function.comp, map_add, map_mul, Complex.conj_ofReal, Complex.conj_I, shuntP,
      shuntQ, hsb]
    push_cast
    ring

/-- C82: if the power flow of a sub-network reports convergence with tolerance `tol`, then in the
results it writes, for every bus, the active power fed in (`buses_t.p`) equals what leaves the bus
through its branches and shunts up to `tol`, and likewise the reactive power; slack and PV buses
keep their voltage set points and the slack bus the angle 0.  Holds for every Newton step function,
start and tolerance. Reactive power of a shunt counts as generation. -/
theorem pf_converged_balance (P : Problem nb m) (next : Guess nb → Guess nb) (tol : ℝ)
    (guess : Guess nb) (hc : (solvePF P next tol guess).converged = true) :
    let gs := (solvePF P next tol guess).root
    ∀ i : Fin nb,
      |busP P gs i - ((∑ l with (P.br l).bus0 = i, (s0 P gs l).re)
        + (∑ l with (P.br l).bus1 = i, (s1 P gs l).re)
        + ((P.shunts.filter (fun s => s.bus = i)).map (fun s => shuntP P gs s)).sum)| ≤ tol ∧
      |busQ P gs i - ((∑ l with (P.br l).bus0 = i, (s0 P gs l).im)
        + (∑ l with (P.br l).bus1 = i, (s1 P gs l).im)
        - ((P.shunts.filter (fun s => s.bus = i)).map (fun s => shuntQ P gs s)).sum)| ≤ tol ∧
      (i.val ≤ P.npv → ‖voltage P gs i‖ = |P.vSet i|) ∧
      (i.val = 0 → voltage P gs i = P.vSet i) := by
  intro gs i
  have hres := solvePF_residual P next tol guess hc
  have htol : 0 ≤ tol := solvePF_tol P next tol guess hc
  have hsplit := power_split P gs i
  have hsumre : ∀ L : List (Shunt nb), ((L.map
      (fun s => ((shuntP P gs s : ℂ) - Complex.I * shuntQ P gs s))).sum).re =
        (L.map (fun s => shuntP P gs s)).sum := by
    intro L; induction L with
    | nil => simp
    | cons a t ih => simp [ih]
  have hsumim : ∀ L : List (Shunt nb), ((L.map
      (fun s => ((shuntP P gs s : ℂ) - Complex.I * shuntQ P gs s))).sum).im =
        - (L.map (fun s => shuntQ P gs s)).sum := by
    intro L; induction L with
    | nil => simp
    | cons a t ih => simp [ih]; ring
  have hre := congrArg Complex.re hsplit
  have him := congrArg Complex.im hsplit
  simp only [Complex.add_re, Complex.add_im, Complex.re_sum, Complex.im_sum, hsumre, hsumim]
    at hre him
  rw [← hre, sub_eq_add_neg (_ + _) (List.sum _), ← him]
  refine ⟨?_, ?_, ?_, ?_⟩
  · unfold busP
    by_cases hw : P.weights.isSome = true
    · simp [hw, htol]
    · by_cases h0 : i.val = 0
      · simp [h0, htol]
      · rw [if_neg hw, if_neg h0]
        have := hres _ (residual_re P gs i (Or.inr h0))
        have hnone : P.weights = none := by simpa using hw
        rw [mismatch, hnone] at this
        simp only [Complex.sub_re] at this
        rw [abs_sub_comm]; exact this
  · unfold busQ
    by_cases h0 : i.val < 1 + P.npv
    · simp [h0, htol]
    · rw [if_neg h0]
      have := hres _ (residual_im P gs i (by omega))
      rw [mismatch] at this
      rw [abs_sub_comm]
      cases hw : P.weights with
      | none => simpa [hw] using this
      | some w => simpa [hw] using this
  · intro h
    unfold voltage vMag
    rw [if_pos (by omega), norm_mul, Complex.norm_exp_I_mul_ofReal, mul_one]
    simp
  · intro h
    unfold voltage vMag vAng
    simp [h, show i.val < 1 + P.npv by omega]

/-- A line of resistance 1 feeding a load of 1/4 at a PQ bus, started at its solution. -/
noncomputable def exPF : Problem 2 1 :=
  { npv := 0, br := fun _ => ⟨0, 1, 1, 0, 0, 0, none, none, none⟩, shunts := [],
    s := fun i => if i = 0 then 0 else -1 / 4, vSet := fun _ => 1, weights := none }

noncomputable def exGuess : Guess 2 := { ang := fun _ => 0, mag := fun _ => 1 / 2, slack := 0 }

theorem exPF_converged : (solvePF exPF id (1 / 10) exGuess).converged = true := by
  have hV0 : voltage exPF exGuess 0 = 1 := by simp [voltage, vMag, vAng, exPF]
  have hV1 : voltage exPF exGuess 1 = 1 / 2 := by simp [voltage, vMag, vAng, exPF, exGuess]
  have hp : power exPF exGuess 1 = -1 / 4 := by
    rw [power_split]
    simp [exPF, s0, s1, matY0_mulVec, matY1_mulVec, Finset.filter_true_of_mem]
    have h1 := hV1
    have h0 := hV0
    simp only [exPF] at h0 h1
    rw [h0, h1]
    have h2 : (starRingEnd ℂ) 2 = 2 := Complex.conj_ofNat 2
    simp [y10, y11, ySe, ySh, tauLv, tauHv, phaseFactor, h2]
    norm_num
  have hm : mismatch exPF exGuess 1 = 0 := by
    have hs : exPF.s 1 = -1 / 4 := by simp [exPF]
    simp only [mismatch, show exPF.weights = none from rfl, hp, hs, sub_self]
  have hres : normInf (residual exPF exGuess) = 0 := by
    have e : residual exPF exGuess = [0, 0] := by
      simp [residual, List.ofFn_succ, hm, show exPF.weights = none from rfl,
        show exPF.npv = 0 from rfl]
    rw [e]; simp [normInf]
  have hstop : exceeds (some (normInf (residual exPF exGuess))) (1 / 10 : ℝ) = false := by
    simp [exceeds, hres]
  have hl : loop (fun gs => some (normInf (residual exPF gs))) id (1 / 10) 100 exGuess 0 =
      (exGuess, 0) := by
    unfold loop; simp only [hstop]; rfl
  simp only [solvePF, newton, hl, hstop]
  rfl

end Verif.PowerFlow.AC
