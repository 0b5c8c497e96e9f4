import Verif.PowerFlow.LinearProps
import Verif.PowerFlow.AdmittanceProps

/-!
# C123: which end of a branch is called `bus0` does not matter for the power flow

The linear power flow, sensitivities and the non-linear power flow with lines and transformers turned round.  Turning a transformer
round also turns its phase shift and moves its tap changer to the other side.
-/

namespace Verif.PowerFlow

open Matrix

variable {F : Type} [Field F] {n m : Nat}

/-- The branches in `R` are turned round; their phase shift counts in the other direction. -/
def turnGrid (R : Fin m → Bool) (g : Grid F n m) : Grid F n m where
  bus0 := fun l => if R l then g.bus1 l else g.bus0 l
  bus1 := fun l => if R l then g.bus0 l else g.bus1 l
  z := g.z
  shift := fun l => if R l then - g.shift l else g.shift l

/-- `-1` for branches that are turned round. -/
def dir (R : Fin m → Bool) (l : Fin m) : F := if R l then -1 else 1

theorem dir_sq (R : Fin m → Bool) (l : Fin m) : (dir R l : F) * dir R l = 1 := by
  unfold dir; split <;> simp

theorem K_turn (R : Fin m → Bool) (g : Grid F n m) (i : Fin (n + 1)) (l : Fin m) : (turnGrid R g).K i l = g.K i l * dir R l := by
  unfold Grid.K turnGrid dir
  by_cases h : R l = true <;> simp [h]

theorem H_turn (R : Fin m → Bool) (g : Grid F n m) (l : Fin m) (i : Fin (n + 1)) : (turnGrid R g).H l i = dir R l * g.H l i := by
  unfold Grid.H
  rw [Matrix.diagonal_mul, Matrix.diagonal_mul, Matrix.transpose_apply, Matrix.transpose_apply, K_turn]
  show g.b l * _ = _
  ring

theorem B_turn (R : Fin m → Bool) (g : Grid F n m) : (turnGrid R g).B = g.B := by
  ext i j
  unfold Grid.B
  rw [Matrix.mul_apply, Matrix.mul_apply]
  refine Finset.sum_congr rfl fun l _ => ?_
  rw [K_turn, H_turn, mul_assoc, ← mul_assoc (dir R l), dir_sq, one_mul]

theorem shift_turn (R : Fin m → Bool) (g : Grid F n m) (l : Fin m) : (turnGrid R g).pBranchShift l = dir R l * g.pBranchShift l := by
  show - g.b l * (if R l then - g.shift l else g.shift l) = dir R l * (- g.b l * g.shift l)
  unfold dir
  by_cases h : R l = true <;> simp [h]

theorem busShift_turn (R : Fin m → Bool) (g : Grid F n m) : (turnGrid R g).pBusShift = g.pBusShift := by
  unfold Grid.pBusShift
  ext i
  simp only [Matrix.mulVec, dotProduct]
  refine Finset.sum_congr rfl fun l _ => ?_
  rw [K_turn, shift_turn, mul_assoc, ← mul_assoc (dir R l), dir_sq, one_mul]

/-- C123 for the linear power flow: angles and injections stay the same, flows change their sign with the direction, whatever the
solver returns. -/
theorem lpf_turn (solve : Solve F) (R : Fin m → Bool) (g : Grid F n m) (p : Fin (n + 1) → F) :
    vDiff solve (turnGrid R g) p = vDiff solve g p ∧
    ∀ l, flows solve (turnGrid R g) p l = if R l then - flows solve g p l else flows solve g p l := by
  have h : vDiff solve (turnGrid R g) p = vDiff solve g p := by
    unfold vDiff Grid.Bred
    rw [B_turn, busShift_turn]
  refine ⟨h, fun l => ?_⟩
  have h2 : flows solve (turnGrid R g) p l = dir R l * flows solve g p l := by
    unfold flows
    rw [h, Pi.add_apply, Pi.add_apply, shift_turn, mul_add]
    congr 1
    simp only [Matrix.mulVec, dotProduct, Finset.mul_sum]
    exact Finset.sum_congr rfl fun i _ => by rw [H_turn]; ring
  rw [h2]
  unfold dir
  split <;> simp

theorem ptdf_dir (solve : Solve F) (R : Fin m → Bool) (g : Grid F n m) (l : Fin m) (i : Fin (n + 1)) :
    ptdf solve (turnGrid R g) l i = dir R l * ptdf solve g l i := by
  have hB : Binv solve (turnGrid R g) = Binv solve g := by
    unfold Binv Grid.Bred
    rw [B_turn]
  unfold ptdf
  rw [hB, Matrix.mul_apply, Matrix.mul_apply, Finset.mul_sum]
  exact Finset.sum_congr rfl fun j _ => by rw [H_turn]; ring

theorem branchPtdf_dir (solve : Solve F) (R : Fin m → Bool) (g : Grid F n m) (k l : Fin m) :
    branchPtdf solve (turnGrid R g) k l = dir R k * branchPtdf solve g k l * dir R l := by
  unfold branchPtdf
  rw [Matrix.mul_apply, Matrix.mul_apply, Finset.mul_sum, Finset.sum_mul]
  exact Finset.sum_congr rfl fun j _ => by rw [ptdf_dir, K_turn]; ring

/-- C123 for the sensitivities: the shift factors of a branch change their sign with its direction; outage factors if one of the two
branches is turned round. -/
theorem factors_turn (solve : Solve F) (R : Fin m → Bool) (g : Grid F n m) :
    (∀ l i, ptdf solve (turnGrid R g) l i = if R l then - ptdf solve g l i else ptdf solve g l i) ∧
    ∀ k l, bodf solve (turnGrid R g) k l = if R k = R l then bodf solve g k l else - bodf solve g k l := by
  constructor
  · intro l i
    rw [ptdf_dir]
    unfold dir
    split <;> simp
  · intro k l
    unfold bodf
    by_cases h : k = l
    · subst h; simp
    · rw [if_neg h, if_neg h, Matrix.mul_diagonal, Matrix.mul_diagonal, branchPtdf_dir, branchPtdf_dir]
      have h1 : (dir R l : F) * branchPtdf solve g l l * dir R l = branchPtdf solve g l l := by
        rw [mul_right_comm, dir_sq, one_mul]
      rw [h1]
      unfold dir
      cases R k <;> cases R l <;> simp

/-- A triangle with its last branch turned round. -/
example (solve : Solve ℚ) (p : Fin 3 → ℚ) : flows solve (turnGrid (fun l => l == 2) triangle) p 2 = - flows solve triangle p 2 ∧
    flows solve (turnGrid (fun l => l == 2) triangle) p 0 = flows solve triangle p 0 :=
  ⟨(lpf_turn solve _ triangle p).2 2, (lpf_turn solve _ triangle p).2 0⟩

namespace AC

variable {nb : Nat}

noncomputable section

/-- A branch turned round: the phase shift counts in the other direction, the tap changer is at the same bus. -/
def turnBranch (l : Branch nb) : Branch nb :=
  { l with bus0 := l.bus1, bus1 := l.bus0, phase := l.phase.map (fun d => - d)
           tapSide := l.tapSide.map (fun s => if s = 0 then 1 else if s = 1 then 0 else s) }

def turnBranches (R : Fin m → Bool) (br : Fin m → Branch nb) (l : Fin m) : Branch nb := if R l then turnBranch (br l) else br l

theorem side_turn (l : Branch nb) : ((turnBranch l).tapSide = some 0 ↔ l.tapSide = some 1) ∧
    ((turnBranch l).tapSide = some 1 ↔ l.tapSide = some 0) := by
  unfold turnBranch
  cases h : l.tapSide with
  | none => simp
  | some s =>
    simp only [Option.map_some, Option.some.injEq]
    constructor <;> split <;> (try split) <;> constructor <;> intro <;> simp_all

theorem tap_turn (l : Branch nb) : tauHv (turnBranch l) = tauLv l ∧ tauLv (turnBranch l) = tauHv l := by
  unfold tauHv tauLv
  simp only [(side_turn l).1, (side_turn l).2]
  exact ⟨rfl, rfl⟩

theorem phase_turn (l : Branch nb) : phaseFactor (turnBranch l) = (starRingEnd ℂ) (phaseFactor l) := by
  unfold phaseFactor turnBranch
  rw [← Complex.exp_conj]
  congr 1
  simp only [map_mul, Complex.conj_I, Complex.conj_ofReal]
  cases l.phase with
  | none => simp
  | some d =>
    simp only [Option.map_some, Option.getD_some]
    push_cast
    ring

theorem entries_turn (l : Branch nb) : y00 (turnBranch l) = y11 l ∧ y11 (turnBranch l) = y00 l ∧ y01 (turnBranch l) = y10 l ∧
    y10 (turnBranch l) = y01 l := by
  have h1 : ySe (turnBranch l) = ySe l := rfl
  have h2 : ySh (turnBranch l) = ySh l := rfl
  refine ⟨?_, ?_, ?_, ?_⟩
  · unfold y00 y11; rw [h1, h2, (tap_turn l).1]
  · unfold y00 y11; rw [h1, h2, (tap_turn l).2]
  · unfold y01 y10; rw [h1, (tap_turn l).1, (tap_turn l).2, phase_turn, Complex.conj_conj]; ring
  · unfold y01 y10; rw [h1, (tap_turn l).1, (tap_turn l).2, phase_turn]; ring

theorem rows_turn (R : Fin m → Bool) (br : Fin m → Branch nb) (l : Fin m) (i : Fin nb) :
    matY0 (turnBranches R br) l i = (if R l then matY1 br l i else matY0 br l i) ∧
    matY1 (turnBranches R br) l i = (if R l then matY0 br l i else matY1 br l i) := by
  obtain ⟨h1, h2, h3, h4⟩ := entries_turn (br l)
  unfold matY0 matY1 turnBranches
  by_cases h : R l = true
  · simp only [h, if_true, h1, h2, h3, h4]
    constructor
    · show (if (br l).bus1 = i then _ else _) + (if (br l).bus0 = i then _ else _) = _; rw [add_comm]
    · show (if (br l).bus1 = i then _ else _) + (if (br l).bus0 = i then _ else _) = _; rw [add_comm]
  · simp [h]

theorem Y_turn (R : Fin m → Bool) (br : Fin m → Branch nb) (sh : List (Shunt nb)) : matY (turnBranches R br) sh = matY br sh := by
  unfold matY
  congr 1
  ext i j
  rw [Matrix.add_apply, Matrix.add_apply, Matrix.mul_apply, Matrix.mul_apply, Matrix.mul_apply, Matrix.mul_apply,
    ← Finset.sum_add_distrib, ← Finset.sum_add_distrib]
  refine Finset.sum_congr rfl fun l _ => ?_
  rw [(rows_turn R br l j).1, (rows_turn R br l j).2]
  simp only [Matrix.transpose_apply, matC0, matC1, turnBranches]
  by_cases h : R l = true
  · simp only [h, if_true]
    rw [add_comm]
    rfl
  · simp [h]

def turnProblem (R : Fin m → Bool) (P : Problem nb m) : Problem nb m := { P with br := turnBranches R P.br }

/-- C123 for the non-linear power flow: the equations to be solved are the same, so is every run of the solver; recorded injections
are the same and the flows recorded at the two ends of a branch that is turned round are swapped. -/
theorem pf_turn (R : Fin m → Bool) (P : Problem nb m) (gs : Guess nb) :
    residual (turnProblem R P) gs = residual P gs ∧
    (∀ next tol guess, solvePF (turnProblem R P) next tol guess = solvePF P next tol guess) ∧
    (∀ i, busP (turnProblem R P) gs i = busP P gs i ∧ busQ (turnProblem R P) gs i = busQ P gs i) ∧
    (∀ l, s0 (turnProblem R P) gs l = if R l then s1 P gs l else s0 P gs l) ∧
    ∀ l, s1 (turnProblem R P) gs l = if R l then s0 P gs l else s1 P gs l := by
  have hp : ∀ gs, power (turnProblem R P) gs = power P gs := by
    intro gs
    funext i
    unfold power
    rw [show matY (turnProblem R P).br (turnProblem R P).shunts = matY P.br P.shunts from Y_turn R P.br P.shunts]
    rfl
  have hr : ∀ gs, residual (turnProblem R P) gs = residual P gs := by
    intro gs
    unfold residual mismatch
    rw [hp]
    rfl
  refine ⟨hr gs, ?_, ?_, ?_, ?_⟩
  · intro next tol guess
    unfold solvePF
    simp only [hr]
  · intro i
    unfold busP busQ
    rw [hp]
    exact ⟨rfl, rfl⟩
  · intro l
    unfold s0 s1
    have h1 : (matY0 (turnProblem R P).br *ᵥ voltage (turnProblem R P) gs) l =
        if R l then (matY1 P.br *ᵥ voltage P gs) l else (matY0 P.br *ᵥ voltage P gs) l := by
      simp only [Matrix.mulVec, dotProduct]
      by_cases h : R l = true
      · rw [if_pos h]
        exact Finset.sum_congr rfl fun i _ => by
          rw [show matY0 (turnProblem R P).br l i = _ from (rows_turn R P.br l i).1, if_pos h]; rfl
      · rw [if_neg h]
        exact Finset.sum_congr rfl fun i _ => by
          rw [show matY0 (turnProblem R P).br l i = _ from (rows_turn R P.br l i).1, if_neg h]; rfl
    rw [h1]
    by_cases h : R l = true
    · simp only [h, if_true, turnProblem, turnBranches]; rfl
    · simp only [h, turnProblem, turnBranches]; rfl
  · intro l
    unfold s0 s1
    have h1 : (matY1 (turnProblem R P).br *ᵥ voltage (turnProblem R P) gs) l =
        if R l then (matY0 P.br *ᵥ voltage P gs) l else (matY1 P.br *ᵥ voltage P gs) l := by
      simp only [Matrix.mulVec, dotProduct]
      by_cases h : R l = true
      · rw [if_pos h]
        exact Finset.sum_congr rfl fun i _ => by
          rw [show matY1 (turnProblem R P).br l i = _ from (rows_turn R P.br l i).2, if_pos h]; rfl
      · rw [if_neg h]
        exact Finset.sum_congr rfl fun i _ => by
          rw [show matY1 (turnProblem R P).br l i = _ from (rows_turn R P.br l i).2, if_neg h]; rfl
    rw [h1]
    by_cases h : R l = true
    · simp only [h, if_true, turnProblem, turnBranches]; rfl
    · simp only [h, turnProblem, turnBranches]; rfl

/-- A transformer with its tap changer at `bus1` and a phase shift of 30 degrees: turned round the tap changer is at `bus0`. -/
example : (turnBranch (nb := 2) ⟨0, 1, 0, 1 / 10, 1 / 100, 1 / 20, some 1.05, some 1, some 30⟩).tapSide = some 0 ∧
    (turnBranch (nb := 2) ⟨0, 1, 0, 1 / 10, 1 / 100, 1 / 20, some 1.05, some 1, some 30⟩).phase = some (-30) ∧
    y00 (turnBranch (nb := 2) ⟨0, 1, 0, 1 / 10, 1 / 100, 1 / 20, some 1.05, some 1, some 30⟩) =
      y11 (nb := 2) ⟨0, 1, 0, 1 / 10, 1 / 100, 1 / 20, some 1.05, some 1, some 30⟩ :=
  ⟨(side_turn _).1.2 rfl, rfl, (entries_turn _).1⟩

end

end AC

end Verif.PowerFlow
