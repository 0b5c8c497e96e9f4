import Verif.PowerFlow.Admittance

/-!
# Model of the Jacobian of the non-linear power flow

`dfdx` in `sub_network_pf` (`pf.py` 547-599).  A row of the Jacobian is the active power of a bus
or the reactive power of a PQ bus, a column is an unknown: the angle of a bus other than the
slack, the voltage magnitude of a PQ bus, or the slack power.
-/

namespace Verif.PowerFlow.AC

open Matrix

variable {nb m : Nat}

inductive Row (nb : Nat)
  | active (i : Fin nb)
  | reactive (i : Fin nb)

inductive Col (nb : Nat)
  | ang (j : Fin nb)
  | mag (j : Fin nb)
  | slack

noncomputable section

/-- `dS_dVa` (575), with `V_diag`, `I_diag` and `Y` as matrices. -/
def dSdVa (Y : Matrix (Fin nb) (Fin nb) ℂ) (V : Fin nb → ℂ) : Matrix (Fin nb) (Fin nb) ℂ :=
  Complex.I • (diagonal V * (diagonal (Y *ᵥ V) - Y * diagonal V).map (starRingEnd ℂ))

/-- `dS_dVm` (577-579); `V / abs(V)` is `V_norm_diag`. -/
def dSdVm (Y : Matrix (Fin nb) (Fin nb) ℂ) (V : Fin nb → ℂ) : Matrix (Fin nb) (Fin nb) ℂ :=
  let vn : Fin nb → ℂ := fun i => V i / (‖V i‖ : ℂ)
  diagonal vn * (diagonal (Y *ᵥ V)).map (starRingEnd ℂ) +
    diagonal V * (Y * diagonal vn).map (starRingEnd ℂ)

/-- An entry of `J` (581-599). -/
def jac (P : Problem nb m) (gs : Guess nb) : Row nb → Col nb → ℝ
  | .active i, .ang j => (dSdVa (matY P.br P.shunts) (voltage P gs) i j).re
  | .active i, .mag j => (dSdVm (matY P.br P.shunts) (voltage P gs) i j).re
  | .active i, .slack => match P.weights with | some w => w i | none => 0
  | .reactive i, .ang j => (dSdVa (matY P.br P.shunts) (voltage P gs) i j).im
  | .reactive i, .mag j => (dSdVm (matY P.br P.shunts) (voltage P gs) i j).im
  | .reactive _, .slack => 0

end

end Verif.PowerFlow.AC
