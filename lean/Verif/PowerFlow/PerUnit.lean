import Verif.PowerFlow.Admittance
import Verif.PowerFlow.Linear
import Verif.PowerFlow.Types

/-!
# Model of the per-unit values of the branches

`calculate_dependent_values` (`pf.py` 990-1025) for lines and transformers, of which `calculate_Y`
(`pf.py` 1230-1247) takes `r_pu`, `x_pu`, `g_pu`, `b_pu` and `calculate_B_H` (`pf.py` 1118-1158) takes
`x_pu_eff` and the phase shift.  Types have been applied before (`Verif.PowerFlow.Types`).  Floats are
real numbers, all nominal values are non-zero.  AC sub-networks only.
-/

namespace Verif.PowerFlow.PerUnit

open Verif.PowerFlow.AC (Branch)

noncomputable section

/-- A row of `n.lines` or `n.transformers` which is in service, in the order of the sub-network. -/
inductive Raw (nb : Nat)
  | line (bus0 bus1 : Fin nb) (r x g b vNom : ℝ)
  | trafo (bus0 bus1 : Fin nb) (r x g b sNom tap : ℝ) (tapSide : Int) (phase : ℝ) (isT : Bool)

variable {nb : Nat}

namespace Raw

def bus0 : Raw nb → Fin nb
  | line b0 _ _ _ _ _ _ => b0
  | trafo b0 _ _ _ _ _ _ _ _ _ _ => b0

def bus1 : Raw nb → Fin nb
  | line _ b1 _ _ _ _ _ => b1
  | trafo _ b1 _ _ _ _ _ _ _ _ _ => b1

/-- Per-unit values as first written (1001-1004, 1009-1012). -/
def pu : Raw nb → Types.PU
  | line _ _ r x g b v => ⟨false, r / v ^ 2, x / v ^ 2, g * v ^ 2, b * v ^ 2⟩
  | trafo _ _ r x g b s _ _ _ isT => ⟨isT, r / s, x / s, g * s, b * s⟩

/-- `x_pu_eff` (1005, 1013), written before the conversion of the T model (1016). -/
def xEff : Raw nb → ℝ
  | line b0 b1 r x g b v => (pu (line b0 b1 r x g b v)).x
  | trafo b0 b1 r x g b s t side ph isT => (pu (trafo b0 b1 r x g b s t side ph isT)).x * t

/-- The phase shift of the linear power flow in radians (1147-1158). -/
def shift : Raw nb → ℝ
  | line .. => 0
  | trafo _ _ _ _ _ _ _ _ _ ph _ => ph * Real.pi / 180

/-- The branch as `calculate_Y` finds it (1230-1247): the T model has been converted (1016); lines
have no tap and phase shift (NaN in the joined table). -/
def branch (l : Raw nb) : Branch nb :=
  let q := Types.tModel l.pu
  match l with
  | line b0 b1 .. => ⟨b0, b1, q.r, q.x, q.g, q.b, none, none, none⟩
  | trafo b0 b1 _ _ _ _ _ t side ph _ => ⟨b0, b1, q.r, q.x, q.g, q.b, some t, some side, some ph⟩

end Raw

/-- The sub-network as the linear power flow finds it. -/
def grid {n m : Nat} (raw : Fin m → Raw (n + 1)) : Grid ℝ n m :=
  ⟨fun l => (raw l).bus0, fun l => (raw l).bus1, fun l => (raw l).xEff, fun l => (raw l).shift⟩

end

end Verif.PowerFlow.PerUnit
