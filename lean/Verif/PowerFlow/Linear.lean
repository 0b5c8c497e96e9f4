import Mathlib.LinearAlgebra.Matrix.NonsingularInverse
import Mathlib.Data.Fin.Tuple.Basic
import Mathlib.Data.Matrix.Mul

/-!
# Model of the linear power flow of one sub-network

`calculate_B_H` (`pf.py` 1108-1162), `calculate_PTDF` (`pf.py` 1165-1200),
`sub_network_lpf` (`pf.py` 1426-1537) from the bus injections on, `calculate_BODF`
(`contingency.py` 25-64), for one snapshot.

Buses are numbered as in `buses_o`: position 0 is the slack bus.  Branches are the active
branches in the order visited.  Floats are elements of a field.  The impedances `z` are
`x_pu_eff` (AC) or `r_pu_eff` (DC).  `b = 1 / z` is modelled for `z ≠ 0` only; the value
`inf` for `z = 0` (1131) is not.
-/

namespace Verif.PowerFlow

open Matrix

/-- A sub-network with `n + 1` buses and `m` active branches; `shift` is the phase shift in
radians (zero for lines, 1147-1158). -/
structure Grid (F : Type) (n m : Nat) where
  bus0 : Fin m → Fin (n + 1)
  bus1 : Fin m → Fin (n + 1)
  z : Fin m → F
  shift : Fin m → F

variable {F : Type} [Field F] {n m : Nat}

namespace Grid

/-- `incidence_matrix(busorder=buses_o)`, see C22. -/
def K (g : Grid F n m) : Matrix (Fin (n + 1)) (Fin m) F :=
  fun i l => (if g.bus0 l = i then 1 else 0) - (if g.bus1 l = i then 1 else 0)

/-- Susceptances (1131). -/
def b (g : Grid F n m) (l : Fin m) : F := 1 / g.z l

/-- `b_diag * K.T` (1142). -/
def H (g : Grid F n m) : Matrix (Fin m) (Fin (n + 1)) F := diagonal g.b * g.K.transpose

/-- The weighted Laplacian (1145). -/
def B (g : Grid F n m) : Matrix (Fin (n + 1)) (Fin (n + 1)) F := g.K * g.H

/-- `p_branch_shift` (1160). -/
def pBranchShift (g : Grid F n m) : Fin m → F := fun l => - g.b l * g.shift l

/-- `p_bus_shift` (1162). -/
def pBusShift (g : Grid F n m) : Fin (n + 1) → F := g.K *ᵥ g.pBranchShift

/-- `B[1:, 1:]`. -/
def Bred (g : Grid F n m) : Matrix (Fin n) (Fin n) F := g.B.submatrix Fin.succ Fin.succ

end Grid

/-- `scipy.sparse.linalg.spsolve`, a library function. -/
abbrev Solve (F : Type) := (n : Nat) → Matrix (Fin n) (Fin n) F → (Fin n → F) → Fin n → F

/-- `v_diff` (1502-1505): zero at the slack bus, the solution elsewhere. -/
def vDiff (solve : Solve F) (g : Grid F n m) (p : Fin (n + 1) → F) : Fin (n + 1) → F :=
  if m = 0 then 0
  else Fin.cons 0 (solve _ g.Bred (fun i => (p - g.pBusShift) i.succ))

/-- The branch flows `p0` (1506-1509). -/
def flows (solve : Solve F) (g : Grid F n m) (p : Fin (n + 1) → F) : Fin m → F :=
  g.H *ᵥ vDiff solve g p + g.pBranchShift

/-- `slack_adjustment` (1524-1527). -/
def slackAdjustment (p : Fin (n + 1) → F) : F := (- ∑ i : Fin n, p i.succ) - p 0

/-- The bus injections after the slack has been adjusted (1528). -/
def busP (p : Fin (n + 1) → F) : Fin (n + 1) → F :=
  Function.update p 0 (p 0 + slackAdjustment p)

/-- `B_inverse` with zeros for the slack (1186-1198). -/
def Binv (solve : Solve F) (g : Grid F n m) : Matrix (Fin (n + 1)) (Fin (n + 1)) F :=
  fun i j => Fin.cases 0 (fun i' => Fin.cases 0
    (fun j' => solve _ g.Bred (fun k => if k = j' then 1 else 0) i') j) i

/-- `sub_network.PTDF` (1200). -/
def ptdf (solve : Solve F) (g : Grid F n m) : Matrix (Fin m) (Fin (n + 1)) F :=
  g.H * Binv solve g

/-- `branch_PTDF` (`contingency.py` 52). -/
def branchPtdf (solve : Solve F) (g : Grid F n m) : Matrix (Fin m) (Fin m) F :=
  ptdf solve g * g.K

/-- `sub_network.BODF` (54-64). -/
def bodf (solve : Solve F) (g : Grid F n m) : Matrix (Fin m) (Fin m) F :=
  fun k l => if k = l then -1
    else (branchPtdf solve g * diagonal (fun l => 1 / (1 - branchPtdf solve g l l))) k l

end Verif.PowerFlow
