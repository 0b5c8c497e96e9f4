import Mathlib.Analysis.SpecialFunctions.Complex.Circle
import Mathlib.Data.Matrix.Mul
import Mathlib.LinearAlgebra.Matrix.Symmetric

/-!
# Model of the admittance matrix and of the non-linear power flow

`calculate_Y` (`pf.py` 1203-1295), `newton_raphson_sparse` (`pf.py` 275-317),
`sub_network_pf` (`pf.py` 423-820) without distributed slack, for one snapshot of an AC
sub-network with at least two buses.  Floats are real or complex numbers.  Buses are numbered
as in `buses_o`: the slack bus, then the PV buses, then the PQ buses.
-/

namespace Verif.PowerFlow.AC

open Matrix

/-- An active line or transformer.  `none` is NaN (lines have no taps or phase shift). -/
structure Branch (nb : Nat) where
  bus0 : Fin nb
  bus1 : Fin nb
  r : ℝ
  x : ℝ
  g : ℝ
  b : ℝ
  tap : Option ℝ
  tapSide : Option Int
  /-- phase shift in degrees -/
  phase : Option ℝ

structure Shunt (nb : Nat) where
  bus : Fin nb
  g : ℝ
  b : ℝ
  active : Bool

variable {nb m : Nat}

noncomputable section

/-- `y_se` (1230). -/
def ySe (l : Branch nb) : ℂ := 1 / ((l.r : ℂ) + Complex.I * l.x)

/-- `y_sh` (1232). -/
def ySh (l : Branch nb) : ℂ := (l.g : ℂ) + Complex.I * l.b

/-- `tau` (1234-1237): NaN and 0 count as 1. -/
def tau (l : Branch nb) : ℝ :=
  match l.tap with
  | none => 1
  | some t => if t = 0 then 1 else t

def tauHv (l : Branch nb) : ℝ := if l.tapSide = some 0 then tau l else 1

def tauLv (l : Branch nb) : ℝ := if l.tapSide = some 1 then tau l else 1

/-- `phase_shift` (1247). -/
def phaseFactor (l : Branch nb) : ℂ :=
  Complex.exp (Complex.I * ((l.phase.getD 0 * Real.pi / 180 : ℝ) : ℂ))

def y11 (l : Branch nb) : ℂ := (ySe l + 1 / 2 * ySh l) / (tauLv l : ℂ) ^ 2
def y10 (l : Branch nb) : ℂ := - ySe l / tauLv l / tauHv l / phaseFactor l
def y01 (l : Branch nb) : ℂ := - ySe l / tauLv l / tauHv l / (starRingEnd ℂ) (phaseFactor l)
def y00 (l : Branch nb) : ℂ := (ySe l + 1 / 2 * ySh l) / (tauHv l : ℂ) ^ 2

/-- `Y_sh` (1256-1266): all shunts of the network, whether in service or not. -/
def shuntY (shunts : List (Shunt nb)) (i : Fin nb) : ℂ :=
  (((shunts.filter (fun s => s.bus = i)).map (fun s => (s.g : ℂ) + Complex.I * s.b)).sum)

/-- `sub_network.Y0` (1282-1284): repeated positions are added. -/
def matY0 (br : Fin m → Branch nb) : Matrix (Fin m) (Fin nb) ℂ :=
  fun l i => (if (br l).bus0 = i then y00 (br l) else 0) + (if (br l).bus1 = i then y01 (br l) else 0)

/-- `sub_network.Y1` (1285-1287). -/
def matY1 (br : Fin m → Branch nb) : Matrix (Fin m) (Fin nb) ℂ :=
  fun l i => (if (br l).bus0 = i then y10 (br l) else 0) + (if (br l).bus1 = i then y11 (br l) else 0)

/-- `C0` and `C1` (1273-1278). -/
def matC0 (br : Fin m → Branch nb) : Matrix (Fin m) (Fin nb) ℂ :=
  fun l i => if (br l).bus0 = i then 1 else 0

def matC1 (br : Fin m → Branch nb) : Matrix (Fin m) (Fin nb) ℂ :=
  fun l i => if (br l).bus1 = i then 1 else 0

/-- `sub_network.Y` (1290-1294). -/
def matY (br : Fin m → Branch nb) (shunts : List (Shunt nb)) : Matrix (Fin nb) (Fin nb) ℂ :=
  (matC0 br).transpose * matY0 br + (matC1 br).transpose * matY1 br + diagonal (shuntY shunts)

end

/-! ## Newton-Raphson -/

section Newton
variable {X F : Type} [LT F] [DecidableRel (fun a b : F => a < b)]

/-- `diff > x_tol`; comparisons with NaN (`none`) are false. -/
def exceeds (d : Option F) (tol : F) : Bool :=
  match d with
  | none => false
  | some d => decide (tol < d)

/-- The loop (297-306), with `k` iterations done and `fuel` left. `err x` is
`norm(f(x), inf)`, `next x` is `x - spsolve(dfdx(x), f(x))`. -/
def loop (err : X → Option F) (next : X → X) (tol : F) : Nat → X → Nat → X × Nat
  | 0, x, k => (x, k)
  | fuel + 1, x, k => if exceeds (err x) tol then loop err next tol fuel (next x) (k + 1) else (x, k)

structure NewtonResult (X F : Type) where
  root : X
  nIter : Nat
  diff : Option F
  converged : Bool
deriving DecidableEq

/-- `newton_raphson_sparse` (275-317). -/
def newton (err : X → Option F) (next : X → X) (tol : F) (lim : Nat) (guess : X) :
    NewtonResult X F :=
  let r := loop err next tol lim guess 0
  let diff := err r.1
  { root := r.1, nIter := r.2, diff := diff
    converged := if exceeds diff tol then false else diff.isSome }

end Newton

/-! ## Power flow -/

noncomputable section

/-- Data of `sub_network_pf` for one snapshot: bus 0 is the slack, buses `1 .. npv` are PV. -/
structure Problem (nb m : Nat) where
  npv : Nat
  br : Fin m → Branch nb
  shunts : List (Shunt nb)
  /-- `p + 1j * q` from the controllable components (670-672) -/
  s : Fin nb → ℂ
  vSet : Fin nb → ℝ
  /-- `slack_weights_calc` with `distribute_slack=True`, else `none` -/
  weights : Option (Fin nb → ℝ)

/-- The unknowns: angles of the PV and PQ buses, magnitudes of the PQ buses and the total slack
power; the components `ang 0` and `mag` of the slack and PV buses are not used. -/
structure Guess (nb : Nat) where
  ang : Fin nb → ℝ
  mag : Fin nb → ℝ
  slack : ℝ

/-- `v_mag_pu` (525-530, 602-606). -/
def vMag (P : Problem nb m) (gs : Guess nb) (i : Fin nb) : ℝ :=
  if i.val < 1 + P.npv then P.vSet i else gs.mag i

/-- `v_ang` (525, 531, 607). -/
def vAng (gs : Guess nb) (i : Fin nb) : ℝ := if i.val = 0 then 0 else gs.ang i

/-- `V` (532). -/
def voltage (P : Problem nb m) (gs : Guess nb) (i : Fin nb) : ℂ :=
  (vMag P gs i : ℂ) * Complex.exp (Complex.I * (vAng gs i : ℂ))

/-- `V * conj(Y * V)`, also `s_calc` (744-746). -/
def power (P : Problem nb m) (gs : Guess nb) (i : Fin nb) : ℂ :=
  voltage P gs i * (starRingEnd ℂ) ((matY P.br P.shunts *ᵥ voltage P gs) i)

/-- `mismatch` (534-538). -/
def mismatch (P : Problem nb m) (gs : Guess nb) (i : Fin nb) : ℂ :=
  match P.weights with
  | none => power P gs i - P.s i
  | some w => power P gs i - P.s i + ((w i * gs.slack : ℝ) : ℂ)

/-- `f` (519-545): real mismatches of all buses (without the slack bus unless the slack is
distributed), imaginary ones of the PQ buses. -/
def residual (P : Problem nb m) (gs : Guess nb) : List ℝ :=
  let re := List.ofFn (fun i => (mismatch P gs i).re)
  let im := List.ofFn (fun i => (mismatch P gs i).im)
  (if P.weights.isSome then re else re.drop 1) ++ im.drop (1 + P.npv)

/-- `norm(F, np.inf)`. -/
def normInf (l : List ℝ) : ℝ := l.foldr (fun a r => max |a| r) 0

/-- `newton_raphson_sparse` as called by `sub_network_pf` (689-695), with an arbitrary step. -/
def solvePF (P : Problem nb m) (next : Guess nb → Guess nb) (tol : ℝ) (guess : Guess nb) :
    NewtonResult (Guess nb) ℝ :=
  newton (fun gs => some (normInf (residual P gs))) next tol 100 guess

/-- Apparent power `s0` of a branch (721-734). -/
def s0 (P : Problem nb m) (gs : Guess nb) (l : Fin m) : ℂ :=
  voltage P gs (P.br l).bus0 * (starRingEnd ℂ) ((matY0 P.br *ᵥ voltage P gs) l)

/-- Apparent power `s1` of a branch (721-735). -/
def s1 (P : Problem nb m) (gs : Guess nb) (l : Fin m) : ℂ :=
  voltage P gs (P.br l).bus1 * (starRingEnd ℂ) ((matY1 P.br *ᵥ voltage P gs) l)

/-- `n.buses_t.p` (748-751). -/
def busP (P : Problem nb m) (gs : Guess nb) (i : Fin nb) : ℝ :=
  if P.weights.isSome then (power P gs i).re
  else if i.val = 0 then (power P gs i).re else (P.s i).re

/-- `n.buses_t.q` (752-755). -/
def busQ (P : Problem nb m) (gs : Guess nb) (i : Fin nb) : ℝ :=
  if i.val < 1 + P.npv then (power P gs i).im else (P.s i).im

/-- `n.shunt_impedances_t.p` (758-766). -/
def shuntP (P : Problem nb m) (gs : Guess nb) (s : Shunt nb) : ℝ := vMag P gs s.bus ^ 2 * s.g

/-- `n.shunt_impedances_t.q` (767-769). -/
def shuntQ (P : Problem nb m) (gs : Guess nb) (s : Shunt nb) : ℝ := vMag P gs s.bus ^ 2 * s.b

end

end Verif.PowerFlow.AC
