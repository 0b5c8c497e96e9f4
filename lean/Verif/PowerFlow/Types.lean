import Mathlib.Analysis.SpecialFunctions.Complex.Circle
import Mathlib.Analysis.SpecialFunctions.Pow.Real

/-!
# Model of standard line and transformer types and of the T-model conversion

`apply_line_types` (`pf.py` 848-884), `apply_transformer_types` (`pf.py` 888-939),
`wye_to_delta` (`pf.py` 942-962), `apply_transformer_t_model` (`pf.py` 966-986).  Floats are real
numbers (division by a zero `num_parallel` or `s_nom` is not modelled, it gives infinities in the
code); the square root of a negative number is NaN, here `none`.
-/

namespace Verif.PowerFlow.Types

abbrev Name := String

inductive Err | valueError
deriving DecidableEq

structure Line where
  name : Name
  type : Name
  length : ℝ
  numParallel : ℝ
  r : ℝ
  x : ℝ
  b : ℝ
  g : ℝ
  sNom : ℝ

structure LineType where
  name : Name
  fNom : ℝ
  rPerLength : ℝ
  xPerLength : ℝ
  cPerLength : ℝ

noncomputable section

/-- Lookup of a type by name, as `join(n.line_types, on="type")`. -/
def lookup {T : Type} (nm : T → Name) (types : List T) (n : Name) : Option T :=
  types.find? (fun t => nm t = n)

/-- New values of one line (867-884). -/
def setLine (l : Line) (t : LineType) : Line :=
  { l with
    r := t.rPerLength * l.length / l.numParallel
    x := t.xPerLength * l.length / l.numParallel
    b := 2 * Real.pi * (1 / 10 ^ 9) * t.fNom * t.cPerLength * l.length * l.numParallel }

def applyLine (types : List LineType) (l : Line) : Line :=
  if l.type = "" then l else
  match lookup LineType.name types l.type with
  | some t => setLine l t
  | none => l

/-- `apply_line_types` (848-884). -/
def applyLineTypes (types : List LineType) (lines : List Line) : Except Err (List Line) :=
  if lines.all (fun l => l.type = "") then .ok lines
  else if lines.any (fun l => l.type ≠ "" ∧ ¬ types.any (fun t => t.name = l.type)) then
    .error .valueError
  else .ok (lines.map (applyLine types))

structure Trafo where
  name : Name
  type : Name
  tapPosition : ℝ
  numParallel : ℝ
  r : ℝ
  /-- `none` is NaN -/
  x : Option ℝ
  g : ℝ
  b : ℝ
  phaseShift : ℝ
  sNom : ℝ
  tapSide : Int
  tapRatio : ℝ

structure TrafoType where
  name : Name
  vscr : ℝ
  vsc : ℝ
  pfe : ℝ
  i0 : ℝ
  sNom : ℝ
  phaseShift : ℝ
  tapSide : Int
  tapNeutral : ℝ
  tapStep : ℝ

/-- `np.sqrt`. -/
def npSqrt (x : ℝ) : Option ℝ := if x < 0 then none else some (Real.sqrt x)

/-- New values of one transformer (913-937). -/
def setTrafo (l : Trafo) (t : TrafoType) : Trafo :=
  let r := t.vscr / 100
  let g := t.pfe / (1000 * t.sNom)
  { l with
    r := r / l.numParallel
    x := (npSqrt ((t.vsc / 100) ^ 2 - r ^ 2)).map (· / l.numParallel)
    g := g * l.numParallel
    b := -Real.sqrt (max ((t.i0 / 100) ^ 2 - g ^ 2) 0) * l.numParallel
    phaseShift := t.phaseShift
    sNom := t.sNom
    tapSide := t.tapSide
    tapRatio := 1 + (l.tapPosition - t.tapNeutral) * (t.tapStep / 100) }

def applyTrafo (types : List TrafoType) (l : Trafo) : Trafo :=
  if l.type = "" then l else
  match lookup TrafoType.name types l.type with
  | some t => setTrafo l t
  | none => l

/-- `apply_transformer_types` (888-939). -/
def applyTrafoTypes (types : List TrafoType) (ts : List Trafo) : Except Err (List Trafo) :=
  if ts.all (fun l => l.type = "") then .ok ts
  else if ts.any (fun l => l.type ≠ "" ∧ ¬ types.any (fun t => t.name = l.type)) then
    .error .valueError
  else .ok (ts.map (applyTrafo types))

/-! ## T-model -/

/-- `wye_to_delta` (942-962). -/
def wyeToDelta {F : Type} [Field F] (z1 z2 z3 : F) : F × F × F :=
  let summand := z1 * z2 + z2 * z3 + z3 * z1
  (summand / z2, summand / z1, summand / z3)

/-- Per-unit parameters of a transformer. -/
structure PU where
  /-- `model == "t"` -/
  isT : Bool
  r : ℝ
  x : ℝ
  g : ℝ
  b : ℝ

def zSeries (p : PU) : ℂ := p.r + Complex.I * p.x
def yShunt (p : PU) : ℂ := p.g + Complex.I * p.b

open Classical in
/-- `apply_transformer_t_model` (966-986) for one transformer. -/
def tModel (p : PU) : PU :=
  if p.isT = true ∧ yShunt p ≠ 0 then
    let d := wyeToDelta (zSeries p / 2) (zSeries p / 2) (1 / yShunt p)
    { p with r := d.2.2.re, x := d.2.2.im, g := (2 / d.1).re, b := (2 / d.1).im }
  else p

end

end Verif.PowerFlow.Types
