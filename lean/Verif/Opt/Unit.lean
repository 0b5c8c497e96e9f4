import Verif.Opt.LP

/-!
# Model of the operational constraints of generators and links

`define_operational_constraints_for_non_extendables` (`optimization/constraints.py` 39-83),
`..._for_extendables` (86-129), `..._for_committables` (132-360), `define_ramp_limit_constraints`
(393-570), and the variables `p`, `status`, `start_up`, `shut_down`, `p_nom`
(`optimization/variables.py` 21-103).  Every row of these functions concerns one unit, so the rows
are modelled per unit; what depends on the whole class (early returns) is passed as the list of
units.  Snapshots of the window `sns` are numbered from 0; `rolling` says that the window does not
start at the first snapshot of the network.  Losses of passive branches are modelled elsewhere.
-/

namespace Verif.Opt

/-- Variables of one unit. -/
inductive UVar
  | p (t : Nat)
  | status (t : Nat)
  | startUp (t : Nat)
  | shutDown (t : Nat)
  | cap
deriving DecidableEq, Repr

/-- A unit of the class.  `minPu`, `maxPu`, `rampUp`, `rampDown` are the rows of the dense tables
on the window (`none` is NaN), `rampUpStatic`, `rampDownStatic` the static columns. -/
structure Unit' (F : Type) where
  nom : F
  extendable : Bool
  committable : Bool
  active : Nat → Bool
  minPu : Nat → F
  maxPu : Nat → F
  minUp : Nat
  minDown : Nat
  upBefore : Nat
  downBefore : Nat
  rampUp : Nat → Option F
  rampDown : Nat → Option F
  rampUpStatic : Option F
  rampDownStatic : Option F
  rampStart : F
  rampShut : F
  startUpCost : F
  shutDownCost : F
  /-- recorded statuses before the window, in order of time -/
  histStatus : List F
  /-- recorded dispatch at the last snapshot before the window -/
  histP : F

variable {F : Type} [Field F] [LinearOrder F]

/-- Variables are masked by activity. -/
def present (u : Unit' F) : UVar → Bool
  | .p t | .status t | .startUp t | .shutDown t => u.active t
  | .cap => true

/-- A term shifted by one snapshot; the first one has no predecessor. -/
def prevTm (u : Unit' F) (a : F) (mk : Nat → UVar) : Nat → List (F × UVar)
  | 0 => []
  | t + 1 => tm (present u) a (mk t)

/-- `rolling(snapshot=w).sum()`. -/
def windowTm (u : Unit' F) (mk : Nat → UVar) (w t : Nat) : List (F × UVar) :=
  (List.range w).flatMap (fun k => if k ≤ t then tm (present u) 1 (mk (t - k)) else [])

/-- Rows over the active snapshots among `ts`. -/
def rowsAt (u : Unit' F) (ts : List Nat) (f : Nat → List (Con UVar F)) : List (Con UVar F) :=
  ts.flatMap (fun t => if u.active t then f t else [])

/-- 39-83. -/
def nonExtCons (u : Unit' F) (T : Nat) : List (Con UVar F) :=
  if u.extendable || u.committable then [] else
  rowsAt u (List.range T) (fun t =>
    [⟨tm (present u) 1 (.p t), .ge, u.minPu t * u.nom⟩,
     ⟨tm (present u) 1 (.p t), .le, u.maxPu t * u.nom⟩])

/-- 86-129. -/
def extCons (u : Unit' F) (T : Nat) : List (Con UVar F) :=
  if !u.extendable then [] else
  rowsAt u (List.range T) (fun t =>
    [⟨tm (present u) 1 (.p t) ++ tm (present u) (- u.minPu t) .cap, .ge, 0⟩,
     ⟨tm (present u) 1 (.p t) ++ tm (present u) (- u.maxPu t) .cap, .le, 0⟩])

/-- `x[x.cumsum().eq(1, 2, ...)].sum()` (182-184, 188-192). -/
def runLength : List F → Nat → F → F
  | [], _, _ => 0
  | x :: r, k, acc => (if acc + x = ((k + 1 : Nat) : F) then x else 0) + runLength r (k + 1) (acc + x)

/-- `up_time_before_set` (173, 185). -/
def upTimeSet (u : Unit' F) (rolling : Bool) : F :=
  if rolling then min (runLength u.histStatus.reverse 0 0) (u.minUp : F) else (u.upBefore : F)

/-- `down_time_before_set` (174, 193). -/
def downTimeSet (u : Unit' F) (rolling : Bool) : F :=
  if rolling then
    min (runLength (u.histStatus.reverse.map (fun s => if s = 0 then 1 else 0)) 0 0) (u.minDown : F)
  else (u.downBefore : F)

/-- `initially_up` (175, 186). -/
def initUp (u : Unit' F) (rolling : Bool) : Bool := upTimeSet u rolling ≠ 0

/-- `initially_down` (176, 194). -/
def initDown (u : Unit' F) (rolling : Bool) : Bool := downTimeSet u rolling ≠ 0

/-- `status - status.shift(snapshot=1)` (158), scaled. -/
def statusDiff (u : Unit' F) (a : F) (t : Nat) : List (F × UVar) :=
  tm (present u) a (.status t) ++ prevTm u (-a) .status t

/-- Rows of 196-267. -/
def comCons (u : Unit' F) (T : Nat) (rolling : Bool) : List (Con UVar F) :=
  if !u.committable then [] else
  -- lower and upper dispatch level
  rowsAt u (List.range T) (fun t =>
    [⟨tm (present u) 1 (.p t) ++ tm (present u) (- (u.minPu t * u.nom)) (.status t), .ge, 0⟩,
     ⟨tm (present u) 1 (.p t) ++ tm (present u) (- (u.maxPu t * u.nom)) (.status t), .le, 0⟩]) ++
  -- state transitions
  rowsAt u (List.range T) (fun t =>
    [⟨tm (present u) 1 (.startUp t) ++ statusDiff u (-1) t, .ge,
        if t = 0 ∧ initUp u rolling = true then -1 else 0⟩,
     ⟨tm (present u) 1 (.shutDown t) ++ statusDiff u 1 t, .ge,
        if t = 0 ∧ initUp u rolling = true then 1 else 0⟩]) ++
  -- minimum up and down times
  rowsAt u (List.range' 1 (T - 1)) (fun t =>
    (if u.minUp ≠ 0 then
      [⟨tm (present u) (-1) (.status t) ++ windowTm u .startUp u.minUp t, .le, 0⟩] else []) ++
    (if u.minDown ≠ 0 then
      [⟨tm (present u) 1 (.status t) ++ windowTm u .shutDown u.minDown t, .le, 1⟩] else [])) ++
  -- times before the window
  rowsAt u (List.range T) (fun t =>
    (if initUp u rolling = true ∧ ((t + 1 : Nat) : F) ≤ max ((u.minUp : F) - upTimeSet u rolling) 0 then
      [⟨tm (present u) 1 (.status t), .eq, 1⟩] else []) ++
    (if initDown u rolling = true ∧
        ((t + 1 : Nat) : F) ≤ max ((u.minDown : F) - downTimeSet u rolling) 0 then
      [⟨tm (present u) 1 (.status t), .eq, 0⟩] else []))

/-- Rows of the linearised unit commitment (269-360). -/
def linearizedCons (u : Unit' F) (T : Nat) : List (Con UVar F) :=
  if !u.committable || u.startUpCost ≠ u.shutDownCost then [] else
  let pr := present u
  let up := fun t => u.maxPu t * u.nom
  let lo := fun t => u.minPu t * u.nom
  let rUp := u.nom * u.rampUpStatic.getD 1
  let rDown := u.nom * u.rampDownStatic.getD 1
  let rStart := u.nom * u.rampStart
  let rShut := u.nom * u.rampShut
  rowsAt u (List.range' 1 (T - 1)) (fun t =>
    [⟨prevTm u 1 .p t ++ prevTm u (-rShut) .status t ++
        tm pr (-(up t - rShut)) (.status t) ++ tm pr (up t - rShut) (.startUp t), .le, 0⟩,
     ⟨tm pr 1 (.p t) ++ tm pr (-up t) (.status t) ++ tm pr (up t - rStart) (.startUp t), .le, 0⟩,
     ⟨tm pr 1 (.p t) ++ prevTm u (-1) .p t ++ tm pr (-(lo t + rUp)) (.status t) ++
        prevTm u (lo t) .status t ++ tm pr (lo t + rUp - rStart) (.startUp t), .le, 0⟩,
     ⟨prevTm u 1 .p t ++ tm pr (-1) (.p t) ++ prevTm u (-rShut) .status t ++
        tm pr (rShut - rDown) (.status t) ++ tm pr (-(lo t + rDown - rShut)) (.startUp t), .le, 0⟩])

/-- The early returns (410-413): no limits at all, or all limits equal to one. -/
def rampSkip (cls : List (Unit' F)) (T : Nat) : Bool :=
  cls.all (fun u => (List.range T).all (fun t => u.rampUp t = none ∧ u.rampDown t = none)) ||
  cls.all (fun u => (List.range T).all (fun t => u.rampUp t = some 1 ∧ u.rampDown t = some 1))

/-- `rhs_start` (430-431, 441). -/
def rampStartRhs (u : Unit' F) (rolling : Bool) (t : Nat) : F :=
  if rolling = true ∧ t = 0 then u.histP else 0

def lastStatus (u : Unit' F) : F := u.histStatus.getLastD 0

/-- `p_actual - p_previous`. -/
def pDiff (u : Unit' F) (t : Nat) : List (F × UVar) :=
  tm (present u) 1 (.p t) ++ prevTm u (-1) .p t

/-- Rows for one unit at one snapshot (459-570). -/
def rampRows (u : Unit' F) (rolling : Bool) (t : Nat) : List (Con UVar F) :=
  -- fixed capacity
  (if !u.extendable && !u.committable then
    (match u.rampUp t with
      | some r => [⟨pDiff u t, .le, r * u.nom + rampStartRhs u rolling t⟩]
      | none => []) ++
    (match u.rampDown t with
      | some r => [⟨pDiff u t, .ge, - r * u.nom + rampStartRhs u rolling t⟩]
      | none => [])
  else []) ++
  -- extendable capacity
  (if u.extendable then
    (match u.rampUp t with
      | some r => [⟨pDiff u t ++ tm (present u) (- r) .cap, .le, rampStartRhs u rolling t⟩]
      | none => []) ++
    (match u.rampDown t with
      | some r => [⟨pDiff u t ++ tm (present u) r .cap, .ge, rampStartRhs u rolling t⟩]
      | none => [])
  else []) ++
  -- committable: static limits only
  (if u.committable then
    (match u.rampUpStatic with
      | some r =>
        [⟨pDiff u t ++ prevTm u (u.rampStart * u.nom - r * u.nom) .status t ++
            tm (present u) (- (u.rampStart * u.nom)) (.status t), .le,
          rampStartRhs u rolling t +
            (if rolling = true ∧ t = 0 then
              (r * u.nom - u.rampStart * u.nom) * lastStatus u else 0)⟩]
      | none => []) ++
    (match u.rampDownStatic with
      | some r =>
        [⟨pDiff u t ++ tm (present u) (r * u.nom - u.rampShut * u.nom) (.status t) ++
            prevTm u (u.rampShut * u.nom) .status t, .ge,
          rampStartRhs u rolling t +
            (if rolling = true ∧ t = 0 then - (u.rampShut * u.nom) * lastStatus u else 0)⟩]
      | none => [])
  else [])

/-- `define_ramp_limit_constraints` (393-570); recorded dispatch is assumed to exist for a window
that starts later. -/
def rampCons (cls : List (Unit' F)) (u : Unit' F) (T : Nat) (rolling : Bool) : List (Con UVar F) :=
  if rampSkip cls T then [] else
  rowsAt u (if rolling then List.range T else List.range' 1 (T - 1)) (rampRows u rolling)

/-- All rows of one unit. -/
def unitCons (cls : List (Unit' F)) (u : Unit' F) (T : Nat) (rolling linearized : Bool) :
    List (Con UVar F) :=
  nonExtCons u T ++ extCons u T ++ comCons u T rolling ++
    (if linearized then linearizedCons u T else []) ++ rampCons cls u T rolling

end Verif.Opt
