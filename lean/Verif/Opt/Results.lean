import Verif.Opt.Nodal
import Verif.PowerFlow.Linear

/-!
# Model of the assignment of results

`set_from_frame` (`optimization/common.py` 38-47), `assign_solution` and `post_processing`
(`optimization/optimize.py` 336-387, 446-521) and the division of the nodal duals.  A column of a
table is a function of the snapshot, `none` is NaN.  `Net` (the nodal balance) describes one snapshot.
-/

namespace Verif.Opt.Results

open Verif.Opt.Nodal

variable {F : Type} [Field F]

/-- `set_from_frame` for one column; `old` is `none` if the table does not exist or is empty; `df`
has the rows `sns`. -/
def setFrame (old : Option (Nat → Option F)) (sns : List Nat) (df : Nat → Option F) (t : Nat) : Option F :=
  some ((if sns.contains t then df t else match old with
    | none => none
    | some o => o t).getD 0)

/-- `n.lines_t.p0 += losses / 2` (473-475): the rows of `losses` are `sns`; other rows become NaN. -/
def addLosses (col : Nat → Option F) (sns : List Nat) (loss : Nat → Option F) (t : Nat) : Option F :=
  if sns.contains t then
    match col t, loss t with
    | some x, some y => some (x + y / 2)
    | _, _ => none
  else none

/-! ## One snapshot -/

/-- Solution of a variable that may not exist; recorded as 0 (`fillna`). -/
def recorded (present : Bool) (x : F) : F := if present then x else 0

def genP (val : NVar → F) (g : OnePort F) : F := recorded g.active (val (.gen g.name))

def storeP (val : NVar → F) (g : OnePort F) : F := recorded g.active (val (.store g.name))

/-- 382-385. -/
def unitP (val : NVar → F) (g : OnePort F) : F :=
  recorded g.active (val (.dispatch g.name)) - recorded g.active (val (.charge g.name))

/-- 355-357. -/
def branchS (mk : Name → NVar) (val : NVar → F) (b : Branch) : F := recorded b.active (val (mk b.name))

/-- Line `p0` with losses (473-475): NaN for lines out of service. -/
def lineP0 (losses : Bool) (val : NVar → F) (b : Branch) : Option F :=
  if losses then (if b.active then some (branchS .line val b + val (.lineLoss b.name) / 2) else none)
  else some (branchS .line val b)

def lineP1 (losses : Bool) (val : NVar → F) (b : Branch) : Option F :=
  if losses then (if b.active then some (- branchS .line val b + val (.lineLoss b.name) / 2) else none)
  else some (- branchS .line val b)

/-- Transformers are recorded without losses. -/
def trafoP0 (val : NVar → F) (b : Branch) : F := branchS .trafo val b

def trafoP1 (val : NVar → F) (b : Branch) : F := - branchS .trafo val b

def linkP0 (val : NVar → F) (l : LinkC F) : F := recorded l.active (val (.link l.name))

/-- 362-368. -/
def linkP1 (val : NVar → F) (l : LinkC F) : F := recorded l.active (- val (.link l.name) * l.eff)

/-- An unused port is set to the default. -/
def linkPort (val : NVar → F) (l : LinkC F) (e : Name × F) : F :=
  if e.1 = "" then 0 else recorded l.active (- val (.link l.name) * e.2)

/-- Recorded for all loads (468-469). -/
def loadP (l : LoadC F) : F := l.pSet

/-- The columns that are put together for `buses_t.p`, with their bus (477-501). -/
def columns (n : Net F) (val : NVar → F) : List (Name × F) :=
  n.gens.map (fun g => (g.bus, genP val g * g.sign)) ++
  n.stores.map (fun g => (g.bus, storeP val g * g.sign)) ++
  n.loads.map (fun l => (l.bus, loadP l * l.sign)) ++
  n.units.map (fun g => (g.bus, unitP val g * g.sign)) ++
  n.links.map (fun l => (l.bus0, linkP0 val l * -1)) ++
  n.links.map (fun l => (l.bus1, linkP1 val l * -1)) ++
  n.links.flatMap (fun l => l.extra.map (fun e => (e.1, linkPort val l e * -1)))

/-- `buses_t.p`. -/
def busP (n : Net F) (val : NVar → F) (b : Name) : F :=
  (((columns n val).filter (fun c => decide (c.1 = b))).map (·.2)).sum

/-- `{attr}_opt` (372-379); `sol` is the solution of the capacity variable. -/
def nomOpt (ext : Bool) (nom sol : F) : F := if ext then sol else nom

/-- Price of a bus after `assign_duals` and `post_processing` (412-420, 456-466); `dual` is `none` if
the solver returned no duals. -/
def price (old : F) (dual : Option F) (weight : F) : F :=
  (match dual with
    | some d => d
    | none => old) / weight

/-! ## Voltage angles -/

/-- `v_ang_for_` (503-511) for a sub-network with more than one bus: `Z -= Z[slack_bus]` aligns the
column of the slack bus with the columns. -/
def vAng {n : Nat} (Z : Matrix (Fin (n + 1)) (Fin (n + 1)) F) (p : Fin (n + 1) → F) (j : Fin (n + 1)) : F :=
  ∑ i, p i * (Z i j - Z j 0)

end Verif.Opt.Results
