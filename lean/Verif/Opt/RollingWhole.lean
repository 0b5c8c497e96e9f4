import Verif.Opt.Whole
import Verif.Opt.Rolling

/-!
# Model of the rolling horizon for a whole network

`optimize_with_rolling_horizon` (`optimization/abstract.py` 457-510) for all snapshots of the network, each window with the
problem of `Whole.lean`.  All windows are solved.  What is recorded is kept by variable: the value of each variable at
each snapshot (`assign_solution`, `optimize.py` 336-400).
-/

namespace Verif.Opt.Whole

variable {F : Type} [Field F] [LinearOrder F]

/-- Investment columns do not depend on snapshots; costs do. -/
def costsAt (c : Costs F) (s : Nat) : Costs F :=
  ⟨fun t => c.marginal (s + t), fun t => c.quadratic (s + t), fun t => c.marginalStorage (s + t), fun t => c.spillCost (s + t),
    fun t => c.standBy (s + t)⟩

/-- A unit seen from a window that begins at snapshot `s`, with the recorded dispatch before it (`constraints.py` 421-422) and
the recorded statuses (177-194). -/
def unitAt (u : Unit' F) (s : Nat) (p : F) (status : List F) : Unit' F :=
  { u with active := fun t => u.active (s + t), minPu := fun t => u.minPu (s + t), maxPu := fun t => u.maxPu (s + t),
           rampUp := fun t => u.rampUp (s + t), rampDown := fun t => u.rampDown (s + t), histP := p, histStatus := status }

/-- Recorded dispatch and statuses of a unit before snapshot `s`. -/
def unitOf (R : WVar → F) (c name : Name) (u : Unit' F) (s : Nat) : Unit' F :=
  unitAt u s (R (.of c name (.op "p" (s - 1)))) ((List.range s).map (fun t => R (.of c name (.op "status" t))))

def genAt (R : WVar → F) (s : Nat) (g : GenW F) : GenW F :=
  { g with unit := unitOf R "Generator" g.name g.unit s, costs := costsAt g.costs s, pSet := fun t => g.pSet (s + t) }

def linkAt (R : WVar → F) (s : Nat) (g : LinkW F) : LinkW F :=
  { g with eff := fun t => g.eff (s + t), extra := g.extra.map (fun e => (e.1, fun t => e.2 (s + t))),
           unit := unitOf R "Link" g.name g.unit s, costs := costsAt g.costs s, pSet := fun t => g.pSet (s + t) }

/-- Initial energy is the recorded energy before the window (497-499). -/
def storeAt (R : WVar → F) (first : Bool) (s : Nat) (g : StoreW F) : StoreW F :=
  { g with storage := Rolling.shiftTo g.storage s (Rolling.initialOf g.storage.initial (fun t => R (.of "Store" g.name (.op "e" t))) first s),
           minPu := fun t => g.minPu (s + t), maxPu := fun t => g.maxPu (s + t), costs := costsAt g.costs s,
           eSet := fun t => g.eSet (s + t) }

/-- 500-503. -/
def sunitAt (R : WVar → F) (first : Bool) (s : Nat) (g : UnitW F) : UnitW F :=
  { g with storage := ⟨Rolling.shiftTo g.storage.toStorage s (Rolling.initialOf g.storage.initial
               (fun t => R (.of "StorageUnit" g.name (.op "state_of_charge" t))) first s),
             fun t => g.storage.effStore (s + t), fun t => g.storage.effDispatch (s + t), fun t => g.storage.inflow (s + t)⟩,
           minPu := fun t => g.minPu (s + t), maxPu := fun t => g.maxPu (s + t), costs := costsAt g.costs s,
           socSet := fun t => g.socSet (s + t) }

def branchAt (s : Nat) (b : BranchW F) : BranchW F :=
  { b with active := fun t => b.active (s + t), maxPu := fun t => b.maxPu (s + t), sSet := fun t => b.sSet (s + t) }

def loadAt (s : Nat) (l : LoadW F) : LoadW F := { l with pSet := fun t => l.pSet (s + t), active := fun t => l.active (s + t) }

/-- The network as the problem of a window of `n` snapshots from `s` on sees it; ramp limits look back if it does not begin
at the first snapshot (424). -/
def windowNet (w : WNet F) (R : WVar → F) (first : Bool) (s n : Nat) : WNet F where
  len := n
  multi := w.multi
  period := fun t => w.period (s + t)
  rolling := decide (s ≠ 0)
  linearized := w.linearized
  tangents := w.tangents
  threshold := w.threshold
  sw := fun t => w.sw (s + t)
  gw := fun t => w.gw (s + t)
  periods := w.periods.map (fun p => (p.1, p.2.1, fun t => p.2.2 (s + t)))
  buses := w.buses
  gens := w.gens.map (genAt R s)
  links := w.links.map (linkAt R s)
  stores := w.stores.map (storeAt R first s)
  units := w.units.map (sunitAt R first s)
  lines := w.lines.map (branchAt s)
  trafos := w.trafos.map (branchAt s)
  loads := w.loads.map (loadAt s)

/-- Further rows that concern one snapshot each, such as the voltage law. -/
def otherRows (rows : Nat → List (Con (Name × Name × Name) F)) (s n : Nat) : List (Con WVar F) :=
  (List.range n).flatMap (fun t => (rows (s + t)).map (remap (fun v => .of v.1 v.2.1 (.op v.2.2 t))))

/-- Recording of a solution for snapshots from `s` to before `e`; capacities are replaced. -/
def recordAll (s e : Nat) (x R : WVar → F) : WVar → F
  | .of c a (.op v t) => if s ≤ t ∧ t < e then x (.of c a (.op v (t - s))) else R (.of c a (.op v t))
  | v => x v

/-- A run over windows (490-505), each with a feasible solution. -/
inductive Rolled (w : WNet F) (rows : Nat → List (Con (Name × Name × Name) F)) :
    List (Nat × Nat) → Bool → (WVar → F) → (WVar → F) → Prop
  | nil (first : Bool) (R : WVar → F) : Rolled w rows [] first R R
  | cons (first : Bool) (R R' : WVar → F) (s e : Nat) (rest : List (Nat × Nat)) (P : Program F) (x : WVar → F)
      (hP : createModel (windowNet w R first s (e - s)) (otherRows rows s (e - s)) = some P)
      (hrows : Feasible x P.rows) (hbal : Feasible x (P.balance.map (·.2)))
      (hrest : Rolled w rows rest false (recordAll s e x R) R') : Rolled w rows ((s, e) :: rest) first R R'

end Verif.Opt.Whole
