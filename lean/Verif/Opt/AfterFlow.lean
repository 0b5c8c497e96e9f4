import Verif.Opt.Results
import Verif.PowerFlow.Injection
import Verif.Graph.Model

/-!
# Model of the step from an optimisation to a power flow

`fix_optimal_dispatch` (`optimization/optimize.py` 735-746) and
`optimize_and_run_non_linear_powerflow` (`optimization/abstract.py` 656-737): set points are taken from
the recorded results, controls of generators are set, then a power flow runs.  One snapshot.  The
power flow itself is modelled in `PowerFlow`.

The power flow looks at the column `active` only, the optimisation also at build year and lifetime;
`act` gives that column for an asset by name.
-/

namespace Verif.Opt.AfterFlow

open Verif.Opt.Nodal Verif.Opt.Results

variable {F : Type} [Field F]

/-- The columns `active` of the classes, by name; loads are in service by this column only. -/
structure Flags where
  gen : Name → Bool
  store : Name → Bool
  sunit : Name → Bool
  link : Name → Bool

/-- `p_set = p` for one-ports (`optimize.py` 743-744, `abstract.py` 708-709), as rows of the power
flow.  Loads have no name in `Net`. -/
def fixedOps (a : Flags) (n : Net F) (val : NVar → F) : List (PowerFlow.OnePort F) :=
  n.gens.map (fun g => ⟨g.name, g.bus, g.sign, a.gen g.name, genP val g⟩) ++
  n.loads.map (fun l => ⟨"", l.bus, l.sign, l.active, loadP l⟩) ++
  n.stores.map (fun g => ⟨g.name, g.bus, g.sign, a.store g.name, storeP val g⟩) ++
  n.units.map (fun g => ⟨g.name, g.bus, g.sign, a.sunit g.name, unitP val g⟩)

/-- `p_set = p0` for links (`optimize.py` 745-746, `abstract.py` 710-711). -/
def fixedLinks (a : Flags) (n : Net F) (val : NVar → F) : List (PowerFlow.LinkRow F) :=
  n.links.map (fun l => ⟨l.bus0, (l.bus1, l.eff) :: l.extra, a.link l.name, linkP0 val l⟩)

/-- Injections with which a power flow starts afterwards; `shunts` are the shunt impedances, which the
optimisation does not know. -/
def startInjection (a : Flags) (n : Net F) (val : NVar → F) (shunts : List (PowerFlow.OnePort F)) (b : Name) : F :=
  PowerFlow.injection (fixedOps a n val ++ shunts) (fixedLinks a n val) b

/-! ## Controls -/

/-- A sub-network as left by the optimisation: its slack generator, and its generators. -/
structure SubGens where
  slack : Name
  gens : List Name

/-- The first label of a sorted index. -/
def least : List Name → Option Name
  | [] => none
  | a :: l => some (l.foldl (fun best c => if c < best then c else best) a)

/-- `generators.difference([slack])`, then the first (`abstract.py` 720-722); `difference` sorts. -/
def pqOf (s : SubGens) : Option Name := least (s.gens.filter (fun g => g ≠ s.slack))

/-- `n.generators.loc[name, "control"] = c` for a generator that exists. -/
def setAt (name : Name) (c : String) (gens : List Graph.Gen) : List Graph.Gen :=
  gens.map (fun g => if g.name = name then { g with control := c } else g)

/-- The first loop (`abstract.py` 715-716). -/
def setSlacks (subs : List SubGens) (gens : List Graph.Gen) : List Graph.Gen :=
  subs.foldl (fun gs s => setAt s.slack "Slack" gs) gens

/-- The second loop (`abstract.py` 718-722). -/
def setPqs (subs : List SubGens) (gens : List Graph.Gen) : List Graph.Gen :=
  subs.foldl (fun gs s => match pqOf s with
    | none => gs
    | some g => setAt g "PQ" gs) gens

/-- `abstract.py` 713-722 for the sub-networks with generators; the label `None` of a sub-network without is
left out.  `subs` is `none` if no topology was determined because there are no lines and
transformers: then `n.sub_networks.obj` raises. -/
def setControls (subs : Option (List SubGens)) (gens : List Graph.Gen) : Option (List Graph.Gen) :=
  match subs with
  | none => none
  | some subs => some (setPqs subs (setSlacks subs (gens.map (fun g => { g with control := "PV" }))))

end Verif.Opt.AfterFlow
