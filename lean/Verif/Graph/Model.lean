import Mathlib.Data.List.Basic
import Mathlib.Algebra.BigOperators.Group.List.Basic

/-!
# Model of the graph functions

`get_active_assets` (`components/descriptors.py` 22-61), `adjacency_matrix` (`graph.py`
97-164), `incidence_matrix` (`graph.py` 168-225), `determine_network_topology`
(`networks.py` 1701-1771), `find_slack_bus` and `find_bus_controls` (`pf.py` 1029-1105).

The class sets such as `passive_branch_components` are Python sets, so the order in which
classes are visited is arbitrary; the model takes the tables as a list in visiting order.
-/

namespace Verif.Graph

abbrev Name := String

inductive Err where
  | valueError
  deriving DecidableEq

/-- One row of a branch table; `life = none` is an infinite lifetime. -/
structure Branch where
  name : Name
  bus0 : Name
  bus1 : Name
  active : Bool := true
  build : Int := 0
  life : Option Int := none
  deriving DecidableEq

/-- A branch table with its class name. -/
structure Table where
  cls : String
  rows : List Branch
  deriving DecidableEq

/-- `build_year <= period < build_year + lifetime`. -/
def Branch.builtIn (b : Branch) (p : Int) : Bool :=
  b.build ≤ p && (match b.life with
    | none => true
    | some l => p < b.build + l)

/-- `get_active_assets(investment_period)` for one row. -/
def Branch.isActive (b : Branch) : Option Int → Bool
  | none => b.active
  | some p => b.builtIn p && b.active

/-- `Index.get_indexer` of one label; `none` stands for -1. -/
def indexer (order : List Name) (x : Name) : Option Nat :=
  if x ∈ order then some (order.idxOf x) else none

/-- `iterate_components` skips empty tables. -/
def nonEmpty (ts : List Table) : List Table := ts.filter (fun t => !t.rows.isEmpty)

/-- The variable `no_branches` after the loop of `adjacency_matrix` (`graph.py` 141-146):
it is overwritten in every pass. -/
def lastCount (period : Option Int) (ts : List Table) : Nat :=
  (nonEmpty ts).foldl (fun _ t => (t.rows.filter (·.isActive period)).length) 0

/-- The active branches in visiting order, with their class. -/
def activeBranches (period : Option Int) (ts : List Table) : List (String × Branch) :=
  (nonEmpty ts).flatMap (fun t => (t.rows.filter (·.isActive period)).map (fun b => (t.cls, b)))

/-- Positions of the two ends; a missing bus is -1, which scipy refuses. -/
def ends (order : List Name) (b : Branch) : Except Err (Nat × Nat) :=
  match indexer order b.bus0, indexer order b.bus1 with
  | some i, some j => .ok (i, j)
  | _, _ => .error .valueError

/-- `mapM` over a list, stopping at the first error. -/
def collect {α β : Type} (f : α → Except Err β) : List α → Except Err (List β)
  | [] => .ok []
  | a :: l =>
    match f a with
    | .error e => .error e
    | .ok b =>
      match collect f l with
      | .error e => .error e
      | .ok bs => .ok (b :: bs)

/-- The triples `(row, column, weight)` of `adjacency_matrix`. -/
def adjacency {F : Type} (order : List Name) (ts : List Table) (period : Option Int)
    (weight : String × Branch → F) : Except Err (List (Nat × Nat × F)) :=
  if lastCount period ts = 0 then .ok []
  else collect (fun b =>
    match ends order b.2 with
    | .error e => .error e
    | .ok (i, j) => .ok (i, j, weight b)) (activeBranches period ts)

/-- An entry of a matrix given by triples: `coo_matrix` adds repeated positions. -/
def entry {F : Type} [AddMonoid F] (l : List (Nat × Nat × F)) (i j : Nat) : F :=
  ((l.filter (fun t => t.1 = i ∧ t.2.1 = j)).map (fun t => t.2.2)).sum

/-- `l.zip (range l.length)` starting at `k`. -/
def numbered {α : Type} : Nat → List α → List (Nat × α)
  | _, [] => []
  | k, a :: l => (k, a) :: numbered (k + 1) l

/-- The triples of `incidence_matrix`: `+1` at `bus0` and `-1` at `bus1` of every active
branch.  `np.concatenate` fails when no table has rows. -/
def incidence (order : List Name) (ts : List Table) : Except Err (List (Nat × Nat × Int)) :=
  if (nonEmpty ts).isEmpty then .error .valueError
  else
    match collect (fun b => ends order b.2) (activeBranches none ts) with
    | .error e => .error e
    | .ok es =>
      let num := numbered 0 es
      .ok (num.map (fun e => (e.2.1, e.1, 1)) ++ num.map (fun e => (e.2.2, e.1, -1)))

/-! ## Topology -/

/-- Merge the classes of the two ends of every edge. -/
def merged (edges : List (Nat × Nat)) : Nat → Nat :=
  edges.foldl (fun lab e => fun k => if lab k = lab e.2 then lab e.1 else lab k) id

/-- Distinct elements in order of first occurrence. -/
def uniq : List Nat → List Nat
  | [] => []
  | a :: l => a :: (uniq l).filter (· ≠ a)

/-- `scipy.sparse.csgraph.connected_components(A, directed=False)` on `n` nodes: labels
numbered in order of the first node. -/
def labels (n : Nat) (edges : List (Nat × Nat)) (k : Nat) : Nat :=
  (uniq ((List.range n).map (merged edges))).idxOf (merged edges k)

def componentCount (n : Nat) (edges : List (Nat × Nat)) : Nat :=
  (uniq ((List.range n).map (merged edges))).length

/-- The result of `determine_network_topology`; labels of sub-networks are numbers (the
code uses their decimal strings). -/
structure Topology where
  subNetworks : List Nat
  bus : Name → Nat
  branch : Branch → Option Nat

/-- `determine_network_topology(investment_period, skip_isolated_buses)`. -/
def topology (buses : List Name) (ts : List Table) (period : Option Int) (skip : Bool) :
    Except Err Topology :=
  match adjacency (F := Nat) buses ts period (fun _ => 1) with
  | .error e => .error e
  | .ok tr =>
    let edges := tr.map (fun t => (t.1, t.2.1))
    let lab := labels buses.length edges
    let size := fun i => ((List.range buses.length).filter (fun k => lab k = i)).length
    let busLab := fun x => lab (buses.idxOf x)
    .ok
      { subNetworks := (List.range (componentCount buses.length edges)).filter
          (fun i => !(skip && size i = 1))
        bus := busLab
        branch := fun b =>
          -- bus0.map(sub_network), and NaN for inactive branches when a period is given
          if period.isSome && !b.isActive period then none else some (busLab b.bus0) }

/-! ## Slack and bus controls -/

structure Gen where
  name : Name
  bus : Name
  control : String
  deriving DecidableEq

/-- What `find_bus_controls` leaves behind for one sub-network. -/
structure Controls where
  slackGen : Option Name
  slackBus : Name
  /-- the generators of the sub-network with updated controls -/
  gens : List Gen
  control : Name → String
  generator : Name → Option Name
  pvs : List Name
  pqs : List Name
  busesO : List Name

def setControl (names : List Name) (c : String) (g : Gen) : Gen :=
  if g.name ∈ names then { g with control := c } else g

/-- `find_slack_bus` (`pf.py` 1029-1068); `none` when the sub-network has no bus. -/
def findSlack (buses : List Name) (gens : List Gen) : Option (Option Name × Name × List Gen) :=
  match gens with
  | [] =>
    match buses with
    | [] => none
    | b :: _ => some (none, b, [])
  | g :: _ =>
    match (gens.filter (fun g => g.control = "Slack")) with
    | [] => some (some g.name, g.bus, gens.map (setControl [g.name] "Slack"))
    | s :: rest => some (some s.name, s.bus, gens.map (setControl (rest.map (·.name)) "PV"))

/-- `find_bus_controls` (`pf.py` 1071-1105); `old` is the column `generator` before. -/
def busControls (buses : List Name) (gens : List Gen) (old : Name → Option Name) :
    Option Controls :=
  match findSlack buses gens with
  | none => none
  | some (sg, sb, gens') =>
    let pvGens := gens'.filter (fun g => g.control = "PV")
    let ctrl1 := fun b => if b ∈ pvGens.map (·.bus) then "PV" else "PQ"
    let gen1 := fun b =>
      if b ∈ pvGens.map (·.bus) then (pvGens.find? (fun g => g.bus = b)).map (·.name) else old b
    let ctrl := fun b => if b = sb then "Slack" else ctrl1 b
    let pvs := buses.filter (fun b => ctrl b = "PV")
    let pqs := buses.filter (fun b => ctrl b = "PQ")
    some
      { slackGen := sg, slackBus := sb, gens := gens'
        control := ctrl
        generator := fun b => if b = sb then sg else gen1 b
        pvs := pvs
        pqs := pqs
        busesO := sb :: (pvs ++ pqs) }

end Verif.Graph
