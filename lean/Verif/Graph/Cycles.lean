import Verif.Graph.Model
import Mathlib.Algebra.BigOperators.Group.Finset.Basic
import Mathlib.Algebra.BigOperators.Ring.Finset

/-!
# Model of `find_cycles`

`find_cycles` (`pf.py` 1376-1423) on the multigraph built by `graph` (`graph.py` 22-93).
A branch is its position in `sub_network.branches()`.  `nx.cycle_basis` is a library call:
its result is a parameter `cycles`, with the assumption `CycleBasis` in `CyclesProps`.
-/

namespace Verif.Graph

/-- A row of `sub_network.branches()`; `inf` says that its weight is infinite. -/
structure Edge where
  bus0 : Name
  bus1 : Name
  inf : Bool := false
  active : Bool := true
  deriving DecidableEq

/-- The branch lies between `u` and `v` in either direction. -/
def Edge.joins (e : Edge) (u v : Name) : Bool :=
  decide ((e.bus0 = u ∧ e.bus1 = v) ∨ (e.bus0 = v ∧ e.bus1 = u))

/-- `list(mgraph[u][v].keys())`: branches of infinite weight are skipped by `graph`
(`graph.py` 83-86), inactive ones are kept (`include_inactive=True`, 28). -/
def between (es : List Edge) (u v : Name) : List Nat :=
  (List.range es.length).filter (fun i => match es[i]? with
    | some e => !e.inf && e.joins u v
    | none => false)

/-- `cycle[i], cycle[(i + 1) % len(cycle)]` for all `i`. -/
def cycleSteps (cycle : List Name) : List (Name × Name) :=
  cycle.zip (cycle.tail ++ cycle.take 1)

/-- `+1 if branches_bus0.iat[branch_i] == u else -1`. -/
def orient (es : List Edge) (i : Nat) (u : Name) : Int :=
  if (es[i]?).map (·.bus0) = some u then 1 else -1

/-- `next(iter(mgraph[u][v].keys()))` and the sign (1402-1404). -/
def stepEntry (es : List Edge) (s : Name × Name) : Except Err (Nat × Int) :=
  match (between es s.1 s.2).head? with
  | none => .error .valueError
  | some i => .ok (i, orient es i s.1)

/-- The summed entries of one column of the `dok_matrix`. -/
def column (entries : List (Nat × Int)) (i : Nat) : Int :=
  ((entries.filter (fun e => e.1 = i)).map (·.2)).sum

/-- The branches that come first among those between their two buses; there is one for
each edge of the simple graph (`graph.edges()`). -/
def firsts (es : List Edge) : List Nat :=
  (List.range es.length).filter (fun i => match es[i]? with
    | some e => (between es e.bus0 e.bus1).head? = some i
    | none => false)

/-- `-1 if branches_bus0.iat[b_i] == branches_bus0.iat[first_i] else +1`. -/
def multiSign (es : List Edge) (first b : Nat) : Int :=
  if (es[b]?).map (·.bus0) = (es[first]?).map (·.bus0) then -1 else 1

/-- The columns of the two-edge cycles starting with the branch `first` (1411-1423). -/
def multiOf (es : List Edge) (first : Nat) : List (List (Nat × Int)) :=
  match es[first]? with
  | none => []
  | some e => (between es e.bus0 e.bus1).tail.map (fun b => [(first, 1), (b, multiSign es first b)])

/-- `len(mgraph.edges()) - len(graph.edges())` (1395). -/
def numMulti (es : List Edge) : Nat :=
  (es.filter (fun e => !e.inf)).length - (firsts es).length

/-- `find_cycles`: the columns of `sub_network.C`, each as a list of entries. -/
def findCycles (es : List Edge) (cycles : List (List Name)) :
    Except Err (List (List (Nat × Int))) :=
  match collect (fun cycle => collect (stepEntry es) (cycleSteps cycle)) cycles with
  | .error e => .error e
  | .ok cs => .ok (cs ++ (firsts es).flatMap (multiOf es))

end Verif.Graph
