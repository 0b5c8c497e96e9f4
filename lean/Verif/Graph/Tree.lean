import Verif.Graph.Cycles

/-!
# Model of `find_tree` and `aggregate_multi_graph`

`find_tree` (`pf.py` 1345-1373) and `aggregate_multi_graph` (`pf.py` 1298-1342), both on the
multigraph built by `graph` (`graph.py` 22-93).  A branch is its position in
`sub_network.branches()`.  `nx.minimum_spanning_tree` and `nx.shortest_path` are library calls:
the tree is a parameter (positions of its branches) and so is the path between two buses (`none`:
`NetworkXNoPath`); the assumption on them is `TreePaths` in `TreeProps`.
-/

namespace Verif.Graph

/-- `list(graph[u][v].keys())` for `inf_weight=1.0` (1354): no branch is skipped. -/
def joining (es : List Edge) (u v : Name) : List Nat :=
  (List.range es.length).filter (fun i => match es[i]? with
    | some e => e.joins u v
    | none => false)

/-- What a branch of the tree adds to the degree of a bus; a loop counts twice. -/
def endsAt (es : List Edge) (b : Name) (i : Nat) : Nat :=
  match es[i]? with
  | some e => (if e.bus0 = b then 1 else 0) + (if e.bus1 = b then 1 else 0)
  | none => 0

/-- `tree.degree()` (1358). -/
def degree (es : List Edge) (tree : List Nat) (b : Name) : Nat := (tree.map (endsAt es b)).sum

/-- `max(tree.degree(), key=itemgetter(1))` (1358): the first bus of highest degree. -/
def treeSlack (es : List Edge) (tree : List Nat) : List Name → Except Err Name
  | [] => .error .valueError
  | b :: bs => .ok (bs.foldl (fun best c => if degree es tree best < degree es tree c then c else best) b)

/-- One pass of the inner loop (1369-1373): the row and the value to be set. -/
def treeEntry (es : List Edge) (s : Name × Name) : Except Err (Nat × Int) :=
  match (joining es s.1 s.2).head? with
  | none => .error .valueError
  | some i => .ok (i, orient es i s.1)

/-- `path[i], path[i + 1]` for all `i`. -/
def pathSteps (path : List Name) : List (Name × Name) := path.zip path.tail

/-- The outer loop (1367-1373) for one bus: the assignments to the column of that bus. -/
def treeColumn (es : List Edge) (path : Name → Name → Option (List Name)) (slack b : Name) :
    Except Err (List (Nat × Int)) :=
  match path b slack with
  | none => .error .valueError
  | some l => collect (treeEntry es) (pathSteps l)

/-- An entry of a `dok_matrix` after assignments: the last one counts. -/
def assigned (entries : List (Nat × Int)) (i : Nat) : Int :=
  ((entries.reverse.find? (fun e => e.1 = i)).map (·.2)).getD 0

/-- `find_tree`: the bus used as slack of the tree and the columns of `sub_network.T`, in the order
of the buses. -/
def findTree (es : List Edge) (buses : List Name) (tree : List Nat)
    (path : Name → Name → Option (List Name)) : Except Err (Name × List (List (Nat × Int))) :=
  match treeSlack es tree buses with
  | .error e => .error e
  | .ok slack =>
    match collect (treeColumn es path slack) buses with
    | .error e => .error e
    | .ok cols => .ok (slack, cols)

/-! ## Parallel lines -/

/-- A passive branch as a key of the multigraph: the class and the name. -/
structure Key where
  cls : String
  name : Name
  bus0 : Name
  bus1 : Name
  deriving DecidableEq

/-- What `aggregate_multi_graph` raises. -/
inductive MultiErr where
  /-- `n.lines.loc[...]` of a name that is no line (1315) -/
  | keyError
  /-- `setattr` on the key of a branch, which is a tuple (1334-1335) -/
  | attributeError
  deriving DecidableEq

/-- `list(graph.adj[u][v].keys())` (1312). -/
def parallel (ks : List Key) (u v : Name) : List Key :=
  ks.filter (fun k => decide ((k.bus0 = u ∧ k.bus1 = v) ∨ (k.bus0 = v ∧ k.bus1 = u)))

/-- `n.remove("Line", name)` for all but the first of the branches (1328-1329), on the names of the
lines in the network. -/
def removeRest (lines : List Name) (objs : List Key) : List Name :=
  lines.filter (fun l => !((objs.drop 1).map (·.name)).contains l)

/-- The loop over `graph.edges()` (1309-1336), with the lines of the network as state: what is left
of them and how the loop ends.  `seen` has no effect before the first success of `setattr`, which
does not come. -/
def aggregateLoop (ks : List Key) (lines : List Name) : List (Name × Name) → List Name × Option MultiErr
  | [] => (lines, none)
  | (u, v) :: rest =>
    let objs := parallel ks u v
    if 1 < objs.length then
      if objs.all (fun k => lines.contains k.name) then (removeRest lines objs, some .attributeError)
      else (lines, some .keyError)
    else aggregateLoop ks lines rest

/-- `aggregate_multi_graph`: `graph.edges()` has the ends of all branches, in an order given by
`order`. -/
def aggregateMulti (order : List Key → List Key) (ks : List Key) (lines : List Name) :
    List Name × Option MultiErr :=
  aggregateLoop ks lines ((order ks).map (fun k => (k.bus0, k.bus1)))

end Verif.Graph
