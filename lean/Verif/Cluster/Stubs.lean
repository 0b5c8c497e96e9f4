import Mathlib.Data.List.Dedup

/-!
# Model of the contraction of stubs

`busmap_by_stubs` (`clustering/spatial.py` 957-999) on the graph of `graph` (`graph.py` 22-92), of which only the ends of
the branches (in or out of service) matter here.  The busmap is a function of the bus.
-/

namespace Verif.Cluster

abbrev Name := String

/-- `list(G.adj[u].keys())` after the removal of nodes: other ends of the edges at `u`, each once. -/
def neighbours (nodes : List Name) (edges : List (Name × Name)) (u : Name) : List Name :=
  ((edges.filterMap (fun e => if e.1 = u then some e.2 else if e.2 = u then some e.1 else none)).filter (fun v => decide (v ∈ nodes))).dedup

/-- `attrs_match` (979-983): `matching_attrs` as columns; NaN (`none`) does not equal itself. -/
def attrsMatch (attrs : Option (List (Name → Option String))) (u v : Name) : Bool :=
  match attrs with
  | none => true
  | some cols => cols.all (fun a => (a u).isSome && decide (a u = a v))

/-- The bus into which `u` is merged in this pass (988-991). -/
def target (attrs : Option (List (Name → Option String))) (nodes : List Name) (edges : List (Name × Name)) (u : Name) : Option Name :=
  match neighbours nodes edges u with
  | [v] => if attrsMatch attrs u v then some v else none
  | _ => none

/-- `busmap[busmap == u] = v` (992). -/
def reassign (m : Name → Name) (u v : Name) : Name → Name := fun b => if m b = u then v else m b

/-- The pass over all nodes (987-993); the graph is changed afterwards. -/
def pass (attrs : Option (List (Name → Option String))) (nodes : List Name) (edges : List (Name × Name)) (m : Name → Name) : Name → Name :=
  nodes.foldl (fun m u => ((target attrs nodes edges u).map (reassign m u)).getD m) m

/-- `G.remove_nodes_from(stubs)` (994). -/
def remaining (attrs : Option (List (Name → Option String))) (nodes : List Name) (edges : List (Name × Name)) : List Name :=
  nodes.filter (fun u => (target attrs nodes edges u).isNone)

/-- The loop (985-996): it ends when there is no stub. -/
def contract (attrs : Option (List (Name → Option String))) (edges : List (Name × Name)) (nodes : List Name) (m : Name → Name) : Name → Name :=
  if h : (remaining attrs nodes edges).length < nodes.length then
    contract attrs edges (remaining attrs nodes edges) (pass attrs nodes edges m)
  else pass attrs nodes edges m
termination_by nodes.length

/-- `busmap_by_stubs`. -/
def busmapByStubs (buses : List Name) (edges : List (Name × Name)) (attrs : Option (List (Name → Option String))) : Name → Name :=
  contract attrs edges buses id

end Verif.Cluster
