import Verif.Cluster.Network
import Verif.Graph.Model
import Mathlib.Algebra.Order.Ring.Rat

/-!
# Model of the busmaps made by clustering methods

`busmap_by_kmeans`, `busmap_by_hac` and `busmap_by_greedy_modularity` with the functions that cluster networks by them
(`clustering/spatial.py` 603-950).  The methods of the libraries are parameters.  Simplified: labels of an index occur once;
the lines of `busmap_by_greedy_modularity` are those after `calculate_dependent_values` (893), the modulus of an impedance is a
parameter; keywords for the libraries and the checks for installed libraries are left out.
-/

namespace Verif.Cluster.Busmaps

inductive Err where
  | keyError
  | valueError
  deriving DecidableEq

variable {F : Type}

/-- Numbers to labels: `.astype(str)` (659), `dtype=str` (788), `str(c)` (911). -/
def label (k : Nat) : String := toString k

/-! ## k-means -/

/-- `astype(int)` of a number (648): cut off towards zero. -/
def truncate (q : ℚ) : Int := q.num.tdiv q.den

/-- Columns `x`, `y` of `n.buses`. -/
abbrev Coordinates (F : Type) := List (String × F × F)

/-- `n.buses.loc[buses_i, ["x", "y"]]` (647, 657): raises for unknown buses. -/
def positions (buses : Coordinates F) : List String → Except Err (List (F × F))
  | [] => .ok []
  | b :: bs =>
    match buses.lookup b, positions buses bs with
    | some p, .ok ps => .ok (p :: ps)
    | _, _ => .error .keyError

/-- One of the weights (648): a missing one is NaN, which is no integer; `repeat` refuses negative counts. -/
def count (weights : List (String × ℚ)) (b : String) : Option Nat :=
  (weights.lookup b).bind (fun q => if 0 ≤ truncate q then some (truncate q).toNat else none)

def counts (weights : List (String × ℚ)) : List String → Except Err (List Nat)
  | [] => .ok []
  | b :: bs =>
    match count weights b, counts weights bs with
    | some k, .ok ks => .ok (k :: ks)
    | _, _ => .error .valueError

/-- `values.repeat(counts, axis=0)` (647-649). -/
def repeated (ps : List (F × F)) (ks : List Nat) : List (F × F) := (ps.zip ks).flatMap (fun e => List.replicate e.2 e.1)

/-- `sklearn.cluster.KMeans` (652-654, 657): fitted to points it says for each point to which centre it belongs. -/
structure KMeans (F : Type) where
  State : Type
  fit : Nat → List (F × F) → State
  predict : State → F × F → Nat

/-- `busmap_by_kmeans` (603-659); fewer points than clusters are refused by the library. -/
def byKmeans (lib : KMeans F) (buses : Coordinates F) (weights : List (String × ℚ)) (k : Nat) (sel : Option (List String)) :
    Except Err (List (String × String)) :=
  match positions buses (sel.getD (buses.map Prod.fst)) with
  | .error e => .error e
  | .ok ps =>
    match counts weights (sel.getD (buses.map Prod.fst)) with
    | .error e => .error e
    | .ok ks =>
      if (repeated ps ks).length < k then .error .valueError
      else .ok ((sel.getD (buses.map Prod.fst)).zip (ps.map (fun p => label (lib.predict (lib.fit k (repeated ps ks)) p))))

/-! ## Hierarchical clustering -/

/-- `n.buses.index.get_indexer(buses_i)` as a position of a matrix with `m` rows (774-778): -1 counts from the end. -/
def position (names : List String) (b : String) : Nat := (Graph.indexer names b).getD (names.length - 1)

/-- `sklearn.cluster.AgglomerativeClustering(...).fit_predict(feature)` (780-786): number of clusters, connectivity, rows of features. -/
abbrev Hac (V : Type) := Nat → (Nat → Nat → Nat) → List V → List Nat

/-- `A[buses_x][:, buses_x]` (776-778). -/
def submatrix (names : List String) (tr : List (Nat × Nat × Nat)) (sel : List String) (i j : Nat) : Nat :=
  Graph.entry tr (position names (sel.getD i "")) (position names (sel.getD j ""))

/-- `busmap_by_hac` (702-788).  `feature` has its own labels of rows, of which only the number matters; `same` is the row for all buses if
there is none (765-772). -/
def byHac {V : Type} (lib : Hac V) (same : V) (names : List String) (ts : List Graph.Table) (k : Nat) (sel : Option (List String))
    (feature : Option (List (String × V))) : Except Err (List (String × String)) :=
  match Graph.adjacency (F := Nat) names ts none (fun _ => 1) with
  | .error _ => .error .valueError
  | .ok tr =>
    let idx := sel.getD names
    let rows := (feature.map (fun f => f.map Prod.snd)).getD (idx.map (fun _ => same))
    if rows.length = idx.length then .ok (idx.zip ((lib k (submatrix names tr idx) rows).map label)) else .error .valueError

/-! ## Modularity -/

/-- A line (895-900). -/
structure Line (F : Type) where
  bus0 : String
  bus1 : String
  sNom : F
  r : F
  x : F

/-- An edge of `nx.Graph` with its weight. -/
structure Edge (F : Type) where
  u : String
  v : String
  weight : F

/-- The edge has these ends. -/
def Edge.joins (e : Edge F) (u v : String) : Bool := decide (e.u = u ∧ e.v = v ∨ e.u = v ∧ e.v = u)

/-- `add_edges_from` for one edge (904): there is one edge between two nodes, whose weight is replaced. -/
def addEdge (es : List (Edge F)) (e : Edge F) : List (Edge F) :=
  if es.any (fun o => o.joins e.u e.v) then es.map (fun o => if o.joins e.u e.v then { o with weight := e.weight } else o) else es ++ [e]

/-- The graph (895-904); `modulus` is `abs(r + 1j * x)`. -/
def graph [Field F] (modulus : F → F → F) (lines : List (Line F)) (sel : List String) : List (Edge F) :=
  ((lines.filter (fun l => decide (l.bus0 ∈ sel ∧ l.bus1 ∈ sel))).map (fun l => (⟨l.bus0, l.bus1, l.sNom / modulus l.r l.x⟩ : Edge F))).foldl addEdge []

/-- `busmap.loc[list(communities[c])] = str(c)` (911). -/
def assign (busmap : List (String × String)) (c : List String) (l : String) : List (String × String) :=
  busmap.map (fun e => if e.1 ∈ c then (e.1, l) else e)

/-- The loop (910-911) from the `i`-th community on. -/
def assignAll : Nat → List (List String) → List (String × String) → List (String × String)
  | _, [], m => m
  | i, c :: cs, m => assignAll (i + 1) cs (assign m c (label i))

/-- `busmap_by_greedy_modularity` (857-914); `lib` is `greedy_modularity_communities` (906-908). -/
def byModularity [Field F] (lib : Nat → List String → List (Edge F) → List (List String)) (modulus : F → F → F) (names : List String)
    (lines : List (Line F)) (k : Nat) (sel : Option (List String)) : List (String × String) :=
  let idx := sel.getD names
  assignAll 0 (lib k idx (graph modulus lines idx)) (idx.map (fun b => (b, b)))

/-! ## Clusterings -/

/-- A busmap as a function: `Series.map`. -/
def lookup (m : List (String × String)) (b : String) : Option String := m.lookup b

/-- `kmeans_clustering`, `hac_clustering`, `greedy_modularity_clustering` (662-697, 791-852, 917-950): a busmap for all buses or some,
then the clustering. -/
def clusterBy [Field F] [LinearOrder F] (busmap : Except Err (List (String × String))) (a : Network.Args F) (n : Network.Net F) :
    Except Err (Network.Net F × List (String × String)) :=
  match busmap with
  | .error e => .error e
  | .ok m =>
    match Network.cluster { a with busmap := lookup m } n with
    | some r => .ok r
    | none => .error .valueError

end Verif.Cluster.Busmaps
