import Mathlib.Data.List.Basic

/-!
# Links with more than two ports (`pypsa/descriptors.py` 420-480, `pypsa/io.py` 1400-1513)

`additional_linkports`, `update_linkports_component_attrs`, the import of links into the
static table, and the shared table of attributes: `n.components["Link"].attrs` is the
table of the package wide component type (`components/abstract.py` 447-468,
`networks.py` 488-493), one object for all networks of the process.

Simplified: the order of the ports, of the columns and of the rows of the table of
attributes is not tracked; documentation strings are dropped; a dynamic table is only
its key; links are imported without `overwrite`; only the class `Link` is modelled.
Attribute names are lists of characters.
-/

namespace Verif.Ports

abbrev Attr := List Char

/-- One row of the table of attributes. -/
structure ARow (V : Type) where
  name : Attr
  dflt : Option V
  static : Bool
  varying : Bool
deriving DecidableEq, Repr

/-- The defaults of `bus1`, `efficiency` and `p1` in `links.csv`. -/
structure Base (V : Type) where
  bus : V
  eff : V
  p : V

/-- The links of one network: names, columns of the static table, its cells (`none` is
NaN), and the keys of `n.links_t`. -/
structure Net (V : Type) where
  names : List String
  cols : List Attr
  val : String → Attr → Option V
  dyn : List Attr

variable {V : Type}

def busC : Attr := ['b', 'u', 's']
def effC : Attr := ['e', 'f', 'f', 'i', 'c', 'i', 'e', 'n', 'c', 'y']
def pC : Attr := ['p']
def nameC : Attr := ['n', 'a', 'm', 'e']

/-- `i[3:] for i in where if i.startswith("bus") and i not in ["bus0", "bus1"]`
(`additional_linkports`, `descriptors.py` 463-480), for one column. -/
def portOf (k : Attr) : Option Attr :=
  if busC.isPrefixOf k && !(k == busC ++ ['0']) && !(k == busC ++ ['1']) then some (k.drop 3)
  else none

/-- `additional_linkports` (`descriptors.py` 463-480). -/
def ports (w : List Attr) : List Attr := w.filterMap portOf

/-- Names of a table of attributes. -/
def rowNames (t : List (ARow V)) : List Attr := t.map (·.name)

/-- `attrs.index[attrs.static]` without `name`. -/
def staticCols (t : List (ARow V)) : List Attr :=
  ((t.filter (·.static)).map (·.name)).filter (fun k => decide (k ≠ nameC))

/-- `attrs.index[attrs.varying]`. -/
def varyingCols (t : List (ARow V)) : List Attr := (t.filter (·.varying)).map (·.name)

/-- `attrs[~attrs.static].index`. -/
def seriesCols (t : List (ARow V)) : List Attr := (t.filter (fun r => !r.static)).map (·.name)

/-- `attrs.at[k, "default"]`. -/
def dfltOf (t : List (ARow V)) (k : Attr) : Option V :=
  (t.find? (fun r => r.name == k)).bind (·.dflt)

/-- A new network (`_get_data_containers`, `components/abstract.py` 277-310). -/
def fresh (t : List (ARow V)) : Net V :=
  { names := [], cols := staticCols t, val := fun _ _ => none, dyn := varyingCols t }

/-- Table of attributes and network. -/
structure State (V : Type) where
  attrs : List (ARow V)
  net : Net V

/-- One turn of the loop for `attr = "bus"` (`descriptors.py` 441-460). -/
def addBus (b : Base V) (s : State V) (i : Attr) : State V :=
  if busC ++ i ∈ rowNames s.attrs then s
  else
    { attrs := s.attrs ++ [⟨busC ++ i, some b.bus, true, false⟩]
      net := if busC ++ i ∈ s.net.cols then s.net
        else { s.net with
          cols := s.net.cols ++ [busC ++ i]
          val := fun x k => if k = busC ++ i then some b.bus else s.net.val x k } }

/-- One turn of the loop for `attr = "efficiency"` or `attr = "p"`. -/
def addSeries (s : State V) (r : ARow V) : State V :=
  if r.name ∈ rowNames s.attrs then s
  else
    { attrs := s.attrs ++ [r]
      net := if r.name ∈ s.net.dyn then s.net
        else { s.net with dyn := s.net.dyn ++ [r.name] } }

/-- The three turns for one port. -/
def addPort (b : Base V) (s : State V) (i : Attr) : State V :=
  addSeries (addSeries (addBus b s i) ⟨effC ++ i, some b.eff, true, true⟩)
    ⟨pC ++ i, some b.p, false, true⟩

/-- `update_linkports_component_attrs` (`descriptors.py` 420-460). -/
def update (b : Base V) (s : State V) (w : List Attr) : State V :=
  (ports w).foldl (addPort b) s

/-- What the caller gives: names, columns, cells. -/
structure Given (V : Type) where
  names : List String
  cols : List Attr
  val : String → Attr → Option V

/-- The cell that the cleaned table holds (`io.py` 1424-1450): a given column has the
given value, or the default where it is missing (1430, with the table of attributes
after the update); a column that is not given is filled with the default if it was a
static attribute *before* the update (1417, 1432-1434). -/
def cleaned (before after : List (ARow V)) (g : Given V) (x : String) (k : Attr) : Option V :=
  if k ∈ g.cols then (g.val x k).or (dfltOf after k)
  else if k ∈ staticCols before then dfltOf before k
  else none

/-- Columns of the cleaned table without those that go to `n.links_t` (1466-1468). -/
def cleanedCols (before : List (ARow V)) (g : Given V) : List Attr :=
  (g.cols ++ (staticCols before).filter (fun k => decide (k ∉ g.cols))).filter
    (fun k => decide (k ∉ seriesCols before))

/-- `_import_components_from_df` for links (`io.py` 1400-1513) without `overwrite`. -/
def importLinks (b : Base V) (s : State V) (g : Given V) : State V :=
  let s' := update b s g.cols
  let new := g.names.filter (fun x => decide (x ∉ s'.net.names))
  let cc := cleanedCols s.attrs g
  { attrs := s'.attrs
    net :=
      { names := s'.net.names ++ new
        cols := if s'.net.names = [] then cc
          else s'.net.cols ++ cc.filter (fun k => decide (k ∉ s'.net.cols))
        val := fun x k =>
          if x ∈ s'.net.names then (if k ∈ s'.net.cols then s'.net.val x k else none)
          else if x ∈ new ∧ k ∈ cc then cleaned s.attrs s'.attrs g x k else none
        dyn := s'.net.dyn } }

/-- What `n.optimize` reads of the further ports (`constraints.py` 600-603,
`optimize.py` 361-364): the column with the efficiency.  `false` is a `KeyError`. -/
def canOptimise (n : Net V) : Bool :=
  (ports n.cols).all (fun i => decide (effC ++ i ∈ n.cols))

/-- What `n.lpf` and `n.pf` read in addition (`pf.py` 62, 149-163): the table `n.links_t`
for the power at each port. -/
def canFlow (n : Net V) : Bool :=
  canOptimise n && (ports n.cols).all (fun i => decide (pC ++ i ∈ n.dyn))

/-- `update_linkports_component_attrs(n)` at the end of `calculate_dependent_values`
(`pf.py` 1026), which the power flow runs first. -/
def beforeFlow (b : Base V) (s : State V) : State V := update b s s.net.cols

/-- All networks of a process. -/
structure World (V : Type) where
  attrs : List (ARow V)
  nets : List (Net V)

/-- What a user does: make a network, or add links to one of them. -/
inductive Op (V : Type) where
  | new
  | add (j : ℕ) (g : Given V)

/-- One operation. -/
def World.step (b : Base V) (w : World V) : Op V → World V
  | .new => { w with nets := w.nets ++ [fresh w.attrs] }
  | .add j g =>
    match w.nets[j]? with
    | none => w
    | some n =>
      let s := importLinks b ⟨w.attrs, n⟩ g
      { attrs := s.attrs, nets := w.nets.set j s.net }

/-- A history. -/
def World.run (b : Base V) (w : World V) (l : List (Op V)) : World V := l.foldl (World.step b) w

end Verif.Ports
