import Verif.Graph.Model

/-!
# Model of the tables of a sub-network

`SubNetwork.components` (`networks.py` 1907-1933), `branches_i` and `branches` (1953-1964), `iterate_components` (2082-2111), the wrapper
`SubNetworkComponents` (`components/abstract.py` 725-829), and how `determine_network_topology` (`networks.py` 1701-1771) fills the
column `sub_network`.

Rows are kept with the columns the views look at: name, ends or bus, `active` and `sub_network`; of a series the model keeps attribute,
column and values. A `sub_network` that is empty or NaN is `none`. The class sets are Python sets, so the order in which classes are
visited is arbitrary; the model takes the tables in visiting order.
-/

namespace Verif.Graph.Sub

open Verif.Graph

/-- Why a view cannot be had: `ValueError` of `filter_down`, `KeyError` of the store, `AttributeError` of the wrapper. -/
inductive VErr where
  | valueError
  | keyError
  | attributeError
  deriving DecidableEq

structure BusRow where
  name : Name
  sub : Option Nat
  deriving DecidableEq

/-- A row of a passive branch table. -/
structure BranchRow where
  branch : Branch
  sub : Option Nat
  deriving DecidableEq

structure PortRow where
  name : Name
  bus : Name
  deriving DecidableEq

/-- A table with its class. -/
structure Of (R : Type) where
  cls : String
  rows : List R
  deriving DecidableEq

/-- One frame of series: attribute and columns. -/
structure Frame (V : Type) where
  attr : String
  cols : List (Name × V)
  deriving DecidableEq

/-- The network. `others` are the classes that are neither buses, passive branches nor one-ports, with the names of their rows. -/
structure Net (V : Type) where
  buses : List BusRow
  passive : List (Of BranchRow)
  ports : List (Of PortRow)
  others : List (Of Name)
  series : String → List (Frame V)

/-- What `static` gives for a class. -/
inductive Rows where
  | buses (l : List BusRow)
  | branches (l : List BranchRow)
  | ports (l : List PortRow)
  deriving DecidableEq

/-- `.index` -/
def Rows.index : Rows → List Name
  | .buses l => l.map (·.name)
  | .branches l => l.map (·.branch.name)
  | .ports l => l.map (·.name)

variable {V : Type}

/-- `self.components.buses.static` (1911-1912). -/
def busView (n : Net V) (s : Nat) : List BusRow := n.buses.filter (fun b => b.sub == some s)

/-- `value[value.sub_network == self.name]` for a passive branch class (1911-1912). -/
def branchView (t : Of BranchRow) (s : Nat) : List BranchRow := t.rows.filter (fun b => b.sub == some s)

/-- `value[value.bus.isin(buses)]` (1913-1915). -/
def portView (n : Net V) (t : Of PortRow) (s : Nat) : List PortRow :=
  t.rows.filter (fun r => decide (r.bus ∈ (busView n s).map (·.name)))

/-- `sub.components[c].static` (1908-1919, definitions/components.py 93-139). -/
def static (n : Net V) (s : Nat) (c : String) : Except VErr Rows :=
  if c = "Bus" then .ok (.buses (busView n s))
  else match n.passive.find? (fun t => t.cls = c) with
    | some t => .ok (.branches (branchView t s))
    | none => match n.ports.find? (fun t => t.cls = c) with
      | some t => .ok (.ports (portView n t s))
      | none => if n.others.any (fun t => t.cls = c) then .error .valueError else .error .keyError

/-- `v[index.intersection(v.columns)]`: the columns of the view, in the order of its rows. -/
def pick (index : List Name) (f : Frame V) : Frame V :=
  { f with cols := (index.filter (fun x => decide (x ∈ f.cols.map (·.1)))).filterMap (fun x => (f.cols.find? (fun e => e.1 = x))) }

/-- `sub.components[c].dynamic` (1920-1925). -/
def dynamic (n : Net V) (s : Nat) (c : String) : Except VErr (List (Frame V)) :=
  match static n s c with
  | .error e => .error e
  | .ok r => .ok ((n.series c).map (pick r.index))

/-- What remains after a loop over `iterate_components(classes, skip_empty)`: the classes yielded, and the error that ended it, if any.
Without `skip_empty` the table is not looked at. -/
def iterate (n : Net V) (s : Nat) (skipEmpty : Bool) : List String → List String × Option VErr
  | [] => ([], none)
  | c :: cs =>
    if skipEmpty then
      match static n s c with
      | .error e => ([], some e)
      | .ok r =>
        let rest := iterate n s skipEmpty cs
        if r.index.isEmpty then rest else (c :: rest.1, rest.2)
    else
      let rest := iterate n s skipEmpty cs
      (c :: rest.1, rest.2)

/-- `self.n.all_components`: every class. -/
def allClasses (n : Net V) : List String :=
  "Bus" :: (n.passive.map (·.cls) ++ n.ports.map (·.cls) ++ n.others.map (·.cls))

/-- `branches_i(active_only)` (1953-1960). -/
def branchesIndex (n : Net V) (s : Nat) (activeOnly : Bool) : List (String × Name) :=
  n.passive.flatMap (fun t =>
    ((branchView t s).filter (fun b => !activeOnly || b.branch.active)).map (fun b => (t.cls, b.branch.name)))

/-- `passive_branches` (1687-1692): all tables under each other, with the class as first level. -/
def passiveBranches (n : Net V) : List (String × BranchRow) :=
  n.passive.flatMap (fun t => t.rows.map (fun b => (t.cls, b)))

/-- `SubNetwork.branches` (1962-1964). -/
def branches (n : Net V) (s : Nat) : List (String × BranchRow) :=
  (passiveBranches n).filter (fun b => b.2.sub == some s)

/-- `SubNetworkComponents.__setattr__` (abstract.py 789-809): only the two fields of the wrapper can be set. -/
def setAttr (key : String) : Except VErr Unit :=
  if key = "_wrapped_data" ∨ key = "_wrapper_func" then .ok () else .error .attributeError

/-- `SubNetworkComponents.__delattr__` (abstract.py 811-829). -/
def delAttr (_key : String) : Except VErr Unit := .error .attributeError

/-- The tables of branches as `adjacency_matrix` sees them. -/
def tables (n : Net V) : List Table := n.passive.map (fun t => ⟨t.cls, t.rows.map (·.branch)⟩)

/-- `determine_network_topology`: the names of the sub-networks and the network with its new columns `sub_network` (1754-1767). -/
def determine (n : Net V) (period : Option Int) (skip : Bool) : Except Err (List Nat × Net V) :=
  match topology (n.buses.map (·.name)) (tables n) period skip with
  | .error e => .error e
  | .ok T => .ok (T.subNetworks,
    { n with
      buses := n.buses.map (fun b => { b with sub := some (T.bus b.name) })
      passive := n.passive.map (fun t => { t with rows := t.rows.map (fun b =>
        { b with sub :=
          if b.branch.bus0 ∈ n.buses.map (·.name) then T.branch b.branch else none }) }) })

end Verif.Graph.Sub
