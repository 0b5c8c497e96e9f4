import Verif.Stats.Aggregate
import Mathlib.Algebra.Order.Ring.Abs

/-!
# Model of the statistics

The statistics of `statistics/expressions.py`, except those of costs of operation (`Verif.Stats.Cost`): the function
of a component class and port given to `_aggregate_components`, and what is computed from aggregated tables.
Tables of numbers are complete (as after an optimisation).
-/

namespace Verif.Stats

structure Data (F : Type) where
  time : Time F
  wGen : Nat → F
  wSto : Nat → F
  wObj : Nat → F
  /-- column `sign`; 1 if there is none -/
  sign : Asset → F
  /-- tables with time; `p_max_pu` is `get_switchable_as_dense`; `none`: no such table -/
  table : Comp → String → Option (Asset → Nat → F)
  /-- numeric static columns -/
  num : Comp → String → Option (Asset → F)
  price : String → Nat → F

variable {F : Type} [Field F] [LinearOrder F]

/-- `get_weightings` (43-50). -/
def weights (d : Data F) (c : Comp) : Nat → F :=
  if c.cname = "Generator" then d.wGen
  else if c.cname = "StorageUnit" ∨ c.cname = "Store" then d.wSto
  else d.wObj

/-- `nominal_attrs[c]` (`descriptors.py`). -/
def nominal (c : Comp) : Option String :=
  if c.cname = "Generator" ∨ c.cname = "Link" ∨ c.cname = "StorageUnit" then some "p_nom"
  else if c.cname = "Line" ∨ c.cname = "Transformer" then some "s_nom"
  else if c.cname = "Store" then some "e_nom"
  else none

/-- Aggregation over time of a series for each asset. -/
def series (n : Net) (d : Data F) (agg : TimeAgg) (c : Comp) (x : Asset → Nat → F) : Vals F :=
  ⟨timeFrame n.multi agg, c.assets.map (fun a => (a, fun j => some (timeAgg d.time n.multi agg (weights d c) (x a) j)))⟩

/-- A static column. -/
def static (c : Comp) (x : Asset → F) : Vals F := ⟨false, c.assets.map (fun a => (a, fun _ => some (x a)))⟩

/-- `sign` (1727, 2067). -/
def signOf (d : Data F) (c : Comp) (a : Asset) : F := if c.branch then -1 else d.sign a

inductive Dir
  | balance | supply | withdrawal
deriving DecidableEq, Repr

def Dir.clip : Dir → F → F
  | .balance, x => x
  | .supply, x => max x 0
  | .withdrawal, x => - min x 0

/-- `energy_balance`, `supply`, `withdrawal` (1725-1741). -/
def balanceF (n : Net) (d : Data F) (agg : TimeAgg) (dir : Dir) (c : Comp) (port : String) : Option (Vals F) :=
  (d.table c ("p" ++ port)).map (fun p => series n d agg c (fun a t => dir.clip (signOf d c a * p a t)))

inductive RevDir
  | all | input | output
deriving DecidableEq, Repr

def RevDir.clip : RevDir → F → F
  | .all, x => x
  | .input, x => min x 0
  | .output, x => max x 0

/-- Price at a port: 0 for unknown buses (`reindex(columns=buses, fill_value=0)`). -/
def portPrice (n : Net) (d : Data F) (port : String) (a : Asset) (t : Nat) : F :=
  match a.col ("bus" ++ port) with
  | none => 0
  | some b => if n.buses.contains b then d.price b t else 0

/-- `revenue` (2061-2084). -/
def revenueF (n : Net) (d : Data F) (agg : TimeAgg) (dir : RevDir) (c : Comp) (port : String) : Option (Vals F) :=
  (d.table c ("p" ++ port)).map (fun p => series n d agg c (fun a t =>
    dir.clip (signOf d c a * p a t) * portPrice n d port a t))

/-- `curtailment` (1842-1848). -/
def curtailmentF (n : Net) (d : Data F) (agg : TimeAgg) (c : Comp) (_port : String) : Option (Vals F) :=
  match d.table c "p_max_pu", d.num c "p_nom_opt", d.table c "p" with
  | some m, some nom, some p => some (series n d agg c (fun a t => max (m a t * nom a - p a t) 0))
  | _, _, _ => none

/-- `get_operation` (33-40). -/
def operation (d : Data F) (c : Comp) : Option (Asset → Nat → F) :=
  if c.branch then d.table c "p0" else if c.cname = "Store" then d.table c "e" else d.table c "p"

/-- The numerator of `capacity_factor` (1951-1954). -/
def usageF (n : Net) (d : Data F) (agg : TimeAgg) (c : Comp) (_port : String) : Option (Vals F) :=
  (operation d c).map (fun p => series n d agg c (fun a t => |p a t|))

/-- `port_efficiency` (53-69), static. -/
def efficiency (d : Data F) (c : Comp) (port : String) (a : Asset) : F :=
  if port = "" then 1 else if port = "0" then -1
  else match d.num c (if port = "1" then "efficiency" else "efficiency" ++ port) with
    | some e => e a
    | none => 1

/-- `optimal_capacity` and `installed_capacity` (suffix `"_opt"` or `""`), `storage=False`; `ports` is the
truth value of `at_port` (791-799, 908-916). -/
def capacityF (d : Data F) (sfx : String) (ports : Bool) (c : Comp) (port : String) : Option (Vals F) :=
  match nominal c with
  | none => none
  | some attr => (d.num c (attr ++ sfx)).map (fun x => static c (fun a =>
      x a * if ports then efficiency d c port a else |efficiency d c port a|))

/-- `capex` and `installed_capex` (467-470, 574-577). -/
def capexF (d : Data F) (sfx : String) (c : Comp) (_port : String) : Option (Vals F) :=
  match nominal c with
  | none => none
  | some attr => match d.num c (attr ++ sfx), d.num c "capital_cost" with
    | some x, some k => some (static c (fun a => x a * k a))
    | _, _ => none

/-! ## Combination of aggregated tables -/

/-- Cell of a table; `none` for NaN and for a missing row. -/
def cell (rows : List (Row F)) (k : List String) (j : Nat) : Option F :=
  (rows.find? (fun r => decide (r.1 = k))).bind (fun r => r.2 j)

/-- `a.sub(b, fill_value=0)` and `a.add(b, fill_value=0)`. -/
def combine (f : F → F → F) (a b : List (Row F)) : List (Row F) :=
  ((a ++ b).map (·.1)).dedup.map (fun k => (k, fun j =>
    match cell a k j, cell b k j with
    | none, none => none
    | x, y => some (f (x.getD 0) (y.getD 0))))

/-- `expanded_capex` (673-701). -/
def expandedCapex (capex installed : List (Row F)) : List (Row F) := combine (· - ·) capex installed

/-- `system_cost` (1280-1308). -/
def systemCost (capex opex : List (Row F)) : List (Row F) := combine (· + ·) capex opex

/-- `installed.reindex(optimal.index, fill_value=0)`. -/
def reindexed (installed : List (Row F)) (k : List String) (j : Nat) : Option F :=
  match installed.find? (fun r => decide (r.1 = k)) with
  | none => some 0
  | some r => r.2 j

/-- A cell of `expanded_capacity`: comparisons with NaN are false. -/
def grown : Option F → Option F → Option F
  | some x, some y => if |y| < |x| then some (x - y) else some 0
  | _, _ => some 0

/-- `expanded_capacity` (1034-1035). -/
def expandedCapacity (optimal installed : List (Row F)) : List (Row F) :=
  optimal.map (fun r => (r.1, fun j => grown (r.2 j) (reindexed installed r.1 j)))

/-- A quotient; infinite values are NaN here. -/
def quotient : Option F → Option F → Option F
  | some x, some y => if y = 0 then none else some (x / y)
  | _, _ => none

/-- `capacity_factor` (1968-1970), columns of both tables alike. -/
def capacityFactor (usage capacity : List (Row F)) : List (Row F) :=
  usage.map (fun r => (r.1, fun j => quotient (r.2 j) (cell capacity r.1 j)))

/-- `market_value` (2193). -/
def marketValue (revenue supply : List (Row F)) : List (Row F) :=
  ((revenue ++ supply).map (·.1)).dedup.map (fun k => (k, fun j => quotient (cell revenue k j) (cell supply k j)))

end Verif.Stats
