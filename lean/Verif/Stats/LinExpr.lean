import Verif.Stats.Cost

/-!
# Model of the statistics as expressions of the optimisation problem

`n.optimize.expressions` (`optimization/expressions.py` 46-627): the same statistics as linear expressions of the variables of the
model.  An expression is given by its value at a point; a variable that does not exist (an asset out of service) counts zero.  A
sum of variables and a static column is taken over all assets of both (linopy's outer join).  Snapshots are not multi-indexed.
Aggregation over assets is that of `Verif.Stats.Aggregate`.
-/

namespace Verif.Stats

open Verif.Opt

/-- Values of all variables, by class, variable, asset and snapshot; capacities by class and asset. -/
structure Point (F : Type) where
  op : String → String → String → Nat → F
  cap : String → String → F

/-- The network the model was built for. -/
structure ModelData (F : Type) extends Data F where
  ext : Comp → Asset → Bool
  /-- `get_activity_mask` -/
  act : Comp → Asset → Nat → Bool
  /-- `get_switchable_as_dense`; `none`: not a column of the class -/
  dense : Comp → String → Option (Asset → Nat → F)

variable {F : Type} [Field F] [LinearOrder F]

/-- A variable of operation. -/
def opVal (d : ModelData F) (x : Point F) (c : Comp) (var : String) (a : Asset) (t : Nat) : F :=
  Results.recorded (d.act c a t) (x.op c.cname var a.name t)

/-- `lookup.query("not nominal and not handle_separately").loc[c]` for classes with one such variable (`data/variables.csv`). -/
def opAttr (cname : String) : Option String :=
  if cname = "Generator" ∨ cname = "Link" then some "p"
  else if cname = "Line" ∨ cname = "Transformer" then some "s"
  else if cname = "Store" then some "e"
  else none

/-- `_get_operational_variable` (151-164). -/
def opVariable (d : ModelData F) (x : Point F) (c : Comp) : Option (Asset → Nat → F) :=
  if c.cname = "Load" then d.dense c "p_set"
  else if c.cname = "StorageUnit" then some (fun a t => opVal d x c "p_dispatch" a t - opVal d x c "p_store" a t)
  else (opAttr c.cname).map (fun attr => opVal d x c attr)

/-- Column of the efficiency at a port. -/
def effKey (port : String) : String := if port = "1" then "efficiency" else "efficiency" ++ port

/-- `port_efficiency(dynamic=True)` (`statistics/expressions.py` 53-68). -/
def effAt (d : ModelData F) (c : Comp) (port : String) (a : Asset) (t : Nat) : F :=
  if port = "" then 1 else if port = "0" then -1
  else match d.dense c (effKey port) with
    | some e => e a t
    | none => 1

inductive Kind
  | balance | supply | withdrawal
deriving DecidableEq, Repr

def Kind.clip : Kind → F → F
  | .balance, k => k
  | .supply, k => max k 0
  | .withdrawal, k => - min k 0

/-- `energy_balance`, `supply` and `withdrawal` (419-438): coefficients are clipped, not values. -/
def balanceE (n : Net) (d : ModelData F) (x : Point F) (agg : TimeAgg) (kind : Kind) (c : Comp) (port : String) : Option (Vals F) :=
  (opVariable d x c).map (fun v => series n d.toData agg c (fun a t => v a t * kind.clip (effAt d c port a t * d.sign a)))

/-- `get_transmission_branches` (`statistics/expressions.py` 71-92): branches with at least two buses of one of the carriers;
columns with `bus` elsewhere in their name are left out. -/
def transmits (n : Net) (sel : List String) (c : Comp) (a : Asset) : Bool :=
  sel.any (fun k => 1 < ((c.cols.filter (fun s => s.startsWith "bus")).filter (fun s => ((a.col s).bind (n.busAttr "carrier")) = some k)).length)

/-- A series for some assets. -/
def seriesOf (n : Net) (d : Data F) (agg : TimeAgg) (c : Comp) (p : Asset → Bool) (x : Asset → Nat → F) : Vals F :=
  ⟨timeFrame n.multi agg, (c.assets.filter p).map (fun a => (a, fun j => some (timeAgg d.time n.multi agg (weights d c) (x a) j)))⟩

/-- `transmission` (358-364). -/
def transmissionE (n : Net) (d : ModelData F) (x : Point F) (agg : TimeAgg) (sel : List String) (c : Comp) (port : String) : Option (Vals F) :=
  if c.branch then (opVariable d x c).map (fun v => seriesOf n d.toData agg c (transmits n sel c) (fun a t => v a t * effAt d c port a t))
  else none

/-- `transmission` of `n.statistics` (`statistics/expressions.py` 1601-1604). -/
def transmissionF (n : Net) (d : Data F) (agg : TimeAgg) (sel : List String) (c : Comp) (port : String) : Option (Vals F) :=
  if c.branch then (d.table c ("p" ++ port)).map (fun p => seriesOf n d agg c (transmits n sel c) p) else none

/-- `operation` (612-615). -/
def operationE (n : Net) (d : ModelData F) (x : Point F) (agg : TimeAgg) (c : Comp) (_port : String) : Option (Vals F) :=
  (opVariable d x c).map (series n d.toData agg c)

/-- `opex` (302-309). -/
def opexE (n : Net) (d : ModelData F) (x : Point F) (agg : TimeAgg) (c : Comp) (_port : String) : Option (Vals F) :=
  (costVar c.cname "marginal_cost").bind (fun attr => (d.dense c "marginal_cost").map (fun k =>
    series n d.toData agg c (fun a t => opVal d x c attr a t * k a t)))

/-- Variables of capacity and, if wanted, the column `col` of other assets; `none` if the class has no variable of capacity or
no such column. -/
def capacityVar (d : ModelData F) (x : Point F) (fixed : Bool) (col : String) (c : Comp) : Option (List (Asset × F)) :=
  if c.assets.any (d.ext c) then
    if fixed then (d.num c col).map (fun nom => c.assets.map (fun a => (a, if d.ext c a then x.cap c.cname a.name else nom a)))
    else some ((c.assets.filter (d.ext c)).map (fun a => (a, x.cap c.cname a.name)))
  else none

/-- `capex` (188-197): the column of other assets is `p_nom` for all classes. -/
def capexE (d : ModelData F) (x : Point F) (fixed : Bool) (c : Comp) (_port : String) : Option (Vals F) :=
  (nominal c).bind (fun _ => (capacityVar d x fixed "p_nom" c).bind (fun v => (d.num c "capital_cost").map (fun k =>
    ⟨false, v.map (fun e => (e.1, fun _ => some (e.2 * k e.1)))⟩)))

/-- `capacity` (242-256). -/
def capacityE (d : ModelData F) (x : Point F) (fixed ports storage : Bool) (c : Comp) (port : String) : Option (Vals F) :=
  (nominal c).bind (fun attr => (capacityVar d x fixed attr c).bind (fun v =>
    (if storage ∧ c.cname = "StorageUnit" then d.num c "max_hours" else some (fun _ => 1)).map (fun h =>
    ⟨false, v.map (fun e => (e.1, fun _ => some ((e.2 * if ports then efficiency d.toData c port e.1 else |efficiency d.toData c port e.1|) *
      h e.1)))⟩)))

/-- `optimal_capacity` of `n.statistics` with `storage` (`statistics/expressions.py` 791-799). -/
def optimalF (d : Data F) (ports storage : Bool) (c : Comp) (port : String) : Option (Vals F) :=
  (nominal c).bind (fun attr => (d.num c (attr ++ "_opt")).bind (fun nom =>
    (if storage ∧ c.cname = "StorageUnit" then d.num c "max_hours" else some (fun _ => 1)).map (fun h =>
    static c (fun a => (nom a * if ports then efficiency d c port a else |efficiency d c port a|) * h a))))

/-- Coefficient of the operation in `curtailment`: `1 / p_max_pu * p_max_pu`, NaN for `p_max_pu = 0`. -/
def curtailCoef (m : F) : Option F := if m = 0 then none else some (1 / m * m)

/-- `curtailment` (555-568); an expression with a NaN among its coefficients is NaN here. -/
def curtailmentE (n : Net) (d : ModelData F) (x : Point F) (agg : TimeAgg) (c : Comp) (_port : String) : Option (Vals F) :=
  (nominal c).bind (fun attr => (capacityVar d x true attr c).bind (fun v => (d.dense c "p_max_pu").bind (fun m =>
    (opVariable d x c).map (fun p => ⟨timeFrame n.multi agg, v.map (fun e => (e.1, fun j =>
      if (match agg with
          | .none => [j]
          | _ => d.time.part n.multi j).all (fun t => (curtailCoef (m e.1 t)).isSome) then
        some (timeAgg d.time n.multi agg (weights d.toData c)
          (fun t => e.2 * m e.1 t - (curtailCoef (m e.1 t)).getD 0 * p e.1 t) j)
      else none))⟩))))

/-! ## Recording -/

/-- Tables of `assign_solution` and `post_processing` (`optimize.py` 345-385, 468-469), without losses. -/
def recTable (d : ModelData F) (x : Point F) (c : Comp) (k : String) : Option (Asset → Nat → F) :=
  if c.cname = "Load" then (if k = "p" then d.dense c "p_set" else none)
  else if c.cname = "Generator" ∧ k = "p" then some (opVal d x c "p")
  else if c.cname = "Store" ∧ (k = "p" ∨ k = "e") then some (opVal d x c k)
  else if c.cname = "StorageUnit" ∧ (k = "p_dispatch" ∨ k = "p_store" ∨ k = "state_of_charge") then some (opVal d x c k)
  else if c.cname = "StorageUnit" ∧ k = "p" then some (fun a t => opVal d x c "p_dispatch" a t - opVal d x c "p_store" a t)
  else if c.cname = "Line" ∨ c.cname = "Transformer" then
    (if k = "p0" then some (opVal d x c "s") else if k = "p1" then some (fun a t => - opVal d x c "s" a t) else none)
  else if c.cname = "Link" then
    (if k = "p0" then some (opVal d x c "p")
     else (c.ports.find? (fun i => i ≠ "0" ∧ k = "p" ++ i)).bind (fun i => (d.dense c (effKey i)).map (fun e a t =>
       if a.col ("bus" ++ i) = some "" then 0 else Results.recorded (d.act c a t) (- x.op "Link" "p" a.name t * e a t))))
  else none

/-- The network after `assign_solution`. -/
def recordOf (d : ModelData F) (x : Point F) : Data F :=
  { d.toData with
    table := fun c k => (recTable d x c k).or (if k = "p_max_pu" then d.dense c k else none),
    num := fun c k => match nominal c with
      | none => d.num c k
      | some attr => if k = attr ++ "_opt" then (d.num c attr).map (fun nom a => Results.nomOpt (d.ext c a) (nom a) (x.cap c.cname a.name))
        else d.num c k }

/-- The same with columns of costs. -/
def recordCosts (d : ModelData F) (x : Point F) : CostData F :=
  { recordOf d x with com := fun _ _ => false, cost := fun c ty => if ty = "marginal_cost" then d.dense c ty else none }

end Verif.Stats
