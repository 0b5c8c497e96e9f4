import Verif.Stats.Expressions
import Verif.Opt.Objective
import Verif.Opt.Results

/-!
# Model of the statistics of costs and of near-optimal alternatives

`opex` (`statistics/expressions.py` 1127-1187), and `optimize_mga` (`optimization/abstract.py` 513-653), with the network
as recorded after an optimisation (`Verif.Opt.Results`).
-/

namespace Verif.Stats

open Verif.Opt

structure CostData (F : Type) extends Data F where
  /-- `get_committable_i` -/
  com : Comp → Asset → Bool
  /-- `get_switchable_as_dense`; `none`: not a column of the class -/
  cost : Comp → String → Option (Asset → Nat → F)

variable {F : Type} [Field F] [LinearOrder F]

/-- Column of `variables.csv`. -/
def costFlag (ty : String) (r : Objective.Row) : Bool :=
  if ty = "marginal_cost" then r.marginal else if ty = "marginal_cost_quadratic" then r.quadratic
  else if ty = "marginal_cost_storage" then r.storage else if ty = "spill_cost" then r.spill else false

/-- `lookup.query(cost_type).loc[c].index.item()`. -/
def costVar (cname ty : String) : Option String :=
  ((Objective.table.filter (costFlag ty)).find? (fun r => r.comp == cname)).map (·.var)

/-- `var * cost` of one cost type (1150-1162); `none` for a KeyError. -/
def opTerm (d : CostData F) (c : Comp) (ty : String) : Option (Bool × (Asset → Nat → F)) :=
  (costVar c.cname ty).bind (fun attr => (d.table c attr).bind (fun p => (d.cost c ty).map (fun k =>
    (false, fun a t => (if ty = "marginal_cost_quadratic" then p a t * p a t else p a t) * k a t))))

/-- Terms of commitment (1164-1183); the flag marks weights of one. -/
def comTerm (d : CostData F) (c : Comp) (ty : String × String) : Option (Bool × (Asset → Nat → F)) :=
  (d.table c ty.2).bind (fun p => (d.cost c ty.1).map (fun k =>
    (ty.2 != "status", fun a t => if d.com c a then p a t * k a t else 0)))

def opTypes : List String := ["marginal_cost", "marginal_cost_storage", "marginal_cost_quadratic", "spill_cost"]

def comTypes : List (String × String) :=
  [("start_up_cost", "start_up"), ("shut_down_cost", "shut_down"), ("stand_by_cost", "status")]

/-- `cost_types=None`. -/
def allTypes : List String := opTypes ++ comTypes.map (·.1)

/-- All terms of a class. -/
def opexTerms (d : CostData F) (types : List String) (c : Comp) : List (Option (Bool × (Asset → Nat → F))) :=
  (opTypes.filter (fun ty => types.contains ty && (d.cost c ty).isSome)).map (opTerm d c) ++
  (comTypes.filter (fun ty => types.contains ty.1 && (d.cost c ty.1).isSome && c.assets.any (d.com c))).map (comTerm d c)

/-- Sum of the aggregated terms of an asset. -/
def opexOf (n : Net) (d : CostData F) (agg : TimeAgg) (c : Comp) (ts : List (Bool × (Asset → Nat → F))) (a : Asset) (j : Nat) : F :=
  (ts.map (fun e => timeAgg d.time n.multi agg (if e.1 then fun _ => 1 else weights d.toData c) (e.2 a) j)).sum

/-- `opex` (1144-1187): one missing table makes the whole class empty. -/
def opexF (n : Net) (d : CostData F) (types : List String) (agg : TimeAgg) (c : Comp) (_port : String) : Option (Vals F) :=
  let ts := opexTerms d types c
  if ts.isEmpty || ts.any (·.isNone) then none
  else some ⟨timeFrame n.multi agg, c.assets.map (fun a => (a, fun j => some (opexOf n d agg c (ts.filterMap id) a j)))⟩

/-! ## The recorded network -/

section record
variable (n : Objective.Net F) (val : Objective.OVar → F) (col : String → String → String → Option String)
  (cols : String → List String)

/-- Classes with capacities; branches are marked. -/
def classes : List (String × Bool) :=
  [("Generator", false), ("Link", true), ("Line", true), ("Transformer", true), ("Store", false), ("StorageUnit", false)]

def recAsset (cname : String) (a : Objective.Asset F) : Asset :=
  ⟨a.name, col cname a.name, a.activeFlag, fun j => match n.periods with
    | none => a.activeFlag
    | some (ps, _, _) => (ps[j]?.map a.activeIn).getD false⟩

def recComp (c : String × Bool) : Comp := ⟨c.1, c.2, cols c.1, (n.assets c.1).map (recAsset n col c.1)⟩

/-- The row of an asset. -/
def recRow (cname name : String) : Option (Objective.Asset F) := (n.assets cname).find? (fun a => decide (a.name = name))

/-- A column by a function of the row. -/
def recNum (f : Objective.Asset F → F) (c : Comp) (a : Asset) : F :=
  match recRow n c.cname a.name with
  | none => 0
  | some x => f x

/-- Tables of `assign_solution`.  There is none named `p` for links: the variable is recorded as `p0` (optimize.py 359-368). -/
def recTables (cname : String) : List String :=
  if cname = "Generator" then ["p", "status", "start_up", "shut_down"]
  else if cname = "Link" then ["p0", "p1", "status", "start_up", "shut_down"]
  else if cname = "Store" then ["e", "p"]
  else if cname = "StorageUnit" then ["p_dispatch", "p_store", "p", "state_of_charge", "spill"]
  else []

/-- Columns of costs (`data/component_attrs`). -/
def recCost (c : Comp) (ty : String) : Option (Objective.Asset F → Nat → F) :=
  let op := c.cname = "Generator" ∨ c.cname = "Link" ∨ c.cname = "Store" ∨ c.cname = "StorageUnit"
  let com := c.cname = "Generator" ∨ c.cname = "Link"
  let sto := c.cname = "Store" ∨ c.cname = "StorageUnit"
  if ty = "marginal_cost" ∧ op then some (·.marginal)
  else if ty = "marginal_cost_quadratic" ∧ op then some (·.quadratic)
  else if ty = "marginal_cost_storage" ∧ sto then some (·.marginalStorage)
  else if ty = "spill_cost" ∧ c.cname = "StorageUnit" then some (·.spillCost)
  else if ty = "start_up_cost" ∧ com then some (fun a _ => a.startUp)
  else if ty = "shut_down_cost" ∧ com then some (fun a _ => a.shutDown)
  else if ty = "stand_by_cost" ∧ com then some (·.standBy)
  else none

/-- The network after `assign_solution`; `wGen` and `wSto` are the weightings of generators and stores. -/
def recData (wGen wSto : Nat → F) : CostData F :=
  { time := ⟨n.sns, fun t => match n.periods with
      | none => 0
      | some (ps, _, per) => ps.idxOf (per t)⟩,
    wGen := wGen, wSto := wSto, wObj := n.sw,
    sign := fun _ => 1,
    table := fun c k => if (recTables c.cname).contains k then
        some (fun a t => recNum n (fun x => Results.recorded (Objective.present x k t) (val (.op c.cname k x.name t))) c a) else none,
    num := fun c k => match nominal c with
      | none => none
      | some attr => if k = attr then some (recNum n (·.nom) c)
        else if k = attr ++ "_opt" then some (recNum n (fun x => Results.nomOpt x.ext x.nom (val (.nom c.cname attr x.name))) c)
        else if k = "capital_cost" then some (recNum n (·.capitalCost) c) else none,
    price := fun _ _ => 0,
    com := fun c a => (c.cname == "Generator" || c.cname == "Link") && (match recRow n c.cname a.name with
      | none => false
      | some x => x.com),
    cost := fun c ty => (recCost c ty).map (fun f a t => recNum n (fun x => f x t) c a) }

/-- The network of the statistics. -/
def recNet (buses : List String) (busCol : String → String → Option String) (nice : String → String) : Net :=
  ⟨buses, busCol, nice, n.periods.map (fun x => x.1.length)⟩

end record

/-! ## Near-optimal alternatives -/

/-- A total over periods: `(n.statistics.x().sum() * w).sum()`, or the plain total (592-602). -/
def weightedTotal (n : Objective.Net F) (rows : Nat → F) : F :=
  match n.periods with
  | none => rows 0
  | some (ps, pw, _) => ((List.range ps.length).map (fun j => rows j * (ps[j]?.map pw).getD 0)).sum

def colTotal (rows : List (Row F)) (j : Nat) : F := (rows.map (fun r => (r.2 j).getD 0)).sum

/-- `optimal_cost`. -/
def optimalCost (n : Objective.Net F) (capex opex : List (Row F)) : F :=
  weightedTotal n (fun j => colTotal capex j + colTotal opex j)

/-- `fixed_cost`. -/
def fixedCost (n : Objective.Net F) (installed : List (Row F)) : F := weightedTotal n (colTotal installed)

/-- The constraint `budget` (604-610) at a point. -/
def budget (n : Objective.Net F) (o : Objective.Obj F) (slack : F) (capex opex installed : List (Row F))
    (val : Objective.OVar → F) : Prop :=
  o.value val + fixedCost n installed ≤ (1 + slack) * optimalCost n capex opex

inductive Sense
  | str (s : String)
  | int (i : Int)
  /-- any other type -/
  | other

/-- Lines 612-628. -/
def parseSense : Sense → Except Unit Int
  | .str s => if s.startsWith "min" then .ok 1 else if s.startsWith "max" then .ok (-1) else .error ()
  | .int i => if 0 < i then .ok 1 else if i < 0 then .ok (-1) else .error ()
  | .other => .error ()

/-- Coefficients: a number, a dict or series by asset, a frame by snapshot and asset; all complete. -/
inductive Coef (F : Type)
  | num (x : F)
  | series (f : String → F)
  | frame (f : Nat → String → F)

inductive AltErr
  /-- unknown class, or no such variable -/
  | keyError
  /-- `Series.reindex(columns=…)` -/
  | typeError
deriving DecidableEq, Repr

/-- The variables of a class and attribute: one for each extendable asset, or for each asset in service in each snapshot. -/
def altVars (n : Objective.Net F) (c attr : String) : Option (List (Objective.OVar × String × Option Nat)) :=
  if (c, attr) ∈ Objective.nominalAttrs then
    (if ((n.assets c).filter (·.ext)).isEmpty then none
     else some (((n.assets c).filter (·.ext)).map (fun a => (.nom c attr a.name, a.name, none))))
  else if Objective.table.any (fun r => r.comp == c && r.var == attr) && !(n.assets c).isEmpty then
    some ((n.assets c).flatMap (fun a => (n.sns.filter (Objective.present a attr)).map (fun t => (.op c attr a.name t, a.name, some t))))
  else none

/-- Coefficient of a variable; a frame for capacities is broadcast over the snapshots (635-645). -/
def Coef.at (sns : List Nat) (k : Coef F) (name : String) (t : Option Nat) : F :=
  match k, t with
  | .num x, _ => x
  | .series f, _ => f name
  | .frame f, some t => f t name
  | .frame f, none => (sns.map (fun t => f t name)).sum

/-- `Series.reindex(columns=…)` raises (640-641). -/
def Coef.raises (isNominal : Bool) : Coef F → Bool
  | .series _ => !isNominal
  | _ => false

/-- One entry of `weights`. -/
def altTerms (n : Objective.Net F) (sense : Int) (e : (String × String) × Coef F) : Except AltErr (List (F × Objective.OVar)) :=
  if (Objective.nominalAttrs.map (·.1)).contains e.1.1 then
    if e.2.raises (decide (e.1 ∈ Objective.nominalAttrs)) then .error .typeError
    else match altVars n e.1.1 e.1.2 with
      | none => .error .keyError
      | some vs => .ok (vs.map (fun v => (e.2.at n.sns v.2.1 v.2.2 * (sense : F), v.1)))
  else .error .keyError

/-- The alternate objective (630-646). -/
def altObjective (n : Objective.Net F) (sense : Int) : List ((String × String) × Coef F) → Except AltErr (List (F × Objective.OVar))
  | [] => .ok []
  | e :: es => match altTerms n sense e with
    | .error x => .error x
    | .ok ts => match altObjective n sense es with
      | .error x => .error x
      | .ok us => .ok (ts ++ us)

end Verif.Stats
