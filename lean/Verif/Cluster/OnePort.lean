import Mathlib.Algebra.Order.Field.Basic
import Mathlib.Data.List.Dedup

/-!
# Model of the aggregation of one-ports

`normed_or_uniform`, `make_consense`, `align_strategies`, `flatten_multiindex` and `aggregateoneport`
(`clustering/spatial.py` 87-291).  Values are in an ordered field.  Simplified: missing and infinite values, the strategy
`weighted_min` and the order of rows are left out; a strategy handed in as a function of the values is one of those listed
in `Strategy`.
-/

namespace Verif.Cluster.OnePort

/-- What `agg` is told to do with a column (29-55, 242-252). -/
inductive Strategy (F : Type) where
  | sum
  | mean
  | min
  | max
  | weightedAverage
  | capacityWeightedAverage
  | const (v : F)
  | consense
  deriving DecidableEq

/-- A row of `n.static(c)` with its columns of `n.dynamic(c)`; `num` are numbers, `str` the other columns. -/
structure Asset (F : Type) where
  name : String
  bus : String
  carrier : String
  num : String → F
  str : String → String
  dyn : String → Option (Nat → F)

variable {F : Type} [Field F] [LinearOrder F]

/-- `get_switchable_as_dense` (`descriptors.py` 31-83): the series where there is one, else the static value. -/
def Asset.dense (a : Asset F) (k : String) (t : Nat) : F := ((a.dyn k).map (fun f => f t)).getD (a.num k)

/-- `DEFAULT_ONE_PORT_STRATEGIES` (29-55); `inf` stands for `np.inf`. -/
def defaults (inf : F) : List (String × Strategy F) :=
  [("p", .sum), ("q", .sum), ("p_set", .sum), ("q_set", .sum), ("p_nom", .sum), ("p_nom_max", .sum), ("p_nom_min", .sum),
   ("e_nom", .sum), ("e_nom_max", .sum), ("e_nom_min", .sum), ("weight", .sum), ("ramp_limit_up", .mean),
   ("ramp_limit_down", .mean), ("ramp_limit_start_up", .mean), ("ramp_limit_shut_down", .mean), ("build_year", .const 0),
   ("lifetime", .const inf), ("p_max_pu", .capacityWeightedAverage), ("p_min_pu", .capacityWeightedAverage),
   ("capital_cost", .capacityWeightedAverage), ("marginal_cost", .capacityWeightedAverage),
   ("efficiency", .capacityWeightedAverage), ("max_hours", .capacityWeightedAverage), ("inflow", .sum)]

/-- `{**DEFAULT_ONE_PORT_STRATEGIES, **custom_strategies}` with `align_strategies` (142-161, 226-227). -/
def strategyOf (inf : F) (custom : List (String × Strategy F)) (k : String) : Strategy F :=
  ((custom.lookup k).or ((defaults inf).lookup k)).getD .consense

/-- `normed_or_uniform` (87-105): the weight of the value `x` of the series `l`. -/
def normed (l : List F) (x : F) : F := if 0 < l.sum then x / l.sum else 1 / (l.length : F)

/-- `x == v` for all, of `make_consense` (130-137). -/
def agree {α : Type} [DecidableEq α] : List α → Bool
  | [] => true
  | v :: l => l.all (fun x => decide (x = v))

/-- One cell of `groupby(grouper).agg(...)`: the values `x` of the members `g` of a group (242-254, 272-283). -/
def cell (cap weight : String) (s : Strategy F) (g : List (Asset F)) (x : Asset F → F) : F :=
  match s with
  | .sum => (g.map x).sum
  | .mean => (g.map x).sum / (g.length : F)
  | .min => ((g.map x).min?).getD 0
  | .max => ((g.map x).max?).getD 0
  | .weightedAverage => (g.map (fun u => x u * normed (g.map (fun v => v.num weight)) (u.num weight))).sum
  | .capacityWeightedAverage => (g.map (fun u => x u * normed (g.map (fun v => v.num cap)) (u.num cap))).sum
  | .const v => v
  | .consense => ((g.map x).head?).getD 0

/-- `str.strip()`, for blanks. -/
def strip (s : String) : String :=
  String.ofList ((s.toList.dropWhile (fun c => c = ' ')).reverse.dropWhile (fun c => c = ' ')).reverse

/-- `flatten_multiindex` (164-168) of a pair of bus and carrier. -/
def flatten (b c : String) : String := strip (b ++ " " ++ c)

/-- Arguments and tables of `aggregateoneport` (171-179). -/
structure Config (F : Type) where
  busmap : String → Option String
  hasCarrier : Bool
  carriers : Option (List String)
  buses : Option (List String)
  custom : List (String × Strategy F)
  /-- Numbers among the static columns that are no output (222-223). -/
  cols : List String
  /-- The other static columns that are no output, apart from bus and carrier. -/
  strCols : List String
  /-- `n.dynamic(c)`. -/
  dynCols : List String
  /-- `n.snapshots`. -/
  snapshots : List Nat
  /-- The first of `p_nom`, `e_nom` among the columns (232). -/
  cap : String
  inf : F
  /-- `attrs.default` (260). -/
  dflt : String → F
  withTime : Bool

variable (cfg : Config F)

/-- `to_aggregate` (206-216). -/
def toAggregate (u : Asset F) : Bool :=
  (if cfg.hasCarrier then (cfg.carriers.map (fun cs => decide (u.carrier ∈ cs))).getD true else true) ||
    (cfg.buses.map (fun bs => decide (u.bus ∈ bs))).getD false

/-- The label of the group of an asset (229-231); buses that are not mapped are in no group. -/
def key (u : Asset F) : Option (String × String) :=
  (cfg.busmap u.bus).map (fun b => (b, if cfg.hasCarrier then u.carrier else ""))

/-- The members of a group. -/
def members (us : List (Asset F)) (k : String × String) : List (Asset F) :=
  us.filter (fun u => toAggregate cfg u && decide (key cfg u = some k))

/-- The groups, each once. -/
def keys (us : List (Asset F)) : List (String × String) :=
  ((us.filter (toAggregate cfg)).filterMap (key cfg)).dedup

/-- `not data.empty` (266). -/
def hasSeries (us : List (Asset F)) (k : String) : Bool :=
  decide (k ∈ cfg.dynCols) && us.any (fun u => (u.dyn k).isSome) && !cfg.snapshots.isEmpty

def strat (k : String) : Strategy F := strategyOf cfg.inf cfg.custom k

/-- The columns that are kept (288-290): those that differ from the static value somewhere. -/
def keepSeries (k : String) (static : F) (f : Nat → F) : Option (Nat → F) :=
  if decide (k ∈ cfg.cols) && cfg.snapshots.all (fun t => decide (f t = static)) then none else some f

/-- The static value of a group (254, 260). -/
def groupStatic (us : List (Asset F)) (g : String × String) (k : String) : F :=
  if k ∈ cfg.cols then cell cfg.cap "weight" (strat cfg k) (members cfg us g) (fun u => u.num k) else cfg.dflt k

/-- The row and the columns of a group (254-255, 262-290). -/
def groupRow (us : List (Asset F)) (g : String × String) : Asset F where
  name := if cfg.hasCarrier then flatten g.1 g.2 else g.1
  bus := g.1
  carrier := g.2
  num := groupStatic cfg us g
  str := fun k => (((members cfg us g).map (fun u => u.str k)).head?).getD ""
  dyn := fun k =>
    if cfg.withTime && hasSeries cfg us k then
      keepSeries cfg k (groupStatic cfg us g k)
        (fun t => cell cfg.cap "weight" (strat cfg k) (members cfg us g) (fun u => u.dense k t))
    else none

/-- The row of an asset that is not aggregated (257-260, 285-290): the missing bus is replaced by the default. -/
def keptRow (us : List (Asset F)) (u : Asset F) : Asset F where
  name := u.name
  bus := (cfg.busmap u.bus).getD ""
  carrier := u.carrier
  num := u.num
  str := u.str
  dyn := fun k =>
    if cfg.withTime && hasSeries cfg us k then keepSeries cfg k (u.num k) (fun t => u.dense k t) else none

/-- Whether `consense` raises for some group and column (130-137). -/
def disagrees (us : List (Asset F)) : Bool :=
  (keys cfg us).any (fun g =>
    cfg.strCols.any (fun k => !agree ((members cfg us g).map (fun u => u.str k))) ||
    cfg.cols.any (fun k => decide (strat cfg k = .consense) && !agree ((members cfg us g).map (fun u => u.num k))) ||
    (cfg.withTime && cfg.dynCols.any (fun k => hasSeries cfg us k && decide (strat cfg k = .consense) &&
      cfg.snapshots.any (fun t => !agree ((members cfg us g).map (fun u => u.dense k t))))))

/-- `aggregateoneport` (171-291); `none` where it raises. -/
def aggregate (us : List (Asset F)) : Option (List (Asset F)) :=
  if disagrees cfg us then none
  else some ((keys cfg us).map (groupRow cfg us) ++ (us.filter (fun u => !toAggregate cfg u)).map (keptRow cfg us))

end Verif.Cluster.OnePort
