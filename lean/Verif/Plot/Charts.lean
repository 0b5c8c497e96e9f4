import Verif.Py.Dict
import Mathlib.Data.List.Dedup
import Mathlib.Algebra.Order.Field.Basic
import Mathlib.Algebra.BigOperators.Group.List.Basic

/-!
# Charts of statistics

Which parameters a chart uses (`plot/statistics/schema.py`), what it asks of the statistic (`plot/statistics/charts.py` 592-638,
`plot/statistics/plotter.py` 93-278, 488-660) and what it draws (`charts.py` 37-238, 240-375).  Values of parameters that are only handed on
to seaborn are opaque.  seaborn is modelled as documented: `FacetGrid` divides the rows by the labels of the facets, `barplot` and `lineplot`
show the mean of the rows at one place, `scatterplot` shows every row.  Left out: colours, labels of axes, box, violin and histogram,
`query`, the figures of plotly.
-/

namespace Verif.Plot.Charts

/-- Values of parameters. -/
inductive Val
  | none
  | bool (b : Bool)
  | num (n : Int)
  | str (s : String)
  | strs (l : List String)
  | other (k : Nat)
deriving DecidableEq, Repr

/-! ## Parameters -/

/-- `CHART_TYPES` (charts.py 26-34). -/
def chartTypes : List String := ["area", "bar", "scatter", "line", "box", "violin", "histogram"]

/-- `plot_types` (schema.py 161). -/
def plotTypes : List String := ["map", "plot"] ++ chartTypes

/-- `SCHEMA_DEFAULTS` (schema.py 37-56). -/
def schemaDefaults : Dict String Val :=
  [("x", .str "carrier"), ("y", .str "value"), ("color", .str "carrier"), ("height", .num 4), ("aspect", .num 1),
   ("bus_split_circles", .bool false), ("transmission_flow", .bool false), ("draw_legend_arrows", .bool false),
   ("draw_legend_lines", .bool true), ("kind", .str "bar"), ("storage", .none), ("direction", .none)]

/-- `SCHEMA_METHOD_DEFAULTS` (schema.py 58-69). -/
def methodDefaults : Dict String (Dict String Val) :=
  [("area", [("x", .str "carrier"), ("y", .str "value"), ("color", .none), ("height", .num 3), ("aspect", .num 2), ("linewidth", .num 0)]),
   ("line", [("x", .str "carrier"), ("y", .str "value"), ("color", .none), ("height", .num 3), ("aspect", .num 2)]),
   ("bar", [("x", .str "value"), ("y", .str "carrier"), ("color", .str "carrier")])]

/-- `SCHEMA_ADDITIONAL_PARAMETERS` (schema.py 71-76). -/
def additional : Dict String (List String) :=
  [("optimal_capacity", ["storage"]), ("installed_capacity", ["storage"]), ("energy_balance", ["direction"]), ("revenue", ["direction"])]

def noStorage : Dict String (Dict String Val) :=
  [("line", [("storage", .bool false)]), ("area", [("storage", .bool false)]), ("plot", [("storage", .bool false)])]

def overTime : Dict String (Dict String Val) :=
  [("line", [("x", .str "snapshot")]), ("area", [("x", .str "snapshot"), ("color", .str "carrier")])]

def flowMap (kind : String) : Dict String (Dict String Val) :=
  [("map", [("transmission_flow", .bool true), ("draw_legend_arrows", .bool true), ("draw_legend_lines", .bool false), ("kind", .str kind)])]

/-- `SCHEMA` (schema.py 78-147). -/
def schemaTable : Dict String (Dict String (Dict String Val)) :=
  [("capex", []), ("installed_capex", []), ("expanded_capex", []), ("optimal_capacity", noStorage), ("installed_capacity", noStorage),
   ("expanded_capacity", []), ("opex", overTime), ("supply", overTime ++ flowMap "supply"), ("withdrawal", overTime ++ flowMap "withdrawal"),
   ("transmission", overTime),
   ("energy_balance", ("plot", [("kind", .str "area")]) :: overTime ++ [("map", [("bus_split_circles", .bool true),
     ("transmission_flow", .bool true), ("draw_legend_arrows", .bool true), ("draw_legend_lines", .bool false)])]),
   ("curtailment", overTime), ("capacity_factor", overTime), ("revenue", overTime), ("market_value", overTime), ("system_cost", [])]

structure Entry where
  default : Val
  allowed : Bool
deriving DecidableEq, Repr

/-- The parameters of `SCHEMA_ADDITIONAL_PARAMETERS` (163-167). -/
def additionalParameters : List String := (additional.map (·.2)).flatten

/-- `for param, value in values.items(): cell[param] = {"default": value, "allowed": True}` (186-201). -/
def override (cell : Dict String Entry) (values : Dict String Val) : Dict String Entry :=
  values.foldl (fun c e => Dict.set c e.1 ⟨e.2, true⟩) cell

/-- One cell of the combined schema (172-201). -/
def cell (stat plot : String) (sub : Dict String (Dict String Val)) : Dict String Entry :=
  let base := schemaDefaults.foldl (fun c e => Dict.set c e.1
    ⟨e.2, !decide (e.1 ∈ additionalParameters) || decide (e.1 ∈ (Dict.get? additional stat).getD [])⟩) []
  override (override base ((Dict.get? methodDefaults plot).getD [])) ((Dict.get? sub plot).getD [])

/-- `_combine_schemas` (150-203). -/
def schema : Dict String (Dict String (Dict String Entry)) :=
  schemaTable.map (fun s => (s.1, plotTypes.map (fun p => (p, cell s.1 p s.2))))

inductive Err
  | keyError
  /-- "Parameter … can not be used" -/
  | notAllowed (param : String)
  /-- "… are automatically derived" -/
  | derived
  /-- "Unknown plot type" -/
  | unknownKind
  /-- unexpected keyword argument -/
  | typeError (param : String)
  /-- "Index contains duplicate entries, cannot reshape" -/
  | duplicates
  /-- "Unsupported plot type", or one that is not modelled -/
  | unsupported
  /-- "Cannot draw … legend" -/
  | legend
deriving DecidableEq, Repr

/-- The loop over the parameters (231-247). -/
def applyCell (c : Dict String Entry) : Dict String Val → Except Err (Dict String Val)
  | [] => .ok []
  | (p, v) :: rest =>
    match Dict.get? c p with
    | none => (applyCell c rest).map ((p, v) :: ·)
    | some e =>
      if v = .none then
        if e.allowed then (applyCell c rest).map ((p, e.default) :: ·) else applyCell c rest
      else if e.allowed then (applyCell c rest).map ((p, v) :: ·)
      else .error (.notAllowed p)

/-- `apply_parameter_schema` (209-249). -/
def applySchema (stat plot : String) (kwargs : Dict String Val) : Except Err (Dict String Val) :=
  if kwargs = [] then .ok []
  else match (Dict.get? schema stat).bind (fun s => Dict.get? s plot) with
    | none => .error .keyError
    | some c => applyCell c kwargs

/-! ## What is asked of the statistic -/

/-- `derive_statistic_parameters` (charts.py 592-638); the order of the columns, which come from a set, means nothing. -/
def derive (args : List (Option String)) : Dict String Val :=
  let cols := ((args.filterMap id).filter (fun c => !decide (c ∈ ["value", "component", "snapshot"]))).dedup
  (if cols = [] then [] else [("groupby", Val.strs cols)]) ++
  [("aggregate_across_components", .bool (!decide (some "component" ∈ args)))] ++
  (if some "snapshot" ∈ args then [("aggregate_time", .bool false)] else [])

/-- `dict.update`. -/
def update (d e : Dict String Val) : Dict String Val := e.foldl (fun c x => Dict.set c x.1 x.2) d

/-- A parameter that names a column. -/
def column : Option Val → Option String
  | some (.str s) => some s
  | _ => none

/-- Columns shown: `x`, `y`, `color`, `facet_col`, `facet_row`. -/
def shown (d : Dict String Val) : List (Option String) :=
  ["x", "y", "color", "facet_col", "facet_row"].map (fun k => column (Dict.get? d k))

/-- Parameters of the statistics (statistics/expressions.py 388, 490, 596, 707, 819, 936, 1039, 1205, 1315, 1414, 1513, 1625, 1759, 1868, 1974, 2099)
among those a chart may pass. -/
def accepts (stat param : String) : Bool :=
  decide (param ∈ ["carrier", "bus_carrier", "nice_names", "groupby", "aggregate_across_components"]) ||
  (decide (param = "aggregate_time") && decide (stat ∈ ["opex", "system_cost", "supply", "withdrawal", "transmission", "energy_balance",
    "curtailment", "capacity_factor", "revenue", "market_value"])) ||
  (decide (param = "storage") && decide (stat ∈ ["optimal_capacity", "installed_capacity"])) ||
  (decide (param = "direction") && decide (stat ∈ ["energy_balance", "revenue"]))

/-- Binding of keyword arguments. -/
def bindArgs (stat : String) (kwargs : Dict String Val) : Except Err (Dict String Val) :=
  match kwargs.find? (fun e => !accepts stat e.1) with
  | some e => .error (.typeError e.1)
  | none => .ok kwargs

/-- `StatisticPlotter._chart` and `StatisticInteractivePlotter._chart` (plotter.py 236-278, 618-660) up to the call of the statistic: the arguments of
the statistic and of the chart. -/
def chart (stat kind : String) (plot : Dict String Val) (carrier busCarrier storage niceNames : Val) (extra : Dict String Val) :
    Except Err (Dict String Val × Dict String Val) :=
  if extra.any (fun e => decide (e.1 ∈ ["aggregate_time", "aggregate_across_components", "groupby"])) then .error .derived
  else match applySchema stat kind plot with
    | .error e => .error e
    | .ok plot' =>
      match applySchema stat kind (update [("carrier", carrier), ("bus_carrier", busCarrier), ("storage", storage), ("nice_names", niceNames)]
        (derive (shown plot'))) with
      | .error e => .error e
      | .ok stats => (bindArgs stat stats).map (fun s => (s, plot'))

/-- `__call__` (plotter.py 54-91; 452-486 with `kinds` area, bar and line): the method that is called. -/
def call (kinds : List String) (stat : String) (kind : Option String) : Except Err Val :=
  match kind with
  | some k => if k ∈ kinds then (applySchema stat "plot" [("kind", .str k)]).bind (fun d => ((Dict.get? d "kind").elim (.error .keyError) .ok))
    else .error .unknownKind
  | none => (applySchema stat "plot" [("kind", .none)]).bind (fun d => ((Dict.get? d "kind").elim (.error .keyError) .ok))

/-- Which legends of branches a map draws (maps.py 221-278). -/
def mapLegends (d : Dict String Val) : Except Err (Bool × Bool) :=
  let flow := decide (Dict.get? d "transmission_flow" = some (.bool true))
  let arrows := decide (Dict.get? d "draw_legend_arrows" = some (.bool true))
  let lines := decide (Dict.get? d "draw_legend_lines" = some (.bool true))
  if arrows && !flow then .error .legend
  else if lines && flow then .error .legend
  else .ok (arrows, lines)

/-! ## What is drawn -/

variable {F : Type} [Field F] [LinearOrder F]

/-- A row of the long table (`_to_long_format`, charts.py 218-238): its labels, and the column "value". -/
structure Row (F : Type) where
  label : String → String
  val : F

/-- A bar, a point or a part of an area. -/
structure Mark (F : Type) where
  facet : Option String × Option String
  x : String
  color : Option String
  val : F

/-- `row_vals`, `col_vals` (charts.py 66-67). -/
def orNone (names : List String) : List (Option String) := if names = [] then [none] else names.map some

/-- `facet_data[facet_data[facet] == val]` (79-84). -/
def onFacet (facet : Option String) (v : Option String) (rows : List (Row F)) : List (Row F) :=
  match facet, v with
  | some c, some l => rows.filter (fun r => decide (r.label c = l))
  | _, _ => rows

/-- `clip(lower=0)` and `clip(upper=0)` (90-92). -/
def clipLower (r : Row F) : Row F := { r with val := max r.val 0 }
def clipUpper (r : Row F) : Row F := { r with val := min r.val 0 }

/-- `facet_iter` (37-98). -/
def facetIter (rowNames colNames : List String) (facetRow facetCol : Option String) (split : Bool) (rows : List (Row F)) :
    List ((Option String × Option String) × List (Row F)) :=
  (orNone rowNames).flatMap (fun rv => (orNone colNames).flatMap (fun cv =>
    let data := onFacet facetCol cv (onFacet facetRow rv rows)
    if data = [] then []
    else if split then [((rv, cv), data.map clipLower), ((rv, cv), data.map clipUpper)]
    else [((rv, cv), data)]))

/-- Pivoting (159-169) and what is drawn of the table; missing cells are not drawn. -/
def pivot (x : String) (color : Option String) (facet : Option String × Option String) (rows : List (Row F)) : Except Err (List (Mark F)) :=
  match color with
  | none =>
    if (rows.map (fun r => r.label x)).Nodup then .ok (rows.map (fun r => ⟨facet, r.label x, none, r.val⟩))
    else .ok ((rows.map (fun r => r.label x)).dedup.map (fun a =>
      ⟨facet, a, none, ((rows.filter (fun r => decide (r.label x = a))).map (·.val)).sum⟩))
  | some c =>
    if (rows.map (fun r => (r.label x, r.label c))).Nodup then .ok (rows.map (fun r => ⟨facet, r.label x, some (r.label c), r.val⟩))
    else .error .duplicates

/-- seaborn's `barplot` and `lineplot`: the mean at each place of each facet. -/
def means (x : String) (color : Option String) (facet : Option String × Option String) (rows : List (Row F)) : List (Mark F) :=
  (rows.map (fun r => (r.label x, color.map r.label))).dedup.map (fun a =>
    let here := rows.filter (fun r => decide ((r.label x, color.map r.label) = a))
    ⟨facet, a.1, a.2, (here.map (·.val)).sum / here.length⟩)

/-- `custom_case` (141). -/
def custom (kind x y : String) (color facetRow facetCol : Option String) : Bool :=
  (color.isSome && !decide (color ∈ [some x, some y, facetCol, facetRow])) || decide (kind = "area")

/-- The column along the axis of categories: `x_var` (149-153), the other axis shows "value". -/
def category (kind x y : String) : String := if kind = "bar" ∧ x = "value" then y else x

/-- `split_by_sign` (147). -/
def mixedSigns (rows : List (Row F)) : Bool := rows.any (fun r => decide (r.val < 0)) && rows.any (fun r => decide (0 < r.val))

/-- What is drawn (`plot` 285-345, `map_dataframe_pandas_plot` 101-201); `rowNames` and `colNames` are the labels of the facets. -/
def draw (kind x y : String) (color facetRow facetCol : Option String) (rowNames colNames : List String) (rows : List (Row F)) :
    Except Err (List (Mark F)) :=
  if kind = "area" ∨ kind = "bar" then
    if custom kind x y color facetRow facetCol then
      ((facetIter rowNames colNames facetRow facetCol (mixedSigns rows) rows).mapM (fun f => pivot (category kind x y) color f.1 f.2)).map List.flatten
    else
      .ok ((facetIter rowNames colNames facetRow facetCol false rows).flatMap (fun f => means (category kind x y) color f.1 f.2))
  else if kind = "line" then
    .ok ((facetIter rowNames colNames facetRow facetCol false rows).flatMap (fun f => means x color f.1 f.2))
  else if kind = "scatter" then
    .ok ((facetIter rowNames colNames facetRow facetCol false rows).flatMap (fun f => f.2.map (fun r => ⟨f.1, r.label x, color.map r.label, r.val⟩)))
  else .error .unsupported

end Verif.Plot.Charts
