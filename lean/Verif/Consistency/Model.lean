import Mathlib.Order.WithBot
import Mathlib.Algebra.Order.Ring.Rat

/-!
# Model of the consistency checks

`pypsa/consistency.py` 29-927.  A check reports or not; what it reports is left out, as is `calculate_dependent_values`, which runs
before the checks.  Numbers are rationals with both infinities, `null` is a missing value.
-/

namespace Verif.Consistency

/-- Numbers with infinities. -/
abbrev Num := WithBot (WithTop ℚ)

def zero : Num := ((0 : ℚ) : WithTop ℚ)

/-- A value of a static table. -/
inductive Cell where
  | null
  | str (s : String)
  | num (v : Num)
  | bool (b : Bool)
  deriving DecidableEq

/-- `astype(str)`, for strings. -/
def Cell.text : Cell → String
  | .str s => s
  | _ => "nan"

/-- An attribute of a class: `component.attrs`. -/
structure Attr where
  name : String
  static : Bool
  varying : Bool
  /-- The default is neither missing nor the empty string. -/
  hasDefault : Bool
  dtype : String

/-- A table of series; `none` is NaN. -/
structure Table where
  cols : List String
  index : List Nat
  val : String → Nat → Option Num
  dtype : String → String

/-- A component class with its data. -/
structure Comp where
  name : String
  attrs : List Attr
  index : List String
  columns : List String
  cell : String → String → Cell
  dtype : String → String
  dyn : String → Table

/-- A network; `periods` if snapshots have investment periods. -/
structure Net where
  comps : List Comp
  buses : List String
  carriers : List String
  /-- `n.carriers.color`. -/
  color : String → Cell
  snapshots : List Nat
  periods : Option (List Nat)
  /-- `global_constraints.investment_period`, missing values left out. -/
  constraintPeriods : List Nat
  /-- `n.shapes`: component and name. -/
  shapes : List (String × String)

variable (n : Net) (c : Comp)

/-- `_bus_columns` (29-30). -/
def busColumns : List String := c.columns.filter (fun a => "bus".toList.isPrefixOf a.toList)

/-- `component.name in n.branch_components`. -/
def isBranch : Bool := decide (c.name ∈ ["Line", "Link", "Transformer"])

/-- `int(attr[-1])`; `none` where it raises. -/
def lastDigit (a : String) : Option Nat :=
  a.toList.getLast?.bind (fun x => if x.isDigit then some (x.toNat - '0'.toNat) else none)

/-- `missing` of a column (66-69). -/
def missingBus (skipEmpty : Bool) (a r : String) : Bool :=
  decide ((c.cell a r).text ∉ n.buses) && !(skipEmpty && decide (c.cell a r = .str ""))

/-- `check_for_unknown_buses` (41-76); `none` where `int` raises. -/
def unknownBuses : Option Bool :=
  (busColumns c).foldr (fun a rest =>
    (if isBranch c then (lastDigit a).map (fun d => decide (1 < d)) else some false).bind (fun skip =>
      rest.map (fun r => c.index.any (missingBus n c skip a) || r))) (some false)

/-- `check_for_unknown_carriers` (113-152). -/
def unknownCarriers : Bool :=
  decide ("carrier" ∈ c.columns) && c.index.any (fun r =>
    decide (∀ k ∈ n.carriers, c.cell "carrier" r ≠ .str k) && decide (c.cell "carrier" r ≠ .null) && decide (c.cell "carrier" r ≠ .str ""))

/-- `check_time_series` (227-273). -/
def timeSeries : Bool :=
  c.attrs.any (fun a => a.varying && a.static &&
    ((c.dyn a.name).cols.any (fun r => decide (r ∉ c.index)) || decide (n.snapshots ≠ (c.dyn a.name).index)))

/-- Comparison of static values; missing values compare as false. -/
def Cell.lt : Cell → Cell → Bool
  | .num a, .num b => decide (a < b)
  | _, _ => false

def Cell.isTrue : Cell → Bool
  | .bool b => b
  | _ => false

/-- The first of `names` among the attributes, in the order of the attributes. -/
def firstAttr (p : Attr → Bool) (names : List String) : Option String :=
  ((c.attrs.filter (fun a => p a && decide (a.name ∈ names))).head?).map (fun a => a.name)

/-- `check_static_power_attributes` (276-333). -/
def staticPower : Bool :=
  decide (c.name ≠ "TransformerType") &&
    ((firstAttr c (fun a => a.static) ["p_nom", "s_nom", "e_nom"]).map (fun a =>
      c.index.any (fun r => (c.cell (a ++ "_max") r).lt (c.cell (a ++ "_min") r)) ||
      [a ++ "_min", a ++ "_max"].any (fun k => c.index.any (fun r =>
        (c.cell (a ++ "_extendable") r).isTrue && decide (c.cell k r = .null))))).getD false

/-- `get_switchable_as_dense` at an asset and a snapshot; `none` is NaN. -/
def dense (k r : String) (t : Nat) : Option Num :=
  if r ∈ (c.dyn k).cols then (c.dyn k).val r t
  else match c.cell k r with
    | .num v => some v
    | _ => none

/-- `np.isinf`. -/
def isInf (v : Option Num) : Bool := decide (v = some ⊥ ∨ v = some (⊤ : WithTop ℚ))

/-- `diff < 0`. -/
def less (a b : Option Num) : Bool := match a, b with
  | some x, some y => decide (x < y)
  | _, _ => false

/-- `check_time_series_power_attributes` (336-424). -/
def timeSeriesPower : Bool :=
  decide (c.name ≠ "TransformerType") &&
    ((firstAttr c (fun a => a.varying) ["p_max_pu", "e_max_pu"]).map (fun a =>
      let p := if a = "p_max_pu" then "p" else "e"
      c.index.any (fun r => n.snapshots.any (fun t =>
        (dense c (p ++ "_max_pu") r t).isNone || (dense c (p ++ "_min_pu") r t).isNone ||
        isInf (dense c (p ++ "_max_pu") r t) || isInf (dense c (p ++ "_min_pu") r t) ||
        less (dense c (p ++ "_max_pu") r t) (dense c (p ++ "_min_pu") r t))))).getD false

/-- `check_nans_for_component_default_attrs` (674-738). -/
def nans : Bool :=
  c.attrs.any (fun a => a.hasDefault &&
    ((decide (a.name ∈ c.columns) && c.index.any (fun r => decide (c.cell a.name r = .null))) ||
      (c.dyn a.name).cols.any (fun r => (c.dyn a.name).index.any (fun t => ((c.dyn a.name).val r t).isNone))))

/-- `check_for_zero_impedances` (155-190). -/
def zeroImpedances : Bool :=
  decide (c.name ∈ ["Line", "Transformer"]) && ["x", "r"].any (fun k => c.index.any (fun r => decide (c.cell k r = .num zero)))

/-- `check_for_zero_s_nom` (193-224). -/
def zeroSNom : Bool := decide (c.name = "Transformer") && c.index.any (fun r => decide (c.cell "s_nom" r = .num zero))

/-- `check_assets` (427-463). -/
def assets : Bool :=
  decide (c.name ∈ ["Generator", "Link"]) && decide ("committable" ∈ c.columns) &&
    c.index.any (fun r => (c.cell "committable" r).isTrue && (c.cell "p_nom_extendable" r).isTrue)

/-- `check_generators` (466-521). -/
def generators : Bool :=
  decide (c.name = "Generator") &&
    (c.index.any (fun r => (c.cell "committable" r).isTrue && (Cell.num zero).lt (c.cell "up_time_before" r) &&
        (Cell.num zero).lt (c.cell "down_time_before" r)) ||
      c.index.any (fun r => (c.cell "e_sum_max" r).lt (c.cell "e_sum_min" r)))

/-- `check_dtypes_` (524-582). -/
def dtypes : Bool :=
  c.attrs.any (fun a => a.static && decide (a.name ≠ "name") && decide (c.dtype a.name ≠ a.dtype)) ||
    c.attrs.any (fun a => a.varying && !(c.dyn a.name).index.isEmpty && (c.dyn a.name).cols.any (fun r => decide ((c.dyn a.name).dtype r ≠ a.dtype)))

/-- `n.iterate_components()`: classes with assets. -/
def nonEmpty : List Comp := n.comps.filter (fun c => !c.index.isEmpty)

/-- `check_for_disconnected_buses` (79-110). -/
def disconnectedBuses : Bool :=
  n.buses.any (fun b => !(nonEmpty n).any (fun c => (busColumns c).any (fun a => c.index.any (fun r => decide (c.cell a r = .str b)))))

/-- `check_investment_periods` (585-632). -/
def investmentPeriods : Bool :=
  match n.periods with
  | some ps => n.constraintPeriods.any (fun p => decide (p ∉ ps))
  | none => !n.constraintPeriods.isEmpty

/-- `check_shapes` (635-671). -/
def shapes : Bool :=
  n.shapes.any (fun s => n.comps.any (fun c => decide (c.name = s.1) && decide (s.2 ∉ c.index)))

/-- How the function ends; a plain `ValueError` comes with the check that raises it on purpose. -/
inductive Outcome where
  | valueError (check : Option String)
  | consistencyError (check : String)
  | done (warnings : List String)
  deriving DecidableEq

/-- One call of a check: the word looked up in `strict`, the name of the check, whether it finds something (`none` where it fails), and
whether it raises a plain `ValueError` (616-617, 626-627). -/
structure Task where
  key : String
  check : String
  found : Option Bool
  plain : Bool

/-- `strict_options` (822-837). -/
def options : List String :=
  ["unknown_buses", "unknown_carriers", "time_series", "static_power_attrs", "time_series_power_attrs", "nans_for_component_default_attrs",
   "zero_impedances", "zero_s_nom", "assets", "generators", "disconnected_buses", "investment_periods", "shapes", "dtypes"]

/-- A check that looks up its own name. -/
def task (k : String) (found : Option Bool) : Task := ⟨k, k, found, false⟩

/-- The checks of a class (855-874); the word for carriers is misspelt (858). -/
def compTasks (checkDtypes : Bool) : List Task :=
  [task "unknown_buses" (unknownBuses n c),
   ⟨"unkown_carriers", "unknown_carriers", some (unknownCarriers n c), false⟩,
   task "time_series" (some (timeSeries n c)),
   task "static_power_attrs" (some (staticPower c)),
   task "time_series_power_attrs" (some (timeSeriesPower n c)),
   task "nans_for_component_default_attrs" (some (nans c)),
   task "zero_impedances" (some (zeroImpedances c)),
   task "zero_s_nom" (some (zeroSNom c)),
   task "assets" (some (assets c)),
   task "generators" (some (generators c))] ++
  if checkDtypes then [task "dtypes" (some (dtypes c))] else []

/-- The checks of the network (876-879). -/
def netTasks : List Task :=
  [task "disconnected_buses" (some (disconnectedBuses n)),
   ⟨"investment_periods", "investment_periods", some (investmentPeriods n), true⟩,
   task "shapes" (some (shapes n))]

/-- The exception of a strict check. -/
def Task.raise (t : Task) : Outcome := if t.plain then .valueError (some t.check) else .consistencyError t.check

/-- `_log_or_raise` (33-38) for the calls in order. -/
def run (strict : List String) : List Task → List String → Outcome
  | [], ws => .done ws
  | t :: ts, ws =>
    match t.found with
    | none => .valueError none
    | some false => run strict ts ws
    | some true => if t.key ∈ strict then t.raise else run strict ts (ws ++ [t.check])

/-- All calls in order (854-879). -/
def tasks (checkDtypes : Bool) : List Task := (nonEmpty n).flatMap (fun c => compTasks n c checkDtypes) ++ netTasks n

/-- `consistency_check` (761-879). -/
def consistencyCheck (checkDtypes : Bool) (strict : List String) : Outcome :=
  let strict := if "all" ∈ strict then options else strict
  if strict.all (fun s => decide (s ∈ options)) then
    run strict (tasks n checkDtypes) []
  else .valueError none

/-- `check_for_missing_carrier_colors` (741-758). -/
def missingColors : Bool := n.carriers.any (fun k => decide (n.color k = .null) || decide (n.color k = .str ""))

/-- `plotting_consistency_check` (882-927). -/
def plottingCheck (strict : List String) : Outcome :=
  let options := ["unknown_carriers", "missing_carrier_colors"]
  let strict := if "all" ∈ strict then options else strict
  if strict.all (fun s => decide (s ∈ options)) then
    run strict ((nonEmpty n).map (fun c => task "unknown_carriers" (some (unknownCarriers n c))) ++
      [task "missing_carrier_colors" (some (missingColors n))]) []
  else .valueError none

end Verif.Consistency
