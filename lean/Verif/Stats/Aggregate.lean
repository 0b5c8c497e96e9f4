import Mathlib.Algebra.Order.Field.Basic
import Mathlib.Algebra.BigOperators.Group.List.Basic
import Mathlib.Data.List.Dedup

/-!
# Model of the aggregation of statistics

`_aggregate_timeseries`, `_aggregate_components` and the filters (`statistics/abstract.py` 172-379), the methods they
call (`statistics/expressions.py` 167-265) and the groupers (`statistics/grouping.py` 163-345).

A table of strings has `none` for NaN; a table of numbers is a function of the column (a snapshot, an
investment period, or 0 for a series) with `none` for NaN.  The order of rows is left out.
-/

namespace Verif.Stats

structure Asset where
  name : String
  /-- string columns of the static table -/
  col : String → Option String
  /-- `get_active_assets(c)` -/
  active : Bool
  /-- `get_active_assets(c, p)` for the p-th investment period -/
  activeIn : Nat → Bool

structure Comp where
  cname : String
  branch : Bool
  /-- columns of the static table -/
  cols : List String
  assets : List Asset

structure Net where
  buses : List String
  /-- string columns of `n.buses` -/
  busCol : String → String → Option String
  /-- `n.carriers.nice_name` -/
  nice : String → String
  /-- number of investment periods if the snapshots are multi-indexed -/
  multi : Option Nat

abbrev Row (F : Type) := List String × (Nat → Option F)

structure Vals (F : Type) where
  frame : Bool
  rows : List (Asset × (Nat → Option F))

/-- `Series.map(n.buses[attr])`. -/
def Net.busAttr (n : Net) (attr bus : String) : Option String := if n.buses.contains bus then n.busCol attr bus else none

/-! ## Time -/

inductive TimeAgg
  | sum | mean | none
deriving DecidableEq, Repr

structure Time (F : Type) where
  sns : List Nat
  /-- period (its position) of a snapshot -/
  per : Nat → Nat

variable {F : Type} [Field F]

/-- `weights @ series` over some snapshots. -/
def weighted (sns : List Nat) (w f : Nat → F) : F := (sns.map (fun t => w t * f t)).sum

/-- `weights / weights.sum()`. -/
def normed (sns : List Nat) (w : Nat → F) (t : Nat) : F := w t / (sns.map w).sum

/-- Snapshots that make up column `j` of the result. -/
def Time.part (T : Time F) (multi : Option Nat) (j : Nat) : List Nat :=
  match multi with
  | .none => T.sns
  | .some _ => T.sns.filter (fun t => decide (T.per t = j))

/-- Whether the result is a frame. -/
def timeFrame (multi : Option Nat) : TimeAgg → Bool
  | .none => true
  | _ => multi.isSome

/-- `_aggregate_timeseries` (172-187) for one asset. -/
def timeAgg (T : Time F) (multi : Option Nat) (agg : TimeAgg) (w f : Nat → F) (j : Nat) : F :=
  match agg with
  | .none => f j
  | .sum => weighted (T.part multi j) w f
  | .mean => weighted (T.part multi j) (normed (T.part multi j) w) f

/-! ## Filters -/

inductive Sel
  | all
  | str (s : String)
  | list (l : List String)

variable (search : String → String → Bool)

/-- `_filter_active_assets` (307-322). -/
def filterActive (n : Net) (v : Vals F) : Vals F :=
  if v.frame then v else
  match n.multi with
  | none => { v with rows := v.rows.filter (·.1.active) }
  | some k => ⟨true, (v.rows.filter (fun r => (List.range k).any r.1.activeIn)).map
      (fun r => (r.1, fun p => if r.1.activeIn p then r.2 0 else none))⟩

/-- A selection of strings: equality if the string occurs among `known`, otherwise a search by
pattern (`search pattern string`). -/
def Sel.holds (s : Sel) (known : List String) (x : String) : Bool :=
  match s with
  | .all => true
  | .str p => if known.contains p then x == p else search p x
  | .list l => l.contains x

/-- Carrier of the bus at a port. -/
def portCarrier (n : Net) (port : String) (a : Asset) : Option String :=
  (a.col ("bus" ++ port)).bind (n.busAttr "carrier")

/-- `_filter_bus_carrier` (324-353). -/
def busOk (n : Net) (port : String) (s : Sel) (a : Asset) : Bool :=
  match s with
  | .all => true
  | _ => match portCarrier n port a with
    | none => false
    | some x => s.holds search (n.buses.filterMap (n.busCol "carrier")) x

/-- `_filter_carrier` (355-379). -/
def carrierOk (c : Comp) (idx : List Asset) (s : Sel) (a : Asset) : Bool :=
  if c.cols.contains "carrier" then s.holds search (idx.filterMap (·.col "carrier")) ((a.col "carrier").getD "")
  else true

/-! ## Groupers -/

inductive Grouper
  | carrier
  | busCarrier
  | bus
  /-- `country`, `location` and `unit` -/
  | busAttr (attr : String)
  | name
  /-- any other string -/
  | column (key : String)
  | custom (f : String → String → Asset → Option String)

/-- Replacing by nice names (grouping.py 211-217). -/
def Net.niceName (n : Net) (nice : Bool) (x : String) : String :=
  if nice then
    let y := if n.nice x = "" then x else n.nice x
    if y = "" then "-" else y
  else x

def Grouper.label (n : Net) (nice : Bool) (c : Comp) (port : String) (a : Asset) : Grouper → Option String
  | .carrier => if c.cols.contains "carrier" then (a.col "carrier").map (n.niceName nice) else some (n.niceName nice "")
  | .busCarrier => (portCarrier n port a).map (n.niceName nice)
  | .bus => a.col ("bus" ++ port)
  | .busAttr attr => (a.col ("bus" ++ port)).bind (n.busAttr attr)
  | .name => some a.name
  | .column key => a.col key
  | .custom f => f c.cname port a

/-- `_get_generic_grouper` raises for unknown columns. -/
def Grouper.raises (c : Comp) : Grouper → Bool
  | .column key => !c.cols.contains key
  | _ => false

/-- Rows with a missing label are dropped by `groupby`. -/
def labels (n : Net) (nice : Bool) (c : Comp) (port : String) (gs : List Grouper) (a : Asset) : Option (List String) :=
  gs.foldr (fun g r => (g.label n nice c port a).bind (fun x => r.map (x :: ·))) (some [])

/-! ## Components -/

/-- `groupby(...).agg(agg)`; `agg` gets the values of one column and group. -/
def regroup (agg : List (Option F) → Option F) (rows : List (Row F)) : List (Row F) :=
  (rows.map (·.1)).dedup.map (fun k => (k, fun j => agg ((rows.filter (fun r => decide (r.1 = k))).map (fun r => r.2 j))))

/-- `"sum"`: NaN are skipped. -/
def sumAgg (l : List (Option F)) : Option F := some ((l.map (·.getD 0)).sum)

inductive AtPort
  | missing
  | flag (b : Bool)
  | names (l : List String)

def AtPort.truthy : AtPort → Bool
  | .missing => false
  | .flag b => b
  | .names l => !l.isEmpty

/-- `str(col)[3:] for col in n.static(c) if str(col).startswith("bus")`. -/
def Comp.ports (c : Comp) : List String := (c.cols.filter (fun s => s.startsWith "bus")).map (fun s => (s.drop 3).toString)

/-- Lines 250-252. -/
def usedPorts (at_ : AtPort) (c : Comp) : List String := if at_.truthy then c.ports else c.ports.take 1

structure Opts (F : Type) where
  agg : List (Option F) → Option F
  one : Bool
  groupby : Option (List Grouper)
  across : Bool
  atPort : AtPort
  busCarrier : Sel
  carrier : Sel
  nice : Bool
  /-- argument `drop_zero`, after the module wide option has replaced `none` -/
  dropZero : Option Bool
  round : Option (F → F)

/-- The values of one port after all filters (254-266); `func` returns `none` for a missing table. -/
def portVals (n : Net) (o : Opts F) (func : Comp → String → Option (Vals F)) (c : Comp) (port : String) : Vals F :=
  match func c port with
  | none => ⟨false, []⟩
  | some v =>
    let v1 := filterActive n v
    let r2 := v1.rows.filter (fun r => busOk search n port o.busCarrier r.1)
    ⟨v1.frame, r2.filter (fun r => carrierOk search c (r2.map (·.1)) o.carrier r.1)⟩

/-- Lines 268-283. -/
def portRows (n : Net) (o : Opts F) (func : Comp → String → Option (Vals F)) (c : Comp) (port : String) : List (Row F) :=
  match o.groupby with
  | none => (portVals search n o func c port).rows.map (fun r => ([r.1.name], r.2))
  | some gs => regroup o.agg ((portVals search n o func c port).rows.filterMap
      (fun r => (labels n o.nice c port gs r.1).map (fun l => (l, r.2))))

/-- `_aggregate_components_concat_values`. -/
def concatValues (agg : List (Option F) → Option F) (rows : List (Row F)) : List (Row F) :=
  if (rows.map (·.1)).Nodup then rows else regroup agg rows

def compRows (n : Net) (o : Opts F) (func : Comp → String → Option (Vals F)) (c : Comp) : List (Row F) :=
  concatValues o.agg ((usedPorts o.atPort c).flatMap (portRows search n o func c))

/-- `_aggregate_components_concat_data`. -/
def concatData (n : Net) (o : Opts F) (func : Comp → String → Option (Vals F)) (comps : List Comp) : List (Row F) :=
  comps.flatMap (fun c => (compRows search n o func c).map (fun r => (if o.one then r.1 else c.cname :: r.1, r.2)))

/-- `_apply_option_kwargs`: any value of `drop_zero` other than `none` drops. -/
def applyRound (o : Opts F) (rows : List (Row F)) : List (Row F) :=
  match o.round with
  | none => rows
  | some f => rows.map (fun r => (r.1, fun j => (r.2 j).map f))

def applyDrop [DecidableEq F] (o : Opts F) (frame : Bool) (rows : List (Row F)) : List (Row F) :=
  match o.dropZero with
  | none => rows
  | some _ =>
    if frame then rows.map (fun r => (r.1, fun j => if r.2 j = some 0 then none else r.2 j))
    else rows.filter (fun r => decide (r.2 0 ≠ some 0))

/-- `_aggregate_across_components`. -/
def applyAcross (o : Opts F) (rows : List (Row F)) : List (Row F) :=
  if o.across then regroup o.agg (if o.one then rows else rows.map (fun r => (r.1.tail, r.2))) else rows

/-- Whether the table is a frame: its values are. -/
def isFrame (n : Net) (o : Opts F) (func : Comp → String → Option (Vals F)) (comps : List Comp) : Bool :=
  comps.any (fun c => (usedPorts o.atPort c).any (fun port => (portVals search n o func c port).frame))

/-- An unknown grouper is used. -/
def badGrouper (n : Net) (o : Opts F) (func : Comp → String → Option (Vals F)) (comps : List Comp) : Bool :=
  comps.any (fun c => (usedPorts o.atPort c).any (fun port =>
    !(portVals search n o func c port).rows.isEmpty && (o.groupby.getD []).any (Grouper.raises c)))

/-- `_aggregate_components` (222-302). -/
def aggregate [DecidableEq F] (n : Net) (o : Opts F) (func : Comp → String → Option (Vals F)) (comps : List Comp) :
    Except Unit (List (Row F)) :=
  if badGrouper search n o func comps then .error ()
  else .ok (applyAcross o (applyDrop o (isFrame search n o func comps) (applyRound o (concatData search n o func comps))))

end Verif.Stats
