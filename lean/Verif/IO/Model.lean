import Verif.Network.Transfer

/-!
# Model of export and import

`_export_to_exporter` and `_import_from_importer` (`io.py` 719-850, 1192-1303) with `ExporterCSV`/`ImporterCSV` (139-280) and
`ExporterNetCDF`/`ImporterNetCDF` (584-716), on top of the model of the component store.  Names of files and variables are
in `NamesProps.lean`; here a table is found under its class and attribute.  The attributes of the network object, `meta`, Excel
and HDF5 are in `Formats.lean`.  Left out: coordinate systems, shapes, rounding of numbers, other weightings of snapshots than the three known ones.
-/

namespace Verif.IO

open Verif.Network

variable {V : Type}

/-- `n.static(c)` as written. -/
structure StaticTable (V : Type) where
  names : List Name
  cols : List Attr
  val : Name → Attr → Option V

/-- `n.dynamic(c)[attr]` as written: rows by position (`reset_index`, 841). -/
structure SeriesTable (V : Type) where
  cols : List Name
  rows : List (Name → Option V)

/-- A folder or dataset. -/
structure Store (V : Type) where
  snaps : List Snap
  w : Snap → String → Option V
  periods : List Int
  pw : Int → String → Option V
  static : Cls → Option (StaticTable V)
  series : Cls → Dict Attr (SeriesTable V)

/-- What depends on the network class and the call. -/
structure Setup (V : Type) where
  sch : Schema V
  /-- `n.all_components - {"SubNetwork"}` in the order of import (1274-1276). -/
  classes : List Cls
  /-- Columns of the static tables. -/
  cols : Cls → List Attr
  /-- `standard_types` of the classes of types. -/
  std : Cls → List Name
  stdVal : Cls → Name → Attr → Option V
  exportStd : Bool
  /-- `static[col].dtype == attrs.at[col, "dtype"]`. -/
  sameType : Cls → Attr → Bool
  /-- How names and columns of static tables come back: unchanged for netCDF, see `CsvProps.lean` for CSV. -/
  readNames : List Name → List Name
  readCol : Option V → List (Option V) → List (Option V)
  skipTime : Bool

variable [DecidableEq V] (cfg : Setup V)

/-- Attributes that are not written (809). -/
def derived : List Attr := ["sub_network", "r_pu", "x_pu", "g_pu", "b_pu"]

/-- Rows that are written (795-796). -/
def keptNames (n : Network V) (c : Cls) : List Name :=
  (n.comps c).names.filter (fun y => cfg.exportStd || decide (y ∉ cfg.std c))

/-- Whether a static column is written (804-822). -/
def writesCol (n : Network V) (c : Cls) (k : Attr) : Bool :=
  decide (k ∉ derived) &&
    !((cfg.sch.spec? c k).isSome && decide (cfg.sch.dflt c k = none) &&
      (keptNames cfg n c).all (fun y => decide ((n.comps c).sval y k = none))) &&
    !((cfg.sch.spec? c k).isSome && cfg.sameType c k && decide (cfg.sch.dflt c k ≠ none) &&
      (keptNames cfg n c).all (fun y => decide ((n.comps c).sval y k = cfg.sch.dflt c k)))

/-- `save_static` (824). -/
def staticTable (n : Network V) (c : Cls) : StaticTable V where
  names := keptNames cfg n c
  cols := (cfg.cols c).filter (writesCol cfg n c)
  val := (n.comps c).sval

/-- Columns of a series that are written (827-838). -/
def writtenSeries (c : Cls) (k : Attr) (f : Frame V) : List Name :=
  if (cfg.sch.spec? c k).isSome then
    f.cols.filter (fun x => f.index.any (fun s => decide (f.val s x ≠ cfg.sch.dflt c k)))
  else f.cols

/-- `save_series` or `remove_series` (840-844). -/
def writeOne (c : Cls) (d : Dict Attr (SeriesTable V)) (e : Attr × Frame V) : Dict Attr (SeriesTable V) :=
  if (writtenSeries cfg c e.1 e.2).isEmpty then Dict.erase d e.1
  else Dict.set d e.1 ⟨writtenSeries cfg c e.1 e.2, e.2.index.map (fun s => e.2.val s)⟩

/-- Whether standard types are missing, so that `drop` raises (796). -/
def dropRaises (n : Network V) (c : Cls) : Bool :=
  !cfg.exportStd && !(cfg.std c).all (fun y => decide (y ∈ (n.comps c).names))

/-- `_export_to_exporter` (719-850) into what is there: the folder for CSV, an empty dataset for netCDF.
`remove_static` looks into a folder with the name of the class and finds nothing (271-275). -/
def exportInto (old : Store V) (n : Network V) : Except Err (Store V) :=
  if cfg.classes.any (dropRaises cfg n) then .error .keyError
  else .ok
    { snaps := n.snaps
      w := n.w.val
      periods := n.pw.index
      pw := n.pw.val
      static := fun c =>
        if c ∈ cfg.classes ∧ keptNames cfg n c ≠ [] then some (staticTable cfg n c) else old.static c
      series := fun c =>
        if c ∈ cfg.classes ∧ keptNames cfg n c ≠ [] then (n.comps c).dyn.foldl (writeOne cfg c) (old.series c) else old.series c }

/-- A new folder or dataset. -/
def empty : Store V :=
  { snaps := [], w := fun _ _ => none, periods := [], pw := fun _ _ => none, static := fun _ => none, series := fun _ => [] }

/-- `Network()` with its standard types, or without (`networks.py` 318-325, `ignore_standard_types`). -/
def fresh (ignoreStd : Bool) : Network V :=
  { init cfg.sch with
    comps := fun c =>
      { (init cfg.sch).comps c with names := if ignoreStd then [] else cfg.std c, sval := cfg.stdVal c } }

/-- The rows of a series with the labels of the snapshots (1293). -/
def relabel (snaps : List Snap) (t : SeriesTable V) : Frame V where
  index := snaps
  cols := t.cols
  val := fun s x => ((Dict.get? (snaps.zip t.rows) s).map (fun r => r x)).getD none

/-- The loop over series (1291-1294); `set_index` raises if the lengths differ. -/
def readSeries (c : Cls) : List (Attr × SeriesTable V) → Network V → Except Err (Network V)
  | [], n => .ok n
  | (k, t) :: r, n =>
    if t.rows.length = n.snaps.length then readSeries c r (importSeries cfg.sch n c k (relabel n.snaps t) false)
    else .error .valueError

/-- Arguments of `n.add(component, df.index, **df)` (1289). -/
def readKwargs (c : Cls) (t : StaticTable V) : List (Attr × Arg V) :=
  t.cols.map (fun k => (k, .seriesN (cfg.readNames t.names) (cfg.readCol (cfg.sch.dflt c k) (t.names.map (fun y => t.val y k)))))

/-- One class (1277-1294). -/
def readClass (st : Store V) (c : Cls) (n : Network V) : Except Err (Network V) :=
  match st.static c with
  | none => .ok n
  | some t =>
    match add cfg.sch n c (cfg.readNames t.names) "" false false (readKwargs cfg c t) with
    | .error e => .error e
    | .ok m => if cfg.skipTime then .ok m else readSeries cfg c (st.series c) m

/-- The loop over classes (1274-1299). -/
def readClasses (st : Store V) : List Cls → Network V → Except Err (Network V)
  | [], n => .ok n
  | c :: cs, n =>
    match readClass cfg st c n with
    | .error e => .error e
    | .ok m => readClasses st cs m

/-- Snapshots and weightings (1246-1261). -/
def readSnapshots (base : Network V) (st : Store V) : Except Err (Network V) :=
  match setSnapshots cfg.sch base st.snaps cfg.sch.one with
  | (_, some e) => .error e
  | (m, none) => .ok { m with w := { index := st.snaps, val := fun s k => if k ∈ weightCols then st.w s k else none } }

/-- Investment periods (1263-1269). -/
def readPeriods (st : Store V) (n : Network V) : Except Err (Network V) :=
  match setInvestmentPeriods cfg.sch n st.periods true with
  | .error e => .error e
  | .ok m => .ok { m with pw := { index := periodsOf m.snaps, val := fun p k => if p ∈ st.periods then st.pw p k else none } }

/-- `_import_from_importer` (1192-1303) into the network `base`; without buses it stops (1280-1284). -/
def importFrom (base : Network V) (st : Store V) : Except Err (Network V) :=
  match readSnapshots cfg base st with
  | .error e => .error e
  | .ok m =>
    match readPeriods cfg st m with
    | .error e => .error e
    | .ok m' => if (st.static "Bus").isNone then .ok m' else readClasses cfg st cfg.classes m'

end Verif.IO
