import Verif.IO.CsvProps
import Verif.IO.NamesProps

/-!
# Model of Excel workbooks and HDF5 stores, attributes of the network and meta data

`ExporterExcel`/`ImporterExcel` (`io.py` 283-468), `ExporterHDF5`/`ImporterHDF5` (471-581), the attributes of the network object, `meta` and their
import (747-776, 1192-1238), and `Network(import_name)` (`networks.py` 328-346).  Contents of tables are opaque here; what
they mean for the network is in `Model.lean`.  In CSV, netCDF and HDF5 meta data are one text written by `json.dumps` and read by `json.loads`, which is
not modelled further.
-/

namespace Verif.IO.Formats

open Verif.IO.Names

/-! ## Tables by name -/

/-- Names of tables: of the static table of a class, and what stands before the attribute of a series. -/
structure Naming where
  static : Str → Str
  pre : Str → Str

/-- Sheets (444-449, 369-382). -/
def excel : Naming := ⟨fun l => l, fun l => l ++ ['-']⟩

/-- Keys (506-524, 570-578). -/
def hdf5 : Naming := ⟨fun l => '/' :: l, fun l => '/' :: l ++ "_t/".toList⟩

inductive Op (S : Type) where
  | put (k : Str) (v : S)
  | del (k : Str)

def Op.key {S : Type} : Op S → Str
  | .put k _ => k
  | .del k => k

def Op.value {S : Type} : Op S → Option S
  | .put _ v => some v
  | .del _ => none

/-- `if_sheet_exists="replace"` (411), `del self.writer.book[...]` (451-460), `self.ds.put`. -/
def Op.run {S : Type} (d : Dict Str S) : Op S → Dict Str S
  | .put k v => Dict.set d k v
  | .del k => Dict.erase d k

/-- A class as `_export_to_exporter` hands it over (785-846): no static table if it is empty; each series with its table, or none if nothing
is to be written. -/
structure Cls (S : Type) where
  list : Str
  static : Option S
  series : List (Str × Option S)

variable {S : Type}

/-- `save_series` or `remove_series`. -/
def seriesOp (N : Naming) (l : Str) (e : Str × Option S) : Op S :=
  match e.2 with
  | some v => .put (N.pre l ++ e.1) v
  | none => .del (N.pre l ++ e.1)

/-- What is done for a class: without components its static table is removed and its series are not looked at (799-801). -/
def classOps (N : Naming) (t : Cls S) : List (Op S) :=
  match t.static with
  | none => [.del (N.static t.list)]
  | some v => .put (N.static t.list) v :: t.series.map (seriesOp N t.list)

/-- All writes and removals; `first` are the tables of attributes, meta data, coordinates, snapshots and periods; `_temp` is removed
(462-465). -/
def allOps (N : Naming) (first : List (Str × S)) (ts : List (Cls S)) : List (Op S) :=
  first.map (fun (e : Str × S) => Op.put e.1 e.2) ++ ts.flatMap (classOps N) ++ [Op.del "_temp".toList]

/-- An export into the file `old`.  For HDF5 it is empty (`mode="w"`), so that removing has no effect. -/
def exportTables (N : Naming) (old : Dict Str S) (first : List (Str × S)) (ts : List (Cls S)) : Dict Str S :=
  (allOps N first ts).foldl Op.run old

/-- `get_static` (369-375, 506-516). -/
def getStatic (N : Naming) (d : Dict Str S) (l : Str) : Option S := Dict.get? d (N.static l)

/-- `get_series` (377-382, 518-524). -/
def getSeries (N : Naming) (d : Dict Str S) (l : Str) : Dict Str S :=
  d.filterMap (fun e => (after (N.pre l) e.1).map (fun k => (k, e.2)))

/-- `_export_to_exporter` into a workbook: unlike in a folder, the static table of an empty class is removed (451-454, 799-801). -/
def exportExcel {V : Type} [DecidableEq V] (cfg : Setup V) (old : Store V) (n : Verif.Network.Network V) :
    Except Verif.Network.Err (Store V) :=
  exportInto cfg { old with static := fun c => if c ∈ cfg.classes ∧ keptNames cfg n c = [] then none else old.static c } n

/-! ## Columns by position in HDF5 -/

/-- `self.index[list_name].get_indexer(df.columns)` (577); raises if names occur twice. -/
def positions (names cols : List String) : Option (List Int) :=
  if names.Nodup then some (cols.map (fun x => if x ∈ names then (names.idxOf x : Int) else -1)) else none

/-- Indexing as in Python: negative positions count from the end. -/
def pyGet (names : List String) (i : Int) : Option String :=
  if 0 ≤ i then names[i.toNat]? else if 0 ≤ names.length + i then names[(names.length + i).toNat]? else none

/-- `self.index[list_name][df.columns]` (523). -/
def columns (names : List String) (ps : List Int) : Option (List String) := ps.mapM (pyGet names)

/-! ## Meta data -/

inductive Json where
  | null
  | bool (b : Bool)
  | num (q : Rat)
  | str (s : String)
  | arr (l : List Json)
  | obj (l : List (String × Json))

/-- `json.dumps`, `json.loads` (`none`: `JSONDecodeError`) and `str`. -/
structure Text where
  dumps : Json → String
  loads : String → Option Json
  show_ : Json → String

/-- A cell of a sheet. -/
inductive Cell where
  | blank
  | num (q : Rat)
  | bool (b : Bool)
  | text (s : String)

/-- `save_meta` of Excel (421-431); lists are written by `str`. -/
def metaCell (T : Text) : Json → Cell
  | .obj l => .text (T.dumps (.obj l))
  | .null => .blank
  | .num q => .num q
  | .bool b => .bool b
  | .str s => .text s
  | .arr l => .text (T.show_ (.arr l))

/-- `get_meta` of Excel (315-335); `none` is NaN. -/
def cellMeta (T : Text) : Cell → Option Json
  | .blank => none
  | .num q => some (.num q)
  | .bool b => some (.bool b)
  | .text s =>
    if s ∈ Csv.missing then none
    else match T.loads s with
      | some j => some j
      | none => some (.str s)

/-! ## Attributes of the network object -/

inductive Format where
  | csv | excel | netcdf | hdf5
deriving DecidableEq, Repr

inductive AVal where
  | nan
  | num (q : Rat)
  | text (s : String)
deriving DecidableEq

structure NetAttr where
  name : String
  value : AVal
  /-- not a property, or one with a setter -/
  settable : Bool

/-- Attributes that are written (755-766); attributes of other types are left out. -/
def written (l : List NetAttr) : List (String × AVal) :=
  (l.filter (fun a => !a.name.startsWith "__" && a.settable)).map (fun a => (a.name, a.value))

/-- A value of one row as it comes back (159-168, 309-313, 489-490, 655-660). -/
def readBack (R : Csv.Reader) (f : Format) : AVal → AVal
  | .nan => .nan
  | .num q => .num q
  | .text s =>
    match f with
    | .netcdf => .text s
    | .hdf5 => .text s
    | .excel => if s ∈ Csv.missing then .nan else .text s
    | .csv => match Csv.infer R [s] with
      | [.int i] => .num i
      | [.float q] => .num q
      | [.text s] => .text s
      | _ => .nan

/-- Attributes after the import (1204-1224); the version is only looked at. -/
def readAttrs (R : Csv.Reader) (f : Format) (file : List (String × AVal)) (base : String → AVal) (k : String) : AVal :=
  if k = "pypsa_version" then base k
  else match file.lookup k with
    | some v => readBack R f v
    | none => base k

/-- Attributes of `Network(import_name, name, **kwargs)` (297, 328-346). -/
def initAttrs (R : Csv.Reader) (f : Format) (file : List (String × AVal)) (name : String) (kwargs : List (String × AVal))
    (base : String → AVal) (k : String) : AVal :=
  match kwargs.reverse.lookup k with
  | some v => v
  | none => readAttrs R f file (fun q => if q = "name" then .text name else base q) k

end Verif.IO.Formats
