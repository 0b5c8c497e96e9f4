import Mathlib.Data.List.Basic
import Mathlib.Data.Rat.Defs
import Mathlib.Algebra.Order.Field.Rat
import Verif.Py.Dict

/-!
# The library of component types (`pypsa/components/types.py`)

The package wide dictionary `all_components`, the registration of a type with the
formatting of its table of attributes, the lookup, and what a new network makes of it.

Simplified: descriptions, units and the table of standard types are carried along
unchanged in the code and are one opaque field here.  A value of the column
`default` is a truth value, a text, a number or missing.  Conversion of a text to a
number, and of anything to a text, is Python's and a parameter.
-/

namespace Verif.Registry

/-- A value of the column `default`. -/
inductive Val where
  | bool (b : Bool)
  | str (s : String)
  | num (q : ℚ)
  | nan
deriving DecidableEq, Repr

/-- The Python types of the column `typ` (`types.py` 93-97). -/
inductive Typ where
  | bool | int | str | geometry | float
deriving DecidableEq, Repr

/-- The numpy types of the column `dtype` (`types.py` 98-108). -/
inductive DType where
  | bool | int | object | float
deriving DecidableEq, Repr

/-- What the library does when it converts values (`Series.astype`).  A conversion
that raises is `none`. -/
structure Conv where
  toFloat : String → Option Val
  toInt : Val → Option Val
  toStr : Val → String

/-- One row of the table given by the caller: name of the attribute, `type`, `default`. -/
structure Row where
  attr : String
  type : String
  default : Val
deriving DecidableEq, Repr

/-- One row of the table as it is stored. -/
structure FRow where
  attr : String
  type : String
  default : Val
  static : Bool
  varying : Bool
  typ : Typ
  dtype : DType
deriving DecidableEq, Repr

/-- `map({...}).fillna(float)` for the column `typ` (`types.py` 93-97). -/
def typOf (t : String) : Typ :=
  if t = "boolean" then .bool
  else if t = "int" then .int
  else if t = "string" then .str
  else if t = "geometry" then .geometry
  else .float

/-- `map({...}).fillna(np.dtype(float))` for the column `dtype` (`types.py` 98-108). -/
def dtypeOf (t : String) : DType :=
  if t = "boolean" then .bool
  else if t = "int" then .int
  else if t = "string" then .object
  else .float

/-- `isin({True, "True"})` (`types.py` 110-114); `1 == True` in Python. -/
def isTrue (v : Val) : Bool := v == .bool true || v == .str "True" || v == .num 1

/-- `astype(float)` on one value (`types.py` 118-122). -/
def asFloat (cv : Conv) : Val → Option Val
  | .bool b => some (.num (if b then 1 else 0))
  | .str s => cv.toFloat s
  | .num q => some (.num q)
  | .nan => some .nan

/-- The formatted default (`types.py` 110-122): truth values by `isin`, missing texts
by `""` and then `str`, numbers by `astype`; geometries stay as they are. -/
def formatDefault (cv : Conv) (t : String) (v : Val) : Option Val :=
  match typOf t with
  | .bool => some (.bool (isTrue v))
  | .str => some (.str (if v = .nan then cv.toStr (.str "") else cv.toStr v))
  | .float => asFloat cv v
  | .int => cv.toInt v
  | .geometry => some v

/-- Formatting one row (`types.py` 89-122). -/
def formatRow (cv : Conv) (r : Row) : Option FRow :=
  (formatDefault cv r.type r.default).map (fun d =>
    { attr := r.attr, type := r.type, default := d
      static := r.type != "series"
      varying := r.type == "series" || r.type == "static or series"
      typ := typOf r.type, dtype := dtypeOf r.type })

/-- Formatting the whole table; a conversion that raises ends it. -/
def format (cv : Conv) : List Row → Option (List FRow)
  | [] => some []
  | r :: rs => (formatRow cv r).bind (fun f => (format cv rs).map (f :: ·))

/-- A registered type (`pypsa/definitions/components.py` 19-49). -/
structure CType where
  name : String
  listName : String
  info : String
  defaults : List FRow
deriving DecidableEq, Repr

/-- Arguments of `add_component_type`. -/
structure Reg where
  name : String
  listName : String
  info : String
  table : List Row
deriving DecidableEq, Repr

/-- `all_components`. -/
abbrev Lib := Dict String CType

/-- Exceptions. -/
inductive Err where
  | exists_ | conversion | notFound
deriving DecidableEq, Repr

/-- `add_component_type` (`types.py` 31-132).  The test at line 84 asks for the *name*
among the keys of the library, which are list names. -/
def addType (cv : Conv) (lib : Lib) (r : Reg) : Except Err Lib :=
  if Dict.contains lib r.name then .error .exists_
  else match format cv r.table with
    | none => .error .conversion
    | some t => .ok (Dict.set lib r.listName
        { name := r.name, listName := r.listName, info := r.info, defaults := t })

/-- A registration inside `try`: an exception leaves the library as it was. -/
def tryAdd (cv : Conv) (lib : Lib) (r : Reg) : Lib :=
  match addType cv lib r with
  | .ok l => l
  | .error _ => lib

/-- A history of registrations. -/
def run (cv : Conv) (lib : Lib) (l : List Reg) : Lib := l.foldl (tryAdd cv) lib

/-- `COMPONENT_ALIAS_DICT` (`pypsa/deprecations.py` 1-17). -/
def aliases : Dict String String :=
  [("SubNetwork", "sub_networks"), ("Bus", "buses"), ("Carrier", "carriers"),
   ("GlobalConstraint", "global_constraints"), ("Line", "lines"), ("LineType", "line_types"),
   ("Transformer", "transformers"), ("TransformerType", "transformer_types"), ("Link", "links"),
   ("Load", "loads"), ("Generator", "generators"), ("StorageUnit", "storage_units"),
   ("Store", "stores"), ("ShuntImpedance", "shunt_impedances"), ("Shape", "shapes")]

/-- The aliasing at the head of `get` (`types.py` 207-208). -/
def resolve (q : String) : String := (Dict.get? aliases q).getD q

/-- `get` (`types.py` 184-220). -/
def get (lib : Lib) (q : String) : Except Err CType :=
  match Dict.get? lib (resolve q) with
  | some c => .ok c
  | none => .error .notFound

/-- The loop of `_initialize_components` (`pypsa/networks.py` 488-498) over the rows of
`components.csv`: each class is looked up by its name and stored under the list name
that the looked-up type carries. -/
def initComponents (lib : Lib) : List String → Dict String CType → Except Err (Dict String CType)
  | [], st => .ok st
  | c :: cs, st =>
    match get lib c with
    | .error e => .error e
    | .ok t => initComponents lib cs (Dict.set st t.listName t)

/-- `_load_default_component_types` (`types.py` 135-181): the packaged tables are
registered one after the other. -/
def loadDefaults (cv : Conv) : Lib → List Reg → Except Err Lib
  | lib, [] => .ok lib
  | lib, r :: rs =>
    match addType cv lib r with
    | .error e => .error e
    | .ok l => loadDefaults cv l rs

end Verif.Registry
