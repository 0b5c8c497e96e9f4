import Mathlib.Data.List.Perm.Basic

/-!
# Columns of static tables (model)

The order and presence of columns, which `Model.lean` leaves out: `_import_components_from_df` (`pypsa/io.py` 1399-1498) with `_sort_attrs` (1306-1331), for one class.
`set` of Python has no order that a program may rely on (for strings it changes with each process): what `list(df_cols_set - set(attrs_list))` returns is a parameter.
Simplified: names of columns only; no column `name` is given (`static` is false for it, 1419); Link has no ports beyond the second.
-/

namespace Verif.Network.Columns

/-- `attrs`: all attributes in order, and the static ones. -/
structure Schema where
  attrs : List String
  static : String → Bool

structure Table where
  cols : List String
  rows : List String
deriving DecidableEq, Repr

/-- How a set is listed. -/
abbrev Listing := List String → List String

/-- `_sort_attrs(df, attrs.index, axis=1)` (1326-1331). -/
def sortAttrs (S : Schema) (e : Listing) (cols : List String) : List String :=
  S.attrs.filter (fun c => cols.contains c) ++ e (cols.filter (fun c => !S.attrs.contains c))

inductive Op
  /-- names, columns, overwrite -/
  | add (names given : List String) (overwrite : Bool)
  | remove (names : List String)

/-- `_build_dataframes`: a new network has the static attributes as columns and no rows. -/
def start (S : Schema) : Table := ⟨S.attrs.filter S.static, []⟩

/-- Columns after defaults have been filled in (1432-1434) and time series dropped (1468-1470). -/
def completed (S : Schema) (given : List String) : List String :=
  (given ++ (S.attrs.filter S.static).filter (fun c => !given.contains c)).filter (fun c => !(S.attrs.contains c && !S.static c))

def step (S : Schema) (e : Listing) (t : Table) : Op → Table
  | .add names given overwrite =>
    let dup := t.rows.filter (fun x => names.contains x)
    let old := if overwrite then t.rows.filter (fun x => !dup.contains x) else t.rows
    let new := if overwrite then names else names.filter (fun x => !dup.contains x)
    let cols := if old.isEmpty then completed S given else t.cols ++ (completed S given).filter (fun c => !t.cols.contains c)
    ⟨sortAttrs S e cols, old ++ new⟩
  | .remove names => { t with rows := t.rows.filter (fun x => !names.contains x) }

/-- The `k`-th call lists its set by `e k`. -/
def run (S : Schema) (e : Nat → Listing) : Nat → Table → List Op → Table
  | _, t, [] => t
  | k, t, op :: ops => run S e (k + 1) (step S (e k) t op) ops

end Verif.Network.Columns
