import Verif.Py.Dict

/-!
# Model of the component store of `pypsa.Network`

`n.static(c)`, `n.dynamic(c)`, `n.snapshots`, the weightings, and the operations
`add`, `remove`, `set_snapshots`, `set_investment_periods`, `import_series`.

Simplifications (all in the direction of forgetting presentation data):
* a cell is `Option V`, `none` meaning NaN (or "column not there");
* the order of attribute columns of the static table and the alphabetical order that
  `Index.union` imposes on series columns are not tracked;
* dtype conversion (`astype`), geometry columns, logging, `index.name`;
* snapshots are labels `flat t` (single index) or `multi p t` (MultiIndex), and are
  assumed pairwise distinct (a repeated label makes pandas raise on the next reindex);
* the schema is fixed: `update_linkports_component_attrs` (adding `bus2`, ... attributes
  when a link with more ports comes in) is taken to have happened.
-/

namespace Verif.Network

abbrev Name := String
abbrev Attr := String
abbrev Cls := String

/-- A snapshot label (`networks.py` 732-740): a timestep or a (period, timestep) pair. -/
inductive Snap where
  | flat (t : String)
  | multi (p : Int) (t : String)
deriving DecidableEq, Repr

/-- `isinstance(label, tuple)`. -/
def Snap.isMulti : Snap → Bool
  | .flat _ => false
  | .multi _ _ => true

/-- One row of `n.components[c].attrs` (component attribute CSVs): `static` is
`type != "series"`, `varying` is `type contains "series"`. -/
structure AttrSpec (V : Type) where
  name : Attr
  dflt : Option V
  static : Bool
  varying : Bool

/-- All attribute tables, and the number 1.0 used as default weighting. -/
structure Schema (V : Type) where
  attrs : Cls → List (AttrSpec V)
  one : V

variable {V : Type}

/-- `attrs.loc[k]`. -/
def Schema.spec? (sch : Schema V) (c : Cls) (k : Attr) : Option (AttrSpec V) :=
  (sch.attrs c).find? (fun a => a.name = k)

/-- A time-dependent table: rows (snapshots), columns (component names), cells. -/
structure Frame (V : Type) where
  index : List Snap
  cols : List Name
  val : Snap → Name → Option V

/-- The data of one component class: static table and dictionary of dynamic tables. -/
structure Comp (V : Type) where
  names : List Name
  sval : Name → Attr → Option V
  dyn : Dict Attr (Frame V)

/-- `n.snapshot_weightings`. -/
structure Weights (I V : Type) where
  index : List I
  val : I → String → Option V

/-- The network object. -/
structure Network (V : Type) where
  snaps : List Snap
  w : Weights Snap V
  pw : Weights Int V
  comps : Cls → Comp V

inductive Err where
  | valueError
  | keyError
  | notImplemented
deriving DecidableEq, Repr

/-! ## pandas operations on tables -/

/-- `df.reindex(columns=cols, fill_value=fill)`. -/
def Frame.reindexCols (f : Frame V) (cols : List Name) (fill : Option V) : Frame V :=
  { f with cols := cols, val := fun s n => if n ∈ f.cols then f.val s n else fill }

/-- `df.drop(df.columns.intersection(names), axis=1)`. -/
def Frame.dropCols (f : Frame V) (names : List Name) : Frame V :=
  { f with cols := f.cols.filter (fun n => n ∉ names) }

/-- `df.reindex(rows, fill_value=fill)`. -/
def Frame.reindexRows (f : Frame V) (rows : List Snap) (fill : Option V) : Frame V :=
  { f with index := rows, val := fun s n => if s ∈ f.index then f.val s n else fill }

/-- `df.reindex(rows, fill_value=fill, level="timestep")` for a table with a single
index: a MultiIndex target is matched by its timestep level. -/
def Frame.reindexRowsLevel (f : Frame V) (rows : List Snap) (fill : Option V) : Frame V :=
  { f with
    index := rows
    val := fun s n =>
      match s with
      | .flat t => if Snap.flat t ∈ f.index then f.val (.flat t) n else fill
      | .multi _ t => if Snap.flat t ∈ f.index then f.val (.flat t) n else fill }

/-- `df.loc[rows, cols] = values`. -/
def Frame.assign (f : Frame V) (rows : List Snap) (cols : List Name)
    (g : Snap → Name → Option V) : Frame V :=
  { f with val := fun s n => if s ∈ rows ∧ n ∈ cols then g s n else f.val s n }

/-- `a.union(b)` for indexes (order not modelled). -/
def unionNames (a b : List Name) : List Name := a ++ b.filter (fun n => n ∉ a)

/-- Apply a function to every table of a dictionary. -/
def mapDyn (g : Attr → Frame V → Frame V) (d : Dict Attr (Frame V)) : Dict Attr (Frame V) :=
  d.map (fun e => (e.1, g e.1 e.2))

/-- Replace the data of one class (`setattr(n, list_name, ...)`). -/
def Network.setComp (n : Network V) (c : Cls) (x : Comp V) : Network V :=
  { n with comps := fun c' => if c' = c then x else n.comps c' }

/-! ## Import of static data (`io.py` 1399-1514) -/

/-- Static keyword data: for each attribute a value per component. -/
abbrev StaticArgs (V : Type) := Dict Attr (Name → Option V)

/-- The cleaned data frame (`io.py` 1427-1452): given values with NaN replaced by the
attribute's default, defaults for attributes that are not given. -/
def cleaned (sch : Schema V) (c : Cls) (static : StaticArgs V) (x : Name) (k : Attr) :
    Option V :=
  match Dict.get? static k with
  | some f =>
    match f x with
    | some v => some v
    | none => match sch.spec? c k with
      | some a => a.dflt
      | none => none
  | none =>
    match sch.spec? c k with
    | some a => if a.static then a.dflt else none
    | none => none

/-- `k` is a time-dependent-only attribute (`~attrs.static`, `io.py` 1419). -/
def Schema.seriesOnly (sch : Schema V) (c : Cls) (k : Attr) : Bool :=
  match sch.spec? c k with
  | some a => !a.static
  | none => false

/-- `attrs.at[k, "default"]` (NaN when the attribute is unknown). -/
def Schema.dflt (sch : Schema V) (c : Cls) (k : Attr) : Option V :=
  match sch.spec? c k with
  | some a => a.dflt
  | none => none

/-- `io.py` 1503-1512, one attribute: an output given as a static value is written to
the series table, which is first extended to all components. -/
def fillOutput (sch : Schema V) (c : Cls) (static : StaticArgs V) (finalNames : List Name)
    (target : List Name) (snaps : List Snap) (d : Dict Attr (Frame V)) (k : Attr) :
    Dict Attr (Frame V) :=
  if sch.seriesOnly c k then
    match Dict.get? d k with
    | some f =>
      Dict.set d k ((f.reindexCols finalNames (sch.dflt c k)).assign snaps target
        (fun _ x => cleaned sch c static x k))
    | none => d
  else d

/-- `io.py` 1503-1512. -/
def fillOutputs (sch : Schema V) (c : Cls) (static : StaticArgs V) (finalNames : List Name)
    (target : List Name) (snaps : List Snap) (ks : List Attr)
    (dyn : Dict Attr (Frame V)) : Dict Attr (Frame V) :=
  ks.foldl (fillOutput sch c static finalNames target snaps) dyn

/-- `_import_components_from_df` (`io.py` 1399-1514). -/
def importComponents (sch : Schema V) (n : Network V) (c : Cls) (names : List Name)
    (static : StaticArgs V) (overwrite : Bool) : Network V :=
  let old := n.comps c
  -- duplicated_components (1473)
  let dup := old.names.filter (fun x => x ∈ names)
  -- 1474-1485
  let newNames := if overwrite then names else names.filter (fun x => x ∉ dup)
  let oldNames := if overwrite then old.names.filter (fun x => x ∉ dup) else old.names
  -- 1487-1497
  let finalNames := oldNames ++ newNames
  let sval := fun x k =>
    if x ∈ newNames then
      if sch.seriesOnly c k then none else cleaned sch c static x k
    else old.sval x k
  -- 1501-1512
  let target := if overwrite then names else names.filter (fun x => x ∉ dup)
  let dyn := fillOutputs sch c static finalNames target n.snaps (Dict.keys static) old.dyn
  n.setComp c { names := finalNames, sval := sval, dyn := dyn }

/-! ## Import of series (`io.py` 1517-1587) -/

/-- `io.py` 1542-1546: without `overwrite`, columns that already exist are dropped. -/
def seriesCols (x : Comp V) (k : Attr) (df : Frame V) (ow : Bool) : Frame V :=
  if ow then df else
    match Dict.get? x.dyn k with
    | some f => df.dropCols f.cols
    | none => df

/-- The attribute if it is one of `expected_attrs` (`io.py` 1562). -/
def Schema.vary? (sch : Schema V) (c : Cls) (k : Attr) : Option (AttrSpec V) :=
  (sch.attrs c).find? (fun a => a.name = k ∧ a.varying)

/-- `io.py` 1569-1575: missing snapshots are filled with the default. -/
def alignRows (snaps : List Snap) (dflt : Option V) (df : Frame V) : Frame V :=
  if snaps.all (fun s => s ∈ df.index) then df else df.reindexRows snaps dflt

/-- `io.py` 1577-1587: extend the existing table and write the new columns. -/
def writeSeries (a : AttrSpec V) (x : Comp V) (snaps : List Snap) (cur df : Frame V) :
    Frame V :=
  (if !a.static then cur.reindexCols (unionNames df.cols x.names) a.dflt
   else cur.reindexCols (unionNames df.cols cur.cols) none).assign snaps df.cols df.val

/-- `_import_series_from_df` (`io.py` 1517-1587). -/
def importSeries (sch : Schema V) (n : Network V) (c : Cls) (k : Attr) (df : Frame V)
    (overwrite : Bool) : Network V :=
  let x := n.comps c
  match sch.vary? c k with
  -- 1563-1566: unknown attributes are stored as they are
  | none =>
    if overwrite || !(Dict.contains x.dyn k) then
      n.setComp c { x with dyn := Dict.set x.dyn k (seriesCols x k df overwrite) }
    else n
  | some a =>
    match Dict.get? x.dyn k with
    | none => n
    | some cur =>
      let new := writeSeries a x n.snaps cur
        (alignRows n.snaps a.dflt (seriesCols x k df overwrite))
      n.setComp c { x with dyn := Dict.set x.dyn k new }

/-! ## `Network.add` (`networks.py` 1125-1349) -/

/-- The kinds of values `add` accepts for an attribute. -/
inductive Arg (V : Type) where
  /-- a scalar -/
  | scalar (v : Option V)
  /-- a list or one-dimensional array -/
  | list (l : List (Option V))
  /-- a `pd.Series` labelled by snapshots -/
  | seriesT (idx : List Snap) (l : List (Option V))
  /-- a `pd.Series` labelled by component names -/
  | seriesN (idx : List Name) (l : List (Option V))
  /-- a `pd.DataFrame` -/
  | frame (f : Frame V)
  /-- a two-dimensional array, row by row -/
  | array (rows : List (List (Option V)))
  /-- a dictionary -/
  | dict

/-- A processed argument: static values per component or a series table. -/
inductive Proc (V : Type) where
  | static (f : Name → Option V)
  | series (f : Frame V)

/-- Pair labels with values; a label that is missing gets NaN. -/
def labelled {L : Type} [DecidableEq L] (idx : List L) (l : List (Option V)) (x : L) :
    Option V :=
  match Dict.get? (idx.zip l) x with
  | some v => v
  | none => none

/-- The renaming of index or column labels (`networks.py` 1250-1265).  Every string ends
with the empty suffix; that case is separated so that examples evaluate. -/
def castName (suffix : String) (s : Name) : Name :=
  if suffix = "" then s else if s.endsWith suffix then s else s ++ suffix

/-- One iteration of the keyword loop of `add` (`networks.py` 1242-1333). -/
def processArg (snaps : List Snap) (names : List Name) (suffix : String) (single : Bool) :
    Arg V → Except Err (Proc V)
  | .scalar v => .ok (.static (fun _ => v))
  | .list l =>
    if single then
      if l.length = snaps.length then
        .ok (.series { index := snaps, cols := names, val := fun s _ => labelled snaps l s })
      else .error .valueError
    else
      match l with
      | [v] => .ok (.static (fun _ => v))
      | l => if l.length = names.length then .ok (.static (labelled names l))
        else .error .valueError
  | .seriesT idx l =>
    if single then
      if idx = snaps ∧ l.length = idx.length then
        .ok (.series { index := snaps, cols := names, val := fun s _ => labelled snaps l s })
      else .error .valueError
    else .error .valueError
  | .seriesN idx l =>
    if single then .error .valueError
    else if idx.map (castName suffix) = names ∧ l.length = idx.length then
      match l with
      | [v] => .ok (.static (fun _ => v))
      | l => .ok (.static (labelled names l))
    else .error .valueError
  | .frame f =>
    if f.index = snaps ∧ f.cols.map (castName suffix) = names then
      if single then .error .valueError
      else .ok (.series { index := snaps, cols := names,
                          val := fun s x => match Dict.get? (names.zip f.cols) x with
                            | some y => f.val s y
                            | none => none })
    else .error .valueError
  | .array rows =>
    if rows.length = snaps.length ∧ rows.all (fun r => r.length = names.length) then
      if single then .error .valueError
      else .ok (.series { index := snaps, cols := names,
                          val := fun s x => match Dict.get? (snaps.zip rows) s with
                            | some r => labelled names r x
                            | none => none })
    else .error .valueError
  | .dict => .error .notImplemented

/-- The whole keyword loop (`networks.py` 1242-1333). -/
def processArgs (snaps : List Snap) (names : List Name) (suffix : String) (single : Bool) :
    List (Attr × Arg V) → Except Err (StaticArgs V × List (Attr × Frame V))
  | [] => .ok ([], [])
  | (k, a) :: r =>
    match processArg snaps names suffix single a with
    | .error e => .error e
    | .ok p =>
      match processArgs snaps names suffix single r with
      | .error e => .error e
      | .ok (st, se) =>
        match p with
        | .static f => .ok ((k, f) :: st, se)
        | .series f => .ok (st, (k, f) :: se)

/-- `Network.add` (`networks.py` 1125-1349).  `single` is `np.isscalar(name)`;
keyword names are distinct (Python enforces it).  All checks precede the first write,
so an error leaves the network as it was. -/
def add (sch : Schema V) (n : Network V) (c : Cls) (rawNames : List Name) (suffix : String)
    (single overwrite : Bool) (kwargs : List (Attr × Arg V)) : Except Err (Network V) :=
  let names := rawNames.map (· ++ suffix)
  if ¬ names.Nodup then .error .valueError
  else
    match processArgs n.snaps names suffix single kwargs with
    | .error e => .error e
    | .ok (static, series) =>
      let n1 := importComponents sch n c names static overwrite
      .ok (series.foldl (fun m kf => importSeries sch m c kf.1 kf.2 overwrite) n1)

/-! ## `Network.remove` (`networks.py` 1351-1389) -/

/-- `Network.remove`. -/
def remove (n : Network V) (c : Cls) (rawNames : List Name) (suffix : String) :
    Except Err (Network V) :=
  let names := rawNames.map (· ++ suffix)
  let x := n.comps c
  if ¬ (∀ y ∈ names, y ∈ x.names) then .error .keyError
  else .ok (n.setComp c
    { names := x.names.filter (fun y => y ∉ names)
      sval := x.sval
      dyn := mapDyn (fun _ f => f.dropCols names) x.dyn })

/-! ## Snapshots (`networks.py` 691-788) and periods (1025-1094) -/

/-- Whether an index is a MultiIndex. -/
def isMultiIndex (l : List Snap) : Bool := l.any Snap.isMulti

/-- The per-table step of `set_snapshots` (`networks.py` 769-786). -/
def reindexTable (sch : Schema V) (c : Cls) (new : List Snap) (k : Attr) (f : Frame V) :
    Frame V :=
  if f.cols.isEmpty || f.index.isEmpty then { f with index := new }
  else
    match sch.vary? c k with
    | some a =>
      if isMultiIndex f.index then f.reindexRows new a.dflt
      else f.reindexRowsLevel new a.dflt
    | none => f.reindexRows new none

/-- `Network.set_snapshots` (`networks.py` 691-788), without
`weightings_from_timedelta`.  The new snapshots are stored before the emptiness check
(732-743), so the error case returns a changed network. -/
def setSnapshots (sch : Schema V) (n : Network V) (new : List Snap) (dfltWeight : V) :
    Network V × Option Err :=
  let n1 := { n with snaps := new }
  if new.isEmpty then (n1, some .valueError)
  else
    ({ n1 with
        w := { index := new,
               val := fun s k => if s ∈ n.w.index then n.w.val s k else some dfltWeight }
        comps := fun c =>
          { n.comps c with dyn := mapDyn (reindexTable sch c new) (n.comps c).dyn } }, none)

/-- The period level of a label. -/
def Snap.period? : Snap → Option Int
  | .multi p _ => some p
  | .flat _ => none

/-- `n.periods` / `n.investment_periods` (`networks.py` 877-962). -/
def periodsOf (l : List Snap) : List Int :=
  (l.filterMap Snap.period?).eraseDups

/-- The (period, timestep) label made from a period and a timestep label. -/
def Snap.withPeriod (p : Int) : Snap → Snap
  | .flat t => .multi p t
  | .multi _ t => .multi p t

/-- `pd.MultiIndex.from_product([periods, snapshots])`. -/
def productIndex (ps : List Int) (l : List Snap) : List Snap :=
  ps.flatMap (fun p => l.map (Snap.withPeriod p))

/-- The timestep label of a snapshot as a single-index label. -/
def Snap.flatten : Snap → Snap
  | .flat t => .flat t
  | .multi _ t => .flat t

/-- `pd.concat({p: df for p in periods})` for a single-index table. -/
def repeatFrame (ps : List Int) (f : Frame V) : Frame V :=
  { index := productIndex ps f.index
    cols := f.cols
    val := fun s x => f.val s.flatten x }

/-- Strictly increasing (`is_unique and is_monotonic_increasing`). -/
def strictlyIncreasing (ps : List Int) : Bool := decide (ps.Pairwise (· < ·))

/-- `Network.set_investment_periods` (`networks.py` 1025-1094); `integral` is
`is_integer_dtype(periods_)`. -/
def setInvestmentPeriods (sch : Schema V) (n : Network V) (ps : List Int)
    (integral : Bool) : Except Err (Network V) :=
  if ps.isEmpty then .ok n
  else if !(integral && strictlyIncreasing ps) then .error .valueError
  else
    let finish := fun (m : Network V) =>
      { m with pw := { index := periodsOf m.snaps,
                       val := fun p k => if p ∈ m.pw.index then m.pw.val p k
                         else some sch.one } }
    if isMultiIndex n.snaps then
      if !(ps.all (fun p => p ∈ periodsOf n.snaps)) then .error .valueError
      else if ps.length < (periodsOf n.snaps).length then .error .notImplemented
      else .ok (finish n)
    else
      .ok (finish
        { n with
          snaps := productIndex ps n.snaps
          w := { index := productIndex ps n.w.index
                 val := fun s k => n.w.val s.flatten k }
          comps := fun c =>
            { n.comps c with dyn := mapDyn (fun _ f => repeatFrame ps f) (n.comps c).dyn } })

/-! ## Initial network and histories -/

/-- A table without columns. -/
def emptyFrame (index : List Snap) : Frame V :=
  { index := index, cols := [], val := fun _ _ => none }

/-- A fresh `Network()` (`networks.py` 300-330 and `_build_dataframes`): snapshot
"now", empty tables for every varying attribute. -/
def init (sch : Schema V) : Network V where
  snaps := [.flat "now"]
  w := { index := [.flat "now"], val := fun _ _ => some sch.one }
  pw := { index := [], val := fun _ _ => none }
  comps := fun c =>
    { names := []
      sval := fun _ _ => none
      dyn := ((sch.attrs c).filter (·.varying)).map
        (fun a => (a.name, emptyFrame [.flat "now"])) }

/-- A call on the network. -/
inductive Op (V : Type) where
  | add (c : Cls) (names : List Name) (suffix : String) (single overwrite : Bool)
      (kwargs : List (Attr × Arg V))
  | remove (c : Cls) (names : List Name) (suffix : String)
  | setSnapshots (new : List Snap) (dfltWeight : V)
  | setInvestmentPeriods (ps : List Int) (integral : Bool)

/-- Effect of one call; an exception leaves what the call had already changed. -/
def step (sch : Schema V) (n : Network V) : Op V → Network V × Option Err
  | .add c names suffix single ow kw =>
    match add sch n c names suffix single ow kw with
    | .ok m => (m, none)
    | .error e => (n, some e)
  | .remove c names suffix =>
    match remove n c names suffix with
    | .ok m => (m, none)
    | .error e => (n, some e)
  | .setSnapshots new d => setSnapshots sch n new d
  | .setInvestmentPeriods ps i =>
    match setInvestmentPeriods sch n ps i with
    | .ok m => (m, none)
    | .error e => (n, some e)

/-- The network after a history of calls (exceptions caught by the caller). -/
def runOps (sch : Schema V) (n : Network V) (ops : List (Op V)) : Network V :=
  ops.foldl (fun m o => (step sch m o).1) n

/-! ## Reading values -/

/-- `get_switchable_as_dense(n, c, k, snapshots, inds)` (`descriptors.py` 31-83): the
columns of the result and its cells; `KeyError` when a requested snapshot is not in the
network (`as_index`, `common.py` 117-177, raises `ValueError`). -/
def asDense (n : Network V) (c : Cls) (k : Attr) (sns : List Snap)
    (inds : Option (List Name)) : Except Err (Frame V) :=
  if ¬ (∀ s ∈ sns, s ∈ n.snaps) then .error .valueError
  else
    let x := n.comps c
    let index : List Name := match inds with
      | none => x.names
      | some l => x.names.filter (fun y => y ∈ l)
    let dynCols : List Name := match Dict.get? x.dyn k with
      | some f => f.cols
      | none => []
    let diff : List Name := index.filter (fun y => y ∉ dynCols)
    .ok { index := sns
          cols := index
          val := fun (s : Snap) (y : Name) =>
            if y ∈ diff then x.sval y k
            else match Dict.get? x.dyn k with
              | some f => f.val s y
              | none => none }

/-- One row of `get_switchable_as_iter` (`descriptors.py` 87-156): the labels with
their values, or the `KeyError` of `dynamic[attr].loc[sn, ...]` for an unknown snapshot.
`Index.difference` sorts; `Index.intersection` keeps the order of its receiver.
`Series.append` (removed in pandas 2) is modelled as concatenation. -/
def asIterRow (n : Network V) (c : Cls) (k : Attr) (s : Snap) (inds : Option (List Name)) :
    Except Err (List (Name × Option V)) :=
  let x := n.comps c
  let dynCols : List Name := match Dict.get? x.dyn k with
    | some f => f.cols
    | none => []
  let fixed0 : List Name := (x.names.filter (fun y => y ∉ dynCols)).mergeSort (· ≤ ·)
  let sel := fun (l0 : List Name) => match inds with
    | none => l0
    | some l => l.filter (fun y => y ∈ l0)
  let index := sel x.names
  let varying := sel dynCols
  let fixed := sel fixed0
  let fixedVals := fixed.map (fun y => (y, x.sval y k))
  if varying.isEmpty then .ok fixedVals
  else
    match Dict.get? x.dyn k with
    | none => .error .keyError
    | some f =>
      if s ∉ f.index then .error .keyError
      else
        let row := fixedVals ++ varying.map (fun y => (y, f.val s y))
        if fixed ++ varying = index then .ok row
        else .ok (index.map (fun y => (y, (Dict.get? row y).getD none)))

end Verif.Network
