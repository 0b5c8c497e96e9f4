import Verif.Network.Model

/-!
# Copying, slicing, merging and renaming

Model of `Network.copy` (`networks.py` 1466-1588), `Network.__getitem__` (1590-1675),
`io.merge` (`io.py` 1591-1670) and `Components.rename_component_names`
(`components/abstract.py` 670-729).

Simplifications: the built-in standard line and transformer types are not added to a
fresh network (so their class is treated like any other); `name`, `srid`, `meta` and other
scalar attributes of the network object are not modelled.
-/

namespace Verif.Network

variable {V : Type}

/-- The columns of each static table, and the classes. -/
structure Layout where
  classes : List Cls
  cols : Cls → List Attr

/-- The keyword arguments `**static` made from the rows `names` of a static table:
one `pd.Series` labelled by component name per column. -/
def staticKwargs (x : Comp V) (names : List Name) (cols : List Attr) : List (Attr × Arg V) :=
  cols.map (fun k => (k, .seriesN names (names.map (fun y => x.sval y k))))

/-- `n.add(c, static.index, **static)` for each of the given classes in turn, where
`static` is the table of `src` restricted to `sel c`. -/
def addStatics (sch : Schema V) (cols : Cls → List Attr) (src : Network V)
    (sel : Cls → Name → Bool) : List Cls → Network V → Except Err (Network V)
  | [], n => .ok n
  | c :: cs, n =>
    let names := (src.comps c).names.filter (sel c)
    -- `iterate_components` skips empty tables; adding nothing changes nothing
    match add sch n c names "" false false (staticKwargs (src.comps c) names (cols c)) with
    | .error e => .error e
    | .ok n' => addStatics sch cols src sel cs n'

/-- `dynamic[k].loc[snaps, names ∩ columns]`. -/
def Frame.restrict (f : Frame V) (snaps : List Snap) (names : List Name) : Frame V :=
  { index := snaps, cols := f.cols.filter (fun y => y ∈ names), val := f.val }

/-- Overwrite the tables of `dst` with those of `src` restricted to the given rows and
the component names of `dst` (`networks.py` 1556-1564 and 1654-1666). -/
def copyDyn (snaps : List Snap) (src dst : Comp V) : Comp V :=
  let write := fun (d : Dict Attr (Frame V)) (e : Attr × Frame V) =>
    Dict.set d e.1 (e.2.restrict snaps dst.names)
  { dst with dyn := src.dyn.foldl write dst.dyn }

/-- `Network.copy(snapshots=S)` (`networks.py` 1516-1588) on the path that does not use
`deepcopy`.  The component order of the real loop is `Bus`, `Carrier`, rest. -/
def copySnapshots (sch : Schema V) (lay : Layout) (n : Network V) (sns : List Snap)
    (periods : List Int) : Except Err (Network V) :=
  -- as_index (1519)
  if ¬ (∀ s ∈ sns, s ∈ n.snaps) then .error .valueError
  else
    match addStatics sch lay.cols n (fun _ _ => true) lay.classes (init sch) with
    | .error e => .error e
    | .ok m =>
      if sns.isEmpty then .ok m
      else
        let m1 := (setSnapshots sch m sns sch.one).1
        let m2 := { m1 with comps := fun c =>
          if c ∈ lay.classes then copyDyn sns (n.comps c) (m1.comps c) else m1.comps c }
        match (if periods.isEmpty then .ok m2 else setInvestmentPeriods sch m2 periods true) with
        | .error e => .error e
        | .ok m3 =>
          -- 1572-1575
          if ¬ (∀ p ∈ periods, p ∈ n.pw.index) then .error .keyError
          else .ok { m3 with
            w := { index := sns, val := n.w.val }
            pw := { index := periods, val := n.pw.val } }

/-- `Network.copy` (`networks.py` 1466-1588) with only `snapshots` given:
`None` gives `copy.deepcopy(self)`; the periods default to all of the network's. -/
def copy (sch : Schema V) (lay : Layout) (n : Network V) : Option (List Snap) →
    Except Err (Network V)
  | none => .ok n
  | some sns => copySnapshots sch lay n sns (periodsOf n.snaps)

/-! ## `merge` -/

/-- Weighting columns compared by `merge`. -/
def weightCols : List String := ["objective", "stores", "generators"]

/-- `n.snapshot_weightings.equals(other.snapshot_weightings)` (up to column order). -/
def sameWeights [DecidableEq V] (a b : Network V) : Bool :=
  a.w.index = b.w.index && a.w.index.all (fun s =>
    weightCols.all (fun k => a.w.val s k = b.w.val s k))

/-- One class of the final loop of `merge` (`io.py` 1664-1668). -/
def mergeClass (sch : Schema V) (cols : Cls → List Attr) (other : Network V) (c : Cls)
    (n : Network V) : Except Err (Network V) :=
  let x := other.comps c
  match add sch n c x.names "" false false (staticKwargs x x.names (cols c)) with
  | .error e => .error e
  | .ok n' => .ok (x.dyn.foldl (fun m e => importSeries sch m c e.1 e.2 false) n')

/-- The final loop of `merge`. -/
def mergeLoop (sch : Schema V) (cols : Cls → List Attr) (other : Network V) :
    List Cls → Network V → Except Err (Network V)
  | [], n => .ok n
  | c :: cs, n =>
    match mergeClass sch cols other c n with
    | .error e => .error e
    | .ok n' => mergeLoop sch cols other cs n'

/-- The classes `merge` iterates over (`io.py` 1628-1633): `Bus` first, whatever the
skip list says. -/
def mergeClasses (lay : Layout) (skip : List Cls) : List Cls :=
  "Bus" :: lay.classes.filter (fun c => c ∉ skip ∧ c ≠ "Bus")

/-- `merge(n, other, components_to_skip=skip)` with `with_time=True`
(`io.py` 1591-1670). -/
def merge [DecidableEq V] (sch : Schema V) (lay : Layout) (n other : Network V)
    (skip : List Cls) : Except Err (Network V) :=
  let cs := mergeClasses lay skip
  if cs.any (fun c => (other.comps c).names.any (fun x => x ∈ (n.comps c).names)) then
    .error .valueError
  else if n.snaps ≠ other.snaps then .error .valueError
  else if !(sameWeights n other) then .error .valueError
  else mergeLoop sch lay.cols other cs n

/-! ## Slicing and renaming need to look into values -/

/-- Cell values: strings (references, carriers, ...) and numbers. -/
inductive Val where
  | str (s : String)
  | num (q : Rat)
deriving DecidableEq, Repr

/-- Kinds of classes (`networks.py`: `one_port_components`, `branch_components`). -/
structure Kinds extends Layout where
  onePort : List Cls
  branch : List Cls

/-- `df[col].isin(buses)` for one row. -/
def isinBuses (buses : List Name) : Option Val → Bool
  | some (.str b) => b ∈ buses
  | _ => false

/-- Which rows of a class a slice keeps (`networks.py` 1627-1652). -/
def sliceSel (kd : Kinds) (n : Network Val) (buses : List Name) (c : Cls) (x : Name) : Bool :=
  if c = "Bus" then x ∈ buses
  else if c = "SubNetwork" then false
  else if c ∈ kd.onePort then isinBuses buses ((n.comps c).sval x "bus")
  else if c ∈ kd.branch then
    isinBuses buses ((n.comps c).sval x "bus0") && isinBuses buses ((n.comps c).sval x "bus1")
  else true

/-- `n[times, buses]` (`networks.py` 1590-1675); `keep` is the boolean mask over
snapshots.  The `sub_network` column of the buses is blanked by the code; the model
leaves that column out of `cols "Bus"`. -/
def slice (sch : Schema Val) (kd : Kinds) (n : Network Val) (buses : List Name)
    (keep : Snap → Bool) : Except Err (Network Val) :=
  if ¬ (∀ b ∈ buses, b ∈ (n.comps "Bus").names) then .error .keyError
  else
    match addStatics sch kd.cols n (sliceSel kd n buses) kd.classes (init sch) with
    | .error e => .error e
    | .ok m =>
      let sns := n.snaps.filter keep
      match setSnapshots sch m sns sch.one with
      | (_, some e) => .error e
      | (m1, none) =>
        .ok { m1 with
          comps := fun c =>
            if c ∈ kd.classes then copyDyn sns (n.comps c) (m1.comps c) else m1.comps c
          w := { index := sns, val := n.w.val } }

/-! ## Renaming -/

/-- `kwargs.get(x, x)`. -/
def renamed (kw : Dict Name Name) (x : Name) : Name := (Dict.get? kw x).getD x

/-- `df.rename(index=kwargs)`: the row labelled `y` afterwards is the first row whose
label is mapped to `y`. -/
def renameComp (kw : Dict Name Name) (x : Comp V) : Comp V :=
  { names := x.names.map (renamed kw)
    sval := fun y k => match x.names.find? (fun z => renamed kw z = y) with
      | some z => x.sval z k
      | none => none
    dyn := mapDyn (fun _ f =>
      { f with
        cols := f.cols.map (renamed kw)
        val := fun s y => match f.cols.find? (fun z => renamed kw z = y) with
          | some z => f.val s z
          | none => none }) x.dyn }

/-- The ports of a class: what follows `bus` in the names of its columns
(`components/abstract.py` 619-635). -/
def portsOf (cols : List Attr) : List String :=
  cols.filterMap (fun k =>
    if ['b', 'u', 's'].isPrefixOf k.toList then some (String.ofList (k.toList.drop 3)) else none)

/-- `df.replace(kwargs)` on one cell. -/
def replaceVal (kw : Dict Name Name) : Option Val → Option Val
  | some (.str s) => some (.str (renamed kw s))
  | v => v

/-- `c.static[cols] = c.static[cols].replace(kwargs)`. -/
def replaceRefs (kw : Dict Name Name) (cols : List Attr) (x : Comp Val) : Comp Val :=
  { x with sval := fun y k => if k ∈ cols then replaceVal kw (x.sval y k) else x.sval y k }

/-- The loop over all classes (`components/abstract.py` 722-729).  A missing column
raises `KeyError`; the classes treated before keep their changes. -/
def renameRefs (cols : Cls → List Attr) (colName : String) (kw : Dict Name Name) :
    List Cls → Network Val → Network Val × Option Err
  | [], n => (n, none)
  | c :: cs, n =>
    let want := (portsOf (cols c)).map (fun p => colName ++ p)
    if want.isEmpty || (n.comps c).names.isEmpty then renameRefs cols colName kw cs n
    else if ¬ (∀ k ∈ want, k ∈ cols c) then (n, some .keyError)
    else renameRefs cols colName kw cs (n.setComp c (replaceRefs kw want (n.comps c)))

/-- `n.components[c].rename_component_names(**kw)`; `lower` is `self.name.lower()`. -/
def renameComponentNames (lay : Layout) (lower : Cls → String) (n : Network Val) (c : Cls)
    (kw : Dict Name Name) : Network Val × Option Err :=
  renameRefs lay.cols (lower c) kw lay.classes (n.setComp c (renameComp kw (n.comps c)))

end Verif.Network
