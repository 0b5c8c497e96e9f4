import Mathlib.Algebra.Order.Field.Basic
import Mathlib.Data.List.Dedup
import Mathlib.Data.String.Basic

/-!
# Model of interactive maps, and of the branches of static ones

`iplot` and `explore` (`plot/maps/interactive.py` 51-606), `as_branch_series` and `apply_layouter` (`plot/maps/common.py` 13-117), and from
`plot/maps/static.py` `set_layout` (213-242), `plot` (1358-1367), `_dataframe_from_arguments` (569-573), `get_branch_collection` and `_get_branch_collection_lines` (614-690).

A missing number is `none`, a raised exception `none` of a result. The functions of networkx are the parameter `Nx`. A figure holds what is handed to
plotly. Not modelled: titles, sizes, opacities, colour scales, jitter, what plotly and folium draw; what a call has changed before it raises is
modelled for the dictionary of view parameters only.
-/

namespace Verif.Plot.Interactive

abbrev Name := String

structure Branch where
  name : Name
  bus0 : Name
  bus1 : Name
  deriving DecidableEq

/-- Buses with `x` and `y`, and the branches of a class. -/
structure MapNet (F : Type) where
  buses : List (Name × Option F × Option F)
  branches : Name → List Branch

/-! ## Arguments -/

/-- One value for all, or a Series (or dict) of values. -/
inductive Arg (A : Type) where
  | one (a : A)
  | each (l : List (Name × Option A))

/-- `as_branch_series` (`common.py` 13-21): labels twice cannot be reindexed, missing values raise. -/
def branchSeries {A : Type} (index : List Name) : Arg A → Option (List (Name × A))
  | .one a => some (index.map (fun i => (i, a)))
  | .each l => if (l.map (·.1)).Nodup then index.mapM (fun i => ((l.lookup i).getD none).map (fun a => (i, a))) else none

/-! ## Positions -/

/-- What `n.graph()` hands over. -/
structure Graph where
  nodes : List Name
  edges : List Branch
  deriving DecidableEq

def graph {F : Type} (n : MapNet F) : Graph := ⟨n.buses.map (·.1), n.branches "Line" ++ n.branches "Link" ++ n.branches "Transformer"⟩

/-- Positions as a table. -/
abbrev Table (F : Type) := List (Name × F × F)

/-- networkx. -/
structure Nx (F : Type) where
  planar : Graph → Bool
  planarLayout : Graph → Table F
  kamadaKawai : Graph → Table F

/-- `apply_layouter(n, layouter, inplace=False)` (`common.py` 101-117). -/
def applyLayouter {F : Type} (nx : Nx F) (n : MapNet F) (layouter : Option (Graph → Table F)) : Table F :=
  (match layouter with
    | some f => f
    | none => if nx.planar (graph n) then nx.planarLayout else nx.kamadaKawai) (graph n)

/-! ## `iplot` -/

/-- A line on the map (248-258). -/
structure Shape (F C : Type) where
  x0 : Option F
  y0 : Option F
  x1 : Option F
  y1 : Option F
  color : C
  width : F
  deriving DecidableEq

/-- `c.static.bus0.map(x)`. -/
def xOf {F : Type} (pos : Table F) (b : Name) : Option F := (pos.lookup b).map (·.1)
def yOf {F : Type} (pos : Table F) (b : Name) : Option F := (pos.lookup b).map (·.2)

variable {F : Type} [Field F] [LinearOrder F] {C : Type}

/-- One pass of the loop over classes (234-258). -/
def classShapes (pos : Table F) (colors : Arg C) (widths : Arg F) (bs : List Branch) : Option (List (Shape F C)) :=
  match branchSeries (bs.map (·.name)) widths, branchSeries (bs.map (·.name)) colors with
  | some ws, some cs => bs.mapM (fun b => match cs.lookup b.name, ws.lookup b.name with
    | some c, some w => some ⟨xOf pos b.bus0, yOf pos b.bus0, xOf pos b.bus1, yOf pos b.bus1, c, w⟩
    | _, _ => none)
  | _, _ => none

/-- The trace of the labels at the middle of branches (260-270). -/
def middles (pos : Table F) (bs : List Branch) : List (Option (F × F)) :=
  bs.map (fun b => match pos.lookup b.bus0, pos.lookup b.bus1 with
    | some p, some q => some (1 / 2 * (p.1 + q.1), 1 / 2 * (p.2 + q.2))
    | _, _ => none)

/-- `n.iterate_components(branch_components)` leaves empty classes out (`networks.py` 1786-1790). -/
def shown (n : MapNet F) (classes : List Name) : List Name := classes.filter (fun c => !(n.branches c).isEmpty)

/-- `styles` has no entry for classes other than lines, links and transformers, which is a `KeyError` (235-236). -/
def drawClass (n : MapNet F) (pos : Table F) (styles : Name → Option (Arg C × Arg F)) (c : Name) : Option (List (Shape F C)) :=
  match styles c with
  | some (col, wid) => classShapes pos col wid (n.branches c)
  | none => none

/-- The loop (234-270). -/
def drawBranches (n : MapNet F) (pos : Table F) (styles : Name → Option (Arg C × Arg F)) (classes : List Name) : Option (List (Shape F C)) :=
  ((shown n classes).mapM (drawClass n pos styles)).map List.flatten

/-- Markers of buses (177-186): plotly takes positions, texts and colours one after the other. -/
def markers {T : Type} (pos : Table F) (texts : List T) : List ((F × F) × Option T) := pos.zipIdx.map (fun p => (p.1.2, texts[p.2]?))

inductive Trace (F C T : Type) where
  | markers (l : List ((F × F) × Option T))
  | middles (l : List (Option (F × F)))
  | line (s : Shape F C)

/-- The dictionary `mapbox_parameters`. -/
structure Params (F : Type) where
  style : Option Name
  token : Option Name
  center : Option (Option F × Option F)
  zoom : Option F
  deriving DecidableEq

/-- `{}`. -/
def Params.none : Params F := ⟨.none, .none, .none, .none⟩

/-- `fig["layout"]["mapbox"]`: a dictionary of the caller, or the default of the argument, which is one dictionary for all calls (78). -/
inductive View (F : Type) where
  | own (p : Params F)
  | default

structure Fig (F C T : Type) where
  data : List (Trace F C T)
  shapes : Option (List (Shape F C))
  view : Option (View F)

/-- `_token_required_mb_styles` (30-38). -/
def tokenStyles : List Name := ["basic", "streets", "outdoors", "light", "dark", "satellite", "satellite-streets"]

/-- `(n.buses.x.min() + n.buses.x.max()) / 2`. -/
def middle (l : List (Option F)) : Option F :=
  match (l.filterMap id).min?, (l.filterMap id).max? with
  | some a, some b => some ((a + b) / 2)
  | _, _ => .none

def center (n : MapNet F) : Option F × Option F := (middle (n.buses.map (·.2.1)), middle (n.buses.map (·.2.2)))

/-- Lines 303-326: whether the call goes on, and the dictionary afterwards. -/
def fillView (p : Params F) (token style : Name) (c : Option F × Option F) : Bool × Params F :=
  let p1 := if token ≠ "" then { p with token := some token } else p
  let p2 := { p1 with style := some (p1.style.getD style) }
  if tokenStyles.contains (p1.style.getD style) && p1.token.isNone then (false, p2)
  else (true, { p2 with center := some (p2.center.getD c), zoom := some (p2.zoom.getD 2) })

/-- The arguments of a call. -/
structure Call (F C T : Type) where
  net : MapNet F
  fig : Option (Fig F C T)
  layouter : Option (Graph → Table F)
  texts : List T
  styles : Name → Option (Arg C × Arg F)
  classes : List Name
  mapbox : Bool
  mapboxStyle : Name
  mapboxToken : Name
  mapboxParameters : Option (Params F)

variable {T : Type}

/-- `iplot` (164-336) with the default dictionary before and after the call. -/
def iplot (nx : Nx F) (dflt : Params F) (a : Call F C T) : Option (Fig F C T) × Params F :=
  let fig := a.fig.getD ⟨[], .none, .none⟩
  let pos := applyLayouter nx a.net a.layouter
  match drawBranches a.net pos a.styles a.classes with
  | .none => (.none, dflt)
  | some shapes =>
    let bus := Trace.markers (markers pos a.texts)
    let mids := (shown a.net a.classes).map (fun c => Trace.middles (middles pos (a.net.branches c)))
    if a.mapbox then
      let data := fig.data ++ shapes.map .line ++ mids ++ [bus]
      match a.mapboxParameters with
      | some p => match fillView p a.mapboxToken a.mapboxStyle (center a.net) with
        | (true, q) => (some ⟨data, fig.shapes, some (.own q)⟩, dflt)
        | (false, _) => (.none, dflt)
      | .none => match fillView dflt a.mapboxToken a.mapboxStyle (center a.net) with
        | (true, q) => (some ⟨data, fig.shapes, some .default⟩, q)
        | (false, q) => (.none, q)
    else (some ⟨fig.data ++ [bus] ++ mids, some shapes, fig.view⟩, dflt)

/-- The default dictionary after calls. -/
def after (nx : Nx F) (d : Params F) (calls : List (Call F C T)) : Params F := calls.foldl (fun d a => (iplot nx d a).2) d

/-- What a figure shows while the default dictionary is `d`. -/
def View.seen (d : Params F) : View F → Params F
  | .own p => p
  | .default => d

/-! ## Static maps -/

/-- Positions of a static map: `set_layout` (232-241), called without an argument by the properties `x` and `y` (127-143), so that the function handed to
`plot` (1361-1363) is asked only whether it is there. -/
def staticPlaces (nx : Nx F) (n : MapNet F) (layouter : Option (Graph → Table F)) : List (Name × Option F × Option F) :=
  if layouter.isSome || n.buses.all (fun b => (b.2.1.getD 0 = 0) && (b.2.2.getD 0 = 0)) then (applyLayouter nx n .none).map (fun e => (e.1, some e.2.1, some e.2.2))
  else n.buses

/-- The argument `geometry`: false, true (as documented), or a Series (as annotated). -/
inductive Geometry where
  | off
  | on
  | series
  deriving DecidableEq

/-- Labels of a Series. -/
def Arg.labels {A : Type} : Arg A → Option (List Name)
  | .one _ => .none
  | .each l => some (l.map (·.1))

/-- A cell of the column. -/
def Arg.cell {A : Type} (a : Arg A) (i : Name) : Option A :=
  match a with
  | .one x => some x
  | .each l => (l.lookup i).getD .none

/-- `_dataframe_from_arguments` (569-573), the index: that of the class, or if there is a Series the union of the labels of all of them (sorted, if they
differ; the order plays no role below). -/
def rowsOf (index : List Name) (args : List (Option (List Name))) : List Name :=
  match args.filterMap id with
  | [] => index
  | ls => ls.flatten.dedup

/-- A segment of the `LineCollection`. -/
structure Segment (F C : Type) where
  branch : Name
  start : Option (F × F)
  stop : Option (F × F)
  color : Option C
  width : Option F

/-- A row of the table of `draw_map` (1264-1273); a label that is no branch is a `KeyError`. -/
def lineRow (pos : Table F) (bs : List Branch) (widths : Arg F) (colors : Arg C) (i : Name) : Option (Segment F C) :=
  match bs.find? (fun b => b.name = i) with
  | some b => some ⟨i, pos.lookup b.bus0, pos.lookup b.bus1, colors.cell i, widths.cell i⟩
  | .none => .none

/-- `_get_branch_collection_lines` (650-690). `True[...]` is a `TypeError`, and a Series has no truth value. -/
def staticLines (pos : Table F) (bs : List Branch) (widths : Arg F) (colors : Arg C) (geometry : Geometry) : Option (List (Segment F C)) :=
  match geometry with
  | .off => (rowsOf (bs.map (·.name)) [widths.labels, colors.labels]).mapM (lineRow pos bs widths colors)
  | .on => .none
  | .series => .none

/-! ## `explore` -/

/-- `crs` (382-385); 4326 is `DEFAULT_EPSG`. -/
def exploreCrs (netCrs given : Option Nat) : Nat :=
  match netCrs, given with
  | some c, .none => c
  | _, _ => 4326

/-- A layer of branches: its reference system and what it shows. -/
structure Layer (F : Type) where
  component : Name
  crs : Nat
  items : List (Name × (F × F) × (F × F))

/-- `n.buses.x` and `n.buses.y` at a bus, if both are there. -/
def place (n : MapNet F) (b : Name) : Option (F × F) :=
  match n.buses.lookup b with
  | some (some x, some y) => some (x, y)
  | _ => .none

/-- Rows with all four coordinates (426-445), of these the valid ones (447). -/
def exploreRows (n : MapNet F) (valid : F × F → F × F → Bool) (bs : List Branch) : List (Name × (F × F) × (F × F)) :=
  bs.filterMap (fun b => match place n b.bus0, place n b.bus1 with
    | some p, some q => if valid p q then some (b.name, p, q) else .none
    | _, _ => .none)

/-- Layers of branches, in their order (425-514); links are placed with the default system (509). -/
def exploreBranches (n : MapNet F) (valid : F × F → F × F → Bool) (netCrs given : Option Nat) (components : List Name) : List (Layer F) :=
  [("Transformer", exploreCrs netCrs given), ("Line", exploreCrs netCrs given), ("Link", 4326)].filterMap (fun e =>
    if !(n.branches e.1).isEmpty && components.contains e.1 then some ⟨e.1, e.2, exploreRows n valid (n.branches e.1)⟩ else .none)

end Verif.Plot.Interactive
