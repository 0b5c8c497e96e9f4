import Mathlib.Algebra.Order.Field.Basic
import Mathlib.Algebra.BigOperators.Group.List.Basic
import Mathlib.Data.List.Dedup
import Mathlib.Data.String.Basic
import Mathlib.Data.Rat.Init
import Mathlib.Tactic.NormNum

/-!
# Model of the symbols on a map

`MapPlotter` in `plot/maps/static.py`: pies and circles for buses (468-567), arrows for flows (748-845),
rectangles for branches (692-745), the flow between two buses (886-921), the scaling of areas
(847-884) and the arguments for flows of `draw_map` (1134-1154).  What matplotlib draws is described by the
arguments of its patches; the square root is the parameter `root`.  Positions are those after `x_trans`,
`y_trans`.
-/

namespace Verif.Plot

abbrev Name := String

variable {F : Type} [Field F] [LinearOrder F]

/-! ## Pies -/

/-- `Wedge(centre, r, theta1, theta2, facecolor=colors[i])`, angles in degrees. -/
structure Wedge (F : Type) where
  bus : Name
  key : Name
  radius : F
  theta1 : F
  theta2 : F

/-- The inner loop (517-528). -/
def sectors (bus : Name) (radius scope : F) : F → List (Name × F) → List (Wedge F)
  | _, [] => []
  | start, (i, ratio) :: rest =>
    ⟨bus, i, radius, scope * start, scope * (start + ratio)⟩ ::
      sectors bus radius scope (start + ratio) rest

/-- One pass of the loop over halves (514-528). -/
def pie (root : F → F) (bus : Name) (scope start : F) (s : List (Name × F)) : List (Wedge F) :=
  let total := (s.map (·.2)).sum
  let radius := root |total|
  if radius = 0 then sectors bus radius scope start (s.map (fun e => (e.1, |e.2|)))
  else sectors bus radius scope start (s.map (fun e => (e.1, e.2 / total)))

/-- `s_base[s_base > 0]`; a missing value is not greater than zero. -/
def above (s : List (Name × Option F)) : List (Name × F) :=
  s.filterMap (fun e => match e.2 with
    | some x => if 0 < x then some (e.1, x) else none
    | none => none)

/-- `s_base[s_base < 0]`. -/
def below (s : List (Name × Option F)) : List (Name × F) :=
  s.filterMap (fun e => match e.2 with
    | some x => if x < 0 then some (e.1, x) else none
    | none => none)

/-- `s_base * 2` (503). -/
def doubled (s : List (Name × Option F)) : List (Name × Option F) := s.map (fun e => (e.1, e.2.map (· * 2)))

/-- One pass of the loop over buses (498-528). -/
def busPies (root : F → F) (split : Bool) (bus : Name) (s : List (Name × Option F)) : List (Wedge F) :=
  if split then pie root bus 180 0 (above (doubled s)) ++ pie root bus 180 1 (below (doubled s))
  else pie root bus 360 (1 / 4) (above s)

/-- `index.unique(level=0)`: first occurrences. -/
def distinct {α : Type} [DecidableEq α] (l : List α) : List α := l.reverse.dedup.reverse

/-- `get_multiindex_buses` (468-530). -/
def pies (root : F → F) (split : Bool) (sizes : List (Name × Name × Option F)) : List (Wedge F) :=
  (distinct (sizes.map (·.1))).flatMap (fun b =>
    busPies root split b ((sizes.filter (fun e => e.1 = b)).map (·.2)))

/-- `Circle(centre, r)`. -/
structure Circle (F : Type) where
  bus : Name
  radius : F

/-- `get_singleindex_buses` (532-567); a negative size has no root (NaN), written `none`. -/
def circles (root : F → F) (sizes : List (Name × Option F)) : List (Name × Option (Circle F)) :=
  sizes.filterMap (fun e => match e.2 with
    | none => none
    | some x => if x = 0 then none
      else if x < 0 then some (e.1, none) else some (e.1, some ⟨e.1, root x⟩))

/-! ## Arrows -/

/-- A branch with the positions of its buses and its flow. -/
structure FlowRow (F : Type) where
  x1 : F
  y1 : F
  x2 : F
  y2 : F
  flow : F

/-- `FancyArrow(x, y, dx, dy, head_width)`. -/
structure Arrow (F : Type) where
  x : F
  y : F
  dx : F
  dy : F
  head : F
  deriving DecidableEq

/-- `arrowsize` (762, 772). -/
def arrowSize (root : F → F) (areaFactor : F) (r : FlowRow F) : F :=
  max (root |r.flow|) (1 / 100000000) * areaFactor

/-- `linelength` (764-768). -/
def lineLength (root : F → F) (r : FlowRow F) : F :=
  root ((r.x1 - r.x2) ^ 2 + (r.y1 - r.y2) ^ 2)

/-- Coordinates swapped for negative directions (775-777). -/
def swapped (r : FlowRow F) : FlowRow F :=
  if r.flow < 0 then ⟨r.x2, r.y2, r.x1, r.y1, r.flow⟩ else r

/-- The arrow of a branch (778-801); none if both buses are at the same place. -/
def arrowOf (root : F → F) (areaFactor : F) (r : FlowRow F) : Option (Arrow F) :=
  let size := arrowSize root areaFactor r
  let len := lineLength root r
  let s := swapped r
  if 0 < len then
    if 3 / 2 * size > len then
      some ⟨s.x1, s.y1, 1 / 1000 * (s.x2 - s.x1), 1 / 1000 * (s.y2 - s.y1), size⟩
    else
      some ⟨s.x1, s.y1, 3 / 5 * (s.x2 - s.x1) - size * (3 / 4) * (s.x2 - s.x1) / len,
        3 / 5 * (s.y2 - s.y1) - size * (3 / 4) * (s.y2 - s.y1) / len, size⟩
  else none

/-- `data.dropna(subset=["arrows"])` and the collection (801-808): matplotlib takes the colours of the
patches in turn from the list it was given, which has one colour for each branch, with or without an
arrow. -/
def coloured {C : Type} (root : F → F) (areaFactor : F) (rows : List (FlowRow F)) (colors : List C) :
    List (Arrow F × Option C) :=
  (rows.filterMap (arrowOf root areaFactor)).zipIdx.map (fun a => (a.1, colors[a.2 % colors.length]?))

/-! ## Rectangles for branches -/

/-- The corners (715-737); none for a branch of length zero. -/
def corners (root : F → F) (areaFactor width x0 y0 x1 y1 : F) : Option (List (F × F)) :=
  let w := width * areaFactor
  let dx := x1 - x0
  let dy := y1 - y0
  let length := root (dx ^ 2 + dy ^ 2)
  if length = 0 then none
  else
    let px := - (dy / length) * w / 2
    let py := dx / length * w / 2
    some [(x0 + px, y0 + py), (x1 + px, y1 + py), (x1 - px, y1 - py), (x0 - px, y0 - py)]

/-! ## Flows between buses -/

/-- A branch with its buses and its flow. -/
structure Conn (F : Type) where
  label : Name
  bus0 : Name
  bus1 : Name
  flow : F

/-- `sign_correction` (910). -/
def sign (c : Conn F) : F := if c.bus0 < c.bus1 then 1 else -1

/-- `buses_sorted` (913): the names in order, joined. -/
def pairName (c : Conn F) : Name :=
  if c.bus1 < c.bus0 then c.bus1 ++ " - " ++ c.bus0 else c.bus0 ++ " - " ++ c.bus1

/-- `flow_sorted.groupby(buses_sorted).transform("sum") * sign_correction` (914-916). -/
def grouped (cs : List (Conn F)) (c : Conn F) : F :=
  ((cs.filter (fun d => pairName d = pairName c)).map (fun d => d.flow * sign d)).sum * sign c

/-- The first branch of each pair of buses: `buses_sorted.drop_duplicates().index`. -/
def firsts : List (Conn F) → List (Conn F) → List (Conn F)
  | _, [] => []
  | before, c :: rest =>
    if (before.map pairName).contains (pairName c) then firsts (c :: before) rest
    else c :: firsts (c :: before) rest

/-- `aggregate_flow_by_connection` (886-921). -/
def aggregateFlow (cs : List (Conn F)) : List (Conn F) :=
  (firsts [] cs).map (fun c => { c with flow := grouped cs c })

/-! ## Areas and arguments -/

/-- `scaling_factor_from_area_contribution` (847-884). -/
def scalingFactor (areas : List F) (xMin xMax yMin yMax fraction : F) : F :=
  let target := (xMax - xMin) * (yMax - yMin) * fraction
  let current := (areas.map (fun a => |a|)).sum
  if current = 0 then 1 else target / current

/-- The deprecated argument `flow` of `draw_map`. -/
inductive FlowArg (α : Type) where
  | none
  /-- anything that is no series with a MultiIndex -/
  | plain (f : α)
  /-- a series with a MultiIndex, by class -/
  | multi (line link trafo : Option α)

/-- The flows of lines, links and transformers that are used (1134-1154); `none` is a `ValueError`. -/
def branchFlows {α : Type} (flow : FlowArg α) (line link trafo : Option α) :
    Option (Option α × Option α × Option α) :=
  match flow with
  | .none => some (line, link, trafo)
  | .plain _ =>
    if line.isSome || link.isSome || trafo.isSome then Option.none else some (line, link, trafo)
  | .multi a b c =>
    if line.isSome || link.isSome || trafo.isSome then Option.none else some (a, b, c)

end Verif.Plot
