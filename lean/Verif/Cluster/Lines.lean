import Verif.Cluster.OnePort

/-!
# Model of the aggregation of lines

`aggregatelines` (`clustering/spatial.py` 329-451) with the default rules (66-84).  Values are in an ordered field.
Simplified: infinite values are left out, division by zero gives zero, groups are numbered in the order in which they
appear, columns without a rule (type, carrier, whether in service) are one label, series are those of `s_max_pu` and of
the recorded flow `p0`.
-/

namespace Verif.Cluster.Lines

/-- A row of `n.lines`; `tag` are the columns named in `custom_line_groupers`, `label` those without a rule. -/
structure Line (F : Type) where
  name : String
  bus0 : String
  bus1 : String
  tag : String
  label : String
  length : F
  r : F
  x : F
  g : F
  b : F
  sNom : F
  sNomMin : F
  sNomMax : F
  sMaxPu : Nat → F
  capitalCost : F
  numParallel : F
  extendable : Bool
  p0 : Nat → F

variable {F : Type} [Field F] [LinearOrder F]

/-- The network and the arguments (329-337); `dist` is `haversine_pts` of the coordinates of clusters, times `line_length_factor`
(388-393). -/
structure Config (F : Type) where
  buses : List (String × F)
  busmap : String → Option String
  dist : String → String → F
  snapshots : List Nat
  /-- Whether there are recorded flows. -/
  solved : Bool

variable (cfg : Config F)

/-- `n.buses.v_nom` (371). -/
def vNom (b : String) : F := (cfg.buses.lookup b).getD 0

/-- `n.buses[cols].groupby(busmap).agg(...)` (373-375): the greatest voltage in the cluster. -/
def clusterV (c : String) : F :=
  (((cfg.buses.filter (fun p => decide (cfg.busmap p.1 = some c))).map (fun p => p.2)).max?).getD 0

/-- A line between two clusters, with its ends in order (367-380). -/
structure Mapped (F : Type) where
  line : Line F
  c0 : String
  c1 : String

/-- `static.loc[idx]` with the mapped ends (367-368, 377-380); an end that is not mapped gives NaN. -/
def mapLine (l : Line F) : Option (Option (Mapped F)) :=
  match cfg.busmap l.bus0, cfg.busmap l.bus1 with
  | some a, some b => some (if a = b then none else if b < a then some ⟨l, b, a⟩ else some ⟨l, a, b⟩)
  | _, _ => none

/-- All lines between clusters; `none` if an end is not mapped, for which the comparison of ends raises. -/
def mapped (ls : List (Line F)) : Option (List (Mapped F)) := (ls.mapM (mapLine cfg)).map (fun l => l.filterMap id)

/-- Label of the group (386-388). -/
def Mapped.key (m : Mapped F) : String × String × String := (m.c0, m.c1, m.line.tag)

/-- `length_factor` (396). -/
def lengthFactor (m : Mapped F) : F :=
  if 0 < m.line.length then cfg.dist m.c0 m.c1 / m.line.length else cfg.dist m.c0 m.c1

/-- `v_nom` (397-399). -/
def pairV (c0 c1 : String) : F := max (clusterV cfg c0) (clusterV cfg c1)

/-- `voltage_factor` (400). -/
def voltageFactor (m : Mapped F) : F := (vNom cfg m.line.bus0 / pairV cfg m.c0 m.c1) ^ 2

/-- The columns of a group with ends `k` and members `ms` (403-420, 424-447). -/
def merge (i : Nat) (k : String × String × String) (ms : List (Mapped F)) : Line F where
  name := toString i
  bus0 := k.1
  bus1 := k.2.1
  tag := k.2.2
  label := ((ms.map (fun m => m.line.label)).head?).getD ""
  length := cfg.dist k.1 k.2.1
  r := 1 / (ms.map (fun m => voltageFactor cfg m / (lengthFactor cfg m * m.line.r))).sum
  x := 1 / (ms.map (fun m => voltageFactor cfg m / (lengthFactor cfg m * m.line.x))).sum
  g := (ms.map (fun m => voltageFactor cfg m * lengthFactor cfg m * m.line.g)).sum
  b := (ms.map (fun m => voltageFactor cfg m * lengthFactor cfg m * m.line.b)).sum
  sNom := (ms.map (fun m => m.line.sNom)).sum
  sNomMin := (ms.map (fun m => m.line.sNomMin)).sum
  sNomMax := (ms.map (fun m => m.line.sNomMax)).sum
  sMaxPu := fun t => (ms.map (fun m => m.line.sMaxPu t * OnePort.normed (ms.map (fun m => m.line.sNom)) m.line.sNom)).sum
  capitalCost :=
    (ms.map (fun m => m.line.capitalCost * lengthFactor cfg m * OnePort.normed (ms.map (fun m => m.line.sNom)) m.line.sNom)).sum
  numParallel := (ms.map (fun m => m.line.numParallel)).sum
  extendable := ms.any (fun m => m.line.extendable)
  p0 := fun t => ((ms.map (fun m => m.line.p0 t)).head?).getD 0

def groupKeys (ms : List (Mapped F)) : List (String × String × String) := (ms.map Mapped.key).dedup

def groupOf (ms : List (Mapped F)) (k : String × String × String) : List (Mapped F) := ms.filter (fun m => decide (m.key = k))

/-- Whether `consense` raises. -/
def disagrees (ms : List (Mapped F)) : Bool :=
  (groupKeys ms).any (fun k =>
    !OnePort.agree ((groupOf ms k).map (fun m => m.line.label)) ||
      (cfg.solved && cfg.snapshots.any (fun t => !OnePort.agree ((groupOf ms k).map (fun m => m.line.p0 t)))))

/-- The number of the group of each line between clusters: `grouper` (386-388), the `linemap`. -/
def linemap (ms : List (Mapped F)) : List (String × String) :=
  ms.map (fun m => (m.line.name, toString ((groupKeys ms).idxOf m.key)))

/-- `aggregatelines` (329-451): lines between clusters and map of lines. -/
def aggregate (ls : List (Line F)) : Option (List (Line F) × List (String × String)) :=
  (mapped cfg ls).bind (fun ms =>
    if disagrees cfg ms then none
    else some ((groupKeys ms).mapIdx (fun i k => merge cfg i k (groupOf ms k)), linemap ms))

end Verif.Cluster.Lines
