import Verif.Cluster.Lines

/-!
# Model of the clustering of a network

`aggregatebuses` and `get_clustering_from_busmap` (`clustering/spatial.py` 294-326, 470-596) with the aggregation of lines and
one-ports of `Lines.lean` and `OnePort.lean`.  Simplified: of buses only names, of links only ends, length and cost are modelled;
series of buses and links, snapshots, carriers and global constraints are left out.
-/

namespace Verif.Cluster.Network

/-- A link; `extra` are `bus2`, `bus3`, ... with the empty name for unused ports. -/
structure Link (F : Type) where
  name : String
  bus0 : String
  bus1 : String
  extra : List String
  length : F
  capitalCost : F

/-- A transformer. -/
structure Transformer where
  name : String
  bus0 : String
  bus1 : String

/-- A network: one-ports by class. -/
structure Net (F : Type) where
  buses : List (String × F)
  lines : List (Lines.Line F)
  transformers : List Transformer
  links : List (Link F)
  onePorts : List (String × List (OnePort.Asset F))

/-- Arguments (470-485). -/
structure Args (F : Type) where
  busmap : String → Option String
  /-- `haversine_pts` of the coordinates of clusters, times `line_length_factor`. -/
  dist : String → String → F
  snapshots : List Nat
  solved : Bool
  /-- The classes that are aggregated (520-556), with their options. -/
  merge : String → Option (OnePort.Config F)
  scaleCost : Bool

variable {F : Type} [Field F] [LinearOrder F]

/-- `aggregatebuses` (294-326): the clusters with buses, each once, with the greatest voltage. -/
def clusterBuses (a : Args F) (buses : List (String × F)) : List (String × F) :=
  (buses.filterMap (fun b => a.busmap b.1)).dedup.map (fun c =>
    (c, (((buses.filter (fun p => decide (a.busmap p.1 = some c))).map (fun p => p.2)).max?).getD 0))

/-- The one-ports of a class (520-567). -/
def clusterClass (a : Args F) (cls : String) (us : List (OnePort.Asset F)) : Option (List (OnePort.Asset F)) :=
  match a.merge cls with
  | some cfg => OnePort.aggregate { cfg with busmap := a.busmap } us
  | none => some (us.filterMap (fun u => (a.busmap u.bus).map (fun b => { u with bus := b })))

/-- A link (575-591): ends 0 and 1 are mapped, the others stay; `none` if it is dropped. -/
def clusterLink (a : Args F) (l : Link F) : Option (Link F) :=
  match a.busmap l.bus0, a.busmap l.bus1 with
  | some p, some q =>
    if p = q then none
    else
      let length := if 0 < l.length then a.dist p q else 0
      some { l with bus0 := p, bus1 := q, length := length,
                    capitalCost := if a.scaleCost && decide (l.length ≠ 0) then l.capitalCost * (length / l.length) else l.capitalCost }
  | _, _ => none

/-- `get_clustering_from_busmap` (470-596): the network and the map of lines. -/
def cluster (a : Args F) (n : Net F) : Option (Net F × List (String × String)) :=
  (Lines.aggregate { buses := n.buses, busmap := a.busmap, dist := a.dist, snapshots := a.snapshots, solved := a.solved } n.lines).bind
    (fun ls =>
      (n.onePorts.mapM (fun c => (clusterClass a c.1 c.2).map (fun us => (c.1, us)))).map (fun ones =>
        ({ buses := clusterBuses a n.buses, lines := ls.1, transformers := [], links := n.links.filterMap (clusterLink a), onePorts := ones },
          ls.2)))

end Verif.Cluster.Network
