import Mathlib.Data.List.Basic

/-!
# Coordinate reference systems of networks

`n.crs`, `n.srid`, `n.to_crs` (`pypsa/networks.py` 644-685), shapes (`pypsa/io.py` 1491, `pypsa/components/abstract.py` 283-291), export and import
(`pypsa/io.py` 765-768, 1205-1209), slices (`networks.py` 1623-1674) and copies of part of the snapshots (1532-1589).

Of pyproj and geopandas only what calls return is modelled (`Systems`). Coordinates are pairs, geometries lists of them; missing coordinates are left out.
-/

namespace Verif.Geo.Crs

abbrev Name := String

/-- What pyproj and geopandas know of systems `S` with coordinates in `F`. -/
structure Systems (S F : Type) where
  /-- EPSG 4326. -/
  dflt : S
  /-- From one system to another, horizontal axis first (`always_xy=True`). -/
  move : S → S → F × F → F × F
  /-- Whether the authority puts the vertical axis first, as with EPSG 4326 and 3035. -/
  upFirst : S → Bool
  epsg : S → Option Nat
  fromEpsg : Nat → Option S
  wkt : S → Name
  fromWkt : Name → Option S
  /-- Whether a column of geometries that is handed to `n.add` carries its system along. -/
  carries : Bool

variable {S F : Type} [DecidableEq S]

/-- The part of a network that has to do with places. -/
structure Net (S F : Type) where
  crs : S
  shapesCrs : S
  buses : List (Name × F × F)
  shapes : List (Name × List (F × F))
  deriving DecidableEq

/-- `Network()`: `_crs` (`networks.py` 211), and shapes without rows (`abstract.py` 283-291). -/
def fresh (k : Systems S F) : Net S F := ⟨k.dflt, k.dflt, [], []⟩

def swapIf (b : Bool) (p : F × F) : F × F := if b then (p.2, p.1) else p

/-- `Transformer.from_crs(a, b).transform(x, y)`: without `always_xy`, so the axes of input and output are in the order of the authority. -/
def transformer (k : Systems S F) (a b : S) (p : F × F) : F × F := swapIf (k.upFirst b) (k.move a b (swapIf (k.upFirst a) p))

/-- `to_crs` (658-669). -/
def toCrs (k : Systems S F) (n : Net S F) (new : S) : Net S F where
  crs := new
  shapesCrs := new
  buses := n.buses.map (fun b => (b.1, transformer k n.crs new b.2))
  shapes := if n.shapesCrs = new then n.shapes else n.shapes.map (fun s => (s.1, s.2.map (k.move n.shapesCrs new)))

/-- The setter of `crs` (649-656): `GeoDataFrame.set_crs` returns a copy, which is dropped, and raises a `ValueError` if there is another system already. -/
def setCrs (n : Net S F) (new : S) : Option (Net S F) := if n.shapesCrs = new then some { n with crs := n.shapesCrs } else none

/-- The setter of `srid` (679-685). -/
def setSrid (k : Systems S F) (n : Net S F) (code : Nat) : Option (Net S F) := (k.fromEpsg code).bind (setCrs n)

def addBuses (n : Net S F) (bs : List (Name × F × F)) : Net S F := { n with buses := n.buses ++ bs.filter (fun b => !(n.buses.map (·.1)).contains b.1) }

/-- `n.add("Shape", ...)` (`io.py` 1466-1491) with geometries of the system `given`, if they have one. Names that are there already are skipped. Systems of old and new
geometries other than that of the network are a `ValueError`. -/
def addShapes (n : Net S F) (given : Option S) (new : List (Name × List (F × F))) : Option (Net S F) :=
  if (n.shapes.isEmpty = true ∨ n.shapesCrs = n.crs) ∧ (given = none ∨ given = some n.crs) then
    some { n with shapesCrs := n.crs, shapes := n.shapes ++ new.filter (fun s => !(n.shapes.map (·.1)).contains s.1) }
  else none

/-- The system of geometries taken from a network. -/
def carried (k : Systems S F) (n : Net S F) : Option S := if k.carries then some n.shapesCrs else none

/-- `n[buses]` (1623-1674): all components are added before `_crs` is set. -/
def slice (k : Systems S F) (n : Net S F) (keep : Name → Bool) : Option (Net S F) :=
  (addShapes (addBuses (fresh k) (n.buses.filter (fun b => keep b.1))) (carried k n) n.shapes).map (fun m => { m with crs := n.crs })

/-- `n.copy(snapshots=...)` (1532-1589): `iterate_components` leaves empty classes out; `srid` goes through the setter, and a `ValueError` is not caught. -/
def copyPart (k : Systems S F) (n : Net S F) : Option (Net S F) :=
  let m := addBuses (fresh k) n.buses
  let m := if n.shapes.isEmpty then some m else addShapes m (carried k n) n.shapes
  m.bind (fun m => (k.epsg n.crs).bind (setSrid k m))

/-- What is in a file: geometries as text, without their system (`io.py` 765-768 and 690-760). -/
structure File (F : Type) where
  crs : Name
  buses : List (Name × F × F)
  shapes : List (Name × List (F × F))

def save (k : Systems S F) (n : Net S F) : File F := ⟨k.wkt n.crs, n.buses, n.shapes⟩

/-- `_import_from_importer` (1205-1209, 1273-1290): the system first, then components that have rows (only these are in a file, 785-800); without buses
nothing more is read (1280-1283). -/
def load (k : Systems S F) (f : File F) : Option (Net S F) :=
  (k.fromWkt f.crs).bind (fun c =>
    let n := addBuses { fresh k with crs := c } f.buses
    if f.buses.isEmpty || f.shapes.isEmpty then some n else addShapes n none f.shapes)

/-- What a user can do. -/
inductive Act (S F : Type) where
  | toCrs (new : S)
  | setCrs (new : S)
  | setSrid (code : Nat)
  | addBuses (bs : List (Name × F × F))
  | addShapes (given : Option S) (new : List (Name × List (F × F)))
  | slice (keep : Name → Bool)
  | copyPart
  | reload

def Act.run (k : Systems S F) (n : Net S F) : Act S F → Option (Net S F)
  | .toCrs new => some (Crs.toCrs k n new)
  | .setCrs new => Crs.setCrs n new
  | .setSrid code => Crs.setSrid k n code
  | .addBuses bs => some (Crs.addBuses n bs)
  | .addShapes given new => Crs.addShapes n given new
  | .slice keep => Crs.slice k n keep
  | .copyPart => Crs.copyPart k n
  | .reload => load k (Crs.save k n)

/-- A session; a call that raises leaves the network as it was. -/
def session (k : Systems S F) (acts : List (Act S F)) : Net S F := acts.foldl (fun n a => (a.run k n).getD n) (fresh k)

end Verif.Geo.Crs
