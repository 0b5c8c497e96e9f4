import Mathlib.Analysis.SpecialFunctions.Complex.Arg
import Mathlib.Analysis.SpecialFunctions.Sqrt

/-!
# Model of the geographic functions

`haversine_pts`, `haversine`, `compute_bbox` (`pypsa/geo.py` 24-157), with real numbers for floats.
-/

namespace Verif.Geo

/-- A point: longitude and latitude in degrees. -/
structure Point where
  lon : ℝ
  lat : ℝ

/-- `np.deg2rad`. -/
noncomputable def deg2rad (x : ℝ) : ℝ := x * (Real.pi / 180)

/-- `np.arctan2(y, x)`. -/
noncomputable def arctan2 (y x : ℝ) : ℝ := Complex.arg ⟨x, y⟩

/-- The variable `c` (geo.py 54-57). -/
noncomputable def hav (a b : Point) : ℝ :=
  Real.sin ((deg2rad b.lat - deg2rad a.lat) / 2) ^ 2 +
    Real.cos (deg2rad a.lat) * Real.cos (deg2rad b.lat) * Real.sin ((deg2rad a.lon - deg2rad b.lon) / 2) ^ 2

/-- One entry of `haversine_pts` (51-58). -/
noncomputable def distance (a b : Point) : ℝ := 6371 * 2 * arctan2 (√(hav a b)) (√(1 - hav a b))

/-- `haversine_pts`: arrays of the same length. -/
noncomputable def haversinePts (a b : List Point) : List ℝ := List.zipWith distance a b

/-- `haversine` (61-120): a row for each point of `a`, a column for each of `b`. -/
noncomputable def haversine (a b : List Point) : List (List ℝ) := a.map (fun p => b.map (distance p))

/-! ## Bounding box -/

section bbox
variable {F : Type} [Field F] [LinearOrder F]

/-- `np.nanmin`; `none` is NaN (the result if all are NaN). -/
def nanmin (l : List (Option F)) : Option F := (l.filterMap id).foldr (fun x r => some ((r.map (min x)).getD x)) none

/-- `np.nanmax`. -/
def nanmax (l : List (Option F)) : Option F := (l.filterMap id).foldr (fun x r => some ((r.map (max x)).getD x)) none

/-- `minxy - margin * (maxxy - minxy)` and `maxxy + margin * (maxxy - minxy)` of one coordinate. -/
def bounds (margin : F) (l : List (Option F)) : Option (F × F) :=
  match nanmin l, nanmax l with
  | some lo, some hi => some (lo - margin * (hi - lo), hi + margin * (hi - lo))
  | _, _ => none

/-- `compute_bbox` (123-157): corners, by coordinate. -/
def bbox (x y : List (Option F)) (margin : F) : Option (F × F) × Option (F × F) := (bounds margin x, bounds margin y)

end bbox

end Verif.Geo
