import Verif.Geo.Model
import Verif.Py.Dict

/-!
# Lengths of lines (`pypsa/components/components.py` 145-193)
-/

namespace Verif.Geo

/-- A bus: coordinates, `none` is NaN. -/
structure Place where
  x : Option ℝ
  y : Option ℝ

/-- A line. -/
structure Wire where
  name : String
  bus0 : String
  bus1 : String

/-- A label of an index in pandas: a position or a name. -/
inductive Label where
  | pos (i : Nat)
  | name (s : String)
deriving DecidableEq

/-- `self.static.bus0.map(buses.x)`, one entry: NaN for a name that is not there. -/
def mapX (buses : Dict String Place) (b : String) : Option ℝ :=
  match Dict.get? buses b with
  | some p => p.x
  | none => none

/-- The same with `y`. -/
def mapY (buses : Dict String Place) (b : String) : Option ℝ :=
  match Dict.get? buses b with
  | some p => p.y
  | none => none

/-- One entry of `haversine_pts` (`geo.py` 51-58) with NaN. -/
noncomputable def distanceNaN : Option ℝ × Option ℝ → Option ℝ × Option ℝ → Option ℝ
  | (some a, some b), (some c, some d) => some (distance ⟨a, b⟩ ⟨c, d⟩)
  | _, _ => none

/-- `calculate_line_length` (174-193): values with labels; `pd.Series(array)` has positions for labels. -/
noncomputable def lineLength (buses : Dict String Place) (lines : List Wire) : List (Label × Option ℝ) :=
  let a := lines.map (fun l => (mapX buses l.bus0, mapY buses l.bus0))
  let b := lines.map (fun l => (mapX buses l.bus1, mapY buses l.bus1))
  (List.zipWith distanceNaN a b).mapIdx (fun i d => (Label.pos i, d.map (· * 1000)))

/-- `df[column] = series` in pandas: each row takes the value at its own label, NaN if there is none. -/
def assign {V : Type} (rows : List String) (s : List (Label × Option V)) : List (Option V) :=
  rows.map (fun r => (Dict.get? s (Label.name r)).join)

/-- `df[column] = series.values`: by position. -/
def assignValues {V : Type} (s : List (Label × Option V)) : List (Option V) := s.map (·.2)

end Verif.Geo
