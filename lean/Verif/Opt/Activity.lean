import Mathlib.Algebra.Order.Ring.Rat
import Mathlib.Data.List.Basic

/-!
# Model of asset activity and per-unit bounds

`get_active_assets` (`components/descriptors.py` 22-61), `get_activity_mask` (`descriptors.py`
294-341), `get_bounds_pu` (`descriptors.py` 345-390), `nominal_attrs` (`descriptors.py` 215-222).
-/

namespace Verif.Opt

abbrev Name := String

/-- The class has the columns `build_year` and `lifetime` if `years` is given; a lifetime of
`none` is infinite. -/
structure Asset where
  name : Name
  active : Bool
  build : Int
  life : Option ℚ
deriving DecidableEq

inductive AErr | valueError
deriving DecidableEq

/-- `build_year <= period < build_year + lifetime` (60). -/
def Asset.alive (a : Asset) (p : Int) : Bool :=
  a.build ≤ p && (match a.life with
    | none => true
    | some l => (p : ℚ) < a.build + l)

/-- `get_active_assets` (50-61): `hasYears` tells whether the class has the two columns, `known`
are the investment periods of the network, `periods` the argument. -/
def getActive (hasYears : Bool) (known : List Int) (periods : Option (List Int))
    (assets : List Asset) : Except AErr (List (Name × Bool)) :=
  match periods with
  | none => .ok (assets.map (fun a => (a.name, a.active)))
  | some ps =>
    if !hasYears then .ok (assets.map (fun a => (a.name, a.active)))
    else if ps.any (fun p => !known.contains p) then .error .valueError
    else .ok (assets.map (fun a => (a.name, ps.any a.alive && a.active)))

/-- `get_activity_mask` (318-341): with several investment periods a snapshot is a pair of its
period and its timestep. -/
def activityMask {T : Type} (multi hasYears : Bool) (known : List Int) (sns : List (Int × T))
    (assets : List Asset) : Except AErr (List ((Int × T) × List (Name × Bool))) :=
  if multi then
    if known.all (fun p => (getActive hasYears known (some [p]) assets).isOk) then
      .ok (sns.map (fun s => (s, match getActive hasYears known (some [s.1]) assets with
        | .ok l => l
        | .error _ => [])))
    else .error .valueError
  else match getActive hasYears known none assets with
    | .ok l => .ok (sns.map (fun s => (s, l)))
    | .error e => .error e

/-! ## Bounds -/

inductive Cls | generator | line | transformer | link | store | storageUnit
deriving DecidableEq

/-- `nominal_attrs` (215-222). -/
def nominalAttr : Cls → String
  | .generator => "p_nom"
  | .line => "s_nom"
  | .transformer => "s_nom"
  | .link => "p_nom"
  | .store => "e_nom"
  | .storageUnit => "p_nom"

/-- `str.replace`, on the last three characters (all nominal attributes end with `nom`). -/
def replaceNom (s r : String) : String := String.ofList (s.toList.take (s.length - 3)) ++ r

/-- `n.passive_branch_components`. -/
def passive : Cls → Bool
  | .line | .transformer => true
  | _ => false

/-- `get_bounds_pu` (366-390), one entry; `dense a` is the entry of
`get_switchable_as_dense(n, c, a)`, `maxHours` that of the column. -/
def boundsPu {F : Type} [Neg F] [Zero F] (c : Cls) (attr : String) (dense : String → F)
    (maxHours : F) : F × F :=
  let minStr := replaceNom (nominalAttr c) "min_pu"
  let maxPu := dense (replaceNom (nominalAttr c) "max_pu")
  if passive c then (-maxPu, maxPu)
  else if c = .storageUnit then
    let maxPu := if attr = "p_store" then - dense minStr else maxPu
    if attr = "state_of_charge" then (0, maxHours) else (0, maxPu)
  else (dense minStr, maxPu)

/-- The final `reindex(columns=index)`: names which are not in the table get NaN. -/
def reindexed {F : Type} (index : Option (List Name)) (cols : List (Name × F)) :
    List (Name × Option F) :=
  match index with
  | none => cols.map (fun e => (e.1, some e.2))
  | some ix => ix.map (fun n => (n, (cols.find? (fun e => e.1 = n)).map (·.2)))

end Verif.Opt
