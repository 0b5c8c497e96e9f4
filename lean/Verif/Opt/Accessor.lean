import Verif.Opt.Unit
import Verif.Opt.Nodal
import Verif.Opt.Capacity
import Verif.Opt.Losses

/-!
# Model of operational bounds, of fixing capacities and of load shedding

`get_bounds_pu` (`descriptors.py` 345-390), the operational limits of all component classes including
losses (`optimization/constraints.py` 39-129), `fix_optimal_capacities` and `add_load_shedding`
(`optimization/optimize.py` 721-733, 748-791).  One asset and one snapshot, unless rows are imported from other
models.
-/

namespace Verif.Opt.Accessor

variable {F : Type} [Field F] [LinearOrder F]

inductive Cls
  | generator | link | store | storageUnit | line | transformer
deriving DecidableEq, Repr

inductive Attr'
  | p | e | pDispatch | pStore | soc | s
deriving DecidableEq, Repr

structure Asset (F : Type) where
  active : Bool
  ext : Bool
  nom : F
  /-- value of `p_min_pu` or `e_min_pu`; not given for passive branches -/
  minPu : F
  maxPu : F
  maxHours : F

def passive : Cls → Bool
  | .line | .transformer => true
  | _ => false

/-- `get_bounds_pu`. -/
def boundsPu (c : Cls) (attr : Attr') (a : Asset F) : F × F :=
  match c with
  | .line | .transformer => (- a.maxPu, a.maxPu)
  | .storageUnit => match attr with
    | .pStore => (0, - a.minPu)
    | .soc => (0, a.maxHours)
    | _ => (0, a.maxPu)
  | _ => (a.minPu, a.maxPu)

/-- The variable in question, the loss and the capacity of the asset. -/
inductive BVar
  | x | loss | cap
deriving DecidableEq, Repr

/-- `± loss` in the rows of passive branches (68-71, 118-121). -/
def lossTm (c : Cls) (losses : Bool) (k : F) : List (F × BVar) :=
  if passive c && losses then [(k, .loss)] else []

/-- 39-83 for an asset that is not committable. -/
def fixRows (c : Cls) (attr : Attr') (losses : Bool) (a : Asset F) : List (Con BVar F) :=
  if a.ext || !a.active then [] else
  [⟨(1, .x) :: lossTm c losses (-1), .ge, (boundsPu c attr a).1 * a.nom⟩,
   ⟨(1, .x) :: lossTm c losses 1, .le, (boundsPu c attr a).2 * a.nom⟩]

/-- 86-129. -/
def extRows (c : Cls) (attr : Attr') (losses : Bool) (a : Asset F) : List (Con BVar F) :=
  if !a.ext || !a.active then [] else
  [⟨(1, .x) :: (- (boundsPu c attr a).1, .cap) :: lossTm c losses (-1), .ge, 0⟩,
   ⟨(1, .x) :: (- (boundsPu c attr a).2, .cap) :: lossTm c losses 1, .le, 0⟩]

def opRows (c : Cls) (attr : Attr') (losses : Bool) (a : Asset F) : List (Con BVar F) :=
  fixRows c attr losses a ++ extRows c attr losses a

/-! ## `fix_optimal_capacities` -/

/-- `opt` is the recorded optimal capacity. -/
def fixAsset (opt : F) (a : Asset F) : Asset F :=
  { a with nom := if a.ext then opt else a.nom, ext := false }

def fixUnit (opt : F) (u : Unit' F) : Unit' F :=
  { u with nom := if u.extendable then opt else u.nom, extendable := false }

def fixLoss (opt : F) (b : LossBranch F) : LossBranch F :=
  { b with sNom := if b.extendable then opt else b.sNom, extendable := false }

def fixCap (a : Capacity.CapAsset F) : Capacity.CapAsset F := { a with ext := false }

/-! ## `add_load_shedding` -/

/-- `n.add` leaves generators alone whose name exists. -/
def shedders (n : Nodal.Net F) (buses : List String) (sfx : String) (sign : F) : List (Nodal.OnePort F) :=
  (buses.filter (fun b => !(n.gens.map (·.name)).contains (b ++ sfx))).map (fun b => ⟨b ++ sfx, b, sign, true⟩)

def addShedding (n : Nodal.Net F) (buses : Option (List String)) (sfx : String) (sign : F) : Nodal.Net F :=
  { n with gens := n.gens ++ shedders n (buses.getD n.buses) sfx sign }

/-- The carriers afterwards and the carrier of the new generators (776-787). -/
def sheddingCarriers (carriers : List String) : List String × String :=
  (if carriers.contains "Load" then carriers else carriers ++ ["Load"], "load")

end Verif.Opt.Accessor
