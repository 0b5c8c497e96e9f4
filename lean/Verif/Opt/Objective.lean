import Verif.Opt.LP

/-!
# Model of the objective function

`define_objective` (`optimization/optimize.py` 78-209) with the table `data/variables.csv`.  An asset
has all cost attributes; those its class does not have are 0 (`com` is false for classes without it).
Missing and infinite costs are not modelled.
-/

namespace Verif.Opt.Objective

abbrev Name := String

structure Asset (F : Type) where
  name : Name
  ext : Bool
  com : Bool
  nom : F
  capitalCost : F
  marginal : Nat → F
  marginalStorage : Nat → F
  spillCost : Nat → F
  quadratic : Nat → F
  standBy : Nat → F
  startUp : F
  shutDown : F
  inflow : Nat → F
  /-- `get_activity_mask` -/
  active : Nat → Bool
  /-- `get_active_assets(c, period)` -/
  activeIn : Int → Bool
  /-- `get_active_assets(c)` -/
  activeFlag : Bool

structure Net (F : Type) where
  assets : Name → List (Asset F)
  sns : List Nat
  /-- `snapshot_weightings.objective` -/
  sw : Nat → F
  /-- `none` unless `_multi_invest`: the periods in use, their objective weightings, the
  period of a snapshot -/
  periods : Option (List Int × (Int → F) × (Nat → Int))

/-- A row of `variables.csv`; the columns that matter here. -/
structure Row where
  comp : Name
  var : Name
  marginal : Bool := false
  quadratic : Bool := false
  spill : Bool := false
  storage : Bool := false
  nominal : Bool := false

/-- `data/variables.csv`. -/
def table : List Row := [
  { comp := "Generator", var := "p", marginal := true, quadratic := true },
  { comp := "Generator", var := "status" },
  { comp := "Generator", var := "start_up" },
  { comp := "Generator", var := "shut_down" },
  { comp := "Generator", var := "p_nom", nominal := true },
  { comp := "Generator", var := "n_mod" },
  { comp := "Line", var := "s" },
  { comp := "Line", var := "s_nom", nominal := true },
  { comp := "Line", var := "n_mod" },
  { comp := "Transformer", var := "s" },
  { comp := "Transformer", var := "s_nom", nominal := true },
  { comp := "Transformer", var := "n_mod" },
  { comp := "Link", var := "p", marginal := true, quadratic := true },
  { comp := "Link", var := "status" },
  { comp := "Link", var := "start_up" },
  { comp := "Link", var := "shut_down" },
  { comp := "Link", var := "p_nom", nominal := true },
  { comp := "Link", var := "n_mod" },
  { comp := "Store", var := "e", storage := true },
  { comp := "Store", var := "p", marginal := true, quadratic := true },
  { comp := "Store", var := "e_nom", nominal := true },
  { comp := "Store", var := "n_mod" },
  { comp := "StorageUnit", var := "p_dispatch", marginal := true, quadratic := true },
  { comp := "StorageUnit", var := "p_store" },
  { comp := "StorageUnit", var := "state_of_charge", storage := true },
  { comp := "StorageUnit", var := "p_nom", nominal := true },
  { comp := "StorageUnit", var := "n_mod" },
  { comp := "StorageUnit", var := "spill", spill := true }]

/-- `nominal_attrs` (`descriptors.py`). -/
def nominalAttrs : List (Name × Name) := [("Generator", "p_nom"), ("Line", "s_nom"), ("Transformer", "s_nom"),
  ("Link", "p_nom"), ("Store", "e_nom"), ("StorageUnit", "p_nom")]

inductive OVar
  | op (comp var asset : Name) (t : Nat)
  | nom (comp var asset : Name)
  | const
deriving DecidableEq, Repr

inductive OErr
  | keyError
  /-- "Objective function could not be created." -/
  | valueError
deriving DecidableEq, Repr

variable {F : Type} [Field F] [LinearOrder F]

/-- `weighting` (116-121). -/
def weighting (n : Net F) (t : Nat) : F :=
  match n.periods with
  | none => n.sw t
  | some (_, pw, per) => n.sw t * pw (per t)

/-- Factor of the capital cost (95-105, 167-179). -/
def capitalWeight (n : Net F) (a : Asset F) : F :=
  match n.periods with
  | none => if a.activeFlag then 1 else 0
  | some (ps, pw, _) => (ps.map (fun p => if a.activeIn p then pw p else 0)).sum

/-- `objective_constant` (88-109). -/
def constant (n : Net F) : F :=
  (nominalAttrs.map (fun c => (((n.assets c.1).filter (·.ext)).map (fun a =>
    capitalWeight n a * a.capitalCost * a.nom)).sum)).sum

/-- A variable exists (`variables.py`); spillage only with inflow. -/
def present (a : Asset F) (var : Name) (t : Nat) : Bool :=
  a.active t && (if var = "spill" then decide (0 < a.inflow t) else true)

/-- The columns with costs (126-128, 138-141, 156-158). -/
def costly (n : Net F) (cost : Asset F → Nat → F) (as : List (Asset F)) : List (Asset F) :=
  as.filter (fun a => n.sns.any (fun t => decide (cost a t ≠ 0)))

/-- `(operation * cost).sum()`. -/
def opTerms (n : Net F) (comp var : Name) (cost : Asset F → Nat → F) (as : List (Asset F)) :
    List (F × OVar) :=
  as.flatMap (fun a => (n.sns.filter (present a var)).map (fun t =>
    (cost a t * weighting n t, .op comp var a.name t)))

/-- `m["StorageUnit-spill"]` exists (`variables.py` 137-142). -/
def spillDefined (n : Net F) : Bool :=
  (n.assets "StorageUnit").any (fun a => n.sns.any (fun t => decide (0 < a.inflow t)))

/-- One cost type (124-134): one expression for each row of the table with costs. -/
def costType (n : Net F) (flag : Row → Bool) (cost : Asset F → Nat → F) : List (List (F × OVar)) :=
  ((table.filter flag).filter (fun r => !(costly n cost (n.assets r.comp)).isEmpty)).map
    (fun r => opTerms n r.comp r.var cost (costly n cost (n.assets r.comp)))

/-- Stand-by cost (149-163). -/
def standByTerms (n : Net F) : List (List (F × OVar)) :=
  (["Generator", "Link"].filter (fun c => !((n.assets c).filter (·.com)).isEmpty)).map (fun c =>
    opTerms n c "status" Asset.standBy (costly n Asset.standBy ((n.assets c).filter (·.com))))

/-- Investment (165-184). -/
def investTerms (n : Net F) : List (List (F × OVar)) :=
  (nominalAttrs.filter (fun c => !((n.assets c.1).filter (·.ext)).isEmpty)).map (fun c =>
    ((n.assets c.1).filter (·.ext)).map (fun a =>
      (capitalWeight n a * a.capitalCost, .nom c.1 c.2 a.name)))

/-- `n.static(c)[attr + "_cost"]`. -/
def eventCost (var : Name) (a : Asset F) : F := if var = "start_up" then a.startUp else a.shutDown

/-- Start-up and shut-down cost (186-194). -/
def eventTerms (n : Net F) : List (List (F × OVar)) :=
  ((table.filter (fun r => r.var == "start_up" || r.var == "shut_down")).filter (fun r =>
    decide ((((n.assets r.comp).filter (·.com)).map (eventCost r.var)).sum ≠ 0))).map (fun r =>
    ((n.assets r.comp).filter (·.com)).flatMap (fun a => (n.sns.filter a.active).map (fun t =>
      (eventCost r.var a, .op r.comp r.var a.name t))))

/-- The objective: linear and quadratic terms. -/
structure Obj (F : Type) where
  linear : List (F × OVar)
  quadratic : List (F × OVar)
deriving DecidableEq

/-- The constant (111-113). -/
def constTerms (n : Net F) : List (List (F × OVar)) := if constant n = 0 then [] else [[(-1, .const)]]

/-- `define_objective`. -/
def objective (n : Net F) : Except OErr (Obj F) :=
  if (costType n (·.spill) Asset.spillCost).isEmpty || spillDefined n then
    let quad := costType n (·.quadratic) Asset.quadratic
    let linear := constTerms n ++ costType n (·.marginal) Asset.marginal ++
      costType n (·.storage) Asset.marginalStorage ++ costType n (·.spill) Asset.spillCost ++
      standByTerms n ++ investTerms n ++ eventTerms n
    if linear.isEmpty && quad.isEmpty then .error .valueError
    else .ok ⟨linear.flatten, quad.flatten⟩
  else .error .keyError

/-- Value of the objective at a point. -/
def Obj.value (o : Obj F) (val : OVar → F) : F :=
  lin val o.linear + (o.quadratic.map (fun e => e.1 * (val e.2 * val e.2))).sum

end Verif.Opt.Objective
