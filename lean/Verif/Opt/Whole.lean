import Verif.Opt.Accessor
import Verif.Opt.Storage
import Verif.Opt.Objective
import Verif.Opt.Results

/-!
# Model of the whole optimisation problem

`create_model` (`optimization/optimize.py` 212-333): the variables, rows and objective of the other models put together, with
the answer of the solver and the prices taken from it.  Rows that couple assets in another way than the nodal
balance (voltage law, global constraints, rows added by `extra_functionality`) are a parameter.  Snapshots of the
window are numbered from 0.
-/

namespace Verif.Opt.Whole

abbrev Name := String

/-- Variables of one asset: by name of the variable and snapshot, the capacity, the number of modules. -/
inductive Loc
  | op (var : Name) (t : Nat)
  | cap
  | mod
deriving DecidableEq, Repr

/-- All variables; `const` is `objective_constant`. -/
inductive WVar
  | of (comp asset : Name) (v : Loc)
  | const
deriving DecidableEq, Repr

/-- Replace variables. -/
def remap {V W F : Type} (f : V → W) (c : Con V F) : Con W F := ⟨c.terms.map (fun e => (e.1, f e.2)), c.sense, c.rhs⟩

/-- Columns about capacity. -/
structure Invest (F : Type) where
  nomMin : F
  nomMax : Option F
  nomMod : F
  nomSet : Option F
  capitalCost : F
  activeIn : Int → Bool
  activeFlag : Bool

/-- Columns about costs. -/
structure Costs (F : Type) where
  marginal : Nat → F
  quadratic : Nat → F
  marginalStorage : Nat → F
  spillCost : Nat → F
  standBy : Nat → F

structure GenW (F : Type) where
  name : Name
  bus : Name
  sign : F
  unit : Unit' F
  invest : Invest F
  costs : Costs F
  pSet : Nat → Option F
  eSumMin : Option F
  eSumMax : Option F

structure LinkW (F : Type) where
  name : Name
  bus0 : Name
  bus1 : Name
  eff : Nat → F
  extra : List (Name × (Nat → F))
  unit : Unit' F
  invest : Invest F
  costs : Costs F
  pSet : Nat → Option F

structure StoreW (F : Type) where
  name : Name
  bus : Name
  sign : F
  storage : Storage F
  ext : Bool
  nom : F
  minPu : Nat → F
  maxPu : Nat → F
  invest : Invest F
  costs : Costs F
  eSet : Nat → Option F

structure UnitW (F : Type) where
  name : Name
  bus : Name
  sign : F
  storage : StorUnit F
  ext : Bool
  nom : F
  minPu : Nat → F
  maxPu : Nat → F
  maxHours : F
  invest : Invest F
  costs : Costs F
  socSet : Nat → Option F

structure BranchW (F : Type) where
  name : Name
  bus0 : Name
  bus1 : Name
  active : Nat → Bool
  ext : Bool
  nom : F
  maxPu : Nat → F
  rPuEff : F
  invest : Invest F
  sSet : Nat → Option F

structure LoadW (F : Type) where
  bus : Name
  sign : F
  pSet : Nat → F
  active : Nat → Bool

structure WNet (F : Type) where
  len : Nat
  multi : Bool
  period : Nat → Nat
  rolling : Bool
  linearized : Bool
  /-- `transmission_losses` -/
  tangents : Nat
  threshold : Nat
  sw : Nat → F
  /-- `snapshot_weightings.generators` -/
  gw : Nat → F
  periods : Option (List Int × (Int → F) × (Nat → Int))
  buses : List Name
  gens : List (GenW F)
  links : List (LinkW F)
  stores : List (StoreW F)
  units : List (UnitW F)
  lines : List (BranchW F)
  trafos : List (BranchW F)
  loads : List (LoadW F)

variable {F : Type} [Field F] [LinearOrder F]

/-! ## Rows of single assets -/

def unitLoc : UVar → Loc
  | .p t => .op "p" t
  | .status t => .op "status" t
  | .startUp t => .op "start_up" t
  | .shutDown t => .op "shut_down" t
  | .cap => .cap

def storeLoc : EVar → Loc
  | .e t => .op "e" t
  | .p t => .op "p" t

def sunitLoc : SVar → Loc
  | .soc t => .op "state_of_charge" t
  | .pDispatch t => .op "p_dispatch" t
  | .pStore t => .op "p_store" t
  | .spill t => .op "spill" t

def boundLoc (var : Name) (t : Nat) : Accessor.BVar → Loc
  | .x => .op var t
  | .loss => .op "loss" t
  | .cap => .cap

def lossLoc (t : Nat) : LVar → Loc
  | .loss => .op "loss" t
  | .flow => .op "s" t

def capLoc : Capacity.CVar → Loc
  | .cap _ => .cap
  | .nMod _ => .mod

def capAsset (name : Name) (ext : Bool) (i : Invest F) : Capacity.CapAsset F :=
  ⟨name, ext, i.nomMin, i.nomMax, i.nomMod, i.nomSet⟩

/-- Capacity rows of one asset (262-265), with the bound of the number of modules; `none` for the KeyError. -/
def capRows (name : Name) (ext : Bool) (i : Invest F) : Option (List (Con Loc F)) :=
  (Capacity.capacityCons [capAsset name ext i]).toOption.map (fun r => r.map (remap capLoc) ++
    if Capacity.modular (capAsset name ext i) then [⟨[(1, .mod)], .ge, 0⟩] else [])

/-- Bounds of the variables of commitment (`variables.py` 43-81); that they are integers without linearisation is not in
the rows. -/
def commitRows (len : Nat) (u : Unit' F) : List (Con Loc F) :=
  if u.committable then (List.range len).flatMap (fun t => if u.active t then
    ["status", "start_up", "shut_down"].flatMap (fun v => [⟨[(1, .op v t)], .ge, 0⟩, ⟨[(1, .op v t)], .le, 1⟩]) else [])
  else []

/-- Rows of set points (277). -/
def setRows (len : Nat) (var : Name) (active : Nat → Bool) (value : Nat → Option F) : List (Con Loc F) :=
  (Capacity.fixedOperationCons (List.range len) [⟨var, value, active⟩]).map (remap (fun v => Loc.op v.1 v.2))

/-- Rows of bounds for all snapshots. -/
def boundRows (len : Nat) (c : Accessor.Cls) (attr : Accessor.Attr') (var : Name) (losses : Bool)
    (a : Nat → Accessor.Asset F) : List (Con Loc F) :=
  (List.range len).flatMap (fun t => (Accessor.opRows c attr losses (a t)).map (remap (boundLoc var t)))

/-- Generators (262-277, 314). -/
def genRows (w : WNet F) (g : GenW F) : Option (List (Con Loc F)) :=
  (capRows g.name g.unit.extendable g.invest).map (fun cap => cap ++
    (unitCons (w.gens.map (·.unit)) g.unit w.len w.rolling w.linearized).map (remap unitLoc) ++
    commitRows w.len g.unit ++ setRows w.len "p" g.unit.active g.pSet ++
    (Capacity.totalSupplyCons (List.range w.len) w.gw [⟨g.name, g.unit.active, g.eSumMin, g.eSumMax⟩]).map
      (remap (fun v => Loc.op "p" v.2)))

/-- Links (262-277). -/
def linkRows (w : WNet F) (l : LinkW F) : Option (List (Con Loc F)) :=
  (capRows l.name l.unit.extendable l.invest).map (fun cap => cap ++
    (unitCons (w.links.map (·.unit)) l.unit w.len w.rolling w.linearized).map (remap unitLoc) ++
    commitRows w.len l.unit ++ setRows w.len "p" l.unit.active l.pSet)

def storeBound (s : StoreW F) (t : Nat) : Accessor.Asset F :=
  ⟨s.storage.active t, s.ext, s.nom, s.minPu t, s.maxPu t, 0⟩

/-- Stores (262-277, 313); the power of a store has no bounds. -/
def storeRows (w : WNet F) (s : StoreW F) : Option (List (Con Loc F)) :=
  (capRows s.name s.ext s.invest).map (fun cap => cap ++
    boundRows w.len .store .e "e" false (storeBound s) ++
    setRows w.len "e" s.storage.active s.eSet ++
    (storeCons s.storage ⟨w.len, w.multi, w.period⟩).map (remap storeLoc))

def unitBound (s : UnitW F) (t : Nat) : Accessor.Asset F :=
  ⟨s.storage.active t, s.ext, s.nom, s.minPu t, s.maxPu t, s.maxHours⟩

/-- Storage units (262-277, 312); spillage is between zero and the inflow (`variables.py` 139-145). -/
def sunitRows (w : WNet F) (s : UnitW F) : Option (List (Con Loc F)) :=
  (capRows s.name s.ext s.invest).map (fun cap => cap ++
    boundRows w.len .storageUnit .pDispatch "p_dispatch" false (unitBound s) ++
    boundRows w.len .storageUnit .pStore "p_store" false (unitBound s) ++
    boundRows w.len .storageUnit .soc "state_of_charge" false (unitBound s) ++
    setRows w.len "state_of_charge" s.storage.active s.socSet ++
    (storageUnitCons s.storage ⟨w.len, w.multi, w.period⟩).map (remap sunitLoc) ++
    (List.range w.len).flatMap (fun t => if hasSpill s.storage t then
      [⟨[(1, .op "spill" t)], .ge, 0⟩, ⟨[(1, .op "spill" t)], .le, s.storage.inflow t⟩] else []))

def branchBound (b : BranchW F) (t : Nat) : Accessor.Asset F := ⟨b.active t, b.ext, b.nom, 0, b.maxPu t, 0⟩

def branchLoss (b : BranchW F) (t : Nat) : LossBranch F :=
  ⟨b.active t, b.ext, b.nom, b.invest.nomMax, b.maxPu t, b.rPuEff⟩

/-- Rows of losses (316-318). -/
def lossRows (w : WNet F) (b : BranchW F) : Option (List (Con Loc F)) :=
  if w.tangents = 0 then some []
  else ((List.range w.len).mapM (fun t => (lossCons (branchLoss b t) w.tangents).toOption.map
    (fun r => r.map (remap (lossLoc t))))).map List.flatten

/-- Lines and transformers (262-277, 316-318). -/
def branchRows (w : WNet F) (c : Accessor.Cls) (b : BranchW F) : Option (List (Con Loc F)) :=
  (capRows b.name b.ext b.invest).bind (fun cap => (lossRows w b).map (fun loss => cap ++
    boundRows w.len c .s "s" (w.tangents != 0) (branchBound b) ++
    setRows w.len "s" b.active b.sSet ++ loss))

/-- Rows of an asset, with the variables of that asset. -/
def tagged (comp : Name) (name : Name) (rows : Option (List (Con Loc F))) : Option (List (Con WVar F)) :=
  rows.map (fun r => r.map (remap (WVar.of comp name)))

/-- Rows of all assets. -/
def ownRows (w : WNet F) : Option (List (Con WVar F)) :=
  ((w.gens.map (fun g => tagged "Generator" g.name (genRows w g)) ++
    w.links.map (fun l => tagged "Link" l.name (linkRows w l)) ++
    w.stores.map (fun s => tagged "Store" s.name (storeRows w s)) ++
    w.units.map (fun s => tagged "StorageUnit" s.name (sunitRows w s)) ++
    w.lines.map (fun b => tagged "Line" b.name (branchRows w .line b)) ++
    w.trafos.map (fun b => tagged "Transformer" b.name (branchRows w .transformer b))).mapM id).map List.flatten

/-! ## Nodal balance -/

/-- The components at one snapshot. -/
def nodal (w : WNet F) (t : Nat) : Nodal.Net F where
  buses := w.buses
  gens := w.gens.map (fun g => ⟨g.name, g.bus, g.sign, g.unit.active t⟩)
  stores := w.stores.map (fun s => ⟨s.name, s.bus, s.sign, s.storage.active t⟩)
  units := w.units.map (fun s => ⟨s.name, s.bus, s.sign, s.storage.active t⟩)
  lines := w.lines.map (fun b => ⟨b.name, b.bus0, b.bus1, b.active t⟩)
  trafos := w.trafos.map (fun b => ⟨b.name, b.bus0, b.bus1, b.active t⟩)
  links := w.links.map (fun l => ⟨l.name, l.bus0, l.bus1, l.eff t, l.extra.map (fun e => (e.1, e.2 t)), l.unit.active t⟩)
  loads := w.loads.map (fun l => ⟨l.bus, l.sign, l.pSet t, l.active t⟩)

def nodalVar (t : Nat) : Nodal.NVar → WVar
  | .gen n => .of "Generator" n (.op "p" t)
  | .store n => .of "Store" n (.op "p" t)
  | .dispatch n => .of "StorageUnit" n (.op "p_dispatch" t)
  | .charge n => .of "StorageUnit" n (.op "p_store" t)
  | .line n => .of "Line" n (.op "s" t)
  | .trafo n => .of "Transformer" n (.op "s" t)
  | .link n => .of "Link" n (.op "p" t)
  | .lineLoss n => .of "Line" n (.op "loss" t)
  | .trafoLoss n => .of "Transformer" n (.op "loss" t)

/-- The nodal balance (285-307), with bus and snapshot of each row. -/
def balanceRows (w : WNet F) : Option (List ((Name × Nat) × Con WVar F)) :=
  ((List.range w.len).mapM (fun t => (Nodal.createBalance (nodal w t) (w.tangents != 0) w.threshold).toOption.map
    (fun rows => rows.map (fun r => ((r.1, t), remap (nodalVar t) r.2))))).map List.flatten

/-! ## Objective -/

def objAsset (name : Name) (ext com : Bool) (nom startUp shutDown : F) (inflow : Nat → F) (active : Nat → Bool)
    (i : Invest F) (c : Costs F) : Objective.Asset F where
  name := name
  ext := ext
  com := com
  nom := nom
  capitalCost := i.capitalCost
  marginal := c.marginal
  marginalStorage := c.marginalStorage
  spillCost := c.spillCost
  quadratic := c.quadratic
  standBy := c.standBy
  startUp := startUp
  shutDown := shutDown
  inflow := inflow
  active := active
  activeIn := i.activeIn
  activeFlag := i.activeFlag

/-- Passive branches have no operational costs. -/
def noCosts : Costs F := ⟨fun _ => 0, fun _ => 0, fun _ => 0, fun _ => 0, fun _ => 0⟩

def genAsset (g : GenW F) : Objective.Asset F :=
  objAsset g.name g.unit.extendable g.unit.committable g.unit.nom g.unit.startUpCost g.unit.shutDownCost (fun _ => 0)
    g.unit.active g.invest g.costs

def linkAsset (g : LinkW F) : Objective.Asset F :=
  objAsset g.name g.unit.extendable g.unit.committable g.unit.nom g.unit.startUpCost g.unit.shutDownCost (fun _ => 0)
    g.unit.active g.invest g.costs

def storeAsset (s : StoreW F) : Objective.Asset F :=
  objAsset s.name s.ext false s.nom 0 0 (fun _ => 0) s.storage.active s.invest s.costs

def sunitAsset (s : UnitW F) : Objective.Asset F :=
  objAsset s.name s.ext false s.nom 0 0 s.storage.inflow s.storage.active s.invest s.costs

def branchAsset (b : BranchW F) : Objective.Asset F :=
  objAsset b.name b.ext false b.nom 0 0 (fun _ => 0) b.active b.invest noCosts

def objAssets (w : WNet F) (c : Name) : List (Objective.Asset F) :=
  if c = "Generator" then w.gens.map genAsset
  else if c = "Link" then w.links.map linkAsset
  else if c = "Store" then w.stores.map storeAsset
  else if c = "StorageUnit" then w.units.map sunitAsset
  else if c = "Line" then w.lines.map branchAsset
  else if c = "Transformer" then w.trafos.map branchAsset
  else []

def objNet (w : WNet F) : Objective.Net F := ⟨objAssets w, List.range w.len, w.sw, w.periods⟩

def objVar : Objective.OVar → WVar
  | .op c v a t => .of c a (.op v t)
  | .nom c _ a => .of c a .cap
  | .const => .const

/-- The problem handed to the solver. -/
structure Program (F : Type) where
  linear : List (F × WVar)
  quadratic : List (F × WVar)
  balance : List ((Name × Nat) × Con WVar F)
  rows : List (Con WVar F)

/-- The variable of the constant is fixed by its bounds (112). -/
def constRow (w : WNet F) : Con WVar F := ⟨[(1, .const)], .eq, Objective.constant (objNet w)⟩

/-- `create_model`; `none` if it raises. -/
def createModel (w : WNet F) (other : List (Con WVar F)) : Option (Program F) :=
  (ownRows w).bind (fun own => (balanceRows w).bind (fun bal => (Objective.objective (objNet w)).toOption.map (fun o =>
    ⟨o.linear.map (fun e => (e.1, objVar e.2)), o.quadratic.map (fun e => (e.1, objVar e.2)), bal,
      own ++ constRow w :: other⟩)))

/-- Price recorded at a bus (`assign_duals`, `post_processing` 412-420, 456-466); `dual` is the dual of the row. -/
def busPrice (w : WNet F) (old dual : F) (t : Nat) : F := Results.price old (some dual) (Objective.weighting (objNet w) t)

end Verif.Opt.Whole
