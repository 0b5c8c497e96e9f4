import Verif.Opt.LP

/-!
# Model of the nodal balance

`define_nodal_balance_constraints` (`optimization/constraints.py` 573-666), its use in
`create_model` (`optimization/optimize.py` 285-307) and `get_strongly_meshed_buses`
(`optimization/common.py` 50-71), for one snapshot.  The terms of a row are listed component by
component instead of port by port, which does not matter for a sum.
-/

namespace Verif.Opt.Nodal

abbrev Name := String

structure OnePort (F : Type) where
  name : Name
  bus : Name
  sign : F
  active : Bool

structure Branch where
  name : Name
  bus0 : Name
  bus1 : Name
  active : Bool

/-- `extra` are the pairs (`bus2`, `efficiency2`), ...; an unused port has the bus `""`. -/
structure LinkC (F : Type) where
  name : Name
  bus0 : Name
  bus1 : Name
  eff : F
  extra : List (Name × F)
  active : Bool

structure LoadC (F : Type) where
  bus : Name
  sign : F
  pSet : F
  active : Bool

structure Net (F : Type) where
  buses : List Name
  gens : List (OnePort F)
  stores : List (OnePort F)
  units : List (OnePort F)
  lines : List Branch
  trafos : List Branch
  links : List (LinkC F)
  loads : List (LoadC F)

inductive NVar
  | gen (n : Name)
  | store (n : Name)
  | dispatch (n : Name)
  | charge (n : Name)
  | line (n : Name)
  | trafo (n : Name)
  | link (n : Name)
  | lineLoss (n : Name)
  | trafoLoss (n : Name)
deriving DecidableEq, Repr

/-- One term: the bus it belongs to, the coefficient, the variable, whether the variable exists. -/
structure Entry (F : Type) where
  bus : Name
  coef : F
  var : NVar
  present : Bool

variable {F : Type} [Field F] [LinearOrder F]

/-- `["Line", "s", "bus0", -1], ["Line", "s", "bus1", 1]` (592-595). -/
def branchEntries (mk : Name → NVar) (b : Branch) : List (Entry F) :=
  [⟨b.bus0, -1, mk b.name, b.active⟩, ⟨b.bus1, 1, mk b.name, b.active⟩]

/-- 605-613. -/
def lossEntries (mk : Name → NVar) (b : Branch) : List (Entry F) :=
  [⟨b.bus0, -(1 / 2), mk b.name, b.active⟩, ⟨b.bus1, -(1 / 2), mk b.name, b.active⟩]

/-- 596-603, 631-633: additional ports without bus are dropped. -/
def linkEntries (l : LinkC F) : List (Entry F) :=
  ⟨l.bus0, -1, .link l.name, l.active⟩ :: ⟨l.bus1, l.eff, .link l.name, l.active⟩ ::
    (l.extra.filter (fun e => e.1 ≠ "")).map (fun e => ⟨e.1, e.2, .link l.name, l.active⟩)

/-- All terms (587-637). -/
def entries (n : Net F) (losses : Bool) : List (Entry F) :=
  n.gens.map (fun g => ⟨g.bus, 1 * g.sign, .gen g.name, g.active⟩) ++
  n.stores.map (fun g => ⟨g.bus, 1 * g.sign, .store g.name, g.active⟩) ++
  n.units.map (fun g => ⟨g.bus, 1 * g.sign, .dispatch g.name, g.active⟩) ++
  n.units.map (fun g => ⟨g.bus, -1 * g.sign, .charge g.name, g.active⟩) ++
  n.lines.flatMap (branchEntries .line) ++
  n.trafos.flatMap (branchEntries .trafo) ++
  n.links.flatMap linkEntries ++
  (if losses then
    n.lines.flatMap (lossEntries .lineLoss) ++ n.trafos.flatMap (lossEntries .trafoLoss)
  else [])

/-- Terms at a bus, without those whose variable does not exist. -/
def termsAt (n : Net F) (losses : Bool) (b : Name) : List (F × NVar) :=
  ((entries n losses).filter (fun e => decide (e.bus = b) && e.present)).map (fun e => (e.coef, e.var))

/-- Right-hand side (640-646). -/
def loadAt (n : Net F) (b : Name) : F :=
  ((n.loads.filter (fun l => l.active && decide (l.bus = b))).map (fun l => - l.pSet * l.sign)).sum

inductive BErr
  /-- "Empty LHS with non-zero RHS" (654-655) -/
  | emptyLhs
  /-- `merge` of no expressions raises -/
  | noExpressions
deriving DecidableEq, Repr

/-- `define_nodal_balance_constraints` for the given buses; rows without terms are masked. -/
def balance (n : Net F) (losses : Bool) (buses : List Name) : Except BErr (List (Name × Con NVar F)) :=
  if (entries n losses).all (fun e => !buses.contains e.bus) then .error .noExpressions
  else if buses.any (fun b => (termsAt n losses b).isEmpty && decide (loadAt n b ≠ 0)) then
    .error .emptyLhs
  else .ok ((buses.filter (fun b => !(termsAt n losses b).isEmpty)).map
    (fun b => (b, ⟨termsAt n losses b, .eq, loadAt n b⟩)))

/-- All values in columns whose name contains "bus" (63-66). -/
def busRefs (n : Net F) : List Name :=
  (n.gens.map (·.bus) ++ n.stores.map (·.bus) ++ n.units.map (·.bus) ++
    n.lines.flatMap (fun l => [l.bus0, l.bus1]) ++ n.trafos.flatMap (fun l => [l.bus0, l.bus1]) ++
    n.links.flatMap (fun l => l.bus0 :: l.bus1 :: l.extra.map (·.1)) ++
    n.loads.map (·.bus)).filter (· ≠ "")

/-- `get_strongly_meshed_buses`; sorting is left out. -/
def meshed (n : Net F) (threshold : Nat) : List Name :=
  (busRefs n).dedup.filter (fun b => threshold < (busRefs n).count b)

/-- The nodal balance of `create_model` (285-307). -/
def createBalance (n : Net F) (losses : Bool) (threshold : Nat) :
    Except BErr (List (Name × Con NVar F)) :=
  let m := meshed n threshold
  let weak := n.buses.filter (fun b => !m.contains b)
  if !m.isEmpty && !weak.isEmpty then
    match balance n losses weak with
    | .error e => .error e
    | .ok r1 => match balance n losses m with
      | .error e => .error e
      | .ok r2 => .ok (r1 ++ r2)
  else balance n losses n.buses

end Verif.Opt.Nodal
