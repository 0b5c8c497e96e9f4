import Verif.Opt.LP

/-!
# Model of the capacity, set point and energy sum constraints

`define_nominal_variables` and `define_modular_variables` (`optimization/variables.py` 84-128),
`define_nominal_constraints_for_extendables`, `define_fixed_nominal_constraints`,
`define_modular_constraints`, `define_fixed_operation_constraints`,
`define_total_supply_constraints` (`optimization/constraints.py` 363-390, 728-812, 1032-1094), for one
component class.  Infinite and missing numbers are `none`.
-/

namespace Verif.Opt.Capacity

abbrev Name := String

structure CapAsset (F : Type) where
  name : Name
  ext : Bool
  nomMin : F
  /-- `none`: infinite -/
  nomMax : Option F
  nomMod : F
  /-- `{attr}_set`; `none`: not given -/
  nomSet : Option F

inductive CVar
  | cap (n : Name)
  | nMod (n : Name)
deriving DecidableEq, Repr

inductive CErr
  | keyError
deriving DecidableEq, Repr

variable {F : Type} [Field F] [LinearOrder F]

/-- `define_nominal_constraints_for_extendables`. -/
def nominalCons (as : List (CapAsset F)) : List (Con CVar F) :=
  (as.filter (·.ext)).flatMap (fun a => ⟨[(1, .cap a.name)], .ge, a.nomMin⟩ ::
    (match a.nomMax with
      | some u => [⟨[(1, .cap a.name)], .le, u⟩]
      | none => []))

/-- `{attr}_extendable and ({attr}_mod>0)`. -/
def modular (a : CapAsset F) : Bool := a.ext && decide (0 < a.nomMod)

/-- `define_modular_constraints`. -/
def modularCons (as : List (CapAsset F)) : List (Con CVar F) :=
  (as.filter modular).map (fun a => ⟨[(1, .cap a.name), (- a.nomMod, .nMod a.name)], .eq, 0⟩)

/-- Rows of one asset in `define_fixed_nominal_constraints`. -/
def setRow (a : CapAsset F) : List (Con CVar F) :=
  match a.nomSet with
  | some x => [⟨[(1, .cap a.name)], .eq, x⟩]
  | none => []

/-- `define_fixed_nominal_constraints`: the capacity variables are selected by label, so a set
capacity of an asset that is not extendable raises (749-751). -/
def fixedNominalCons (as : List (CapAsset F)) : Except CErr (List (Con CVar F)) :=
  if as.any (fun a => a.nomSet.isSome && !a.ext) then .error .keyError
  else .ok (as.flatMap setRow)

/-- All rows about capacities (`optimize.py` 262-283). -/
def capacityCons (as : List (CapAsset F)) : Except CErr (List (Con CVar F)) :=
  match fixedNominalCons as with
  | .error e => .error e
  | .ok fixed => .ok (nominalCons as ++ fixed ++ modularCons as)

/-- Domains of the variables: the numbers of modules are integers, at least zero. -/
def InDomain (as : List (CapAsset F)) (val : CVar → F) : Prop :=
  ∀ a ∈ as, modular a = true → 0 ≤ val (.nMod a.name) ∧ ∃ k : Int, val (.nMod a.name) = k

/-- A generator in the energy sum constraints. -/
structure SumGen (F : Type) where
  name : Name
  active : Nat → Bool
  eSumMin : Option F
  eSumMax : Option F

/-- A row, which the solver interface drops if it has no terms. -/
def rowOf {V : Type} (terms : List (F × V)) (s : Sense) (rhs : F) : List (Con V F) :=
  if terms.isEmpty then [] else [⟨terms, s, rhs⟩]

/-- `(p * eh).sum("snapshot")`; the variables are pairs of name and snapshot. -/
def sumTerms (sns : List Nat) (w : Nat → F) (g : SumGen F) : List (F × (Name × Nat)) :=
  (sns.filter g.active).map (fun t => (w t, (g.name, t)))

/-- `define_total_supply_constraints`. -/
def totalSupplyCons (sns : List Nat) (w : Nat → F) (gs : List (SumGen F)) :
    List (Con (Name × Nat) F) :=
  gs.flatMap (fun g => match g.eSumMin with
    | some x => rowOf (sumTerms sns w g) .ge x
    | none => []) ++
  gs.flatMap (fun g => match g.eSumMax with
    | some x => rowOf (sumTerms sns w g) .le x
    | none => [])

/-- A column of `n.dynamic(c)[attr + "_set"]`. -/
structure SetCol (F : Type) where
  name : Name
  value : Nat → Option F
  active : Nat → Bool

/-- `define_fixed_operation_constraints`. -/
def fixedOperationCons (sns : List Nat) (cols : List (SetCol F)) : List (Con (Name × Nat) F) :=
  cols.flatMap (fun c => sns.flatMap (fun t =>
    match c.value t with
    | some x => if c.active t then [⟨[(1, (c.name, t))], .eq, x⟩] else []
    | none => []))

end Verif.Opt.Capacity
