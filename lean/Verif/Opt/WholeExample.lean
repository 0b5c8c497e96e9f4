import Verif.Opt.WholeRows

/-!
# A small network with its optimum

Examples for the theorems about prices: four buses, two snapshots, every class of component, all capacities of the
assets but one generator to be optimised.
-/

namespace Verif.Opt.Whole

/-- Investment columns with a capital cost only. -/
def exInvest (cost : ℚ) : Invest ℚ := ⟨0, none, 0, none, cost, fun _ => true, true⟩

def exCosts (marginal storage : ℚ) : Costs ℚ := ⟨fun _ => marginal, fun _ => 0, fun _ => storage, fun _ => 0, fun _ => 0⟩

def exUnit' (ext : Bool) (nom : ℚ) : Unit' ℚ where
  nom := nom
  extendable := ext
  committable := false
  active := fun _ => true
  minPu := fun _ => 0
  maxPu := fun t => if t = 0 then 1 else 1 / 2
  minUp := 0
  minDown := 0
  upBefore := 0
  downBefore := 0
  rampUp := fun _ => none
  rampDown := fun _ => none
  rampUpStatic := none
  rampDownStatic := none
  rampStart := 1
  rampShut := 1
  startUpCost := 0
  shutDownCost := 0
  histStatus := []
  histP := 0

def exGen : GenW ℚ := ⟨"wind", "A", 1, exUnit' true 1, exInvest 8, exCosts 1 0, fun _ => none, none, none⟩
def exPeaker : GenW ℚ := ⟨"peaker", "D", 1, exUnit' false 20, exInvest 0, exCosts 12 0, fun _ => none, none, none⟩
def exLink : LinkW ℚ := ⟨"pump", "A", "B", fun _ => 1 / 2, [("", fun _ => 1)], exUnit' true 0, exInvest 3, exCosts 1 0, fun _ => none⟩
def exLine : BranchW ℚ := ⟨"line", "A", "C", fun _ => true, true, 0, fun _ => 1, 0, exInvest 2, fun _ => none⟩
def exTrafo : BranchW ℚ := ⟨"trafo", "C", "D", fun _ => true, true, 0, fun _ => 1, 0, exInvest 1, fun _ => none⟩
def exStorage : Storage ℚ := ⟨fun _ => true, true, false, false, 0, fun _ => 1, fun _ => 1 / 2⟩
def exStore : StoreW ℚ := ⟨"tank", "B", 1, exStorage, true, 0, fun _ => 0, fun _ => 1, exInvest 1, exCosts 0 (1 / 4), fun _ => none⟩
def exBattery : UnitW ℚ := ⟨"battery", "D", 1, ⟨exStorage, fun _ => 1 / 2, fun _ => 1, fun _ => 0⟩, true, 0, fun _ => -1,
  fun _ => 1, 3, exInvest 1, exCosts 0 0, fun _ => none⟩

def exNet : WNet ℚ where
  len := 2
  multi := false
  period := fun _ => 0
  rolling := false
  linearized := false
  tangents := 0
  threshold := 45
  sw := fun t => if t = 0 then 2 else 1
  gw := fun _ => 2
  periods := none
  buses := ["A", "B", "C", "D"]
  gens := [exGen, exPeaker]
  links := [exLink]
  stores := [exStore]
  units := [exBattery]
  lines := [exLine]
  trafos := [exTrafo]
  loads := [⟨"B", -1, fun t => if t = 0 then 4 else 3, fun _ => true⟩, ⟨"D", -1, fun t => if t = 0 then 4 else 14, fun _ => true⟩]

/-- A limit on the emissions of the peaker. -/
def exOther : List (Con WVar ℚ) :=
  [⟨[(2, .of "Generator" "peaker" (.op "p" 0)), (1, .of "Generator" "peaker" (.op "p" 1))], .le, 6⟩]

/-- The optimum. -/
def exTable : List (WVar × ℚ) :=
  [(.of "Generator" "peaker" (.op "p" 0), 0), (.of "Generator" "peaker" (.op "p" 1), 6),
   (.of "Generator" "wind" .cap, 104 / 5), (.of "Generator" "wind" (.op "p" 0), 104 / 5),
   (.of "Generator" "wind" (.op "p" 1), 52 / 5), (.of "Line" "line" .cap, 36 / 5), (.of "Line" "line" (.op "s" 0), 36 / 5),
   (.of "Line" "line" (.op "s" 1), 36 / 5), (.of "Link" "pump" .cap, 68 / 5), (.of "Link" "pump" (.op "p" 0), 68 / 5),
   (.of "Link" "pump" (.op "p" 1), 16 / 5), (.of "StorageUnit" "battery" .cap, 16 / 5),
   (.of "StorageUnit" "battery" (.op "p_dispatch" 0), 0), (.of "StorageUnit" "battery" (.op "p_dispatch" 1), 4 / 5),
   (.of "StorageUnit" "battery" (.op "p_store" 0), 16 / 5), (.of "StorageUnit" "battery" (.op "p_store" 1), 0),
   (.of "StorageUnit" "battery" (.op "state_of_charge" 0), 8 / 5),
   (.of "StorageUnit" "battery" (.op "state_of_charge" 1), 0), (.of "Store" "tank" .cap, 14 / 5),
   (.of "Store" "tank" (.op "e" 0), 14 / 5), (.of "Store" "tank" (.op "e" 1), 0),
   (.of "Store" "tank" (.op "p" 0), -14 / 5), (.of "Store" "tank" (.op "p" 1), 7 / 5),
   (.of "Transformer" "trafo" .cap, 36 / 5), (.of "Transformer" "trafo" (.op "s" 0), 36 / 5),
   (.of "Transformer" "trafo" (.op "s" 1), 36 / 5), (.const, 8)]

def exVal (v : WVar) : ℚ := ((exTable.find? (fun e => decide (e.1 = v))).map (·.2)).getD 0

/-- Duals of the nodal balance. -/
def exDuals : List ((Name × Nat) × ℚ) :=
  [(("A", 0), 21 / 8), (("B", 0), 61 / 4), (("C", 0), 21 / 8), (("D", 0), 139 / 40), (("A", 1), 63 / 4),
   (("B", 1), 67 / 2), (("C", 1), 71 / 4), (("D", 1), 179 / 10)]

def exLam (b : Name) (t : Nat) : ℚ := ((exDuals.find? (fun e => decide (e.1 = (b, t)))).map (·.2)).getD 0

/-- Duals of the other rows. -/
def exMu : List ℚ :=
  [0, 0, -5 / 8, 0, -59 / 4, 1293 / 40, 0, 0, 0, 0, 0, -3, 0, 0, 0, 0, -1, 209 / 8, 0, 61 / 4, 67 / 2, 0, 219 / 40, 0, 0,
   0, 0, -1, 179 / 20, 0, 0, 0, 537 / 40, 0, 179 / 20, 179 / 10, 0, 0, 0, 0, -2, 0, 0, -17 / 20, 0, -3 / 20, -1, -59 / 10]

theorem exModel_some : (createModel exNet exOther).isSome = true := by decide +kernel

def exModel : Program ℚ := (createModel exNet exOther).get exModel_some

theorem exModel_eq : createModel exNet exOther = some exModel := (Option.some_get exModel_some).symm

/-- It is enough to look at the variables that occur. -/
theorem stationary_of {V F : Type} [Field F] [DecidableEq V] (obj : List (F × V)) (rows : List (Con V F × F)) (vs : List V)
    (h1 : ∀ e ∈ obj, e.2 ∈ vs) (h2 : ∀ r ∈ rows, ∀ e ∈ r.1.terms, e.2 ∈ vs)
    (h : ∀ v ∈ vs, coef obj v = (rows.map (fun r => r.2 * coef r.1.terms v)).sum) (v : V) :
    coef obj v = (rows.map (fun r => r.2 * coef r.1.terms v)).sum := by
  by_cases hv : v ∈ vs
  · exact h v hv
  · have hz : ∀ ts : List (F × V), (∀ e ∈ ts, e.2 ∈ vs) → coef ts v = 0 := by
      intro ts ht
      unfold coef
      exact sum_zero _ _ (fun e he => if_neg (fun h' : e.2 = v => hv (h' ▸ ht e he)))
    rw [hz obj h1]
    exact (sum_zero _ _ (fun r hr => by rw [hz _ (h2 r hr), mul_zero])).symm

theorem exSolved : Solved exModel exVal exLam exMu where
  len := by decide +kernel
  answer := {
    feasible := by decide +kernel
    upper := by decide +kernel
    lower := by decide +kernel
    stationary := stationary_of _ _ (exTable.map (·.1)) (by decide +kernel) (by decide +kernel) (by decide +kernel)
    noGap := by decide +kernel }

theorem exSound : Sound exNet := by
  constructor <;> decide +kernel

theorem exLinear : LinearCosts exNet where
  gens := by intro g hg t; simp [exNet, exGen, exPeaker] at hg; rcases hg with rfl | rfl <;> rfl
  links := by intro g hg t; simp [exNet] at hg; subst hg; rfl
  stores := by intro g hg t; simp [exNet] at hg; subst hg; rfl
  units := by intro g hg t; simp [exNet] at hg; subst hg; rfl
  genEvents := by decide +kernel
  linkEvents := by decide +kernel

theorem exWeight : ∀ t < exNet.len, weight exNet t ≠ 0 := by decide +kernel

end Verif.Opt.Whole
