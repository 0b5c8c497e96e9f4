import Verif.Stats.CostProps
import Verif.Opt.RulesProps

/-!
# Runs of `optimize_mga` on the whole problem (`pypsa/optimization/abstract.py` 513-653)

Simplified: the costs of what is recorded are taken from the statistics as C64 shows them to be (`Stats.Cost`): all capacities and the
operation of all assets but links.  The weights are the terms of the alternate objective (C64), of linear problems.
-/

namespace Verif.Opt.Whole.Alternatives

open Doc

variable {F : Type} [Field F] [LinearOrder F]

/-- `optimal_cost` (582-590): of what is recorded in the network. -/
def optimalCost (w : WNet F) (rec : WVar → F) : F :=
  Verif.Stats.fullCost (objNet w) (fun v => rec (objVar v)) (weight w) - Verif.Stats.linkCost (objNet w) (fun v => rec (objVar v)) (weight w)

/-- `fixed_cost` (582-590): all capacities as installed. -/
def fixedCost (w : WNet F) : F := Verif.Stats.capitalAll (objNet w) (fun _ _ a => a.nom)

/-- The constraint `budget` (596-598). -/
def budgetRow (w : WNet F) (P : Program F) (rec : WVar → F) (slack : F) : Con WVar F :=
  ⟨P.linear, .le, (1 + slack) * optimalCost w rec - fixedCost w⟩

/-- The alternate objective (618-633). -/
def alternate (sense : F) (goal : List (F × WVar)) : List (F × WVar) := goal.map (fun e => (e.1 * sense, e.2))

/-- `optimize_mga` up to the call of the solver; `none` if it raises. -/
def mga (w : WNet F) (other : List (Con WVar F)) (rec : WVar → F) (slack sense : F) (goal : List (F × WVar)) : Option (Program F) :=
  (createModel w other).map (fun P => { P with linear := alternate sense goal, quadratic := [], rows := P.rows ++ [budgetRow w P rec slack] })

/-- What is asked for in a run. -/
structure Job (F : Type) where
  slack : F
  sense : F
  goal : List (F × WVar)

/-- A run on a network with these records ends with an optimum of the problem, which is recorded. -/
def Ran (w : WNet F) (other : List (Con WVar F)) (D : (WVar → F) → Prop) (rec : WVar → F) (j : Job F) (x : WVar → F) : Prop :=
  ∃ Q, mga w other rec j.slack j.sense j.goal = some Q ∧ SolverBest w Q D x

/-- Runs one after another on the same network. -/
inductive Runs (w : WNet F) (other : List (Con WVar F)) (D : (WVar → F) → Prop) : (WVar → F) → List (Job F) → (WVar → F) → Prop
  | nil (rec) : Runs w other D rec [] rec
  | cons {rec x y j js} : Ran w other D rec j x → Runs w other D x js y → Runs w other D rec (j :: js) y

end Verif.Opt.Whole.Alternatives
