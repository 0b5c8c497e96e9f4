import Mathlib.Algebra.Order.Floor.Ring
import Mathlib.Data.Rat.Floor

/-!
# Model of discretised capacities and iterative transmission expansion

`discretized_capacity` and `optimize_transmission_expansion_iteratively`
(`optimization/abstract.py` 27-128, 131-352).  Infinite maximal capacities are `none`.
-/

namespace Verif.Opt.Discrete

variable {F : Type} [Field F] [LinearOrder F] [FloorRing F]

/-- `x // u`. -/
def floorDiv (x u : F) : F := ((⌊x / u⌋ : ℤ) : F)

/-- `x % u`. -/
def modulo (x u : F) : F := x - floorDiv x u * u

/-- `discretized_capacity` (`min_units` always raises). -/
def discretized (opt : F) (max' : Option F) (unit thr : F) (fractional : Bool) : F :=
  let block := (floorDiv opt unit + if thr * unit ≤ modulo opt unit then 1 else 0) * unit
  match max' with
  | none => block
  | some mx =>
    if modulo mx unit = 0 then block
    else if mx - opt < unit then
      if fractional = true ∧ thr ≤ modulo opt unit / modulo mx unit then mx
      else if mx < unit then mx
      else floorDiv opt unit * unit
    else block

end Verif.Opt.Discrete
