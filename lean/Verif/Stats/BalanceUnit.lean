import Verif.Stats.Aggregate

/-!
# The unit shown with an energy balance (model)

`bus_carrier_unit` (`pypsa/descriptors.py` 483-515), which `n.statistics.energy_balance` calls with its argument `bus_carrier` (`pypsa/statistics/expressions.py` 1755).
-/

namespace Verif.Stats.BalanceUnit

/-- What is written to `df.attrs["unit"]`; `carrier dependent` is a string of its own there. -/
inductive Shown
  | dependent
  | unit (u : Option String)
deriving DecidableEq, Repr

inductive Err
  | unknown (carriers : List String)
  | item
deriving DecidableEq, Repr

/-- The list the argument stands for (504-505). -/
def asked : Sel → List String
  | .all => []
  | .str s => [s]
  | .list l => l

/-- `bus_carrier_unit` (501-515). -/
def shown (n : Net) (s : Sel) : Except Err Shown :=
  match s with
  | .all => .ok .dependent
  | _ =>
    let missing := (asked s).filter (fun c => !(n.buses.map (n.busCol "carrier")).contains (some c))
    if !missing.isEmpty then .error (.unknown missing) else
    let units := ((n.buses.filter (fun b => match n.busCol "carrier" b with
      | none => false
      | some c => (asked s).contains c)).map (n.busCol "unit")).dedup
    match units with
    | [] => .error .item
    | [u] => .ok (.unit u)
    | _ => .ok .dependent

end Verif.Stats.BalanceUnit
