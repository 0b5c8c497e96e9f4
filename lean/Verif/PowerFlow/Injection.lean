import Mathlib.Algebra.BigOperators.Group.List.Basic
import Mathlib.Algebra.Field.Basic

/-!
# Model of the bus injections of the linear power flow and of the contingency results

The injections in `sub_network_lpf` (`pf.py` 1468-1499, 1531-1534), the link flows of
`_network_prepare_and_run_pf` (`pf.py` 146-157), and `network_lpf_contingency`
(`contingency.py` 68-136) around the BODF.  One snapshot.
-/

namespace Verif.PowerFlow

abbrev Name := String

/-- A generator, load, store, storage unit or shunt.  `p` is `p_set` (for shunts `g_pu`). -/
structure OnePort (F : Type) where
  name : Name
  bus : Name
  sign : F
  active : Bool := true
  p : F

/-- A link with its output ports (`bus1`, `bus2`, ... with their efficiencies). -/
structure LinkRow (F : Type) where
  bus0 : Name
  ports : List (Name × F)
  active : Bool := true
  pSet : F

variable {F : Type} [Field F]

/-- The flows `(bus, p_i)` at the ports of a link: `p0 = p_set` for every link, `p_i = -p0 *
efficiency_i` for the ports with a bus (146-157).  The flag `active` is not consulted. -/
def LinkRow.flows (k : LinkRow F) : List (Name × F) :=
  (k.bus0, k.pSet) :: (k.ports.filter (fun q => q.1 ≠ "")).map (fun q => (q.1, - k.pSet * q.2))

/-- `n.buses_t.p` (1480-1499). -/
def injection (ops : List (OnePort F)) (links : List (LinkRow F)) (x : Name) : F :=
  (((ops.filter (fun o => o.active && o.bus = x)).map (fun o => o.p * o.sign)).sum) +
  (links.map (fun k => - ((k.flows.filter (fun q => q.1 = x)).map (·.2)).sum)).sum

/-- The slack generator takes up the adjustment (1531-1534). -/
def adjustSlack (slack : Name) (adj : F) (ops : List (OnePort F)) : List (OnePort F) :=
  ops.map (fun o => if o.name = slack then { o with p := o.p + adj } else o)

/-! ## Contingency -/

abbrev Key := String × Name

inductive Err where
  | valueError | indexError | keyError
  deriving DecidableEq

/-- A sub-network after `calculate_BODF`: all its branches with the flag `active`, and the
matrix over the active ones. -/
structure Sub (F : Type) where
  branches : List (Key × Bool)
  bodf : Nat → Nat → F

def Sub.activeCount (s : Sub F) : Nat := (s.branches.filter (·.2)).length

/-- `a + b` for two series: the indices are aligned and what is in only one of them is NaN. -/
def alignAdd (a b : List (Key × F)) (k : Key) : Option F :=
  match a.find? (fun e => e.1 = k), b.find? (fun e => e.1 = k) with
  | some x, some y => some (x.2 + y.2)
  | _, _ => none

/-- `pd.Series(BODF[:, branch_i] * p0_base[branch], sub_network._branches.index)`. -/
def bodfColumn (s : Sub F) (i : Nat) (f : F) : Except Err (List (Key × F)) :=
  if s.activeCount ≤ i then .error .indexError
  else if s.activeCount ≠ s.branches.length then .error .valueError
  else .ok (s.branches.mapIdx (fun k e => (e.1, s.bodf k i * f)))

/-- One column of the result of `network_lpf_contingency` (`contingency.py` 112-136).
`calculate_BODF` fails for a sub-network without active branches (`np.concatenate` of an
empty list, or a matrix without dimensions). -/
def contingency (base : List (Key × F)) (subs : List (Sub F)) (out : Key) :
    Except Err (Key → Option F) :=
  if subs.any (fun s => s.activeCount = 0) then .error .valueError
  else
    match subs.find? (fun s => out ∈ s.branches.map (·.1)), base.find? (fun e => e.1 = out) with
    | some s, some f =>
      match bodfColumn s ((s.branches.map (·.1)).idxOf out) f.2 with
      | .error e => .error e
      | .ok col => .ok (alignAdd base col)
    | _, _ => .error .keyError

end Verif.PowerFlow
