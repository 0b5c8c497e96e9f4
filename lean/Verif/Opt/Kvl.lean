import Verif.Opt.LP
import Verif.Graph.Cycles

/-!
# Model of the voltage law constraints

`define_kirchhoff_voltage_constraints` (`optimization/constraints.py` 669-725) for one sub-network
and one snapshot.  A branch is its position in `sub_network.branches()`; `w` is its `x_pu_eff`
(in AC sub-networks) or `r_pu_eff` (in others) (700-701); `C` comes from `find_cycles`.
`branches()` contains branches that are out of service; their flow variable does not exist and
their terms are dropped.  The rows of all sub-networks, periods and snapshots are independent.
-/

namespace Verif.Opt.Kvl

open Verif.Graph

variable {F : Type} [Field F]

/-- A branch is in service. -/
def inService (es : List Edge) (i : Nat) : Bool :=
  match es[i]? with
  | some e => e.active
  | none => false

/-- The row of one column of `C` (702-717). -/
def kvlRow (es : List Edge) (w : Nat → F) (col : List (Nat × Int)) : Con Nat F where
  terms := (List.range es.length).flatMap (fun i =>
    if column col i = 0 then [] else tm (inService es) (100000 * w i * (column col i : F)) i)
  sense := .eq
  rhs := 0

/-- All rows, or the error of `find_cycles`. -/
def kvlCons (es : List Edge) (w : Nat → F) (cycles : List (List Name)) :
    Except Err (List (Con Nat F)) :=
  match findCycles es cycles with
  | .error e => .error e
  | .ok C => .ok (C.map (kvlRow es w))

end Verif.Opt.Kvl
