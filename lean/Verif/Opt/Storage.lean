import Verif.Opt.LP

/-!
# Model of the energy balance of stores and storage units

`define_storage_unit_constraints` (`optimization/constraints.py` 815-901),
`define_store_constraints` (904-975), the spillage variables (`optimization/variables.py` 131-145).
Each row concerns one asset, so the rows are modelled per asset.  Snapshots of the window are
numbered from 0; `period t` is the first level of a multi-indexed snapshot.  The retention factor
`(1 - standing_loss) ** elapsed_hours` is a given number per snapshot.
-/

namespace Verif.Opt

/-- What the two functions have in common. -/
structure Storage (F : Type) where
  active : Nat → Bool
  cyclic : Bool
  cyclicPerPeriod : Bool
  initialPerPeriod : Bool
  initial : F
  /-- elapsed hours, `snapshot_weightings.stores` -/
  eh : Nat → F
  /-- `(1 - standing_loss) ** eh` -/
  keep : Nat → F

/-- Snapshots of the window. -/
structure Window where
  len : Nat
  multi : Bool
  period : Nat → Nat

/-- `ffill` along the snapshots: the last label so far. -/
def ffill {α : Type} (f : Nat → Option α) : Nat → Option α
  | 0 => f 0
  | t + 1 => match f (t + 1) with
    | some x => some x
    | none => ffill f t

/-- `roll(snapshot=1)`. -/
def roll {α : Type} (n : Nat) (f : Nat → Option α) : Nat → Option α
  | 0 => f (n - 1)
  | t + 1 => f t

/-- `active.cumsum(dim)`. -/
def cumActive (active : Nat → Bool) (t : Nat) : Nat := ((List.range (t + 1)).filter active).length

variable {F : Type} [Field F] [LinearOrder F]

/-- `include_previous_soc` (843), `include_previous_e` (931). -/
def includePrev (a : Storage F) (t : Nat) : Bool := a.cyclic || cumActive a.active t ≠ 1

/-- `previous_soc` (845-851), `previous_e` (933-935), as the snapshot of the referenced variable. -/
def prevLabel (a : Storage F) (w : Window) (t : Nat) : Option Nat :=
  if includePrev a t then
    ffill (roll w.len (ffill (fun s => if a.active s then some s else none))) t
  else none

/-- Last snapshot of a period in the window. -/
def lastOf (w : Window) (t : Nat) : Nat :=
  ((List.range w.len).filter (fun s => w.period s = w.period t)).getLastD t

/-- `soc.data.sel(snapshot=(p, sl)).roll(snapshot=1)` (872-875): the previous snapshot of the
period, the last one for its first; a masked variable has no label.  The snapshots of a period are
assumed to be consecutive. -/
def prevLabelPP (a : Storage F) (w : Window) (t : Nat) : Option Nat :=
  let s := match t with
    | 0 => lastOf w 0
    | s + 1 => if w.period s = w.period (s + 1) then s else lastOf w (s + 1)
  if a.active s then some s else none

/-- `include_previous_soc_pp` (879-880). -/
def includePrevPP (a : Storage F) (w : Window) (t : Nat) : Bool :=
  a.cyclic || (a.active t && (match t with
    | 0 => false
    | s + 1 => w.period s = w.period (s + 1)))

/-- `per_period` (862-865, 947-950). -/
def perPeriod (a : Storage F) (w : Window) : Bool :=
  w.multi && (a.cyclicPerPeriod || a.initialPerPeriod)

/-- The previous level which enters the balance (887, 968). -/
def previous (a : Storage F) (w : Window) (t : Nat) : Option Nat :=
  if perPeriod a w then (if includePrevPP a w t then prevLabelPP a w t else none)
  else prevLabel a w t

/-- Whether the previous level counts, so that no initial level is added (888-890, 969). -/
def included (a : Storage F) (w : Window) (t : Nat) : Bool :=
  if perPeriod a w then includePrevPP a w t else includePrev a t

/-- Variables of a store. -/
inductive EVar
  | e (t : Nat)
  | p (t : Nat)
deriving DecidableEq, Repr

/-- 904-975. -/
def storeCons (a : Storage F) (w : Window) : List (Con EVar F) :=
  (List.range w.len).flatMap (fun t => if a.active t then
    [⟨[(-1, .e t), (- a.eh t, .p t)] ++
        (match previous a w t with | some s => [(a.keep t, .e s)] | none => []),
      .eq, if included a w t then 0 else - a.initial⟩] else [])

/-- A storage unit. -/
structure StorUnit (F : Type) extends Storage F where
  effStore : Nat → F
  effDispatch : Nat → F
  inflow : Nat → F

/-- Variables of a storage unit. -/
inductive SVar
  | soc (t : Nat)
  | pDispatch (t : Nat)
  | pStore (t : Nat)
  | spill (t : Nat)
deriving DecidableEq, Repr

/-- Spillage exists where there is inflow (`variables.py` 139-145). -/
def hasSpill (a : StorUnit F) (t : Nat) : Bool := a.active t && decide (0 < a.inflow t)

/-- 815-901. -/
def storageUnitCons (a : StorUnit F) (w : Window) : List (Con SVar F) :=
  (List.range w.len).flatMap (fun t => if a.active t then
    [⟨[(-1, .soc t), (-1 / a.effDispatch t * a.eh t, .pDispatch t),
        (a.effStore t * a.eh t, .pStore t)] ++
        (if hasSpill a t then [(- a.eh t, .spill t)] else []) ++
        (match previous a.toStorage w t with | some s => [(a.keep t, .soc s)] | none => []),
      .eq, - (a.inflow t * a.eh t) - (if included a.toStorage w t then 0 else a.initial)⟩] else [])

end Verif.Opt
