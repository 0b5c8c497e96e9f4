import Mathlib.Algebra.Field.Basic
import Mathlib.Algebra.BigOperators.Group.List.Basic

/-!
# Model of the distribution of slack power in `n.pf(distribute_slack=True)`

Bus weights: `pf.py` 505-517 and 614-659; generator shares: `pf.py` 776-805 (sub-networks with at
least two buses) and 372-407 (single-bus sub-networks).  One snapshot; floats are elements of a
field, an infinite share (non-zero weight divided by a zero sum) is `none`.
-/

namespace Verif.PowerFlow.Slack

abbrev Name := String

inductive Err | typeError | attributeError | valueError | keyError
deriving DecidableEq

structure Gen (F : Type) where
  name : Name
  bus : Name
  pNom : F
  pNomOpt : F
  pSet : F
deriving DecidableEq

/-- The argument `slack_weights`.  `series named w` is a `pd.Series` (or a dict, which becomes a
series whose index has no name), `named` tells whether its index has a name. -/
inductive Weights (F : Type)
  | pSet
  | pNom
  | pNomOpt
  | series (named : Bool) (w : List (Name × F))

variable {F : Type} [Field F] [DecidableEq F]

/-- One element of `normed(s).fillna(0)`: `0/0` is NaN and becomes 0. -/
def share (x total : F) : Option F :=
  if total = 0 then (if x = 0 then some 0 else none) else some (x / total)

def weightOf (w : List (Name × F)) (n : Name) : F :=
  match w.find? (fun e => e.1 = n) with
  | some e => e.2
  | none => 0

/-- `groupby(bus).sum()` at bus `b`. -/
def sumAt (gens : List (Gen F)) (val : Gen F → F) (b : Name) : F :=
  ((gens.filter (fun g => g.bus = b)).map val).sum

/-- The weights of `buses_o` before normalisation, and their sum. -/
def normedOver (buses : List Name) (val : Name → F) (b : Name) : Option F :=
  share (val b) ((buses.map val).sum)

/-- Bus weights (505-517, 614-659). `gens` are all generators of the network. -/
def busWeights (sw : Weights F) (gens : List (Gen F)) (buses : List Name) :
    Except Err (Name → Option F) :=
  match sw with
  | .pSet => .ok (normedOver buses (sumAt gens Gen.pSet))
  | .pNom =>
    if gens.all (fun g => g.pNom = 0) then .error .valueError
    else .ok (normedOver buses (sumAt gens Gen.pNom))
  | .pNomOpt =>
    if gens.all (fun g => g.pNomOpt = 0) then .error .valueError
    else .ok (normedOver buses (sumAt gens Gen.pNomOpt))
  | .series named w =>
    if w.all (fun e => gens.any (fun g => g.bus ∈ buses && g.name = e.1)) then
      -- `groupby(slack_weights.index.name)` needs a name
      if named then .ok (normedOver buses (sumAt gens (fun g => weightOf w g.name)))
      else .error .typeError
    else if w.all (fun e => e.1 ∈ buses) then .ok (normedOver buses (weightOf w))
    else .error .valueError

/-- Shares of the generators `group` of one bus (776-799). -/
def groupShares (sw : Weights F) (gens : List (Gen F)) (buses : List Name) (group : List (Gen F)) :
    Except Err (Gen F → Option F) :=
  match sw with
  | .pSet => .ok (fun g => share g.pSet ((group.map Gen.pSet).sum))
  | .series _ w =>
    if w.all (fun e => gens.any (fun g => g.bus ∈ buses && g.name = e.1)) then
      -- `slack_weights.loc[group.index]` raises for a generator without a weight
      if group.all (fun g => w.any (fun e => e.1 = g.name)) then
        .ok (fun g => share (weightOf w g.name) ((group.map (fun g => weightOf w g.name)).sum))
      else .error .keyError
    else byPNom group
  | _ => byPNom group
where
  /-- `if all(p_nom) == 0: p_nom = 1` is taken as soon as one `p_nom` is zero; then `(1).pipe`
  raises (795-799). -/
  byPNom (group : List (Gen F)) : Except Err (Gen F → Option F) :=
    if group.all (fun g => g.pNom ≠ 0) then
      .ok (fun g => share g.pNom ((group.map Gen.pNom).sum))
    else .error .attributeError

/-- Generator adjustments at one bus (800-805), `adj` is the bus's `distributed_slack_power`. -/
def adjustGroup (sw : Weights F) (gens : List (Gen F)) (buses : List Name) (adj : F)
    (group : List (Gen F)) : Except Err (List (Gen F × Option F)) :=
  match groupShares sw gens buses group with
  | .error e => .error e
  | .ok f => .ok (group.map (fun g => (g, (f g).map (adj * ·))))

/-- The loop over the buses with generators (776). -/
def adjustAll (sw : Weights F) (gens : List (Gen F)) (buses : List Name) (adj : Name → F) :
    List Name → Except Err (List (Gen F × Option F))
  | [] => .ok []
  | b :: rest =>
    match gens.filter (fun g => g.bus = b) with
    | [] => adjustAll sw gens buses adj rest
    | g :: gs =>
      match adjustGroup sw gens buses (adj b) (g :: gs) with
      | .error e => .error e
      | .ok out =>
        match adjustAll sw gens buses adj rest with
        | .error e => .error e
        | .ok out' => .ok (out ++ out')

/-- Single-bus sub-networks (372-407), result per generator: `none` is NaN or infinite.  The
shares by `p_nom` are a series over generators, which `.multiply` aligns with a series over
snapshots: all results are NaN.  A custom series fails at `slack_weights in [...]`, unless it has
fewer than two entries (not modelled).  The check for all-zero weights is over all generators. -/
def singleBus (sw : Weights F) (gens group : List (Gen F)) (adj : F) :
    Except Err (List (Gen F × Option F)) :=
  match sw with
  | .pNom => if gens.all (fun g => g.pNom = 0) then .error .valueError
    else .ok (group.map (fun g => (g, none)))
  | .pNomOpt => if gens.all (fun g => g.pNomOpt = 0) then .error .valueError
    else .ok (group.map (fun g => (g, none)))
  | .pSet => if gens.all (fun g => g.pSet = 0) then .error .valueError
    else .ok (group.map (fun g => (g, (share g.pSet ((group.map Gen.pSet).sum)).map (adj * ·))))
  | .series _ _ => .error .valueError

end Verif.PowerFlow.Slack
