import Verif.Network.Model
import Mathlib.Data.Rat.Defs

/-!
# Weightings of snapshots and of investment periods (model)

`Network.set_snapshots` with `weightings_from_timedelta` (`pypsa/networks.py` 691-764), `set_investment_periods` (1025-1094) and the setters of `snapshot_weightings` (1016-1023) and `investment_period_weightings` (1111-1123), with the columns of the weightings, which `Model.lean` does not have.
Adding and removing components does not touch any of this. Missing numbers are `none`.
-/

namespace Verif.Network.Weightings

/-- A table of weightings. -/
structure Weights (I : Type) where
  index : List I
  cols : List String
  val : I → String → Option ℚ

structure State where
  snaps : List Snap
  w : Weights Snap
  pw : Weights Int

/-- What is assigned: a Series or a DataFrame. -/
inductive Given (I : Type)
  | series (index : List I) (val : I → Option ℚ)
  | frame (index : List I) (cols : List String) (val : I → String → Option ℚ)

def Given.index {I : Type} : Given I → List I
  | .series i _ => i
  | .frame i _ _ => i

inductive Fault
  | assertion
  | value
  | notImplemented
deriving DecidableEq, Repr

/-- `Series.diff(periods=1)`. -/
def diff : List ℚ → List (Option ℚ)
  | [] => []
  | a :: l => none :: List.zipWith (fun x y => some (y - x)) (a :: l) l

/-- `Series.shift(-1)`. -/
def shift : List (Option ℚ) → List (Option ℚ)
  | [] => []
  | _ :: l => l ++ [none]

/-- `Series.ffill()`. -/
def ffill (last : Option ℚ) : List (Option ℚ) → List (Option ℚ)
  | [] => []
  | none :: l => last :: ffill last l
  | some x :: l => some x :: ffill (some x) l

/-- `hours_per_step` (751-757). -/
def hours (times : List ℚ) : List (Option ℚ) := ffill none (shift (diff times))

/-- `df.reindex(index, fill_value=d)`. -/
def Weights.reindex {I : Type} [DecidableEq I] (w : Weights I) (index : List I) (d : ℚ) : Weights I :=
  ⟨index, w.cols, fun s k => if s ∈ w.index then w.val s k else some d⟩

/-- The body of the two setters (1017-1023, 1113-1123). -/
def assign {I : Type} [DecidableEq I] (labels : List I) (w : Weights I) (g : Given I) : Except Fault (Weights I) :=
  if g.index ≠ labels then .error .assertion else
  match g with
  | .series i v => .ok ⟨i, w.cols, fun s _ => v s⟩
  | .frame i c v => .ok ⟨i, c, v⟩

inductive Op
  /-- snapshots, default weighting, hours since some time if `weightings_from_timedelta` is set and they are times -/
  | snapshots (new : List Snap) (d : ℚ) (times : Option (Snap → ℚ))
  /-- periods, and whether they are integers -/
  | periods (ps : List Int) (integral : Bool)
  | weigh (g : Given Snap)
  | weighPeriods (g : Given Int)

/-- `set_snapshots` (732-760). -/
def setSnapshots (s : State) (new : List Snap) (d : ℚ) (times : Option (Snap → ℚ)) : State × Option Fault :=
  if new.isEmpty then ({ s with snaps := new }, some .value) else
  let w := s.w.reindex new d
  match times with
  | none => ({ s with snaps := new, w := w }, none)
  | some f => ({ s with snaps := new, w := ⟨new, w.cols, fun x _ => ((new.zip (hours (new.map f))).lookup x).join⟩ }, none)

/-- `set_investment_periods` (1046-1094). -/
def setPeriods (s : State) (ps : List Int) (integral : Bool) : State × Option Fault :=
  if ps.isEmpty then (s, none) else
  if !(integral && strictlyIncreasing ps) then (s, some .value) else
  if isMultiIndex s.snaps then
    if !(ps.all (fun p => p ∈ periodsOf s.snaps)) then (s, some .value)
    else if ps.length < (periodsOf s.snaps).length then (s, some .notImplemented)
    else ({ s with pw := s.pw.reindex (periodsOf s.snaps) 1 }, none)
  else
    let snaps := productIndex ps s.snaps
    ({ snaps := snaps, w := ⟨productIndex ps s.w.index, s.w.cols, fun x k => s.w.val x.flatten k⟩, pw := s.pw.reindex (periodsOf snaps) 1 }, none)

def step (s : State) : Op → State × Option Fault
  | .snapshots new d times => setSnapshots s new d times
  | .periods ps integral => setPeriods s ps integral
  | .weigh g =>
    match assign s.snaps s.w g with
    | .ok w => ({ s with w := w }, none)
    | .error e => (s, some e)
  | .weighPeriods g =>
    match assign (periodsOf s.snaps) s.pw g with
    | .ok pw => ({ s with pw := pw }, none)
    | .error e => (s, some e)

/-- A new network (300-314). -/
def start : State :=
  ⟨[.flat "now"], ⟨[.flat "now"], ["objective", "stores", "generators"], fun _ _ => some 1⟩, ⟨[], ["objective", "years"], fun _ _ => none⟩⟩

def run (s : State) (ops : List Op) : State := ops.foldl (fun s o => (step s o).1) s

end Verif.Network.Weightings
