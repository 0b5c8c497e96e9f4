import Verif.Opt.Storage

/-!
# Model of the rolling horizon

`optimize_with_rolling_horizon` (`optimization/abstract.py` 457-510).  Snapshots are numbered from 0; recorded values
are functions of the snapshot.  A window in which the optimisation fails leaves the records alone (a warning only).
-/

namespace Verif.Opt.Rolling

/-- `range(start, len, step)`. -/
def starts (len step start : Nat) : List Nat :=
  if start < len ∧ 0 < step then start :: starts len step (start + step) else []
termination_by len - start

/-- The windows, from first to one behind the last snapshot (484-490). -/
def windows (len horizon : Nat) (overlap : Int) : Except Unit (List (Nat × Nat)) :=
  if (horizon : Int) ≤ overlap then .error ()
  else .ok ((starts len ((horizon : Int) - overlap).toNat 0).map (fun s => (s, min len (s + horizon))))

variable {F : Type} [Field F] [LinearOrder F]

/-- Data of a storage seen from a window that begins at snapshot `s`. -/
def shiftTo (a : Storage F) (s : Nat) (initial : F) : Storage F :=
  { a with initial := initial, active := fun t => a.active (s + t), eh := fun t => a.eh (s + t), keep := fun t => a.keep (s + t) }

/-- Initial level of a window (496-503): the recorded level before it; the given one for the first window. -/
def initialOf (given : F) (level : Nat → F) (first : Bool) (s : Nat) : F := if first then given else level (s - 1)

/-- Recording of a column (`set_from_frame`). -/
def record (s t : Nat) (new old : Nat → F) (k : Nat) : F := if s ≤ k ∧ k < t then new (k - s) else old k

/-- Recorded level and dispatch of a store. -/
structure Rec (F : Type) where
  e : Nat → F
  p : Nat → F

/-- A run of optimisations for one store, each with a feasible solution.  The store is not multi-indexed. -/
inductive Run (a : Storage F) : List (Nat × Nat) → Bool → Rec F → Rec F → Prop
  | nil (first : Bool) (R : Rec F) : Run a [] first R R
  | cons (first : Bool) (R R' : Rec F) (s t : Nat) (rest : List (Nat × Nat)) (val : EVar → F) (per : Nat → Nat)
      (hval : Feasible val (storeCons (shiftTo a s (initialOf a.initial R.e first s)) ⟨t - s, false, per⟩))
      (hrest : Run a rest false ⟨record s t (fun k => val (.e k)) R.e, record s t (fun k => val (.p k)) R.p⟩ R') :
      Run a ((s, t) :: rest) first R R'

end Verif.Opt.Rolling
