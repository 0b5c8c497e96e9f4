import Verif.Network.Transfer

/-!
# Model of calls of `merge` with all their options

`io.merge` (`pypsa/io.py` 1591-1670) with `inplace` and `with_time`, and `Network.__add__` (`pypsa/networks.py` 370-372).  A call gives what it
returns or raises, and the network it was called on afterwards.  `Network.add` is taken to change nothing when it raises (`Network/Model.lean`).
-/

namespace Verif.Network

variable {V : Type}

/-- One class of the loop (1664-1668). -/
def mergeStep (withTime : Bool) (sch : Schema V) (cols : Cls → List Attr) (other : Network V) (c : Cls) (n : Network V) : Except Err (Network V) :=
  match add sch n c (other.comps c).names "" false false (staticKwargs (other.comps c) (other.comps c).names (cols c)) with
  | .error e => .error e
  | .ok n' => .ok (if withTime then (other.comps c).dyn.foldl (fun m e => importSeries sch m c e.1 e.2 false) n' else n')

/-- The loop (1664-1668): what it raises, and the network it has worked on by then. -/
def mergeSteps (withTime : Bool) (sch : Schema V) (cols : Cls → List Attr) (other : Network V) : List Cls → Network V → Option Err × Network V
  | [], n => (none, n)
  | c :: cs, n =>
    match mergeStep withTime sch cols other c n with
    | .error e => (some e, n)
    | .ok n' => mergeSteps withTime sch cols other cs n'

/-- `n.merge(other, components_to_skip, inplace, with_time)` (1628-1670). -/
def mergeCall [DecidableEq V] (sch : Schema V) (lay : Layout) (n other : Network V) (skip : List Cls) (inplace withTime : Bool) :
    Except Err (Option (Network V)) × Network V :=
  let cs := mergeClasses lay skip
  if cs.any (fun c => (other.comps c).names.any (fun x => x ∈ (n.comps c).names)) then (.error .valueError, n)
  else if withTime && decide (n.snaps ≠ other.snaps) then (.error .valueError, n)
  else if withTime && !sameWeights n other then (.error .valueError, n)
  else
    match mergeSteps withTime sch lay.cols other cs n with
    | (some e, m) => (.error e, if inplace then m else n)
    | (none, m) => if inplace then (.ok none, m) else (.ok (some m), n)

/-- `n + other` (`networks.py` 370-372): calls `merge` and returns `None`. -/
def plus [DecidableEq V] (sch : Schema V) (lay : Layout) (n other : Network V) : Except Err (Option (Network V)) × Network V :=
  match mergeCall sch lay n other [] false true with
  | (.error e, m) => (.error e, m)
  | (.ok _, m) => (.ok none, m)

end Verif.Network
