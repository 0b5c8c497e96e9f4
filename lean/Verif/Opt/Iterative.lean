import Verif.Opt.Discrete

/-!
# Model of the iterative transmission expansion

`optimize_transmission_expansion_iteratively` (`optimization/abstract.py` 131-352) for lines.  Each
optimisation is a parameter: it returns the capacities of the extendable lines or fails.  Capacities
are not negative.  The convergence measure is a parameter as well (`true`: not below the threshold).  Tracking of
iterations has no effect on the lines and is left out.
-/

namespace Verif.Opt.Iterative

open Verif.Opt.Discrete

/-- Numbers that may result from dividing by zero. -/
inductive Num (F : Type)
  | fin (x : F)
  | inf
  | nan
deriving DecidableEq, Repr

structure ILine (F : Type) where
  name : String
  ext : Bool
  /-- has a standard type -/
  typed : Bool
  carrier : String
  sNom : F
  sNomOpt : F
  sNomMin : F
  sNomMax : Option F
  cost : F
  x : Num F
  r : Num F
  numPar : F
  /-- `sqrt(3) * i_nom * v_nom` of the type -/
  base : F

variable {F : Type} [Field F] [LinearOrder F] [FloorRing F]

/-- `a / b` for non-negative numbers. -/
def ratio (a b : F) : Num F := if b = 0 then (if a = 0 then .nan else .inf) else .fin (a / b)

/-- `x / f`. -/
def Num.div : Num F → Num F → Num F
  | .nan, _ => .nan
  | _, .nan => .nan
  | .fin _, .inf => .fin 0
  | .inf, .inf => .nan
  | .inf, .fin _ => .inf
  | .fin x, .fin f => if f = 0 then (if x = 0 then .nan else .inf) else .fin (x / f)

/-- Initial number of parallel lines (197). -/
def start (l : ILine F) : ILine F :=
  if l.ext && l.typed then { l with numPar := l.sNom / l.base } else l

/-- Results of an optimisation (`assign_solution`). -/
def solved (sol : String → F) (l : ILine F) : ILine F :=
  { l with sNomOpt := if l.ext then sol l.name else l.sNom }

/-- `update_line_params` (199-207). -/
def updateParams (prev : F) (l : ILine F) : ILine F :=
  if !l.ext then l
  else if l.typed then { l with numPar := l.sNomOpt / l.base }
  else { l with
    x := if l.carrier = "AC" then l.x.div (ratio l.sNomOpt prev) else l.x
    r := if l.carrier = "DC" then l.r.div (ratio l.sNomOpt prev) else l.r }

/-- `s_nom_prev` (288): `iteration` is never zero. -/
def previous (iteration : Nat) (l : ILine F) : F := if iteration ≠ 0 then l.sNomOpt else l.sNom

def iterStep (iteration : Nat) (sol : String → F) (l : ILine F) : ILine F :=
  updateParams (previous iteration l) (solved sol l)

/-- The loop (278-303), with the number of optimisations. -/
def loop (solve : Nat → List (ILine F) → Option (String → F)) (big : List (ILine F) → List (ILine F) → Bool)
    (minIt maxIt it : Nat) (diff : Bool) (ls : List (ILine F)) : Except Unit (List (ILine F) × Nat) :=
  if diff || decide (it < minIt) then
    if maxIt < it then .ok (ls, it - 1)
    else match solve it ls with
      | none => .error ()
      | some sol => loop solve big minIt maxIt (it + 1) (big ls (ls.map (iterStep it sol))) (ls.map (iterStep it sol))
  else .ok (ls, it - 1)
termination_by maxIt + 1 - it

/-- Fixing of extendable lines (318-319) and discretisation of all lines (234-256). -/
def fixed (unit : Option F) (thr : F) (frac : Bool) (l : ILine F) : ILine F :=
  let l' := { l with sNom := if l.ext then l.sNomOpt else l.sNom, ext := false }
  match unit with
  | none => l'
  | some u => if u = 0 then l' else { l' with sNom := discretized l.sNomOpt l.sNomMax u (if thr = 0 then 3 / 10 else thr) frac }

/-- Last optimisation, with all lines fixed, and restoring (327-342). -/
def final (unit : Option F) (thr : F) (frac : Bool) (l : ILine F) : ILine F :=
  let o := solved (fun _ => 0) (fixed unit thr frac l)
  if l.ext then { o with sNom := l.sNom, ext := true } else o

/-- The whole function for lines. -/
def expand (solve : Nat → List (ILine F) → Option (String → F)) (big : List (ILine F) → List (ILine F) → Bool)
    (minIt maxIt : Nat) (unit : Option F) (thr : F) (frac : Bool) (ls : List (ILine F)) :
    Except Unit (List (ILine F) × Nat) :=
  match loop solve big minIt maxIt 1 true (ls.map start) with
  | .error e => .error e
  | .ok (ls', k) => .ok (ls'.map (final unit thr frac), k)

/-- Objective and constant afterwards (344-350); links that were fixed contribute `links`. -/
def objectives (obj const links : F) (ls : List (ILine F)) : F × F :=
  let add := links + (ls.map (fun l => l.cost * (l.sNomOpt - l.sNomMin))).sum
  (obj + add, const - add)

end Verif.Opt.Iterative
