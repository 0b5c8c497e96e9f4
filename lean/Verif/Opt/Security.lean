import Verif.Opt.Accessor

/-!
# Model of the security constrained optimisation

`optimize_security_constrained` (`optimization/abstract.py` 355-454): the rows added for one snapshot.  `bodf k l` is the entry of the matrix of their common sub-network.  Rows are listed by outage and branch
instead of by component class.
-/

namespace Verif.Opt.Security

open Verif.Opt.Accessor

/-- Component class and name of a passive branch. -/
abbrev Key := String × String

inductive SVar' (κ : Type)
  | flow (k : κ)
  | loss (k : κ)
  | cap (k : κ)
deriving DecidableEq, Repr

structure SBranch (κ F : Type) where
  key : κ
  cls : Cls
  sub : Nat
  asset : Asset F

variable {κ F : Type} [DecidableEq κ] [Field F] [LinearOrder F]

/-- The argument `branch_outages`: absent, a list of names of lines, or pairs. -/
inductive Outages
  | all
  | lines (names : List String)
  | pairs (keys : List Key)

/-- 391-402: an index of pairs is an index, so it is combined with "Line" as well and not found. -/
def resolve (branches : List Key) : Outages → Except Unit (List Key)
  | .all => .ok branches
  | .lines names =>
    if names.any (fun n => !branches.contains ("Line", n)) then .error () else .ok (names.map (fun n => ("Line", n)))
  | .pairs keys => if keys.isEmpty then .ok [] else .error ()

/-- Variable of the row of a single asset. -/
def ofBVar (k : κ) : BVar → SVar' κ
  | .x => .flow k
  | .loss => .loss k
  | .cap => .cap k

/-- The operational rows of a branch (the templates, 439-446). -/
def template (losses : Bool) (b : SBranch κ F) : List (Con (SVar' κ) F) :=
  (opRows b.cls .s losses b.asset).map (fun c => ⟨c.terms.map (fun e => (e.1, ofBVar b.key e.2)), c.sense, c.rhs⟩)

/-- The added rows (421-452). -/
def securityRows (losses : Bool) (branches : List (SBranch κ F)) (bodf : κ → κ → F) (outages : List κ) :
    List (Con (SVar' κ) F) :=
  (branches.filter (fun l => outages.contains l.key)).flatMap (fun l =>
    (branches.filter (fun k => decide (k.sub = l.sub))).flatMap (fun k =>
      (template losses k).map (fun c => { c with terms := c.terms ++ [(bodf k.key l.key, .flow l.key)] })))

/-- 421-452: the matrix has a row per branch in service (`calculate_B_H`, pf.py 1125-1130), the labels
`branches_i` (networks.py 1953-1960) also contain those out of service, and a frame of different size raises. -/
def addSecurity (losses : Bool) (branches : List (SBranch κ F)) (bodf : κ → κ → F) (outages : List κ) :
    Except Unit (List (Con (SVar' κ) F)) :=
  if branches.any (fun l => outages.contains l.key && branches.any (fun k => decide (k.sub = l.sub) && !k.asset.active)) then
    .error ()
  else .ok (securityRows losses branches bodf outages)

end Verif.Opt.Security
