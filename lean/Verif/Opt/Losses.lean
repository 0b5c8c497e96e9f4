import Verif.Opt.LP

/-!
# Model of the transmission loss approximation

`define_loss_constraints` (`optimization/constraints.py` 978-1020) and the loss variables
(`optimization/variables.py` 148-157), for one branch at one snapshot.
-/

namespace Verif.Opt

/-- A passive branch; `sNomMax = none` is infinity. -/
structure LossBranch (F : Type) where
  active : Bool
  extendable : Bool
  sNom : F
  sNomMax : Option F
  sMaxPu : F
  rPuEff : F

inductive LVar
  | loss
  | flow
deriving DecidableEq, Repr

variable {F : Type} [Field F] [LinearOrder F]

/-- `s_nom_max` (989-991). -/
def lossRating (b : LossBranch F) : Option F := if b.extendable then b.sNomMax else some b.sNom

/-- Rows for one tangent and one sign (1006-1020). -/
def tangentRow (b : LossBranch F) (snm : F) (tangents k : Nat) (sign : F) : Con LVar F :=
  let pk := (k : F) / (tangents : F) * b.sMaxPu * snm
  let lossk := b.rPuEff * pk ^ 2
  let slopek := 2 * b.rPuEff * pk
  ⟨[(1, .loss), (sign * slopek, .flow)], .ge, lossk - slopek * pk⟩

/-- The rows, or an error for an infinite maximal capacity (993-998).  The variable bound
`loss ≥ 0` (`variables.py` 157) is written as a row. -/
def lossCons (b : LossBranch F) (tangents : Nat) : Except Unit (List (Con LVar F)) :=
  match lossRating b with
  | none => .error ()
  | some snm => .ok (if b.active then
      ⟨[(1, .loss)], .ge, 0⟩ ::
      ⟨[(1, .loss)], .le, b.rPuEff * (b.sMaxPu * snm) ^ 2⟩ ::
      (List.range' 1 tangents).flatMap (fun k =>
        [tangentRow b snm tangents k (-1), tangentRow b snm tangents k 1])
    else [])

end Verif.Opt
