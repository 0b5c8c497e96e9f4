import Verif.Opt.Capacity
import Mathlib.Data.List.Dedup
import Mathlib.Data.String.Basic
import Mathlib.Data.List.Sort

/-!
# Model of the global constraints

`optimization/global_constraints.py`.  Assumptions about libraries: `groupby` of pandas leaves out rows
whose key is missing; `linopy.merge` of expressions of the same shape takes the labels of the
first one and otherwise aligns by label ("the concatenation uses the coordinates of the first
object", its documentation); rows without terms are dropped.
-/

namespace Verif.Opt.Global

open Verif.Opt.Capacity (rowOf)

abbrev Name := String

/-- An asset with a capacity; `bus` is `bus0` for branches.  `activeIn` is
`n.get_active_assets(c, period)`. -/
structure Asset (F : Type) where
  name : Name
  carrier : Name
  bus : Name
  ext : Bool
  activeIn : Int → Bool
  length : F
  capitalCost : F

/-- A class of `nominal_attrs`. -/
structure Cls (F : Type) where
  cname : Name
  hasCarrier : Bool
  onePort : Bool
  assets : List (Asset F)

/-- The capacity variable of an asset: class and name. -/
abbrev Var := Name × Name

variable {F : Type} [Field F] [LinearOrder F]

/-! ## Capacity limits per carrier -/

/-- `period is None or n.get_active_assets(c, period)`. -/
def inPeriod (a : Asset F) : Option Int → Bool
  | none => true
  | some p => a.activeIn p

/-- `ext_i` (59-66, 145-152). -/
def matching (c : Cls F) (carrier : Name) (period : Option Int) : List (Asset F) :=
  c.assets.filter (fun a => a.ext && decide (a.carrier = carrier) && inPeriod a period)

/-- The labels of a `groupby`, which are sorted. -/
def sortedLabels (l : List Name) : List Name := l.dedup.insertionSort (· ≤ ·)

/-- `expr.groupby(label).sum()`. -/
def groupTerms (cname : Name) (label : Asset F → Name) (as : List (Asset F)) :
    List (Name × List (F × Var)) :=
  (sortedLabels (as.map label)).map (fun b =>
    (b, (as.filter (fun a => decide (label a = b))).map (fun a => (1, (cname, a.name)))))

/-- All lists have the same length. -/
def sameShape {α : Type} (ls : List (List α)) : Bool :=
  match ls with
  | [] => true
  | l :: rest => rest.all (fun l' => l'.length == l.length)

/-- Terms of a label. -/
def lookup {T : Type} (b : Name) (l : List (Name × List T)) : List T :=
  (l.filter (fun e => decide (e.1 = b))).flatMap (·.2)

/-- Terms of a position. -/
def termsAtPos {T : Type} (i : Nat) (l : List (Name × List T)) : List T :=
  match l[i]? with
  | some e => e.2
  | none => []

/-- `linopy.merge`. -/
def mergeExprs {T : Type} (ls : List (List (Name × List T))) : List (Name × List T) :=
  if sameShape ls then
    match ls with
    | [] => []
    | l :: _ => (List.range l.length).filterMap (fun i => (l[i]?).map (fun e =>
        (e.1, ls.flatMap (termsAtPos i))))
  else ((ls.flatMap (fun l => l.map (·.1))).dedup).map (fun b => (b, ls.flatMap (lookup b)))

/-- A row of `n.global_constraints`; `bus` is `none` if there is no such column. -/
structure TechGlc (F : Type) where
  carrier : Name
  sense : Sense
  period : Option Int
  bus : Option Name
  constant : F

inductive GErr
  | keyError
  | valueError
deriving DecidableEq, Repr

/-- The expressions per bus of one carrier and period (50-73). -/
def techExprs (cs : List (Cls F)) (carrier : Name) (period : Option Int) :
    List (List (Name × List (F × Var))) :=
  (cs.filter (fun c => c.hasCarrier && !(matching c carrier period).isEmpty)).map
    (fun c => groupTerms c.cname (·.bus) (matching c carrier period))

/-- `define_tech_capacity_expansion_limit` for one constraint: the grouping by
`investment_period` leaves out constraints without one (45-47). -/
def techLimit (cs : List (Cls F)) (g : TechGlc F) : Except GErr (List (Con Var F)) :=
  match g.period with
  | none => .ok []
  | some p =>
    let ls := techExprs cs g.carrier (some p)
    if ls.isEmpty then .ok []
    else match g.bus with
      | none => .ok (rowOf ((mergeExprs ls).flatMap (·.2)) g.sense g.constant)
      | some b => match (mergeExprs ls).find? (fun e => decide (e.1 = b)) with
        | none => .error .keyError
        | some e => .ok (rowOf e.2 g.sense g.constant)

/-! ## Columns of the buses -/

/-- `remainder.rsplit("_", 1)`. -/
def rsplit (s : List Char) : Option (List Char × List Char) :=
  if '_' ∈ s then
    some ((s.reverse.dropWhile (· ≠ '_')).tail.reverse, (s.reverse.takeWhile (· ≠ '_')).reverse)
  else none

def preMin : List Char := ['n', 'o', 'm', '_', 'm', 'i', 'n', '_']

def preMax : List Char := ['n', 'o', 'm', '_', 'm', 'a', 'x', '_']

/-- Interpretation of a column name starting with `nom_` (112-137); `pyInt` is `int`. The result
`none` is the warning.  `periods` is `none` if snapshots have no period level. -/
def parseCol (pyInt : List Char → Option Int) (carriers : List (List Char)) (periods : Option (List Int))
    (col : List Char) : Except GErr (Option (Sense × List Char × Option Int)) :=
  let sense : Option Sense :=
    if preMin.isPrefixOf col then some .ge
    else if preMax.isPrefixOf col then some .le
    else none
  match sense with
  | none => .ok none
  | some sense =>
    let remainder := col.drop 8
    if remainder ∈ carriers then .ok (some (sense, remainder, none))
    else match periods with
      | none => .ok none
      | some ps => match rsplit remainder with
        | none => .error .valueError
        | some (carrier, period) => match pyInt period with
          | none => .error .valueError
          | some p =>
            if carrier ∉ carriers ∨ p ∉ ps then .ok none else .ok (some (sense, carrier, some p))

/-- The rows of one column (139-175); `value` is the column of `n.buses`. -/
def busRows (cs : List (Cls F)) (buses : List Name) (value : Name → Option F) (sense : Sense)
    (carrier : Name) (period : Option Int) : List (Con Var F) :=
  buses.flatMap (fun b => match value b with
    | none => []
    | some v => rowOf ((cs.filter (fun c => c.onePort && c.hasCarrier)).flatMap (fun c =>
        ((matching c carrier period).filter (fun a => decide (a.bus = b))).map
          (fun a => (1, (c.cname, a.name))))) sense v)

/-! ## Growth limits -/

structure Carrier (F : Type) where
  name : Name
  /-- `none`: infinite -/
  maxGrowth : Option F
  maxRelative : F

/-- `active.cumsum() == 1` in the period with number `k` (219-221). -/
def firstActive (ps : List Int) (a : Asset F) (k : Nat) : Bool :=
  ((ps.take (k + 1)).countP a.activeIn) == 1

/-- `max_relative_growth` of a carrier, at least zero (195-197). -/
def relGrowth (carriers : List (Carrier F)) (c : Name) : F :=
  match carriers.find? (fun x => decide (x.name = c)) with
  | some x => max x.maxRelative 0
  | none => 0

/-- `max_growth` of a carrier that has a finite one. -/
def absGrowth (carriers : List (Carrier F)) (c : Name) : Option F :=
  (carriers.find? (fun x => decide (x.name = c))).bind (·.maxGrowth)

/-- `limited_i` (212-216). -/
def limited (carriers : List (Carrier F)) (c : Cls F) : List (Asset F) :=
  c.assets.filter (fun a => a.ext && (absGrowth carriers a.carrier).isSome)

/-- Terms of the capacity first active in period `k`, with a factor. -/
def newTerms (ps : List Int) (cname : Name) (as : List (Asset F)) (b : Name) (k : Nat) (x : F) :
    List (F × Var) :=
  (as.filter (fun a => decide (a.carrier = b) && firstActive ps a k)).map (fun a => (x, (cname, a.name)))

/-- The expression of one class in period `k` (223-228). -/
def growthExpr (carriers : List (Carrier F)) (ps : List Int) (c : Cls F) (k : Nat) :
    List (Name × List (F × Var)) :=
  let as := limited carriers c
  (sortedLabels (as.map (·.carrier))).map (fun b =>
    (b, newTerms ps c.cname as b k 1 ++
      if as.any (fun a => decide (0 < relGrowth carriers a.carrier)) then
        (match k with
          | 0 => []
          | k' + 1 => newTerms ps c.cname as b k' (- relGrowth carriers b))
      else []))

/-- `define_growth_limit` (178-238). -/
def growthCons (carriers : List (Carrier F)) (ps : List Int) (cs : List (Cls F)) : List (Con Var F) :=
  let cls := cs.filter (fun c => c.hasCarrier && !(limited carriers c).isEmpty)
  (List.range ps.length).flatMap (fun k =>
    (mergeExprs (cls.map (fun c => growthExpr carriers ps c k))).flatMap (fun e =>
      match absGrowth carriers e.1 with
      | some g => rowOf e.2 .le g
      | none => []))

/-! ## Primary energy and operational limits -/

structure EGen (F : Type) where
  name : Name
  carrier : Name
  eff : Nat → F
  active : Nat → Bool

/-- A storage unit or store. -/
structure EStor (F : Type) where
  name : Name
  carrier : Name
  cyclic : Bool
  initial : F
  active : Nat → Bool

inductive EVar
  | gen (n : Name) (t : Nat)
  | soc (n : Name) (t : Nat)
  | e (n : Name) (t : Nat)
deriving DecidableEq, Repr

/-- Selected snapshots (262-268, 345-350): `period` is the `investment_period` of the constraint,
`periodOf` the period level of the snapshots if there is one.  `none`: not in the horizon. -/
def selected (sns : List Nat) (periodOf : Option (Nat → Int)) (period : Option Int) :
    Except GErr (Option (List Nat)) :=
  match period with
  | none => .ok (some sns)
  | some p => match periodOf with
    | none => .error .keyError
    | some f => if sns.any (fun t => decide (f t = p)) then .ok (some (sns.filter (fun t => decide (f t = p))))
      else .ok none

/-- `soc.ffill("snapshot").isel(snapshot=-1)`: the last variable that exists. -/
def lastVar (active : Nat → Bool) (sel : List Nat) : Option Nat := (sel.filter active).getLast?

/-- Terms of the storage of one class (281-300). -/
def storTerms (coef : Name → F) (mk : Name → Nat → EVar) (ss : List (EStor F)) (sel : List Nat) :
    List (F × EVar) :=
  ss.flatMap (fun s => match lastVar s.active sel with
    | some t => [(- coef s.carrier, mk s.name t)]
    | none => [])

/-- What they subtract from the right-hand side. -/
def storRhs (coef : Name → F) (ss : List (EStor F)) : F := (ss.map (fun s => coef s.carrier * s.initial)).sum

/-- The row of `define_primary_energy_limit` for selected snapshots (270-316); `coef` is the
carrier attribute (zero for unknown carriers), `w` the generator weighting, times years if there are
several periods. -/
def primaryRows (gens : List (EGen F)) (units stores : List (EStor F)) (coef : Name → F) (w : Nat → F)
    (sense : Sense) (constant : F) (sel : List Nat) : List (Con EVar F) :=
  let gs := gens.filter (fun g => decide (coef g.carrier ≠ 0))
  let us := units.filter (fun s => decide (coef s.carrier ≠ 0) && !s.cyclic)
  let es := stores.filter (fun s => decide (coef s.carrier ≠ 0) && !s.cyclic)
  rowOf (gs.flatMap (fun g => (sel.filter g.active).map
      (fun t => (coef g.carrier / g.eff t * w t, EVar.gen g.name t))) ++
    storTerms coef .soc us sel ++ storTerms coef .e es sel) sense
    (constant - storRhs coef us - storRhs coef es)

/-- `define_primary_energy_limit` for one constraint. -/
def primaryLimit (gens : List (EGen F)) (units stores : List (EStor F)) (coef : Name → F) (w : Nat → F)
    (sense : Sense) (constant : F) (sns : List Nat) (periodOf : Option (Nat → Int))
    (period : Option Int) : Except GErr (List (Con EVar F)) :=
  match selected sns periodOf period with
  | .error e => .error e
  | .ok none => .ok []
  | .ok (some sel) => .ok (primaryRows gens units stores coef w sense constant sel)

/-- The row of `define_operational_limit` for selected snapshots (351-384). -/
def operationalRows (gens : List (EGen F)) (units stores : List (EStor F)) (carrier : Name) (w : Nat → F)
    (sense : Sense) (constant : F) (sel : List Nat) : List (Con EVar F) :=
  let gs := gens.filter (fun g => decide (g.carrier = carrier))
  let us := units.filter (fun s => decide (s.carrier = carrier) && !s.cyclic)
  let es := stores.filter (fun s => decide (s.carrier = carrier) && !s.cyclic)
  rowOf (gs.flatMap (fun g => (sel.filter g.active).map (fun t => (w t, EVar.gen g.name t))) ++
    storTerms (fun _ => 1) .soc us sel ++ storTerms (fun _ => 1) .e es sel) sense
    (constant - storRhs (fun _ => 1) us - storRhs (fun _ => 1) es)

/-- `define_operational_limit` for one constraint: a period outside the horizon raises. -/
def operationalLimit (gens : List (EGen F)) (units stores : List (EStor F)) (carrier : Name) (w : Nat → F)
    (sense : Sense) (constant : F) (sns : List Nat) (periodOf : Option (Nat → Int))
    (period : Option Int) : Except GErr (List (Con EVar F)) :=
  match selected sns periodOf period with
  | .error e => .error e
  | .ok none => .error .keyError
  | .ok (some sel) => .ok (operationalRows gens units stores carrier w sense constant sel)

/-! ## Transmission limits -/

/-- `str.strip` for spaces. -/
def strip (s : List Char) : List Char :=
  ((s.dropWhile (fun c => c.isWhitespace)).reverse.dropWhile (fun c => c.isWhitespace)).reverse

/-- `re.sub("[\\[\\]\\(\\)]", "", s)` (404-405). -/
def substr (s : List Char) : List Char :=
  s.filter (fun c => !(c == '[' || c == ']' || c == '(' || c == ')'))

/-- `car` (410-413). -/
def carriersOf (text : List Char) : List (List Char) := (text.splitOn ',').map (fun c => substr (strip c))

/-- The branches of one class in the limit (419-436): `periods` is the period level of the
snapshots. -/
def transAssets (c : Cls F) (car : List (List Char)) (periods : Option (List Int)) (period : Option Int) :
    List (Asset F) :=
  c.assets.filter (fun a => a.ext && decide (a.carrier.toList ∈ car) &&
    (match period with
      | some p => a.activeIn p
      | none => match periods with
        | some ps => ps.any a.activeIn
        | none => true))

/-- `define_transmission_volume_expansion_limit` for one constraint; `cs` are Line and Link. -/
def volumeCons (cs : List (Cls F)) (text : List Char) (periods : Option (List Int)) (period : Option Int)
    (sense : Sense) (constant : F) : List (Con Var F) :=
  rowOf (cs.flatMap (fun c => (transAssets c (carriersOf text) periods period).map
    (fun a => (a.length, (c.cname, a.name))))) sense constant

/-- `weights` (489-508); `pw` are the objective weightings of the periods. -/
def costWeight (periods : Option (List Int)) (pw : Int → F) (period : Option Int) (a : Asset F) : F :=
  match period with
  | some _ => 1
  | none => match periods with
    | some ps => (ps.map (fun p => if a.activeIn p then pw p else 0)).sum
    | none => 1

/-- `define_transmission_expansion_cost_limit` for one constraint. -/
def costCons (cs : List (Cls F)) (text : List Char) (periods : Option (List Int)) (pw : Int → F)
    (period : Option Int) (sense : Sense) (constant : F) : List (Con Var F) :=
  rowOf (cs.flatMap (fun c => (transAssets c (carriersOf text) periods period).map
    (fun a => (a.capitalCost * costWeight periods pw period a, (c.cname, a.name))))) sense constant

end Verif.Opt.Global
