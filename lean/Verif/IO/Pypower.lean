import Verif.PowerFlow.Admittance
import Verif.PowerFlow.Types

/-!
# Model of the import of PYPOWER cases

`import_from_pypower_ppc` (`io.py` 1674-1882) into an empty network, and the per-unit values which
the power flow computes from what was imported (`calculate_dependent_values`, `pf.py` 990-1018,
without standard types).

A case is given by the columns that are used; `status` is read into a column of the same name which
nothing consults, so the model keeps it in the case only.  Bus numbers are distinct, as in every
PYPOWER case.  Floats are elements of a field; a division by zero is `none` (inf or NaN in the
code).  Warnings are not modelled.  Columns which PyPSA does not know (area, zone, limits of reactive
power, rates B and C, ...) are not modelled.
-/

namespace Verif.IO.Pypower

inductive Err | indexError | keyError
deriving DecidableEq, Repr

structure PBus (F : Type) where
  num : Int
  type : Int
  pd : F
  qd : F
  gs : F
  bs : F
  vm : F
  vNom : F

structure PGen (F : Type) where
  bus : Int
  p : F
  q : F
  vSet : F
  pMax : F
  status : Bool

structure PBranch (F : Type) where
  bus0 : Int
  bus1 : Int
  r : F
  x : F
  b : F
  rateA : F
  tap : F
  shift : F
  status : Bool

structure Case (F : Type) where
  baseMVA : F
  bus : List (PBus F)
  gen : List (PGen F)
  branch : List (PBranch F)

/-! The network -/

structure Bus (F : Type) where
  name : Int
  vNom : F
  control : String
  vMagSet : F
deriving DecidableEq

structure Load (F : Type) where
  name : String
  bus : Int
  p : F
  q : F
deriving DecidableEq

structure Gen (F : Type) where
  name : String
  bus : Int
  p : F
  q : F
  vSet : F
  pNom : F
  /-- `none` is NaN -/
  control : Option String
deriving DecidableEq

structure Line (F : Type) where
  name : String
  bus0 : Int
  bus1 : Int
  r : Option F
  x : Option F
  b : Option F
  sNom : F
deriving DecidableEq

structure Trafo (F : Type) where
  name : String
  bus0 : Int
  bus1 : Int
  r : Option F
  x : Option F
  b : Option F
  sNom : F
  tap : F
  shift : F
  model : String
deriving DecidableEq

structure Shunt (F : Type) where
  name : String
  bus : Int
  g : Option F
  b : Option F
deriving DecidableEq

structure Net (F : Type) where
  buses : List (Bus F)
  loads : List (Load F)
  gens : List (Gen F)
  lines : List (Line F)
  trafos : List (Trafo F)
  shunts : List (Shunt F)
deriving DecidableEq

variable {F : Type} [Field F] [DecidableEq F]

/-- Division of floats; `none` is inf or NaN. -/
def fdiv (a b : F) : Option F := if b = 0 then none else some (a / b)

/-- 1731-1735: nominal voltages of zero become one. -/
def vFix (v : F) : F := if v = 0 then 1 else v

/-- `controls[int(i)]` (1738-1739) with Python's negative indices. -/
def control (t : Int) : Except Err String :=
  let i := if t < 0 then t + 4 else t
  if i = 0 then .ok "" else if i = 1 then .ok "PQ" else if i = 2 then .ok "PV"
  else if i = 3 then .ok "Slack" else .error .indexError

/-- A bus (1712-1739). -/
def toBus (b : PBus F) : Except Err (Bus F) :=
  (control b.type).map (fun c => { name := b.num, vNom := vFix b.vNom, control := c, vMagSet := b.vm })

/-- `map(buses.v_nom)`; `none` is NaN. -/
def vNomOf (buses : List (PBus F)) (i : Int) : Option F :=
  (buses.find? (fun b => b.num = i)).map (fun b => vFix b.vNom)

/-- `v_nom != v_nom_1`; NaN differs from everything. -/
def vDiffer (a b : Option F) : Bool :=
  match a, b with
  | some x, some y => decide (x ≠ y)
  | _, _ => true

/-- 1822-1829. -/
def isTrafo (buses : List (PBus F)) (l : PBranch F) : Bool :=
  vDiffer (vNomOf buses l.bus0) (vNomOf buses l.bus1) || (decide (l.tap ≠ 0) && decide (l.tap ≠ 1)) ||
  decide (l.shift ≠ 0)

/-- 1808-1815: a rating of zero is replaced if a value is given. -/
def sNomOf (over : Option F) (l : PBranch F) : F :=
  if l.rateA = 0 then over.getD l.rateA else l.rateA

/-- Names with a prefix, in order (1747, 1765-1767, 1861-1862). -/
def named {α β : Type} (f : String → α → β) (pfx : String) (l : List α) : List β :=
  l.zipIdx.map (fun p => f (pfx ++ toString p.2) p.1)

/-- A transformer (1836-1858); PyPSA's default `model` is `"t"` and the default `tap_side` is 0. -/
def toTrafo (base : F) (over : Option F) (nm : String) (l : PBranch F) : Trafo F :=
  let s := sNomOf over l
  { name := nm, bus0 := l.bus0, bus1 := l.bus1, r := fdiv (l.r * s) base, x := fdiv (l.x * s) base
    b := fdiv (l.b * base) s, sNom := s, tap := if l.tap = 0 then 1 else l.tap, shift := l.shift
    model := "t" }

/-- A line (1847-1850). -/
def toLine (base : F) (over : Option F) (buses : List (PBus F)) (nm : String) (l : PBranch F) :
    Line F :=
  let v := vNomOf buses l.bus0
  { name := nm, bus0 := l.bus0, bus1 := l.bus1, r := v.bind (fun v => fdiv (v ^ 2 * l.r) base)
    x := v.bind (fun v => fdiv (v ^ 2 * l.x) base), b := v.bind (fun v => fdiv (l.b * base) (v ^ 2))
    sNom := sNomOf over l }

/-- A load (1742-1747). -/
def toLoad (nm : String) (b : PBus F) : Load F := { name := nm, bus := b.num, p := b.pd, q := b.qd }

/-- A shunt impedance (1751-1763). -/
def toShunt (nm : String) (b : PBus F) : Shunt F :=
  { name := nm, bus := b.num, g := fdiv b.gs (vFix b.vNom ^ 2), b := fdiv b.bs (vFix b.vNom ^ 2) }

/-- A generator (1771-1786) with the control of its bus (1879). -/
def toGen (buses : List (Bus F)) (nm : String) (g : PGen F) : Gen F :=
  { name := nm, bus := g.bus, p := g.p, q := g.q, vSet := g.vSet, pNom := g.pMax
    control := (buses.find? (fun b => b.name = g.bus)).map (·.control) }

/-- 1882: the set points of the generators are assigned to their buses one after the other. -/
def setV (gens : List (PGen F)) (buses : List (Bus F)) : List (Bus F) :=
  gens.foldl (fun bs g => bs.map (fun b => if b.name = g.bus then { b with vMagSet := g.vSet } else b))
    buses

/-- `import_from_pypower_ppc` (1674-1882) into an empty network. -/
def importPpc (c : Case F) (over : Option F) : Except Err (Net F) :=
  (c.bus.mapM toBus).bind fun buses =>
  if c.gen.any (fun g => !buses.any (fun b => b.name = g.bus)) then .error .keyError
  else .ok
    { buses := setV c.gen buses
      loads := named toLoad "L" (c.bus.filter (fun b => decide (b.pd ≠ 0) || decide (b.qd ≠ 0)))
      gens := named (toGen buses) "G" c.gen
      lines := named (toLine c.baseMVA over c.bus) "L" (c.branch.filter (fun l => !isTrafo c.bus l))
      trafos := named (toTrafo c.baseMVA over) "T" (c.branch.filter (isTrafo c.bus))
      shunts := named toShunt "S" (c.bus.filter (fun b => decide (b.gs ≠ 0) || decide (b.bs ≠ 0))) }

/-- `n.transformers.model = m`, what a user does who wants another transformer model. -/
def Net.withModel (n : Net F) (m : String) : Net F :=
  { n with trafos := n.trafos.map (fun t => { t with model := m }) }

/-! ## Per-unit values and the data of the power flow -/

/-- `n.lines.bus0.map(n.buses.v_nom)` (`pf.py` 998) and likewise for shunts (1016). -/
def Net.vNomAt (n : Net F) (i : Int) : Option F :=
  (n.buses.find? (fun b => b.name = i)).map (·.vNom)

/-- `x / v` for possibly non-finite `x`. -/
def odiv (a : Option F) (v : F) : Option F := a.bind (fun a => fdiv a v)

/-- `r_pu`, `x_pu`, `b_pu` of a line (`pf.py` 1001-1004); `g` is not imported, so `g_pu = 0`. -/
def linePu (n : Net F) (l : Line F) : Option (F × F × F) := do
  let v ← n.vNomAt l.bus0
  let r ← odiv l.r (v ^ 2)
  let x ← odiv l.x (v ^ 2)
  let b ← l.b
  return (r, x, b * v ^ 2)

/-- `r_pu`, `x_pu`, `b_pu` of a transformer before the T-model conversion (`pf.py` 1008-1011). -/
def trafoPu (t : Trafo F) : Option (F × F × F) := do
  let r ← odiv t.r t.sNom
  let x ← odiv t.x t.sNom
  let b ← t.b
  return (r, x, b * t.sNom)

/-- `x_pu_eff` (`pf.py` 1005, 1012): the reactance of the linear power flow. -/
def lineXEff (n : Net F) (l : Line F) : Option F := (linePu n l).map (·.2.1)

def trafoXEff (t : Trafo F) : Option F := (trafoPu t).map (·.2.1 * t.tap)

/-- `g_pu` and `b_pu` of a shunt (`pf.py` 1016-1018). -/
def shuntPu (n : Net F) (s : Shunt F) : Option (F × F) := do
  let v ← n.vNomAt s.bus
  let g ← s.g
  let b ← s.b
  return (g * v ^ 2, b * v ^ 2)

noncomputable section

open Verif.PowerFlow Classical

variable {nb : Nat}

/-- A line as `calculate_Y` sees it; buses are numbered by `f`. -/
def lineBranch (f : Int → Fin nb) (n : Net ℝ) (l : Line ℝ) : Option (AC.Branch nb) :=
  (linePu n l).map (fun p =>
    { bus0 := f l.bus0, bus1 := f l.bus1, r := p.1, x := p.2.1, g := 0, b := p.2.2
      tap := none, tapSide := none, phase := none })

/-- A transformer as `calculate_Y` sees it, after `apply_transformer_t_model`. -/
def trafoBranch (f : Int → Fin nb) (t : Trafo ℝ) : Option (AC.Branch nb) :=
  (trafoPu t).map (fun p =>
    let q := Types.tModel { isT := decide (t.model = "t"), r := p.1, x := p.2.1, g := 0, b := p.2.2 }
    { bus0 := f t.bus0, bus1 := f t.bus1, r := q.r, x := q.x, g := q.g, b := q.b
      tap := some t.tap, tapSide := some 0, phase := some t.shift })

/-- All branches; `none` if a value is not finite. -/
def branchesOf (f : Int → Fin nb) (n : Net ℝ) : Option (List (AC.Branch nb)) := do
  let ls ← n.lines.mapM (lineBranch f n)
  let ts ← n.trafos.mapM (trafoBranch f)
  return ls ++ ts

def shuntsOf (f : Int → Fin nb) (n : Net ℝ) : Option (List (AC.Shunt nb)) :=
  n.shunts.mapM (fun s => (shuntPu n s).map
    (fun p => { bus := f s.bus, g := p.1, b := p.2, active := true }))

/-- `s` (`pf.py` 670-672): what generators feed in minus what loads take. -/
def injectionOf (f : Int → Fin nb) (n : Net ℝ) (i : Fin nb) : ℂ :=
  ((n.gens.filter (fun g => f g.bus = i)).map (fun g => (g.p : ℂ) + Complex.I * g.q)).sum -
  ((n.loads.filter (fun l => f l.bus = i)).map (fun l => (l.p : ℂ) + Complex.I * l.q)).sum

end

end Verif.IO.Pypower
