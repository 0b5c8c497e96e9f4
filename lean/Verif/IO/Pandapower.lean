import Verif.PowerFlow.Types

/-!
# Model of the import of pandapower nets

Parts of `import_from_pandapower_net` (`io.py` 1885-2109): the buses joined by closed switches
(2088-2109), the parameters of lines (1997-2032) and of transformers (2034-2074).  Names are distinct
strings; the status of components, three-winding transformers and tap positions are documented as not
supported and not modelled.
-/

namespace Verif.IO.Pandapower

open Verif.PowerFlow

inductive Err | keyError
deriving DecidableEq

/-! ## Closed switches between buses -/

/-- A network after `n.add` (2078-2086): names of the buses, and of every load, generator and shunt its
name and bus, of every line and transformer its name and both buses. -/
structure Net where
  buses : List String
  onePorts : List (String × String)
  branches : List (String × String × String)
deriving DecidableEq

/-- A switch: `bus`, `element` (names of buses if `et == "b"`), `closed`. -/
structure Switch where
  bus : String
  element : String
  busBus : Bool
  closed : Bool

/-- `to_replace` (2090-2095): pairs of the bus that goes and the bus that stays. -/
def toReplace (sw : List Switch) : List (String × String) :=
  (sw.filter (fun s => s.busBus && s.closed)).map (fun s => (s.element, s.bus))

/-- `n.remove("Bus", i)` (`networks.py` 1376-1389); a missing name is a KeyError. -/
def removeBus (buses : List String) (i : String) : Except Err (List String) :=
  if i ∈ buses then .ok (buses.filter (fun b => b ≠ i)) else .error .keyError

/-- `for i in to_replace.index` (2097-2098). -/
def removeAll : List String → List String → Except Err (List String)
  | buses, [] => .ok buses
  | buses, i :: is => (removeBus buses i).bind (fun bs => removeAll bs is)

/-- `replace({"bus": to_replace})`: pandas compares with the original values, so that all pairs are
applied at once. -/
def replaced (rep : List (String × String)) (b : String) : String :=
  match rep.find? (fun r => r.1 = b) with
  | some r => r.2
  | none => b

/-- 2088-2109. -/
def mergeSwitches (n : Net) (sw : List Switch) : Except Err Net :=
  let rep := toReplace sw
  (removeAll n.buses (rep.map (·.1))).map (fun bs =>
    { buses := bs
      onePorts := n.onePorts.map (fun c => (c.1, replaced rep c.2))
      branches := n.branches.map (fun c => (c.1, replaced rep c.2.1, replaced rep c.2.2)) })

/-! ## Lines -/

/-- A line of pandapower: `std_type` and its own parameters. -/
structure PLine where
  name : String
  stdType : String
  length : ℝ
  parallel : ℝ
  rPerKm : ℝ
  xPerKm : ℝ
  cPerKm : ℝ
  maxI : ℝ
  /-- nominal voltage of `from_bus` -/
  vn : ℝ

noncomputable section

/-- `extra_line_data=False` (1998-2008): only the type, the length and the number of circuits. -/
def lineByType (l : PLine) : Types.Line :=
  { name := l.name, type := l.stdType, length := l.length, numParallel := l.parallel
    r := 0, x := 0, b := 0, g := 0, sNom := 0 }

/-- `extra_line_data=True` (2009-2032): `f` is `net.f_hz`. -/
def lineByData (f : ℝ) (l : PLine) : Types.Line :=
  { name := l.name, type := "", length := l.length, numParallel := l.parallel
    r := l.rPerKm * l.length, x := l.xPerKm * l.length
    b := l.cPerKm * l.length * (1 / 10 ^ 9) * 2 * Real.pi * f, g := 0
    sNom := l.vn * l.maxI }

/-! ## Transformers -/

/-- A transformer of pandapower. -/
structure PTrafo where
  name : String
  stdType : String
  sn : ℝ
  vk : ℝ
  vkr : ℝ
  i0 : ℝ
  pfe : ℝ
  shift : ℝ
  tapPos : ℝ

/-- With standard types (2036-2044). -/
def trafoByType (t : PTrafo) : Types.Trafo :=
  { name := t.name, type := t.stdType, tapPosition := t.tapPos, numParallel := 1
    r := 0, x := some 0, g := 0, b := 0, phaseShift := 0, sNom := 0, tapSide := 0, tapRatio := 1 }

/-- Without standard types (2046-2073); `fillna(0)` (2074) makes NaN zero. -/
def trafoByData (t : PTrafo) : Types.Trafo :=
  let z := t.vk / 100 / t.sn
  let r := t.vkr / 100 / t.sn
  let y := t.i0 / 100
  let g := t.pfe / t.sn / 1000 / t.sn
  { name := t.name, type := "", tapPosition := t.tapPos, numParallel := 1
    r := r, x := some ((Types.npSqrt (z ^ 2 - r ^ 2)).getD 0), g := g
    b := (Types.npSqrt (y ^ 2 - g ^ 2)).getD 0
    phaseShift := t.shift, sNom := t.sn, tapSide := 0, tapRatio := 1 }

/-- The standard type with the parameters of the transformer. -/
def typeOf (t : PTrafo) : Types.TrafoType :=
  { name := t.stdType, vscr := t.vkr, vsc := t.vk, pfe := t.pfe, i0 := t.i0, sNom := t.sn
    phaseShift := t.shift, tapSide := 0, tapNeutral := t.tapPos, tapStep := 0 }

end

end Verif.IO.Pandapower
