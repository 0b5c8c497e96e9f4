import Mathlib.Data.Int.Log
import Mathlib.Data.Rat.Floor
import Mathlib.Data.String.Basic

/-!
# Model of the labels in legends of maps

`round_to_significant_digits`, `scaled_legend_label` and `get_legend_representatives` in
`plot/maps/static.py` (1851-1957).  Floats are rationals; `round(x)` and `round(x, k)` of Python are the
parameters `rnd` and `rndTo`.  A label is the number, the prefix and the name of the unit that are put into the
string.
-/

namespace Verif.Plot

/-- `np.floor(np.log10(abs(x)))` for `x` other than zero. -/
def magnitude (x : ℚ) : ℤ := Int.log 10 |x|

/-- `round_to_significant_digits` (1851-1857); `int` cuts off. -/
def roundSig (rndTo : ℚ → ℤ → ℚ) (x : ℚ) (n : ℤ) : ℚ :=
  if x = 0 then 0
  else
    let rounded := rndTo x (- magnitude x + (n - 1))
    if 1 ≤ rounded then (⌊rounded⌋ : ℤ) else rounded

/-- `unit_scales` (1867-1874), in the order of the dictionary. -/
def scales : List (String × ℚ) :=
  [("", 1), ("k", 10 ^ 3), ("M", 10 ^ 6), ("G", 10 ^ 9), ("T", 10 ^ 12), ("P", 10 ^ 15)]

/-- The prefix of a unit and the rest (1877-1883): the letters come first, the empty prefix fits always. -/
def splitUnit (unit : List Char) : (String × ℚ) × List Char :=
  match unit with
  | [] => (("", 1), [])
  | c :: rest =>
    match (scales.drop 1).find? (fun s => s.1 = String.singleton c) with
    | some s => (s, rest)
    | none => (("", 1), c :: rest)

/-- `np.searchsorted(scales, x)`, the last one if there is none (1893-1895). -/
def target (x : ℚ) : String × ℚ :=
  match scales.find? (fun s => decide (x ≤ s.2)) with
  | some s => s
  | none => ("P", 10 ^ 15)

/-- `scaled_legend_label` (1860-1913): number, prefix, unit. -/
def legendLabel (rnd : ℚ → ℤ) (value : ℚ) (unit : List Char) : ℚ × String × List Char :=
  let base := (splitUnit unit).1
  let name := (splitUnit unit).2
  let baseValue := value * base.2
  let m := if baseValue = 0 then 0 else magnitude baseValue
  let t := target ((10 : ℚ) ^ (m - 2))
  let scaled := if base.1 ≠ "" then value / (t.2 / base.2) else baseValue / t.2
  let shown := if 1 ≤ |scaled| then (rnd scaled : ℚ) else scaled
  (shown, t.1, name)

/-- The largest absolute value. -/
def maxAbs : List ℚ → ℚ
  | [] => 0
  | x :: l => max |x| (maxAbs l)

/-- `get_legend_representatives` (1916-1957) for a series without grouping. -/
def representatives (rndTo : ℚ → ℤ → ℚ) (rnd : ℚ → ℤ) (series quantiles : List ℚ) (n : ℤ) (unit : List Char) :
    List (ℚ × ℚ × String × List Char) :=
  match series with
  | [] => []
  | _ => quantiles.map (fun q =>
      let v := roundSig rndTo (maxAbs series * q) n
      (v, legendLabel rnd v unit))

end Verif.Plot
