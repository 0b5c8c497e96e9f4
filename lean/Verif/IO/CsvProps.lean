import Mathlib.Data.Rat.Defs
import Verif.IO.Props

/-!
# Names and values in CSV files

What `pd.read_csv` (`io.py` 197-205, with its default arguments) and `_import_components_from_df` (1427-1451) make of the names and columns that
`to_csv` wrote (261-264).  The parsing of numbers is a parameter.  Left out: booleans, dates, rounding of numbers.
-/

namespace Verif.IO.Csv

open Verif.Network

/-- Texts that pandas takes for missing values. -/
def missing : List String :=
  ["", "#N/A", "#N/A N/A", "#NA", "-1.#IND", "-1.#QNAN", "-NaN", "-nan", "1.#IND", "1.#QNAN", "<NA>", "N/A", "NA", "NULL",
    "NaN", "None", "n/a", "nan", "null"]

/-- How numbers are written and parsed. -/
structure Reader where
  int? : String → Option Int
  float? : String → Option Rat
  showInt : Int → String
  showFloat : Rat → String

/-- A cell of a table that was read. -/
inductive Cell where
  | na
  | int (i : Int)
  | float (q : Rat)
  | text (s : String)
  deriving DecidableEq

variable (R : Reader)

/-- The texts of a column that are there. -/
def present (l : List String) : List String := l.filter (fun s => s ∉ missing)

/-- The column has no missing value and only integers: `int64`. -/
def isInts (l : List String) : Bool := l.all (fun s => decide (s ∉ missing) && (R.int? s).isSome)

/-- The column has only numbers: `float64`. -/
def isFloats (l : List String) : Bool := (present l).all (fun s => (R.float? s).isSome)

/-- `pd.read_csv`, one column. -/
def infer (l : List String) : List Cell :=
  if isInts R l then l.map (fun s => ((R.int? s).map Cell.int).getD .na)
  else if isFloats R l then l.map (fun s => if s ∈ missing then .na else ((R.float? s).map Cell.float).getD .na)
  else l.map (fun s => if s ∈ missing then .na else .text s)

/-- `str(x)`. -/
def Cell.str : Cell → String
  | .na => "nan"
  | .int i => R.showInt i
  | .float q => R.showFloat q
  | .text s => s

/-- `df.index.astype(str)` (1427). -/
def names (l : List Name) : List Name := (infer R l).map (Cell.str R)

/-- `to_csv`, one cell. -/
def write : Option Val → String
  | none => ""
  | some (.str s) => s
  | some (.num q) => R.showFloat q

/-- Whether the attribute is of type string, by its default. -/
def isString : Option Val → Bool
  | some (.str _) => true
  | _ => false

/-- `fillna(default)` and `astype` (1430-1451). -/
def convert (d : Option Val) : Cell → Option Val
  | .na => d
  | .int i => if isString d then some (.str (R.showInt i)) else some (.num i)
  | .float q => if isString d then some (.str (R.showFloat q)) else some (.num q)
  | .text s => some (.str s)

/-- A column as it arrives in the network. -/
def col (d : Option Val) (l : List (Option Val)) : List (Option Val) := (infer R (l.map (write R))).map (convert R d)

/-! ## What comes back -/

/-- Numbers are written so that they are read. -/
structure Reader.Sound : Prop where
  float : ∀ q, R.float? (R.showFloat q) = some q
  float_there : ∀ q, R.showFloat q ∉ missing
  int : ∀ s i, R.int? s = some i → R.float? s = some i

/-- Texts that survive: none is taken for a missing value, and either they are all integers as they are written by Python, or one is not a
number. -/
def Plain (l : List String) : Prop :=
  (∀ s ∈ l, s ∉ missing) ∧ ((∀ s ∈ l, ∃ i, R.int? s = some i ∧ R.showInt i = s) ∨ ∃ s ∈ l, R.float? s = none)

theorem infer_ints (l : List String) (h1 : ∀ s ∈ l, s ∉ missing) (h2 : ∀ s ∈ l, ∃ i, R.int? s = some i ∧ R.showInt i = s) :
    infer R l = l.map (fun s => ((R.int? s).map Cell.int).getD .na) := by
  unfold infer
  rw [if_pos]
  unfold isInts
  rw [List.all_eq_true]
  intro s hs
  obtain ⟨i, hi, _⟩ := h2 s hs
  rw [hi, decide_eq_true (h1 s hs)]
  rfl

theorem infer_texts (hR : R.Sound) (l : List String) (s : String) (hs : s ∈ l) (hm : s ∉ missing) (hf : R.float? s = none) :
    infer R l = l.map (fun s => if s ∈ missing then .na else .text s) := by
  unfold infer
  have h1 : isInts R l = false := by
    unfold isInts
    rw [List.all_eq_false]
    refine ⟨s, hs, ?_⟩
    cases hi : R.int? s with
    | none => simp
    | some i =>
      rw [hR.int s i hi] at hf
      exact absurd hf (by simp)
  have h2 : isFloats R l = false := by
    unfold isFloats
    rw [List.all_eq_false]
    refine ⟨s, ?_, by rw [hf]; simp⟩
    unfold present
    rw [List.mem_filter]
    exact ⟨hs, decide_eq_true hm⟩
  rw [h1, h2]
  rfl

/-- **C16 (names in CSV files, partial).**  Plain names come back.  Missing: see `Demo`. -/
theorem names_back_partial (hR : R.Sound) (l : List Name) (h : Plain R l) : names R l = l := by
  obtain ⟨h1, h2⟩ := h
  unfold names
  rcases h2 with h2 | ⟨s, hs, hf⟩
  · rw [infer_ints R l h1 h2, List.map_map]
    nth_rw 2 [← List.map_id l]
    apply List.map_congr_left
    intro s hs
    obtain ⟨i, hi, hsi⟩ := h2 s hs
    simp [hi, Cell.str, hsi]
  · rw [infer_texts R hR l s hs (h1 s hs) hf, List.map_map]
    nth_rw 2 [← List.map_id l]
    apply List.map_congr_left
    intro s hs
    simp [h1 s hs, Cell.str]

/-- **C16 (numbers in CSV files).**  Columns of numbers come back, with the default where there was none. -/
theorem numbers_back (hR : R.Sound) (d : Option Val) (hd : isString d = false) (l : List (Option Val))
    (h : ∀ v ∈ l, v = none ∨ ∃ q, v = some (.num q)) : col R d l = l.map (fun v => v.or d) := by
  unfold col
  have hfl : ∀ s ∈ l.map (write R), s = "" ∨ ∃ q, s = R.showFloat q := by
    intro s hs
    obtain ⟨v, hv, rfl⟩ := List.mem_map.1 hs
    rcases h v hv with rfl | ⟨q, rfl⟩
    · exact Or.inl rfl
    · exact Or.inr ⟨q, rfl⟩
  have hm : ("" : String) ∈ missing := by decide +kernel
  unfold infer
  by_cases hi : isInts R (l.map (write R)) = true
  · rw [if_pos hi]
    unfold isInts at hi
    rw [List.all_eq_true] at hi
    rw [List.map_map, List.map_map]
    apply List.map_congr_left
    intro v hv
    have := hi (write R v) (List.mem_map_of_mem hv)
    simp only [Bool.and_eq_true, decide_eq_true_eq] at this
    rcases h v hv with rfl | ⟨q, rfl⟩
    · exact absurd hm this.1
    · obtain ⟨i, hi⟩ := Option.isSome_iff_exists.1 this.2
      have hq : (i : Rat) = q := by
        have h1 := hR.int _ i hi
        have h2 : R.float? (write R (some (.num q))) = some q := hR.float q
        rw [h1] at h2
        exact Option.some.inj h2
      simp [hi, convert, hd, hq]
  · rw [if_neg hi, if_pos]
    · rw [List.map_map, List.map_map]
      apply List.map_congr_left
      intro v hv
      rcases h v hv with rfl | ⟨q, rfl⟩
      · simp [write, hm, convert]
      · simp [write, hR.float_there q, hR.float q, convert, hd]
    · unfold isFloats present
      rw [List.all_eq_true]
      intro s hs
      rw [List.mem_filter] at hs
      rcases hfl s hs.1 with rfl | ⟨q, rfl⟩
      · simp [hm] at hs
      · rw [hR.float q]; rfl

/-- **C16 (texts in CSV files, partial).**  A column of texts comes back if those taken for missing values are the default,
and the others are plain; if there are missing ones, the others must not all be numbers. -/
theorem texts_back_partial (hR : R.Sound) (d : String) (l : List String)
    (h1 : ∀ s ∈ l, s ∈ missing → s = d)
    (h2 : (∀ s ∈ l, s ∈ missing) ∨ (∃ s ∈ l, s ∉ missing ∧ R.float? s = none) ∨ Plain R l) :
    col R (some (.str d)) (l.map (fun s => some (.str s))) = l.map (fun s => some (.str s)) := by
  unfold col
  have hw : (l.map (fun s => (some (Val.str s) : Option Val))).map (write R) = l := by
    rw [List.map_map]
    nth_rw 2 [← List.map_id l]
    rfl
  rw [hw]
  have htext : ∀ s ∈ l, s ∉ missing → R.float? s = none →
      (infer R l).map (convert R (some (.str d))) = l.map (fun s => some (.str s)) := by
    intro s hs hm hf
    rw [infer_texts R hR l s hs hm hf, List.map_map]
    apply List.map_congr_left
    intro u hu
    by_cases hum : u ∈ missing
    · simp only [Function.comp, if_pos hum, convert]
      rw [h1 u hu hum]
    · simp [hum, convert]
  rcases h2 with h2 | ⟨s, hs, hm, hf⟩ | ⟨h3, h4⟩
  · have hint : isInts R l = true → l = [] := by
      intro h
      unfold isInts at h
      rw [List.all_eq_true] at h
      cases l with
      | nil => rfl
      | cons a l =>
        have := h a (by simp)
        simp [h2 a (by simp)] at this
    unfold infer
    by_cases hi : isInts R l = true
    · rw [hint hi]
      simp
    · rw [if_neg hi, if_pos, List.map_map]
      · apply List.map_congr_left
        intro u hu
        simp only [Function.comp, if_pos (h2 u hu), convert]
        rw [h1 u hu (h2 u hu)]
      · unfold isFloats present
        rw [List.all_eq_true]
        intro s hs
        rw [List.mem_filter] at hs
        exact absurd (h2 s hs.1) (by simpa using hs.2)
  · exact htext s hs hm hf
  · rcases h4 with h4 | ⟨s, hs, hf⟩
    · rw [infer_ints R l h3 h4, List.map_map]
      apply List.map_congr_left
      intro s hs
      obtain ⟨i, hi, hsi⟩ := h4 s hs
      simp [hi, convert, isString, hsi]
    · exact htext s hs (h3 s hs) hf

end Verif.IO.Csv
