import Mathlib.Data.Rat.Encodable
import Verif.IO.CsvProps

/-! # Examples and counterexamples for export and import -/

namespace Verif.IO.Demo

open Verif.Network

/-- Buses, generators with a limit that may be a series and an output, and line types. -/
def sch : Schema Val where
  attrs := fun c =>
    if c = "Bus" then [⟨"carrier", some (.str "AC"), true, false⟩]
    else if c = "Generator" then
      [⟨"bus", some (.str ""), true, false⟩, ⟨"p_max_pu", some (.num 1), true, true⟩, ⟨"p", some (.num 0), false, true⟩]
    else if c = "LineType" then [⟨"r", some (.num 0), true, false⟩]
    else []
  one := .num 1

/-- netCDF: names and values come back as they are. -/
def cfg : Setup Val where
  sch := sch
  classes := ["Bus", "Generator", "LineType"]
  cols := fun c =>
    if c = "Bus" then ["carrier"] else if c = "Generator" then ["bus", "p_max_pu", "owner"]
    else if c = "LineType" then ["r"] else []
  std := fun c => if c = "LineType" then ["a"] else []
  stdVal := fun c x k => if c = "LineType" ∧ x = "a" ∧ k = "r" then some (.num 3) else none
  exportStd := false
  sameType := fun _ _ => true
  readNames := id
  readCol := fun _ l => l
  skipTime := false

def s0 : Snap := .flat "0"
def s1 : Snap := .flat "1"

/-- A frame with one column. -/
def one (x : Name) (a b : Rat) : Frame Val :=
  ⟨[s0, s1], [x], fun s y => if y = x then (if s = s0 then some (.num a) else some (.num b)) else none⟩

/-- Two buses and a generator. -/
def net (limit : Val) (series : Frame Val) (buses : List Name) (carrier : Option Val) (r : Rat) : Network Val where
  snaps := [s0, s1]
  w := ⟨[s0, s1], fun s _ => if s = s0 then some (.num 1) else some (.num 2)⟩
  pw := ⟨[], fun _ _ => none⟩
  comps := fun c =>
    if c = "Bus" then ⟨buses, fun _ k => if k = "carrier" then carrier else none, []⟩
    else if c = "Generator" then
      ⟨["g"], fun _ k => if k = "bus" then some (.str "n") else if k = "p_max_pu" then some limit else
        if k = "owner" then some (.str "me") else none,
        [("p_max_pu", series), ("p", ⟨[s0, s1], [], fun _ _ => none⟩), ("extra", one "g" 4 5)]⟩
    else if c = "LineType" then ⟨["a"], fun _ k => if k = "r" then some (.num r) else none, []⟩
    else ⟨[], fun _ _ => none, []⟩

/-- A network that is exported and read back. -/
def trip (cfg : Setup Val) (old : Store Val) (n : Network Val) : Except Err (Network Val) :=
  match exportInto cfg old n with
  | .error e => .error e
  | .ok st => importFrom cfg (fresh cfg cfg.exportStd) st

def value (r : Except Err (Network Val)) (c : Cls) (k : Attr) (s : Snap) (x : Name) : Option Val :=
  match r with
  | .error _ => none
  | .ok m => effective sch m c k s x

def namesOf (r : Except Err (Network Val)) (c : Cls) : List Name :=
  match r with
  | .error _ => []
  | .ok m => (m.comps c).names

/-- A network with a limit of 1/2 and a series. -/
def plain : Network Val := net (.num (1/2)) (one "g" 1 (1/4)) ["n", "m"] (some (.str "AC")) 3

theorem get?_cases {P : Attr → Frame Val → Prop} {a b c : Attr} {f g h : Frame Val} (h1 : P a f) (h2 : P b g) (h3 : P c h) :
    ∀ k x, Dict.get? [(a, f), (b, g), (c, h)] k = some x → P k x := by
  intro k x hx
  have := Dict.mem_of_get? hx
  simp only [List.mem_cons, Prod.mk.injEq, List.not_mem_nil, or_false] at this
  rcases this with ⟨rfl, rfl⟩ | ⟨rfl, rfl⟩ | ⟨rfl, rfl⟩
  · exact h1
  · exact h2
  · exact h3

theorem comps_cases {P : Cls → Prop} (h1 : P "Bus") (h2 : P "Generator") (h3 : P "LineType")
    (h4 : ∀ c, c ≠ "Bus" → c ≠ "Generator" → c ≠ "LineType" → P c) : ∀ c, P c := by
  intro c
  by_cases hb : c = "Bus"
  · exact hb ▸ h1
  · by_cases hg : c = "Generator"
    · exact hg ▸ h2
    · by_cases hl : c = "LineType"
      · exact hl ▸ h3
      · exact h4 c hb hg hl

/-- The hypotheses of `export_import_partial` can be met. -/
theorem plain_exportable : Exportable cfg plain where
  good := by
    refine comps_cases ?_ ?_ ?_ ?_
    · decide +kernel
    · decide +kernel
    · decide +kernel
    · intro c h1 h2 h3
      simp [cfg, sch, h1, h2, h3]
  wf := by
    refine ⟨?_, ?_, rfl, ?_, by decide +kernel, Or.inl (by decide +kernel), by decide +kernel⟩
    · refine comps_cases (by decide +kernel) (by decide +kernel) (by decide +kernel) ?_
      intro c h1 h2 h3
      simp [plain, net, h1, h2, h3]
    · refine comps_cases ?_ ?_ ?_ ?_
      · intro k f hf; simp [plain, net] at hf
      · exact get?_cases (by decide +kernel) (by decide +kernel) (by decide +kernel)
      · intro k f hf; simp [plain, net] at hf
      · intro c h1 h2 h3 k f hf
        simp [plain, net, h1, h2, h3] at hf
    · refine comps_cases ?_ ?_ ?_ ?_
      · simp [cfg, sch]
      · intro a ha hv
        simp only [cfg, sch] at ha
        simp at ha
        rcases ha with rfl | rfl | rfl <;> simp at hv <;> decide +kernel
      · simp [cfg, sch]
      · intro c h1 h2 h3
        simp [cfg, sch, h1, h2, h3]
  classes := by decide +kernel
  bus := by decide +kernel
  buses := by decide +kernel
  cols_nodup := by
    refine comps_cases (by decide +kernel) (by decide +kernel) (by decide +kernel) ?_
    intro c h1 h2 h3
    simp [cfg, h1, h2, h3]
  cols_static := by
    refine comps_cases (by decide +kernel) (by decide +kernel) (by decide +kernel) ?_
    intro c h1 h2 h3
    simp [cfg, h1, h2, h3]
  rest := by
    refine comps_cases ?_ ?_ ?_ ?_
    · intro k hk _ x hx
      simp [cfg] at hk
      simp [plain, net, hk, Schema.dflt, Schema.spec?, cfg, sch, Ne.symm hk]
    · intro k hk hs x hx
      simp [cfg] at hk
      by_cases hp : k = "p"
      · subst hp
        exact absurd hs (by decide +kernel)
      · simp [plain, net, hk, Schema.dflt, Schema.spec?, cfg, sch, Ne.symm hk.1, Ne.symm hk.2.1, Ne.symm hp]
    · intro k hk _ x hx
      simp [cfg] at hk
      simp [plain, net, hk, Schema.dflt, Schema.spec?, cfg, sch, Ne.symm hk]
    · intro c h1 h2 h3 k hk _ x hx
      simp [plain, net, h1, h2, h3] at hx
  clean := by
    refine comps_cases (by decide +kernel) (by decide +kernel) (by decide +kernel) ?_
    intro c h1 h2 h3
    simp [cfg, h1, h2, h3]
  dyn_keys := by
    refine comps_cases (by decide +kernel) (by decide +kernel) (by decide +kernel) ?_
    intro c h1 h2 h3
    simp [plain, net, h1, h2, h3, Dict.keys]
  std_nodup := by
    refine comps_cases (by decide +kernel) (by decide +kernel) (by decide +kernel) ?_
    intro c h1 h2 h3
    simp [cfg, h3]
  std := by
    intro _
    refine comps_cases (by simp [cfg]) (by simp [cfg]) ?_ ?_
    · intro y hy
      simp [cfg] at hy
      subst hy
      refine ⟨by decide +kernel, ?_, ?_⟩
      · funext k
        simp [plain, net, cfg]
      · intro k f hf
        simp [plain, net] at hf
    · intro c h1 h2 h3
      simp [cfg, h3]
  periods := by decide +kernel
  increasing := by simp [plain, net]
  names_back := fun _ => rfl
  cols_back := fun _ _ _ => rfl

/-- The values of the series and of the columns come back. -/
example : (["p_max_pu", "extra", "owner"].map (fun k => [s0, s1].map (fun s => value (trip cfg empty plain) "Generator" k s "g"))) =
    [[some (.num 1), some (.num (1/4))], [some (.num 4), some (.num 5)], [some (.str "me"), some (.str "me")]] := by
  decide +kernel

/-- **C16 fails**: a series of ones overrides a limit of 1/2; after export and import the limit is 1/2. -/
theorem default_series_lost :
    let n := net (.num (1/2)) (one "g" 1 1) ["n"] (some (.str "AC")) 3
    effective sch n "Generator" "p_max_pu" s0 "g" = some (.num 1) ∧
      value (trip cfg empty n) "Generator" "p_max_pu" s0 "g" = some (.num (1/2)) := by
  decide +kernel

/-- **C16 fails**: without buses the generator is gone. -/
theorem no_buses_lost :
    let n := net (.num (1/2)) (one "g" 1 1) [] none 3
    (n.comps "Generator").names = ["g"] ∧ namesOf (trip cfg empty n) "Generator" = [] ∧
      namesOf (trip cfg empty n) "LineType" = ["a"] := by
  decide +kernel

/-- **C16 fails**: a standard type with another resistance comes back as it was shipped. -/
theorem changed_type_lost :
    let n := net (.num (1/2)) (one "g" 1 1) ["n"] (some (.str "AC")) 7
    effective sch n "LineType" "r" s0 "a" = some (.num 7) ∧
      value (trip cfg empty n) "LineType" "r" s0 "a" = some (.num 3) := by
  decide +kernel

/-- **C16 fails**: a value that is missing comes back as the default. -/
theorem missing_value_filled :
    let n := net (.num (1/2)) (one "g" 1 1) ["n"] none 3
    effective sch n "Bus" "carrier" s0 "n" = none ∧
      value (trip cfg empty n) "Bus" "carrier" s0 "n" = some (.str "AC") := by
  decide +kernel

/-- The network without its generator. -/
def noGenerator : Network Val :=
  { plain with comps := fun c => if c = "Generator" then ⟨[], fun _ _ => none, []⟩ else plain.comps c }

/-- **C17 fails**: a network without generators is exported over one with a generator; reading gives the generator. -/
theorem stale_read :
    (noGenerator.comps "Generator").names = [] ∧
      (match exportInto cfg empty plain with
        | .error _ => []
        | .ok old => namesOf (trip cfg old noGenerator) "Generator") = ["g"] := by
  decide +kernel

/-- **C17 fails**: `n` and `m` as `plain`, without the extra series. -/
def noExtra : Network Val :=
  { plain with comps := fun c =>
      if c = "Generator" then { plain.comps c with dyn := [("p_max_pu", one "g" 1 (1/4)), ("p", ⟨[s0, s1], [], fun _ _ => none⟩)] }
      else plain.comps c }

/-- **C17 fails**: an extra series of the older export is read. -/
theorem stale_series_read :
    effective sch noExtra "Generator" "extra" s0 "g" = none ∧
      (match exportInto cfg empty plain with
        | .error _ => none
        | .ok old => value (trip cfg old noExtra) "Generator" "extra" s0 "g") = some (.num 4) := by
  decide +kernel

/-! ## CSV -/

/-- Decimal digits. -/
def digits? (l : List Char) : Option Nat :=
  if l ≠ [] ∧ l.all (fun c => c.isDigit) then some (l.foldl (fun a c => 10 * a + (c.toNat - 48)) 0) else none

/-- Whole numbers only, for the examples. -/
def reader : Csv.Reader where
  int? := fun s => (digits? s.toList).map Int.ofNat
  float? := fun s => (digits? s.toList).map (fun n => (n : Rat))
  showInt := fun i => toString i
  showFloat := fun q => toString q.num ++ ".0"

/-- **C16 fails for CSV**: names with leading zeros. -/
theorem csv_leading_zeros : Csv.names reader ["01", "02"] = ["1", "2"] := by decide +kernel

/-- **C16 fails for CSV**: a bus called `NA`. -/
theorem csv_na_name : Csv.names reader ["NA", "b"] = ["nan", "b"] := by decide +kernel

/-- **C16 fails for CSV**: an empty carrier comes back as the default. -/
theorem csv_empty_text :
    Csv.col reader (some (.str "AC")) [some (.str ""), some (.str "DC")] = [some (.str "AC"), some (.str "DC")] := by
  decide +kernel

/-- **C16 fails for CSV**: if buses are called 1 and 2 and a port is empty, the other ports refer to buses 1.0 and 2.0. -/
theorem csv_ports_dangle :
    Csv.col reader (some (.str "")) [some (.str "1"), some (.str ""), some (.str "2")] =
      [some (.str "1.0"), some (.str ""), some (.str "2.0")] ∧ Csv.names reader ["1", "2"] = ["1", "2"] := by
  decide +kernel

/-- Names that come back. -/
example : Csv.Plain reader ["bus 1", "2"] ∧ Csv.Plain reader ["1", "20"] := by
  refine ⟨⟨by decide +kernel, Or.inr ⟨"bus 1", by simp, by decide +kernel⟩⟩, ⟨by decide +kernel, Or.inl ?_⟩⟩
  intro s hs
  simp at hs
  rcases hs with rfl | rfl
  · exact ⟨1, by decide +kernel, by decide +kernel⟩
  · exact ⟨20, by decide +kernel, by decide +kernel⟩

/-- A way to write numbers, one mark for each step of a count of all rationals. -/
def marks : Csv.Reader where
  int? := fun _ => none
  float? := fun s => match s.toList with
    | '#' :: r => if r = List.replicate r.length 'x' then Encodable.decode r.length else none
    | _ => none
  showInt := fun i => toString i
  showFloat := fun q => String.ofList ('#' :: List.replicate (Encodable.encode q) 'x')

/-- The hypotheses on numbers can be met. -/
example : marks.Sound where
  float := by
    intro q
    simp [marks]
  float_there := by
    intro q h
    simp only [marks, Csv.missing, List.mem_cons, List.not_mem_nil, or_false] at h
    have hl : ∀ t : String, String.ofList ('#' :: List.replicate (Encodable.encode q) 'x') = t →
        '#' :: List.replicate (Encodable.encode q) 'x' = t.toList := by
      rintro t rfl
      simp
    have hx : ∀ t : String, String.ofList ('#' :: List.replicate (Encodable.encode q) 'x') = t →
        ∀ c ∈ t.toList, c = '#' ∨ c = 'x' := by
      intro t ht c hc
      rw [← hl t ht] at hc
      simp only [List.mem_cons, List.mem_replicate] at hc
      tauto
    have hne : ∀ t : String, String.ofList ('#' :: List.replicate (Encodable.encode q) 'x') = t → t.toList ≠ [] := by
      intro t ht h0
      rw [← hl t ht] at h0
      simp at h0
    rcases h with h | h | h | h | h | h | h | h | h | h | h | h | h | h | h | h | h | h | h
    · exact hne _ h (by decide +kernel)
    all_goals exact absurd (hx _ h) (by decide +kernel)
  int := by
    intro s i h
    simp [marks] at h

end Verif.IO.Demo
