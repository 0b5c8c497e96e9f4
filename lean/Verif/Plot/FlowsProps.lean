import Verif.Plot.Flows
import Mathlib.Data.List.Nodup
import Mathlib.Tactic.Ring

/-!
# Branches and flows on a map (C165)
-/

namespace Verif.Plot.Flows

variable {F : Type} [Field F] [LinearOrder F] {snapshots : List (Label F)} {named : String → Option (List (Option F) → Option F)} {t : Table F} {a : Args F}
  {flow : Flow F} {r : Drawn F}

/-! ## Specification -/

/-- A branch is on the map. -/
def OnMap (r : Drawn F) (b : Name) : Prop := ∃ w, (b, w) ∈ r.lines

/-- An arrow is drawn for this flow. -/
def Shown (r : Drawn F) (b : Name) (v : Option F) : Prop := ∃ l, r.arrows = some l ∧ (b, v) ∈ l

/-- Widths, colours and `alpha` are one for all. -/
structure Plain (a : Args F) (width : F) : Prop where
  widths : a.widths = .one width
  colors : a.colors = none
  alpha : a.alpha = none

/-- `p0` has a column for every branch and no others. -/
structure Full (t : Table F) : Prop where
  nonempty : t.names ≠ []
  once : (t.p0.map (·.1)).Nodup
  all : ∀ b, b ∈ t.p0.map (·.1) ↔ b ∈ t.names

/-! ## Which branches -/

theorem lookup_of {V : Type} {l : List (Name × V)} (h : (l.map (·.1)).Nodup) {b : Name} {v : V} (hm : (b, v) ∈ l) : l.lookup b = some v := by
  induction l with
  | nil => cases hm
  | cons e l ih =>
    rw [List.map_cons, List.nodup_cons] at h
    rcases List.mem_cons.mp hm with rfl | hm'
    · simp [List.lookup]
    · have hne : b ≠ e.1 := by
        rintro rfl
        exact h.1 (List.mem_map.mpr ⟨_, hm', rfl⟩)
      obtain ⟨k, u⟩ := e
      rw [List.lookup_cons, show (b == k) = false from by simpa using hne]
      exact ih h.2 hm'

/-- The rows are the branches of all Series, or all branches if there is no Series. -/
theorem mem_rows (f : Option (List (Name × Option F))) (b : Name) : b ∈ rows t a f ↔
    (a.widths.index = none ∧ a.colors = none ∧ a.alpha = none ∧ f = none ∧ b ∈ t.names) ∨
    (∃ i, a.widths.index = some i ∧ b ∈ i) ∨ (∃ i, a.colors = some i ∧ b ∈ i) ∨ (∃ i, a.alpha = some i ∧ b ∈ i) ∨ ∃ s, f = some s ∧ b ∈ s.map (·.1) := by
  unfold rows
  cases a.widths.index <;> cases a.colors <;> cases a.alpha <;> cases f <;> simp [List.mem_dedup, or_assoc]

theorem draw_ok (h : draw snapshots named t a flow = .ok r) : ∃ f, flowOf snapshots named t flow = .ok f ∧
    ((rows t a f = [] ∧ r = ⟨[], none⟩) ∨ (rows t a f ≠ [] ∧ (∀ b ∈ rows t a f, b ∈ t.names) ∧
      r = ⟨(rows t a f).map (fun b => (b, a.widths.at b)), f.map (fun s => (rows t a f).map (fun b => (b, arrowFlow a s b)))⟩)) := by
  unfold draw at h
  split at h
  · cases h
  next f hf =>
    refine ⟨f, hf, ?_⟩
    dsimp only at h
    split at h
    next he => exact Or.inl ⟨List.isEmpty_iff.mp he, by injection h with h; exact h.symm⟩
    next he =>
      split at h
      · cases h
      next hk =>
        refine Or.inr ⟨fun e => he (List.isEmpty_iff.mpr e), ?_, by injection h with h; exact h.symm⟩
        intro b hb
        by_contra hn
        exact hk (List.any_eq_true.mpr ⟨b, hb, by simpa using hn⟩)

/-- Exactly the rows are drawn. -/
theorem onMap_iff (h : draw snapshots named t a flow = .ok r) {f : Option (List (Name × Option F))} (hf : flowOf snapshots named t flow = .ok f) (b : Name) :
    OnMap r b ↔ b ∈ rows t a f := by
  obtain ⟨f', hf', h⟩ := draw_ok h
  rw [hf] at hf'
  injection hf' with hf'
  subst hf'
  rcases h with ⟨h1, rfl⟩ | ⟨-, -, rfl⟩
  · simp [OnMap, h1]
  · simp [OnMap]

/-- Only branches of the network are drawn, and each by the width asked for. -/
theorem only_branches (h : draw snapshots named t a flow = .ok r) : ∀ e ∈ r.lines, e.1 ∈ t.names ∧
    ((∃ v, a.widths = .one v ∧ e.2 = some v) ∨ ∃ s, a.widths = .each s ∧ e.2 = (s.lookup e.1).join) := by
  obtain ⟨f, -, h⟩ := draw_ok h
  rcases h with ⟨-, rfl⟩ | ⟨-, hk, rfl⟩
  · simp
  · intro e he
    obtain ⟨b, hb, rfl⟩ := List.mem_map.mp he
    refine ⟨hk b hb, ?_⟩
    cases a.widths with
    | one v => exact Or.inl ⟨v, rfl, rfl⟩
    | each s => exact Or.inr ⟨s, rfl, rfl⟩

/-- Without flows and with one width, colour and `alpha` all branches are drawn, and no arrows. -/
theorem all_without {width : F} (ha : Plain a width) : ∃ r, draw snapshots named t a .none = .ok r ∧ (∀ b, OnMap r b ↔ b ∈ t.names) ∧ r.arrows = none := by
  have hr : rows t a none = t.names := by simp [rows, ha.widths, ha.colors, ha.alpha, Width.index]
  have hk : t.names.any (fun b => decide (b ∉ t.names)) = false := by
    rw [List.any_eq_false]
    intro b hb
    simpa using hb
  by_cases he : t.names.isEmpty
  · refine ⟨⟨[], none⟩, ?_, ?_, rfl⟩
    · simp [draw, flowOf, hr, he]
    · simp [OnMap, List.isEmpty_iff.mp he]
  · refine ⟨⟨t.names.map (fun b => (b, a.widths.at b)), none⟩, ?_, by simp [OnMap], rfl⟩
    simp only [draw, flowOf, hr, hk, Option.map_none]
    rw [if_neg he, if_neg (by simp)]

/-- With flows only the branches that have one are drawn. -/
theorem with_flows {width : F} (ha : Plain a width) {s : List (Name × Option F)} (hf : flowOf snapshots named t flow = .ok (some s))
    (h : draw snapshots named t a flow = .ok r) (b : Name) : OnMap r b ↔ b ∈ s.map (·.1) := by
  rw [onMap_iff h hf, mem_rows]
  simp [ha.widths, ha.colors, ha.alpha, Width.index]

/-- What a flow other than a Series stands for names the columns of `p0` or all branches. -/
theorem flow_names (hn : ∀ s, flow ≠ .series s) {s : List (Name × Option F)} (hf : flowOf snapshots named t flow = .ok (some s)) :
    s.map (·.1) = t.p0.map (·.1) ∨ s.map (·.1) = t.names := by
  unfold flowOf at hf
  split at hf
  · cases hf
  · exact absurd rfl (hn _)
  · cases hf
  · cases hf
    exact Or.inl (by simp [Function.comp_def])
  · split at hf
    · cases hf
      exact Or.inl (by simp [Function.comp_def])
    · split at hf
      · split at hf
        · cases hf
          exact Or.inl (by simp [Function.comp_def])
        · cases hf
      · cases hf
        exact Or.inr (by simp [Function.comp_def])
      · cases hf

/-- If `p0` has a column for every branch, the flow (no Series) does not change which branches are drawn. -/
theorem same_branches_partial {width : F} (ha : Plain a width) (ht : Full t) (hn : ∀ s, flow ≠ .series s) (h : draw snapshots named t a flow = .ok r) (b : Name) :
    OnMap r b ↔ b ∈ t.names := by
  obtain ⟨f, hf, -⟩ := draw_ok h
  cases f with
  | none =>
    rw [onMap_iff h hf, mem_rows]
    simp [ha.widths, ha.colors, ha.alpha, Width.index]
  | some s =>
    rw [with_flows ha hf h]
    rcases flow_names hn hf with e | e
    · rw [e, ht.all]
    · rw [e]

/-- A Series with a flow, width, colour or `alpha` for something that is no branch is refused. -/
theorem unknown_refused {f : Option (List (Name × Option F))} (hf : flowOf snapshots named t flow = .ok f) {b : Name} (hb : b ∈ rows t a f) (hn : b ∉ t.names) :
    draw snapshots named t a flow = .error .key := by
  have he : rows t a f ≠ [] := List.ne_nil_of_mem hb
  have hk : (rows t a f).any (fun b => decide (b ∉ t.names)) = true := List.any_eq_true.mpr ⟨b, hb, by simpa using hn⟩
  unfold draw
  rw [hf]
  dsimp only
  rw [if_neg (by simpa using he), if_pos hk]

/-! ## Which flows -/

/-- The arrows are for what the flow stands for, by the name of the branch. -/
theorem shown (h : draw snapshots named t a flow = .ok r) {s : List (Name × Option F)} (hf : flowOf snapshots named t flow = .ok (some s)) {b : Name} {v : Option F}
    (hs : (s.map (·.1)).Nodup) (hm : (b, v) ∈ s) : Shown r b (if a.auto then (mulFill v ((a.widths.at b).map (fun w => |w|))).map (· / ((a.total : F) + 100)) else v) := by
  have hb : b ∈ rows t a (some s) := (mem_rows _ _).mpr (Or.inr (Or.inr (Or.inr (Or.inr ⟨s, rfl, List.mem_map.mpr ⟨_, hm, rfl⟩⟩))))
  obtain ⟨f', hf', h⟩ := draw_ok h
  rw [hf] at hf'
  injection hf' with hf'
  subst hf'
  rcases h with ⟨h1, -⟩ | ⟨-, -, rfl⟩
  · rw [h1] at hb
    cases hb
  · refine ⟨_, rfl, List.mem_map.mpr ⟨b, hb, ?_⟩⟩
    unfold arrowFlow
    rw [lookup_of hs hm]
    rfl

/-- What the arrow of a branch with a width is for: the flow, or with `auto_scale_branches` the flow times the width over the number of branches and a hundred. -/
def scaled (a : Args F) (width v : F) : F := if a.auto = true then v * |width| / ((a.total : F) + 100) else v

theorem shown_plain {width : F} (ha : Plain a width) (h : draw snapshots named t a flow = .ok r) {s : List (Name × Option F)} (hf : flowOf snapshots named t flow = .ok (some s))
    {b : Name} {v : F} (hs : (s.map (·.1)).Nodup) (hm : (b, some v) ∈ s) : Shown r b (some (scaled a width v)) := by
  have h1 := shown h hf hs hm
  rw [ha.widths] at h1
  unfold scaled
  cases hau : a.auto <;> simp [hau, mulFill, Width.at] at h1 ⊢ <;> exact h1

/-- The flow in a snapshot. -/
theorem at_snapshot {width : F} (ha : Plain a width) (h : draw snapshots named t a flow = .ok r) (ht : (t.p0.map (·.1)).Nodup) (hs : snapshots.Nodup)
    {i : Nat} {l : Label F} (hi : snapshots[i]? = some l) (hl : flow = .label l) {b : Name} {col : List (Option F)} (hc : (b, col) ∈ t.p0) {v : F} (hv : col[i]? = some (some v)) :
    Shown r b (some (scaled a width v)) := by
  obtain ⟨hlt, hget⟩ := List.getElem?_eq_some_iff.mp hi
  have hmem : l ∈ snapshots := hget ▸ List.getElem_mem hlt
  have hidx : snapshots.idxOf l = i := hget ▸ hs.idxOf_getElem i hlt
  have hf : flowOf snapshots named t flow = .ok (some (t.p0.map (fun c => (c.1, (c.2[snapshots.idxOf l]?).join)))) := by
    rw [hl]
    simp [flowOf, hmem]
  refine shown_plain ha h hf (by simpa [Function.comp_def] using ht) (List.mem_map.mpr ⟨_, hc, ?_⟩)
  simp [hidx, hv]

/-- The flows aggregated by a function, given itself or by its name. -/
theorem aggregated {width : F} (ha : Plain a width) (h : draw snapshots named t a flow = .ok r) (ht : (t.p0.map (·.1)).Nodup) {f : List (Option F) → Option F}
    (hl : flow = .callable f ∨ ∃ s, flow = .label (.str s) ∧ .str s ∉ snapshots ∧ named s = some f) {b : Name} {col : List (Option F)} (hc : (b, col) ∈ t.p0) {v : F}
    (hv : f col = some v) : Shown r b (some (scaled a width v)) := by
  have hf : flowOf snapshots named t flow = .ok (some (t.p0.map (fun c => (c.1, f c.2)))) := by
    rcases hl with rfl | ⟨s, rfl, hn, hs⟩
    · rfl
    · simp [flowOf, hn, hs]
  exact shown_plain ha h hf (by simpa [Function.comp_def] using ht) (List.mem_map.mpr ⟨_, hc, by simp [hv]⟩)

/-- A number that is no snapshot is the flow of every branch. -/
theorem number {width : F} (ha : Plain a width) (h : draw snapshots named t a flow = .ok r) (ht : t.names.Nodup) {v : F} (hl : flow = .label (.num v)) (hn : .num v ∉ snapshots)
    {b : Name} (hb : b ∈ t.names) : Shown r b (some (scaled a width v)) := by
  have hf : flowOf snapshots named t flow = .ok (some (t.names.map (fun b => (b, some v)))) := by
    rw [hl]
    simp [flowOf, hn]
  exact shown_plain ha h hf (by simpa [Function.comp_def] using ht) (List.mem_map.mpr ⟨_, hb, rfl⟩)

/-- The flows of a Series. -/
theorem of_series {width : F} (ha : Plain a width) (h : draw snapshots named t a flow = .ok r) {s : List (Name × Option F)} (hs : (s.map (·.1)).Nodup) (hl : flow = .series s)
    {b : Name} {v : F} (hm : (b, some v) ∈ s) : Shown r b (some (scaled a width v)) :=
  shown_plain ha h (by rw [hl]; rfl) hs hm

/-- By widths of their own, with a Series of flows. -/
theorem of_widths (h : draw snapshots named t a flow = .ok r) {s ws : List (Name × Option F)} (hs : (s.map (·.1)).Nodup) (hws : (ws.map (·.1)).Nodup) (hl : flow = .series s)
    (ha : a.widths = .each ws) {b : Name} {v width : F} (hm : (b, some v) ∈ s) (hw : (b, some width) ∈ ws) : Shown r b (some (scaled a width v)) := by
  have h1 := shown h (by rw [hl]; rfl) hs hm
  rw [ha] at h1
  unfold scaled
  have h2 := lookup_of hws hw
  cases hau : a.auto <;> simp [hau, mulFill, Width.at, h2] at h1 ⊢ <;> exact h1

/-- A branch whose flow is NaN has an arrow for the flow zero if arrows are scaled. -/
theorem of_nothing {width : F} (ha : Plain a width) (h : draw snapshots named t a flow = .ok r) {s : List (Name × Option F)} (hs : (s.map (·.1)).Nodup) (hl : flow = .series s)
    {b : Name} (hm : (b, none) ∈ s) : Shown r b (if a.auto = true then some 0 else none) := by
  have h1 := shown h (by rw [hl]; rfl) hs hm
  rw [ha.widths] at h1
  cases hau : a.auto <;> simp [hau, mulFill, Width.at] at h1 ⊢ <;> exact h1

/-- Each branch has one arrow at most, and only what is on the map has one. -/
theorem one_arrow (h : draw snapshots named t a flow = .ok r) (hn : t.names.Nodup) : (∀ {b : Name} {v : Option F}, Shown r b v → OnMap r b) ∧
    ∀ {b : Name} {v v' : Option F}, Shown r b v → Shown r b v' → v = v' := by
  obtain ⟨f, -, h⟩ := draw_ok h
  rcases h with ⟨-, rfl⟩ | ⟨-, -, rfl⟩
  · exact ⟨by rintro b v ⟨l, hl, -⟩; simp at hl, by rintro b v v' ⟨l, hl, -⟩; simp at hl⟩
  · refine ⟨?_, ?_⟩
    · rintro b v ⟨l, hl, hm⟩
      cases f with
      | none => simp at hl
      | some s =>
        simp only [Option.map_some, Option.some.injEq] at hl
        subst hl
        obtain ⟨b', hb, e⟩ := List.mem_map.mp hm
        cases e
        exact ⟨_, List.mem_map.mpr ⟨b, hb, rfl⟩⟩
    · rintro b v v' ⟨l, hl, hm⟩ ⟨l', hl', hm'⟩
      cases f with
      | none => simp at hl
      | some s =>
        simp only [Option.map_some, Option.some.injEq] at hl hl'
        subst hl hl'
        obtain ⟨b1, -, e1⟩ := List.mem_map.mp hm
        obtain ⟨b2, -, e2⟩ := List.mem_map.mp hm'
        cases e1
        cases e2
        rfl

/-! ## Findings and examples -/

/-- Dictionaries, which the documentation offers, raise. -/
theorem dict_raises : draw snapshots named t a .unhashable = .error .type := rfl


/-- The arguments by default, for two lines. -/
def plainArgs : Args ℚ := ⟨.one (3 / 2), none, none, true, 2⟩

theorem plainPlain : Plain plainArgs (3 / 2) := ⟨rfl, rfl, rfl⟩

/-- The sum, as `"sum"` of pandas: NaN counts as nothing. -/
def sums (s : String) : Option (List (Option ℚ) → Option ℚ) := if s = "sum" then some (fun l => some ((l.map (·.getD 0)).sum)) else none

/-- Two lines before the network was solved. -/
def unsolved : Table ℚ := ⟨["a", "b"], []⟩

/-- Two lines of which only one has a column in `p0`, as after reading a file that leaves out columns of zeros. -/
def half : Table ℚ := ⟨["a", "b"], [("a", [some 4, some 6])]⟩

def solved : Table ℚ := ⟨["a", "b"], [("a", [some 4, some 6]), ("b", [some 0, some (-2)])]⟩

theorem solvedFull : Full solved := by
  refine ⟨by simp [solved], by simp [solved], ?_⟩
  intro b
  simp [solved]

def hours : List (Label ℚ) := [.num 0, .num 1]

/-- Asking for flows changes which branches are drawn: none at all without columns in `p0`, and of the other network only one. -/
theorem not_same_branches : (∃ r, draw hours sums unsolved plainArgs (.label (.str "sum")) = .ok r ∧ r.lines = []) ∧
    (∃ r, draw hours sums half plainArgs (.label (.str "sum")) = .ok r ∧ OnMap r "a" ∧ ¬ OnMap r "b") ∧
    ∀ t ∈ [unsolved, half], ∃ r, draw hours sums t plainArgs .none = .ok r ∧ OnMap r "a" ∧ OnMap r "b" := by
  refine ⟨⟨_, rfl, rfl⟩, ⟨_, rfl, ⟨_, List.mem_cons_self ..⟩, ?_⟩, ?_⟩
  · rintro ⟨w, hw⟩
    simp [rows, half, plainArgs, Width.index] at hw
  · intro t ht
    obtain ⟨r, h1, h2, -⟩ := all_without (snapshots := hours) (named := sums) (t := t) plainPlain
    refine ⟨r, h1, (h2 _).mpr ?_, (h2 _).mpr ?_⟩ <;>
    · simp only [List.mem_cons, List.not_mem_nil, or_false] at ht
      rcases ht with rfl | rfl <;> simp [unsolved, half]

/-- If snapshots are numbers, the flow 1 is that of a snapshot, the flow 2 is two for all. -/
theorem number_is_snapshot : flowOf hours sums solved (.label (.num 1)) = .ok (some [("a", some 6), ("b", some (-2))]) ∧
    flowOf hours sums solved (.label (.num 2)) = .ok (some [("a", some 2), ("b", some 2)]) := by
  constructor <;> rfl

theorem solvedDraws (l : Label ℚ) (hl : l = .num 1 ∨ l = .num 2 ∨ l = .str "sum") : ∃ r, draw hours sums solved plainArgs (.label l) = .ok r := by
  rcases hl with rfl | rfl | rfl <;> exact ⟨_, rfl⟩

/-- The flow of b in the second snapshot is -2. -/
example : ∃ r, draw hours sums solved plainArgs (.label (.num 1)) = .ok r ∧ Shown r "b" (some (-1 / 34)) ∧ OnMap r "a" := by
  obtain ⟨r, h⟩ := solvedDraws (.num 1) (by simp)
  have h1 := at_snapshot (i := 1) plainPlain h solvedFull.once (by simp [hours]) rfl rfl (b := "b") (List.mem_cons_of_mem _ (List.mem_singleton.mpr rfl)) rfl
  have e : scaled plainArgs (3 / 2) (-2) = -1 / 34 := by
    simp only [scaled, plainArgs, if_true]
    rw [abs_of_pos (by norm_num)]
    norm_num
  exact ⟨r, h, e ▸ h1, (same_branches_partial plainPlain solvedFull (by simp) h "a").mpr (by simp [solved])⟩

/-- The sum of the flows of a is 10. -/
example : ∃ r, draw hours sums solved { plainArgs with auto := false } (.label (.str "sum")) = .ok r ∧ Shown r "a" (some 10) := by
  refine ⟨_, rfl, ?_⟩
  have h1 := aggregated (a := { plainArgs with auto := false }) (snapshots := hours) (named := sums) (t := solved) ⟨rfl, rfl, rfl⟩ rfl solvedFull.once
    (Or.inr ⟨"sum", rfl, by simp [hours], rfl⟩) (b := "a") (List.mem_cons_self ..) (v := 10) (by norm_num)
  exact h1

/-- Widths of a and b and a flow of b. -/
example : ∃ r, draw hours sums solved { plainArgs with widths := .each [("a", some 1), ("b", some (-51))] } (.series [("b", some 4)]) = .ok r ∧
    Shown r "b" (some (scaled plainArgs (-51) 4)) :=
  ⟨_, rfl, of_widths (named := sums) (t := solved) (snapshots := hours) (a := { plainArgs with widths := .each [("a", some 1), ("b", some (-51))] }) rfl (by simp) (by simp) rfl rfl
    (List.mem_singleton.mpr rfl) (List.mem_cons_of_mem _ (List.mem_singleton.mpr rfl))⟩

example : ∃ r, draw hours sums solved plainArgs (.series [("b", none)]) = .ok r ∧ Shown r "b" (some 0) :=
  ⟨_, rfl, of_nothing (named := sums) (t := solved) (snapshots := hours) plainPlain rfl (by simp) rfl (List.mem_singleton.mpr rfl)⟩

/-- A Series for a line that is not there. -/
example : draw hours sums solved plainArgs (.series [("z", some 1)]) = .error .key :=
  unknown_refused (f := some [("z", some 1)]) rfl (b := "z") (by simp [mem_rows]) (by simp [solved])

example : ∃ r, draw hours sums solved plainArgs (.label (.num 2)) = .ok r ∧ Shown r "b" (some (scaled plainArgs (3 / 2) 2)) := by
  obtain ⟨r, h⟩ := solvedDraws (.num 2) (by simp)
  exact ⟨r, h, number plainPlain h (by simp [solved]) rfl (by simp [hours]) (by simp [solved])⟩

end Verif.Plot.Flows
