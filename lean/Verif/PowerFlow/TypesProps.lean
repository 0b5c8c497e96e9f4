import Verif.PowerFlow.Types
import Mathlib.Tactic.Ring
import Mathlib.Tactic.FieldSimp
import Mathlib.Tactic.Linarith
import Mathlib.Tactic.NormNum
import Mathlib.Tactic.LinearCombination

/-! # Properties of standard types (C35) and of the T-model conversion (C33) -/

namespace Verif.PowerFlow.Types

/-! ## C35 -/

theorem lookup_mem {T : Type} (nm : T → Name) (types : List T) (hn : (types.map nm).Nodup) (t : T)
    (ht : t ∈ types) : lookup nm types (nm t) = some t := by
  unfold lookup
  cases hf : types.find? (fun t' => nm t' = nm t) with
  | none =>
    have := List.find?_eq_none.mp hf t ht
    simp at this
  | some e =>
    have h1 : nm e = nm t := by simpa using List.find?_some hf
    have h2 := List.mem_of_find?_eq_some hf
    rw [List.inj_on_of_nodup_map hn h2 ht h1]

/-- What the documentation says about a line of a standard type; the capacitance is in nF/km,
so the shunt susceptance is `2 π f C`. -/
def LineFromType (old new : Line) (t : LineType) : Prop :=
  new.r * old.numParallel = t.rPerLength * old.length ∧
  new.x * old.numParallel = t.xPerLength * old.length ∧
  new.b = 2 * Real.pi * t.fNom * (t.cPerLength * old.length / 1000000000) * old.numParallel ∧
  new.name = old.name ∧ new.type = old.type ∧ new.length = old.length ∧
  new.numParallel = old.numParallel ∧ new.g = old.g ∧ new.sNom = old.sNom

/-- C35 (lines): with unique type names, lines with an unknown type raise; otherwise every line
without a type is untouched and every line with a type gets exactly the values of its type scaled
with length and number of parallel circuits. -/
theorem line_types (types : List LineType) (hn : (types.map LineType.name).Nodup)
    (lines : List Line) :
    (applyLineTypes types lines = .error .valueError ↔
      ∃ l ∈ lines, l.type ≠ "" ∧ ∀ t ∈ types, t.name ≠ l.type) ∧
    (∀ out, applyLineTypes types lines = .ok out →
      List.Forall₂ (fun old new => (old.type = "" → new = old) ∧
        (∀ t ∈ types, t.name = old.type → old.type ≠ "" → old.numParallel ≠ 0 →
          LineFromType old new t)) lines out) := by
  constructor
  · unfold applyLineTypes
    split
    · rename_i h
      simp only [List.all_eq_true, decide_eq_true_eq] at h
      constructor
      · intro h'; simp at h'
      · rintro ⟨l, hl, hne, _⟩; exact absurd (h l hl) hne
    · split
      · rename_i h
        simp only [List.any_eq_true, decide_eq_true_eq, not_exists, not_and] at h
        refine ⟨fun _ => ?_, fun _ => rfl⟩
        obtain ⟨l, hl, hne, hall⟩ := h
        exact ⟨l, hl, hne, fun t ht he => hall t ht he⟩
      · rename_i h
        constructor
        · intro h'; simp at h'
        · rintro ⟨l, hl, hne, hall⟩
          exact absurd (List.any_eq_true.mpr ⟨l, hl, by simpa [hne] using hall⟩) h
  · intro out hok
    have one : ∀ l, (l.type = "" → applyLine types l = l) ∧
        (∀ t ∈ types, t.name = l.type → l.type ≠ "" → l.numParallel ≠ 0 →
          LineFromType l (applyLine types l) t) := by
      intro l
      refine ⟨fun h => by simp [applyLine, h], ?_⟩
      intro t ht hname hne hnp
      have hl : lookup LineType.name types l.type = some t := by
        rw [← hname]; exact lookup_mem _ types hn t ht
      simp only [applyLine, if_neg hne, hl, setLine, LineFromType]
      refine ⟨by field_simp, by field_simp, by ring, trivial, trivial, trivial, trivial, trivial, trivial⟩
    unfold applyLineTypes at hok
    split at hok
    · rename_i h
      simp only [List.all_eq_true, decide_eq_true_eq] at h
      simp only [Except.ok.injEq] at hok
      subst hok
      rw [List.forall₂_same]
      exact fun l hl => ⟨fun _ => rfl, fun t _ _ hne => absurd (h l hl) hne⟩
    · split at hok
      · simp at hok
      · simp only [Except.ok.injEq] at hok
        subst hok
        rw [List.forall₂_map_right_iff, List.forall₂_same]
        exact fun l _ => one l

/-- C35 (lines, re-application): applying the types a second time changes nothing. -/
theorem line_types_idempotent (types : List LineType) (lines out : List Line)
    (h : applyLineTypes types lines = .ok out) : applyLineTypes types out = .ok out := by
  have one : ∀ l, applyLine types (applyLine types l) = applyLine types l := by
    intro l
    unfold applyLine
    by_cases h : l.type = ""
    · simp [h]
    · cases hl : lookup LineType.name types l.type with
      | none => simp [h, hl]
      | some t => simp [h, hl, setLine]
  have ty : ∀ l, (applyLine types l).type = l.type := by
    intro l
    unfold applyLine
    by_cases h : l.type = ""
    · simp [h]
    · cases hl : lookup LineType.name types l.type with
      | none => simp [h]
      | some t => simp [h, setLine]
  unfold applyLineTypes at h
  split at h
  · rename_i h1
    simp only [Except.ok.injEq] at h
    subst h
    simp only [applyLineTypes, h1, if_true]
  · split at h
    · simp at h
    · rename_i h1 h2
      simp only [Except.ok.injEq] at h
      subst h
      unfold applyLineTypes
      rw [if_neg (by simpa [ty] using h1), if_neg (by simpa [ty] using h2), List.map_map]
      congr 1
      exact List.map_congr_left (fun l _ => one l)

/-- What the documentation says about a transformer of a standard type: per unit of the type's
`s_nom`, the short-circuit impedance has magnitude `vsc` and real part `vscr` (in percent), the
iron losses `pfe` (in kW) give the conductance and the open-circuit current `i0` (in percent)
the magnitude of the shunt admittance; parallel transformers divide the impedance and multiply the
admittance; the tap ratio follows the tap position. -/
def TrafoFromType (old new : Trafo) (t : TrafoType) : Prop :=
  (∃ x, new.x = some x ∧ 0 ≤ x * old.numParallel ∧
    (new.r * old.numParallel) ^ 2 + (x * old.numParallel) ^ 2 = (t.vsc / 100) ^ 2) ∧
  new.r * old.numParallel * 100 = t.vscr ∧
  new.g * 1000 * t.sNom = t.pfe * old.numParallel ∧
  ((t.pfe / (1000 * t.sNom)) ^ 2 ≤ (t.i0 / 100) ^ 2 →
    new.g ^ 2 + new.b ^ 2 = (t.i0 / 100 * old.numParallel) ^ 2) ∧
  ((t.i0 / 100) ^ 2 ≤ (t.pfe / (1000 * t.sNom)) ^ 2 → new.b = 0) ∧
  new.b ≤ 0 ∧
  new.tapRatio = 1 + (old.tapPosition - t.tapNeutral) * t.tapStep / 100 ∧
  new.phaseShift = t.phaseShift ∧ new.sNom = t.sNom ∧ new.tapSide = t.tapSide ∧
  new.name = old.name ∧ new.type = old.type ∧ new.numParallel = old.numParallel ∧
  new.tapPosition = old.tapPosition

/-- C35 (transformers): unknown types raise; transformers without a type are untouched; those with
a type get the values of the type (`|vscr| ≤ |vsc|`, else the reactance is NaN). -/
theorem trafo_types (types : List TrafoType) (hn : (types.map TrafoType.name).Nodup)
    (ts : List Trafo) :
    (applyTrafoTypes types ts = .error .valueError ↔
      ∃ l ∈ ts, l.type ≠ "" ∧ ∀ t ∈ types, t.name ≠ l.type) ∧
    (∀ out, applyTrafoTypes types ts = .ok out →
      List.Forall₂ (fun old new => (old.type = "" → new = old) ∧
        (∀ t ∈ types, t.name = old.type → old.type ≠ "" → 0 < old.numParallel → 0 < t.sNom →
          t.vscr ^ 2 ≤ t.vsc ^ 2 → TrafoFromType old new t)) ts out) := by
  constructor
  · unfold applyTrafoTypes
    split
    · rename_i h
      simp only [List.all_eq_true, decide_eq_true_eq] at h
      constructor
      · intro h'; simp at h'
      · rintro ⟨l, hl, hne, _⟩; exact absurd (h l hl) hne
    · split
      · rename_i h
        simp only [List.any_eq_true, decide_eq_true_eq, not_exists, not_and] at h
        refine ⟨fun _ => ?_, fun _ => rfl⟩
        obtain ⟨l, hl, hne, hall⟩ := h
        exact ⟨l, hl, hne, fun t ht he => hall t ht he⟩
      · rename_i h
        constructor
        · intro h'; simp at h'
        · rintro ⟨l, hl, hne, hall⟩
          exact absurd (List.any_eq_true.mpr ⟨l, hl, by simpa [hne] using hall⟩) h
  · intro out hok
    have one : ∀ l, (l.type = "" → applyTrafo types l = l) ∧
        (∀ t ∈ types, t.name = l.type → l.type ≠ "" → 0 < l.numParallel → 0 < t.sNom →
          t.vscr ^ 2 ≤ t.vsc ^ 2 → TrafoFromType l (applyTrafo types l) t) := by
      intro l
      refine ⟨fun h => by simp [applyTrafo, h], ?_⟩
      intro t ht hname hne hnp hs hv
      have hl : lookup TrafoType.name types l.type = some t := by
        rw [← hname]; exact lookup_mem _ types hn t ht
      have hpos : 0 ≤ (t.vsc / 100) ^ 2 - (t.vscr / 100) ^ 2 := by
        simp only [div_pow]; linarith
      have hnp' := hnp.ne'
      have hs' := hs.ne'
      simp only [applyTrafo, if_neg hne, hl, setTrafo, TrafoFromType, npSqrt, if_neg (not_lt.mpr hpos),
        Option.map_some]
      refine ⟨⟨_, rfl, ?_, ?_⟩, by field_simp, by field_simp, ?_, ?_, ?_, by ring, trivial, trivial, trivial,
        trivial, trivial, trivial, trivial⟩
      · rw [div_mul_cancel₀ _ hnp']; exact Real.sqrt_nonneg _
      · rw [div_mul_cancel₀ _ hnp', div_mul_cancel₀ _ hnp', Real.sq_sqrt hpos]; ring
      · intro h
        rw [max_eq_left (by linarith), mul_pow, mul_pow, neg_sq, Real.sq_sqrt (by linarith)]
        ring
      · intro h
        rw [max_eq_right (by linarith)]; simp
      · have := mul_nonneg (Real.sqrt_nonneg (max ((t.i0 / 100) ^ 2 - (t.pfe / (1000 * t.sNom)) ^ 2) 0))
          hnp.le
        linarith
    unfold applyTrafoTypes at hok
    split at hok
    · rename_i h
      simp only [List.all_eq_true, decide_eq_true_eq] at h
      simp only [Except.ok.injEq] at hok
      subst hok
      rw [List.forall₂_same]
      exact fun l hl => ⟨fun _ => rfl, fun t _ _ hne => absurd (h l hl) hne⟩
    · split at hok
      · simp at hok
      · simp only [Except.ok.injEq] at hok
        subst hok
        rw [List.forall₂_map_right_iff, List.forall₂_same]
        exact fun l _ => one l

/-- C35 (transformers, re-application). -/
theorem trafo_types_idempotent (types : List TrafoType) (ts out : List Trafo)
    (h : applyTrafoTypes types ts = .ok out) : applyTrafoTypes types out = .ok out := by
  have one : ∀ l, applyTrafo types (applyTrafo types l) = applyTrafo types l := by
    intro l
    unfold applyTrafo
    by_cases h : l.type = ""
    · simp [h]
    · cases hl : lookup TrafoType.name types l.type with
      | none => simp [h, hl]
      | some t => simp [h, hl, setTrafo]
  have ty : ∀ l, (applyTrafo types l).type = l.type := by
    intro l
    unfold applyTrafo
    by_cases h : l.type = ""
    · simp [h]
    · cases hl : lookup TrafoType.name types l.type with
      | none => simp [h]
      | some t => simp [h, setTrafo]
  unfold applyTrafoTypes at h
  split at h
  · rename_i h1
    simp only [Except.ok.injEq] at h
    subst h
    simp only [applyTrafoTypes, h1, if_true]
  · split at h
    · simp at h
    · rename_i h1 h2
      simp only [Except.ok.injEq] at h
      subst h
      unfold applyTrafoTypes
      rw [if_neg (by simpa [ty] using h1), if_neg (by simpa [ty] using h2), List.map_map]
      congr 1
      exact List.map_congr_left (fun l _ => one l)

/-- Two lines, one with a type: the call succeeds. -/
example : ∃ out, applyLineTypes [⟨"al", 50, 1 / 10, 1 / 4, 10⟩]
    [⟨"l1", "al", 100, 2, 0, 0, 0, 0, 0⟩, ⟨"l2", "", 100, 2, 1, 1, 1, 1, 1⟩] = .ok out :=
  ⟨_, by simp only [applyLineTypes]; simp; rfl⟩
example : ∃ out, applyTrafoTypes [⟨"tt", 1 / 4, 12, 60, 1 / 10, 160, 150, 0, 0, 3 / 2⟩]
    [⟨"t1", "tt", 2, 3, 0, none, 0, 0, 0, 0, 0, 1⟩] = .ok out :=
  ⟨_, by simp only [applyTrafoTypes]; simp; rfl⟩

/-! ## C33 -/

section Wye
variable {F : Type} [Field F]

/-- Three terminals joined in a star point through `z1`, `z2`, `z3`. -/
def Wye (z1 z2 z3 V1 V2 V3 I1 I2 I3 : F) : Prop :=
  ∃ v, V1 - v = z1 * I1 ∧ V2 - v = z2 * I2 ∧ V3 - v = z3 * I3 ∧ I1 + I2 + I3 = 0

/-- Three terminals pairwise joined through `z12`, `z23`, `z13`, the currents of which are
`i12`, `i23`, `i13`. -/
def Delta (z12 z23 z13 V1 V2 V3 I1 I2 I3 : F) : Prop :=
  ∃ i12 i23 i13, V1 - V2 = z12 * i12 ∧ V2 - V3 = z23 * i23 ∧ V1 - V3 = z13 * i13 ∧
    I1 = i12 + i13 ∧ I2 = i23 - i12 ∧ I3 = -i13 - i23

/-- C33: the delta circuit returned by the conversion has the same terminal behaviour as the wye
circuit, for all impedances for which the conversion is defined.  The three results are the
elements between terminals 1 and 3, 2 and 3, and 1 and 2. -/
theorem wye_delta_equivalent (z1 z2 z3 : F) (h1 : z1 ≠ 0) (h2 : z2 ≠ 0) (h3 : z3 ≠ 0)
    (hs : z1 * z2 + z2 * z3 + z3 * z1 ≠ 0) (V1 V2 V3 I1 I2 I3 : F) :
    Wye z1 z2 z3 V1 V2 V3 I1 I2 I3 ↔
    Delta (wyeToDelta z1 z2 z3).2.2 (wyeToDelta z1 z2 z3).2.1 (wyeToDelta z1 z2 z3).1
      V1 V2 V3 I1 I2 I3 := by
  unfold Wye Delta wyeToDelta
  simp only
  generalize hS : z1 * z2 + z2 * z3 + z3 * z1 = S at *
  constructor
  · rintro ⟨v, e1, e2, e3, e4⟩
    refine ⟨(V1 - V2) * z3 / S, (V2 - V3) * z1 / S, (V1 - V3) * z2 / S, by field_simp,
      by field_simp, by field_simp, ?_, ?_, ?_⟩
    · field_simp
      linear_combination -(z2 + z3) * e1 + z3 * e2 + z2 * e3 - I1 * hS + z2 * z3 * e4
    · field_simp
      linear_combination -(z1 + z3) * e2 + z3 * e1 + z1 * e3 - I2 * hS + z1 * z3 * e4
    · field_simp
      linear_combination -(z1 + z2) * e3 + z2 * e1 + z1 * e2 - I3 * hS + z1 * z2 * e4
  · rintro ⟨i12, i23, i13, e12, e23, e13, rfl, rfl, rfl⟩
    refine ⟨V1 - z1 * (i12 + i13), by ring, ?_, ?_, by ring⟩
    · have a : (V1 - V2) * z3 = S * i12 := by rw [e12]; field_simp
      have b : (V2 - V3) * z1 = S * i23 := by rw [e23]; field_simp
      have c : (V1 - V3) * z2 = S * i13 := by rw [e13]; field_simp
      apply mul_left_cancel₀ hs
      linear_combination (V1 - V2) * hS - (z1 + z2) * a + z2 * b - z1 * c
    · have a : (V1 - V2) * z3 = S * i12 := by rw [e12]; field_simp
      have b : (V2 - V3) * z1 = S * i23 := by rw [e23]; field_simp
      have c : (V1 - V3) * z2 = S * i13 := by rw [e13]; field_simp
      apply mul_left_cancel₀ hs
      linear_combination (V1 - V3) * hS - z1 * a - z3 * b - (z1 + z3) * c

end Wye

/-- Terminal relation of a T circuit: half of the impedance `z` to either side of a node which the
admittance `y` joins to ground. -/
def TCircuit (z y V0 V1 I0 I1 : ℂ) : Prop :=
  ∃ v, V0 - v = z / 2 * I0 ∧ V1 - v = z / 2 * I1 ∧ I0 + I1 = y * v

/-- Terminal relation of a pi circuit: impedance `z` between the terminals, half of the admittance
`y` at either one. -/
def Pi (z y V0 V1 I0 I1 : ℂ) : Prop :=
  ∃ i, V0 - V1 = z * i ∧ I0 = i + y / 2 * V0 ∧ I1 = -i + y / 2 * V1

theorem zy_of_re (z y : ℂ) : (z.re : ℂ) + Complex.I * z.im = z ∧ (y.re : ℂ) + Complex.I * y.im = y := by
  constructor <;> (rw [mul_comm]; exact Complex.re_add_im _)

/-- C33: after the conversion, a transformer given by T-model parameters has as pi-model the same
relation between terminal voltages and currents; `z y ≠ -4` says that the T circuit has an
equivalent pi circuit.  Other transformers are untouched. -/
theorem t_model_equivalent (p : PU) (hz : zSeries p ≠ 0) (hzy : zSeries p * yShunt p ≠ -4) :
    (p.isT = false → tModel p = p) ∧ (yShunt p = 0 → tModel p = p) ∧
    (p.isT = true → ∀ V0 V1 I0 I1 : ℂ,
      TCircuit (p.r + Complex.I * p.x) (p.g + Complex.I * p.b) V0 V1 I0 I1 ↔
      Pi ((tModel p).r + Complex.I * (tModel p).x) ((tModel p).g + Complex.I * (tModel p).b)
        V0 V1 I0 I1) := by
  refine ⟨fun h => by simp [tModel, h], fun h => by simp [tModel, h], ?_⟩
  intro hT V0 V1 I0 I1
  change TCircuit (zSeries p) (yShunt p) V0 V1 I0 I1 ↔ _
  by_cases hy : yShunt p = 0
  · have e : tModel p = p := by simp [tModel, hy]
    rw [e]
    change _ ↔ Pi (zSeries p) (yShunt p) V0 V1 I0 I1
    rw [hy]
    unfold TCircuit Pi
    constructor
    · rintro ⟨v, h1, h2, h3⟩
      exact ⟨I0, by linear_combination h1 - h2 - zSeries p / 2 * h3, by ring,
        by linear_combination h3⟩
    · rintro ⟨i, h1, rfl, rfl⟩
      exact ⟨V0 - zSeries p / 2 * i, by ring, by linear_combination -h1, by ring⟩
  · have hS : zSeries p / 2 * (zSeries p / 2) + zSeries p / 2 * (1 / yShunt p)
        + 1 / yShunt p * (zSeries p / 2) = zSeries p * (zSeries p * yShunt p + 4) / (4 * yShunt p) := by
      field_simp; ring
    have h4 : zSeries p * yShunt p + 4 ≠ 0 := fun h => hzy (by linear_combination h)
    have ez : ((tModel p).r : ℂ) + Complex.I * (tModel p).x =
        zSeries p * (zSeries p * yShunt p + 4) / 4 := by
      simp only [tModel, hT, hy, ne_eq, not_false_eq_true, and_self, if_true, wyeToDelta, hS]
      rw [(zy_of_re _ 0).1]
      field_simp
    have ey : ((tModel p).g : ℂ) + Complex.I * (tModel p).b =
        4 * yShunt p / (zSeries p * yShunt p + 4) := by
      simp only [tModel, hT, hy, ne_eq, not_false_eq_true, and_self, if_true, wyeToDelta, hS]
      rw [(zy_of_re _ 0).1]
      field_simp
    rw [ez, ey]
    generalize zSeries p = z at *
    generalize yShunt p = y at *
    unfold TCircuit Pi
    constructor
    · rintro ⟨v, h1, h2, h3⟩
      have hv : v * (z * y + 4) = 2 * (V0 + V1) := by
        linear_combination (-2) * h1 - 2 * h2 - z * h3
      have hz2 : z * I0 * (z * y + 4) = 2 * V0 * (z * y + 4) - 4 * (V0 + V1) := by
        linear_combination (-2) * (z * y + 4) * h1 - 2 * hv
      have hz3 : z * I1 * (z * y + 4) = 2 * V1 * (z * y + 4) - 4 * (V0 + V1) := by
        linear_combination (-2) * (z * y + 4) * h2 - 2 * hv
      refine ⟨4 * (V0 - V1) / (z * (z * y + 4)), by field_simp, ?_, ?_⟩
      · field_simp
        linear_combination 2 * hz2
      · field_simp
        linear_combination 2 * hz3
    · rintro ⟨i, h1, rfl, rfl⟩
      have hi : i = 4 * (V0 - V1) / (z * (z * y + 4)) := by
        rw [h1]; field_simp
      subst hi
      refine ⟨2 * (V0 + V1) / (z * y + 4), ?_, ?_, ?_⟩ <;> · field_simp; ring

/-- A transformer with magnetising admittance given as T-model. -/
example : ∃ p : PU, p.isT = true ∧ zSeries p ≠ 0 ∧ yShunt p ≠ 0 ∧ zSeries p * yShunt p ≠ -4 := by
  refine ⟨⟨true, 1, 2, 1, 0⟩, rfl, ?_, ?_, ?_⟩
  · intro h; have := congrArg Complex.re h; simp [zSeries] at this
  · intro h; have := congrArg Complex.re h; simp [yShunt] at this
  · intro h; have := congrArg Complex.re h; simp [zSeries, yShunt] at this; norm_num at this

end Verif.PowerFlow.Types
