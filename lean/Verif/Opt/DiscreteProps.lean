import Verif.Opt.Discrete
import Mathlib.Tactic.Linarith
import Mathlib.Tactic.Ring
import Mathlib.Tactic.FieldSimp
import Mathlib.Tactic.Positivity
import Mathlib.Algebra.Order.Ring.Rat

/-!
# Discretised capacities (C60)
-/

namespace Verif.Opt.Discrete

variable {F : Type} [Field F] [LinearOrder F] [IsStrictOrderedRing F] [FloorRing F]

/-- Whole multiple of the unit size. -/
def Multiple (r unit : F) : Prop := ∃ k : ℤ, r = k * unit

theorem floorDiv_le (x u : F) (hu : 0 < u) : floorDiv x u * u ≤ x := by
  unfold floorDiv
  exact (le_div_iff₀ hu).mp (Int.floor_le _)

theorem lt_floorDiv (x u : F) (hu : 0 < u) : x < floorDiv x u * u + u := by
  unfold floorDiv
  have := (div_lt_iff₀ hu).mp (Int.lt_floor_add_one (x / u))
  linarith

theorem modulo_nonneg (x u : F) (hu : 0 < u) : 0 ≤ modulo x u := by
  unfold modulo; linarith [floorDiv_le x u hu]

theorem modulo_lt (x u : F) (hu : 0 < u) : modulo x u < u := by
  unfold modulo; linarith [lt_floorDiv x u hu]

theorem floorDiv_unique (x u : F) (hu : 0 < u) (k : ℤ) (h1 : k * u ≤ x) (h2 : x < (k + 1) * u) : floorDiv x u = k := by
  unfold floorDiv
  have : ⌊x / u⌋ = k := Int.floor_eq_iff.mpr ⟨(le_div_iff₀ hu).mpr h1, (div_lt_iff₀ hu).mpr h2⟩
  rw [this]

theorem floorDiv_mono (x y u : F) (hu : 0 < u) (h : x ≤ y) : floorDiv x u ≤ floorDiv y u := by
  unfold floorDiv
  exact_mod_cast Int.floor_le_floor (div_le_div_of_nonneg_right h hu.le)

theorem floorDiv_multiple (r u : F) (hu : 0 < u) (h : Multiple r u) : floorDiv r u * u = r ∧ modulo r u = 0 := by
  obtain ⟨k, rfl⟩ := h
  have := floorDiv_unique ((k : F) * u) u hu k le_rfl (by nlinarith)
  unfold modulo
  rw [this]
  simp

/-- C60 (partial): the result is a multiple of the unit size, or the maximum if that is not a multiple and either
fractions are allowed or it is less than one unit; it is between zero and the maximum and less than one unit away from the
optimum.  If the maximum is absent, a multiple, or at least one unit away, the next multiple is taken exactly
if the remainder reaches the threshold.
Missing: rounding up when the maximum is near (`near_maximum_rounds_down`), a threshold of zero
(`threshold_zero_exceeds_maximum`). -/
theorem discretized_partial (opt : F) (max' : Option F) (unit thr : F) (fractional : Bool)
    (hu : 0 < unit) (ho : 0 ≤ opt) (hm : ∀ mx, max' = some mx → opt ≤ mx) (ht : 0 < thr) :
    (Multiple (discretized opt max' unit thr fractional) unit ∨
      ∃ mx, max' = some mx ∧ discretized opt max' unit thr fractional = mx ∧ ¬ Multiple mx unit ∧
        (fractional = true ∨ mx < unit)) ∧
    0 ≤ discretized opt max' unit thr fractional ∧
    (∀ mx, max' = some mx → discretized opt max' unit thr fractional ≤ mx) ∧
    (|discretized opt max' unit thr fractional - opt| < unit) ∧
    ((∀ mx, max' = some mx → Multiple mx unit ∨ unit ≤ mx - opt) →
      ∀ k : ℤ, k * unit ≤ opt → opt < (k + 1) * unit →
        discretized opt max' unit thr fractional =
          if thr * unit ≤ opt - k * unit then (k + 1) * unit else k * unit) := by
  have hfl := floorDiv_le opt unit hu
  have hlt := lt_floorDiv opt unit hu
  have hfl0 : 0 ≤ floorDiv opt unit * unit := by
    apply mul_nonneg _ hu.le
    unfold floorDiv
    exact_mod_cast Int.floor_nonneg.mpr (div_nonneg ho hu.le)
  have hmm : ∀ mx, modulo mx unit = 0 ↔ Multiple mx unit := by
    intro mx
    constructor
    · intro h
      refine ⟨⌊mx / unit⌋, ?_⟩
      unfold modulo floorDiv at h
      linarith
    · exact fun h => (floorDiv_multiple mx unit hu h).2
  -- facts about rounding to the next multiple
  generalize hblock : (floorDiv opt unit + if thr * unit ≤ modulo opt unit then 1 else 0) * unit = block
  have hbm : Multiple block unit := by
    refine ⟨⌊opt / unit⌋ + if thr * unit ≤ modulo opt unit then 1 else 0, ?_⟩
    rw [← hblock]; unfold floorDiv
    split <;> simp
  have hb0 : 0 ≤ block := by
    rw [← hblock]; split <;> nlinarith
  have hbup : block ≤ floorDiv opt unit * unit + unit := by
    rw [← hblock]; split <;> linarith
  have hbnear : |block - opt| < unit := by
    rw [abs_lt, ← hblock]
    split
    · rename_i h
      have : 0 < modulo opt unit := lt_of_lt_of_le (mul_pos ht hu) h
      unfold modulo at this
      constructor <;> linarith
    · constructor <;> linarith
  have hbmax : ∀ mx, opt ≤ mx → Multiple mx unit → block ≤ mx := by
    intro mx hmx hmul
    have h1 := (floorDiv_multiple mx unit hu hmul).1
    rw [← hblock]
    split
    · rename_i h
      have hpos : 0 < modulo opt unit := lt_of_lt_of_le (mul_pos ht hu) h
      have hlt' : floorDiv opt unit < floorDiv mx unit := by
        rcases lt_or_eq_of_le (floorDiv_mono opt mx unit hu hmx) with h2 | h2
        · exact h2
        · unfold modulo at hpos; rw [h2] at hpos; linarith
      have : floorDiv opt unit + 1 ≤ floorDiv mx unit := by
        unfold floorDiv at hlt' ⊢
        exact_mod_cast hlt'
      nlinarith
    · linarith
  have hround : ∀ k : ℤ, k * unit ≤ opt → opt < (k + 1) * unit →
      block = if thr * unit ≤ opt - k * unit then (k + 1) * unit else k * unit := by
    intro k h1 h2
    have := floorDiv_unique opt unit hu k h1 h2
    rw [← hblock]
    unfold modulo
    rw [this]
    split <;> ring
  unfold discretized
  simp only [hblock]
  cases max' with
  | none => exact ⟨Or.inl hbm, hb0, by simp, hbnear, fun _ => hround⟩
  | some mx =>
    have hmx : opt ≤ mx := hm mx rfl
    simp only [Option.some.injEq, forall_eq', exists_eq_left']
    by_cases h0 : modulo mx unit = 0
    · rw [if_pos h0]
      exact ⟨Or.inl hbm, hb0, hbmax mx hmx ((hmm mx).mp h0), hbnear, fun _ => hround⟩
    · rw [if_neg h0]
      have hnm : ¬ Multiple mx unit := fun h => h0 ((hmm mx).mpr h)
      by_cases h1 : mx - opt < unit
      · rw [if_pos h1]
        have hvac : (Multiple mx unit ∨ unit ≤ mx - opt) → False := by
          rintro (h | h)
          · exact hnm h
          · linarith
        by_cases h2 : fractional = true ∧ thr ≤ modulo opt unit / modulo mx unit
        · rw [if_pos h2]
          refine ⟨Or.inr ⟨rfl, hnm, Or.inl h2.1⟩, by linarith, le_rfl, ?_, fun h => (hvac h).elim⟩
          rw [abs_lt]; constructor <;> linarith
        · rw [if_neg h2]
          by_cases h3 : mx < unit
          · rw [if_pos h3]
            refine ⟨Or.inr ⟨rfl, hnm, Or.inr h3⟩, by linarith, le_rfl, ?_, fun h => (hvac h).elim⟩
            rw [abs_lt]; constructor <;> linarith
          · rw [if_neg h3]
            refine ⟨Or.inl ⟨_, rfl⟩, hfl0, by linarith, ?_, fun h => (hvac h).elim⟩
            rw [abs_lt]; constructor <;> linarith
      · rw [if_neg h1]
        exact ⟨Or.inl hbm, hb0, by linarith, hbnear, fun _ => hround⟩

/-- C60: discretising a discretised capacity again does not change it. -/
theorem discretized_idempotent (opt : F) (max' : Option F) (unit thr : F) (fractional : Bool)
    (hu : 0 < unit) (ho : 0 ≤ opt) (hm : ∀ mx, max' = some mx → opt ≤ mx) (ht : 0 < thr) (ht1 : thr ≤ 1) :
    discretized (discretized opt max' unit thr fractional) max' unit thr fractional =
      discretized opt max' unit thr fractional := by
  obtain ⟨hcase, h0, hle, -, -⟩ := discretized_partial opt max' unit thr fractional hu ho hm ht
  generalize hr : discretized opt max' unit thr fractional = r at *
  have hmul : ∀ x, Multiple x unit →
      (floorDiv x unit + if thr * unit ≤ modulo x unit then 1 else 0) * unit = x := by
    intro x hx
    obtain ⟨h1, h2⟩ := floorDiv_multiple x unit hu hx
    rw [h2, if_neg (not_le.mpr (mul_pos ht hu)), add_zero, h1]
  rcases hcase with hmu | ⟨mx, rfl, rfl, hnm, hor⟩
  · unfold discretized
    simp only [hmul r hmu]
    cases max' with
    | none => rfl
    | some mx =>
      simp only
      split
      · rfl
      · rename_i hmod
        split
        · rw [(floorDiv_multiple r unit hu hmu).2, (floorDiv_multiple r unit hu hmu).1, zero_div]
          rw [if_neg (fun h => absurd h.2 (not_le.mpr ht))]
          split
          · rename_i hlt
            -- a multiple below a maximum of less than one unit: the function returns the maximum
            exfalso
            have hmx : opt ≤ mx := hm mx rfl
            apply hmod
            have : r = mx := by
              rw [← hr]
              unfold discretized
              simp only
              rw [if_neg hmod, if_pos (by linarith)]
              split
              · rfl
              · rfl
            rw [← this]
            exact (floorDiv_multiple r unit hu hmu).2
          · rfl
        · rfl
  · have h0' : modulo r unit ≠ 0 := by
      intro h
      apply hnm
      refine ⟨⌊r / unit⌋, ?_⟩
      unfold modulo floorDiv at h
      linarith
    unfold discretized
    simp only
    rw [if_neg h0', if_pos (by linarith), div_self h0']
    rcases hor with h | h
    · rw [if_pos ⟨h, ht1⟩]
    · split
      · rfl
      · rfl

/-- The examples of the documentation. -/
example : discretized (7 : ℚ) (some 25) 5 (1 / 10) false = 10 ∧ discretized (7 : ℚ) (some 8) 5 (1 / 10) false = 5 ∧
    discretized (7 : ℚ) (some 8) 5 (1 / 10) true = 8 ∧ discretized (3 : ℚ) (some 4) 5 (1 / 10) false = 4 ∧
    discretized (6 : ℚ) none 5 (3 / 10) false = 5 := by decide +kernel

/-- **Finding** (abstract.py 117, 126): within one unit of a maximum that is not a multiple the capacity is rounded down
although the next multiple fits and the remainder exceeds the threshold; nothing is built. -/
theorem near_maximum_rounds_down : discretized (4 : ℚ) (some 8) 5 (3 / 10) false = 0 := by decide +kernel

/-- **Finding** (abstract.py 118-122): with fractions allowed the maximum is taken although the next multiple suffices. -/
theorem fraction_skips_multiple : discretized (4 : ℚ) (some 8) 5 (3 / 10) true = 8 := by decide +kernel

/-- **Finding** (abstract.py 123-124): if the maximum is less than one unit it is built even if nothing is needed (as
documented). -/
theorem nothing_needed_builds_maximum : discretized (0 : ℚ) (some 4) 5 (3 / 10) false = 4 := by decide +kernel

/-- **Finding** (abstract.py 107): with threshold zero a further unit is built above the maximum. -/
theorem threshold_zero_exceeds_maximum : discretized (10 : ℚ) (some 10) 5 0 false = 15 := by decide +kernel

end Verif.Opt.Discrete
