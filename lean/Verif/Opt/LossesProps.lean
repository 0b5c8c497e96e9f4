import Verif.Opt.Losses
import Mathlib.Tactic.Linarith
import Mathlib.Tactic.Ring
import Mathlib.Tactic.Positivity
import Mathlib.Tactic.FieldSimp
import Mathlib.Algebra.Order.Archimedean.Basic
import Mathlib.Algebra.Order.Floor.Semiring
import Mathlib.Data.Rat.Floor
import Mathlib.Algebra.Order.Ring.Rat

/-!
# Transmission losses (C48)
-/

namespace Verif.Opt

variable {F : Type} [Field F] [LinearOrder F] [IsStrictOrderedRing F]

/-- Value of the pair (loss, flow) as a point. -/
def lossPoint (loss flow : F) : LVar → F
  | .loss => loss
  | .flow => flow

/-- The loss rows, read as inequalities: at least zero, at most the loss at full rating, above
every tangent on both sides. -/
theorem loss_rows (b : LossBranch F) (n : Nat) (rows : List (Con LVar F)) (snm : F)
    (hr : lossRating b = some snm) (h : lossCons b n = .ok rows) (ha : b.active = true)
    (loss flow : F) :
    Feasible (lossPoint loss flow) rows ↔
      0 ≤ loss ∧ loss ≤ b.rPuEff * (b.sMaxPu * snm) ^ 2 ∧
      ∀ k, 1 ≤ k → k ≤ n →
        b.rPuEff * (2 * ((k : F) / n * (b.sMaxPu * snm)) * flow - ((k : F) / n * (b.sMaxPu * snm)) ^ 2)
          ≤ loss ∧
        b.rPuEff * (2 * ((k : F) / n * (b.sMaxPu * snm)) * (-flow) -
          ((k : F) / n * (b.sMaxPu * snm)) ^ 2) ≤ loss := by
  unfold lossCons at h
  rw [hr] at h
  simp only [ha, if_true] at h
  injection h with h
  subst h
  simp only [feasible_cons, feasible_flatMap, feasible_nil, and_true, Con.holds, lin_cons, lin_nil,
    tangentRow, lossPoint, List.mem_range'_1]
  constructor
  · rintro ⟨h1, h2, h3⟩
    refine ⟨by linarith, by linarith, fun k k1 k2 => ?_⟩
    obtain ⟨a, c⟩ := h3 k ⟨k1, by omega⟩
    constructor
    · linarith
    · linarith
  · rintro ⟨h1, h2, h3⟩
    refine ⟨by linarith, by linarith, fun k ⟨k1, k2⟩ => ?_⟩
    obtain ⟨a, c⟩ := h3 k k1 (by omega)
    constructor
    · linarith
    · linarith

/-- The lower bounds are at most the quadratic losses, and the quadratic losses are admitted for
every flow within the rating. -/
theorem true_loss_admitted (b : LossBranch F) (n : Nat) (rows : List (Con LVar F)) (snm : F)
    (hr : lossRating b = some snm) (h : lossCons b n = .ok rows) (ha : b.active = true)
    (hR : 0 ≤ b.rPuEff) (flow : F) (hf : |flow| ≤ b.sMaxPu * snm) :
    Feasible (lossPoint (b.rPuEff * flow ^ 2) flow) rows := by
  rw [loss_rows b n rows snm hr h ha]
  have hsq : flow ^ 2 ≤ (b.sMaxPu * snm) ^ 2 := by
    rw [← sq_abs]; exact pow_le_pow_left₀ (abs_nonneg _) hf 2
  refine ⟨by positivity, mul_le_mul_of_nonneg_left hsq hR, fun k _ _ => ⟨?_, ?_⟩⟩
  · apply mul_le_mul_of_nonneg_left _ hR
    nlinarith [sq_nonneg (flow - (k : F) / n * (b.sMaxPu * snm))]
  · apply mul_le_mul_of_nonneg_left _ hR
    nlinarith [sq_nonneg (flow + (k : F) / n * (b.sMaxPu * snm))]

/-- Every admitted loss at a flow within the rating is at least the quadratic loss less
`r (S / 2N)²`, with rating `S` and `N` tangents. -/
theorem loss_lower_bound [FloorSemiring F] (b : LossBranch F) (n : Nat) (hn : 1 ≤ n)
    (rows : List (Con LVar F)) (snm : F)
    (hr : lossRating b = some snm) (h : lossCons b n = .ok rows) (ha : b.active = true)
    (hR : 0 ≤ b.rPuEff) (loss flow : F) (hf : |flow| ≤ b.sMaxPu * snm)
    (hfe : Feasible (lossPoint loss flow) rows) :
    b.rPuEff * flow ^ 2 - b.rPuEff * (b.sMaxPu * snm / (2 * n)) ^ 2 ≤ loss := by
  rw [loss_rows b n rows snm hr h ha] at hfe
  obtain ⟨h0, -, ht⟩ := hfe
  set S := b.sMaxPu * snm with hS
  have hn0 : (0 : F) < n := by exact_mod_cast hn
  have hSn : 0 ≤ S := le_trans (abs_nonneg _) hf
  -- the tangent bound in terms of the absolute flow
  have htan : ∀ k, k ≤ n →
      b.rPuEff * (2 * ((k : F) / n * S) * |flow| - ((k : F) / n * S) ^ 2) ≤ loss := by
    intro k hk
    rcases Nat.eq_zero_or_pos k with rfl | hk1
    · simpa using h0
    · obtain ⟨a, c⟩ := ht k hk1 hk
      rcases abs_cases flow with ⟨e, -⟩ | ⟨e, -⟩ <;> rw [e]
      · exact a
      · exact c
  -- the nearest tangent point
  have hexists : ∃ k ≤ n, (|flow| - (k : F) / n * S) ^ 2 ≤ (S / (2 * n)) ^ 2 := by
    rcases hSn.eq_or_lt with hz | hpos
    · refine ⟨0, by omega, ?_⟩
      have : |flow| = 0 := le_antisymm (by rw [hz]; exact hf) (abs_nonneg _)
      rw [this, ← hz]; simp
    · set y := |flow| * n / S with hy
      have hy0 : 0 ≤ y := by positivity
      have hyn : y ≤ n := by
        rw [hy, div_le_iff₀ hpos]
        have := mul_le_mul_of_nonneg_right hf hn0.le
        linarith
      have hfl : |flow| = y * S / n := by rw [hy]; field_simp
      set k := ⌊y + 1 / 2⌋₊ with hk
      have k1 : (k : F) ≤ y + 1 / 2 := Nat.floor_le (by linarith)
      have k2 : y + 1 / 2 < k + 1 := Nat.lt_floor_add_one _
      refine ⟨k, ?_, ?_⟩
      · have : (k : F) < (n : F) + 1 := by linarith
        have : k < n + 1 := by exact_mod_cast this
        omega
      · have e : |flow| - (k : F) / n * S = (y - k) * (S / n) := by rw [hfl]; field_simp
        have e2 : S / (2 * n) = 1 / 2 * (S / n) := by field_simp
        rw [e, e2, mul_pow, mul_pow]
        apply mul_le_mul_of_nonneg_right _ (sq_nonneg _)
        apply sq_le_sq'
        · linarith
        · linarith
  obtain ⟨k, hkn, hk⟩ := hexists
  have h1 := htan k hkn
  have h2 := mul_le_mul_of_nonneg_left hk hR
  have h3 : flow ^ 2 = |flow| ^ 2 := (sq_abs flow).symm
  rw [h3]
  nlinarith

/-- Losses can only be requested with a finite maximal capacity for every extendable branch. -/
theorem loss_needs_finite_rating (b : LossBranch F) (n : Nat) :
    (∃ rows, lossCons b n = .ok rows) ↔ ¬ (b.extendable = true ∧ b.sNomMax = none) := by
  unfold lossCons lossRating
  cases b.extendable <;> cases b.sNomMax <;> simp

/-- A line of rating 10 with three tangents. -/
def exLoss : LossBranch ℚ :=
  { active := true, extendable := false, sNom := 10, sNomMax := none, sMaxPu := 1, rPuEff := 1 / 100 }

example : ∃ rows, lossCons exLoss 3 = .ok rows ∧ |(5 : ℚ)| ≤ exLoss.sMaxPu * 10 ∧
    Feasible (lossPoint (2 / 9) 5) rows ∧ (2 / 9 : ℚ) < exLoss.rPuEff * 5 ^ 2 := by
  refine ⟨_, rfl, ?_, by decide +kernel, ?_⟩
  · simp [exLoss]; norm_num
  · simp [exLoss]; norm_num

end Verif.Opt
