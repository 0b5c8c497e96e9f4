import Verif.Plot.Legend
import Mathlib.Tactic.Linarith
import Mathlib.Tactic.FieldSimp
import Mathlib.Tactic.Ring
import Mathlib.Tactic.IntervalCases
import Mathlib.Algebra.Order.Round
import Mathlib.Tactic.NormNum.Pow

/-!
# Property C130: legends of maps tell the truth
-/

namespace Verif.Plot

/-! ### Specification -/

/-- What the letters stand for. -/
def worth : String → Option ℚ
  | "" => some 1
  | "k" => some 1000
  | "M" => some 1000000
  | "G" => some 1000000000
  | "T" => some 1000000000000
  | "P" => some 1000000000000000
  | _ => none

/-- Rounding to a whole number. -/
def Rounds (rnd : ℚ → ℤ) : Prop := ∀ x, |(rnd x : ℚ) - x| ≤ 1 / 2

/-- Rounding to a given number of digits after the point (before it if negative). -/
def RoundsTo (rndTo : ℚ → ℤ → ℚ) : Prop :=
  ∀ x k, |rndTo x k - x| ≤ (10 : ℚ) ^ (-k) / 2 ∧ ∃ z : ℤ, rndTo x k = z * (10 : ℚ) ^ (-k)

/-- The position of the first digit of a number. -/
def FirstDigit (x : ℚ) (m : ℤ) : Prop := (10 : ℚ) ^ m ≤ |x| ∧ |x| < (10 : ℚ) ^ (m + 1)

/-! ### Significant digits -/

theorem magnitude_spec {x : ℚ} (h : x ≠ 0) : FirstDigit x (magnitude x) := by
  have hp : 0 < |x| := abs_pos.2 h
  constructor
  · have := Int.zpow_log_le_self (b := 10) (by norm_num) hp
    exact_mod_cast this
  · have := Int.lt_zpow_succ_log_self (b := 10) (by norm_num) |x|
    exact_mod_cast this

theorem first_unique {x : ℚ} {m k : ℤ} (h : FirstDigit x m) (h' : FirstDigit x k) : m = k := by
  have h1 : m < k + 1 := (zpow_lt_zpow_iff_right₀ (by norm_num : (1 : ℚ) < 10)).1 (lt_of_le_of_lt h.1 h'.2)
  have h2 : k < m + 1 := (zpow_lt_zpow_iff_right₀ (by norm_num : (1 : ℚ) < 10)).1 (lt_of_le_of_lt h'.1 h.2)
  omega

/-- **C130, significant digits (partial: see `digits_cut`).** If all digits asked for are in front of the point, or the
rounded number is less than one, the result is off by at most half a unit of the last of them. -/
theorem digits_partial (rndTo : ℚ → ℤ → ℚ) (hr : RoundsTo rndTo) (x : ℚ) (n m : ℤ) (hm : FirstDigit x m)
    (h : n ≤ m + 1 ∨ rndTo x (n - 1 - m) < 1) :
    |roundSig rndTo x n - x| ≤ (10 : ℚ) ^ (m + 1 - n) / 2 ∧
      ∃ z : ℤ, roundSig rndTo x n = z * (10 : ℚ) ^ (m + 1 - n) := by
  have hx : x ≠ 0 := by
    intro e
    have h1 := hm.1
    rw [e, abs_zero] at h1
    exact absurd h1 (not_le.2 (zpow_pos (by norm_num) m))
  have hmm : magnitude x = m := first_unique (magnitude_spec hx) hm
  have hk : - magnitude x + (n - 1) = n - 1 - m := by omega
  have hk2 : -(n - 1 - m) = m + 1 - n := by omega
  have hspec := hr x (n - 1 - m)
  rw [hk2] at hspec
  unfold roundSig
  rw [if_neg hx]
  simp only [hk]
  by_cases hc : 1 ≤ rndTo x (n - 1 - m)
  · rw [if_pos hc]
    have hn : n ≤ m + 1 := h.resolve_right (not_lt.2 hc)
    obtain ⟨z, hz⟩ := hspec.2
    obtain ⟨p, hp⟩ := Int.eq_ofNat_of_zero_le (show 0 ≤ m + 1 - n by omega)
    have hint : rndTo x (n - 1 - m) = ((z * 10 ^ p : ℤ) : ℚ) := by
      rw [hz, hp]; push_cast; rfl
    have hfl : ((⌊rndTo x (n - 1 - m)⌋ : ℤ) : ℚ) = rndTo x (n - 1 - m) := by
      rw [hint, Int.floor_intCast]
    rw [hfl]
    exact hspec
  · rw [if_neg hc]
    exact hspec

/-! ### Labels -/

theorem target_mem (x : ℚ) : worth (target x).1 = some (target x).2 ∧ target x ∈ scales := by
  unfold target
  cases h : scales.find? (fun s => decide (x ≤ s.2)) with
  | none => simp only; refine ⟨?_, ?_⟩ <;> norm_num [worth, scales]
  | some s =>
    have hm := List.mem_of_find?_eq_some h
    refine ⟨?_, hm⟩
    simp only [scales, List.mem_cons, List.not_mem_nil, or_false] at hm
    rcases hm with rfl | rfl | rfl | rfl | rfl | rfl <;> norm_num [worth]

theorem split_worth (unit : List Char) : worth (splitUnit unit).1.1 = some (splitUnit unit).1.2 ∧
    (splitUnit unit).1.1.toList ++ (splitUnit unit).2 = unit ∧ 0 < (splitUnit unit).1.2 := by
  cases unit with
  | nil => refine ⟨rfl, rfl, ?_⟩; norm_num [splitUnit]
  | cons c rest =>
    cases h : (scales.drop 1).find? (fun s => decide (s.1 = String.singleton c)) with
    | none =>
      have hs : splitUnit (c :: rest) = (("", 1), c :: rest) := by unfold splitUnit; simp only [h]
      rw [hs]
      refine ⟨rfl, rfl, ?_⟩; norm_num
    | some s =>
      have hs : splitUnit (c :: rest) = (s, rest) := by unfold splitUnit; simp only [h]
      have hm := List.mem_of_find?_eq_some h
      have hp := List.find?_some h
      simp only [decide_eq_true_eq] at hp
      rw [hs]
      simp only [scales, List.drop_succ_cons, List.drop_zero, List.mem_cons, List.not_mem_nil, or_false] at hm
      refine ⟨?_, ?_, ?_⟩
      · rcases hm with rfl | rfl | rfl | rfl | rfl <;> norm_num [worth]
      · simp only [hp]
        simp
      · rcases hm with rfl | rfl | rfl | rfl | rfl <;> norm_num

theorem scales_pos (s : String × ℚ) (h : s ∈ scales) : 0 < s.2 := by
  simp only [scales, List.mem_cons, List.not_mem_nil, or_false] at h
  rcases h with rfl | rfl | rfl | rfl | rfl | rfl <;> norm_num

theorem label_scaled (rnd : ℚ → ℤ) (value : ℚ) (unit : List Char) :
    ∃ t ∈ scales, t = target ((10 : ℚ) ^ ((if value * (splitUnit unit).1.2 = 0 then 0 else
        magnitude (value * (splitUnit unit).1.2)) - 2)) ∧
      legendLabel rnd value unit =
        ((if 1 ≤ |value * (splitUnit unit).1.2 / t.2| then (rnd (value * (splitUnit unit).1.2 / t.2) : ℚ)
          else value * (splitUnit unit).1.2 / t.2), t.1, (splitUnit unit).2) := by
  refine ⟨_, (target_mem _).2, rfl, ?_⟩
  have hp := (split_worth unit).2.2
  unfold legendLabel
  simp only
  split_ifs <;> first | rfl | (simp_all only [ne_eq, not_true_eq_false, not_false_eq_true, div_div_eq_mul_div])

/-- **C130, labels.** A label names the value: the number shown, times what its prefix stands for, is the value in the
unit it was given in, up to half of the unit shown; it is exact if less than one.  The name of the unit without
its prefix is kept. -/
theorem label_value (rnd : ℚ → ℤ) (hr : Rounds rnd) (value : ℚ) (unit : List Char) :
    ∃ number prefix' name p q u, legendLabel rnd value unit = (number, prefix', name) ∧
      worth prefix' = some p ∧ worth q = some u ∧ q.toList ++ name = unit ∧
      |number * p - value * u| ≤ p / 2 ∧ (|number| < 1 → |value * u| < p → number * p = value * u) := by
  obtain ⟨t, ht, hdef, hl⟩ := label_scaled rnd value unit
  have hw := split_worth unit
  have htw : worth t.1 = some t.2 := by rw [hdef]; exact (target_mem _).1
  have hpos := scales_pos t ht
  refine ⟨_, _, _, t.2, _, _, hl, htw, hw.1, hw.2.1, ?_, ?_⟩
  · split_ifs with hc
    · have := hr (value * (splitUnit unit).1.2 / t.2)
      have e : (rnd (value * (splitUnit unit).1.2 / t.2) : ℚ) * t.2 - value * (splitUnit unit).1.2 =
          ((rnd (value * (splitUnit unit).1.2 / t.2) : ℚ) - value * (splitUnit unit).1.2 / t.2) * t.2 := by
        field_simp
      rw [e, abs_mul, abs_of_pos hpos]
      calc _ ≤ 1 / 2 * t.2 := mul_le_mul_of_nonneg_right this hpos.le
        _ = t.2 / 2 := by ring
    · rw [div_mul_cancel₀ _ hpos.ne', sub_self, abs_zero]
      positivity
  · intro _ hv
    have hc : ¬ 1 ≤ |value * (splitUnit unit).1.2 / t.2| := by
      rw [abs_div, abs_of_pos hpos, le_div_iff₀ hpos, one_mul]
      exact not_le.2 hv
    rw [if_neg hc, div_mul_cancel₀ _ hpos.ne']

/-- The scale that is chosen for a magnitude between 0 and 17 is at most the magnitude, and at most three digits below. -/
theorem target_range (m : ℤ) (h0 : 0 ≤ m) (h1 : m ≤ 17) :
    (target ((10 : ℚ) ^ (m - 2))).2 ≤ (10 : ℚ) ^ m ∧ (10 : ℚ) ^ (m + 1) ≤ 1000 * (target ((10 : ℚ) ^ (m - 2))).2 := by
  obtain ⟨k, rfl⟩ := Int.eq_ofNat_of_zero_le h0
  have hk : k ≤ 17 := by omega
  interval_cases k <;> norm_num [target, scales, List.find?]

/-- **C130, range.** For values from one to less than 10 ^ 18 of the unit without prefix the number shown is between 1
and 1000. -/
theorem label_range (rnd : ℚ → ℤ) (hr : Rounds rnd) (value : ℚ) (unit : List Char) (q : String) (name : List Char) (u : ℚ)
    (hq : worth q = some u) (hs : splitUnit unit = ((q, u), name))
    (h1 : 1 ≤ |value * u|) (h2 : |value * u| < 10 ^ 18) :
    1 ≤ |(legendLabel rnd value unit).1| ∧ |(legendLabel rnd value unit).1| ≤ 1000 := by
  obtain ⟨t, ht, hdef, hl⟩ := label_scaled rnd value unit
  rw [hs] at hl hdef
  have hne : value * u ≠ 0 := by
    intro e; rw [e, abs_zero] at h1; linarith
  have hmag := magnitude_spec hne
  have hm0 : 0 ≤ magnitude (value * u) := by
    have : (10 : ℚ) ^ (0 : ℤ) < (10 : ℚ) ^ (magnitude (value * u) + 1) := lt_of_le_of_lt (by simpa using h1) hmag.2
    have := (zpow_lt_zpow_iff_right₀ (by norm_num : (1 : ℚ) < 10)).1 this
    omega
  have hm1 : magnitude (value * u) ≤ 17 := by
    have : (10 : ℚ) ^ (magnitude (value * u)) < (10 : ℚ) ^ (18 : ℤ) := lt_of_le_of_lt hmag.1 (by exact_mod_cast h2)
    have := (zpow_lt_zpow_iff_right₀ (by norm_num : (1 : ℚ) < 10)).1 this
    omega
  have hran := target_range _ hm0 hm1
  simp only [if_neg hne] at hdef
  rw [← hdef] at hran
  have hpos := scales_pos t ht
  have hlow : 1 ≤ |value * u / t.2| := by
    rw [abs_div, abs_of_pos hpos, le_div_iff₀ hpos, one_mul]
    exact le_trans hran.1 hmag.1
  have hhigh : |value * u / t.2| < 1000 := by
    rw [abs_div, abs_of_pos hpos, div_lt_iff₀ hpos]
    exact lt_of_lt_of_le hmag.2 hran.2
  rw [hl]
  simp only [if_pos hlow]
  have hround := hr (value * u / t.2)
  generalize value * u / t.2 = y at hlow hhigh hround
  rw [abs_le] at hround
  have hint : (|(rnd y : ℚ)|) = ((|rnd y| : ℤ) : ℚ) := by push_cast; rfl
  rw [hint]
  constructor
  · have : 0 < |rnd y| := by
      apply abs_pos.2
      intro e
      rw [e] at hround
      rcases abs_cases y with ⟨hy, _⟩ | ⟨hy, _⟩ <;> rw [hy] at hlow <;> push_cast at hround <;> linarith [hround.1, hround.2]
    exact_mod_cast this
  · have : |rnd y| < 1001 := by
      have : ((|rnd y| : ℤ) : ℚ) < ((1001 : ℤ) : ℚ) := by
        rw [← hint]
        rw [abs_lt] at hhigh ⊢
        push_cast
        constructor <;> linarith [hround.1, hround.2, hhigh.1, hhigh.2]
      exact_mod_cast this
    have : |rnd y| ≤ 1000 := by omega
    exact_mod_cast this

/-- **C130, legends.** A legend has one entry for each quantile, each labelled with its own value, which is the part of the
largest absolute value rounded to one digit. -/
theorem legend_entries (rndTo : ℚ → ℤ → ℚ) (hr : RoundsTo rndTo) (rnd : ℚ → ℤ) (series quantiles : List ℚ)
    (hs : series ≠ []) (unit : List Char) (top : ℚ) (htop : ∃ x ∈ series, |x| = top) (hmax : ∀ x ∈ series, |x| ≤ top) :
    (representatives rndTo rnd series quantiles 1 unit).length = quantiles.length ∧
    ∀ e ∈ representatives rndTo rnd series quantiles 1 unit, ∃ q ∈ quantiles,
      e.2 = legendLabel rnd e.1 unit ∧ (top * q = 0 → e.1 = 0) ∧
      ∀ m, 0 ≤ m ∨ rndTo (top * q) (-m) < 1 → FirstDigit (top * q) m → |e.1 - top * q| ≤ (10 : ℚ) ^ m / 2 := by
  have hmaxabs : maxAbs series = top := by
    have hub : ∀ l : List ℚ, ∀ x ∈ l, |x| ≤ maxAbs l := by
      intro l
      induction l with
      | nil => simp
      | cons a l ih =>
        intro x hx
        rcases List.mem_cons.1 hx with rfl | hx
        · exact le_max_left _ _
        · exact le_trans (ih x hx) (le_max_right _ _)
    have hle : ∀ l : List ℚ, (∀ x ∈ l, |x| ≤ top) → 0 ≤ top → maxAbs l ≤ top := by
      intro l
      induction l with
      | nil => intro _ h; exact h
      | cons a l ih => intro h h0; exact max_le (h a (by simp)) (ih (fun x hx => h x (by simp [hx])) h0)
    obtain ⟨x, hx, he⟩ := htop
    apply le_antisymm
    · exact hle series hmax (he ▸ abs_nonneg x)
    · rw [← he]; exact hub series x hx
  have hrep : representatives rndTo rnd series quantiles 1 unit = quantiles.map (fun q =>
      (roundSig rndTo (maxAbs series * q) 1, legendLabel rnd (roundSig rndTo (maxAbs series * q) 1) unit)) := by
    cases series with
    | nil => exact absurd rfl hs
    | cons a l => rfl
  rw [hrep]
  refine ⟨by simp, ?_⟩
  intro e he
  obtain ⟨q, hq, rfl⟩ := List.mem_map.1 he
  refine ⟨q, hq, rfl, ?_, ?_⟩
  · intro h0
    simp only [hmaxabs, h0, roundSig, if_true]
  · intro m hm hd
    simp only [hmaxabs]
    have := (digits_partial rndTo hr (top * q) 1 m hd (by
      rcases hm with h | h
      · left; omega
      · right; rw [show (1 : ℤ) - 1 - m = -m by ring]; exact h)).1
    rw [show m + 1 - 1 = m by ring] at this
    exact this

/-! ### Examples and findings -/

theorem round_rounds : Rounds (fun x : ℚ => round x) := by
  intro x
  rw [abs_sub_comm]
  exact abs_sub_round x

def halfUp (x : ℚ) (k : ℤ) : ℚ := (round (x * (10 : ℚ) ^ k) : ℤ) * (10 : ℚ) ^ (-k)

theorem halfUp_rounds : RoundsTo halfUp := by
  intro x k
  refine ⟨?_, _, rfl⟩
  unfold halfUp
  have hp : (0 : ℚ) < (10 : ℚ) ^ (-k) := zpow_pos (by norm_num) _
  have h1 := abs_sub_round (x * (10 : ℚ) ^ k)
  have hx : x = x * (10 : ℚ) ^ k * (10 : ℚ) ^ (-k) := by
    rw [mul_assoc, ← zpow_add₀ (by norm_num), add_neg_cancel, zpow_zero, mul_one]
  calc |(round (x * (10 : ℚ) ^ k) : ℚ) * (10 : ℚ) ^ (-k) - x|
      = |((round (x * (10 : ℚ) ^ k) : ℚ) - x * (10 : ℚ) ^ k) * (10 : ℚ) ^ (-k)| := by
        congr 1; rw [sub_mul, ← hx]
    _ = |(round (x * (10 : ℚ) ^ k) : ℚ) - x * (10 : ℚ) ^ k| * (10 : ℚ) ^ (-k) := by rw [abs_mul, abs_of_pos hp]
    _ ≤ 1 / 2 * (10 : ℚ) ^ (-k) := by
        apply mul_le_mul_of_nonneg_right _ hp.le
        rw [abs_sub_comm]; exact h1
    _ = (10 : ℚ) ^ (-k) / 2 := by ring

example : FirstDigit 5700 3 ∧ RoundsTo halfUp ∧ (2 : ℤ) ≤ 3 + 1 ∧ FirstDigit (-1 / 20) (-2) := by
  refine ⟨?_, halfUp_rounds, by norm_num, ?_⟩ <;> norm_num [FirstDigit]

/-- Values in MWh, label in GWh. -/
example : splitUnit ['M', 'W', 'h'] = (("M", 10 ^ 6), ['W', 'h']) ∧ worth "M" = some (10 ^ 6) ∧
    (1 : ℚ) ≤ |5700 * 10 ^ 6| ∧ |(5700 : ℚ) * 10 ^ 6| < 10 ^ 18 ∧ Rounds (fun x : ℚ => round x) := by
  refine ⟨by decide +kernel, by norm_num [worth], by norm_num, by norm_num, round_rounds⟩

/-- **Finding** (`static.py` 1857): `int` cuts off the digits behind the point: with two digits asked for (the default)
5.7 becomes 5, however numbers are rounded. -/
theorem digits_cut (rndTo : ℚ → ℤ → ℚ) (hr : RoundsTo rndTo) : roundSig rndTo (57 / 10) 2 = 5 := by
  have hm : magnitude (57 / 10) = 0 :=
    first_unique (magnitude_spec (by norm_num)) ⟨by norm_num, by norm_num [abs_lt]⟩
  obtain ⟨h1, z, h2⟩ := hr (57 / 10) 1
  rw [abs_le] at h1
  norm_num at h1 h2
  have hz : z = 57 := by
    have h3 : (56 : ℚ) < z := by linarith [h1.1]
    have h4 : (z : ℚ) < 58 := by linarith [h1.2]
    have h3 : 56 < z := by exact_mod_cast h3
    have h4 : z < 58 := by exact_mod_cast h4
    omega
  have hv : rndTo (57 / 10) 1 = 57 / 10 := by rw [h2, hz]; norm_num
  unfold roundSig
  norm_num [hm, hv]

/-- **Finding** (`static.py` 1877-1883): a unit that begins with one of the letters is taken apart: 5000 "Tonnes" become
5 "Ponnes". -/
theorem unit_taken_apart (rnd : ℚ → ℤ) (hr : Rounds rnd) :
    legendLabel rnd 5000 "Tonnes".toList = (5, "P", "onnes".toList) := by
  have hs : splitUnit "Tonnes".toList = (("T", 10 ^ 12), "onnes".toList) := by decide +kernel
  have hm : magnitude (5000 * 10 ^ 12) = 15 :=
    first_unique (magnitude_spec (by norm_num)) ⟨by norm_num, by norm_num [abs_lt]⟩
  have ht : target ((10 : ℚ) ^ ((15 : ℤ) - 2)) = ("P", 10 ^ 15) := by
    norm_num [target, scales, List.find?]
  have h5 : rnd 5 = 5 := by
    have := hr 5
    rw [abs_le] at this
    have h1 : (4 : ℚ) < rnd 5 := by linarith [this.1]
    have h2 : (rnd 5 : ℚ) < 6 := by linarith [this.2]
    have h1 : 4 < rnd 5 := by exact_mod_cast h1
    have h2 : rnd 5 < 6 := by exact_mod_cast h2
    omega
  obtain ⟨t, _, hdef, hl⟩ := label_scaled rnd 5000 "Tonnes".toList
  rw [hs] at hdef hl
  rw [if_neg (by norm_num), hm, ht] at hdef
  rw [hl, hdef]
  norm_num [h5]

end Verif.Plot
