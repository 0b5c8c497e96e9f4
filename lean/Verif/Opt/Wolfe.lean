import Verif.Opt.Farkas
import Mathlib.Topology.Order.Compact
import Mathlib.Topology.Instances.Real.Lemmas
import Mathlib.Topology.MetricSpace.ProperSpace.Real
import Mathlib.Tactic.Linarith
import Mathlib.Tactic.Positivity

/-!
# Problems with squares in the objective have an optimum

Frank and Wolfe's theorem for objectives that are a linear function and squares of variables with coefficients that are not negative, over the real numbers.
Nothing of PyPSA is in here; `QuadraticExistProps.lean` applies it.
-/

namespace Verif.Opt.Farkas

open Finset

variable {V : Type} [DecidableEq V]

/-- Rows that fix a variable. -/
def pin (y : V → ℝ) (v : V) : List (Ineq V ℝ) := [(fun u => if u = v then 1 else 0, y v), (fun u => if u = v then -1 else 0, -y v)]

noncomputable def pins (T : Finset V) (y : V → ℝ) : List (Ineq V ℝ) := T.toList.flatMap (pin y)

theorem pin_holds {s : Finset V} {v : V} (hv : v ∈ s) (y x : V → ℝ) : (∀ r ∈ pin y v, Holds s x r) ↔ x v = y v := by
  simp only [pin, List.forall_mem_cons, List.not_mem_nil, false_imp_iff, implies_true, and_true, Holds, ite_mul, one_mul, zero_mul, neg_mul, Finset.sum_ite_eq', if_pos hv]
  constructor
  · rintro ⟨h1, h2⟩
    linarith
  · rintro h
    exact ⟨h.le, by linarith⟩

theorem pins_holds {s T : Finset V} (hT : T ⊆ s) (y x : V → ℝ) : (∀ r ∈ pins T y, Holds s x r) ↔ ∀ v ∈ T, x v = y v := by
  unfold pins
  simp only [List.mem_flatMap, Finset.mem_toList, forall_exists_index, and_imp]
  constructor
  · intro h v hv
    exact (pin_holds (hT hv) y x).mp (fun r hr => h r v hv hr)
  · intro h r v hv hr
    exact (pin_holds (hT hv) y x).mpr (h v hv) r hr

theorem pins_comb {T : Finset V} {y a : V → ℝ} {b : ℝ} (h : Comb (pins T y) a b) : (∀ v, v ∉ T → a v = 0) ∧ b = ∑ v ∈ T, a v * y v := by
  induction h with
  | zero => simp
  | step hr hk hc ih =>
    rename_i a b k r
    obtain ⟨h1, h2⟩ := ih
    obtain ⟨v, hv, hr⟩ := List.mem_flatMap.mp hr
    have hv := Finset.mem_toList.mp hv
    have e : (∀ u, u ∉ T → r.1 u = 0) ∧ r.2 = ∑ u ∈ T, r.1 u * y u := by
      simp only [pin, List.mem_cons, List.not_mem_nil, or_false] at hr
      rcases hr with rfl | rfl
      · refine ⟨fun u hu => if_neg (by rintro rfl; exact hu hv), ?_⟩
        simp [ite_mul, hv]
      · refine ⟨fun u hu => if_neg (by rintro rfl; exact hu hv), ?_⟩
        simp [ite_mul, hv]
    refine ⟨fun u hu => by simp only [h1 u hu, e.1 u hu, mul_zero, add_zero], ?_⟩
    rw [h2, e.2, Finset.mul_sum, ← Finset.sum_add_distrib]
    exact Finset.sum_congr rfl (fun u _ => by ring)

/-- A linear function that is bounded where some variables are fixed is bounded by these variables everywhere. -/
theorem affine_below {s T : Finset V} (hT : T ⊆ s) {R : List (Ineq V ℝ)} {c x0 : V → ℝ} {δ : ℝ} (h0 : ∀ r ∈ R, Holds s x0 r)
    (h : ∀ x, (∀ r ∈ R, Holds s x r) → (∀ v ∈ T, x v = x0 v) → δ ≤ ∑ v ∈ s, c v * x v) :
    ∃ (a : V → ℝ) (β : ℝ), ∀ x, (∀ r ∈ R, Holds s x r) → ∑ v ∈ T, a v * x v + β ≤ ∑ v ∈ s, c v * x v := by
  obtain ⟨a, b, h1, h2, -⟩ := implied (s := s) (R := R ++ pins T x0) (c := c) (δ := δ)
    ⟨x0, fun r hr => (List.mem_append.mp hr).elim (h0 r) ((pins_holds hT x0 x0).mpr (fun _ _ => rfl) r)⟩
    (fun x hx => h x (fun r hr => hx r (List.mem_append_left _ hr)) ((pins_holds hT x0 x).mp (fun r hr => hx r (List.mem_append_right _ hr))))
  obtain ⟨a1, b1, a2, b2, k1, k2, k3, -⟩ := h1.split
  obtain ⟨m1, -⟩ := pins_comb k2
  refine ⟨fun v => -a2 v, -b1, fun x hx => ?_⟩
  have := k1.holds hx
  unfold Holds at this
  simp only at this
  have e : ∑ v ∈ s, a1 v * x v + ∑ v ∈ s, a2 v * x v = -∑ v ∈ s, c v * x v := by
    rw [← Finset.sum_add_distrib, ← Finset.sum_neg_distrib]
    exact Finset.sum_congr rfl (fun v hv => by have := h2 v hv; rw [k3] at this; linear_combination x v * this)
  have e2 : ∑ v ∈ T, a2 v * x v = ∑ v ∈ s, a2 v * x v := Finset.sum_subset hT (fun v _ hv => by rw [m1 v hv, zero_mul])
  simp only [neg_mul, Finset.sum_neg_distrib]
  linarith

/-- What some variables and a linear function can be. -/
def shadow (s T : Finset V) (R : List (Ineq V ℝ)) (c : V → ℝ) : Set ((V → ℝ) × ℝ) :=
  {p | ∃ x, (∀ r ∈ R, Holds s x r) ∧ (∀ v ∈ T, x v = p.1 v) ∧ ∑ v ∈ s, c v * x v ≤ p.2}

omit [DecidableEq V] in
theorem single_comb {c a : V → ℝ} {z b : ℝ} (h : Comb [(c, z)] a b) : ∃ k, 0 ≤ k ∧ (∀ v, a v = k * c v) ∧ b = k * z := by
  induction h with
  | zero => exact ⟨0, le_rfl, by simp, by simp⟩
  | step hr hk _ ih =>
    obtain ⟨k, h1, h2, h3⟩ := ih
    cases List.mem_singleton.mp hr
    exact ⟨k + _, add_nonneg h1 hk, fun v => by simp only [h2]; ring, by rw [h3]; ring⟩

theorem shadow_closed {s T : Finset V} (hT : T ⊆ s) (R : List (Ineq V ℝ)) (c : V → ℝ) : IsClosed (shadow s T R c) := by
  have e : shadow s T R c = ⋂ (q : (V → ℝ) × ℝ × (V → ℝ) × ℝ) (_ : Comb R q.1 q.2.1 ∧ 0 ≤ q.2.2.2 ∧ (∀ v, v ∉ T → q.2.2.1 v = 0) ∧
      ∀ v ∈ s, q.1 v + q.2.2.2 * c v + q.2.2.1 v = 0), {p | 0 ≤ q.2.1 + q.2.2.2 * p.2 + ∑ v ∈ T, q.2.2.1 v * p.1 v} := by
    ext p
    simp only [Set.mem_iInter, Set.mem_ofPred_eq, shadow]
    constructor
    · rintro ⟨x, h1, h2, h3⟩ ⟨a, b, m, k⟩ ⟨g1, g2, g3, g4⟩
      simp only at g1 g2 g3 g4 ⊢
      have := g1.holds h1
      unfold Holds at this
      simp only at this
      have e1 : ∑ v ∈ s, a v * x v + k * ∑ v ∈ s, c v * x v + ∑ v ∈ s, m v * x v = 0 := by
        rw [Finset.mul_sum, ← Finset.sum_add_distrib, ← Finset.sum_add_distrib]
        exact Finset.sum_eq_zero (fun v hv => by linear_combination x v * g4 v hv)
      have e2 : ∑ v ∈ T, m v * p.1 v = ∑ v ∈ s, m v * x v := by
        rw [← Finset.sum_subset hT (fun v _ hv => by rw [g3 v hv, zero_mul])]
        exact Finset.sum_congr rfl (fun v hv => by rw [h2 v hv])
      have := mul_le_mul_of_nonneg_left h3 g2
      linarith
    · intro h
      by_contra hn
      rcases farkas s (R ++ ([(c, p.2)] ++ pins T p.1)) with ⟨x, hx⟩ | ⟨a, b, h1, h2, h3⟩
      · refine hn ⟨x, fun r hr => hx r (List.mem_append_left _ hr), (pins_holds hT p.1 x).mp (fun r hr => hx r (List.mem_append_right _ (List.mem_append_right _ hr))), ?_⟩
        exact hx (c, p.2) (List.mem_append_right _ (List.mem_append_left _ List.mem_cons_self))
      · obtain ⟨a1, b1, a2, b2, k1, k2, k3, k4⟩ := h1.split
        obtain ⟨a3, b3, a4, b4, l1, l2, l3, l4⟩ := k2.split
        obtain ⟨k, m1, m2, m3⟩ := single_comb l1
        obtain ⟨n1, n2⟩ := pins_comb l2
        have := h (a1, b1, a4, k) ⟨k1, m1, n1, fun v hv => by have := h2 v hv; rw [k3, l3, m2] at this; simp only; linarith⟩
        simp only at this
        rw [k4, l4, m3, n2] at h3
        linarith
  rw [e]
  refine isClosed_iInter (fun q => isClosed_iInter (fun _ => isClosed_le continuous_const ?_))
  fun_prop

/-- A variable whose square counts is limited where the square and a linear term are. -/
theorem limited {q a x D : ℝ} (hq : 0 < q) (h : q * x ^ 2 + a * x ≤ D) : |x| ≤ (|a| + |D|) / q + 1 := by
  by_contra hn
  push Not at hn
  have h0 : 0 ≤ (|a| + |D|) / q := by positivity
  have h1 : 1 ≤ |x| := by linarith
  have h2 : |a| + |D| + q < q * |x| := by
    have := mul_lt_mul_of_pos_left hn hq
    rw [mul_add, mul_div_cancel₀ _ hq.ne'] at this
    linarith
  have h3 : (|a| + |D| + q) * |x| ≤ q * |x| * |x| := mul_le_mul_of_nonneg_right h2.le (abs_nonneg x)
  have h4 : q * |x| * |x| = q * x ^ 2 := by rw [mul_assoc, abs_mul_abs_self]; ring
  have h5 : -(|a| * |x|) ≤ a * x := by rw [← abs_mul]; exact neg_abs_le _
  have h6 : |D| ≤ |D| * |x| := le_mul_of_one_le_right (abs_nonneg D) h1
  have h7 : 0 < q * |x| := by positivity
  have := le_abs_self D
  nlinarith

/-- A system that bounds a linear function and squares from below has a point where they are smallest. -/
theorem attained_squares {s : Finset V} {R : List (Ineq V ℝ)} {c q : V → ℝ} {δ : ℝ} (hq : ∀ v ∈ s, 0 ≤ q v) (h0 : ∃ x, ∀ r ∈ R, Holds s x r)
    (h : ∀ x, (∀ r ∈ R, Holds s x r) → δ ≤ ∑ v ∈ s, c v * x v + ∑ v ∈ s, q v * x v ^ 2) :
    ∃ x, (∀ r ∈ R, Holds s x r) ∧ ∀ y, (∀ r ∈ R, Holds s y r) →
      ∑ v ∈ s, c v * x v + ∑ v ∈ s, q v * x v ^ 2 ≤ ∑ v ∈ s, c v * y v + ∑ v ∈ s, q v * y v ^ 2 := by
  obtain ⟨x0, hx0⟩ := h0
  set T := s.filter (fun v => 0 < q v) with hTd
  have hT : T ⊆ s := Finset.filter_subset _ _
  have hpos : ∀ v ∈ T, 0 < q v := fun v hv => (Finset.mem_filter.mp hv).2
  have sq : ∀ x : V → ℝ, ∑ v ∈ s, q v * x v ^ 2 = ∑ v ∈ T, q v * x v ^ 2 := by
    intro x
    refine (Finset.sum_subset hT (fun v hv hn => ?_)).symm
    have : q v = 0 := le_antisymm (not_lt.mp (fun hl => hn (Finset.mem_filter.mpr ⟨hv, hl⟩))) (hq v hv)
    rw [this, zero_mul]
  simp only [sq] at h ⊢
  obtain ⟨a, β, hb⟩ := affine_below (c := c) (δ := δ - ∑ v ∈ T, q v * x0 v ^ 2) hT hx0 (fun x hx he => by
    have := h x hx
    rw [Finset.sum_congr rfl (fun v hv => by rw [he v hv] : ∀ v ∈ T, q v * x v ^ 2 = q v * x0 v ^ 2)] at this
    linarith)
  set f : (V → ℝ) → ℝ := fun x => ∑ v ∈ s, c v * x v + ∑ v ∈ T, q v * x v ^ 2 with hf
  set S := ∑ v ∈ T, a v ^ 2 / (4 * q v) with hS
  set D := f x0 - β + S with hD
  set L : V → ℝ := fun v => if v ∈ T then (|a v| + |D|) / q v + 1 else 0 with hL
  have hLim : ∀ x, (∀ r ∈ R, Holds s x r) → f x ≤ f x0 → ∀ v ∈ T, |x v| ≤ L v := by
    intro x hx hle v hv
    rw [hL]
    simp only [if_pos hv]
    refine limited (hpos v hv) ?_
    have h1 := hb x hx
    have h2 : ∑ u ∈ T, (q u * x u ^ 2 + a u * x u + a u ^ 2 / (4 * q u)) ≤ D := by
      rw [Finset.sum_add_distrib, Finset.sum_add_distrib, hD]
      simp only [hf] at hle ⊢
      linarith
    have h3 : ∀ u ∈ T, 0 ≤ q u * x u ^ 2 + a u * x u + a u ^ 2 / (4 * q u) := by
      intro u hu
      have hp := hpos u hu
      have : q u * x u ^ 2 + a u * x u + a u ^ 2 / (4 * q u) = q u * (x u + a u / (2 * q u)) ^ 2 := by field_simp; ring
      rw [this]
      positivity
    have h4 := Finset.single_le_sum h3 hv
    have h5 : 0 ≤ a v ^ 2 / (4 * q v) := by have := hpos v hv; positivity
    linarith
  set lo := β - ∑ v ∈ T, |a v| * L v with hlo
  have hz : ∀ x, (∀ r ∈ R, Holds s x r) → f x ≤ f x0 → ∑ v ∈ s, c v * x v ∈ Set.Icc lo (f x0) := by
    intro x hx hle
    constructor
    · have h1 := hb x hx
      have h2 : ∑ v ∈ T, -(|a v| * L v) ≤ ∑ v ∈ T, a v * x v := by
        refine Finset.sum_le_sum (fun v hv => ?_)
        have h3 := mul_le_mul_of_nonneg_left (hLim x hx hle v hv) (abs_nonneg (a v))
        rw [← abs_mul] at h3
        linarith [neg_abs_le (a v * x v)]
      rw [Finset.sum_neg_distrib] at h2
      linarith
    · have : 0 ≤ ∑ v ∈ T, q v * x v ^ 2 := Finset.sum_nonneg (fun v hv => mul_nonneg (hpos v hv).le (sq_nonneg _))
      simp only [hf] at hle ⊢
      linarith
  let K : Set ((V → ℝ) × ℝ) := (Set.univ.pi (fun v => Set.Icc (-L v) (L v))) ×ˢ Set.Icc lo (f x0)
  have hK : IsCompact K := (isCompact_univ_pi (fun v => isCompact_Icc)).prod isCompact_Icc
  have cut : ∀ x, (∀ r ∈ R, Holds s x r) → f x ≤ f x0 → ((fun v => if v ∈ T then x v else 0), ∑ v ∈ s, c v * x v) ∈ shadow s T R c ∩ K := by
    intro x hx hle
    refine ⟨⟨x, hx, fun v hv => by simp [hv], le_rfl⟩, Set.mem_prod.mpr ⟨fun v _ => ?_, hz x hx hle⟩⟩
    by_cases hv : v ∈ T
    · simp only [if_pos hv]
      exact abs_le.mp (hLim x hx hle v hv)
    · simp [hv, hL]
  obtain ⟨p, ⟨⟨x, hx, hxp, hxz⟩, -⟩, hmin⟩ := ((hK.inter_left (shadow_closed hT R c))).exists_isMinOn ⟨_, cut x0 hx0 le_rfl⟩
    (f := fun p : (V → ℝ) × ℝ => p.2 + ∑ v ∈ T, q v * p.1 v ^ 2) (Continuous.continuousOn (by fun_prop))
  have hfx : f x ≤ p.2 + ∑ v ∈ T, q v * p.1 v ^ 2 := by
    simp only [hf]
    rw [Finset.sum_congr rfl (fun v hv => by rw [hxp v hv] : ∀ v ∈ T, q v * x v ^ 2 = q v * p.1 v ^ 2)]
    linarith
  have main : ∀ y, (∀ r ∈ R, Holds s y r) → f y ≤ f x0 → f x ≤ f y := by
    intro y hy hle
    have := hmin (cut y hy hle)
    simp only [Set.mem_ofPred_eq] at this
    refine hfx.trans (this.trans (le_of_eq ?_))
    simp only [hf]
    congr 1
    exact Finset.sum_congr rfl (fun v hv => by rw [if_pos hv])
  refine ⟨x, hx, fun y hy => ?_⟩
  rcases le_total (f y) (f x0) with hle | hle
  · exact main y hy hle
  · exact (main x0 hx0 le_rfl).trans hle

end Verif.Opt.Farkas
