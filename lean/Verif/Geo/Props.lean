import Verif.Geo.Model
import Mathlib.Geometry.Euclidean.Angle.Unoriented.TriangleInequality
import Mathlib.Analysis.InnerProductSpace.PiL2
import Mathlib.Analysis.SpecialFunctions.Trigonometric.Inverse
import Mathlib.Algebra.Order.Field.Basic
import Mathlib.Tactic.Linarith
import Mathlib.Tactic.Ring

/-!
# Properties of the geographic functions (C78, C79)
-/

namespace Verif.Geo

open Real

/-! ## Distance (C79) -/

/-- The point on the unit sphere. -/
noncomputable def onSphere (p : Point) : EuclideanSpace ℝ (Fin 3) :=
  WithLp.toLp 2 ![cos (p.lat * π / 180) * cos (p.lon * π / 180), cos (p.lat * π / 180) * sin (p.lon * π / 180), sin (p.lat * π / 180)]

theorem inner_onSphere (a b : Point) : inner ℝ (onSphere a) (onSphere b) = 1 - 2 * hav a b := by
  have h1 : hav a b = sin ((b.lat * π / 180 - a.lat * π / 180) / 2) ^ 2 +
      cos (a.lat * π / 180) * cos (b.lat * π / 180) * sin ((a.lon * π / 180 - b.lon * π / 180) / 2) ^ 2 := by
    unfold hav deg2rad
    simp only [mul_div_assoc]
  have h2 : inner ℝ (onSphere a) (onSphere b) =
      cos (a.lat * π / 180) * cos (a.lon * π / 180) * (cos (b.lat * π / 180) * cos (b.lon * π / 180)) +
      cos (a.lat * π / 180) * sin (a.lon * π / 180) * (cos (b.lat * π / 180) * sin (b.lon * π / 180)) +
      sin (a.lat * π / 180) * sin (b.lat * π / 180) := by
    rw [PiLp.inner_apply, Fin.sum_univ_three]
    simp [onSphere]
    ring
  rw [h1, h2, Real.sin_sq_eq_half_sub, Real.sin_sq_eq_half_sub]
  rw [mul_div_cancel₀ _ (two_ne_zero' ℝ), mul_div_cancel₀ _ (two_ne_zero' ℝ), Real.cos_sub, Real.cos_sub]
  ring

theorem hav_self (a : Point) : hav a a = 0 := by simp [hav]

theorem norm_onSphere (a : Point) : ‖onSphere a‖ = 1 := by
  have h := inner_onSphere a a
  rw [hav_self, real_inner_self_eq_norm_sq] at h
  have h0 := norm_nonneg (onSphere a)
  nlinarith

/-- `c` is between 0 and 1, so both square roots are of numbers that are not negative. -/
theorem hav_range (a b : Point) : 0 ≤ hav a b ∧ hav a b ≤ 1 := by
  have h := abs_real_inner_le_norm (onSphere a) (onSphere b)
  rw [norm_onSphere, norm_onSphere, inner_onSphere, abs_le] at h
  constructor <;> linarith

/-- C79: the distance is 6371 times the angle between the points seen from the centre of the sphere. -/
theorem great_circle (a b : Point) : distance a b = 6371 * InnerProductGeometry.angle (onSphere a) (onSphere b) := by
  obtain ⟨h0, h1⟩ := hav_range a b
  set θ := InnerProductGeometry.angle (onSphere a) (onSphere b) with hθ
  have hc : cos θ = 1 - 2 * hav a b := by
    rw [hθ, InnerProductGeometry.cos_angle, norm_onSphere, norm_onSphere, inner_onSphere]; simp
  have hθ0 : 0 ≤ θ := InnerProductGeometry.angle_nonneg _ _
  have hθ1 : θ ≤ π := InnerProductGeometry.angle_le_pi _ _
  have hs : √(hav a b) = sin (θ / 2) := by
    rw [Real.sin_half_eq_sqrt hθ0 (by linarith [Real.pi_pos]), hc]; congr 1; ring
  have hk : √(1 - hav a b) = cos (θ / 2) := by
    rw [Real.cos_half (by linarith [Real.pi_pos]) hθ1, hc]; congr 1; ring
  unfold distance arctan2
  rw [hs, hk]
  have hz : (⟨cos (θ / 2), sin (θ / 2)⟩ : ℂ) = Complex.cos ((θ / 2 : ℝ) : ℂ) + Complex.sin ((θ / 2 : ℝ) : ℂ) * Complex.I := by
    rw [← Complex.ofReal_cos, ← Complex.ofReal_sin]
    apply Complex.ext <;> simp only [Complex.add_re, Complex.add_im, Complex.mul_re, Complex.mul_im, Complex.ofReal_re,
      Complex.ofReal_im, Complex.I_re, Complex.I_im] <;> ring
  rw [hz, Complex.arg_cos_add_sin_mul_I ⟨by linarith [Real.pi_pos], by linarith [Real.pi_pos]⟩]
  ring

/-- C79: distances are symmetric. -/
theorem distance_comm (a b : Point) : distance a b = distance b a := by
  rw [great_circle, great_circle, InnerProductGeometry.angle_comm]

/-- C79: distances are not negative and at most half the circumference. -/
theorem distance_range (a b : Point) : 0 ≤ distance a b ∧ distance a b ≤ 6371 * π := by
  rw [great_circle]
  have h1 := InnerProductGeometry.angle_nonneg (onSphere a) (onSphere b)
  have h2 := InnerProductGeometry.angle_le_pi (onSphere a) (onSphere b)
  constructor <;> nlinarith

/-- C79: the distance is zero exactly for points at the same place. -/
theorem distance_zero (a b : Point) : distance a b = 0 ↔ onSphere a = onSphere b := by
  rw [great_circle, mul_eq_zero]
  constructor
  · rintro (h | h)
    · norm_num at h
    · obtain ⟨-, r, hr, he⟩ := InnerProductGeometry.angle_eq_zero_iff.mp h
      have hn := congrArg norm he
      rw [norm_smul, norm_onSphere, norm_onSphere, Real.norm_of_nonneg hr.le, mul_one] at hn
      rw [he, ← hn, one_smul]
  · intro h
    right
    rw [h]
    refine InnerProductGeometry.angle_self ?_
    intro h0
    have := norm_onSphere b
    rw [h0, norm_zero] at this
    norm_num at this

theorem distance_self (a : Point) : distance a a = 0 := (distance_zero a a).mpr rfl

/-- C79: a detour is not shorter. -/
theorem distance_triangle (a b c : Point) : distance a c ≤ distance a b + distance b c := by
  rw [great_circle, great_circle, great_circle]
  have := InnerProductGeometry.angle_le_angle_add_angle (onSphere a) (onSphere b) (onSphere c)
  nlinarith

/-- C79: the table of distances has the distance of each pair at its place. -/
theorem haversine_entry (a b : List Point) (i j : Nat) (hi : i < a.length) (hj : j < b.length) :
    ((haversine a b)[i]?.bind (·[j]?)) = some (distance a[i] b[j]) := by
  unfold haversine
  simp [hi, hj]

/-- C79: the list of distances has those of the points at the same place in both lists. -/
theorem haversinePts_entry (a b : List Point) (i : Nat) (hi : i < a.length) (hj : i < b.length) :
    (haversinePts a b)[i]? = some (distance a[i] b[i]) ∧ (haversinePts a b).length = min a.length b.length := by
  unfold haversinePts
  simp [List.getElem?_zipWith, hi, hj]

/-- A quarter of the equator. -/
example : distance ⟨0, 0⟩ ⟨90, 0⟩ = 6371 * (π / 2) := by
  rw [great_circle]
  congr 1
  apply InnerProductGeometry.inner_eq_zero_iff_angle_eq_pi_div_two _ _ |>.mp
  rw [PiLp.inner_apply, Fin.sum_univ_three]
  have : (90 : ℝ) * π / 180 = π / 2 := by ring
  simp [onSphere, this]

/-! ## Bounding box (C78) -/

section bbox
variable {F : Type} [Field F] [LinearOrder F]

theorem nanmin_spec (l : List (Option F)) (lo : F) (h : nanmin l = some lo) :
    some lo ∈ l ∧ ∀ v, some v ∈ l → lo ≤ v := by
  have hm : ∀ v : F, some v ∈ l ↔ v ∈ l.filterMap id := by intro v; simp
  simp only [hm]
  unfold nanmin at h
  generalize l.filterMap id = k at h
  clear hm
  induction k generalizing lo with
  | nil => simp at h
  | cons x k ih =>
    rw [List.foldr_cons] at h
    cases hr : k.foldr (fun x r => some ((r.map (min x)).getD x)) none with
    | none =>
      rw [hr] at h
      obtain rfl := Option.some.inj h
      cases k with
      | nil => simp
      | cons y k => simp at hr
    | some y =>
      rw [hr] at h
      obtain rfl := Option.some.inj h
      obtain ⟨h1, h2⟩ := ih y hr
      constructor
      · simp only [Option.map_some, Option.getD_some]
        rcases min_choice x y with e | e <;> rw [e]
        · simp
        · exact List.mem_cons_of_mem _ h1
      · intro v hv
        rcases List.mem_cons.mp hv with rfl | hv
        · exact min_le_left _ _
        · exact le_trans (min_le_right _ _) (h2 v hv)

theorem nanmax_spec (l : List (Option F)) (hi : F) (h : nanmax l = some hi) :
    some hi ∈ l ∧ ∀ v, some v ∈ l → v ≤ hi := by
  have hm : ∀ v : F, some v ∈ l ↔ v ∈ l.filterMap id := by intro v; simp
  simp only [hm]
  unfold nanmax at h
  generalize l.filterMap id = k at h
  clear hm
  induction k generalizing hi with
  | nil => simp at h
  | cons x k ih =>
    rw [List.foldr_cons] at h
    cases hr : k.foldr (fun x r => some ((r.map (max x)).getD x)) none with
    | none =>
      rw [hr] at h
      obtain rfl := Option.some.inj h
      cases k with
      | nil => simp
      | cons y k => simp at hr
    | some y =>
      rw [hr] at h
      obtain rfl := Option.some.inj h
      obtain ⟨h1, h2⟩ := ih y hr
      constructor
      · simp only [Option.map_some, Option.getD_some]
        rcases max_choice x y with e | e <;> rw [e]
        · simp
        · exact List.mem_cons_of_mem _ h1
      · intro v hv
        rcases List.mem_cons.mp hv with rfl | hv
        · exact le_max_left _ _
        · exact le_trans (h2 v hv) (le_max_right _ _)

theorem nanmin_some (l : List (Option F)) : (nanmin l).isSome = true ↔ ∃ v, some v ∈ l := by
  have hm : ∀ v : F, some v ∈ l ↔ v ∈ l.filterMap id := by intro v; simp
  simp only [hm]
  unfold nanmin
  cases l.filterMap id with
  | nil => simp
  | cons x k => simp

theorem nanmax_some (l : List (Option F)) : (nanmax l).isSome = true ↔ ∃ v, some v ∈ l := by
  have hm : ∀ v : F, some v ∈ l ↔ v ∈ l.filterMap id := by intro v; simp
  simp only [hm]
  unfold nanmax
  cases l.filterMap id with
  | nil => simp
  | cons x k => simp

/-- C78: with coordinates between `some lo` and `some hi` that are attained, the box is `margin` times the extent larger on each side;
it exists unless all coordinates are NaN. -/
theorem bounds_exact (margin : F) (l : List (Option F)) (lo hi : F) (h1 : some lo ∈ l) (h2 : some hi ∈ l)
    (h : ∀ v, some v ∈ l → lo ≤ v ∧ v ≤ hi) : bounds margin l = some (lo - margin * (hi - lo), hi + margin * (hi - lo)) := by
  obtain ⟨a, ha⟩ := Option.isSome_iff_exists.mp ((nanmin_some l).mpr ⟨lo, h1⟩)
  obtain ⟨b, hb⟩ := Option.isSome_iff_exists.mp ((nanmax_some l).mpr ⟨lo, h1⟩)
  obtain ⟨a1, a2⟩ := nanmin_spec l a ha
  obtain ⟨b1, b2⟩ := nanmax_spec l b hb
  obtain rfl : a = lo := le_antisymm (a2 lo h1) (h a a1).1
  obtain rfl : b = hi := le_antisymm (h b b1).2 (b2 hi h2)
  unfold bounds
  rw [ha, hb]

/-- C78: the box contains every point. -/
theorem bbox_contains [IsStrictOrderedRing F] (pts : List (Option F × Option F)) (margin : F) (hm : 0 ≤ margin) (p : Option F × Option F)
    (hp : p ∈ pts) :
    (∀ v, p.1 = some v → ∃ lo hi, (bbox (pts.map (·.1)) (pts.map (·.2)) margin).1 = some (lo, hi) ∧ lo ≤ v ∧ v ≤ hi) ∧
    (∀ v, p.2 = some v → ∃ lo hi, (bbox (pts.map (·.1)) (pts.map (·.2)) margin).2 = some (lo, hi) ∧ lo ≤ v ∧ v ≤ hi) := by
  have key : ∀ (l : List (Option F)) v, some v ∈ l → ∃ lo hi, bounds margin l = some (lo, hi) ∧ lo ≤ v ∧ v ≤ hi := by
    intro l v hv
    obtain ⟨a, ha⟩ := Option.isSome_iff_exists.mp ((nanmin_some l).mpr ⟨v, hv⟩)
    obtain ⟨b, hb⟩ := Option.isSome_iff_exists.mp ((nanmax_some l).mpr ⟨v, hv⟩)
    have h1 := (nanmin_spec l a ha).2 v hv
    have h2 := (nanmax_spec l b hb).2 v hv
    refine ⟨_, _, by unfold bounds; rw [ha, hb], ?_, ?_⟩
    · nlinarith [mul_nonneg hm (sub_nonneg.mpr (le_trans h1 h2))]
    · nlinarith [mul_nonneg hm (sub_nonneg.mpr (le_trans h1 h2))]
  exact ⟨fun v hv => key _ v (List.mem_map.mpr ⟨p, hp, hv⟩), fun v hv => key _ v (List.mem_map.mpr ⟨p, hp, hv⟩)⟩

example : bbox [some 1, none, some (3 : ℚ)] [some 4, some 6, some 5] (1 / 2) = (some (0, 4), some (3, 7)) := by decide +kernel

end bbox

end Verif.Geo
