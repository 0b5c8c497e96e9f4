import Verif.Opt.Duality
import Mathlib.Tactic.FieldSimp
import Mathlib.Tactic.Push
import Mathlib.Algebra.BigOperators.Field

/-!
# Linear inequalities

Elimination of variables one by one (Fourier and Motzkin), and what follows from it for linear problems over any ordered field: a system without a point has a
combination of its rows that cannot hold, a problem that is bounded has an optimum, and an optimum has duals.
-/

namespace Verif.Opt.Farkas

open Finset

variable {V F : Type} [Field F] [LinearOrder F] [IsStrictOrderedRing F] [DecidableEq V]

/-- Coefficients and an upper limit. -/
abbrev Ineq (V F : Type) := (V → F) × F

/-- The inequality holds, with variables in `s`. -/
def Holds (s : Finset V) (x : V → F) (r : Ineq V F) : Prop := ∑ v ∈ s, r.1 v * x v ≤ r.2

/-- Sums of rows with weights that are not negative. -/
inductive Comb (R : List (Ineq V F)) : (V → F) → F → Prop
  | zero : Comb R (fun _ => 0) 0
  | step {a : V → F} {b c : F} {r : Ineq V F} : r ∈ R → 0 ≤ c → Comb R a b → Comb R (fun v => a v + c * r.1 v) (b + c * r.2)

omit [DecidableEq V] in
theorem Comb.add {R : List (Ineq V F)} {a a' : V → F} {b b' : F} (h : Comb R a b) (h' : Comb R a' b') : Comb R (fun v => a v + a' v) (b + b') := by
  induction h' with
  | zero => simpa using h
  | step hr hc _ ih =>
    have := Comb.step hr hc ih
    convert this using 1
    · funext v; ring
    · ring

omit [DecidableEq V] in
theorem Comb.smul {R : List (Ineq V F)} {a : V → F} {b k : F} (hk : 0 ≤ k) (h : Comb R a b) : Comb R (fun v => k * a v) (k * b) := by
  induction h with
  | zero => simpa using Comb.zero
  | step hr hc _ ih =>
    have := Comb.step hr (mul_nonneg hk hc) ih
    convert this using 1
    · funext v; ring
    · ring

omit [DecidableEq V] in
theorem Comb.of_mem {R : List (Ineq V F)} {r : Ineq V F} (h : r ∈ R) : Comb R r.1 r.2 := by
  have := Comb.step h (zero_le_one' F) Comb.zero
  simpa using this

omit [DecidableEq V] in
theorem Comb.trans {R R' : List (Ineq V F)} (hR : ∀ r ∈ R', Comb R r.1 r.2) {a : V → F} {b : F} (h : Comb R' a b) : Comb R a b := by
  induction h with
  | zero => exact .zero
  | step hr hc _ ih => exact ih.add ((hR _ hr).smul hc)

omit [DecidableEq V] in
theorem Comb.coef_zero {R : List (Ineq V F)} {v : V} (hR : ∀ r ∈ R, r.1 v = 0) {a : V → F} {b : F} (h : Comb R a b) : a v = 0 := by
  induction h with
  | zero => rfl
  | step hr _ _ ih => simp only [ih, hR _ hr, mul_zero, add_zero]

omit [DecidableEq V] in
/-- A combination holds where the rows do. -/
theorem Comb.holds {R : List (Ineq V F)} {s : Finset V} {x : V → F} (hx : ∀ r ∈ R, Holds s x r) {a : V → F} {b : F} (h : Comb R a b) : Holds s x (a, b) := by
  unfold Holds
  induction h with
  | zero => simp
  | step hr hc _ ih =>
    rename_i a b c r _
    have h1 := mul_le_mul_of_nonneg_left (hx _ hr) hc
    simp only [add_mul, Finset.sum_add_distrib, mul_assoc, ← Finset.mul_sum]
    exact add_le_add ih h1

/-! ## Elimination -/

/-- Two rows in which a variable has coefficients of different signs, combined so that it drops out. -/
def pair (v : V) (p n : Ineq V F) : Ineq V F := (fun u => p.1 u * -n.1 v + n.1 u * p.1 v, p.2 * -n.1 v + n.2 * p.1 v)

/-- The system without a variable. -/
def elim (v : V) (R : List (Ineq V F)) : List (Ineq V F) :=
  R.filter (fun r => r.1 v = 0) ++ (R.filter (fun r => 0 < r.1 v)).flatMap (fun p => (R.filter (fun r => r.1 v < 0)).map (pair v p))

omit [IsStrictOrderedRing F] [DecidableEq V] in
theorem mem_elim {v : V} {R : List (Ineq V F)} {r : Ineq V F} : r ∈ elim v R ↔ (r ∈ R ∧ r.1 v = 0) ∨ ∃ p ∈ R, 0 < p.1 v ∧ ∃ n ∈ R, n.1 v < 0 ∧ pair v p n = r := by
  simp only [elim, List.mem_append, List.mem_filter, List.mem_flatMap, List.mem_map, decide_eq_true_eq]
  constructor
  · rintro (h | ⟨p, hp, n, hn, e⟩)
    · exact .inl h
    · exact .inr ⟨p, hp.1, hp.2, n, hn.1, hn.2, e⟩
  · rintro (h | ⟨p, h1, h2, n, h3, h4, e⟩)
    · exact .inl h
    · exact .inr ⟨p, ⟨h1, h2⟩, n, ⟨h3, h4⟩, e⟩

omit [DecidableEq V] in
theorem elim_comb {v : V} {R : List (Ineq V F)} {r : Ineq V F} (h : r ∈ elim v R) : Comb R r.1 r.2 := by
  rcases mem_elim.mp h with ⟨h, -⟩ | ⟨p, hp, h1, n, hn, h2, rfl⟩
  · exact .of_mem h
  · have := ((Comb.of_mem hp).smul (neg_nonneg.mpr h2.le)).add ((Comb.of_mem hn).smul h1.le)
    convert this using 1
    · funext u; simp only [pair]; ring
    · simp only [pair]; ring

omit [IsStrictOrderedRing F] [DecidableEq V] in
theorem elim_coef {v : V} {R : List (Ineq V F)} {r : Ineq V F} (h : r ∈ elim v R) : r.1 v = 0 := by
  rcases mem_elim.mp h with ⟨-, h⟩ | ⟨p, -, -, n, -, -, rfl⟩
  · exact h
  · simp only [pair]; ring

omit [IsStrictOrderedRing F] [Field F] in
theorem between (L U : List F) (h : ∀ l ∈ L, ∀ u ∈ U, l ≤ u) [Nonempty F] : ∃ t, (∀ l ∈ L, l ≤ t) ∧ ∀ u ∈ U, t ≤ u := by
  cases L with
  | nil =>
    cases U with
    | nil => exact ⟨Classical.arbitrary F, by simp, by simp⟩
    | cons u U =>
      obtain ⟨m, hm⟩ : ∃ m, (u :: U).min? = some m := ⟨_, rfl⟩
      have := List.min?_eq_some_iff.mp hm
      exact ⟨m, by simp, this.2⟩
  | cons l L =>
    obtain ⟨m, hm⟩ : ∃ m, (l :: L).max? = some m := ⟨_, rfl⟩
    have := List.max?_eq_some_iff.mp hm
    exact ⟨m, this.2, fun u hu => h m this.1 u hu⟩

/-- A point of the smaller system can be completed. -/
theorem extend {v : V} {s : Finset V} (hv : v ∉ s) {R : List (Ineq V F)} {x : V → F} (h : ∀ r ∈ elim v R, Holds s x r) : ∃ t, ∀ r ∈ R, Holds (insert v s) (Function.update x v t) r := by
  have hsum : ∀ (t : F) (r : Ineq V F), ∑ u ∈ insert v s, r.1 u * Function.update x v t u = r.1 v * t + ∑ u ∈ s, r.1 u * x u := by
    intro t r
    rw [Finset.sum_insert hv, Function.update_self]
    congr 1
    refine Finset.sum_congr rfl fun u hu => ?_
    rw [Function.update_of_ne (by rintro rfl; exact hv hu)]
  let q : Ineq V F → F := fun r => (r.2 - ∑ u ∈ s, r.1 u * x u) / r.1 v
  obtain ⟨t, hl, hu⟩ := between ((R.filter (fun r => r.1 v < 0)).map q) ((R.filter (fun r => 0 < r.1 v)).map q) (by
    intro l hl u hu
    obtain ⟨n, hn, rfl⟩ := List.mem_map.mp hl
    obtain ⟨p, hp, rfl⟩ := List.mem_map.mp hu
    simp only [List.mem_filter, decide_eq_true_eq] at hn hp
    have := h _ (mem_elim.mpr (.inr ⟨p, hp.1, hp.2, n, hn.1, hn.2, rfl⟩))
    unfold Holds pair at this
    simp only [add_mul, Finset.sum_add_distrib] at this
    have e1 : ∑ u ∈ s, p.1 u * -n.1 v * x u = -n.1 v * ∑ u ∈ s, p.1 u * x u := by rw [Finset.mul_sum]; exact Finset.sum_congr rfl fun u _ => by ring
    have e2 : ∑ u ∈ s, n.1 u * p.1 v * x u = p.1 v * ∑ u ∈ s, n.1 u * x u := by rw [Finset.mul_sum]; exact Finset.sum_congr rfl fun u _ => by ring
    rw [e1, e2] at this
    have hn' : 0 < -n.1 v := neg_pos.mpr hn.2
    change (n.2 - ∑ u ∈ s, n.1 u * x u) / n.1 v ≤ (p.2 - ∑ u ∈ s, p.1 u * x u) / p.1 v
    rw [le_div_iff₀ hp.2, show (n.2 - ∑ u ∈ s, n.1 u * x u) / n.1 v * p.1 v = (-(n.2 - ∑ u ∈ s, n.1 u * x u) * p.1 v) / -n.1 v by
      rw [neg_mul, neg_div_neg_eq, div_mul_eq_mul_div], div_le_iff₀ hn']
    linarith)
  refine ⟨t, fun r hr => ?_⟩
  unfold Holds
  rw [hsum]
  rcases lt_trichotomy (r.1 v) 0 with h0 | h0 | h0
  · have := hl (q r) (List.mem_map.mpr ⟨r, List.mem_filter.mpr ⟨hr, by simpa using h0⟩, rfl⟩)
    have h1 := mul_le_mul_of_nonpos_left this h0.le
    have h2 : r.1 v * q r = r.2 - ∑ u ∈ s, r.1 u * x u := mul_div_cancel₀ _ h0.ne
    linarith
  · have := h r (mem_elim.mpr (.inl ⟨hr, h0⟩))
    unfold Holds at this
    rw [h0, zero_mul, zero_add]
    exact this
  · have := hu (q r) (List.mem_map.mpr ⟨r, List.mem_filter.mpr ⟨hr, by simpa using h0⟩, rfl⟩)
    have h1 := mul_le_mul_of_nonneg_left this h0.le
    have h2 : r.1 v * q r = r.2 - ∑ u ∈ s, r.1 u * x u := mul_div_cancel₀ _ h0.ne'
    linarith

/-- A system has a point, or a combination of its rows says that zero is negative. -/
theorem farkas (s : Finset V) : ∀ R : List (Ineq V F), (∃ x, ∀ r ∈ R, Holds s x r) ∨ ∃ a b, Comb R a b ∧ (∀ v ∈ s, a v = 0) ∧ b < 0 := by
  induction s using Finset.induction_on with
  | empty =>
    intro R
    by_cases h : ∀ r ∈ R, 0 ≤ r.2
    · exact .inl ⟨fun _ => 0, fun r hr => by simpa [Holds] using h r hr⟩
    · push Not at h
      obtain ⟨r, hr, h0⟩ := h
      exact .inr ⟨_, _, Comb.of_mem hr, by simp, h0⟩
  | insert v s hv ih =>
    intro R
    rcases ih (elim v R) with ⟨x, hx⟩ | ⟨a, b, h1, h2, h3⟩
    · obtain ⟨t, ht⟩ := extend hv hx
      exact .inl ⟨_, ht⟩
    · refine .inr ⟨a, b, h1.trans fun r hr => elim_comb hr, fun u hu => ?_, h3⟩
      rcases Finset.mem_insert.mp hu with rfl | hu
      · exact h1.coef_zero fun r hr => elim_coef hr
      · exact h2 u hu

/-! ## What a system implies -/

/-- A row with one more variable that stands for the scale. -/
def homog (r : Ineq V F) : Ineq (Option V) F := (fun o => o.elim (-r.2) r.1, 0)

/-- The scale is not negative. -/
def scaleRow : Ineq (Option V) F := (fun o => o.elim (-1) (fun _ => 0), 0)

/-- The objective is below its bound. -/
def belowRow (c : V → F) (δ : F) : Ineq (Option V) F := (fun o => o.elim (-δ) c, -1)

omit [DecidableEq V] in
theorem homog_comb {R : List (Ineq V F)} {c : V → F} {δ : F} {a : Option V → F} {b : F} (h : Comb (scaleRow :: belowRow c δ :: R.map homog) a b) :
    ∃ a' b' u w, Comb R a' b' ∧ 0 ≤ u ∧ 0 ≤ w ∧ (∀ v, a (some v) = a' v + w * c v) ∧ a none = -b' - u - w * δ ∧ b = -w := by
  induction h with
  | zero => exact ⟨_, _, 0, 0, .zero, le_rfl, le_rfl, by simp, by simp, by simp⟩
  | step hr hk _ ih =>
    rename_i a b k r _
    obtain ⟨a', b', u, w, h1, h2, h3, h4, h5, h6⟩ := ih
    rcases List.mem_cons.mp hr with rfl | hr
    · exact ⟨a', b', u + k, w, h1, add_nonneg h2 hk, h3, fun v => by simp [scaleRow, h4], by simp [scaleRow, h5]; ring, by simp [scaleRow, h6]⟩
    · rcases List.mem_cons.mp hr with rfl | hr
      · exact ⟨a', b', u, w + k, h1, h2, add_nonneg h3 hk, fun v => by simp [belowRow, h4]; ring, by simp [belowRow, h5]; ring, by simp [belowRow, h6]; ring⟩
      · obtain ⟨r', hr', rfl⟩ := List.mem_map.mp hr
        exact ⟨_, _, u, w, .step hr' hk h1, h2, h3, fun v => by simp [homog, h4]; ring, by simp [homog, h5]; ring, by simp [homog, h6]⟩

theorem sum_option (s : Finset V) (f : Option V → F) : ∑ o ∈ insert none (s.map Function.Embedding.some), f o = f none + ∑ v ∈ s, f (some v) := by
  rw [Finset.sum_insert (by simp), Finset.sum_map]
  rfl

/-- What holds at all points of a system that has one is a combination of its rows. -/
theorem implied {s : Finset V} {R : List (Ineq V F)} {c : V → F} {δ : F} (h0 : ∃ x, ∀ r ∈ R, Holds s x r) (h : ∀ x, (∀ r ∈ R, Holds s x r) → δ ≤ ∑ v ∈ s, c v * x v) :
    ∃ a b, Comb R a b ∧ (∀ v ∈ s, a v = -c v) ∧ b ≤ -δ := by
  rcases farkas (insert none (s.map Function.Embedding.some)) (scaleRow :: belowRow c δ :: R.map homog) with ⟨x, hx⟩ | ⟨a, b, h1, h2, h3⟩
  · exfalso
    have hs := hx _ List.mem_cons_self
    have hb := hx _ (List.mem_cons_of_mem _ List.mem_cons_self)
    have hr : ∀ r ∈ R, ∑ v ∈ s, r.1 v * x (some v) ≤ r.2 * x none := by
      intro r hr
      have := hx _ (List.mem_cons_of_mem _ (List.mem_cons_of_mem _ (List.mem_map.mpr ⟨r, hr, rfl⟩)))
      unfold Holds at this
      rw [sum_option] at this
      simp only [homog, Option.elim_none, Option.elim_some] at this
      linarith
    unfold Holds at hs hb
    rw [sum_option] at hs hb
    simp only [scaleRow, belowRow, Option.elim_none, Option.elim_some, zero_mul, Finset.sum_const_zero, add_zero] at hs hb
    have ht : 0 ≤ x none := by linarith
    rcases ht.eq_or_lt with ht | ht
    · -- a direction along which costs fall
      obtain ⟨x0, hx0⟩ := h0
      set C := ∑ v ∈ s, c v * x (some v) with hC
      have hC1 : C ≤ -1 := by rw [← ht] at hb; linarith
      let k : F := max 0 (∑ v ∈ s, c v * x0 v - δ + 1)
      have hk : 0 ≤ k := le_max_left _ _
      have hk' : ∑ v ∈ s, c v * x0 v - δ + 1 ≤ k := le_max_right _ _
      have := h (fun v => x0 v + k * x (some v)) (by
        intro r hr'
        have h1 := hx0 r hr'
        have h2 := mul_le_mul_of_nonneg_left (hr r hr') hk
        unfold Holds at h1 ⊢
        rw [← ht, mul_zero, mul_zero, Finset.mul_sum] at h2
        simp only [mul_add, Finset.sum_add_distrib]
        have e : ∑ v ∈ s, r.1 v * (k * x (some v)) = ∑ v ∈ s, k * (r.1 v * x (some v)) := Finset.sum_congr rfl fun v _ => by ring
        rw [e]
        linarith)
      simp only [mul_add, Finset.sum_add_distrib] at this
      have e : ∑ v ∈ s, c v * (k * x (some v)) = k * C := by rw [hC, Finset.mul_sum]; exact Finset.sum_congr rfl fun v _ => by ring
      rw [e] at this
      have := mul_le_mul_of_nonneg_left hC1 hk
      linarith
    · have := h (fun v => x (some v) / x none) (by
        intro r hr'
        have h1 := hr r hr'
        unfold Holds
        have e : ∑ v ∈ s, r.1 v * (x (some v) / x none) = (∑ v ∈ s, r.1 v * x (some v)) / x none := by
          rw [Finset.sum_div]; exact Finset.sum_congr rfl fun v _ => by ring
        rw [e, div_le_iff₀ ht]
        exact h1)
      have e : ∑ v ∈ s, c v * (x (some v) / x none) = (∑ v ∈ s, c v * x (some v)) / x none := by
        rw [Finset.sum_div]; exact Finset.sum_congr rfl fun v _ => by ring
      rw [e, le_div_iff₀ ht] at this
      linarith
  · obtain ⟨a', b', u, w, g1, g2, g3, g4, g5, g6⟩ := homog_comb h1
    have hw : 0 < w := by linarith
    have hi : 0 ≤ w⁻¹ := (inv_pos.mpr hw).le
    refine ⟨_, _, g1.smul hi, fun v hv => ?_, ?_⟩
    · have h4 := h2 (some v) (Finset.mem_insert_of_mem (Finset.mem_map.mpr ⟨v, hv, rfl⟩))
      rw [g4] at h4
      have : a' v = -(w * c v) := by linarith
      simp only [this]
      field_simp
    · have h5 := h2 none (Finset.mem_insert_self _ _)
      rw [g5] at h5
      have hb' : b' ≤ -(w * δ) := by linarith
      calc w⁻¹ * b' ≤ w⁻¹ * -(w * δ) := mul_le_mul_of_nonneg_left hb' hi
        _ = -δ := by field_simp

/-! ## The smallest value -/

/-- The values that one variable takes at points of a system are given by inequalities. -/
theorem project (z : V) (s : Finset V) : z ∉ s → ∀ R : List (Ineq V F), ∃ R' : List (F × F), ∀ t, (∃ x, x z = t ∧ ∀ r ∈ R, Holds (insert z s) x r) ↔ ∀ r ∈ R', r.1 * t ≤ r.2 := by
  induction s using Finset.induction_on with
  | empty =>
    intro _ R
    refine ⟨R.map (fun r => (r.1 z, r.2)), fun t => ⟨?_, fun h => ⟨fun _ => t, rfl, fun r hr => ?_⟩⟩⟩
    · rintro ⟨x, rfl, hx⟩ r hr
      obtain ⟨r', hr', rfl⟩ := List.mem_map.mp hr
      simpa [Holds] using hx r' hr'
    · simpa [Holds] using h _ (List.mem_map.mpr ⟨r, hr, rfl⟩)
  | insert v s hv ih =>
    intro hz R
    have hzv : z ≠ v := fun e => hz (e ▸ Finset.mem_insert_self _ _)
    have hvs : v ∉ insert z s := by
      rw [Finset.mem_insert]
      rintro (e | e)
      · exact hzv e.symm
      · exact hv e
    obtain ⟨R', hR'⟩ := ih (fun h => hz (Finset.mem_insert_of_mem h)) (elim v R)
    refine ⟨R', fun t => ?_⟩
    rw [← hR', Finset.insert_comm]
    constructor
    · rintro ⟨x, hx, h⟩
      refine ⟨x, hx, fun r hr => ?_⟩
      have := (elim_comb hr).holds h
      unfold Holds at this ⊢
      rw [Finset.sum_insert hvs, elim_coef hr, zero_mul, zero_add] at this
      exact this
    · rintro ⟨x, hx, h⟩
      obtain ⟨t', ht'⟩ := extend hvs h
      exact ⟨_, by rw [Function.update_of_ne hzv, hx], ht'⟩

omit [DecidableEq V] in
/-- Inequalities for one number that bound it from below have a smallest solution. -/
theorem least (R : List (F × F)) (h0 : ∃ t, ∀ r ∈ R, r.1 * t ≤ r.2) {δ : F} (h : ∀ t, (∀ r ∈ R, r.1 * t ≤ r.2) → δ ≤ t) : ∃ t, (∀ r ∈ R, r.1 * t ≤ r.2) ∧ ∀ u, (∀ r ∈ R, r.1 * u ≤ r.2) → t ≤ u := by
  obtain ⟨t0, ht0⟩ := h0
  let L := (R.filter (fun r => r.1 < 0)).map (fun r => r.2 / r.1)
  have hL : ∀ u, (∀ r ∈ R, r.1 * u ≤ r.2) → ∀ l ∈ L, l ≤ u := by
    intro u hu l hl
    obtain ⟨r, hr, rfl⟩ := List.mem_map.mp hl
    simp only [List.mem_filter, decide_eq_true_eq] at hr
    rw [div_le_iff_of_neg hr.2]
    have := hu r hr.1
    linarith [mul_comm u r.1]
  have hdown : ∀ t, t ≤ t0 → (∀ l ∈ L, l ≤ t) → ∀ r ∈ R, r.1 * t ≤ r.2 := by
    intro t ht hl r hr
    rcases lt_or_ge r.1 0 with hn | hn
    · have := hl _ (List.mem_map.mpr ⟨r, List.mem_filter.mpr ⟨hr, by simpa using hn⟩, rfl⟩)
      rw [div_le_iff_of_neg hn] at this
      linarith [mul_comm t r.1]
    · exact (mul_le_mul_of_nonneg_left ht hn).trans (ht0 r hr)
  cases hLe : L with
  | nil =>
    exfalso
    have := h (min t0 (δ - 1)) (hdown _ (min_le_left _ _) (by simp [hLe]))
    have := this.trans (min_le_right _ _)
    linarith
  | cons l l' =>
    obtain ⟨m, hm⟩ : ∃ m, L.max? = some m := by rw [hLe]; exact ⟨_, rfl⟩
    have hm' := List.max?_eq_some_iff.mp hm
    exact ⟨m, hdown m (hL t0 ht0 m hm'.1) hm'.2, fun u hu => hL u hu m hm'.1⟩

/-- A system that bounds an objective from below has a point where it is smallest. -/
theorem attained {s : Finset V} {R : List (Ineq V F)} {c : V → F} {δ : F} (h0 : ∃ x, ∀ r ∈ R, Holds s x r) (h : ∀ x, (∀ r ∈ R, Holds s x r) → δ ≤ ∑ v ∈ s, c v * x v) :
    ∃ x, (∀ r ∈ R, Holds s x r) ∧ ∀ y, (∀ r ∈ R, Holds s y r) → ∑ v ∈ s, c v * x v ≤ ∑ v ∈ s, c v * y v := by
  let S := s.map Function.Embedding.some
  let up : Ineq V F → Ineq (Option V) F := fun r => (fun o => o.elim 0 r.1, r.2)
  let R2 : List (Ineq (Option V) F) := (fun o => o.elim (-1) c, 0) :: (fun o => o.elim 1 (fun v => -c v), 0) :: R.map up
  have hiff : ∀ x : Option V → F, (∀ r ∈ R2, Holds (insert none S) x r) ↔ (∑ v ∈ s, c v * x (some v) = x none ∧ ∀ r ∈ R, Holds s (fun v => x (some v)) r) := by
    intro x
    simp only [R2, List.forall_mem_cons, List.forall_mem_map, Holds, S, sum_option, up, Option.elim_none, Option.elim_some, neg_mul, one_mul, zero_mul, zero_add, Finset.sum_neg_distrib]
    constructor
    · rintro ⟨h1, h2, h3⟩
      exact ⟨by linarith, h3⟩
    · rintro ⟨h1, h3⟩
      exact ⟨by linarith, by linarith, h3⟩
  obtain ⟨R', hR'⟩ := project (none : Option V) S (by simp [S]) R2
  have hv : ∀ t, (∀ r ∈ R', r.1 * t ≤ r.2) ↔ ∃ x, (∀ r ∈ R, Holds s x r) ∧ ∑ v ∈ s, c v * x v = t := by
    intro t
    rw [← hR']
    constructor
    · rintro ⟨x, rfl, hx⟩
      have := (hiff x).mp hx
      exact ⟨_, this.2, this.1⟩
    · rintro ⟨x, hx, rfl⟩
      exact ⟨fun o => o.elim (∑ v ∈ s, c v * x v) x, rfl, (hiff _).mpr ⟨rfl, hx⟩⟩
  obtain ⟨t, ht, hmin⟩ := least R' (by obtain ⟨x, hx⟩ := h0; exact ⟨_, (hv _).mpr ⟨x, hx, rfl⟩⟩) (δ := δ) (by
    intro t ht
    obtain ⟨x, hx, rfl⟩ := (hv t).mp ht
    exact h x hx)
  obtain ⟨x, hx, rfl⟩ := (hv t).mp ht
  exact ⟨x, hx, fun y hy => hmin _ ((hv _).mpr ⟨y, hy, rfl⟩)⟩

/-! ## Rows of all senses -/

/-- A row as upper limits. -/
def ineqs (c : Con V F) : List (Ineq V F) :=
  match c.sense with
  | .le => [(coef c.terms, c.rhs)]
  | .ge => [(fun v => -coef c.terms v, -c.rhs)]
  | .eq => [(coef c.terms, c.rhs), (fun v => -coef c.terms v, -c.rhs)]

/-- Variables of rows and of the objective. -/
def vars (obj : List (F × V)) (rows : List (Con V F)) : Finset V := ((obj ++ rows.flatMap (·.terms)).map (·.2)).toFinset

omit [IsStrictOrderedRing F] [LinearOrder F] in
theorem mem_vars_obj {obj : List (F × V)} {rows : List (Con V F)} : ∀ e ∈ obj, e.2 ∈ vars obj rows := by
  intro e he
  simp only [vars, List.mem_toFinset, List.mem_map, List.mem_append]
  exact ⟨e, .inl he, rfl⟩

omit [IsStrictOrderedRing F] [LinearOrder F] in
theorem mem_vars_row {obj : List (F × V)} {rows : List (Con V F)} {r : Con V F} (hr : r ∈ rows) : ∀ e ∈ r.terms, e.2 ∈ vars obj rows := by
  intro e he
  simp only [vars, List.mem_toFinset, List.mem_map, List.mem_append, List.mem_flatMap]
  exact ⟨e, .inr ⟨r, hr, he⟩, rfl⟩

omit [IsStrictOrderedRing F] [LinearOrder F] in
theorem coef_absent {ts : List (F × V)} {v : V} (h : ∀ e ∈ ts, e.2 ≠ v) : coef ts v = 0 := by
  unfold coef
  apply List.sum_eq_zero
  intro y hy
  obtain ⟨e, he, rfl⟩ := List.mem_map.mp hy
  rw [if_neg (h e he)]

theorem holds_ineqs {s : Finset V} {c : Con V F} (hs : ∀ e ∈ c.terms, e.2 ∈ s) (x : V → F) : c.holds x ↔ ∀ r ∈ ineqs c, Holds s x r := by
  unfold Con.holds ineqs Holds
  have hc := lin_coef x c.terms s hs
  cases c.sense <;> simp only [List.forall_mem_cons, List.not_mem_nil, false_imp_iff, implies_true, and_true, neg_mul, Finset.sum_neg_distrib, ← hc]
  · exact neg_le_neg_iff.symm
  · rw [neg_le_neg_iff]
    exact le_antisymm_iff

theorem feasible_ineqs {obj : List (F × V)} {rows : List (Con V F)} (x : V → F) : Feasible x rows ↔ ∀ r ∈ rows.flatMap ineqs, Holds (vars obj rows) x r := by
  unfold Feasible
  simp only [List.mem_flatMap, forall_exists_index, and_imp]
  constructor
  · intro h r c hc hr
    exact (holds_ineqs (mem_vars_row hc) x).mp (h c hc) r hr
  · intro h c hc
    exact (holds_ineqs (mem_vars_row hc) x).mpr fun r hr => h r c hc hr

omit [DecidableEq V] in
theorem Comb.split {A B : List (Ineq V F)} {a : V → F} {b : F} (h : Comb (A ++ B) a b) : ∃ a1 b1 a2 b2, Comb A a1 b1 ∧ Comb B a2 b2 ∧ (∀ v, a v = a1 v + a2 v) ∧ b = b1 + b2 := by
  induction h with
  | zero => exact ⟨_, _, _, _, .zero, .zero, by simp, by simp⟩
  | step hr hc _ ih =>
    obtain ⟨a1, b1, a2, b2, h1, h2, h3, h4⟩ := ih
    rcases List.mem_append.mp hr with hr | hr
    · exact ⟨_, _, a2, b2, .step hr hc h1, h2, fun v => by simp only [h3]; ring, by rw [h4]; ring⟩
    · exact ⟨a1, b1, _, _, h1, .step hr hc h2, fun v => by simp only [h3]; ring, by rw [h4]; ring⟩

/-- The sign of the dual of a row. -/
def Signed (c : Con V F) (m : F) : Prop := (c.sense = .le → m ≤ 0) ∧ (c.sense = .ge → 0 ≤ m)

theorem comb_row {c : Con V F} {a : V → F} {b : F} (h : Comb (ineqs c) a b) : ∃ m, Signed c m ∧ (∀ v, a v = -(m * coef c.terms v)) ∧ b = -(m * c.rhs) := by
  induction h with
  | zero => exact ⟨0, ⟨fun _ => le_rfl, fun _ => le_rfl⟩, by simp, by simp⟩
  | step hr hk _ ih =>
    rename_i a b k r _
    obtain ⟨m, hm, h1, h2⟩ := ih
    unfold ineqs at hr
    cases hs : c.sense with
    | le =>
      simp only [hs, List.mem_singleton] at hr
      subst hr
      exact ⟨m - k, ⟨fun _ => by linarith [hm.1 hs], fun e => (by rw [hs] at e; cases e)⟩, fun v => by simp only [h1]; ring, by simp only [h2]; ring⟩
    | ge =>
      simp only [hs, List.mem_singleton] at hr
      subst hr
      exact ⟨m + k, ⟨fun e => (by rw [hs] at e; cases e), fun _ => by linarith [hm.2 hs]⟩, fun v => by simp only [h1]; ring, by simp only [h2]; ring⟩
    | eq =>
      simp only [hs, List.mem_cons, List.not_mem_nil, or_false] at hr
      rcases hr with rfl | rfl
      · exact ⟨m - k, ⟨fun e => (by rw [hs] at e; cases e), fun e => (by rw [hs] at e; cases e)⟩, fun v => by simp only [h1]; ring, by simp only [h2]; ring⟩
      · exact ⟨m + k, ⟨fun e => (by rw [hs] at e; cases e), fun e => (by rw [hs] at e; cases e)⟩, fun v => by simp only [h1]; ring, by simp only [h2]; ring⟩

theorem comb_rows (rows : List (Con V F)) : ∀ {a : V → F} {b : F}, Comb (rows.flatMap ineqs) a b → ∃ mu : List F, mu.length = rows.length ∧ (∀ r ∈ rows.zip mu, Signed r.1 r.2) ∧
    (∀ v, a v = -((rows.zip mu).map (fun r => r.2 * coef r.1.terms v)).sum) ∧ b = -((rows.zip mu).map (fun r => r.2 * r.1.rhs)).sum := by
  induction rows with
  | nil =>
    intro a b h
    refine ⟨[], rfl, by simp, ?_, ?_⟩
    · intro v
      have := h.coef_zero (v := v) (by simp)
      simpa using this
    · generalize hR : (([] : List (Con V F)).flatMap ineqs) = R at h
      cases h with
      | zero => simp
      | step hr _ _ =>
        rw [← hR] at hr
        simp at hr
  | cons c rows ih =>
    intro a b h
    rw [List.flatMap_cons] at h
    obtain ⟨a1, b1, a2, b2, h1, h2, h3, h4⟩ := h.split
    obtain ⟨m, g1, g2, g3⟩ := comb_row h1
    obtain ⟨mu, k1, k2, k3, k4⟩ := ih h2
    refine ⟨m :: mu, by simp [k1], ?_, ?_, ?_⟩
    · intro r hr
      rw [List.zip_cons_cons] at hr
      rcases List.mem_cons.mp hr with rfl | hr
      · exact g1
      · exact k2 r hr
    · intro v
      simp only [List.zip_cons_cons, List.map_cons, List.sum_cons, h3, g2, k3]
      ring
    · simp only [List.zip_cons_cons, List.map_cons, List.sum_cons, h4, g3, k4]
      ring

/-! ## Linear problems -/

/-- A linear problem that has a point and is bounded from below has an optimum. -/
theorem optimum_exists {obj : List (F × V)} {rows : List (Con V F)} (h0 : ∃ x, Feasible x rows) {δ : F} (h : ∀ x, Feasible x rows → δ ≤ lin x obj) :
    ∃ x, Feasible x rows ∧ ∀ y, Feasible y rows → lin x obj ≤ lin y obj := by
  have hl : ∀ x : V → F, lin x obj = ∑ v ∈ vars obj rows, coef obj v * x v := fun x => lin_coef x obj _ mem_vars_obj
  simp only [feasible_ineqs (obj := obj), hl] at h0 h ⊢
  exact attained h0 h

/-- An optimum has duals. -/
theorem duals_exist {obj : List (F × V)} {rows : List (Con V F)} {x : V → F} (hx : Feasible x rows) (h : ∀ y, Feasible y rows → lin x obj ≤ lin y obj) :
    ∃ mu : List F, mu.length = rows.length ∧ Answer obj (rows.zip mu) x := by
  have hl : ∀ x : V → F, lin x obj = ∑ v ∈ vars obj rows, coef obj v * x v := fun x => lin_coef x obj _ mem_vars_obj
  obtain ⟨a, b, h1, h2, h3⟩ := implied (s := vars obj rows) (R := rows.flatMap ineqs) (c := coef obj) (δ := lin x obj) ⟨x, (feasible_ineqs x).mp hx⟩ (fun y hy => by
    rw [← hl]
    exact h y ((feasible_ineqs y).mpr hy))
  obtain ⟨mu, k1, k2, k3, k4⟩ := comb_rows rows h1
  have hst : ∀ v, coef obj v = ((rows.zip mu).map (fun r => r.2 * coef r.1.terms v)).sum := by
    intro v
    by_cases hv : v ∈ vars obj rows
    · have := h2 v hv
      rw [k3] at this
      linarith
    · rw [coef_absent (fun e he => by rintro rfl; exact hv (mem_vars_obj e he))]
      symm
      apply List.sum_eq_zero
      intro y hy
      obtain ⟨r, hr, rfl⟩ := List.mem_map.mp hy
      rw [coef_absent (fun e he => by rintro rfl; exact hv (mem_vars_row (List.of_mem_zip hr).1 e he)), mul_zero]
  refine ⟨mu, k1, fun r hr => hx _ (List.of_mem_zip hr).1, fun r hr => (k2 r hr).1, fun r hr => (k2 r hr).2, hst, ?_⟩
  refine le_antisymm (by rw [k4] at h3; linarith) ?_
  rw [lin_of_stationary obj _ hst x]
  refine List.sum_le_sum fun r hr => ?_
  have hf := hx _ (List.of_mem_zip hr).1
  unfold Con.holds at hf
  cases hs : r.1.sense with
  | le =>
    rw [hs] at hf
    exact mul_le_mul_of_nonpos_left hf ((k2 r hr).1 hs)
  | ge =>
    rw [hs] at hf
    exact mul_le_mul_of_nonneg_left hf ((k2 r hr).2 hs)
  | eq =>
    rw [hs] at hf
    exact (congrArg (r.2 * ·) hf).ge

/-- Rows that no point meets have a combination that cannot hold, and only such rows do. -/
theorem no_point (rows : List (Con V F)) : (¬ ∃ x, Feasible x rows) ↔ ∃ mu : List F, mu.length = rows.length ∧ (∀ r ∈ rows.zip mu, Signed r.1 r.2) ∧
    (∀ v, ((rows.zip mu).map (fun r => r.2 * coef r.1.terms v)).sum = 0) ∧ 0 < ((rows.zip mu).map (fun r => r.2 * r.1.rhs)).sum := by
  constructor
  · intro h
    rcases farkas (vars [] rows) (rows.flatMap ineqs) with ⟨x, hx⟩ | ⟨a, b, h1, h2, h3⟩
    · exact absurd ⟨x, (feasible_ineqs x).mpr hx⟩ h
    · obtain ⟨mu, k1, k2, k3, k4⟩ := comb_rows rows h1
      refine ⟨mu, k1, k2, fun v => ?_, by rw [k4] at h3; linarith⟩
      by_cases hv : v ∈ vars [] rows
      · have := h2 v hv
        rw [k3] at this
        linarith
      · apply List.sum_eq_zero
        intro y hy
        obtain ⟨r, hr, rfl⟩ := List.mem_map.mp hy
        rw [coef_absent (fun e he => by rintro rfl; exact hv (mem_vars_row (List.of_mem_zip hr).1 e he)), mul_zero]
  · rintro ⟨mu, -, k2, k3, k4⟩ ⟨x, hx⟩
    have h0 := lin_of_stationary ([] : List (F × V)) (rows.zip mu) (fun v => by rw [k3]; rfl) x
    rw [lin_nil] at h0
    have : ((rows.zip mu).map (fun r => r.2 * r.1.rhs)).sum ≤ ((rows.zip mu).map (fun r => r.2 * lin x r.1.terms)).sum := by
      refine List.sum_le_sum fun r hr => ?_
      have hf := hx _ (List.of_mem_zip hr).1
      unfold Con.holds at hf
      cases hs : r.1.sense with
      | le =>
        rw [hs] at hf
        exact mul_le_mul_of_nonpos_left hf ((k2 r hr).1 hs)
      | ge =>
        rw [hs] at hf
        exact mul_le_mul_of_nonneg_left hf ((k2 r hr).2 hs)
      | eq =>
        rw [hs] at hf
        exact (congrArg (r.2 * ·) hf).ge
    linarith

end Verif.Opt.Farkas
