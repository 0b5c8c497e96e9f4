import Verif.Opt.Capacity
import Mathlib.Tactic.Ring
import Mathlib.Tactic.Linarith
import Mathlib.Tactic.LinearCombination
import Mathlib.Tactic.FieldSimp
import Mathlib.Algebra.Order.Ring.Rat
import Mathlib.Data.Int.Cast.Lemmas
import Mathlib.Data.List.Nodup
import Mathlib.Algebra.Order.Ring.Cast

/-!
# Capacities (C50), set points and energy sums (C88)
-/

namespace Verif.Opt.Capacity

variable {F : Type} [Field F] [LinearOrder F] [IsStrictOrderedRing F]

/-! ## Specification -/

/-- A capacity an asset may have. -/
def Allowed (a : CapAsset F) (x : F) : Prop :=
  a.nomMin ≤ x ∧ (∀ u, a.nomMax = some u → x ≤ u) ∧ (∀ s, a.nomSet = some s → x = s) ∧
  (0 < a.nomMod → ∃ k : Nat, x = k * a.nomMod)

/-- C50: unless a capacity is set for an asset that cannot be extended, the constraints can be built,
and capacities can be completed to a solution exactly if those of all extendable assets are
within their bounds, equal the set value if there is one, and are a whole multiple of the
module size if there is one. -/
theorem capacity_bounds (as : List (CapAsset F)) (hnd : (as.map (·.name)).Nodup)
    (cap : Name → F) :
    ((∃ a ∈ as, a.ext = false ∧ a.nomSet ≠ none) → capacityCons as = .error .keyError) ∧
    ((∀ a ∈ as, a.ext = false → a.nomSet = none) → ∃ rows, capacityCons as = .ok rows ∧
      ((∃ val, (∀ n, val (.cap n) = cap n) ∧ InDomain as val ∧ Feasible val rows) ↔
        ∀ a ∈ as, a.ext = true → Allowed a (cap a.name))) := by
  constructor
  · rintro ⟨a, ha, h1, h2⟩
    unfold capacityCons fixedNominalCons
    rw [if_pos]
    rw [List.any_eq_true]
    exact ⟨a, ha, by simp [h1, Option.isSome_iff_ne_none, h2]⟩
  intro hset
  have hok : fixedNominalCons as = .ok (as.flatMap setRow) := by
    unfold fixedNominalCons
    rw [if_neg]
    rw [List.any_eq_true]
    rintro ⟨a, ha, h⟩
    simp only [Bool.and_eq_true, Bool.not_eq_true'] at h
    rw [hset a ha h.2] at h
    simp at h
  refine ⟨nominalCons as ++ as.flatMap setRow ++ modularCons as, by simp only [capacityCons, hok], ?_⟩
  constructor
  · rintro ⟨val, hcap, hdom, hf⟩ a ha hext
    rw [feasible_append, feasible_append] at hf
    obtain ⟨⟨h1, h2⟩, h3⟩ := hf
    have hn := (feasible_flatMap _ _ _).mp h1 a (List.mem_filter.mpr ⟨ha, hext⟩)
    rw [feasible_cons] at hn
    refine ⟨?_, ?_, ?_, ?_⟩
    · have := hn.1
      simp only [Con.holds, lin_cons, lin_nil, hcap] at this
      linarith
    · intro u hu
      have := hn.2
      rw [hu] at this
      have := this _ (List.mem_singleton.mpr rfl)
      simp only [Con.holds, lin_cons, lin_nil, hcap] at this
      linarith
    · intro s hs
      have := (feasible_flatMap _ _ _).mp h2 a ha
      unfold setRow at this
      rw [hs] at this
      have := this _ (List.mem_singleton.mpr rfl)
      simp only [Con.holds, lin_cons, lin_nil, hcap] at this
      linarith
    · intro hm
      have hmod : modular a = true := by simp [modular, hext, hm]
      have := h3 _ (List.mem_map.mpr ⟨a, List.mem_filter.mpr ⟨ha, hmod⟩, rfl⟩)
      simp only [Con.holds, lin_cons, lin_nil, hcap] at this
      obtain ⟨h0, k, hk⟩ := hdom a ha hmod
      refine ⟨k.toNat, ?_⟩
      have hk0 : 0 ≤ k := by rw [hk] at h0; exact_mod_cast h0
      have : ((k.toNat : Nat) : F) = (k : F) := by
        rw [← Int.cast_natCast, Int.toNat_of_nonneg hk0]
      rw [this, ← hk]
      linarith
  · intro hall
    refine ⟨fun v => match v with
      | .cap n => cap n
      | .nMod n => match as.find? (fun a => a.name = n) with
        | some a => cap n / a.nomMod
        | none => 0, fun n => rfl, ?_, ?_⟩
    · intro a ha hmod
      have hfind : as.find? (fun b => b.name = a.name) = some a := by
        obtain ⟨b, hb⟩ : ∃ b, as.find? (fun b => b.name = a.name) = some b := by
          rw [← Option.isSome_iff_exists, List.find?_isSome]; exact ⟨a, ha, by simp⟩
        have h1 := List.mem_of_find?_eq_some hb
        have h2 := List.find?_some hb
        simp only [decide_eq_true_eq] at h2
        rw [hb, List.inj_on_of_nodup_map hnd h1 ha h2]
      simp only [modular, Bool.and_eq_true, decide_eq_true_eq] at hmod
      simp only [hfind]
      obtain ⟨k, hk⟩ := (hall a ha hmod.1).2.2.2 hmod.2
      have : cap a.name / a.nomMod = k := by
        rw [hk, mul_div_assoc, div_self hmod.2.ne', mul_one]
      rw [this]
      exact ⟨Nat.cast_nonneg k, (k : Int), by simp⟩
    · rw [feasible_append, feasible_append]
      refine ⟨⟨?_, ?_⟩, ?_⟩
      · refine (feasible_flatMap _ _ _).mpr ?_
        intro a ha
        obtain ⟨ha, hext⟩ := List.mem_filter.mp ha
        obtain ⟨h1, h2, -, -⟩ := hall a ha hext
        rw [feasible_cons]
        refine ⟨?_, ?_⟩
        · simp only [Con.holds, lin_cons, lin_nil]; linarith
        · cases hu : a.nomMax with
          | none => simp
          | some u =>
            rw [feasible_cons]
            have := h2 u hu
            refine ⟨?_, by simp⟩
            simp only [Con.holds, lin_cons, lin_nil]; linarith
      · refine (feasible_flatMap _ _ _).mpr ?_
        intro a ha
        unfold setRow
        cases hs : a.nomSet with
        | none => simp
        | some s =>
          have hext : a.ext = true := by
            cases he : a.ext with
            | true => rfl
            | false => rw [hset a ha he] at hs; cases hs
          have := (hall a ha hext).2.2.1 s hs
          rw [feasible_cons]
          refine ⟨?_, by simp⟩
          simp only [Con.holds, lin_cons, lin_nil]; linarith
      · intro c hc
        obtain ⟨a, ha, rfl⟩ := List.mem_map.mp hc
        obtain ⟨ha, hmod⟩ := List.mem_filter.mp ha
        have hfind : as.find? (fun b => b.name = a.name) = some a := by
          obtain ⟨b, hb⟩ : ∃ b, as.find? (fun b => b.name = a.name) = some b := by
            rw [← Option.isSome_iff_exists, List.find?_isSome]; exact ⟨a, ha, by simp⟩
          have h1 := List.mem_of_find?_eq_some hb
          have h2 := List.find?_some hb
          simp only [decide_eq_true_eq] at h2
          rw [hb, List.inj_on_of_nodup_map hnd h1 ha h2]
        simp only [modular, Bool.and_eq_true, decide_eq_true_eq] at hmod
        simp only [Con.holds, lin_cons, lin_nil, hfind]
        have h0 := hmod.2.ne'
        field_simp
        ring_nf

/-- C88: set points and energy sums. Of a generator in service at some snapshot the weighted energy is
within the given limits, an asset in service with a given value has that value, and nothing
else is required. -/
theorem set_points (sns : List Nat) (w : Nat → F) (gs : List (SumGen F)) (cols : List (SetCol F))
    (val : Name × Nat → F) :
    (Feasible val (totalSupplyCons sns w gs) ↔ ∀ g ∈ gs, (∃ t ∈ sns, g.active t = true) →
      (∀ x, g.eSumMin = some x → x ≤ (sns.map (fun t => if g.active t then w t * val (g.name, t) else 0)).sum) ∧
      (∀ x, g.eSumMax = some x → (sns.map (fun t => if g.active t then w t * val (g.name, t) else 0)).sum ≤ x)) ∧
    (Feasible val (fixedOperationCons sns cols) ↔ ∀ c ∈ cols, ∀ t ∈ sns, c.active t = true →
      ∀ x, c.value t = some x → val (c.name, t) = x) := by
  have hsum : ∀ g : SumGen F, lin val (sumTerms sns w g) =
      (sns.map (fun t => if g.active t then w t * val (g.name, t) else 0)).sum := by
    intro g
    unfold sumTerms lin
    induction sns with
    | nil => rfl
    | cons t ts ih =>
      rw [List.map_cons, List.sum_cons, ← ih]
      cases h : g.active t <;> simp [h]
  have hemp : ∀ g : SumGen F, (sumTerms sns w g).isEmpty = true ↔ ¬ ∃ t ∈ sns, g.active t = true := by
    intro g
    unfold sumTerms
    rw [List.isEmpty_iff, List.map_eq_nil_iff, List.filter_eq_nil_iff]
    simp
  constructor
  · unfold totalSupplyCons
    rw [feasible_append, feasible_flatMap, feasible_flatMap]
    constructor
    · rintro ⟨h1, h2⟩ g hg hact
      have hne : ¬ (sumTerms sns w g).isEmpty = true := fun h => (hemp g).mp h hact
      refine ⟨?_, ?_⟩
      · intro x hx
        have := h1 g hg
        simp only [hx, rowOf, if_neg hne] at this
        have := this _ (List.mem_singleton.mpr rfl)
        simpa only [Con.holds, hsum] using this
      · intro x hx
        have := h2 g hg
        simp only [hx, rowOf, if_neg hne] at this
        have := this _ (List.mem_singleton.mpr rfl)
        simpa only [Con.holds, hsum] using this
    · intro h
      refine ⟨?_, ?_⟩ <;> intro g hg
      · cases hx : g.eSumMin with
        | none => simp
        | some x =>
          simp only [rowOf]
          split
          · simp
          · rename_i hne
            rw [feasible_cons]
            refine ⟨?_, by simp⟩
            simp only [Con.holds, hsum]
            exact (h g hg (not_not.mp (fun hh => hne ((hemp g).mpr hh)))).1 x hx
      · cases hx : g.eSumMax with
        | none => simp
        | some x =>
          simp only [rowOf]
          split
          · simp
          · rename_i hne
            rw [feasible_cons]
            refine ⟨?_, by simp⟩
            simp only [Con.holds, hsum]
            exact (h g hg (not_not.mp (fun hh => hne ((hemp g).mpr hh)))).2 x hx
  · unfold fixedOperationCons
    rw [feasible_flatMap]
    constructor
    · intro h c hc t ht hact x hx
      have := (feasible_flatMap _ _ _).mp (h c hc) t ht
      simp only [hx, hact, if_true] at this
      have := this _ (List.mem_singleton.mpr rfl)
      simp only [Con.holds, lin_cons, lin_nil] at this
      linarith
    · intro h c hc
      rw [feasible_flatMap]
      intro t ht
      cases hx : c.value t with
      | none => simp
      | some x =>
        cases hact : c.active t with
        | false => simp
        | true =>
          simp only [if_true]
          rw [feasible_cons]
          refine ⟨?_, by simp⟩
          simp only [Con.holds, lin_cons, lin_nil]
          rw [h c hc t ht hact x hx]; ring

/-! ## Examples -/

def exAssets : List (CapAsset ℚ) :=
  [⟨"w", true, 2, some 10, 3, none⟩, ⟨"s", true, 0, none, 0, some 4⟩, ⟨"f", false, 0, none, 0, none⟩]

example : (exAssets.map (·.name)).Nodup ∧ (∀ a ∈ exAssets, a.ext = false → a.nomSet = none) ∧
    (∃ rows, capacityCons exAssets = .ok rows ∧ rows.length = 5) ∧
    (∀ a ∈ exAssets, a.ext = true → Allowed a ((fun n => if n = "w" then (9 : ℚ) else 4) a.name)) := by
  refine ⟨by decide, by decide +kernel, ⟨_, rfl, rfl⟩, ?_⟩
  intro a ha hext
  simp only [exAssets, List.mem_cons, List.not_mem_nil, or_false] at ha
  rcases ha with rfl | rfl | rfl
  · refine ⟨by norm_num, by simp; norm_num, by simp, fun _ => ⟨3, by norm_num⟩⟩
  · refine ⟨by decide +kernel, by simp, by simp, by simp⟩
  · cases hext

example : Feasible (fun v : Name × Nat => (v.2 : ℚ))
    (totalSupplyCons [1, 2] (fun _ => 3) [⟨"g", fun t => t = 2, some 5, some 6⟩] ++
      fixedOperationCons [1, 2] [⟨"g", fun t => if t = 2 then some 2 else some 7, fun t => t = 2⟩]) := by
  decide +kernel

end Verif.Opt.Capacity
