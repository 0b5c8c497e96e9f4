import Verif.Opt.QuadraticProps
import Verif.Opt.PeriodProps

/-!
# Investment periods with quadratic costs (C143)

The three parts of C143 for problems with `marginal_cost_quadratic` (`pypsa/optimization/optimize.py` 88-92, 136-151): one period, common factors of the
weights, and periods that nothing links.
-/

namespace Verif.Opt.Whole.Eras

open Doc
open Quad (allCost squares squared Least solver_least system_all Events value)

variable {F : Type} [Field F] [LinearOrder F]

/-! ## Specification -/

/-- The solver's choice among what it may choose. -/
def Picks (P : Program F) (D : (WVar → F) → Prop) (x : WVar → F) : Prop := FeasibleIn P x ∧ D x ∧ ∀ z, FeasibleIn P z → D z → value P x ≤ value P z

/-- What happens at a snapshot costs this much, before weighting. -/
def runningAll (w : WNet F) (x : WVar → F) (t : Nat) : F :=
  (w.gens.map (fun g => if g.unit.active t then g.costs.marginal t * x (.of "Generator" g.name (.op "p" t)) +
    g.costs.quadratic t * x (.of "Generator" g.name (.op "p" t)) ^ 2 else 0)).sum +
  (w.links.map (fun g => if g.unit.active t then g.costs.marginal t * x (.of "Link" g.name (.op "p" t)) + g.costs.quadratic t * x (.of "Link" g.name (.op "p" t)) ^ 2 else 0)).sum +
  (w.stores.map (fun g => if g.storage.active t then g.costs.marginal t * x (.of "Store" g.name (.op "p" t)) + g.costs.quadratic t * x (.of "Store" g.name (.op "p" t)) ^ 2 +
    g.costs.marginalStorage t * x (.of "Store" g.name (.op "e" t)) else 0)).sum +
  (w.units.map (fun g => if g.storage.active t then g.costs.marginal t * x (.of "StorageUnit" g.name (.op "p_dispatch" t)) +
    g.costs.quadratic t * x (.of "StorageUnit" g.name (.op "p_dispatch" t)) ^ 2 +
    g.costs.marginalStorage t * x (.of "StorageUnit" g.name (.op "state_of_charge" t)) +
    (if 0 < g.storage.inflow t then g.costs.spillCost t * x (.of "StorageUnit" g.name (.op "spill" t)) else 0) else 0)).sum

/-- Costs of a period without its weight. -/
def periodAll (w : WNet F) (per : Nat → Int) (q : Int) (x : WVar → F) : F :=
  ((List.range w.len).map (fun t => if per t = q then w.sw t * runningAll w x t else 0)).sum

/-! ## Costs -/

omit [LinearOrder F] in
theorem squares_scale {w w' : WNet F} {c : F} (hlen : w'.len = w.len) (hg : w'.gens = w.gens) (hk : w'.links = w.links) (hs : w'.stores = w.stores)
    (hu : w'.units = w.units) (hw : ∀ t, weight w' t = c * weight w t) (x : WVar → F) : squares w' x = c * squares w x := by
  have h : ∀ (a : Nat → Bool) (q p : Nat → F), squared w' a q p = c * squared w a q p := by
    intro a q p
    unfold squared
    rw [hlen, ← List.sum_map_mul_left]
    refine congrArg List.sum (List.map_congr_left (fun t _ => ?_))
    rw [hw]
    split
    · ring
    · ring
  unfold squares
  simp only [h, hg, hk, hs, hu, List.sum_map_mul_left, mul_add]

theorem weight_one {w : WNet F} (hp : w.periods = none) (p : Int) (c : F) (t : Nat) : weight (inOne p c w) t = c * weight w t := by
  unfold weight
  rw [hp]
  simp [inOne, recast, mul_comm]

theorem weight_scaled {w : WNet F} (hp : w.periods ≠ none) (c : F) (t : Nat) : weight (scaled c w) t = c * weight w t := by
  obtain ⟨d, hd⟩ := Option.ne_none_iff_exists'.mp hp
  unfold weight scaled recast
  rw [hd]
  simp only [Option.map_some]
  ring

theorem all_one {w : WNet F} (hp : w.periods = none) {p : Int} {c : F} (hs : Steady p w) (hn : c = 1 ∨ NoEvents w) (x : WVar → F) :
    allCost (inOne p c w) x = c * allCost w x := by
  unfold allCost
  rw [cost_one hp hs hn, squares_scale (w := w) (w' := inOne p c w) rfl rfl rfl rfl rfl (weight_one hp p c), mul_add]

theorem all_scaled {w : WNet F} (hp : w.periods ≠ none) (c : F) (hn : NoEvents w) (x : WVar → F) : allCost (scaled c w) x = c * allCost w x := by
  unfold allCost
  rw [cost_scaled hp c hn, squares_scale (w := w) (w' := scaled c w) rfl rfl rfl rfl rfl (weight_scaled hp c), mul_add]

section
variable [IsStrictOrderedRing F] {w : WNet F} {c : F} {other : List (Con WVar F)} {D : (WVar → F) → Prop} {x : WVar → F}

theorem least_one (hm : w.multi = false) (hp : w.periods = none) {p : Int} (hc : 0 < c) (hs : Steady p w) (hn : c = 1 ∨ NoEvents w) :
    Least (inOne p c w) other D x ↔ Least w other D x := by
  unfold Least
  simp only [rules_one hm, all_one hp hs hn]
  constructor
  · rintro ⟨h1, h2, h3, h4⟩
    exact ⟨h1, h2, h3, fun z z1 z2 z3 => le_of_mul_le_mul_left (h4 z z1 z2 z3) hc⟩
  · rintro ⟨h1, h2, h3, h4⟩
    exact ⟨h1, h2, h3, fun z z1 z2 z3 => mul_le_mul_of_nonneg_left (h4 z z1 z2 z3) hc.le⟩

theorem least_scaled (hp : w.periods ≠ none) (hc : 0 < c) (hn : NoEvents w) : Least (scaled c w) other D x ↔ Least w other D x := by
  unfold Least
  simp only [rules_scaled, all_scaled hp c hn]
  constructor
  · rintro ⟨h1, h2, h3, h4⟩
    exact ⟨h1, h2, h3, fun z z1 z2 z3 => le_of_mul_le_mul_left (h4 z z1 z2 z3) hc⟩
  · rintro ⟨h1, h2, h3, h4⟩
    exact ⟨h1, h2, h3, fun z z1 z2 z3 => mul_le_mul_of_nonneg_left (h4 z z1 z2 z3) hc.le⟩

/-- Two problems whose plans with least costs are the same have the same optima. -/
theorem quad_carry {w w' : WNet F} (hw : Sound w) (he : Events w) (hd : Orderly w) (hw' : Sound w') (he' : Events w')
    (hd' : Orderly w') (ho : ∀ r ∈ other, ∀ e ∈ r.terms, e.2 ≠ .const) {P Q : Program F}
    (hP : createModel w other = some P) (hQ : createModel w' other = some Q) (hD : ∀ k x, D x → D (setConst k x))
    (hb : Least w other D x → Least w' other D x) (h : Picks P D x) : Picks Q D (setConst (Objective.constant (objNet w')) x) :=
  (solver_least hw' he' hd' ho hQ D hD x).2 (hb ((solver_least hw he hd ho hP D hD x).1 h))

variable (hw : Sound w) (he : Events w) (hd : Orderly w) (ho : ∀ r ∈ other, ∀ e ∈ r.terms, e.2 ≠ .const) {P Q : Program F} (hP : createModel w other = some P)
  (hD : ∀ k x, D x → D (setConst k x))
include hw he hd ho hP hD

/-- **C143.** A single investment period in which the same assets are in service changes nothing, with quadratic costs either: the optima are the same plans, at the same
costs times the weight of the period. -/
theorem quad_one_period_partial (hm : w.multi = false) (hp : w.periods = none) {p : Int} (hc : 0 < c) (hs : Steady p w) (hn : c = 1 ∨ NoEvents w)
    (hQ : createModel (inOne p c w) other = some Q) (x : WVar → F) :
    (Picks P D x → Picks Q D (setConst (Objective.constant (objNet (inOne p c w))) x)) ∧
    (Picks Q D x → Picks P D (setConst (Objective.constant (objNet w)) x)) ∧ allCost (inOne p c w) x = c * allCost w x := by
  have he' : Events (inOne p c w) := ⟨he.gens, he.links⟩
  exact ⟨quad_carry hw he hd (sound_recast hw) he' (orderly_one c hs hd) ho hP hQ hD (least_one hm hp hc hs hn).mpr,
    quad_carry (sound_recast hw) he' (orderly_one c hs hd) hw he hd ho hQ hP hD (least_one hm hp hc hs hn).mp, all_one hp hs hn x⟩

/-- **C143.** Only the ratios of the weights count, with quadratic costs either. -/
theorem quad_weights_scale_partial (hp : w.periods ≠ none) (hc : 0 < c) (hn : NoEvents w) (hQ : createModel (scaled c w) other = some Q) (x : WVar → F) :
    (Picks P D x → Picks Q D (setConst (Objective.constant (objNet (scaled c w))) x)) ∧
    (Picks Q D x → Picks P D (setConst (Objective.constant (objNet w)) x)) ∧ allCost (scaled c w) x = c * allCost w x := by
  have he' : Events (scaled c w) := ⟨he.gens, he.links⟩
  exact ⟨quad_carry hw he hd (sound_recast hw) he' (orderly_scaled c hd) ho hP hQ hD (least_scaled hp hc hn).mpr,
    quad_carry (sound_recast hw) he' (orderly_scaled c hd) hw he hd ho hQ hP hD (least_scaled hp hc hn).mp, all_scaled hp c hn x⟩

end

/-! ## Periods that nothing links -/

/-- Costs of a network with fixed capacities and without commitment. -/
theorem all_running {w : WNet F} {per : Nat → Int} (h : Apart per w) (x : WVar → F) :
    allCost w x = ((List.range w.len).map (fun t => weight w t * runningAll w x t)).sum := by
  have hcap : capitalCosts w x = 0 := by
    unfold capitalCosts
    rw [sum_zero _ _ (fun g hg => by rw [(h.gens g hg).1.ext]; rfl), sum_zero _ _ (fun g hg => by rw [(h.links g hg).ext]; rfl),
      sum_zero _ _ (fun g hg => by rw [h.lines g hg]; rfl), sum_zero _ _ (fun g hg => by rw [h.trafos g hg]; rfl),
      sum_zero _ _ (fun g hg => by rw [(h.stores g hg).1]; rfl), sum_zero _ _ (fun g hg => by rw [(h.units g hg).1]; rfl)]
    simp
  rw [← system_all, cost_snapshots, hcap, add_zero]
  refine congrArg List.sum (List.map_congr_left (fun t _ => ?_))
  unfold snapCost runningAll
  rw [mul_add, mul_add, mul_add]
  refine congrArg₂ _ (congrArg₂ _ (congrArg₂ _ ?_ ?_) ?_) ?_
  · rw [← List.sum_map_mul_left]
    refine congrArg List.sum (List.map_congr_left (fun g hg => ?_))
    simp only [runs, commits, (h.gens g hg).1.com]
    split
    · simp
    · simp
  · rw [← List.sum_map_mul_left]
    refine congrArg List.sum (List.map_congr_left (fun g hg => ?_))
    simp only [runs, commits, (h.links g hg).com]
    split
    · simp
    · simp
  · rw [← List.sum_map_mul_left]
    refine congrArg List.sum (List.map_congr_left (fun g hg => ?_))
    simp only [runs]
    split
    · ring
    · ring
  · rw [← List.sum_map_mul_left]
    refine congrArg List.sum (List.map_congr_left (fun g hg => ?_))
    simp only [runs]
    split
    · split <;> ring
    · ring

section apart
variable [IsStrictOrderedRing F] {w : WNet F} {ps : List Int} {pw : Int → F} {per : Nat → Int}

omit [IsStrictOrderedRing F] in
theorem all_periods (hper : w.periods = some (ps, pw, per)) (h : Apart per w) (x : WVar → F) :
    allCost w x = ((Finset.range w.len).image per).sum (fun q => pw q * periodAll w per q x) := by
  rw [all_running h]
  have := sum_periods per w.len pw (fun t => w.sw t * runningAll w x t)
  unfold periodAll
  rw [← this]
  refine congrArg List.sum (List.map_congr_left (fun t _ => ?_))
  unfold weight
  rw [hper]
  simp only
  ring

omit [IsStrictOrderedRing F] in
theorem periodAll_mix (k q : Int) (x z : WVar → F) :
    periodAll w per k (mix per q x z) = if k = q then periodAll w per k x else periodAll w per k z := by
  unfold periodAll
  have e : ∀ t, runningAll w (mix per q x z) t = runningAll w (pick per q x z t) t := fun t => rfl
  simp only [e]
  split
  · rename_i hk
    subst hk
    refine congrArg List.sum (List.map_congr_left (fun t _ => ?_))
    split
    · rename_i ht
      simp [pick, ht]
    · rfl
  · rename_i hk
    refine congrArg List.sum (List.map_congr_left (fun t _ => ?_))
    split
    · rename_i ht
      simp [pick, ht, hk]
    · rfl

/-- **C143.** Where nothing links the periods, a plan has least costs exactly if it has in every period, without the weights of the periods. -/
theorem quad_best_periods (hper : w.periods = some (ps, pw, per)) (h : Apart per w) (hpos : ∀ t < w.len, 0 < pw (per t))
    {other : List (Con WVar F)} (ho : ApartRows per other) {D : (WVar → F) → Prop} (hD : ∀ q x z, D x → D z → D (mix per q x z)) (x : WVar → F) :
    Least w other D x ↔ Rules w x ∧ Feasible x other ∧ D x ∧
      ∀ z, Rules w z → Feasible z other → D z → ∀ t < w.len, periodAll w per (per t) x ≤ periodAll w per (per t) z := by
  unfold Least
  constructor
  · rintro ⟨h1, h2, h3, h4⟩
    refine ⟨h1, h2, h3, fun z z1 z2 z3 t ht => ?_⟩
    have := h4 (mix per (per t) z x) (rules_mix h _ z1 h1) (other_mix ho _ z2 h2) (hD _ _ _ z3 h3)
    rw [all_periods hper h, all_periods hper h] at this
    simp only [periodAll_mix] at this
    have hm : per t ∈ (Finset.range w.len).image per := Finset.mem_image_of_mem _ (Finset.mem_range.mpr ht)
    rw [← Finset.add_sum_erase _ _ hm, ← Finset.add_sum_erase _ _ hm] at this
    have e : ∀ k ∈ ((Finset.range w.len).image per).erase (per t),
        pw k * (if k = per t then periodAll w per k z else periodAll w per k x) = pw k * periodAll w per k x := by
      intro k hk
      rw [if_neg (Finset.ne_of_mem_erase hk)]
    rw [Finset.sum_congr rfl e, if_pos rfl] at this
    exact le_of_mul_le_mul_left (le_of_add_le_add_right this) (hpos t ht)
  · rintro ⟨h1, h2, h3, h4⟩
    refine ⟨h1, h2, h3, fun z z1 z2 z3 => ?_⟩
    rw [all_periods hper h, all_periods hper h]
    refine Finset.sum_le_sum (fun q hq => ?_)
    obtain ⟨t, ht, rfl⟩ := Finset.mem_image.mp hq
    have ht' := Finset.mem_range.mp ht
    exact mul_le_mul_of_nonneg_left (h4 z z1 z2 z3 t ht') (hpos t ht').le

/-- **C143.** Where nothing links the periods, all positive weights give the same optima, with quadratic costs too. -/
theorem quad_weights_irrelevant (hw : Sound w) (he : Events w) (hd : Orderly w) (hper : w.periods = some (ps, pw, per)) (h : Apart per w)
    {pw' : Int → F} (hpos : ∀ t < w.len, 0 < pw (per t)) (hpos' : ∀ t < w.len, 0 < pw' (per t)) {other : List (Con WVar F)} (ho : ApartRows per other)
    {P Q : Program F} (hP : createModel w other = some P) (hQ : createModel (reweigh pw' w) other = some Q) {D : (WVar → F) → Prop}
    (hk : ∀ k x, D x → D (setConst k x)) (hD : ∀ q x z, D x → D z → D (mix per q x z)) (x : WVar → F) :
    (Picks P D x → Picks Q D (setConst (Objective.constant (objNet (reweigh pw' w))) x)) ∧
    (Picks Q D x → Picks P D (setConst (Objective.constant (objNet w)) x)) := by
  have ho' : ∀ r ∈ other, ∀ e ∈ r.terms, e.2 ≠ .const := by
    intro r hr e he
    obtain ⟨k, hk⟩ := ho r hr
    obtain ⟨c, a, v, t, h1, -⟩ := hk e he
    rw [h1]
    exact fun h => by cases h
  have hper' : (reweigh pw' w).periods = some (ps, pw', per) := by
    simp [reweigh, recast, hper]
  have h' : Apart per (reweigh pw' w) := ⟨h.multi, h.same, h.gens, h.links, h.stores, h.units, h.lines, h.trafos⟩
  have he' : Events (reweigh pw' w) := ⟨he.gens, he.links⟩
  have hb : Least (reweigh pw' w) other D x ↔ Least w other D x := by
    rw [quad_best_periods hper' h' hpos' ho hD, quad_best_periods hper h hpos ho hD]
    simp only [rules_reweigh]
    exact Iff.rfl
  exact ⟨quad_carry hw he hd (sound_recast hw) he' (orderly_reweigh pw' hd) ho' hP hQ hk hb.mpr,
    quad_carry (sound_recast hw) he' (orderly_reweigh pw' hd) hw he hd ho' hQ hP hk hb.mp⟩

end apart

/-! ## Examples -/

/-- Coal becomes dearer the more of it is used. -/
def curved : GenW ℚ :=
  { eraGen "coal" (fun _ => 1) (eraUnit 10 (fun t => if t = 2 then none else some (1 / 2))) with costs := { exCosts 0 0 with marginal := fun _ => 1, quadratic := fun _ => 1 / 4 } }

def curvedNet : WNet ℚ := eraNet [curved, eraGen "gas" (fun _ => 5) (eraUnit 20 (fun _ => none))] [eraStore] 4 (fun q => if q = 2030 then 10 else 7) decades 9

theorem curved_apart : Apart decades curvedNet where
  multi := rfl
  same := apartNet_apart.same
  gens := by
    intro g hg
    simp only [curvedNet, eraNet, List.mem_cons, List.not_mem_nil, or_false] at hg
    rcases hg with rfl | rfl
    · refine ⟨⟨rfl, rfl, fun t ht => ?_⟩, rfl, rfl⟩
      have : t + 1 = 2 := by
        unfold decades at ht
        split at ht <;> split at ht <;> first | omega | exact absurd rfl ht
      simp [curved, eraGen, eraUnit, this]
    · exact ⟨⟨rfl, rfl, fun _ _ => ⟨rfl, rfl⟩⟩, rfl, rfl⟩
  links := by intro g hg; cases hg
  stores := apartNet_apart.stores
  units := by intro g hg; cases hg
  lines := by intro g hg; cases hg
  trafos := by intro g hg; cases hg

theorem curvedOrderly : Orderly curvedNet := by
  refine ⟨fun g _ h => (by cases h), fun g _ h => (by cases h), fun s hs _ _ => ?_, fun s hs => (by cases hs)⟩
  obtain rfl : s = eraStore := by simpa [curvedNet, eraNet] using hs
  refine ⟨fun i j k h1 h2 h3 h4 => ?_, fun _ _ _ _ _ => rfl⟩
  simp only [curvedNet, eraNet, decades] at h4 ⊢
  by_cases hi : i < 2 <;> by_cases hj : j < 2 <;> by_cases hk : k < 2 <;> simp [hi, hj, hk] at h4 ⊢ <;> omega

theorem curvedSome : (createModel curvedNet []).isSome = true := by decide +kernel
theorem curvedSome' : (createModel (reweigh (fun _ => 1) curvedNet) []).isSome = true := by decide +kernel
theorem curvedScaled : (createModel (scaled 3 curvedNet) []).isSome = true := by decide +kernel
theorem curvedSound : Sound curvedNet := by constructor <;> decide +kernel
theorem curvedEvents : Events curvedNet := by constructor <;> decide +kernel

/-- Discounting the second period changes nothing, though costs are curved. -/
example (x : WVar → ℚ) (hx : Picks ((createModel curvedNet []).get curvedSome) (fun _ => True) x) :
    Picks ((createModel (reweigh (fun _ => 1) curvedNet) []).get curvedSome') (fun _ => True)
      (setConst (Objective.constant (objNet (reweigh (fun _ => 1) curvedNet))) x) :=
  (quad_weights_irrelevant (per := decades) curvedSound curvedEvents curvedOrderly rfl curved_apart (by decide +kernel) (fun _ _ => by norm_num)
    (fun r hr => by cases hr) (Option.some_get curvedSome).symm (Option.some_get curvedSome').symm (fun _ _ _ => trivial) (fun _ _ _ _ _ => trivial) x).1 hx

/-- Nor do weights three times as large. -/
example (x : WVar → ℚ) := quad_weights_scale_partial (D := fun _ => True) curvedSound curvedEvents curvedOrderly (by simp) (Option.some_get curvedSome).symm
  (fun _ _ _ => trivial) (by simp [curvedNet, eraNet]) (c := 3) (by norm_num) (by constructor <;> decide +kernel) (Option.some_get curvedScaled).symm x

/-- The example has plans, and the quadratic part of their costs counts. -/
example : Rules curvedNet apartVal ∧ allCost curvedNet apartVal ≠ totalCost curvedNet apartVal := by
  refine ⟨((rules_iff (w := curvedNet) curvedSound curvedOrderly (Option.some_get curvedSome).symm apartVal).mp ?_).1, by decide +kernel⟩
  unfold FeasibleIn
  decide +kernel

theorem bentSteady : Steady 2030 Quad.bentNet := by
  constructor
  · intro g hg
    simp only [Quad.bentNet, List.mem_cons, List.not_mem_nil, or_false] at hg
    rcases hg with rfl | rfl <;> rfl
  all_goals intro g hg; cases hg

theorem bentOne : (createModel (inOne 2030 2 Quad.bentNet) []).isSome = true := by decide +kernel

/-- One period of weight two around the problem of one snapshot: its optimum stays. -/
example : Least (inOne 2030 2 Quad.bentNet) [] (fun _ => True) Quad.bentVal :=
  (least_one rfl rfl (by norm_num) bentSteady (.inr (by constructor <;> decide +kernel))).mpr Quad.bentLeast

example (x : WVar → ℚ) := quad_one_period_partial (D := fun _ => True) Quad.bentSound Quad.bentEvents (orderly_single rfl rfl) (by simp) (Option.some_get Quad.bentSome).symm
  (fun _ _ _ => trivial) rfl rfl (p := 2030) (c := 2) (by norm_num) bentSteady
  (.inr (by constructor <;> decide +kernel)) (Option.some_get bentOne).symm x

end Verif.Opt.Whole.Eras
