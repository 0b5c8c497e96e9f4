import Verif.Opt.QuadraticExistProps
import Verif.Opt.StaticsProps
import Verif.Opt.ShedProps

/-!
# With quadratic costs prices and output react (C164)

C141 and C157 for problems with `marginal_cost_quadratic` (`pypsa/optimization/optimize.py` 136-151), of which C158 and C160 are about one: plans before and after a change of
costs or loads, and load shedding.
-/

namespace Verif.Opt.Whole.Quad

open Doc Exist

variable {F : Type} [Field F] [LinearOrder F] {w : WNet F} {x y z : WVar → F}

/-! ## Specification -/

/-- The difference of two plans. -/
def apart (x y : WVar → F) : WVar → F := fun v => y v - x v

/-- More load at one bus in one snapshot only. -/
structure MoreAt (w : WNet F) (loads : List (LoadW F)) (b0 : Name) (t0 : Nat) : Prop where
  bus : b0 ∈ w.buses
  time : t0 < w.len
  more : demand w t0 b0 < demand { w with loads := loads } t0 b0
  same : ∀ b ∈ w.buses, ∀ t < w.len, (b ≠ b0 ∨ t ≠ t0) → demand { w with loads := loads } t b = demand w t b

theorem course_of [IsStrictOrderedRing F] (hq : Rising w) (h0 : squares w (apart x z) = 0) : SameCourse w x z := by
  unfold apart at h0
  unfold squares at h0
  have n1 := fun g hg => squared_nonneg hq.weights (active := g.unit.active) (hq.gens g hg) (fun t => z (.of "Generator" g.name (.op "p" t)) - x (.of "Generator" g.name (.op "p" t)))
  have n2 := fun g hg => squared_nonneg hq.weights (active := g.unit.active) (hq.links g hg) (fun t => z (.of "Link" g.name (.op "p" t)) - x (.of "Link" g.name (.op "p" t)))
  have n3 := fun g hg => squared_nonneg hq.weights (active := g.storage.active) (hq.stores g hg) (fun t => z (.of "Store" g.name (.op "p" t)) - x (.of "Store" g.name (.op "p" t)))
  have n4 := fun g hg => squared_nonneg hq.weights (active := g.storage.active) (hq.units g hg) (fun t => z (.of "StorageUnit" g.name (.op "p_dispatch" t)) - x (.of "StorageUnit" g.name (.op "p_dispatch" t)))
  have s1 := sum_least _ _ n1
  have s2 := sum_least _ _ n2
  have s3 := sum_least _ _ n3
  have s4 := sum_least _ _ n4
  refine ⟨?_, ?_, ?_, ?_⟩
  · intro g hg t ht ha hpos
    have := one_le _ _ n1 g hg
    exact (sub_eq_zero.mp (squared_zero hq.weights (hq.gens g hg) (d := fun t => z (.of "Generator" g.name (.op "p" t)) - x (.of "Generator" g.name (.op "p" t))) (by linarith) ht ha hpos)).symm
  · intro g hg t ht ha hpos
    have := one_le _ _ n2 g hg
    exact (sub_eq_zero.mp (squared_zero hq.weights (hq.links g hg) (d := fun t => z (.of "Link" g.name (.op "p" t)) - x (.of "Link" g.name (.op "p" t))) (by linarith) ht ha hpos)).symm
  · intro g hg t ht ha hpos
    have := one_le _ _ n3 g hg
    exact (sub_eq_zero.mp (squared_zero hq.weights (hq.stores g hg) (d := fun t => z (.of "Store" g.name (.op "p" t)) - x (.of "Store" g.name (.op "p" t))) (by linarith) ht ha hpos)).symm
  · intro g hg t ht ha hpos
    have := one_le _ _ n4 g hg
    exact (sub_eq_zero.mp (squared_zero hq.weights (hq.units g hg) (d := fun t => z (.of "StorageUnit" g.name (.op "p_dispatch" t)) - x (.of "StorageUnit" g.name (.op "p_dispatch" t))) (by linarith) ht ha hpos)).symm

/-! ## Costs -/

section
variable [IsStrictOrderedRing F] (hw : Sound w) (hq : Rising w) (hd : Orderly w) {other : List (Con WVar F)}
  (ho : ∀ r ∈ other, ∀ e ∈ r.terms, e.2 ≠ .const) {P : Program F} (hP : createModel w other = some P)
include hw hq hd ho hP

/-- Every other plan costs more by at least the squares of what it does otherwise. -/
theorem least_gap (hx : Least w other (fun _ => True) x) (hz : Plan w other z) : allCost w x + squares w (apart x z) ≤ allCost w z := by
  have h1 := (least_tangent hw hq hd ho hP x).mp hx
  have h2 := h1.2.2.2 z (rules_tan.mpr hz.1) hz.2 trivial
  have h3 := cost_apart (w := w) x z
  unfold apart
  linarith

end

section
variable {d : Statics.Rise F}

theorem squares_raise (x : WVar → F) : squares (Statics.raise d w) x = squares w x := by
  unfold squares
  rw [show (Statics.raise d w).gens = w.gens.map (Statics.raiseGen d) from rfl, show (Statics.raise d w).links = w.links.map (Statics.raiseLink d) from rfl,
    show (Statics.raise d w).stores = w.stores.map (Statics.raiseStore d) from rfl, show (Statics.raise d w).units = w.units.map (Statics.raiseUnit d) from rfl]
  simp only [List.map_map, Function.comp_def]
  rfl

theorem all_raise (x : WVar → F) : allCost (Statics.raise d w) x = allCost w x + Statics.burden d w x := by
  unfold allCost
  rw [squares_raise, Statics.cost_raise]
  ring

theorem rising_raise (h : Rising w) : Rising (Statics.raise d w) := by
  refine ⟨h.weights, ?_, ?_, ?_, ?_⟩
  · intro g hg
    obtain ⟨g, hm, rfl⟩ := List.mem_map.mp hg
    exact h.gens g hm
  · intro g hg
    obtain ⟨g, hm, rfl⟩ := List.mem_map.mp hg
    exact h.links g hm
  · intro g hg
    obtain ⟨g, hm, rfl⟩ := List.mem_map.mp hg
    exact h.stores g hm
  · intro g hg
    obtain ⟨g, hm, rfl⟩ := List.mem_map.mp hg
    exact h.units g hm

variable [IsStrictOrderedRing F] (hw : Sound w) (hq : Rising w) (hd : Orderly w) {other : List (Con WVar F)}
  (ho : ∀ r ∈ other, ∀ e ∈ r.terms, e.2 ≠ .const) {P Q : Program F} (hP : createModel w other = some P) (hQ : createModel (Statics.raise d w) other = some Q)
include hw hq hd ho hP hQ

/-- What is dearer is used less, by at least twice the squares of what is done otherwise. -/
theorem quad_less_used (hx : Least w other (fun _ => True) x) (hy : Least (Statics.raise d w) other (fun _ => True) y) :
    Statics.burden d w y + 2 * squares w (apart x y) ≤ Statics.burden d w x := by
  have h1 := least_gap hw hq hd ho hP hx ⟨Statics.rules_raise.mp hy.1, hy.2.1⟩
  have h2 := least_gap (Statics.sound_raise hw) (rising_raise hq) (Statics.orderly_raise hd) ho hQ hy ⟨Statics.rules_raise.mpr hx.1, hx.2.1⟩
  rw [all_raise, all_raise, squares_raise] at h2
  have h3 : squares w (apart y x) = squares w (apart x y) := by
    unfold squares squared apart
    simp only [sub_sq_comm]
  linarith

/-- The optimum costs at least as much more as the rise costs the new plan and the squares of what changes, and at most as much more as it costs the old, less the squares. -/
theorem quad_bounds (hx : Least w other (fun _ => True) x) (hy : Least (Statics.raise d w) other (fun _ => True) y) :
    allCost w x + Statics.burden d w y + squares w (apart x y) ≤ allCost (Statics.raise d w) y ∧
    allCost (Statics.raise d w) y + squares w (apart x y) ≤ allCost w x + Statics.burden d w x := by
  have h1 := least_gap hw hq hd ho hP hx ⟨Statics.rules_raise.mp hy.1, hy.2.1⟩
  have h2 := least_gap (Statics.sound_raise hw) (rising_raise hq) (Statics.orderly_raise hd) ho hQ hy ⟨Statics.rules_raise.mpr hx.1, hx.2.1⟩
  rw [all_raise x, squares_raise] at h2
  have h3 : squares w (apart y x) = squares w (apart x y) := by
    unfold squares squared apart
    simp only [sub_sq_comm]
  rw [all_raise y] at h2 ⊢
  constructor <;> linarith

/-- Part of the rise costs at least that part of the whole. -/
theorem quad_concave {θ : F} (h0 : 0 ≤ θ) (h1 : θ ≤ 1) (hx : Least w other (fun _ => True) x) (hy : Least (Statics.raise d w) other (fun _ => True) y)
    (hz : Least (Statics.raise (Statics.scaleRise θ d) w) other (fun _ => True) z) :
    (1 - θ) * allCost w x + θ * allCost (Statics.raise d w) y + ((1 - θ) * squares w (apart x z) + θ * squares w (apart y z)) ≤
      allCost (Statics.raise (Statics.scaleRise θ d) w) z := by
  have rz := Statics.rules_raise.mp hz.1
  have e1 := mul_le_mul_of_nonneg_left (least_gap hw hq hd ho hP hx ⟨rz, hz.2.1⟩) (sub_nonneg.mpr h1)
  have e2 := mul_le_mul_of_nonneg_left (least_gap (Statics.sound_raise hw) (rising_raise hq) (Statics.orderly_raise hd) ho hQ hy ⟨Statics.rules_raise.mpr rz, hz.2.1⟩) h0
  rw [all_raise z, squares_raise] at e2
  rw [all_raise z, Statics.burden_scale]
  linarith

/-- If the marginal costs of generators rise by these amounts, their output weighted with the rise falls. -/
theorem quad_gens (r : Name → Nat → F) (hr : d = Statics.onMarginal "Generator" r) (hx : Least w other (fun _ => True) x)
    (hy : Least (Statics.raise d w) other (fun _ => True) y) :
    (w.gens.map (fun g => Statics.over w g.unit.active (r g.name) (fun t => y (.of "Generator" g.name (.op "p" t))))).sum + 2 * squares w (apart x y) ≤
      (w.gens.map (fun g => Statics.over w g.unit.active (r g.name) (fun t => x (.of "Generator" g.name (.op "p" t))))).sum := by
  have h := quad_less_used hw hq hd ho hP hQ hx hy
  rw [hr, Statics.burden_gens, Statics.burden_gens] at h
  exact h

/-- Either the rise is passed over by all whose costs rise with output, or the use of what is dearer falls indeed. -/
theorem quad_reacts (hx : Least w other (fun _ => True) x) (hy : Least (Statics.raise d w) other (fun _ => True) y) :
    SameCourse w x y ∨ Statics.burden d w y < Statics.burden d w x := by
  have h := quad_less_used hw hq hd ho hP hQ hx hy
  have h0 := squares_nonneg hq (apart x y)
  rcases h0.lt_or_eq with h1 | h1
  · exact Or.inr (by linarith)
  · exact Or.inl (course_of hq h1.symm)

end

/-! ## Loads -/

section
variable [IsStrictOrderedRing F] (hw : Sound w) (he : Events w) (hq : Rising w) (hd : Orderly w) {other : List (Con WVar F)}
  (ho : ∀ r ∈ other, ∀ e ∈ r.terms, e.2 ≠ .const) {P Q : Program F} (hP : createModel w other = some P) {loads : List (LoadW F)}
  (hb : ∀ l ∈ loads, l.bus ∈ w.buses) (hQ : createModel { w with loads := loads } other = some Q)
  {lam lam' : Name → Nat → F} {mu mu' : List F} (hs : Answered P x lam mu) (hs' : Answered Q y lam' mu')
include hw he hd ho hP hs

/-- More load costs at least what it is worth at the solver's duals and the squares of what changes. -/
theorem load_gap (hz : Plan { w with loads := loads } other z) :
    allCost w x + (bill { w with loads := loads } lam - bill w lam) + squares w (apart x z) ≤ allCost w z := by
  obtain ⟨h1, h2⟩ := answered_slope hw he hd ho hP hs
  have h3 := h2 z (assets_loads loads (Rules.assets hz.1)) hz.2
  have h4 := cost_apart (w := w) x z
  have h6 := worth_bill lam h1.1.balance
  have h7 := worth_bill (w := { w with loads := loads }) lam hz.1.balance
  change worth w lam z = _ at h7
  unfold apart
  linarith

/-- Loads between two others cost at most the costs between theirs, less the squares of what is done otherwise. -/
theorem quad_loads_convex {l0 l1 : List (LoadW F)} {θ : F} (h0 : 0 ≤ θ) (h1 : θ ≤ 1)
    (hmid : ∀ b ∈ w.buses, ∀ t < w.len, demand w t b = (1 - θ) * demand { w with loads := l0 } t b + θ * demand { w with loads := l1 } t b)
    {z0 z1 : WVar → F} (hz0 : Plan { w with loads := l0 } other z0) (hz1 : Plan { w with loads := l1 } other z1) :
    allCost w x + ((1 - θ) * squares w (apart x z0) + θ * squares w (apart x z1)) ≤ (1 - θ) * allCost w z0 + θ * allCost w z1 := by
  have e0 := mul_le_mul_of_nonneg_left (load_gap hw he hd ho hP hs hz0) (sub_nonneg.mpr h1)
  have e1 := mul_le_mul_of_nonneg_left (load_gap hw he hd ho hP hs hz1) h0
  have hb : bill w lam = (1 - θ) * bill { w with loads := l0 } lam + θ * bill { w with loads := l1 } lam := by
    unfold bill
    rw [← List.sum_map_mul_left, ← List.sum_map_mul_left, ← List.sum_map_add]
    refine congrArg List.sum (List.map_congr_left (fun t ht => ?_))
    rw [← List.sum_map_mul_left, ← List.sum_map_mul_left, ← List.sum_map_add]
    refine congrArg List.sum (List.map_congr_left (fun b hb => ?_))
    rw [hmid b hb t (List.mem_range.mp ht)]
    ring
  rw [hb] at e0 e1
  linarith

include hb hQ hs'

/-- Where more is needed prices are higher on the whole, by at least twice the squares of what changes. -/
theorem quad_prices_follow : 2 * squares w (apart x y) ≤
    (bill { w with loads := loads } lam' - bill w lam') - (bill { w with loads := loads } lam - bill w lam) := by
  have hw' : Sound { w with loads := loads } := { hw with loadBus := hb }
  have he' : Events { w with loads := loads } := ⟨he.gens, he.links⟩
  have hd' : Orderly { w with loads := loads } := ⟨hd.gens, hd.links, hd.stores, hd.units⟩
  have hx := (answered_slope hw he hd ho hP hs).1
  have hy := (answered_slope hw' he' hd' ho hQ hs').1
  have h1 := load_gap hw he hd ho hP hs hy
  have h2 : allCost w y + (bill w lam' - bill { w with loads := loads } lam') + squares w (apart y x) ≤ allCost w x :=
    load_gap (w := { w with loads := loads }) (loads := w.loads) hw' he' hd' ho hQ hs' hx
  have h3 : squares w (apart y x) = squares w (apart x y) := by
    unfold squares squared apart
    simp only [sub_sq_comm]
  linarith

omit [IsStrictOrderedRing F] hw he hd ho hP hs hb hQ hs' in
theorem bill_one (hw : Sound w) {b0 : Name} {t0 : Nat} (hm : MoreAt w loads b0 t0) (lam : Name → Nat → F) :
    bill { w with loads := loads } lam - bill w lam = lam b0 t0 * (demand { w with loads := loads } t0 b0 - demand w t0 b0) := by
  have e : bill { w with loads := loads } lam - bill w lam =
      ((List.range w.len).map (fun t => (w.buses.map (fun b => lam b t * (demand { w with loads := loads } t b - demand w t b))).sum)).sum := by
    rw [sub_eq_iff_eq_add]
    unfold bill
    rw [← List.sum_map_add]
    refine congrArg List.sum (List.map_congr_left (fun t _ => ?_))
    rw [← List.sum_map_add]
    refine congrArg List.sum (List.map_congr_left (fun b _ => ?_))
    ring
  rw [e, Statics.sum_only (n := fun t : Nat => t) (by rw [List.map_id']; exact List.nodup_range) (List.mem_range.mpr hm.time)]
  · rw [Statics.sum_only (n := fun b : Name => b) (by rw [List.map_id']; exact hw.buses) hm.bus]
    intro b hbm hne
    rw [hm.same b hbm t0 hm.time (Or.inl hne)]
    ring
  · intro t htm hne
    rw [List.sum_eq_zero]
    intro v hv
    obtain ⟨b, hbm, rfl⟩ := List.mem_map.mp hv
    rw [hm.same b hbm t (List.mem_range.mp htm) (Or.inr hne)]
    ring

include hq

/-- More load at one bus in one snapshot does not lower the recorded price there, and raises it unless all whose costs rise with output go on as before. -/
theorem quad_price_follows {b0 : Name} {t0 : Nat} (hm : MoreAt w loads b0 t0) (hpos : 0 < weight w t0) (old : F) :
    busPrice w old (lam b0 t0) t0 ≤ busPrice w old (lam' b0 t0) t0 ∧
    (SameCourse w x y ∨ busPrice w old (lam b0 t0) t0 < busPrice w old (lam' b0 t0) t0) := by
  have h := quad_prices_follow hw he hd ho hP hb hQ hs hs'
  rw [bill_one hw hm, bill_one hw hm, ← sub_mul] at h
  have hp : ∀ l : F, busPrice w old l t0 = l / weight w t0 := by
    intro l
    unfold busPrice
    rw [weight_eq]
    rfl
  have h0 := squares_nonneg hq (apart x y)
  have hmore := sub_pos.mpr hm.more
  rw [hp, hp]
  refine ⟨(div_le_div_iff_of_pos_right hpos).mpr (sub_nonneg.mp (nonneg_of_mul_nonneg_left (by linarith) hmore)), ?_⟩
  rcases h0.lt_or_eq with h1 | h1
  · exact Or.inr ((div_lt_div_iff_of_pos_right hpos).mpr (sub_pos.mp ((mul_pos_iff_of_pos_right hmore).mp (by linarith))))
  · exact Or.inl (course_of hq h1.symm)

end

/-! ## Load shedding -/

section
variable {buses : Option (List Name)} {sfx : Name} {sign cost pNom : Name → F}

theorem tan_shed (x : WVar → F) : tangent (withShedding w buses sfx sign cost pNom) x = withShedding (tangent w x) buses sfx sign cost pNom := by
  have hn : (tangent w x).gens.map (·.name) = w.gens.map (·.name) := by simp [tangent, gTan, Function.comp_def]
  have hs : ∀ b, gTan x (shedGen sfx sign cost pNom b) = shedGen sfx sign cost pNom b := by
    intro b
    simp [gTan, shedGen, slope]
  have hg : (withShedding w buses sfx sign cost pNom).gens.map (gTan x) = (withShedding (tangent w x) buses sfx sign cost pNom).gens := by
    unfold withShedding sheddingGens
    simp only [List.map_append, List.map_map, Function.comp_def, hs, hn]
    rfl
  unfold tangent at hg ⊢
  rw [hg]
  rfl

theorem shedding_tan (hS : Shedding w buses sfx) (x : WVar → F) : Shedding (tangent w x) buses sfx := by
  refine ⟨hS.known, hS.once, ?_⟩
  intro b hb g hg
  obtain ⟨g, hm, rfl⟩ := List.mem_map.mp hg
  exact hS.fresh b hb g hm

theorem shed_rising (hq : Rising w) (hS : Shedding w buses sfx) : Rising (withShedding w buses sfx sign cost pNom) := by
  refine ⟨hq.weights, ?_, hq.links, hq.stores, hq.units⟩
  intro g hg
  rw [gens_eq hS] at hg
  rcases List.mem_append.mp hg with hg | hg
  · exact hq.gens g hg
  · obtain ⟨b, hb, rfl⟩ := List.mem_map.mp hg
    exact fun t _ => le_rfl

theorem shed_events (he : Events w) (hS : Shedding w buses sfx) : Events (withShedding w buses sfx sign cost pNom) := by
  refine ⟨?_, he.links⟩
  intro g hg
  rw [gens_eq hS] at hg
  rcases List.mem_append.mp hg with hg | hg
  · exact he.gens g hg
  · obtain ⟨b, hb, rfl⟩ := List.mem_map.mp hg
    exact ⟨le_rfl, le_rfl⟩

/-- The price recorded at a bus is at most the marginal cost of shedding by its sign unless all that can be is shed, and at least that while something is shed. -/
theorem quad_shed_cap [IsStrictOrderedRing F] (hw : Sound w) (he : Events w) (hd : Orderly w) (hS : Shedding w buses sfx) (hr : RampsStay (w.gens.map (·.unit)) w.len)
    (hsign : ∀ b ∈ buses.getD w.buses, 0 < sign b) (hwt : ∀ t < w.len, 0 < weight w t) {other : List (Con WVar F)} (ho : ∀ r ∈ other, ∀ e ∈ r.terms, e.2 ≠ .const)
    (hbl : Blind (buses.getD w.buses) sfx other) {P : Program F} (hP : createModel (withShedding w buses sfx sign cost pNom) other = some P)
    {lam : Name → Nat → F} {mu : List F} (hs : Answered P x lam mu) (old : F) (b : Name) (hb : b ∈ buses.getD w.buses) (t : Nat) (ht : t < w.len) :
    (shedAt sfx x t b < pNom b → busPrice w old (lam b t) t ≤ cost b / sign b) ∧ (0 < shedAt sfx x t b → cost b / sign b ≤ busPrice w old (lam b t) t) := by
  obtain ⟨h1, h2⟩ := answered_slope (shed_sound hw hS) (shed_events he hS) (shed_orderly hd hS) ho hP hs
  have hr' : RampsStay ((tangent w x).gens.map (·.unit)) (tangent w x).len := by rw [genRamps_tan]; exact hr
  have hx : Plan (withShedding (tangent w x) buses sfx sign cost pNom) other x := by
    rw [← tan_shed]
    exact ⟨rules_tan.mpr h1.1, h1.2⟩
  have hl : Supports (withShedding (tangent w x) buses sfx sign cost pNom) other lam x := by
    intro z hz hzo
    rw [← tan_shed] at hz ⊢
    rw [worth_tan, worth_tan]
    exact h2 z (assets_tan.mp hz) hzo
  obtain ⟨h3, h4⟩ := shed_price (sound_tan hw) (shedding_tan hS x) hr' hbl hx hl b hb t ht
  have hp : busPrice w old (lam b t) t = lam b t / weight w t := by
    unfold busPrice
    rw [weight_eq]
    rfl
  change (_ → sign b * lam b t ≤ weight w t * cost b) at h3
  change (_ → weight w t * cost b ≤ sign b * lam b t) at h4
  rw [hp, div_le_div_iff₀ (hwt t ht) (hsign b hb), div_le_div_iff₀ (hsign b hb) (hwt t ht)]
  exact ⟨fun h => by linarith [h3 h, mul_comm (sign b) (lam b t), mul_comm (weight w t) (cost b)],
    fun h => by linarith [h4 h, mul_comm (sign b) (lam b t), mul_comm (weight w t) (cost b)]⟩

end

/-- However the assets can be run within their own rules: if load shedding can make up for what is missing, there is a plan with least costs, with prices. -/
theorem quad_shed {w : WNet ℝ} {buses : Option (List Name)} {sfx : Name} {sign cost pNom : Name → ℝ} (hw : Sound w) (he : Events w) (hq : Rising w) (hd : Orderly w)
    (ht : Thrifty w) (hS : Shedding w buses sfx) (hr : RampsStay (w.gens.map (·.unit)) w.len) (hsign : ∀ b ∈ buses.getD w.buses, 0 < sign b)
    (hc : ∀ b ∈ buses.getD w.buses, 0 ≤ cost b ∧ 0 ≤ pNom b) {other : List (Con WVar ℝ)} (ho : ∀ r ∈ other, ∀ e ∈ r.terms, e.2 ≠ .const)
    (hbl : Blind (buses.getD w.buses) sfx other) {P : Program ℝ} (hP : createModel (withShedding w buses sfx sign cost pNom) other = some P) {x : WVar → ℝ}
    (hx : AssetRules w x) (hox : Feasible x other) (hin : ∀ b ∈ buses.getD w.buses, ∀ t < w.len, 0 ≤ missing w x t b ∧ missing w x t b ≤ sign b * pNom b)
    (hout : ∀ b ∈ w.buses, b ∉ buses.getD w.buses → ∀ t < w.len, missing w x t b = 0) :
    ∃ y lam mu, Least (withShedding w buses sfx sign cost pNom) other (fun _ => True) y ∧ Answered P y lam mu := by
  obtain ⟨y, hy, -⟩ := shed_plan (cost := cost) (pNom := pNom) (sign := sign) hS hr hsign hbl hx hox hin hout
  exact quad_thrifty (shed_sound hw hS) (shed_events he hS) (shed_rising hq hS) (shed_orderly hd hS) ho hP (shed_thrifty ht hS hc) ⟨y, hy⟩

/-! ## Examples -/

def moreVal (v : WVar) : ℚ :=
  if v = .of "Generator" "cheap" (.op "p" 0) then 20 / 3 else if v = .of "Generator" "dear" (.op "p" 0) then 22 / 3 else 0

theorem moreSome : (createModel { bentNet with loads := more } []).isSome = true := by decide +kernel

theorem moreAnswered : Answered ((createModel { bentNet with loads := more } []).get moreSome) moreVal (fun _ _ => 52 / 3) [0, 0, 0, 0, 0] where
  len := by decide +kernel
  answer := {
    feasible := by decide +kernel
    upper := by decide +kernel
    lower := by decide +kernel
    stationary := stationary_of _ _ [.of "Generator" "cheap" (.op "p" 0), .of "Generator" "dear" (.op "p" 0), .const] (by decide +kernel) (by decide +kernel) (by decide +kernel)
    noGap := by decide +kernel }

theorem moreAt : MoreAt bentNet more "A" 0 where
  bus := by decide +kernel
  time := by decide +kernel
  more := by decide +kernel
  same := by
    intro b hb t ht h
    have hb : b = "A" := by simpa [bentNet, twoNet] using hb
    have ht : t = 0 := by
      have : bentNet.len = 1 := rfl
      omega
    exact absurd h (by simp [hb, ht])

/-- Two more: the price goes from 8 to 26/3. -/
example : busPrice bentNet 0 16 0 = 8 ∧ busPrice bentNet 0 (52 / 3) 0 = 26 / 3 := by decide +kernel

example := quad_price_follows bentSound bentEvents bentRising (orderly_single rfl rfl) (by simp) (Option.some_get bentSome).symm (by simp [more, bentNet, twoNet])
  (Option.some_get moreSome).symm bentAnswered moreAnswered moreAt (by decide +kernel) 0

/-- The cheap one costs three more. -/
def dearer : Statics.Rise ℚ := Statics.onMarginal "Generator" (fun g _ => if g = "cheap" then 3 else 0)

def dearerVal (v : WVar) : ℚ :=
  if v = .of "Generator" "cheap" (.op "p" 0) then 4 else if v = .of "Generator" "dear" (.op "p" 0) then 8 else 0

theorem dearerSome : (createModel (Statics.raise dearer bentNet) []).isSome = true := by decide +kernel

theorem dearerAnswered : Answered ((createModel (Statics.raise dearer bentNet) []).get dearerSome) dearerVal (fun _ _ => 18) [0, 0, 0, 0, 0] where
  len := by decide +kernel
  answer := {
    feasible := by decide +kernel
    upper := by decide +kernel
    lower := by decide +kernel
    stationary := stationary_of _ _ [.of "Generator" "cheap" (.op "p" 0), .of "Generator" "dear" (.op "p" 0), .const] (by decide +kernel) (by decide +kernel) (by decide +kernel)
    noGap := by decide +kernel }

theorem dearerEvents : Events (Statics.raise dearer bentNet) := by constructor <;> decide +kernel

theorem dearerLeast : Least (Statics.raise dearer bentNet) [] (fun _ => True) dearerVal :=
  (answered_iff (Statics.sound_raise bentSound) dearerEvents (rising_raise bentRising) (Statics.orderly_raise (orderly_single rfl rfl)) (by simp)
    (Option.some_get dearerSome).symm dearerVal).1 _ _ dearerAnswered

/-- It gives 4 instead of 6; the bound on the fall is met with equality. -/
example := quad_less_used bentSound bentRising (orderly_single rfl rfl) (by simp) (Option.some_get bentSome).symm (Option.some_get dearerSome).symm bentLeast dearerLeast

example : Statics.burden dearer bentNet dearerVal + 2 * squares bentNet (apart bentVal dearerVal) = Statics.burden dearer bentNet bentVal := by decide +kernel

example := quad_bounds bentSound bentRising (orderly_single rfl rfl) (by simp) (Option.some_get bentSome).symm (Option.some_get dearerSome).symm bentLeast dearerLeast

/-- A third of the rise. -/
def thirdVal (v : WVar) : ℚ :=
  if v = .of "Generator" "cheap" (.op "p" 0) then 16 / 3 else if v = .of "Generator" "dear" (.op "p" 0) then 20 / 3 else 0

theorem thirdSome : (createModel (Statics.raise (Statics.scaleRise (1 / 3) dearer) bentNet) []).isSome = true := by decide +kernel

theorem thirdAnswered : Answered ((createModel (Statics.raise (Statics.scaleRise (1 / 3) dearer) bentNet) []).get thirdSome) thirdVal (fun _ _ => 50 / 3) [0, 0, 0, 0, 0] where
  len := by decide +kernel
  answer := {
    feasible := by decide +kernel
    upper := by decide +kernel
    lower := by decide +kernel
    stationary := stationary_of _ _ [.of "Generator" "cheap" (.op "p" 0), .of "Generator" "dear" (.op "p" 0), .const] (by decide +kernel) (by decide +kernel) (by decide +kernel)
    noGap := by decide +kernel }

theorem thirdEvents : Events (Statics.raise (Statics.scaleRise (1 / 3) dearer) bentNet) := by constructor <;> decide +kernel

theorem thirdLeast : Least (Statics.raise (Statics.scaleRise (1 / 3) dearer) bentNet) [] (fun _ => True) thirdVal :=
  (answered_iff (Statics.sound_raise bentSound) thirdEvents (rising_raise bentRising) (Statics.orderly_raise (orderly_single rfl rfl)) (by simp)
    (Option.some_get thirdSome).symm thirdVal).1 _ _ thirdAnswered

example := quad_concave bentSound bentRising (orderly_single rfl rfl) (by simp) (Option.some_get bentSome).symm (Option.some_get dearerSome).symm
  (θ := 1 / 3) (by norm_num) (by norm_num) bentLeast dearerLeast thirdLeast

/-- Loads of 10 and 14 instead of 12. -/
example {z0 z1 : WVar → ℚ} (h0 : Plan { bentNet with loads := [⟨"A", -1, fun _ => 10, fun _ => true⟩] } [] z0)
    (h1 : Plan { bentNet with loads := [⟨"A", -1, fun _ => 14, fun _ => true⟩] } [] z1) :
    2 * allCost bentNet bentVal + (squares bentNet (apart bentVal z0) + squares bentNet (apart bentVal z1)) ≤ allCost bentNet z0 + allCost bentNet z1 := by
  have h := quad_loads_convex (θ := 1 / 2) bentSound bentEvents (orderly_single rfl rfl) (by simp) (Option.some_get bentSome).symm bentAnswered (by norm_num) (by norm_num)
    (by
      intro b hb t ht
      have hb : b = "A" := by simpa [bentNet, twoNet] using hb
      have ht : t = 0 := by
        have : bentNet.len = 1 := rfl
        omega
      subst hb ht
      decide +kernel) h0 h1
  linarith

/-- Shedding costs 7 per unit. -/
def bentShed : WNet ℚ := withShedding bentNet none " load shedding" (fun _ => 1) (fun _ => 7) (fun _ => 1000)

theorem bentShedding : Shedding bentNet none " load shedding" := by
  constructor <;> simp [bentNet, twoNet, flat, steep, cheap, dear] <;> decide +kernel

def bentShedVal (v : WVar) : ℚ :=
  if v = .of "Generator" "cheap" (.op "p" 0) then 5 else if v = .of "Generator" "dear" (.op "p" 0) then 4
  else if v = .of "Generator" "A load shedding" (.op "p" 0) then 3 else 0

theorem bentShedSome : (createModel bentShed []).isSome = true := by decide +kernel

theorem bentShedAnswered : Answered ((createModel bentShed []).get bentShedSome) bentShedVal (fun _ _ => 14) [0, 0, 0, 0, 0, 0, 0] where
  len := by decide +kernel
  answer := {
    feasible := by decide +kernel
    upper := by decide +kernel
    lower := by decide +kernel
    stationary := stationary_of _ _ [.of "Generator" "cheap" (.op "p" 0), .of "Generator" "dear" (.op "p" 0), .of "Generator" "A load shedding" (.op "p" 0), .const]
      (by decide +kernel) (by decide +kernel) (by decide +kernel)
    noGap := by decide +kernel }

/-- A quarter of the load is shed, and the price is 7 instead of 8. -/
example : busPrice bentNet 0 14 0 = 7 := by
  obtain ⟨h1, h2⟩ := quad_shed_cap bentSound bentEvents (orderly_single rfl rfl) bentShedding (Or.inl (by simp [bentNet, flat, steep, cheap, dear, exUnit']))
    (by norm_num) (by decide +kernel) (by simp) (by simp [Blind]) (Option.some_get bentShedSome).symm bentShedAnswered 0 "A" (by decide +kernel) 0 (by decide +kernel)
  have e : shedAt " load shedding" bentShedVal 0 "A" = 3 := by decide +kernel
  have a := h1 (by rw [e]; norm_num)
  have b := h2 (by rw [e]; norm_num)
  linarith

theorem steepShedding : Shedding steepNet none " load shedding" := by
  constructor <;> simp [steepNet, steepGen] <;> decide +kernel

noncomputable def steepShed : WNet ℝ := withShedding steepNet none " load shedding" (fun _ => 1) (fun _ => 7) (fun _ => 1000)

theorem steepShedSome : ∃ P, createModel steepShed [] = some P := by
  obtain ⟨own, h1⟩ : ∃ own, ownRows steepShed = some own := ⟨_, rfl⟩
  obtain ⟨bal, h2⟩ : ∃ bal, balanceRows steepShed = some bal := ⟨_, rfl⟩
  obtain ⟨o, h3⟩ : ∃ o, Objective.objective (objNet steepShed) = .ok o := by
    have hs : (Objective.costType (objNet steepShed) (·.spill) Objective.Asset.spillCost).isEmpty = true := by
      have hc : ∀ r ∈ Objective.table.filter (·.spill), (objNet steepShed).assets r.comp = [] := by
        intro r hr
        simp [Objective.table, List.filter] at hr
        subst hr
        rfl
      rw [List.isEmpty_iff]
      unfold Objective.costType
      rw [List.map_eq_nil_iff, List.filter_eq_nil_iff]
      intro r hr
      rw [hc r hr]
      simp [Objective.costly]
    have ha : ∀ {A : Type} (l m : List A), (l ++ m).isEmpty = (l.isEmpty && m.isEmpty) := fun l m => by cases l <;> rfl
    have hi : (Objective.investTerms (objNet steepShed)).isEmpty = false := rfl
    unfold Objective.objective
    rw [hs]
    simp only [Bool.true_or, if_true, ha, hi, Bool.and_false, Bool.false_and, Bool.false_eq_true, if_false]
    exact ⟨_, rfl⟩
  unfold createModel
  rw [h1, h2, h3]
  exact ⟨_, rfl⟩

/-- What the generator gives is enough for the load here, and shedding is allowed. -/
example : ∃ P, createModel steepShed [] = some P ∧ ∃ y lam mu, Least steepShed [] (fun _ => True) y ∧ Answered P y lam mu := by
  obtain ⟨P, hP⟩ := steepShedSome
  refine ⟨P, hP, ?_⟩
  refine quad_shed steepSound steepEvents steepRising (orderly_single rfl rfl) steepThrifty steepShedding (Or.inl (by simp [steepNet, steepGen, steepUnit])) (by norm_num)
    (by norm_num) (by simp) (by simp [Blind]) hP (x := fun _ => 4) (Rules.assets steepRules) (fun r hr => by cases hr) ?_ ?_
  · intro b hb t ht
    have h := steepRules.balance t ht b hb
    unfold missing
    rw [← h, sub_self]
    norm_num
  · intro b hb hn
    exact absurd hb hn

end Verif.Opt.Whole.Quad
