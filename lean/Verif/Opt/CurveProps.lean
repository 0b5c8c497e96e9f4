import Verif.Opt.AlternativesProps
import Verif.Opt.StaticsProps
import Verif.Opt.WeightingProps

/-!
# C151: the costs of the optimum along a line of loads and limits are convex, along a line of prices concave

Over the whole problem of `Whole.lean` and the rules of `RulesProps.lean`.
-/

namespace Verif.Opt.Whole.Curve

open Doc Snap Weights Statics

variable {F : Type} [Field F] [LinearOrder F]

/-! ## Specification -/

/-- Loads that change with a parameter, from the first series (at 0) by the second one for each unit. -/
def loadsAt (ls : List (LoadW F × (Nat → F))) (s : F) : List (LoadW F) := ls.map (fun l => { l.1 with pSet := fun t => l.1.pSet t + s * l.2 t })

/-- Limits whose right-hand sides change. -/
def limitsAt (cs : List (Con WVar F × F)) (s : F) : List (Con WVar F) := cs.map (fun c => { c.1 with rhs := c.1.rhs + s * c.2 })

def netAt (w : WNet F) (ls : List (LoadW F × (Nat → F))) (s : F) : WNet F := { w with loads := loadsAt ls s }

/-- The optimum for a value of the parameter costs `v`, where loads and limits change … -/
def CostsAt (w : WNet F) (ls : List (LoadW F × (Nat → F))) (cs : List (Con WVar F × F)) (D : (WVar → F) → Prop) (s v : F) : Prop :=
  ∃ P x, createModel (netAt w ls s) (limitsAt cs s) = some P ∧ SolverBest (netAt w ls s) P D x ∧ costOf (netAt w ls s) P x = v

/-- … and where costs change. -/
def CostsWith (w : WNet F) (d : Rise F) (other : List (Con WVar F)) (D : (WVar → F) → Prop) (s v : F) : Prop :=
  ∃ P x, createModel (raise (scaleRise s d) w) other = some P ∧ SolverBest (raise (scaleRise s d) w) P D x ∧ costOf (raise (scaleRise s d) w) P x = v

/-- Between two values of the parameter the optimum costs at most what the chord shows, whatever has to be whole. -/
def Convex (F : Type) [Field F] [LinearOrder F] : Prop := ∀ (w : WNet F) (ls : List (LoadW F × (Nat → F))) (cs : List (Con WVar F × F)) (D : (WVar → F) → Prop) (a b s u v v₁ v₂ : F),
  Sound (netAt w ls 0) → LinearCosts w → 0 ≤ a → 0 ≤ b → a + b = 1 → CostsAt w ls cs D s v₁ → CostsAt w ls cs D u v₂ → CostsAt w ls cs D (a * s + b * u) v → v ≤ a * v₁ + b * v₂

/-! ## Mixtures of plans -/

variable [IsStrictOrderedRing F]

/-- A row with another right-hand side. -/
theorem row_mix {V : Type} {a b : F} (ha : 0 ≤ a) (hb : 0 ≤ b) {x y : V → F} {ts : List (F × V)} {σ : Sense} {p q : F} (hx : (Con.mk ts σ p).holds x)
    (hy : (Con.mk ts σ q).holds y) : (Con.mk ts σ (a * p + b * q)).holds (fun v => a * x v + b * y v) := by
  have e : lin (fun v => a * x v + b * y v) ts = a * lin x ts + b * lin y ts := by
    clear hx hy
    induction ts with
    | nil => simp [lin]
    | cons e ts ih =>
      simp only [lin, List.map_cons, List.sum_cons] at ih ⊢
      rw [ih]
      ring
  unfold Con.holds at *
  cases σ <;> simp only [e] at hx hy ⊢
  · exact add_le_add (mul_le_mul_of_nonneg_left hx ha) (mul_le_mul_of_nonneg_left hy hb)
  · exact add_le_add (mul_le_mul_of_nonneg_left hx ha) (mul_le_mul_of_nonneg_left hy hb)
  · rw [hx, hy]

theorem same_mix {V : Type} {a b : F} (ha : 0 ≤ a) (hb : 0 ≤ b) (hab : a + b = 1) {x y : V → F} {c : Con V F} (hx : c.holds x) (hy : c.holds y) :
    c.holds (fun v => a * x v + b * y v) := by
  have := row_mix ha hb (ts := c.terms) (σ := c.sense) hx hy
  have e : a * c.rhs + b * c.rhs = c.rhs := by rw [← add_mul, hab, one_mul]
  rw [e] at this
  exact this

theorem assets_mix {w : WNet F} {a b : F} (ha : 0 ≤ a) (hb : 0 ≤ b) (hab : a + b = 1) {x y : WVar → F} (hx : AssetsHold w x) (hy : AssetsHold w y) :
    AssetsHold w (fun v => a * x v + b * y v) :=
  ⟨fun g hg rs e q hq => same_mix ha hb hab (hx.gens g hg rs e q hq) (hy.gens g hg rs e q hq),
    fun g hg rs e q hq => same_mix ha hb hab (hx.links g hg rs e q hq) (hy.links g hg rs e q hq),
    fun g hg rs e q hq => same_mix ha hb hab (hx.stores g hg rs e q hq) (hy.stores g hg rs e q hq),
    fun g hg rs e q hq => same_mix ha hb hab (hx.units g hg rs e q hq) (hy.units g hg rs e q hq),
    fun g hg rs e q hq => same_mix ha hb hab (hx.lines g hg rs e q hq) (hy.lines g hg rs e q hq),
    fun g hg rs e q hq => same_mix ha hb hab (hx.trafos g hg rs e q hq) (hy.trafos g hg rs e q hq)⟩

theorem supply_mix (w : WNet F) (a b : F) (x y : WVar → F) (t : Nat) (n : Name) :
    supply w (fun v => a * x v + b * y v) t n = a * supply w x t n + b * supply w y t n := by
  have hL := supply_linear w t n
  have := hL.map_add (a • atSnap x t) (b • atSnap y t)
  rw [hL.map_smul, hL.map_smul] at this
  exact this

omit [IsStrictOrderedRing F] in
theorem demand_at (w : WNet F) (ls : List (LoadW F × (Nat → F))) {a b s u : F} (hab : a + b = 1) (t : Nat) (n : Name) :
    demand (netAt w ls (a * s + b * u)) t n = a * demand (netAt w ls s) t n + b * demand (netAt w ls u) t n := by
  unfold demand netAt loadsAt
  simp only [List.map_map, Function.comp_def]
  induction ls with
  | nil => simp
  | cons l ls ih =>
    simp only [List.map_cons, List.sum_cons]
    rw [ih]
    have hb : b = 1 - a := by rw [← hab]; ring
    unfold atBus
    split
    · rw [hb]
      ring
    · ring

theorem sound_at {w : WNet F} {ls : List (LoadW F × (Nat → F))} {s : F} (hw : Sound (netAt w ls s)) (u : F) : Sound (netAt w ls u) := by
  refine { hw with loadBus := fun g hg => ?_ }
  obtain ⟨l, hl, rfl⟩ := List.mem_map.mp hg
  exact hw.loadBus { l.1 with pSet := fun t => l.1.pSet t + s * l.2 t } (List.mem_map.mpr ⟨l, hl, rfl⟩)

theorem cost_mix (w : WNet F) {a b : F} (x y : WVar → F) : totalCost w (fun v => a * x v + b * y v) = a * totalCost w x + b * totalCost w y := by
  have list : ∀ {A : Type} (l : List A) (f : A → (WVar → F) → F), (∀ g ∈ l, f g (fun v => a * x v + b * y v) = a * f g x + b * f g y) →
      (l.map (fun g => f g (fun v => a * x v + b * y v))).sum = a * (l.map (fun g => f g x)).sum + b * (l.map (fun g => f g y)).sum := by
    intro A l f h
    rw [List.map_congr_left h, List.sum_map_add, List.sum_map_mul_left, List.sum_map_mul_left]
  have h0 := list w.gens (genCost w) fun g _ => by
    unfold genCost
    rw [list (List.range w.len) (fun t z => if g.unit.active t then weight w t * g.costs.marginal t * z (.of "Generator" g.name (.op "p" t)) +
      if g.unit.committable then weight w t * g.costs.standBy t * z (.of "Generator" g.name (.op "status" t)) +
        g.unit.startUpCost * z (.of "Generator" g.name (.op "start_up" t)) + g.unit.shutDownCost * z (.of "Generator" g.name (.op "shut_down" t)) else 0 else 0)
      fun t _ => by split_ifs <;> ring]
    split_ifs <;> ring
  have h1 := list w.links (linkCost w) fun g _ => by
    unfold linkCost
    rw [list (List.range w.len) (fun t z => if g.unit.active t then weight w t * g.costs.marginal t * z (.of "Link" g.name (.op "p" t)) +
      if g.unit.committable then weight w t * g.costs.standBy t * z (.of "Link" g.name (.op "status" t)) +
        g.unit.startUpCost * z (.of "Link" g.name (.op "start_up" t)) + g.unit.shutDownCost * z (.of "Link" g.name (.op "shut_down" t)) else 0 else 0)
      fun t _ => by split_ifs <;> ring]
    split_ifs <;> ring
  have h2 := list w.stores (storeCost w) fun g _ => by
    unfold storeCost
    rw [list (List.range w.len) (fun t z => if g.storage.active t then weight w t * g.costs.marginal t * z (.of "Store" g.name (.op "p" t)) +
      weight w t * g.costs.marginalStorage t * z (.of "Store" g.name (.op "e" t)) else 0) fun t _ => by split_ifs <;> ring]
    split_ifs <;> ring
  have h3 := list w.units (unitCost w) fun g _ => by
    unfold unitCost
    rw [list (List.range w.len) (fun t z => if g.storage.active t then weight w t * g.costs.marginal t * z (.of "StorageUnit" g.name (.op "p_dispatch" t)) +
      weight w t * g.costs.marginalStorage t * z (.of "StorageUnit" g.name (.op "state_of_charge" t)) +
      if 0 < g.storage.inflow t then weight w t * g.costs.spillCost t * z (.of "StorageUnit" g.name (.op "spill" t)) else 0 else 0) fun t _ => by split_ifs <;> ring]
    split_ifs <;> ring
  have h4 := list w.lines (branchCost w "Line") fun g _ => by
    unfold branchCost
    split_ifs <;> ring
  have h5 := list w.trafos (branchCost w "Transformer") fun g _ => by
    unfold branchCost
    split_ifs <;> ring
  unfold totalCost
  rw [h0, h1, h2, h3, h4, h5]
  ring

omit [IsStrictOrderedRing F] in
theorem linear_at {w : WNet F} (hl : LinearCosts w) (ls : List (LoadW F × (Nat → F))) (s : F) : LinearCosts (netAt w ls s) :=
  ⟨hl.gens, hl.links, hl.stores, hl.units, hl.genEvents, hl.linkEvents⟩

/-- A mixture of plans for two values of the parameter is a plan for the mixture of the values. -/
theorem plan_mix {w : WNet F} {ls : List (LoadW F × (Nat → F))} {cs : List (Con WVar F × F)} (hw : Sound (netAt w ls 0)) {a b s u : F} (ha : 0 ≤ a) (hb : 0 ≤ b) (hab : a + b = 1)
    {P Q R : Program F} (hP : createModel (netAt w ls s) (limitsAt cs s) = some P) (hQ : createModel (netAt w ls u) (limitsAt cs u) = some Q)
    (hR : createModel (netAt w ls (a * s + b * u)) (limitsAt cs (a * s + b * u)) = some R) {x y : WVar → F} (hx : FeasibleIn P x) (hy : FeasibleIn Q y) :
    FeasibleIn R (fun v => a * x v + b * y v) := by
  obtain ⟨x1, x2, x3, x4⟩ := (feasible_iff (sound_at hw s) hP x).mp hx
  obtain ⟨y1, y2, y3, y4⟩ := (feasible_iff (sound_at hw u) hQ y).mp hy
  refine (feasible_iff (sound_at hw _) hR _).mpr ⟨?_, ?_, ?_, ?_⟩
  · have h1 : AssetsHold (netAt w ls (a * s + b * u)) x := ⟨x1.gens, x1.links, x1.stores, x1.units, x1.lines, x1.trafos⟩
    have h2 : AssetsHold (netAt w ls (a * s + b * u)) y := ⟨y1.gens, y1.links, y1.stores, y1.units, y1.lines, y1.trafos⟩
    exact assets_mix ha hb hab h1 h2
  · intro t ht n hn
    have e1 := x2 t ht n hn
    have e2 := y2 t ht n hn
    rw [supply_rule, demand_rule] at e1 e2
    rw [supply_rule (netAt w ls (a * s + b * u)) (fun v => a * x v + b * y v), demand_rule, demand_at w ls hab, ← e1, ← e2, supply_mix]
    rfl
  · have e : ∀ r : F, Objective.constant (objNet (netAt w ls r)) = Objective.constant (objNet w) := fun _ => rfl
    rw [e] at x3 y3 ⊢
    rw [x3, y3, ← add_mul, hab, one_mul]
  · intro c hc
    obtain ⟨q, hq, rfl⟩ := List.mem_map.mp hc
    have h1 := x4 _ (List.mem_map.mpr ⟨q, hq, rfl⟩)
    have h2 := y4 _ (List.mem_map.mpr ⟨q, hq, rfl⟩)
    have h3 := row_mix ha hb h1 h2
    have e : a * (q.1.rhs + s * q.2) + b * (q.1.rhs + u * q.2) = q.1.rhs + (a * s + b * u) * q.2 := by linear_combination q.1.rhs * hab
    rw [e] at h3
    exact h3

/-! ## Loads and limits -/

section curve
variable {w : WNet F} {ls : List (LoadW F × (Nat → F))} {cs : List (Con WVar F × F)} (hw : Sound (netAt w ls 0)) (hl : LinearCosts w) {D : (WVar → F) → Prop} (hD : Alternatives.Spec.Divisible D)
include hw hl hD

/-- **C151, in part** (see `not_convex`). Where nothing has to be whole, costs are convex in the parameter of loads and limits. -/
theorem convex_partial {a b s u v v₁ v₂ : F} (ha : 0 ≤ a) (hb : 0 ≤ b) (hab : a + b = 1) (h₁ : CostsAt w ls cs D s v₁) (h₂ : CostsAt w ls cs D u v₂)
    (h : CostsAt w ls cs D (a * s + b * u) v) : v ≤ a * v₁ + b * v₂ := by
  obtain ⟨P, x, hP, hx, rfl⟩ := h₁
  obtain ⟨Q, y, hQ, hy, rfl⟩ := h₂
  obtain ⟨R, z, hR, hz, rfl⟩ := h
  have hm := plan_mix hw ha hb hab hP hQ hR hx.1 hy.1
  have := hz.2.2 _ hm (hD x y a b hx.2.1 hy.2.1 ha hb hab)
  rw [cost_total (linear_at hl ls _) hR _ hm, cost_mix] at this
  rw [cost_total (linear_at hl ls _) hP _ hx.1, cost_total (linear_at hl ls _) hQ _ hy.1]
  exact this

/-- Each further step costs at least as much as the step before it, for a unit of the parameter. -/
theorem steeper_partial {s₁ s₂ s₃ v₁ v₂ v₃ : F} (h12 : s₁ < s₂) (h23 : s₂ < s₃) (h₁ : CostsAt w ls cs D s₁ v₁) (h₂ : CostsAt w ls cs D s₂ v₂) (h₃ : CostsAt w ls cs D s₃ v₃) :
    (v₂ - v₁) / (s₂ - s₁) ≤ (v₃ - v₂) / (s₃ - s₂) := by
  have p1 : 0 < s₂ - s₁ := sub_pos.mpr h12
  have p2 : 0 < s₃ - s₂ := sub_pos.mpr h23
  have p3 : 0 < s₃ - s₁ := sub_pos.mpr (h12.trans h23)
  have e : (s₃ - s₂) / (s₃ - s₁) * s₁ + (s₂ - s₁) / (s₃ - s₁) * s₃ = s₂ := by
    field_simp
    ring
  have e1 : (s₃ - s₂) / (s₃ - s₁) + (s₂ - s₁) / (s₃ - s₁) = 1 := by
    field_simp
    ring
  rw [← e] at h₂
  have := convex_partial hw hl hD (div_pos p2 p3).le (div_pos p1 p3).le e1 h₁ h₃ h₂
  rw [div_mul_eq_mul_div, div_mul_eq_mul_div, ← add_div, le_div_iff₀ p3] at this
  rw [div_le_div_iff₀ p1 p2]
  linarith

end curve

/-! ## Costs -/

/-- **C151.** Costs of the optimum are concave in the parameter of costs, also where something has to be whole. -/
theorem concave {w : WNet F} (hw : Sound w) (hl : LinearCosts w) (ho : Orderly w) {d : Rise F} {other : List (Con WVar F)} (hc : ∀ r ∈ other, ∀ e ∈ r.terms, e.2 ≠ .const)
    {D : (WVar → F) → Prop} (hD : ∀ k x, D x → D (setConst k x)) {a b s u v v₁ v₂ : F} (ha : 0 ≤ a) (hb : 0 ≤ b) (hab : a + b = 1) (h₁ : CostsWith w d other D s v₁)
    (h₂ : CostsWith w d other D u v₂) (h : CostsWith w d other D (a * s + b * u) v) : a * v₁ + b * v₂ ≤ v := by
  obtain ⟨P, x, hP, hx, rfl⟩ := h₁
  obtain ⟨Q, y, hQ, hy, rfl⟩ := h₂
  obtain ⟨R, z, hR, hz, rfl⟩ := h
  obtain ⟨⟨a1, a2, a3, a4⟩, a5⟩ := (best_iff (sound_raise hw) (linear_raise hl) (orderly_raise ho) hc hP D hD x).1 hx
  obtain ⟨⟨b1, b2, b3, b4⟩, b5⟩ := (best_iff (sound_raise hw) (linear_raise hl) (orderly_raise ho) hc hQ D hD y).1 hy
  obtain ⟨⟨c1, c2, c3, c4⟩, c5⟩ := (best_iff (sound_raise hw) (linear_raise hl) (orderly_raise ho) hc hR D hD z).1 hz
  have e1 := a4 z (rules_raise.mpr (rules_raise.mp c1)) c2 c3
  have e2 := b4 z (rules_raise.mpr (rules_raise.mp c1)) c2 c3
  rw [a5, b5, c5]
  have e3 : totalCost (raise (scaleRise (a * s + b * u) d) w) z = a * totalCost (raise (scaleRise s d) w) z + b * totalCost (raise (scaleRise u d) w) z := by
    simp only [cost_raise, burden_scale]
    linear_combination -totalCost w z * hab
  rw [e3]
  exact add_le_add (mul_le_mul_of_nonneg_left e1 ha) (mul_le_mul_of_nonneg_left e2 hb)

/-! ## Examples -/

open Emissions Alternatives

/-- At most 12 of coal, and less and less. -/
def lessCoal : List (Con WVar ℚ × ℚ) := [(⟨coal, .le, 12⟩, -1)]

def mixLoad : List (LoadW ℚ × (Nat → ℚ)) := [(⟨"A", -1, fun _ => 10, fun _ => true⟩, fun _ => 0)]

theorem mixSound : Sound (netAt mixNet mixLoad 0) := by constructor <;> decide +kernel

theorem less_some : (createModel (netAt mixNet mixLoad 0) (limitsAt lessCoal 0)).isSome = true ∧ (createModel (netAt mixNet mixLoad 2) (limitsAt lessCoal 2)).isSome = true ∧
    (createModel (netAt mixNet mixLoad 4) (limitsAt lessCoal 4)).isSome = true := by decide +kernel

theorem less0 : Solved ((createModel (netAt mixNet mixLoad 0) (limitsAt lessCoal 0)).get less_some.1) (mixVal 10 0) (fun _ _ => 9) [0, -6, 0, 0, 0, 0] where
  len := by decide +kernel
  answer := {
    feasible := by decide +kernel
    upper := by decide +kernel
    lower := by decide +kernel
    stationary := stationary_of _ _ mixVars (by decide +kernel) (by decide +kernel) (by decide +kernel)
    noGap := by decide +kernel }

theorem less2 : Solved ((createModel (netAt mixNet mixLoad 2) (limitsAt lessCoal 2)).get less_some.2.1) (mixVal 10 0) (fun _ _ => 9) [0, -6, 0, 0, 0, 0] where
  len := by decide +kernel
  answer := {
    feasible := by decide +kernel
    upper := by decide +kernel
    lower := by decide +kernel
    stationary := stationary_of _ _ mixVars (by decide +kernel) (by decide +kernel) (by decide +kernel)
    noGap := by decide +kernel }

theorem less4 : Solved ((createModel (netAt mixNet mixLoad 4) (limitsAt lessCoal 4)).get less_some.2.2) (mixVal 8 2) (fun _ _ => 9) [0, 0, 0, 0, 0, -6] where
  len := by decide +kernel
  answer := {
    feasible := by decide +kernel
    upper := by decide +kernel
    lower := by decide +kernel
    stationary := stationary_of _ _ mixVars (by decide +kernel) (by decide +kernel) (by decide +kernel)
    noGap := by decide +kernel }

/-- The first 2 less of coal cost nothing, the next 2 cost 12. -/
example : ((30 : ℚ) - 30) / (2 - 0) ≤ (42 - 30) / (4 - 2) :=
  steeper_partial mixSound mixLinear (cs := lessCoal) (D := fun _ => True) (fun _ _ _ _ _ _ _ _ _ => trivial) (by norm_num) (by norm_num)
    ⟨_, _, (Option.some_get less_some.1).symm, best_of_solved less0 _, by decide +kernel⟩ ⟨_, _, (Option.some_get less_some.2.1).symm, best_of_solved less2 _, by decide +kernel⟩
    ⟨_, _, (Option.some_get less_some.2.2).symm, best_of_solved less4 _, by decide +kernel⟩

/-- Coal becomes dearer. -/
def coalTax : Rise ℚ := onMarginal "Generator" (fun a _ => if a = "coal" then 1 else 0)

theorem tax_some : (createModel (raise (scaleRise 0 coalTax) mixNet) []).isSome = true ∧ (createModel (raise (scaleRise 2 coalTax) mixNet) []).isSome = true ∧
    (createModel (raise (scaleRise 4 coalTax) mixNet) []).isSome = true := by decide +kernel

theorem tax0 : Solved ((createModel (raise (scaleRise 0 coalTax) mixNet) []).get tax_some.1) (mixVal 10 0) (fun _ _ => 9) [0, -6, 0, 0, 0] where
  len := by decide +kernel
  answer := {
    feasible := by decide +kernel
    upper := by decide +kernel
    lower := by decide +kernel
    stationary := stationary_of _ _ mixVars (by decide +kernel) (by decide +kernel) (by decide +kernel)
    noGap := by decide +kernel }

theorem tax2 : Solved ((createModel (raise (scaleRise 2 coalTax) mixNet) []).get tax_some.2.1) (mixVal 0 10) (fun _ _ => 9) [0, 0, 0, 0, 0] where
  len := by decide +kernel
  answer := {
    feasible := by decide +kernel
    upper := by decide +kernel
    lower := by decide +kernel
    stationary := stationary_of _ _ mixVars (by decide +kernel) (by decide +kernel) (by decide +kernel)
    noGap := by decide +kernel }

theorem tax4 : Solved ((createModel (raise (scaleRise 4 coalTax) mixNet) []).get tax_some.2.2) (mixVal 0 10) (fun _ _ => 9) [6, 0, 0, 0, 0] where
  len := by decide +kernel
  answer := {
    feasible := by decide +kernel
    upper := by decide +kernel
    lower := by decide +kernel
    stationary := stationary_of _ _ mixVars (by decide +kernel) (by decide +kernel) (by decide +kernel)
    noGap := by decide +kernel }

/-- The first half of the tax raises costs from 30 to 90, the second by nothing. -/
example : (1 / 2 : ℚ) * 30 + 1 / 2 * 90 ≤ 90 :=
  concave (w := mixNet) (d := coalTax) (s := 0) (u := 4) (by constructor <;> decide +kernel) mixLinear (orderly_single rfl rfl) (by simp) (D := fun _ => True) (fun _ _ _ => trivial) (by norm_num) (by norm_num) (by norm_num)
    ⟨_, _, (Option.some_get tax_some.1).symm, best_of_solved tax0 _, by decide +kernel⟩ ⟨_, _, (Option.some_get tax_some.2.2).symm, best_of_solved tax4 _, by decide +kernel⟩
    (by
      rw [show (1 / 2 : ℚ) * 0 + 1 / 2 * 4 = 2 by norm_num]
      exact ⟨_, _, (Option.some_get tax_some.2.1).symm, best_of_solved tax2 _, by decide +kernel⟩)

/-! ## Whole modules -/

/-- A plant that is built in modules of 1 at costs of 2. -/
def modPlant : GenW ℚ := ⟨"plant", "A", 1, rollUnit none 0 |> fun u => { u with extendable := true }, { exInvest 2 with nomMod := 1 }, exCosts 0 0, fun _ => none, none, none⟩

def modNet : WNet ℚ := { mixNet with gens := [modPlant], sw := fun _ => 1, gw := fun _ => 1 }

/-- A load of 0, and more. -/
def modLoad : List (LoadW ℚ × (Nat → ℚ)) := [(⟨"A", -1, fun _ => 0, fun _ => true⟩, fun _ => 1)]

def WholeModules (x : WVar → ℚ) : Prop := ∃ k : Int, x (.of "Generator" "plant" .mod) = k

def modVal (mods p : ℚ) : WVar → ℚ
  | .of _ _ (.op _ 0) => p
  | .of _ _ .cap => mods
  | .of _ _ .mod => mods
  | _ => 0

theorem mod_some : (createModel (netAt modNet modLoad 0) (limitsAt [] 0)).isSome = true ∧ (createModel (netAt modNet modLoad 1) (limitsAt [] 1)).isSome = true ∧
    (createModel (netAt modNet modLoad (1 / 2)) (limitsAt [] (1 / 2))).isSome = true := by decide +kernel

theorem modSound : Sound (netAt modNet modLoad 0) := by constructor <;> decide +kernel

theorem modLinear : LinearCosts modNet := by
  constructor
  · intro g hg t
    simp only [modNet, List.mem_cons, List.not_mem_nil, or_false] at hg
    subst hg
    rfl
  · intro g hg; simp [modNet, mixNet] at hg
  · intro g hg; simp [modNet, mixNet] at hg
  · intro g hg; simp [modNet, mixNet] at hg
  · decide +kernel
  · decide +kernel

/-- Twice the number of modules, which is at least the load. -/
theorem mod_cost {s : ℚ} {P : Program ℚ} (hP : createModel (netAt modNet modLoad s) (limitsAt [] s) = some P) {z : WVar → ℚ} (hz : FeasibleIn P z) :
    costOf (netAt modNet modLoad s) P z = 2 * z (.of "Generator" "plant" .mod) ∧ s ≤ z (.of "Generator" "plant" .mod) ∧ 0 ≤ z (.of "Generator" "plant" .mod) := by
  have hl : LinearCosts (netAt modNet modLoad s) := linear_at modLinear modLoad s
  rw [cost_total hl hP z hz]
  obtain ⟨r, -, -⟩ := (rules_iff (sound_at modSound s) (orderly_single rfl rfl) hP z).mp hz
  have g := r.gens modPlant (by simp [netAt, modNet])
  have m := g.cap.modules rfl (by decide +kernel)
  have e := (g.unit.extendable rfl 0 Nat.one_pos rfl).2
  have b := r.balance 0 Nat.one_pos "A" (List.mem_singleton.mpr rfl)
  simp [totalCost, genCost, netAt, modNet, mixNet, exNet, loadsAt, modLoad, modPlant, rollUnit, exUnit', exCosts, exInvest, weight, supply, demand, atBus, lifeWeight] at m e b ⊢
  refine ⟨?_, ?_, m.1⟩
  · linarith [m.2]
  · linarith [m.2]

theorem mod_best {s k : ℚ} {P : Program ℚ} (hP : createModel (netAt modNet modLoad s) (limitsAt [] s) = some P) (hf : FeasibleIn P (modVal k s)) (hk : ∃ i : Int, k = i)
    (h : ∀ i : Int, s ≤ i → 0 ≤ (i : ℚ) → k ≤ i) : CostsAt modNet modLoad [] WholeModules s (2 * k) := by
  refine ⟨P, modVal k s, hP, ⟨hf, hk, fun z hz hd => ?_⟩, (mod_cost hP hf).1⟩
  obtain ⟨i, hi⟩ := hd
  obtain ⟨h1, h2, h3⟩ := mod_cost hP hz
  rw [(mod_cost hP hf).1, h1, hi]
  rw [hi] at h2 h3
  exact mul_le_mul_of_nonneg_left (h i h2 h3) (by norm_num)

/-- **C151, not met.** Half a unit of load needs a whole module: costs of 2, on the chord 1. -/
theorem not_convex : ¬ Convex ℚ := by
  intro hc
  have := hc modNet modLoad [] WholeModules (1 / 2) (1 / 2) 0 1 (2 * 1) (2 * 0) (2 * 1) modSound modLinear (by norm_num) (by norm_num) (by norm_num)
    (mod_best (Option.some_get mod_some.1).symm (by unfold FeasibleIn; decide +kernel) ⟨0, by norm_num⟩ (fun i _ h => h))
    (mod_best (Option.some_get mod_some.2.1).symm (by unfold FeasibleIn; decide +kernel) ⟨1, by norm_num⟩ (fun i h _ => h))
    (by
      rw [show (1 / 2 : ℚ) * 0 + 1 / 2 * 1 = 1 / 2 by norm_num]
      refine mod_best (Option.some_get mod_some.2.2).symm (by unfold FeasibleIn; decide +kernel) ⟨1, by norm_num⟩ (fun i h _ => ?_)
      by_contra hn
      have h1 : i < 1 := by exact_mod_cast not_le.mp hn
      have h2 : (i : ℚ) ≤ 0 := by exact_mod_cast Int.lt_add_one_iff.mp h1
      linarith)
  norm_num at this

end Verif.Opt.Whole.Curve
