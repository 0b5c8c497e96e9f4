import Verif.Opt.Wolfe
import Verif.Opt.QuadraticProps

/-!
# With quadratic costs an optimum exists too (C160)

C158 says what holds for an optimum of the problem with `marginal_cost_quadratic` (`pypsa/optimization/optimize.py` 136-151).  Here it is shown that there is one, over the real
numbers, whenever some plan obeys the rules and costs are limited below; the program is the one `createModel` builds (208-325, see `Whole.lean`).
-/

namespace Verif.Opt.Farkas

variable {V : Type} [DecidableEq V]

/-- A problem with squares that has a point and is bounded from below has an optimum. -/
theorem squares_optimum {obj sq : List (ℝ × V)} {rows : List (Con V ℝ)} (hq : ∀ e ∈ sq, 0 ≤ e.1) (h0 : ∃ x, Feasible x rows) {δ : ℝ}
    (h : ∀ x, Feasible x rows → δ ≤ lin x obj + (sq.map (fun e => e.1 * (x e.2 * x e.2))).sum) :
    ∃ x, Feasible x rows ∧ ∀ y, Feasible y rows →
      lin x obj + (sq.map (fun e => e.1 * (x e.2 * x e.2))).sum ≤ lin y obj + (sq.map (fun e => e.1 * (y e.2 * y e.2))).sum := by
  have hl : ∀ x : V → ℝ, lin x obj = ∑ v ∈ vars (obj ++ sq) rows, coef obj v * x v := fun x =>
    lin_coef x obj _ (fun e he => mem_vars_obj e (List.mem_append_left _ he))
  have hs : ∀ x : V → ℝ, (sq.map (fun e => e.1 * (x e.2 * x e.2))).sum = ∑ v ∈ vars (obj ++ sq) rows, coef sq v * x v ^ 2 := fun x => by
    have := lin_coef (fun v => x v ^ 2) sq (vars (obj ++ sq) rows) (fun e he => mem_vars_obj e (List.mem_append_right _ he))
    rw [← this]
    unfold lin
    simp only [pow_two]
  simp only [feasible_ineqs (obj := obj ++ sq), hl, hs] at h0 h ⊢
  refine attained_squares (fun v _ => ?_) h0 h
  unfold coef
  refine List.sum_nonneg (fun y hy => ?_)
  obtain ⟨e, he, rfl⟩ := List.mem_map.mp hy
  split
  · exact hq e he
  · exact le_rfl

end Verif.Opt.Farkas

namespace Verif.Opt.Whole.Quad

open Doc Exist

/-! ## The coefficients of the squares -/

theorem squares_coef {F : Type} [Field F] [LinearOrder F] [IsStrictOrderedRing F] {w : WNet F} (hq : Rising w) {other : List (Con WVar F)} {P : Program F}
    (hP : createModel w other = some P) : ∀ e ∈ P.quadratic, 0 ≤ e.1 := by
  obtain ⟨own, bal, o, -, -, h3, -, h5, -, -⟩ := createModel_parts hP
  intro e he
  rw [h5] at he
  obtain ⟨e, hm, rfl⟩ := List.mem_map.mp he
  have ho : o.quadratic = (Objective.costType (objNet w) (·.quadratic) Objective.Asset.quadratic).flatten := by
    unfold Objective.objective at h3
    split at h3
    · simp only at h3
      split at h3
      · cases h3
      · injection h3 with h3
        rw [← h3]
    · cases h3
  rw [ho] at hm
  obtain ⟨l, hl, he⟩ := List.mem_flatten.mp hm
  unfold Objective.costType at hl
  obtain ⟨r, hr, rfl⟩ := List.mem_map.mp hl
  have hr := (List.mem_filter.mp hr).1
  unfold Objective.opTerms at he
  obtain ⟨a, ha, he⟩ := List.mem_flatMap.mp he
  obtain ⟨t, ht, rfl⟩ := List.mem_map.mp he
  have htl : t < w.len := List.mem_range.mp (List.mem_filter.mp ht).1
  have ha := (List.mem_filter.mp ha).1
  have hwt : 0 ≤ Objective.weighting (objNet w) t := by
    have := hq.weights t htl
    unfold weight at this
    unfold Objective.weighting objNet
    cases hp : w.periods <;> simp only [hp] at this ⊢ <;> exact this
  have hz : 0 ≤ a.quadratic t := by
    have hc : r.comp = "Generator" ∨ r.comp = "Link" ∨ r.comp = "Store" ∨ r.comp = "StorageUnit" := by
      simp [Objective.table, List.filter] at hr
      rcases hr with rfl | rfl | rfl | rfl <;> simp
    rcases hc with hc | hc | hc | hc <;> rw [hc] at ha
    · rw [assets_gen] at ha
      obtain ⟨g, hg, rfl⟩ := List.mem_map.mp ha
      exact hq.gens g hg t htl
    · rw [assets_link] at ha
      obtain ⟨g, hg, rfl⟩ := List.mem_map.mp ha
      exact hq.links g hg t htl
    · rw [assets_store] at ha
      obtain ⟨g, hg, rfl⟩ := List.mem_map.mp ha
      exact hq.stores g hg t htl
    · rw [assets_unit] at ha
      obtain ⟨g, hg, rfl⟩ := List.mem_map.mp ha
      exact hq.units g hg t htl
  exact mul_nonneg hz hwt

/-! ## Plans -/

section
variable {w : WNet ℝ} (hw : Sound w) (he : Events w) (hq : Rising w) (hd : Orderly w) {other : List (Con WVar ℝ)}
  (ho : ∀ r ∈ other, ∀ e ∈ r.terms, e.2 ≠ .const) {P : Program ℝ} (hP : createModel w other = some P)
include hw he hq hd ho hP

/-- If there is a plan and costs are limited below, then some plan has least costs. -/
theorem least_exists (h0 : ∃ x, Plan w other x) {δ : ℝ} (h : ∀ x, Plan w other x → δ ≤ allCost w x) : ∃ x, Least w other (fun _ => True) x := by
  obtain ⟨x0, h1, h2⟩ := h0
  have fs : FeasibleIn P (setConst (Objective.constant (objNet w)) x0) :=
    (rules_iff hw hd hP _).mpr ⟨rules_const _ h1, other_const ho _ h2, rfl⟩
  obtain ⟨x, hx, hm⟩ := Farkas.squares_optimum (obj := P.linear) (sq := P.quadratic) (rows := P.balance.map (·.2) ++ P.rows)
    (δ := δ - Objective.constant (objNet w)) (squares_coef hq hP) ⟨_, (feasibleIn_append P _).mp fs⟩ (fun z hz => by
      have hz' := (feasibleIn_append P z).mpr hz
      obtain ⟨r1, r2, -⟩ := (rules_iff hw hd hP z).mp hz'
      have hc := value_cost he hP z hz'.1
      have := h z ⟨r1, r2⟩
      rw [← hc] at this
      unfold value at this
      linarith)
  exact ⟨x, (solver_least hw he hd ho hP (fun _ => True) (fun _ _ _ => trivial) x).1
    ⟨(feasibleIn_append P x).mpr hx, trivial, fun z hz _ => hm z ((feasibleIn_append P z).mp hz)⟩⟩

/-- There is no plan, or costs can be as low as one likes, or the solver has an answer: a plan with least costs and prices for it. -/
theorem quad_three_ways : (¬ ∃ x, Plan w other x) ∨ (∀ δ : ℝ, ∃ x, Plan w other x ∧ allCost w x < δ) ∨
    ∃ x lam mu, Least w other (fun _ => True) x ∧ Answered P x lam mu := by
  by_cases h0 : ∃ x, Plan w other x
  · by_cases h : ∃ δ : ℝ, ∀ x, Plan w other x → δ ≤ allCost w x
    · obtain ⟨δ, h⟩ := h
      obtain ⟨x, hx⟩ := least_exists hw he hq hd ho hP h0 h
      obtain ⟨lam, mu, hs⟩ := (answered_iff hw he hq hd ho hP x).2 hx
      exact Or.inr (Or.inr ⟨_, lam, mu, (answered_iff hw he hq hd ho hP _).1 lam mu hs, hs⟩)
    · push Not at h
      exact Or.inr (Or.inl h)
  · exact Or.inl h0

/-- If nothing is paid for being built or run, one plan is enough. -/
theorem quad_thrifty (ht : Thrifty w) (h0 : ∃ x, Plan w other x) : ∃ x lam mu, Least w other (fun _ => True) x ∧ Answered P x lam mu := by
  have ht0 : Thrifty (tangent w (fun _ => 0)) := by
    refine ⟨ht.weights, ?_, ?_, ?_, ?_, ?_, ?_, ?_, ?_, ht.lineSize, ht.trafoSize⟩
    · intro g hg
      obtain ⟨g, hm, rfl⟩ := List.mem_map.mp hg
      exact ht.genSize g hm
    · intro g hg t htt
      obtain ⟨g, hm, rfl⟩ := List.mem_map.mp hg
      have := ht.genRun g hm t htt
      exact ⟨this.1, by simpa [gTan, slope] using this.2.1, this.2.2⟩
    · intro g hg
      obtain ⟨g, hm, rfl⟩ := List.mem_map.mp hg
      exact ht.linkSize g hm
    · intro g hg t htt
      obtain ⟨g, hm, rfl⟩ := List.mem_map.mp hg
      have := ht.linkRun g hm t htt
      exact ⟨this.1, by simpa [lTan, slope] using this.2.1, this.2.2⟩
    · intro g hg
      obtain ⟨g, hm, rfl⟩ := List.mem_map.mp hg
      exact ht.storeSize g hm
    · intro g hg t htt
      obtain ⟨g, hm, rfl⟩ := List.mem_map.mp hg
      have := ht.storeRun g hm t htt
      exact ⟨this.1, by simpa [sTan, slope] using this.2.1, this.2.2⟩
    · intro g hg
      obtain ⟨g, hm, rfl⟩ := List.mem_map.mp hg
      exact ht.unitSize g hm
    · intro g hg t htt
      obtain ⟨g, hm, rfl⟩ := List.mem_map.mp hg
      have := ht.unitRun g hm t htt
      exact ⟨by simpa [uTan, slope] using this.1, this.2.1, this.2.2⟩
  have hb : ∀ x, Plan w other x → 0 ≤ allCost w x := by
    intro x hx
    have h1 := cost_nonneg (linear_tan he) ht0 (rules_tan.mpr hx.1)
    have h2 : form w (fun _ => 0) x = 0 := by simp [form, pairing]
    rw [cost_tan, h2] at h1
    have h3 := squares_nonneg hq x
    unfold allCost
    linarith
  rcases quad_three_ways hw he hq hd ho hP with h | h | h
  · exact absurd h0 h
  · obtain ⟨x, hx, hl⟩ := h 0
    exact absurd (hb x hx) (not_le.mpr hl)
  · exact h

end

/-- A plan exists and costs are limited below exactly if there is an equilibrium: a plan, and prices at which no asset on its own could earn more. -/
theorem equilibrium_exists {w : WNet ℝ} (hw : Sound w) (he : Events w) (hq : Rising w) (hd : Orderly w) {P : Program ℝ} (hP : createModel w [] = some P) :
    ((∃ x, Rules w x) ∧ ∃ δ : ℝ, ∀ x, Rules w x → δ ≤ allCost w x) ↔ ∃ x, Rules w x ∧ ∃ lam : Name → Nat → ℝ, Competes w lam x := by
  have hp : ∀ x, Plan w [] x ↔ Rules w x := fun x => ⟨fun h => h.1, fun h => ⟨h, fun r hr => by cases hr⟩⟩
  constructor
  · rintro ⟨⟨x0, h0⟩, δ, h⟩
    obtain ⟨x, hx⟩ := least_exists hw he hq hd (other := []) (by simp) hP ⟨x0, (hp x0).mpr h0⟩ (fun x hx => h x ((hp x).mp hx))
    exact ⟨x, (quad_welfare hw he hq hd hP x).mp hx⟩
  · rintro ⟨x, hx⟩
    have := (quad_welfare hw he hq hd hP x).mpr hx
    exact ⟨⟨x, hx.1⟩, _, fun z hz => this.2.2.2 z hz (fun r hr => by cases hr) trivial⟩

/-! ## Example: one generator over the real numbers, whose output costs its square -/

noncomputable def steepUnit : Unit' ℝ where
  nom := 0
  extendable := true
  committable := false
  active := fun _ => true
  minPu := fun _ => 0
  maxPu := fun _ => 1
  minUp := 0
  minDown := 0
  upBefore := 0
  downBefore := 0
  rampUp := fun _ => none
  rampDown := fun _ => none
  rampUpStatic := none
  rampDownStatic := none
  rampStart := 1
  rampShut := 1
  startUpCost := 0
  shutDownCost := 0
  histStatus := []
  histP := 0

noncomputable def steepGen : GenW ℝ :=
  ⟨"g", "A", 1, steepUnit, ⟨0, none, 0, none, 1, fun _ => true, true⟩, ⟨fun _ => 0, fun _ => 1, fun _ => 0, fun _ => 0, fun _ => 0⟩, fun _ => none, none, none⟩

noncomputable def steepNet : WNet ℝ where
  len := 1
  multi := false
  period := fun _ => 0
  rolling := false
  linearized := false
  tangents := 0
  threshold := 45
  sw := fun _ => 1
  gw := fun _ => 1
  periods := none
  buses := ["A"]
  gens := [steepGen]
  links := []
  stores := []
  units := []
  lines := []
  trafos := []
  loads := [⟨"A", -1, fun _ => 4, fun _ => true⟩]

theorem steepSome : ∃ P, createModel steepNet [] = some P := by
  obtain ⟨own, h1⟩ : ∃ own, ownRows steepNet = some own := ⟨_, rfl⟩
  obtain ⟨bal, h2⟩ : ∃ bal, balanceRows steepNet = some bal := ⟨_, rfl⟩
  obtain ⟨o, h3⟩ : ∃ o, Objective.objective (objNet steepNet) = .ok o := by
    have hs : (Objective.costType (objNet steepNet) (·.spill) Objective.Asset.spillCost).isEmpty = true := by
      have hc : ∀ r ∈ Objective.table.filter (·.spill), (objNet steepNet).assets r.comp = [] := by
        intro r hr
        simp [Objective.table, List.filter] at hr
        subst hr
        rfl
      rw [List.isEmpty_iff]
      unfold Objective.costType
      rw [List.map_eq_nil_iff, List.filter_eq_nil_iff]
      intro r hr
      rw [hc r hr]
      simp [Objective.costly]
    have ha : ∀ {A : Type} (l m : List A), (l ++ m).isEmpty = (l.isEmpty && m.isEmpty) := fun l m => by cases l <;> rfl
    have hi : (Objective.investTerms (objNet steepNet)).isEmpty = false := rfl
    unfold Objective.objective
    rw [hs]
    simp only [Bool.true_or, if_true, ha, hi, Bool.and_false, Bool.false_and, Bool.false_eq_true, if_false]
    exact ⟨_, rfl⟩
  unfold createModel
  rw [h1, h2, h3]
  exact ⟨_, rfl⟩

theorem steepSound : Sound steepNet := by constructor <;> simp [steepNet, steepGen]
theorem steepEvents : Events steepNet := by constructor <;> simp [steepNet, steepGen, steepUnit]
theorem steepRising : Rising steepNet := by constructor <;> simp [steepNet, steepGen, weight]

theorem steepThrifty : Thrifty steepNet := by
  constructor <;> simp [steepNet, steepGen, steepUnit, weight, lifeWeight]

theorem steepRules : Rules steepNet (fun _ => 4) := by
  refine ⟨?_, by simp [steepNet], by simp [steepNet], by simp [steepNet], by simp [steepNet], by simp [steepNet], ?_⟩
  · intro g hg
    simp only [steepNet, List.mem_singleton] at hg
    subst hg
    refine ⟨?_, ?_, ?_, by simp [steepGen], by simp [steepGen]⟩
    · constructor <;> simp [steepGen]
    · constructor <;> simp [steepGen, steepUnit, steepNet]
    · simp [SetRule, steepGen]
  · intro t ht b hb
    simp only [steepNet, List.mem_singleton] at hb
    subst hb
    simp [supply, demand, atBus, steepNet, steepGen, steepUnit]

/-- It has an optimum with prices, and so an equilibrium. -/
example : ∃ P, createModel steepNet [] = some P ∧ ∃ x lam mu, Least steepNet [] (fun _ => True) x ∧ Answered P x lam mu := by
  obtain ⟨P, hP⟩ := steepSome
  exact ⟨P, hP, quad_thrifty steepSound steepEvents steepRising (orderly_single rfl rfl) (by simp) hP steepThrifty ⟨_, steepRules, fun r hr => by cases hr⟩⟩

end Verif.Opt.Whole.Quad
