import Verif.Opt.Alternatives
import Verif.Opt.EmissionProps
import Mathlib.Tactic.FieldSimp

/-!
# C149: what near-optimal alternatives tell
-/

namespace Verif.Opt.Whole.Alternatives

open Doc

variable {F : Type} [Field F] [LinearOrder F]

/-! ## Specification -/

namespace Spec

/-- Costs of a plan with the capital costs of all capacities, extendable or not. -/
def full (w : WNet F) (x : WVar → F) : F := totalCost w x + Verif.Stats.capitalFixed (objNet w)

/-- Plans that obey everything and cost at most `K`. -/
def Near (P : Program F) (D : (WVar → F) → Prop) (w : WNet F) (K : F) (x : WVar → F) : Prop := FeasibleIn P x ∧ D x ∧ full w x ≤ K

/-- The amount that is minimised or maximised. -/
def amount (goal : List (F × WVar)) (x : WVar → F) : F := (goal.map (fun e => e.1 * x e.2)).sum

/-- Nothing about whole numbers. -/
def Divisible (D : (WVar → F) → Prop) : Prop := ∀ x y (a b : F), D x → D y → 0 ≤ a → 0 ≤ b → a + b = 1 → D (fun v => a * x v + b * y v)

/-- Links cost nothing to operate (C64: these costs are missing in the statistics). -/
def FreeLinks (w : WNet F) : Prop := ∀ a ∈ (objNet w).assets "Link", (∀ t, a.marginal t = 0 ∧ a.quadratic t = 0) ∧ a.com = false

end Spec

open Spec

/-! ## Lemmas -/

theorem lin_mix (a b : F) (x y : WVar → F) (ts : List (F × WVar)) : lin (fun v => a * x v + b * y v) ts = a * lin x ts + b * lin y ts := by
  induction ts with
  | nil => simp [lin]
  | cons e ts ih =>
    simp only [lin, List.map_cons, List.sum_cons] at ih ⊢
    rw [ih]
    ring

theorem amount_mix (a b : F) (x y : WVar → F) (ts : List (F × WVar)) : amount ts (fun v => a * x v + b * y v) = a * amount ts x + b * amount ts y :=
  lin_mix a b x y ts

theorem lin_alternate (s : F) (x : WVar → F) (ts : List (F × WVar)) : lin x (alternate s ts) = s * amount ts x := by
  induction ts with
  | nil => simp [lin, alternate, amount]
  | cons e ts ih =>
    simp only [lin, alternate, amount, List.map_cons, List.sum_cons] at ih ⊢
    rw [ih]
    ring

section ordered
variable [IsStrictOrderedRing F]

theorem holds_mix {a b : F} (ha : 0 ≤ a) (hb : 0 ≤ b) (hab : a + b = 1) {x y : WVar → F} {c : Con WVar F} (hx : c.holds x) (hy : c.holds y) :
    c.holds (fun v => a * x v + b * y v) := by
  have hr : c.rhs = a * c.rhs + b * c.rhs := by rw [← add_mul, hab, one_mul]
  unfold Con.holds at *
  cases hs : c.sense <;> simp only [hs, lin_mix] at hx hy ⊢
  · rw [hr]
    exact add_le_add (mul_le_mul_of_nonneg_left hx ha) (mul_le_mul_of_nonneg_left hy hb)
  · rw [hr]
    exact add_le_add (mul_le_mul_of_nonneg_left hx ha) (mul_le_mul_of_nonneg_left hy hb)
  · rw [hx, hy, ← hr]

theorem feasible_mix {a b : F} (ha : 0 ≤ a) (hb : 0 ≤ b) (hab : a + b = 1) {P : Program F} {x y : WVar → F} (hx : FeasibleIn P x) (hy : FeasibleIn P y) :
    FeasibleIn P (fun v => a * x v + b * y v) :=
  ⟨fun c hc => holds_mix ha hb hab (hx.1 c hc) (hy.1 c hc), fun c hc => holds_mix ha hb hab (hx.2 c hc) (hy.2 c hc)⟩

variable {w : WNet F} {other : List (Con WVar F)} {P : Program F} {D : (WVar → F) → Prop}

theorem full_mix (hl : LinearCosts w) (hP : createModel w other = some P) {a b : F} (ha : 0 ≤ a) (hb : 0 ≤ b) (hab : a + b = 1) {x y : WVar → F}
    (hx : FeasibleIn P x) (hy : FeasibleIn P y) : full w (fun v => a * x v + b * y v) = a * full w x + b * full w y := by
  unfold full
  rw [← cost_total hl hP _ (feasible_mix ha hb hab hx hy), ← cost_total hl hP x hx, ← cost_total hl hP y hy]
  unfold costOf
  rw [lin_mix]
  linear_combination -(Objective.constant (objNet w) + Verif.Stats.capitalFixed (objNet w)) * hab

theorem near_mix (hl : LinearCosts w) (hP : createModel w other = some P) (hD : Divisible D) {a b : F} (ha : 0 ≤ a) (hb : 0 ≤ b) (hab : a + b = 1) {x y : WVar → F}
    {K L : F} (hx : Near P D w K x) (hy : Near P D w L y) : Near P D w (a * K + b * L) (fun v => a * x v + b * y v) := by
  refine ⟨feasible_mix ha hb hab hx.1 hy.1, hD x y a b hx.2.1 hy.2.1 ha hb hab, ?_⟩
  rw [full_mix hl hP ha hb hab hx.1 hy.1]
  exact add_le_add (mul_le_mul_of_nonneg_left hx.2.2 ha) (mul_le_mul_of_nonneg_left hy.2.2 hb)

omit [IsStrictOrderedRing F] in
theorem links_free (h : FreeLinks w) (x : Objective.OVar → F) : Verif.Stats.linkCost (objNet w) x (weight w) = 0 := by
  unfold Verif.Stats.linkCost Objective.total
  refine List.sum_eq_zero fun q hq => ?_
  obtain ⟨a, ha, rfl⟩ := List.mem_map.mp hq
  refine List.sum_eq_zero fun r hr => ?_
  obtain ⟨t, -, rfl⟩ := List.mem_map.mp hr
  obtain ⟨hm, hc⟩ := h a ha
  unfold Objective.running Objective.commitment
  simp [hm t, hc]

theorem optimalCost_eq (hl : LinearCosts w) (hf : FreeLinks w) (x : WVar → F) : optimalCost w x = full w x := by
  unfold optimalCost full Verif.Stats.fullCost
  rw [links_free hf, system_total hl]
  ring

/-- The budget at a point. -/
theorem budget_means (hl : LinearCosts w) (hf : FreeLinks w) (hP : createModel w other = some P) (rec : WVar → F) (slack : F) {x : WVar → F} (hx : FeasibleIn P x) :
    (budgetRow w P rec slack).holds x ↔ full w x ≤ (1 + slack) * full w rec := by
  have e := cost_total hl hP x hx
  have hfix : fixedCost w = Objective.constant (objNet w) + Verif.Stats.capitalFixed (objNet w) := Verif.Stats.capitalAll_installed (objNet w)
  unfold costOf at e
  unfold budgetRow Con.holds
  simp only
  rw [optimalCost_eq hl hf, hfix]
  unfold full at *
  rw [← e]
  constructor <;> intro h <;> linarith

/-- **C149.** What a run ends with: the least (or greatest) amount among all plans that cost at most `1 + slack` times as much as the plan recorded before. -/
theorem ran_iff (hl : LinearCosts w) (hf : FreeLinks w) (hP : createModel w other = some P) (rec : WVar → F) (j : Job F) (x : WVar → F) :
    Ran w other D rec j x ↔ Near P D w ((1 + j.slack) * full w rec) x ∧ ∀ z, Near P D w ((1 + j.slack) * full w rec) z → j.sense * amount j.goal x ≤ j.sense * amount j.goal z := by
  have hfeas : ∀ z, FeasibleIn { P with linear := alternate j.sense j.goal, quadratic := [], rows := P.rows ++ [budgetRow w P rec j.slack] } z ↔
      FeasibleIn P z ∧ full w z ≤ (1 + j.slack) * full w rec := by
    intro z
    constructor
    · rintro ⟨h1, h2⟩
      have h : FeasibleIn P z := ⟨fun c hc => h1 c (List.mem_append_left _ hc), h2⟩
      exact ⟨h, (budget_means hl hf hP rec j.slack h).mp (h1 _ (by simp))⟩
    · rintro ⟨h, h3⟩
      refine ⟨fun c hc => ?_, h.2⟩
      rcases List.mem_append.mp hc with hc | hc
      · exact h.1 c hc
      · rw [List.mem_singleton.mp hc]
        exact (budget_means hl hf hP rec j.slack h).mpr h3
  unfold Ran mga
  rw [hP]
  constructor
  · rintro ⟨Q, hQ, h1, h2, h3⟩
    obtain rfl := Option.some.inj hQ
    obtain ⟨a1, a2⟩ := (hfeas x).mp h1
    refine ⟨⟨a1, h2, a2⟩, fun z hz => ?_⟩
    have := h3 z ((hfeas z).mpr ⟨hz.1, hz.2.2⟩) hz.2.1
    unfold costOf at this
    rw [← lin_alternate, ← lin_alternate]
    exact le_of_add_le_add_right this
  · rintro ⟨h1, h2⟩
    refine ⟨_, rfl, (hfeas x).mpr ⟨h1.1, h1.2.2⟩, h1.2.1, fun z hz hD => ?_⟩
    obtain ⟨a1, a2⟩ := (hfeas z).mp hz
    have := h2 z ⟨a1, hD, a2⟩
    rw [← lin_alternate, ← lin_alternate] at this
    exact add_le_add_left this _

/-! ## Theorems -/

section range
variable (hl : LinearCosts w) (hf : FreeLinks w) (hP : createModel w other = some P) {rec lo hi : WVar → F} {goal : List (F × WVar)} {slack : F}
include hl hf hP

/-- **C149.** The two runs bracket: no plan within the budget has less than the run with `min` nor more than the run with `max`. -/
theorem alternatives_bracket (h0 : Ran w other D rec ⟨slack, 1, goal⟩ lo) (h1 : Ran w other D rec ⟨slack, -1, goal⟩ hi) {x : WVar → F}
    (hx : Near P D w ((1 + slack) * full w rec) x) : amount goal lo ≤ amount goal x ∧ amount goal x ≤ amount goal hi := by
  have a := ((ran_iff hl hf hP rec ⟨slack, 1, goal⟩ lo).mp h0).2 x hx
  have b := ((ran_iff hl hf hP rec ⟨slack, -1, goal⟩ hi).mp h1).2 x hx
  simp only at a b
  exact ⟨by linarith, by linarith⟩

/-- **C149.** Without whole numbers, each amount between the two is that of a plan within the budget. -/
theorem alternatives_between (hD : Divisible D) (h0 : Ran w other D rec ⟨slack, 1, goal⟩ lo) (h1 : Ran w other D rec ⟨slack, -1, goal⟩ hi) {v : F}
    (hv0 : amount goal lo ≤ v) (hv1 : v ≤ amount goal hi) : ∃ x, Near P D w ((1 + slack) * full w rec) x ∧ amount goal x = v := by
  have a := ((ran_iff hl hf hP rec ⟨slack, 1, goal⟩ lo).mp h0).1
  have b := ((ran_iff hl hf hP rec ⟨slack, -1, goal⟩ hi).mp h1).1
  rcases eq_or_lt_of_le (hv0.trans hv1) with e | e
  · exact ⟨lo, a, le_antisymm hv0 (e ▸ hv1)⟩
  · have hd : 0 < amount goal hi - amount goal lo := sub_pos.mpr e
    have ht : 0 ≤ (v - amount goal lo) / (amount goal hi - amount goal lo) := div_nonneg (sub_nonneg.mpr hv0) hd.le
    have ht' : (v - amount goal lo) / (amount goal hi - amount goal lo) ≤ 1 := (div_le_one hd).mpr (by linarith)
    have hn := near_mix hl hP hD (sub_nonneg.mpr ht') ht (sub_add_cancel 1 _) a b
    refine ⟨_, ⟨hn.1, hn.2.1, hn.2.2.trans (le_of_eq (by simp only; ring))⟩, ?_⟩
    rw [amount_mix]
    have := hd.ne'
    field_simp
    ring

/-- **C149.** More slack never narrows the range, and what can be gained by more slack gets less and less. -/
theorem slack_range {s0 s1 : F} {x0 x1 : WVar → F} {σ : F} (hK : 0 ≤ full w rec) (h0 : Ran w other D rec ⟨s0, σ, goal⟩ x0) (h1 : Ran w other D rec ⟨s1, σ, goal⟩ x1) :
    (s0 ≤ s1 → σ * amount goal x1 ≤ σ * amount goal x0) ∧
    (Divisible D → ∀ a b : F, 0 ≤ a → 0 ≤ b → a + b = 1 → ∀ x, Ran w other D rec ⟨a * s0 + b * s1, σ, goal⟩ x →
      σ * amount goal x ≤ a * (σ * amount goal x0) + b * (σ * amount goal x1)) := by
  obtain ⟨n0, m0⟩ := (ran_iff hl hf hP rec ⟨s0, σ, goal⟩ x0).mp h0
  obtain ⟨n1, m1⟩ := (ran_iff hl hf hP rec ⟨s1, σ, goal⟩ x1).mp h1
  constructor
  · intro hs
    refine m1 x0 ⟨n0.1, n0.2.1, n0.2.2.trans ?_⟩
    exact mul_le_mul_of_nonneg_right (by simp only; linarith) hK
  · intro hD a b ha hb hab x hx
    obtain ⟨-, m⟩ := (ran_iff hl hf hP rec ⟨a * s0 + b * s1, σ, goal⟩ x).mp hx
    have hn := near_mix hl hP hD ha hb hab n0 n1
    have := m _ ⟨hn.1, hn.2.1, hn.2.2.trans (le_of_eq ?_)⟩
    · simp only [amount_mix] at this
      linarith
    · simp only
      linear_combination (full w rec) * hab

/-- **C149.** Without slack the alternatives of an optimum are the optima. -/
theorem no_slack (hbest : SolverBest w P D rec) (σ : F) {x : WVar → F} (h : Ran w other D rec ⟨0, σ, goal⟩ x) :
    SolverBest w P D x ∧ ∀ z, SolverBest w P D z → σ * amount goal x ≤ σ * amount goal z := by
  obtain ⟨n, m⟩ := (ran_iff hl hf hP rec ⟨0, σ, goal⟩ x).mp h
  have hfull : ∀ z, FeasibleIn P z → full w z = costOf w P z + Verif.Stats.capitalFixed (objNet w) := fun z hz => by unfold full; rw [cost_total hl hP z hz]
  constructor
  · refine ⟨n.1, n.2.1, fun z hz hD => ?_⟩
    have h1 := hbest.2.2 z hz hD
    have h2 := n.2.2
    rw [hfull x n.1, hfull rec hbest.1] at h2
    simp only at h2
    linarith
  · intro z hz
    refine m z ⟨hz.1, hz.2.1, ?_⟩
    have := hz.2.2 rec hbest.1 hbest.2.1
    rw [hfull z hz.1, hfull rec hbest.1]
    simp only
    linarith

end range

/-- Full statement: all alternatives cost at most `1 + slack` times the optimum. -/
def Within (F : Type) [Field F] [LinearOrder F] : Prop := ∀ (w : WNet F) (other : List (Con WVar F)) (P : Program F), LinearCosts w → FreeLinks w → createModel w other = some P →
  ∀ (D : (WVar → F) → Prop) (best : WVar → F), SolverBest w P D best → 0 ≤ full w best → ∀ (slack : F), 0 ≤ slack → ∀ (js : List (Job F)), (∀ j ∈ js, j.slack = slack) →
  ∀ x, Runs w other D best js x → full w x ≤ (1 + slack) * full w best

/-- **C149** (partial: the bound grows with each run). Each run starts from the costs of the plan the run before has left: after several runs on one network the slacks have
multiplied. The plan is never cheaper than the optimum. -/
theorem runs_within_partial (hl : LinearCosts w) (hf : FreeLinks w) (hP : createModel w other = some P) {best : WVar → F} (hbest : SolverBest w P D best)
    {js : List (Job F)} (hs : ∀ j ∈ js, 0 ≤ 1 + j.slack) {x : WVar → F} (h : Runs w other D best js x) :
    full w best ≤ full w x ∧ full w x ≤ (js.map (fun j => 1 + j.slack)).prod * full w best ∧ FeasibleIn P x ∧ D x := by
  have hgen : ∀ (js : List (Job F)) (rec x : WVar → F), (∀ j ∈ js, 0 ≤ 1 + j.slack) → FeasibleIn P rec → D rec → Runs w other D rec js x →
      full w x ≤ (js.map (fun j => 1 + j.slack)).prod * full w rec ∧ FeasibleIn P x ∧ D x := by
    intro js
    induction js with
    | nil =>
      intro rec x _ h1 h2 h
      cases h
      exact ⟨by simp, h1, h2⟩
    | cons j js ih =>
      intro rec x hs h1 h2 h
      cases h with
      | cons ha hb =>
        obtain ⟨n, -⟩ := (ran_iff hl hf hP rec j _).mp ha
        obtain ⟨i1, i2, i3⟩ := ih _ x (fun k hk => hs k (List.mem_cons_of_mem _ hk)) n.1 n.2.1 hb
        refine ⟨i1.trans ?_, i2, i3⟩
        rw [List.map_cons, List.prod_cons, mul_comm (1 + j.slack), mul_assoc]
        refine mul_le_mul_of_nonneg_left n.2.2 (List.prod_nonneg ?_)
        intro q hq
        obtain ⟨k, hk, rfl⟩ := List.mem_map.mp hq
        exact hs k (List.mem_cons_of_mem _ hk)
  obtain ⟨a, b, c⟩ := hgen js best x hs hbest.1 hbest.2.1 h
  refine ⟨?_, a, b, c⟩
  have := hbest.2.2 x b c
  rw [cost_total hl hP x b, cost_total hl hP best hbest.1] at this
  unfold full
  linarith

end ordered

/-! ## Example -/

open Emissions

def coal : List (ℚ × WVar) := [(1, .of "Generator" "coal" (.op "p" 0))]

theorem mixModel : (createModel mixNet []).isSome = true := by decide +kernel

/-- The optimum: coal only. -/
theorem mixOpt : Solved ((createModel mixNet []).get mixModel) (mixVal 10 0) (fun _ _ => 9) [0, -6, 0, 0, 0] where
  len := by decide +kernel
  answer := {
    feasible := by decide +kernel
    upper := by decide +kernel
    lower := by decide +kernel
    stationary := stationary_of _ _ mixVars (by decide +kernel) (by decide +kernel) (by decide +kernel)
    noGap := by decide +kernel }

theorem mga_some : (mga mixNet [] (mixVal 10 0) (1 / 5) 1 coal).isSome = true ∧ (mga mixNet [] (mixVal 9 1) (1 / 5) 1 coal).isSome = true := by decide +kernel

/-- Least coal with a fifth more costs. -/
theorem run1 : Solved ((mga mixNet [] (mixVal 10 0) (1 / 5) 1 coal).get mga_some.1) (mixVal 9 1) (fun _ _ => 3 / 2) [0, 0, 0, 0, 0, -1 / 6] where
  len := by decide +kernel
  answer := {
    feasible := by decide +kernel
    upper := by decide +kernel
    lower := by decide +kernel
    stationary := stationary_of _ _ mixVars (by decide +kernel) (by decide +kernel) (by decide +kernel)
    noGap := by decide +kernel }

/-- The same run again. -/
theorem run2 : Solved ((mga mixNet [] (mixVal 9 1) (1 / 5) 1 coal).get mga_some.2) (mixVal (39 / 5) (11 / 5)) (fun _ _ => 3 / 2) [0, 0, 0, 0, 0, -1 / 6] where
  len := by decide +kernel
  answer := {
    feasible := by decide +kernel
    upper := by decide +kernel
    lower := by decide +kernel
    stationary := stationary_of _ _ mixVars (by decide +kernel) (by decide +kernel) (by decide +kernel)
    noGap := by decide +kernel }

theorem both_runs : Runs mixNet [] (fun _ => True) (mixVal 10 0) [⟨1 / 5, 1, coal⟩, ⟨1 / 5, 1, coal⟩] (mixVal (39 / 5) (11 / 5)) :=
  .cons (x := mixVal 9 1) ⟨_, (Option.some_get mga_some.1).symm, best_of_solved run1 mixNet⟩
    (.cons ⟨_, (Option.some_get mga_some.2).symm, best_of_solved run2 mixNet⟩ (.nil _))

theorem mixFree : FreeLinks mixNet := by
  intro a ha
  simp [objNet, objAssets, mixNet] at ha

/-- **C149, not met.** A second run on the same network leaves the budget of the optimum: 44 percent more costs with a slack of 20 percent. -/
theorem not_within : ¬ Within ℚ := by
  intro h
  have := h mixNet [] _ mixLinear mixFree (Option.some_get mixModel).symm (fun _ => True) (mixVal 10 0) (best_of_solved mixOpt mixNet) (by decide +kernel) (1 / 5)
    (by norm_num) _ (by simp) _ both_runs
  revert this
  decide +kernel

example : full mixNet (mixVal 10 0) = 30 ∧ full mixNet (mixVal 9 1) = 36 ∧ full mixNet (mixVal (39 / 5) (11 / 5)) = 216 / 5 := by decide +kernel

example : Divisible (fun _ : WVar → ℚ => True) := fun _ _ _ _ _ _ _ _ _ => trivial

end Verif.Opt.Whole.Alternatives
