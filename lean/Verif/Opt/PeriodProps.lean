import Verif.Opt.SnapshotProps
import Mathlib.Algebra.BigOperators.Group.Finset.Sigma
import Mathlib.Algebra.Order.BigOperators.Group.Finset
import Mathlib.Tactic.Linarith

/-!
# C143: what investment periods and their weights do to the optimum

Over the whole problem of `Whole.lean` and the rules of `RulesProps.lean`.
-/

namespace Verif.Opt.Whole.Eras

open Doc

variable {F : Type} [Field F] [LinearOrder F]

/-! ## The same network with other periods -/

/-- The same network, with other investment periods: whether there are any, the period of each snapshot (twice, as in `WNet`), and the
weights. -/
def recast (multi : Bool) (period : Nat → Nat) (d : Option (List Int × (Int → F) × (Nat → Int))) (w : WNet F) : WNet F :=
  { w with multi := multi, period := period, periods := d }

/-- All snapshots in one investment period, of weight `c`. -/
def inOne (p : Int) (c : F) (w : WNet F) : WNet F := recast true (fun _ => 0) (some ([p], fun _ => c, fun _ => p)) w

/-- Other weights for the periods (`investment_period_weightings.objective`). -/
def reweigh (pw : Int → F) (w : WNet F) : WNet F := recast w.multi w.period (w.periods.map (fun d => (d.1, pw, d.2.2))) w

/-- Weights of the periods, times a number. -/
def scaled (c : F) (w : WNet F) : WNet F := recast w.multi w.period (w.periods.map (fun d => (d.1, fun p => c * d.2.1 p, d.2.2))) w

section rules
variable {w : WNet F} {m : Bool} {per : Nat → Nat} {d : Option (List Int × (Int → F) × (Nat → Int))}

/-- Only the accounts of storages know about periods. -/
theorem rules_recast (hs : ∀ s ∈ w.stores, ∀ l g, PeriodRule (recast m per d w) s.storage l g ↔ PeriodRule w s.storage l g)
    (hu : ∀ s ∈ w.units, ∀ l g, PeriodRule (recast m per d w) s.storage.toStorage l g ↔ PeriodRule w s.storage.toStorage l g) (x : WVar → F) :
    Rules (recast m per d w) x ↔ Rules w x := by
  constructor
  · intro h
    refine ⟨fun g hg => ?_, fun g hg => ?_, fun s h1 => ?_, fun s h1 => ?_, fun b hb => ?_, fun b hb => ?_, h.balance⟩
    · have r := h.gens g hg
      exact ⟨r.cap, r.unit, r.set, r.sumMin, r.sumMax⟩
    · have r := h.links g hg
      exact ⟨r.cap, r.unit, r.set⟩
    · have r := h.stores s h1
      exact ⟨r.cap, r.limits, r.set, (hs s h1 _ _).mp r.level⟩
    · have r := h.units s h1
      exact ⟨r.cap, r.dispatch, r.store, r.charge, r.spill, r.set, (hu s h1 _ _).mp r.level⟩
    · have r := h.lines b hb
      exact ⟨r.cap, r.limits, r.set, r.loss⟩
    · have r := h.trafos b hb
      exact ⟨r.cap, r.limits, r.set, r.loss⟩
  · intro h
    refine ⟨fun g hg => ?_, fun g hg => ?_, fun s h1 => ?_, fun s h1 => ?_, fun b hb => ?_, fun b hb => ?_, h.balance⟩
    · have r := h.gens g hg
      exact ⟨r.cap, r.unit, r.set, r.sumMin, r.sumMax⟩
    · have r := h.links g hg
      exact ⟨r.cap, r.unit, r.set⟩
    · have r := h.stores s h1
      exact ⟨r.cap, r.limits, r.set, (hs s h1 _ _).mpr r.level⟩
    · have r := h.units s h1
      exact ⟨r.cap, r.dispatch, r.store, r.charge, r.spill, r.set, (hu s h1 _ _).mpr r.level⟩
    · have r := h.lines b hb
      exact ⟨r.cap, r.limits, r.set, r.loss⟩
    · have r := h.trafos b hb
      exact ⟨r.cap, r.limits, r.set, r.loss⟩

omit [LinearOrder F] in
theorem sound_recast (h : Sound w) : Sound (recast m per d w) :=
  ⟨h.noEmpty, h.buses, h.genBus, h.storeBus, h.unitBus, h.loadBus, h.lineBus, h.trafoBus, h.linkBus, h.gens, h.links, h.stores, h.units, h.lines, h.trafos⟩

theorem linear_recast (h : LinearCosts w) : LinearCosts (recast m per d w) := ⟨h.gens, h.links, h.stores, h.units, h.genEvents, h.linkEvents⟩

end rules

theorem rules_reweigh (pw : Int → F) (w : WNet F) (x : WVar → F) : Rules (reweigh pw w) x ↔ Rules w x :=
  rules_recast (fun _ _ _ _ => Iff.rfl) (fun _ _ _ _ => Iff.rfl) x

theorem rules_scaled (c : F) (w : WNet F) (x : WVar → F) : Rules (scaled c w) x ↔ Rules w x :=
  rules_recast (fun _ _ _ _ => Iff.rfl) (fun _ _ _ _ => Iff.rfl) x

omit [LinearOrder F] in
theorem orderly_reweigh {w : WNet F} (pw : Int → F) (h : Orderly w) : Orderly (reweigh pw w) := ⟨h.gens, h.links, h.stores, h.units⟩

omit [LinearOrder F] in
theorem orderly_scaled {w : WNet F} (c : F) (h : Orderly w) : Orderly (scaled c w) := ⟨h.gens, h.links, h.stores, h.units⟩

/-- Two problems with the same plans, of which one is best in one exactly if it is in the other, have the same optima. -/
theorem carry [IsStrictOrderedRing F] {w w' : WNet F} (hw : Sound w) (hl : LinearCosts w) (hd : Orderly w) (hw' : Sound w') (hl' : LinearCosts w')
    (hd' : Orderly w') {other : List (Con WVar F)} (ho : ∀ r ∈ other, ∀ e ∈ r.terms, e.2 ≠ .const) {P Q : Program F}
    (hP : createModel w other = some P) (hQ : createModel w' other = some Q) {D : (WVar → F) → Prop} (hD : ∀ k x, D x → D (setConst k x))
    {x : WVar → F} (hb : Best w other D x → Best w' other D x) (h : SolverBest w P D x) :
    SolverBest w' Q D (setConst (Objective.constant (objNet w')) x) ∧ costOf w P x = totalCost w x ∧
      costOf w' Q (setConst (Objective.constant (objNet w')) x) = totalCost w' x := by
  obtain ⟨h1, h2⟩ := (best_iff hw hl hd ho hP D hD x).1 h
  have h3 := (best_iff hw' hl' hd' ho hQ D hD x).2 (hb h1)
  exact ⟨h3, h2, ((best_iff hw' hl' hd' ho hQ D hD _).1 h3).2⟩

/-! ## One period -/

/-- Assets are in service at all snapshots, or at none, and in the period as without periods. -/
structure Steady (p : Int) (w : WNet F) : Prop where
  gens : ∀ g ∈ w.gens, g.invest.activeIn p = g.invest.activeFlag
  links : ∀ g ∈ w.links, g.invest.activeIn p = g.invest.activeFlag
  stores : ∀ g ∈ w.stores, g.invest.activeIn p = g.invest.activeFlag ∧ ∀ t, g.storage.active t = g.invest.activeFlag
  units : ∀ g ∈ w.units, g.invest.activeIn p = g.invest.activeFlag ∧ ∀ t, g.storage.active t = g.invest.activeFlag
  lines : ∀ g ∈ w.lines, g.invest.activeIn p = g.invest.activeFlag
  trafos : ∀ g ∈ w.trafos, g.invest.activeIn p = g.invest.activeFlag

theorem period_one {w : WNet F} (hm : w.multi = false) (p : Int) (c : F) (s : Storage F) (l g : Nat → F) :
    PeriodRule (inOne p c w) s l g ↔ PeriodRule w s l g := by
  have e1 : PeriodRule w s l g ↔ LevelRule w.len s.active s.cyclic s.initial s.keep l g := by
    unfold PeriodRule
    rw [if_neg (by simp [hm])]
  rw [e1]
  unfold PeriodRule
  by_cases hp : (inOne p c w).multi = true ∧ (s.cyclicPerPeriod = true ∨ s.initialPerPeriod = true)
  · rw [if_pos hp]
    constructor
    · intro h
      have h0 := h 0
      simpa [inOne, recast] using h0
    · intro h q
      by_cases hq : q = 0
      · subst hq
        simpa [inOne, recast] using h
      · have e : (fun t => s.active t && decide ((inOne p c w).period t = q)) = fun _ => false := by
          funext t
          have : ¬ (0 : Nat) = q := fun h => hq h.symm
          simp [inOne, recast, this]
        rw [e]
        constructor
        · intro _ _ _ _ h
          cases h
        · intro _ _ _ _ _ h
          cases h
        · intro _ _ _ h
          cases h
  · rw [if_neg hp]
    rfl

theorem rules_one {w : WNet F} (hm : w.multi = false) (p : Int) (c : F) (x : WVar → F) : Rules (inOne p c w) x ↔ Rules w x :=
  rules_recast (fun s _ l g => period_one hm p c s.storage l g) (fun s _ l g => period_one hm p c s.storage.toStorage l g) x

omit [LinearOrder F] in
theorem orderly_one {w : WNet F} {p : Int} (c : F) (hs : Steady p w) (h : Orderly w) : Orderly (inOne p c w) := by
  refine ⟨h.gens, h.links, fun s hm _ _ => ?_, fun s hm _ _ => ?_⟩
  · exact ⟨fun _ _ _ _ _ _ _ => rfl, fun i j _ _ _ => ((hs.stores s hm).2 i).trans ((hs.stores s hm).2 j).symm⟩
  · exact ⟨fun _ _ _ _ _ _ _ => rfl, fun i j _ _ _ => ((hs.units s hm).2 i).trans ((hs.units s hm).2 j).symm⟩

/-- No costs of start-ups and shut-downs of committable units. -/
structure NoEvents (w : WNet F) : Prop where
  gens : ∀ g ∈ w.gens, g.unit.committable = true → g.unit.startUpCost = 0 ∧ g.unit.shutDownCost = 0
  links : ∀ g ∈ w.links, g.unit.committable = true → g.unit.startUpCost = 0 ∧ g.unit.shutDownCost = 0

/-- Costs are `c` times as high if all weights are, apart from costs of start-ups and shut-downs. -/
theorem total_scale {w w' : WNet F} {c : F} (hlen : w'.len = w.len) (hg : w'.gens = w.gens) (hk : w'.links = w.links) (hs : w'.stores = w.stores)
    (hu : w'.units = w.units) (hln : w'.lines = w.lines) (ht : w'.trafos = w.trafos) (hw : ∀ t, weight w' t = c * weight w t)
    (g1 : ∀ g ∈ w.gens, lifeWeight w' g.invest = c * lifeWeight w g.invest) (g2 : ∀ g ∈ w.links, lifeWeight w' g.invest = c * lifeWeight w g.invest)
    (g3 : ∀ g ∈ w.stores, lifeWeight w' g.invest = c * lifeWeight w g.invest) (g4 : ∀ g ∈ w.units, lifeWeight w' g.invest = c * lifeWeight w g.invest)
    (g5 : ∀ g ∈ w.lines, lifeWeight w' g.invest = c * lifeWeight w g.invest) (g6 : ∀ g ∈ w.trafos, lifeWeight w' g.invest = c * lifeWeight w g.invest)
    (hn : c = 1 ∨ NoEvents w) (x : WVar → F) : totalCost w' x = c * totalCost w x := by
  have sm : ∀ {α : Type} (l : List α) (f f' : α → F), (∀ a ∈ l, f' a = c * f a) → (l.map f').sum = c * (l.map f).sum := by
    intro α l f f' h
    rw [← List.sum_map_mul_left]
    exact congrArg List.sum (List.map_congr_left h)
  unfold totalCost
  rw [hg, hk, hs, hu, hln, ht, sm w.gens (fun g => genCost w g x) _ ?_, sm w.links (fun g => linkCost w g x) _ ?_,
    sm w.stores (fun g => storeCost w g x) _ ?_, sm w.units (fun g => unitCost w g x) _ ?_, sm w.lines (fun g => branchCost w "Line" g x) _ ?_,
    sm w.trafos (fun g => branchCost w "Transformer" g x) _ ?_]
  · ring
  · intro g h
    unfold branchCost
    rw [g6 g h]
    split <;> ring
  · intro g h
    unfold branchCost
    rw [g5 g h]
    split <;> ring
  · intro g h
    unfold unitCost
    rw [g4 g h, hlen, mul_add]
    congr 1
    · refine sm _ _ _ (fun t _ => ?_)
      rw [hw]
      split
      · split <;> ring
      · ring
    · split <;> ring
  · intro g h
    unfold storeCost
    rw [g3 g h, hlen, mul_add]
    congr 1
    · refine sm _ _ _ (fun t _ => ?_)
      rw [hw]
      split <;> ring
    · split <;> ring
  · intro g h
    unfold linkCost
    rw [g2 g h, hlen, mul_add]
    congr 1
    · refine sm _ _ _ (fun t _ => ?_)
      rw [hw]
      split
      · rcases hn with rfl | hn
        · ring
        · split
          · rename_i hc
            rw [(hn.links g h hc).1, (hn.links g h hc).2]
            ring
          · ring
      · ring
    · split <;> ring
  · intro g h
    unfold genCost
    rw [g1 g h, hlen, mul_add]
    congr 1
    · refine sm _ _ _ (fun t _ => ?_)
      rw [hw]
      split
      · rcases hn with rfl | hn
        · ring
        · split
          · rename_i hc
            rw [(hn.gens g h hc).1, (hn.gens g h hc).2]
            ring
          · ring
      · ring
    · split <;> ring

theorem cost_one {w : WNet F} (hp : w.periods = none) {p : Int} {c : F} (hs : Steady p w) (hn : c = 1 ∨ NoEvents w) (x : WVar → F) :
    totalCost (inOne p c w) x = c * totalCost w x := by
  have key : ∀ i : Invest F, i.activeIn p = i.activeFlag → lifeWeight (inOne p c w) i = c * lifeWeight w i := by
    intro i hi
    unfold lifeWeight
    rw [hp]
    simp [inOne, recast, hi]
  refine total_scale (w := w) (w' := inOne p c w) rfl rfl rfl rfl rfl rfl rfl (fun t => ?_) (fun g h => key _ (hs.gens g h)) (fun g h => key _ (hs.links g h))
    (fun g h => key _ (hs.stores g h).1) (fun g h => key _ (hs.units g h).1) (fun g h => key _ (hs.lines g h)) (fun g h => key _ (hs.trafos g h)) hn x
  unfold weight
  rw [hp]
  simp [inOne, recast, mul_comm]

/-- With one period of weight `c` above 0, the best plans are those without periods. -/
theorem best_one [IsStrictOrderedRing F] {w : WNet F} (hm : w.multi = false) (hp : w.periods = none) {p : Int} {c : F} (hc : 0 < c) (hs : Steady p w)
    (hn : c = 1 ∨ NoEvents w) {other : List (Con WVar F)} {D : (WVar → F) → Prop} {x : WVar → F} :
    Best (inOne p c w) other D x ↔ Best w other D x := by
  unfold Best
  simp only [rules_one hm, cost_one hp hs hn]
  constructor
  · rintro ⟨h1, h2, h3, h4⟩
    exact ⟨h1, h2, h3, fun z z1 z2 z3 => le_of_mul_le_mul_left (h4 z z1 z2 z3) hc⟩
  · rintro ⟨h1, h2, h3, h4⟩
    exact ⟨h1, h2, h3, fun z z1 z2 z3 => mul_le_mul_of_nonneg_left (h4 z z1 z2 z3) hc.le⟩

/-- **C143.** A single investment period in which the same assets are in service changes nothing: the optima are the same plans,
at the same costs times the weight of the period. -/
theorem one_period_partial [IsStrictOrderedRing F] {w : WNet F} (hw : Sound w) (hl : LinearCosts w) (hd : Orderly w) (hm : w.multi = false)
    (hp : w.periods = none) {p : Int} {c : F} (hc : 0 < c) (hs : Steady p w) (hn : c = 1 ∨ NoEvents w) {other : List (Con WVar F)}
    (ho : ∀ r ∈ other, ∀ e ∈ r.terms, e.2 ≠ .const) {P Q : Program F} (hP : createModel w other = some P)
    (hQ : createModel (inOne p c w) other = some Q) {D : (WVar → F) → Prop} (hD : ∀ k x, D x → D (setConst k x)) (x : WVar → F) :
    (SolverBest w P D x → SolverBest (inOne p c w) Q D (setConst (Objective.constant (objNet (inOne p c w))) x) ∧
      costOf (inOne p c w) Q (setConst (Objective.constant (objNet (inOne p c w))) x) = c * costOf w P x) ∧
    (SolverBest (inOne p c w) Q D x → SolverBest w P D (setConst (Objective.constant (objNet w)) x) ∧
      costOf (inOne p c w) Q x = c * costOf w P (setConst (Objective.constant (objNet w)) x)) := by
  constructor
  · intro h
    obtain ⟨h1, h2, h3⟩ := carry hw hl hd (sound_recast hw) (linear_recast hl) (orderly_one c hs hd) ho hP hQ hD (best_one hm hp hc hs hn).mpr h
    exact ⟨h1, by rw [h2]; exact h3.trans (cost_one hp hs hn x)⟩
  · intro h
    obtain ⟨h1, h2, h3⟩ := carry (sound_recast hw) (linear_recast hl) (orderly_one c hs hd) hw hl hd ho hQ hP hD (best_one hm hp hc hs hn).mp h
    exact ⟨h1, by rw [h3]; exact h2.trans (cost_one hp hs hn x)⟩

/-! ## Common factors of the weights -/

theorem cost_scaled {w : WNet F} (hp : w.periods ≠ none) (c : F) (hn : NoEvents w) (x : WVar → F) : totalCost (scaled c w) x = c * totalCost w x := by
  obtain ⟨d, hd⟩ := Option.ne_none_iff_exists'.mp hp
  have key : ∀ i : Invest F, lifeWeight (scaled c w) i = c * lifeWeight w i := by
    intro i
    unfold lifeWeight scaled recast
    rw [hd]
    simp only [Option.map_some]
    rw [← List.sum_map_mul_left]
    refine congrArg List.sum (List.map_congr_left (fun q _ => ?_))
    split
    · rfl
    · ring
  refine total_scale (w := w) (w' := scaled c w) rfl rfl rfl rfl rfl rfl rfl (fun t => ?_) (fun _ _ => key _) (fun _ _ => key _) (fun _ _ => key _) (fun _ _ => key _)
    (fun _ _ => key _) (fun _ _ => key _) (.inr hn) x
  unfold weight scaled recast
  rw [hd]
  simp only [Option.map_some]
  ring

theorem best_scaled [IsStrictOrderedRing F] {w : WNet F} (hp : w.periods ≠ none) {c : F} (hc : 0 < c) (hn : NoEvents w) {other : List (Con WVar F)}
    {D : (WVar → F) → Prop} {x : WVar → F} : Best (scaled c w) other D x ↔ Best w other D x := by
  unfold Best
  simp only [rules_scaled, cost_scaled hp c hn]
  constructor
  · rintro ⟨h1, h2, h3, h4⟩
    exact ⟨h1, h2, h3, fun z z1 z2 z3 => le_of_mul_le_mul_left (h4 z z1 z2 z3) hc⟩
  · rintro ⟨h1, h2, h3, h4⟩
    exact ⟨h1, h2, h3, fun z z1 z2 z3 => mul_le_mul_of_nonneg_left (h4 z z1 z2 z3) hc.le⟩

/-- **C143.** Only the ratios of the weights count: with all weights times `c`, optima stay and costs are `c` times as high.  Without
costs of start-ups and shut-downs only. -/
theorem weights_scale_partial [IsStrictOrderedRing F] {w : WNet F} (hw : Sound w) (hl : LinearCosts w) (hd : Orderly w) (hp : w.periods ≠ none)
    {c : F} (hc : 0 < c) (hn : NoEvents w) {other : List (Con WVar F)} (ho : ∀ r ∈ other, ∀ e ∈ r.terms, e.2 ≠ .const) {P Q : Program F}
    (hP : createModel w other = some P) (hQ : createModel (scaled c w) other = some Q) {D : (WVar → F) → Prop}
    (hD : ∀ k x, D x → D (setConst k x)) (x : WVar → F) :
    (SolverBest w P D x → SolverBest (scaled c w) Q D (setConst (Objective.constant (objNet (scaled c w))) x) ∧
      costOf (scaled c w) Q (setConst (Objective.constant (objNet (scaled c w))) x) = c * costOf w P x) ∧
    (SolverBest (scaled c w) Q D x → SolverBest w P D (setConst (Objective.constant (objNet w)) x)) := by
  constructor
  · intro h
    obtain ⟨h1, h2, h3⟩ := carry hw hl hd (sound_recast hw) (linear_recast hl) (orderly_scaled c hd) ho hP hQ hD (best_scaled hp hc hn).mpr h
    exact ⟨h1, by rw [h2]; exact h3.trans (cost_scaled hp c hn x)⟩
  · intro h
    exact (carry (sound_recast hw) (linear_recast hl) (orderly_scaled c hd) hw hl hd ho hQ hP hD (best_scaled hp hc hn).mp h).1

/-! ## Periods that nothing links -/

/-- Capacity is fixed, and there is neither commitment nor a ramp limit from one period to the next. -/
structure ApartUnit (per : Nat → Int) (u : Unit' F) : Prop where
  ext : u.extendable = false
  com : u.committable = false
  ramps : ∀ t, per t ≠ per (t + 1) → u.rampUp (t + 1) = none ∧ u.rampDown (t + 1) = none

/-- No capacities to be optimised, no sums over all snapshots, and storages keep their accounts per period. -/
structure Apart (per : Nat → Int) (w : WNet F) : Prop where
  multi : w.multi = true
  same : ∀ s t, w.period s = w.period t ↔ per s = per t
  gens : ∀ g ∈ w.gens, ApartUnit per g.unit ∧ g.eSumMin = none ∧ g.eSumMax = none
  links : ∀ g ∈ w.links, ApartUnit per g.unit
  stores : ∀ s ∈ w.stores, s.ext = false ∧ (s.storage.cyclicPerPeriod = true ∨ s.storage.initialPerPeriod = true)
  units : ∀ s ∈ w.units, s.ext = false ∧ (s.storage.cyclicPerPeriod = true ∨ s.storage.initialPerPeriod = true)
  lines : ∀ b ∈ w.lines, b.ext = false
  trafos : ∀ b ∈ w.trafos, b.ext = false

/-- Further rows are about one period each. -/
def ApartRows (per : Nat → Int) (other : List (Con WVar F)) : Prop :=
  ∀ r ∈ other, ∃ q, ∀ e ∈ r.terms, ∃ c a v t, e.2 = .of c a (.op v t) ∧ per t = q

/-- The plan that counts at a snapshot: `x` in the period `q`, otherwise `z`. -/
def pick (per : Nat → Int) (q : Int) (x z : WVar → F) (t : Nat) : WVar → F := if per t = q then x else z

/-- One plan in the period `q`, the other one in all other periods. -/
def mix (per : Nat → Int) (q : Int) (x z : WVar → F) : WVar → F
  | .of c a (.op v t) => pick per q x z t (.of c a (.op v t))
  | v => z v

/-- What happens at a snapshot costs this much, before weighting. -/
def running (w : WNet F) (x : WVar → F) (t : Nat) : F :=
  (w.gens.map (fun g => if g.unit.active t then g.costs.marginal t * x (.of "Generator" g.name (.op "p" t)) else 0)).sum +
  (w.links.map (fun g => if g.unit.active t then g.costs.marginal t * x (.of "Link" g.name (.op "p" t)) else 0)).sum +
  (w.stores.map (fun g => if g.storage.active t then g.costs.marginal t * x (.of "Store" g.name (.op "p" t)) +
    g.costs.marginalStorage t * x (.of "Store" g.name (.op "e" t)) else 0)).sum +
  (w.units.map (fun g => if g.storage.active t then g.costs.marginal t * x (.of "StorageUnit" g.name (.op "p_dispatch" t)) +
    g.costs.marginalStorage t * x (.of "StorageUnit" g.name (.op "state_of_charge" t)) +
    (if 0 < g.storage.inflow t then g.costs.spillCost t * x (.of "StorageUnit" g.name (.op "spill" t)) else 0) else 0)).sum

/-- Costs of a period on its own, with the weightings of its snapshots and without the weight of the period. -/
def periodCost (w : WNet F) (per : Nat → Int) (q : Int) (x : WVar → F) : F :=
  ((List.range w.len).map (fun t => if per t = q then w.sw t * running w x t else 0)).sum

theorem unit_mix {per : Nat → Int} {u : Unit' F} (h : ApartUnit per u) {past : Past F} {l ramps : Prop} {n : Nat} {p st up dn : Nat → Nat → F} {cap : Nat → F}
    {st' up' dn' : Nat → F} {cap' : F} (hu : ∀ t, UnitRule u past l ramps n (p t) (st t) (up t) (dn t) (cap t)) (hp : ∀ s t, per s = per t → p s = p t) :
    UnitRule u past l ramps n (fun t => p t t) st' up' dn' cap' := by
  have hc : ∀ {A : Prop}, u.committable = true → A := fun hc => by rw [h.com] at hc; cases hc
  have he : ∀ {A : Prop}, u.extendable = true → A := fun he => by rw [h.ext] at he; cases he
  have hin : ∀ t, per t = per (t + 1) → inService u.active (fun t => p t t) t = inService u.active (p (t + 1)) t := by
    intro t ht
    unfold inService
    show (if u.active t = true then p t t else 0) = _
    rw [hp t (t + 1) ht]
  refine ⟨fun h1 h2 t ht ha => (hu t).fixed h1 h2 t ht ha, he, hc, hc, hc, hc, hc, hc, hc, hc, ?_, ?_, fun _ => hc, fun _ => hc, ?_, ?_, fun _ => hc⟩
  · intro hr t ht ha r hrr
    by_cases hper : per t = per (t + 1)
    · rw [hin t hper]
      exact ⟨fun h1 h2 => ((hu (t + 1)).rampUp hr t ht ha r hrr).1 h1 h2, he⟩
    · rw [(h.ramps t hper).1] at hrr
      cases hrr
  · intro hr t ht ha r hrr
    by_cases hper : per t = per (t + 1)
    · rw [hin t hper]
      exact ⟨fun h1 h2 => ((hu (t + 1)).rampDown hr t ht ha r hrr).1 h1 h2, he⟩
    · rw [(h.ramps t hper).2] at hrr
      cases hrr
  · intro hr hn ha q s hq
    exact ⟨fun r hrr => ⟨(((hu 0).rampUpFirst hr hn ha q s hq).1 r hrr).1, he⟩, hc⟩
  · intro hr hn ha q s hq
    exact ⟨fun r hrr => ⟨(((hu 0).rampDownFirst hr hn ha q s hq).1 r hrr).1, he⟩, hc⟩

theorem period_mix {w : WNet F} {per : Nat → Int} (hm : w.multi = true) (hsame : ∀ s t, w.period s = w.period t ↔ per s = per t) {a : Storage F}
    (ha : a.cyclicPerPeriod = true ∨ a.initialPerPeriod = true) {l g : Nat → Nat → F} (h : ∀ t, PeriodRule w a (l t) (g t))
    (hl : ∀ s t, per s = per t → l s = l t) : PeriodRule w a (fun t => l t t) (fun t => g t t) := by
  unfold PeriodRule at h ⊢
  simp only [if_pos (And.intro hm ha)] at h ⊢
  intro q
  have act : ∀ {s t}, (a.active s && decide (w.period s = q)) = true → (a.active t && decide (w.period t = q)) = true → l s = l t := by
    intro s t h1 h2
    simp only [Bool.and_eq_true, decide_eq_true_eq] at h1 h2
    exact hl s t ((hsame s t).mp (h1.2.trans h2.2.symm))
  refine ⟨fun s t h1 h2 h3 h4 h5 => ?_, fun hc s t h1 h2 h3 h4 h5 h6 => ?_, fun hc t h1 h2 h3 => (h t q).first hc t h1 h2 h3⟩
  · rw [act h3 h4]
    exact (h t q).next s t h1 h2 h3 h4 h5
  · rw [act h3 h4]
    exact (h t q).around hc s t h1 h2 h3 h4 h5 h6

theorem branch_mix {w : WNet F} {b : BranchW F} (hb : b.ext = false) {y : Nat → Loc → F} {y' : Loc → F} (h : ∀ t, BranchRule w b (y t))
    (hy : ∀ v t, y' (.op v t) = y t (.op v t)) : BranchRule w b y' := by
  rw [Snap.branch_snap hb]
  intro t ht
  rw [hy, hy]
  exact (Snap.branch_snap hb).mp (h t) t ht

/-- Plans may be exchanged period by period. -/
theorem rules_mix {w : WNet F} {per : Nat → Int} (h : Apart per w) (q : Int) {x z : WVar → F} (hx : Rules w x) (hz : Rules w z) :
    Rules w (mix per q x z) := by
  have hp : ∀ t, Rules w (pick per q x z t) := by
    intro t
    unfold pick
    split <;> assumption
  have hsame : ∀ s t, per s = per t → pick per q x z s = pick per q x z t := by
    intro s t hst
    unfold pick
    rw [hst]
  refine ⟨fun g hg => ?_, fun g hg => ?_, fun s hs => ?_, fun s hs => ?_, fun b hb => ?_, fun b hb => ?_, fun t ht b hb => (hp t).balance t ht b hb⟩
  · obtain ⟨h1, h2, h3⟩ := h.gens g hg
    refine ⟨by rw [h1.ext]; exact Snap.capRule_fixed, ?_, fun t ht ha => ((hp t).gens g hg).set t ht ha, fun _ e he => ?_, fun _ e he => ?_⟩
    · exact unit_mix h1 (p := fun s t => pick per q x z s (.of "Generator" g.name (.op "p" t))) (fun t => ((hp t).gens g hg).unit)
        (fun s t hst => by funext r; rw [hsame s t hst])
    · rw [h2] at he
      cases he
    · rw [h3] at he
      cases he
  · have h1 := h.links g hg
    refine ⟨by rw [h1.ext]; exact Snap.capRule_fixed, ?_, fun t ht ha => ((hp t).links g hg).set t ht ha⟩
    exact unit_mix h1 (p := fun s t => pick per q x z s (.of "Link" g.name (.op "p" t))) (fun t => ((hp t).links g hg).unit)
      (fun s t hst => by funext r; rw [hsame s t hst])
  · obtain ⟨h1, h2⟩ := h.stores s hs
    have hr := fun t => (hp t).stores s hs
    refine ⟨by rw [h1]; exact Snap.capRule_fixed, fun t ht ha => ?_, fun t ht ha => (hr t).set t ht ha, ?_⟩
    · have := (hr t).limits t ht ha
      rw [h1] at this ⊢
      exact this
    · exact period_mix h.multi h.same h2 (l := fun s' t => pick per q x z s' (.of "Store" s.name (.op "e" t)))
        (g := fun s' t => - (s.storage.eh t * pick per q x z s' (.of "Store" s.name (.op "p" t)))) (fun t => (hr t).level)
        (fun a b hab => by funext r; rw [hsame a b hab])
  · obtain ⟨h1, h2⟩ := h.units s hs
    have hr := fun t => (hp t).units s hs
    refine ⟨by rw [h1]; exact Snap.capRule_fixed, fun t ht ha => ?_, fun t ht ha => ?_, fun t ht ha => ?_, fun t ht ha hi => (hr t).spill t ht ha hi,
      fun t ht ha => (hr t).set t ht ha, ?_⟩
    · have := (hr t).dispatch t ht ha
      rw [h1] at this ⊢
      exact this
    · have := (hr t).store t ht ha
      rw [h1] at this ⊢
      exact this
    · have := (hr t).charge t ht ha
      rw [h1] at this ⊢
      exact this
    · exact period_mix h.multi h.same h2 (l := fun s' t => pick per q x z s' (.of "StorageUnit" s.name (.op "state_of_charge" t)))
        (g := fun s' t => s.storage.eh t * (s.storage.effStore t * pick per q x z s' (.of "StorageUnit" s.name (.op "p_store" t)) -
          pick per q x z s' (.of "StorageUnit" s.name (.op "p_dispatch" t)) / s.storage.effDispatch t +
          s.storage.inflow t - if 0 < s.storage.inflow t then pick per q x z s' (.of "StorageUnit" s.name (.op "spill" t)) else 0)) (fun t => (hr t).level)
        (fun a b hab => by funext r; rw [hsame a b hab])
  · exact branch_mix (h.lines b hb) (fun t => (hp t).lines b hb) (fun _ _ => rfl)
  · exact branch_mix (h.trafos b hb) (fun t => (hp t).trafos b hb) (fun _ _ => rfl)

theorem other_mix {per : Nat → Int} {other : List (Con WVar F)} (ho : ApartRows per other) (q : Int) {x z : WVar → F} (hx : Feasible x other)
    (hz : Feasible z other) : Feasible (mix per q x z) other := by
  intro r hr
  obtain ⟨k, hk⟩ := ho r hr
  by_cases hkq : k = q
  · refine apart_feasible (other := [r]) (x := x) (fun r' hr' e he => ?_) (fun r' hr' => ?_) r (by simp)
    · obtain rfl : r' = r := by simpa using hr'
      obtain ⟨c, a, v, t, h1, h2⟩ := hk e he
      rw [h1]
      simp [mix, pick, h2, hkq]
    · obtain rfl : r' = r := by simpa using hr'
      exact hx _ hr
  · refine apart_feasible (other := [r]) (x := z) (fun r' hr' e he => ?_) (fun r' hr' => ?_) r (by simp)
    · obtain rfl : r' = r := by simpa using hr'
      obtain ⟨c, a, v, t, h1, h2⟩ := hk e he
      rw [h1]
      simp [mix, pick, h2, hkq]
    · obtain rfl : r' = r := by simpa using hr'
      exact hz _ hr

/-- Costs of a network with fixed capacities and without commitment. -/
theorem cost_running {w : WNet F} {per : Nat → Int} (h : Apart per w) (hl : LinearCosts w) (x : WVar → F) :
    totalCost w x = ((List.range w.len).map (fun t => weight w t * running w x t)).sum := by
  have hcap : capitalCosts w x = 0 := by
    unfold capitalCosts
    rw [sum_zero _ _ (fun g hg => by rw [(h.gens g hg).1.ext]; rfl), sum_zero _ _ (fun g hg => by rw [(h.links g hg).ext]; rfl),
      sum_zero _ _ (fun g hg => by rw [h.lines g hg]; rfl), sum_zero _ _ (fun g hg => by rw [h.trafos g hg]; rfl),
      sum_zero _ _ (fun g hg => by rw [(h.stores g hg).1]; rfl), sum_zero _ _ (fun g hg => by rw [(h.units g hg).1]; rfl)]
    simp
  rw [← system_total hl, cost_snapshots, hcap, add_zero]
  refine congrArg List.sum (List.map_congr_left (fun t _ => ?_))
  unfold snapCost running
  simp only [mul_add]
  refine congrArg₂ _ (congrArg₂ _ (congrArg₂ _ ?_ ?_) ?_) ?_
  · rw [← List.sum_map_mul_left]
    refine congrArg List.sum (List.map_congr_left (fun g hg => ?_))
    simp only [runs, commits, (h.gens g hg).1.com, hl.gens g hg t]
    split <;> simp [mul_assoc]
  · rw [← List.sum_map_mul_left]
    refine congrArg List.sum (List.map_congr_left (fun g hg => ?_))
    simp only [runs, commits, (h.links g hg).com, hl.links g hg t]
    split <;> simp [mul_assoc]
  · rw [← List.sum_map_mul_left]
    refine congrArg List.sum (List.map_congr_left (fun g hg => ?_))
    simp only [runs, hl.stores g hg t]
    split
    · ring
    · ring
  · rw [← List.sum_map_mul_left]
    refine congrArg List.sum (List.map_congr_left (fun g hg => ?_))
    simp only [runs, hl.units g hg t]
    split
    · split <;> ring
    · ring

omit [LinearOrder F] in
theorem sum_periods (per : Nat → Int) (n : Nat) (c : Int → F) (f : Nat → F) :
    ((List.range n).map (fun t => c (per t) * f t)).sum =
      ((Finset.range n).image per).sum (fun q => c q * ((List.range n).map (fun t => if per t = q then f t else 0)).sum) := by
  have e : ∀ g : Nat → F, ((List.range n).map g).sum = (Finset.range n).sum g := fun g => by
    rw [Finset.sum_range, ← List.sum_ofFn, List.ofFn_eq_map, ← List.map_coe_finRange_eq_range, List.map_map]
    rfl
  simp only [e]
  rw [← Finset.sum_fiberwise_of_maps_to (g := per) (t := (Finset.range n).image per) (fun i hi => Finset.mem_image_of_mem _ hi)]
  refine Finset.sum_congr rfl (fun q _ => ?_)
  rw [Finset.mul_sum, Finset.sum_filter]
  refine Finset.sum_congr rfl (fun t _ => ?_)
  split
  · rename_i hq
    rw [hq]
  · rw [mul_zero]

section apart
variable [IsStrictOrderedRing F] {w : WNet F} {ps : List Int} {pw : Int → F} {per : Nat → Int}

omit [IsStrictOrderedRing F] in
theorem cost_periods (hper : w.periods = some (ps, pw, per)) (h : Apart per w) (hl : LinearCosts w) (x : WVar → F) :
    totalCost w x = ((Finset.range w.len).image per).sum (fun q => pw q * periodCost w per q x) := by
  rw [cost_running h hl]
  have := sum_periods per w.len pw (fun t => w.sw t * running w x t)
  unfold periodCost
  rw [← this]
  refine congrArg List.sum (List.map_congr_left (fun t _ => ?_))
  unfold weight
  rw [hper]
  simp only
  ring

omit [IsStrictOrderedRing F] in
theorem periodCost_mix (k q : Int) (x z : WVar → F) :
    periodCost w per k (mix per q x z) = if k = q then periodCost w per k x else periodCost w per k z := by
  unfold periodCost
  have e : ∀ t, running w (mix per q x z) t = running w (pick per q x z t) t := fun t => rfl
  simp only [e]
  split
  · rename_i hk
    subst hk
    refine congrArg List.sum (List.map_congr_left (fun t _ => ?_))
    split
    · rename_i ht
      simp [pick, ht]
    · rfl
  · rename_i hk
    refine congrArg List.sum (List.map_congr_left (fun t _ => ?_))
    split
    · rename_i ht
      simp [pick, ht, hk]
    · rfl

/-- **C143.** Where nothing links the periods, a plan is best exactly if it is best in every period, at costs without the weights of
the periods. -/
theorem best_periods (hper : w.periods = some (ps, pw, per)) (h : Apart per w) (hl : LinearCosts w) (hpos : ∀ t < w.len, 0 < pw (per t))
    {other : List (Con WVar F)} (ho : ApartRows per other) {D : (WVar → F) → Prop} (hD : ∀ q x z, D x → D z → D (mix per q x z)) (x : WVar → F) :
    Best w other D x ↔ Rules w x ∧ Feasible x other ∧ D x ∧
      ∀ z, Rules w z → Feasible z other → D z → ∀ t < w.len, periodCost w per (per t) x ≤ periodCost w per (per t) z := by
  unfold Best
  constructor
  · rintro ⟨h1, h2, h3, h4⟩
    refine ⟨h1, h2, h3, fun z z1 z2 z3 t ht => ?_⟩
    have := h4 (mix per (per t) z x) (rules_mix h _ z1 h1) (other_mix ho _ z2 h2) (hD _ _ _ z3 h3)
    rw [cost_periods hper h hl, cost_periods hper h hl] at this
    simp only [periodCost_mix] at this
    have hm : per t ∈ (Finset.range w.len).image per := Finset.mem_image_of_mem _ (Finset.mem_range.mpr ht)
    rw [← Finset.add_sum_erase _ _ hm, ← Finset.add_sum_erase _ _ hm] at this
    have e : ∀ k ∈ ((Finset.range w.len).image per).erase (per t),
        pw k * (if k = per t then periodCost w per k z else periodCost w per k x) = pw k * periodCost w per k x := by
      intro k hk
      rw [if_neg (Finset.ne_of_mem_erase hk)]
    rw [Finset.sum_congr rfl e, if_pos rfl] at this
    exact le_of_mul_le_mul_left (le_of_add_le_add_right this) (hpos t ht)
  · rintro ⟨h1, h2, h3, h4⟩
    refine ⟨h1, h2, h3, fun z z1 z2 z3 => ?_⟩
    rw [cost_periods hper h hl, cost_periods hper h hl]
    refine Finset.sum_le_sum (fun q hq => ?_)
    obtain ⟨t, ht, rfl⟩ := Finset.mem_image.mp hq
    have ht' := Finset.mem_range.mp ht
    exact mul_le_mul_of_nonneg_left (h4 z z1 z2 z3 t ht') (hpos t ht').le

/-- **C143.** Where nothing links the periods, their weights have no influence on the optimum: every positive weights give the same
optima. -/
theorem weights_irrelevant (hw : Sound w) (hl : LinearCosts w) (hd : Orderly w) (hper : w.periods = some (ps, pw, per)) (h : Apart per w)
    {pw' : Int → F} (hpos : ∀ t < w.len, 0 < pw (per t)) (hpos' : ∀ t < w.len, 0 < pw' (per t)) {other : List (Con WVar F)} (ho : ApartRows per other)
    {P Q : Program F} (hP : createModel w other = some P) (hQ : createModel (reweigh pw' w) other = some Q) {D : (WVar → F) → Prop}
    (hk : ∀ k x, D x → D (setConst k x)) (hD : ∀ q x z, D x → D z → D (mix per q x z)) (x : WVar → F) :
    (SolverBest w P D x → SolverBest (reweigh pw' w) Q D (setConst (Objective.constant (objNet (reweigh pw' w))) x)) ∧
    (SolverBest (reweigh pw' w) Q D x → SolverBest w P D (setConst (Objective.constant (objNet w)) x)) := by
  have ho' : ∀ r ∈ other, ∀ e ∈ r.terms, e.2 ≠ .const := by
    intro r hr e he
    obtain ⟨k, hk⟩ := ho r hr
    obtain ⟨c, a, v, t, h1, -⟩ := hk e he
    rw [h1]
    exact fun h => by cases h
  have hper' : (reweigh pw' w).periods = some (ps, pw', per) := by
    simp [reweigh, recast, hper]
  have h' : Apart per (reweigh pw' w) := ⟨h.multi, h.same, h.gens, h.links, h.stores, h.units, h.lines, h.trafos⟩
  have hb : Best (reweigh pw' w) other D x ↔ Best w other D x := by
    rw [best_periods hper' h' (linear_recast hl) hpos' ho hD, best_periods hper h hl hpos ho hD]
    simp only [rules_reweigh]
    exact Iff.rfl
  exact ⟨fun hx => (carry hw hl hd (sound_recast hw) (linear_recast hl) (orderly_reweigh pw' hd) ho' hP hQ hk hb.mpr hx).1,
    fun hx => (carry (sound_recast hw) (linear_recast hl) (orderly_reweigh pw' hd) hw hl hd ho' hQ hP hk hb.mp hx).1⟩

end apart

/-! ## What does link periods -/

/-- A ramp limit holds from the last snapshot of a period to the first one of the next; a unit that enters service there starts from 0. -/
theorem newcomer_ramps {w : WNet F} {x : WVar → F} (h : Rules w x) (hr : RampsCount (w.gens.map (·.unit)) w.len) {g : GenW F} (hg : g ∈ w.gens)
    (he : g.unit.extendable = false) (hc : g.unit.committable = false) {t : Nat} (ht : t + 1 < w.len) (h0 : g.unit.active t = false)
    (h1 : g.unit.active (t + 1) = true) {r : F} (hrr : g.unit.rampUp (t + 1) = some r) :
    x (.of "Generator" g.name (.op "p" (t + 1))) ≤ r * g.unit.nom := by
  have := ((h.gens g hg).unit.rampUp hr t ht h1 r hrr).1 he hc
  simpa [inService, h0] using this

/-! ## Examples -/

def eraUnit (nom : ℚ) (ramp : Nat → Option ℚ) : Unit' ℚ :=
  { docUnit with nom := nom, committable := false, minPu := fun _ => 0, rampUp := ramp, rampDown := ramp, startUpCost := 0, histStatus := [] }

def eraGen (name : Name) (cost : Nat → ℚ) (u : Unit' ℚ) : GenW ℚ :=
  ⟨name, "A", 1, u, exInvest 0, { exCosts 0 0 with marginal := cost }, fun _ => none, none, none⟩

/-- Energy is kept within a period. -/
def eraStore : StoreW ℚ := ⟨"tank", "A", 1, ⟨fun _ => true, false, false, true, 2, fun _ => 1, fun _ => 1⟩, false, 5, fun _ => 0, fun _ => 1, exInvest 0,
  exCosts 0 0, fun _ => none⟩

def eraNet (gens : List (GenW ℚ)) (stores : List (StoreW ℚ)) (len : Nat) (pw : Int → ℚ) (per : Nat → Int) (load : ℚ) : WNet ℚ where
  len := len
  multi := true
  period := fun t => if per t = 2030 then 0 else 1
  rolling := false
  linearized := false
  tangents := 0
  threshold := 45
  sw := fun _ => 1
  gw := fun _ => 1
  periods := some ([2030, 2040], pw, per)
  buses := ["A"]
  gens := gens
  links := []
  stores := stores
  units := []
  lines := []
  trafos := []
  loads := [⟨"A", -1, fun _ => load, fun _ => true⟩]

/-- Two periods of two snapshots each. -/
def decades : Nat → Int := fun t => if t < 2 then 2030 else 2040

/-- Ramp limits hold within the periods only. -/
def apartNet : WNet ℚ := eraNet [eraGen "coal" (fun _ => 1) (eraUnit 10 (fun t => if t = 2 then none else some (1 / 2))), eraGen "gas" (fun _ => 5) (eraUnit 20 (fun _ => none))]
  [eraStore] 4 (fun q => if q = 2030 then 10 else 7) decades 9

theorem apartNet_apart : Apart decades apartNet where
  multi := rfl
  same := by
    intro s t
    simp only [apartNet, eraNet, decades]
    by_cases h1 : s < 2 <;> by_cases h2 : t < 2 <;> simp [h1, h2]
  gens := by
    intro g hg
    simp only [apartNet, eraNet, List.mem_cons, List.not_mem_nil, or_false] at hg
    rcases hg with rfl | rfl
    · refine ⟨⟨rfl, rfl, fun t ht => ?_⟩, rfl, rfl⟩
      have : t + 1 = 2 := by
        unfold decades at ht
        split at ht <;> split at ht <;> first | omega | exact absurd rfl ht
      simp [eraGen, eraUnit, this]
    · exact ⟨⟨rfl, rfl, fun _ _ => ⟨rfl, rfl⟩⟩, rfl, rfl⟩
  links := by intro g hg; cases hg
  stores := by
    intro s hs
    obtain rfl : s = eraStore := by simpa [apartNet, eraNet] using hs
    exact ⟨rfl, .inr rfl⟩
  units := by intro g hg; cases hg
  lines := by intro g hg; cases hg
  trafos := by intro g hg; cases hg

theorem eraLinear {gens : List (GenW ℚ)} {stores : List (StoreW ℚ)} {len : Nat} {pw : Int → ℚ} {per : Nat → Int} {load : ℚ}
    (h1 : ∀ g ∈ gens, (∀ t, g.costs.quadratic t = 0) ∧ 0 ≤ g.unit.startUpCost ∧ 0 ≤ g.unit.shutDownCost) (h2 : ∀ g ∈ stores, ∀ t, g.costs.quadratic t = 0) :
    LinearCosts (eraNet gens stores len pw per load) :=
  ⟨fun g hg => (h1 g hg).1, fun g hg => (by cases hg), h2, fun g hg => (by cases hg), fun g hg => (h1 g hg).2, fun g hg => (by cases hg)⟩

theorem apartOrderly : Orderly apartNet := by
  refine ⟨fun g _ h => (by cases h), fun g _ h => (by cases h), fun s hs _ _ => ?_, fun s hs => (by cases hs)⟩
  obtain rfl : s = eraStore := by simpa [apartNet, eraNet] using hs
  refine ⟨fun i j k h1 h2 h3 h4 => ?_, fun _ _ _ _ _ => rfl⟩
  simp only [apartNet, eraNet, decades] at h4 ⊢
  by_cases hi : i < 2 <;> by_cases hj : j < 2 <;> by_cases hk : k < 2 <;> simp [hi, hj, hk] at h4 ⊢ <;> omega

theorem apartModel_some : (createModel apartNet []).isSome = true := by decide +kernel
theorem apartModel_some' : (createModel (reweigh (fun _ => 1) apartNet) []).isSome = true := by decide +kernel

/-- All hypotheses hold for the example: discounting the second period changes nothing. -/
example (x : WVar → ℚ) (hx : SolverBest apartNet ((createModel apartNet []).get apartModel_some) (fun _ => True) x) :
    SolverBest (reweigh (fun _ => 1) apartNet) ((createModel (reweigh (fun _ => 1) apartNet) []).get apartModel_some') (fun _ => True)
      (setConst (Objective.constant (objNet (reweigh (fun _ => 1) apartNet))) x) :=
  (weights_irrelevant (per := decades) (by constructor <;> decide +kernel) (eraLinear (by
      intro g hg
      simp only [List.mem_cons, List.not_mem_nil, or_false] at hg
      rcases hg with rfl | rfl <;> exact ⟨fun _ => rfl, by decide +kernel, by decide +kernel⟩) (by
      intro g hg t
      obtain rfl : g = eraStore := by simpa using hg
      rfl)) apartOrderly rfl apartNet_apart (by decide +kernel) (fun _ _ => by norm_num)
    (fun r hr => by cases hr) (Option.some_get apartModel_some).symm (Option.some_get apartModel_some').symm (fun _ _ _ => trivial)
    (fun _ _ _ _ _ => trivial) x).1 hx

/-- The example has plans. -/
def apartVal : WVar → ℚ
  | .of _ a (.op v t) => if a = "coal" ∧ v = "p" then (if t = 0 ∨ t = 2 then 7 else 9) else if a = "tank" ∧ v = "p" then (if t = 0 ∨ t = 2 then 2 else 0) else 0
  | _ => 0

example : Rules apartNet apartVal := by
  refine ((rules_iff (w := apartNet) (by constructor <;> decide +kernel) apartOrderly (Option.some_get apartModel_some).symm apartVal).mp ?_).1
  unfold FeasibleIn
  decide +kernel

/-- One period instead of none, for the example of the whole problem. -/
theorem exSteady : Steady 2030 exNet := by
  constructor
  · intro g hg; simp [exNet] at hg; rcases hg with rfl | rfl <;> rfl
  · intro g hg; simp [exNet] at hg; subst hg; rfl
  · intro g hg; simp [exNet] at hg; subst hg; exact ⟨rfl, fun _ => rfl⟩
  · intro g hg; simp [exNet] at hg; subst hg; exact ⟨rfl, fun _ => rfl⟩
  · intro g hg; simp [exNet] at hg; subst hg; rfl
  · intro g hg; simp [exNet] at hg; subst hg; rfl

theorem oneModel_some : (createModel (inOne 2030 3 exNet) exOther).isSome = true := by decide +kernel

theorem exNoEvents : NoEvents exNet := by
  constructor
  · intro g hg h; simp [exNet] at hg; rcases hg with rfl | rfl <;> cases h
  · intro g hg h; simp [exNet] at hg; subst hg; cases h

example (x : WVar → ℚ) (hx : SolverBest exNet exModel (fun _ => True) x) :
    costOf (inOne 2030 3 exNet) ((createModel (inOne 2030 3 exNet) exOther).get oneModel_some)
      (setConst (Objective.constant (objNet (inOne 2030 3 exNet))) x) = 3 * costOf exNet exModel x :=
  ((one_period_partial exSound exLinear (orderly_single rfl rfl) rfl rfl (by norm_num) exSteady (.inr exNoEvents) (by decide +kernel) exModel_eq
    (Option.some_get oneModel_some).symm (fun _ _ _ => trivial) x).1 hx).2

theorem apartNoEvents : NoEvents apartNet := by
  constructor
  · intro g hg h
    simp only [apartNet, eraNet, List.mem_cons, List.not_mem_nil, or_false] at hg
    rcases hg with rfl | rfl <;> cases h
  · intro g hg
    cases hg

/-- Only the ratios of weights count, in the example of two periods. -/
theorem scaledModel_some : (createModel (scaled (1 / 2) apartNet) []).isSome = true := by decide +kernel

example (x : WVar → ℚ) (hx : SolverBest apartNet ((createModel apartNet []).get apartModel_some) (fun _ => True) x) :
    costOf (scaled (1 / 2) apartNet) ((createModel (scaled (1 / 2) apartNet) []).get scaledModel_some)
      (setConst (Objective.constant (objNet (scaled (1 / 2) apartNet))) x) = 1 / 2 * costOf apartNet ((createModel apartNet []).get apartModel_some) x :=
  ((weights_scale_partial (by constructor <;> decide +kernel) (eraLinear (by
      intro g hg
      simp only [List.mem_cons, List.not_mem_nil, or_false] at hg
      rcases hg with rfl | rfl <;> exact ⟨fun _ => rfl, by decide +kernel, by decide +kernel⟩) (by
      intro g hg t
      obtain rfl : g = eraStore := by simpa using hg
      rfl)) apartOrderly (by simp [apartNet, eraNet]) (by norm_num) apartNoEvents (fun r hr => by cases hr) (Option.some_get apartModel_some).symm
    (Option.some_get scaledModel_some).symm (fun _ _ _ => trivial) x).1 hx).2

/-! ## Findings -/

/-- Coal has to be started, gas is dear. -/
def startNet (c : ℚ) : WNet ℚ := eraNet [eraGen "coal" (fun _ => 1) { docUnit with minUp := 0, minDown := 0, downBefore := 0, startUpCost := 30, rampUp := fun _ => none, rampDown := fun _ => none, rampUpStatic := none, rampDownStatic := none },
  eraGen "gas" (fun _ => 5) (eraUnit 20 (fun _ => none))] [] 2 (fun _ => c) (fun t => if t = 0 then 2030 else 2040) 4

def startVal (coal : Bool) : WVar → ℚ
  | .of _ a (.op v t) => if coal ∧ a = "coal" ∧ v = "p" then 4 else if coal ∧ a = "coal" ∧ v = "status" then 1 else if coal ∧ a = "coal" ∧ v = "start_up" ∧ t = 0 then 1 else
      if !coal ∧ a = "gas" ∧ v = "p" then 4 else 0
  | _ => 0

theorem startModel (c : ℚ) (hc : c = 1 ∨ c = 1 / 2) : (createModel (startNet c) []).isSome = true := by
  rcases hc with rfl | rfl <;> decide +kernel

theorem startRules (b : Bool) : Rules (startNet 1) (startVal b) := by
  refine ((rules_iff (w := startNet 1) (by constructor <;> decide +kernel)
    ⟨fun g _ h => (by cases h), fun g _ h => (by cases h), fun g h => (by cases h), fun g h => (by cases h)⟩ (Option.some_get (startModel 1 (.inl rfl))).symm (startVal b)).mp ?_).1
  cases b <;> (unfold FeasibleIn; decide +kernel)

/-- **C143, negation.** Costs of start-ups are not weighted by period: if all weights are halved, a plan that was better becomes worse. -/
theorem starts_not_weighted : startNet (1 / 2) = scaled (1 / 2) (startNet 1) ∧
    Rules (startNet 1) (startVal true) ∧ Rules (startNet 1) (startVal false) ∧
    totalCost (startNet 1) (startVal true) < totalCost (startNet 1) (startVal false) ∧
    totalCost (scaled (1 / 2) (startNet 1)) (startVal false) < totalCost (scaled (1 / 2) (startNet 1)) (startVal true) := by
  refine ⟨?_, startRules true, startRules false, by decide +kernel, by decide +kernel⟩
  simp [startNet, scaled, recast, eraNet]

/-- One snapshot per period; coal is cheap in the first and dear in the second, and ramps by at most half of its capacity. -/
def rampNet (pw : Int → ℚ) : WNet ℚ := eraNet [eraGen "coal" (fun t => if t = 0 then 1 else 10) (eraUnit 10 (fun _ => some (1 / 2))),
  eraGen "gas" (fun _ => 5) (eraUnit 20 (fun _ => none))] [] 2 pw (fun t => if t = 0 then 2030 else 2040) 10

def rampVal (a b : ℚ) : WVar → ℚ
  | .of _ n (.op v t) => if n = "coal" ∧ v = "p" then (if t = 0 then a else b) else if n = "gas" ∧ v = "p" then 10 - (if t = 0 then a else b) else 0
  | _ => 0

theorem rampModel : (createModel (rampNet (fun _ => 1)) []).isSome = true := by decide +kernel

theorem rampRules (a b : ℚ) (h : (a = 5 ∧ b = 0) ∨ (a = 10 ∧ b = 5)) : Rules (rampNet (fun _ => 1)) (rampVal a b) := by
  refine ((rules_iff (w := rampNet (fun _ => 1)) (by constructor <;> decide +kernel)
    ⟨fun g _ h => (by cases h), fun g _ h => (by cases h), fun g h => (by cases h), fun g h => (by cases h)⟩ (Option.some_get rampModel).symm (rampVal a b)).mp ?_).1
  rcases h with ⟨rfl, rfl⟩ | ⟨rfl, rfl⟩ <;> (unfold FeasibleIn; decide +kernel)

/-- **C143, negation.** Ramp limits hold across the boundary of periods: the plan of the first period and that of the second one do not
go together, and the weights decide which of them counts. -/
theorem ramps_link_periods :
    Rules (rampNet (fun _ => 1)) (rampVal 5 0) ∧ Rules (rampNet (fun _ => 1)) (rampVal 10 5) ∧
    ¬ Rules (rampNet (fun _ => 1)) (mix (fun t => if t = 0 then 2030 else 2040) 2030 (rampVal 10 5) (rampVal 5 0)) ∧
    totalCost (rampNet (fun _ => 1)) (rampVal 5 0) < totalCost (rampNet (fun _ => 1)) (rampVal 10 5) ∧
    totalCost (reweigh (fun q => if q = 2030 then 10 else 1) (rampNet (fun _ => 1))) (rampVal 10 5) <
      totalCost (reweigh (fun q => if q = 2030 then 10 else 1) (rampNet (fun _ => 1))) (rampVal 5 0) := by
  refine ⟨rampRules 5 0 (.inl ⟨rfl, rfl⟩), rampRules 10 5 (.inr ⟨rfl, rfl⟩), fun h => ?_, by decide +kernel, by decide +kernel⟩
  have hr : RampsCount ((rampNet (fun _ => 1)).gens.map (·.unit)) (rampNet (fun _ => 1)).len :=
    ⟨⟨_, List.mem_cons_self, 0, by decide, by decide +kernel⟩, ⟨_, List.mem_cons_self, 0, by decide, by decide +kernel⟩⟩
  have := ((h.gens _ List.mem_cons_self).unit.rampDown hr 0 (by decide) rfl (1 / 2) rfl).1 rfl rfl
  revert this
  decide +kernel

end Verif.Opt.Whole.Eras
