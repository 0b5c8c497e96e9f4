import Verif.Opt.RulesProps
import Verif.Opt.GlobalEnergyProps

/-!
# C138: a limit on emissions and a price on emissions

About the whole problem of `Whole.lean` with the row `define_primary_energy_limit` makes (`Global.lean`) as its last row.
-/

namespace Verif.Opt.Whole.Emissions

open Doc

variable {F : Type} [Field F] [LinearOrder F]

/-- What the limit needs to know: carriers and efficiencies by name, the attribute of the carriers that is limited, the years of the
investment period of a snapshot (1 without periods), the period of a snapshot, the period for which the limit holds if it is one. -/
structure Data (F : Type) where
  carrier : Name → Name
  eff : Name → Nat → F
  unitCarrier : Name → Name
  storeCarrier : Name → Name
  co2 : Name → F
  years : Nat → F
  periodOf : Option (Nat → Int)
  period : Option Int

/-- Variables of the limit in the whole problem. -/
def evar : Global.EVar → WVar
  | .gen n t => .of "Generator" n (.op "p" t)
  | .soc n t => .of "StorageUnit" n (.op "state_of_charge" t)
  | .e n t => .of "Store" n (.op "e" t)

/-- `define_primary_energy_limit` (global_constraints.py 241-316) for a network; the weightings are those of 249-252. -/
def limit (w : WNet F) (d : Data F) (cap : F) : Except Global.GErr (List (Con Global.EVar F)) :=
  Global.primaryLimit (w.gens.map (fun g => ⟨g.name, d.carrier g.name, d.eff g.name, g.unit.active⟩))
    (w.units.map (fun s => ⟨s.name, d.unitCarrier s.name, s.storage.cyclic, s.storage.initial, s.storage.active⟩))
    (w.stores.map (fun s => ⟨s.name, d.storeCarrier s.name, s.storage.cyclic, s.storage.initial, s.storage.active⟩))
    d.co2 (fun t => w.gw t * d.years t) .le cap (List.range w.len) d.periodOf d.period

/-! ## What the user means -/

/-- Snapshots the limit is about. -/
def Counts (d : Data F) (t : Nat) : Prop := ∀ p, d.period = some p → ∃ f, d.periodOf = some f ∧ f t = p

instance (d : Data F) (t : Nat) : Decidable (Counts d t) := inferInstanceAs (Decidable (Global.Counted d.periodOf d.period t))

/-- Emissions of one unit of energy from a generator. -/
def intensity (d : Data F) (g : GenW F) (t : Nat) : F := d.co2 (d.carrier g.name) / d.eff g.name t

/-- Emissions of all generators, over all hours and years the limit is about. -/
def emitted (w : WNet F) (d : Data F) (x : WVar → F) : F :=
  (w.gens.map (fun g => ((List.range w.len).map (fun t =>
    if g.unit.active t = true ∧ Counts d t then w.gw t * d.years t * intensity d g t * x (.of "Generator" g.name (.op "p" t)) else 0)).sum)).sum

/-- What a price on emissions adds to the cost of one unit of energy: the price times the emissions. If snapshots or periods count
more often in the limit than in the costs, it is more. -/
def levy (w : WNet F) (d : Data F) (price : F) (g : GenW F) (t : Nat) : F :=
  if Counts d t then price * intensity d g t * (w.gw t * d.years t / weight w t) else 0

/-- The network with a price on emissions in place of a limit. -/
def priced (w : WNet F) (d : Data F) (price : F) : WNet F :=
  { w with gens := w.gens.map (fun g => { g with costs := { g.costs with marginal := fun t => g.costs.marginal t + levy w d price g t } }) }

/-- Storage neither brings nor keeps emissions. -/
structure NoCarry (w : WNet F) (d : Data F) : Prop where
  units : ∀ s ∈ w.units, d.co2 (d.unitCarrier s.name) = 0 ∨ s.storage.cyclic = true
  stores : ∀ s ∈ w.stores, d.co2 (d.storeCarrier s.name) = 0 ∨ s.storage.cyclic = true

/-! ## The row -/

omit [LinearOrder F] in
theorem filter_none {α : Type} (l : List α) (p : α → Bool) (h : ∀ a ∈ l, p a = false) : l.filter p = [] := by
  rw [List.filter_eq_nil_iff]
  intro a ha
  rw [h a ha]
  simp

/-- What the row says. -/
theorem limit_row {w : WNet F} {d : Data F} {cap : F} {r : Con Global.EVar F} (hn : NoCarry w d) (h : limit w d cap = .ok [r]) :
    r.sense = .le ∧ r.rhs = cap ∧ ∀ x : WVar → F, lin x (remap evar r).terms = emitted w d x := by
  unfold limit Global.primaryLimit at h
  by_cases hc : ∃ t ∈ List.range w.len, Global.Counted d.periodOf d.period t
  swap
  · exfalso
    unfold Global.selected at h
    cases hp : d.period with
    | none =>
      rw [hp] at h hc
      have he : List.range w.len = [] := by
        rw [List.eq_nil_iff_forall_not_mem]
        exact fun t ht => hc ⟨t, ht, fun p hp => by cases hp⟩
      rw [he] at h
      simp [Global.primaryRows, Global.storTerms, Global.lastVar, Capacity.rowOf] at h
    | some p =>
      rw [hp] at h hc
      cases hf : d.periodOf with
      | none => rw [hf] at h; simp at h
      | some f =>
        rw [hf] at h hc
        have : (List.range w.len).any (fun t => decide (f t = p)) = false := by
          rw [List.any_eq_false]
          intro t ht hft
          exact hc ⟨t, ht, fun q hq => by cases hq; exact ⟨f, rfl, by simpa using hft⟩⟩
        simp [this] at h
  rw [Global.selected_ok hc] at h
  unfold Global.primaryRows at h
  simp only at h
  rw [filter_none (w.units.map _) _ (by
      intro s hs
      obtain ⟨u, hu, rfl⟩ := List.mem_map.mp hs
      rcases hn.units u hu with h | h <;> simp [h]),
    filter_none (w.stores.map _) _ (by
      intro s hs
      obtain ⟨u, hu, rfl⟩ := List.mem_map.mp hs
      rcases hn.stores u hu with h | h <;> simp [h])] at h
  unfold Capacity.rowOf at h
  split at h
  · simp at h
  · simp only [Except.ok.injEq, List.cons.injEq, and_true] at h
    subst h
    refine ⟨rfl, by simp [Global.storRhs], fun x => ?_⟩
    have hr : ∀ ts : List (F × Global.EVar), lin x (ts.map (fun e => (e.1, evar e.2))) = lin (fun v => x (evar v)) ts := by
      intro ts; simp [lin, Function.comp_def]
    unfold remap
    simp only
    rw [hr]
    simp only [Global.storTerms, List.flatMap_nil, List.append_nil]
    rw [Global.lin_gens]
    unfold emitted Global.sumIf
    rw [List.map_map]
    congr 1
    apply List.map_congr_left
    intro g _
    simp only [Function.comp_apply]
    split
    · have hf := Global.sumIf_filter (List.range w.len) (fun t => decide (Global.Counted d.periodOf d.period t)) (fun t => g.unit.active t = true)
        (fun t => d.co2 (d.carrier g.name) / d.eff g.name t * (w.gw t * d.years t) * x (.of "Generator" g.name (.op "p" t)))
      unfold Global.sumIf at hf
      simp only [evar] at hf ⊢
      rw [hf]
      congr 1
      apply List.map_congr_left
      intro t _
      have hcount : (decide (Global.Counted d.periodOf d.period t) = true ∧ g.unit.active t = true) ↔ (g.unit.active t = true ∧ Counts d t) := by
        rw [decide_eq_true_eq, and_comm]
        exact Iff.rfl
      by_cases hq : g.unit.active t = true ∧ Counts d t
      · rw [if_pos (hcount.mpr hq), if_pos hq]
        unfold intensity
        ring
      · rw [if_neg (fun h => hq (hcount.mp h)), if_neg hq]
    · rename_i h0
      simp only [decide_eq_true_eq, not_not] at h0
      symm
      apply List.sum_eq_zero
      intro v hv
      obtain ⟨t, -, rfl⟩ := List.mem_map.mp hv
      simp [intensity, h0]

/-! ## The priced network -/

section priced

variable {w : WNet F} {d : Data F} {price : F}

theorem own_priced : ownRows (priced w d price) = ownRows w := by
  unfold ownRows priced
  simp only [List.map_map]
  congr 3
  simp only [List.append_assoc]
  congr 1
  apply List.map_congr_left
  intro g _
  simp only [Function.comp_apply, genRows, List.map_map]
  rfl

theorem balance_priced : balanceRows (priced w d price) = balanceRows w := by
  have : ∀ t, nodal (priced w d price) t = nodal w t := by
    intro t
    unfold nodal priced
    simp [List.map_map, Function.comp_def]
  unfold balanceRows
  simp only [this]
  rfl

theorem constant_priced : Objective.constant (objNet (priced w d price)) = Objective.constant (objNet w) := by
  unfold Objective.constant
  congr 1
  apply List.map_congr_left
  intro c hc
  by_cases h : c.1 = "Generator"
  · rw [h, assets_gen, assets_gen]
    unfold priced
    simp only [List.map_map, List.filter_map, Function.comp_def]
    rfl
  · have : (objNet (priced w d price)).assets c.1 = (objNet w).assets c.1 := by
      unfold objNet objAssets priced
      simp [h]
    rw [this]
    rfl

theorem linear_priced (h : LinearCosts w) : LinearCosts (priced w d price) := by
  refine ⟨?_, h.links, h.stores, h.units, ?_, h.linkEvents⟩
  · intro g hg t
    obtain ⟨a, ha, rfl⟩ := List.mem_map.mp hg
    exact h.gens a ha t
  · intro g hg
    obtain ⟨a, ha, rfl⟩ := List.mem_map.mp hg
    exact h.genEvents a ha

/-- With the price, the system costs what it costs without, and the price for what it emits. -/
theorem cost_priced (hweight : ∀ t < w.len, Counts d t → weight w t ≠ 0) (x : WVar → F) :
    totalCost (priced w d price) x = totalCost w x + price * emitted w d x := by
  have key : ((priced w d price).gens.map (fun g => genCost (priced w d price) g x)).sum =
      (w.gens.map (fun g => genCost w g x)).sum + price * emitted w d x := by
    unfold emitted
    rw [← List.sum_map_mul_left, ← List.sum_map_add]
    unfold priced
    simp only [List.map_map]
    congr 1
    apply List.map_congr_left
    intro g _
    simp only [Function.comp_apply]
    unfold genCost
    simp only
    have : ∀ a b c e : F, e = a + c → e + b = a + b + c := by intro a b c e h; rw [h]; ring
    apply this
    rw [← List.sum_map_mul_left, ← List.sum_map_add]
    congr 1
    apply List.map_congr_left
    intro t ht
    have hw : weight { w with gens := w.gens.map (fun g => { g with costs := { g.costs with marginal := fun t => g.costs.marginal t + levy w d price g t } }) } t
        = weight w t := rfl
    rw [hw]
    by_cases ha : g.unit.active t = true
    · by_cases hc : Counts d t
      · have h0 := hweight t (List.mem_range.mp ht) hc
        simp only [ha, hc, levy, if_true, and_self]
        field_simp
        ring
      · simp only [ha, hc, levy, if_true, if_false, and_false, add_zero, mul_zero]
    · simp only [ha, if_false, false_and, mul_zero, add_zero, Bool.false_eq_true]
  unfold totalCost
  rw [key]
  have e : ∀ a b c f g h k : F, a + k + b + c + f + g + h = a + b + c + f + g + h + k := by intros; ring
  exact e _ _ _ _ _ _ _

/-! ## Coefficients of the objective -/

omit [LinearOrder F] in
theorem coef_lin (ts : List (F × WVar)) (v : WVar) : coef ts v = lin (fun u => if u = v then 1 else 0) ts := by
  unfold coef lin
  congr 1
  apply List.map_congr_left
  intro e _
  by_cases h : e.2 = v <;> simp [h]

theorem coef_const {other : List (Con WVar F)} {P : Program F} (hP : createModel w other = some P) :
    coef P.linear .const = if Objective.constant (objNet w) = 0 then 0 else -1 := by
  obtain ⟨own, bal, o, -, -, h3, h4, -, -, -⟩ := createModel_parts hP
  have hnone : ∀ ts : List (F × Objective.OVar), (∀ e ∈ ts, e.2 ≠ .const) → coef (ts.map (fun e => (e.1, objVar e.2))) .const = 0 := by
    intro ts h
    unfold coef
    apply List.sum_eq_zero
    intro y hy
    rw [List.map_map] at hy
    obtain ⟨e, he, rfl⟩ := List.mem_map.mp hy
    have := h e he
    obtain ⟨k, v⟩ := e
    cases v with
    | const => exact absurd rfl this
    | op c v a t => simp [objVar]
    | nom c v a => simp [objVar]
  have hop : ∀ (n : Objective.Net F) (c v : Name) (cost : Objective.Asset F → Nat → F) (as : List (Objective.Asset F)), ∀ e ∈ Objective.opTerms n c v cost as, e.2 ≠ .const := by
    intro n c v cost as e he
    obtain ⟨a, -, he⟩ := List.mem_flatMap.mp he
    obtain ⟨t, -, rfl⟩ := List.mem_map.mp he
    simp
  have hct : ∀ (n : Objective.Net F) (flag : Objective.Row → Bool) (cost : Objective.Asset F → Nat → F), ∀ l ∈ Objective.costType n flag cost, ∀ e ∈ l, e.2 ≠ .const := by
    intro n flag cost l hl
    obtain ⟨r, -, rfl⟩ := List.mem_map.mp hl
    exact hop _ _ _ _ _
  unfold Objective.objective at h3
  simp only at h3
  split at h3
  swap
  · cases h3
  split at h3
  · cases h3
  injection h3 with h3
  rw [h4, ← h3]
  simp only [List.append_assoc, List.flatten_append]
  rw [List.map_append]
  have happ : ∀ a b : List (F × WVar), coef (a ++ b) .const = coef a .const + coef b .const := by
    intro a b; simp [coef]
  rw [happ]
  simp only [← List.flatten_append]
  rw [hnone (List.flatten (_ ++ (_ ++ (_ ++ (_ ++ (_ ++ _))))))]
  · unfold Objective.constTerms
    split <;> simp [coef, objVar]
  · intro e he
    obtain ⟨l, hl, he⟩ := List.mem_flatten.mp he
    simp only [List.mem_append] at hl
    rcases hl with hl | hl | hl | hl | hl | hl
    · exact hct _ _ _ l hl e he
    · exact hct _ _ _ l hl e he
    · exact hct _ _ _ l hl e he
    · obtain ⟨r, -, rfl⟩ := List.mem_map.mp hl
      exact hop _ _ _ _ _ e he
    · obtain ⟨r, -, rfl⟩ := List.mem_map.mp hl
      obtain ⟨a, -, rfl⟩ := List.mem_map.mp he
      simp
    · obtain ⟨r, -, rfl⟩ := List.mem_map.mp hl
      obtain ⟨a, -, he⟩ := List.mem_flatMap.mp he
      obtain ⟨t, -, rfl⟩ := List.mem_map.mp he
      simp

theorem objective_total [IsStrictOrderedRing F] (hl : LinearCosts w) {other : List (Con WVar F)} {P : Program F} (hP : createModel w other = some P) (x : WVar → F)
    (hx : x .const = 0) : lin x P.linear = totalCost w x := by
  obtain ⟨own, bal, o, -, -, h3, h4, -, -, -⟩ := createModel_parts hP
  rw [h4, objective_lin hl h3 x hx, system_total hl]

end priced

/-! ## Limit and price -/

section main

variable [IsStrictOrderedRing F] {w : WNet F} {d : Data F}

omit [IsStrictOrderedRing F] in
theorem last_dual {P : Program F} {A : List (Con WVar F)} {row : Con WVar F} (hA : P.rows = A ++ [row]) {x : WVar → F} {lam : Name → Nat → F}
    {mu : List F} {δ : F} (hs : Solved P x lam (mu ++ [δ])) : P.rows.zip (mu ++ [δ]) = A.zip mu ++ [(row, δ)] := by
  have hlen := hs.len
  rw [hA, List.length_append, List.length_append] at hlen
  simp only [List.length_singleton, Nat.add_right_cancel_iff] at hlen
  rw [hA, List.zip_append hlen.symm]
  rfl

/-- No point that keeps all rows but the last is cheaper than the dual of the last row says. -/
theorem lagrange {P : Program F} {A : List (Con WVar F)} {row : Con WVar F} (hA : P.rows = A ++ [row]) {x : WVar → F} {lam : Name → Nat → F}
    {mu : List F} {δ : F} (hs : Solved P x lam (mu ++ [δ])) (z : WVar → F) (hz : Feasible z A) (hz' : Feasible z (P.balance.map (·.2))) :
    lin x P.linear + δ * (lin z row.terms - row.rhs) ≤ lin z P.linear := by
  have ha := hs.answer
  rw [last_dual hA hs] at ha
  rw [lin_of_stationary _ _ ha.stationary z, ha.noGap]
  simp only [List.map_append, List.sum_append, List.map_cons, List.map_nil, List.sum_cons, List.sum_nil, add_zero]
  have h1 : ∀ l : List (Con WVar F × F), (∀ r ∈ l, 0 ≤ r.2 * (lin z r.1.terms - r.1.rhs)) →
      (l.map (fun r => r.2 * r.1.rhs)).sum ≤ (l.map (fun r => r.2 * lin z r.1.terms)).sum := by
    intro l h
    induction l with
    | nil => simp
    | cons r l ih =>
      simp only [List.map_cons, List.sum_cons]
      have := h r (List.mem_cons_self ..)
      have := ih (fun q hq => h q (List.mem_cons_of_mem _ hq))
      linarith
  have g1 := h1 (P.balance.map (fun r => (r.2, lam r.1.1 r.1.2))) (fun r hr =>
    dual_gap ha r (List.mem_append_left _ hr) r.1.terms r.1.rhs z (by
      obtain ⟨q, hq, rfl⟩ := List.mem_map.mp hr
      exact hz' _ (List.mem_map_of_mem hq)))
  have g2 := h1 (A.zip mu) (fun r hr => dual_gap ha r (List.mem_append_right _ (List.mem_append_left _ hr)) r.1.terms r.1.rhs z
    (hz _ (mem_zip_left hr)))
  linarith

/-- A solution with duals is an optimum. -/
theorem best_of_solved {P : Program F} {x : WVar → F} {lam : Name → Nat → F} {mu : List F} (hs : Solved P x lam mu) (w : WNet F) :
    SolverBest w P (fun _ => True) x := by
  refine ⟨⟨fun r hr => ?_, fun r hr => ?_⟩, trivial, fun z hz _ => ?_⟩
  · obtain ⟨i, hi, rfl⟩ := List.mem_iff_getElem.mp hr
    exact hs.answer.feasible (P.rows[i], mu[i]'(by rw [hs.len]; exact hi)) (List.mem_append_right _ (by
      rw [List.mem_iff_getElem]
      exact ⟨i, by rw [List.length_zip, hs.len]; omega, by simp⟩))
  · obtain ⟨q, hq, rfl⟩ := List.mem_map.mp hr
    exact hs.answer.feasible (q.2, lam q.1.1 q.1.2) (List.mem_append_left _ (List.mem_map_of_mem (f := fun r => (r.2, lam r.1.1 r.1.2)) hq))
  · unfold costOf
    have := cost_bound hs.answer (fun r => r.1.rhs) z (fun r hr => by
      rcases List.mem_append.mp hr with hr | hr
      · obtain ⟨q, hq, rfl⟩ := List.mem_map.mp hr
        exact hz.2 _ (List.mem_map_of_mem hq)
      · exact hz.1 _ (mem_zip_left hr))
    simp only [sub_self, mul_zero, List.map_const', List.sum_replicate, smul_zero, add_zero] at this
    linarith

omit [IsStrictOrderedRing F] in
theorem parts {d : Data F} {price : F} {other : List (Con WVar F)} {row : Con WVar F} {P P' : Program F} (hP : createModel w (other ++ [row]) = some P)
    (hP' : createModel (priced w d price) other = some P') : P.rows = P'.rows ++ [row] ∧ P'.balance = P.balance := by
  obtain ⟨own, bal, o, h1, h2, -, -, -, h5, h6⟩ := createModel_parts hP
  obtain ⟨own', bal', o', h1', h2', -, -, -, h5', h6'⟩ := createModel_parts hP'
  rw [own_priced, h1] at h1'
  rw [balance_priced, h2] at h2'
  cases h1'
  cases h2'
  have hc : constRow (priced w d price) = constRow w := by
    unfold constRow
    rw [constant_priced]
  exact ⟨by rw [h6, h6', hc]; simp, by rw [h5, h5']⟩

/-- **C138.** A limit on emissions acts like a price: what is optimal under the limit is optimal without it if each generator pays
for its emissions what the dual of the limit says, and the prices at all buses are the same. The price is not negative, it is zero unless the
limit is reached, and the costs differ by what is paid for the emissions the limit allows. -/
theorem limit_is_price (hl : LinearCosts w) (hn : NoCarry w d) (hweight : ∀ t < w.len, Counts d t → weight w t ≠ 0) {cap : F} {r : Con Global.EVar F}
    (hrow : limit w d cap = .ok [r]) {other : List (Con WVar F)} {P P' : Program F} {x : WVar → F} {lam : Name → Nat → F} {mu : List F} {δ : F}
    (hP : createModel w (other ++ [remap evar r]) = some P) (hs : Solved P x lam (mu ++ [δ]))
    (hP' : createModel (priced w d (-δ)) other = some P') :
    0 ≤ -δ ∧ -δ * emitted w d x = -δ * cap ∧ emitted w d x ≤ cap ∧ Solved P' x lam mu ∧ SolverBest (priced w d (-δ)) P' (fun _ => True) x ∧
      costOf (priced w d (-δ)) P' x = costOf w P x + -δ * cap := by
  obtain ⟨r1, r2, r3⟩ := limit_row hn hrow
  obtain ⟨p1, p2⟩ := parts hP hP'
  have ha := hs.answer
  have hzip := last_dual p1 hs
  rw [hzip] at ha
  have hmem : (remap evar r, δ) ∈ P.balance.map (fun r => (r.2, lam r.1.1 r.1.2)) ++ (P'.rows.zip mu ++ [(remap evar r, δ)]) := by simp
  have hδ : δ ≤ 0 := ha.upper _ hmem r1
  have hslack := slackness ha _ hmem
  have hfeas := ha.feasible _ hmem
  have hrhs : (remap evar r).rhs = cap := r2
  simp only [r3, hrhs] at hslack
  have hE : emitted w d x ≤ cap := by
    unfold Con.holds at hfeas
    rw [show (remap evar r).sense = .le from r1] at hfeas
    simp only [r3, hrhs] at hfeas
    exact hfeas
  have hlen := hs.len
  rw [p1, List.length_append, List.length_append] at hlen
  simp only [List.length_singleton, Nat.add_right_cancel_iff] at hlen
  have hstat : ∀ v, coef P'.linear v = ((P'.balance.map (fun r => (r.2, lam r.1.1 r.1.2)) ++ P'.rows.zip mu).map (fun q => q.2 * coef q.1.terms v)).sum := by
    intro v
    have h1 := ha.stationary v
    have h2 : coef P'.linear v = coef P.linear v + -δ * coef (remap evar r).terms v := by
      by_cases hv : v = .const
      · subst hv
        rw [coef_const hP, coef_const hP', constant_priced]
        have : coef (remap evar r).terms .const = 0 := by
          rw [coef_lin, r3]
          unfold emitted
          apply List.sum_eq_zero
          intro y hy
          obtain ⟨g, -, rfl⟩ := List.mem_map.mp hy
          apply List.sum_eq_zero
          intro y hy
          obtain ⟨t, -, rfl⟩ := List.mem_map.mp hy
          simp
        rw [this, mul_zero, add_zero]
      · rw [coef_lin, coef_lin, coef_lin, objective_total hl hP _ (if_neg (Ne.symm hv)), objective_total (linear_priced hl) hP' _ (if_neg (Ne.symm hv)),
          cost_priced hweight, r3]
    rw [h2, h1, p2]
    simp only [List.map_append, List.sum_append, List.map_cons, List.map_nil, List.sum_cons, List.sum_nil, add_zero]
    ring
  have hsolved : Solved P' x lam mu := by
    refine ⟨hlen, ⟨?_, ?_, ?_, hstat, ?_⟩⟩
    · intro q hq
      rw [p2] at hq
      exact ha.feasible q (by simp only [List.mem_append] at hq ⊢; tauto)
    · intro q hq
      rw [p2] at hq
      exact ha.upper q (by simp only [List.mem_append] at hq ⊢; tauto)
    · intro q hq
      rw [p2] at hq
      exact ha.lower q (by simp only [List.mem_append] at hq ⊢; tauto)
    · rw [lin_of_stationary _ _ hstat x]
      congr 1
      apply List.map_congr_left
      intro q hq
      rw [p2] at hq
      exact slackness ha q (by simp only [List.mem_append] at hq ⊢; tauto)
  have hbest := best_of_solved hsolved (priced w d (-δ))
  refine ⟨by linarith, by linear_combination -hslack, hE, hsolved, hbest, ?_⟩
  rw [cost_total (linear_priced hl) hP' x hbest.1, cost_total hl hP x (best_of_solved hs w).1, cost_priced hweight]
  linear_combination -hslack

/-- **C138.** And the other way round: what is optimal with a price on emissions is optimal under a limit that it keeps and, unless the
price is zero, reaches. `D` restricts the variables further, e.g. to whole numbers. -/
theorem price_is_limit (hl : LinearCosts w) (hn : NoCarry w d) (hweight : ∀ t < w.len, Counts d t → weight w t ≠ 0) {cap price : F}
    {r : Con Global.EVar F} (hrow : limit w d cap = .ok [r]) {other : List (Con WVar F)} {P P' : Program F} {x : WVar → F} {D : (WVar → F) → Prop}
    (hP : createModel w (other ++ [remap evar r]) = some P) (hP' : createModel (priced w d price) other = some P') (hprice : 0 ≤ price)
    (hs : SolverBest (priced w d price) P' D x) (hcap : emitted w d x ≤ cap) (hreach : price * emitted w d x = price * cap) : SolverBest w P D x := by
  obtain ⟨r1, r2, r3⟩ := limit_row hn hrow
  obtain ⟨p1, p2⟩ := parts hP hP'
  have hiff : ∀ z, FeasibleIn P z ↔ FeasibleIn P' z ∧ emitted w d z ≤ cap := by
    intro z
    have hr : (remap evar r).holds z ↔ emitted w d z ≤ cap := by
      unfold Con.holds
      rw [show (remap evar r).sense = .le from r1]
      simp only [r3, show (remap evar r).rhs = cap from r2]
    unfold FeasibleIn Feasible
    rw [p1, p2, ← hr]
    constructor
    · rintro ⟨h1, h2⟩
      exact ⟨⟨fun c hc => h1 c (List.mem_append_left _ hc), h2⟩, h1 _ (by simp)⟩
    · rintro ⟨⟨h1, h2⟩, h3⟩
      refine ⟨fun c hc => ?_, h2⟩
      rcases List.mem_append.mp hc with hc | hc
      · exact h1 c hc
      · rw [List.mem_singleton.mp hc]
        exact h3
  obtain ⟨s1, s2, s3⟩ := hs
  have hx := (hiff x).mpr ⟨s1, hcap⟩
  refine ⟨hx, s2, fun z hz hD => ?_⟩
  obtain ⟨z1, z2⟩ := (hiff z).mp hz
  have := s3 z z1 hD
  rw [cost_total (linear_priced hl) hP' x s1, cost_total (linear_priced hl) hP' z z1, cost_priced hweight, cost_priced hweight] at this
  rw [cost_total hl hP x hx, cost_total hl hP z hz]
  have := mul_le_mul_of_nonneg_left z2 hprice
  linarith

/-- **C138.** A higher price never means more emissions, and never a cheaper system. -/
theorem higher_price (hl : LinearCosts w) (hweight : ∀ t < w.len, Counts d t → weight w t ≠ 0) {a b : F} (hab : a < b) {other : List (Con WVar F)}
    {P Q : Program F} (hP : createModel (priced w d a) other = some P) (hQ : createModel (priced w d b) other = some Q) {D : (WVar → F) → Prop}
    {x y : WVar → F} (hx : SolverBest (priced w d a) P D x) (hy : SolverBest (priced w d b) Q D y) :
    emitted w d y ≤ emitted w d x ∧ (0 ≤ a → totalCost w x ≤ totalCost w y) := by
  have hsame : P.rows = Q.rows ∧ P.balance = Q.balance := by
    obtain ⟨own, bal, o, h1, h2, -, -, -, h5, h6⟩ := createModel_parts hP
    obtain ⟨own', bal', o', h1', h2', -, -, -, h5', h6'⟩ := createModel_parts hQ
    rw [own_priced] at h1 h1'
    rw [balance_priced] at h2 h2'
    rw [h1] at h1'
    rw [h2] at h2'
    cases h1'
    cases h2'
    have hc : ∀ p, constRow (priced w d p) = constRow w := by
      intro p
      unfold constRow
      rw [constant_priced]
    exact ⟨by rw [h6, h6', hc, hc], by rw [h5, h5']⟩
  have hf : ∀ z, FeasibleIn P z ↔ FeasibleIn Q z := by
    intro z
    unfold FeasibleIn
    rw [hsame.1, hsame.2]
  obtain ⟨x1, x2, x3⟩ := hx
  obtain ⟨y1, y2, y3⟩ := hy
  have hxy := x3 y ((hf y).mpr y1) y2
  have hyx := y3 x ((hf x).mp x1) x2
  rw [cost_total (linear_priced hl) hP x x1, cost_total (linear_priced hl) hP y ((hf y).mpr y1), cost_priced hweight, cost_priced hweight] at hxy
  rw [cost_total (linear_priced hl) hQ y y1, cost_total (linear_priced hl) hQ x ((hf x).mp x1), cost_priced hweight, cost_priced hweight] at hyx
  have h : emitted w d y ≤ emitted w d x := by
    by_contra hcon
    have hpos := mul_pos (sub_pos.mpr hab) (sub_pos.mpr (not_le.mp hcon))
    have : (b - a) * (emitted w d y - emitted w d x) ≤ 0 := by linear_combination hxy + hyx
    linarith
  refine ⟨h, fun ha => ?_⟩
  have := mul_le_mul_of_nonneg_left h ha
  linarith

/-- **C138.** A tighter limit never has a lower price. -/
theorem tighter_limit (hn : NoCarry w d) {c1 c2 : F} (hc : c1 < c2) {r1 r2 : Con Global.EVar F} (hr1 : limit w d c1 = .ok [r1])
    (hr2 : limit w d c2 = .ok [r2]) {other : List (Con WVar F)} {P1 P2 : Program F} {x1 x2 : WVar → F} {l1 l2 : Name → Nat → F} {m1 m2 : List F}
    {δ1 δ2 : F} (hP1 : createModel w (other ++ [remap evar r1]) = some P1) (hP2 : createModel w (other ++ [remap evar r2]) = some P2)
    (hs1 : Solved P1 x1 l1 (m1 ++ [δ1])) (hs2 : Solved P2 x2 l2 (m2 ++ [δ2])) : -δ2 ≤ -δ1 := by
  obtain ⟨a1, b1, e1⟩ := limit_row hn hr1
  obtain ⟨a2, b2, e2⟩ := limit_row hn hr2
  obtain ⟨own, bal, o, q1, q2, q3, q4, -, q5, q6⟩ := createModel_parts hP1
  obtain ⟨own', bal', o', q1', q2', q3', q4', -, q5', q6'⟩ := createModel_parts hP2
  rw [q1] at q1'
  rw [q2] at q2'
  rw [q3] at q3'
  cases q1'
  cases q2'
  cases q3'
  have A1 : P1.rows = (own ++ constRow w :: other) ++ [remap evar r1] := by rw [q6]; simp
  have A2 : P2.rows = (own ++ constRow w :: other) ++ [remap evar r2] := by rw [q6']; simp
  have f1 := (best_of_solved hs1 w).1
  have f2 := (best_of_solved hs2 w).1
  have part : ∀ {P : Program F} {A : List (Con WVar F)} {q : Con WVar F} {z : WVar → F}, P.rows = A ++ [q] → FeasibleIn P z → Feasible z A ∧ q.holds z := by
    intro P A q z h hf
    exact ⟨fun c hc => hf.1 c (by rw [h]; exact List.mem_append_left _ hc), hf.1 q (by rw [h]; simp)⟩
  have g1 := lagrange A1 hs1 x2 (part A2 f2).1 (by rw [q5, ← q5']; exact f2.2)
  have g2 := lagrange A2 hs2 x1 (part A1 f1).1 (by rw [q5', ← q5]; exact f1.2)
  have hlin : P1.linear = P2.linear := by rw [q4, q4']
  rw [e1, show (remap evar r1).rhs = c1 from b1, hlin] at g1
  rw [e2, show (remap evar r2).rhs = c2 from b2] at g2
  have k1 := (part A1 f1).2
  have k2 := (part A2 f2).2
  unfold Con.holds at k1 k2
  rw [show (remap evar r1).sense = .le from a1] at k1
  rw [show (remap evar r2).sense = .le from a2] at k2
  simp only [e1, show (remap evar r1).rhs = c1 from b1] at k1
  simp only [e2, show (remap evar r2).rhs = c2 from b2] at k2
  have u1 := hs1.answer
  have u2 := hs2.answer
  rw [last_dual A1 hs1] at u1
  rw [last_dual A2 hs2] at u2
  have s1 := slackness u1 (remap evar r1, δ1) (by simp)
  have s2 := slackness u2 (remap evar r2, δ2) (by simp)
  have n1 : δ1 ≤ 0 := u1.upper (remap evar r1, δ1) (by simp) a1
  have n2 : δ2 ≤ 0 := u2.upper (remap evar r2, δ2) (by simp) a2
  simp only [e1, show (remap evar r1).rhs = c1 from b1] at s1
  simp only [e2, show (remap evar r2).rhs = c2 from b2] at s2
  by_contra hcon
  have hlt : δ2 < δ1 := by linarith
  have hprod : (δ1 - δ2) * (emitted w d x2 - emitted w d x1) ≤ 0 := by linear_combination g1 + g2 - s1 - s2
  have hle : emitted w d x2 ≤ emitted w d x1 := by
    by_contra h
    have := mul_pos (sub_pos.mpr hlt) (sub_pos.mpr (not_le.mp h))
    linarith
  have hz : δ2 * (c2 - emitted w d x2) = 0 := by linear_combination -s2
  rcases mul_eq_zero.mp hz with h | h
  · linarith
  · linarith

omit [LinearOrder F] [IsStrictOrderedRing F] in
/-- With one weighting for costs and limit, the price is paid for exactly the emissions. -/
theorem levy_plain (price : F) (g : GenW F) (t : Nat) (hc : Counts d t) (hg : w.gw t * d.years t = weight w t) (h0 : weight w t ≠ 0) :
    levy w d price g t = price * (d.co2 (d.carrier g.name) / d.eff g.name t) := by
  unfold levy intensity
  rw [if_pos hc, hg, div_self h0, mul_one]

end main

/-! ## Examples -/

/-- The limit of the example network as a limit on emissions. -/
def exData : Data ℚ := ⟨fun n => if n = "peaker" then "gas" else "wind", fun _ t => if t = 0 then 1 else 2, fun _ => "battery", fun _ => "hydrogen",
  fun c => if c = "gas" then 1 else 0, fun _ => 1, none, none⟩

def exRow : Con Global.EVar ℚ := ⟨[(2, .gen "peaker" 0), (1, .gen "peaker" 1)], .le, 6⟩

theorem exLimit : limit exNet exData 6 = .ok [exRow] := by decide +kernel

theorem exPriced_some : (createModel (priced exNet exData (-(-59 / 10))) []).isSome = true := by decide +kernel

/-- Under the limit of 6 the peaker is worth its cost of 12 and 59/10 for the emissions; with this price and no limit the same is optimal. -/
example : SolverBest (priced exNet exData (-(-59 / 10))) ((createModel _ []).get exPriced_some) (fun _ => True) exVal := by
  refine (limit_is_price exLinear ⟨fun _ _ => Or.inl rfl, fun _ _ => Or.inl rfl⟩ ?_ exLimit (other := []) (lam := exLam) (mu := exMu.dropLast) (δ := -59 / 10)
    exModel_eq ?_ (Option.some_get exPriced_some).symm).2.2.2.2.1
  · decide +kernel
  · exact exSolved

/-- Coal and gas for one load. -/
def mixUnit : Unit' ℚ := { exUnit' false 10 with maxPu := fun _ => 1 }
def mixGens : List (GenW ℚ) := [⟨"coal", "A", 1, mixUnit, exInvest 0, exCosts 1 0, fun _ => none, none, none⟩,
  ⟨"gas", "A", 1, mixUnit, exInvest 0, exCosts 3 0, fun _ => none, none, none⟩]
def mixNet : WNet ℚ := { exNet with
  len := 1, sw := fun _ => 3, gw := fun _ => 3, buses := ["A"], gens := mixGens, links := [], stores := [], units := [], lines := [], trafos := [],
  loads := [⟨"A", -1, fun _ => 10, fun _ => true⟩] }

def mixData : Data ℚ := ⟨id, fun _ _ => 1 / 2, id, id, fun c => if c = "coal" then 1 else 0, fun _ => 1, none, none⟩

def mixVal (coal gas : ℚ) : WVar → ℚ
  | .of _ a (.op _ 0) => if a = "coal" then coal else if a = "gas" then gas else 0
  | _ => 0

def mixVars : List WVar := [.of "Generator" "coal" (.op "p" 0), .of "Generator" "gas" (.op "p" 0), .const]

def mixRow (cap : ℚ) : Con Global.EVar ℚ := ⟨[(6, .gen "coal" 0)], .le, cap⟩

theorem mixLinear : LinearCosts mixNet := by
  constructor
  · intro g hg t
    simp only [mixNet, mixGens, List.mem_cons, List.not_mem_nil, or_false] at hg
    rcases hg with rfl | rfl <;> rfl
  · intro g hg; simp [mixNet] at hg
  · intro g hg; simp [mixNet] at hg
  · intro g hg; simp [mixNet] at hg
  · decide +kernel
  · decide +kernel

theorem mixCarry : NoCarry mixNet mixData := ⟨by decide +kernel, by decide +kernel⟩

theorem mix_some : (createModel mixNet ([] ++ [remap evar (mixRow 12)])).isSome = true ∧ (createModel mixNet ([] ++ [remap evar (mixRow 90)])).isSome = true ∧
    (createModel (priced mixNet mixData (1 / 2)) []).isSome = true ∧ (createModel (priced mixNet mixData 2) []).isSome = true ∧
    (createModel mixNet ([] ++ [remap evar (mixRow 60)])).isSome = true := by
  decide +kernel

/-- The limit of 12 has the price 1, the limit of 90 has none. -/
theorem mixTight : Solved ((createModel mixNet ([] ++ [remap evar (mixRow 12)])).get mix_some.1) (mixVal 2 8) (fun _ _ => 9) ([0, 0, 0, 0, 0] ++ [-1]) where
  len := by decide +kernel
  answer := {
    feasible := by decide +kernel
    upper := by decide +kernel
    lower := by decide +kernel
    stationary := stationary_of _ _ mixVars (by decide +kernel) (by decide +kernel) (by decide +kernel)
    noGap := by decide +kernel }

theorem mixLoose : Solved ((createModel mixNet ([] ++ [remap evar (mixRow 90)])).get mix_some.2.1) (mixVal 10 0) (fun _ _ => 9) ([0, -6, 0, 0, 0] ++ [0]) where
  len := by decide +kernel
  answer := {
    feasible := by decide +kernel
    upper := by decide +kernel
    lower := by decide +kernel
    stationary := stationary_of _ _ mixVars (by decide +kernel) (by decide +kernel) (by decide +kernel)
    noGap := by decide +kernel }

example : -(0 : ℚ) ≤ -(-1) :=
  tighter_limit (c1 := 12) (c2 := 90) mixCarry (by decide +kernel) (show limit mixNet mixData 12 = .ok [mixRow 12] by decide +kernel)
    (show limit mixNet mixData 90 = .ok [mixRow 90] by decide +kernel) (Option.some_get mix_some.1).symm (Option.some_get mix_some.2.1).symm mixTight mixLoose

theorem mixCheap : Solved ((createModel (priced mixNet mixData (1 / 2)) []).get mix_some.2.2.1) (mixVal 10 0) (fun _ _ => 9) [0, -3, 0, 0, 0] where
  len := by decide +kernel
  answer := {
    feasible := by decide +kernel
    upper := by decide +kernel
    lower := by decide +kernel
    stationary := stationary_of _ _ mixVars (by decide +kernel) (by decide +kernel) (by decide +kernel)
    noGap := by decide +kernel }

theorem mixDear : Solved ((createModel (priced mixNet mixData 2) []).get mix_some.2.2.2.1) (mixVal 0 10) (fun _ _ => 9) [6, 0, 0, 0, 0] where
  len := by decide +kernel
  answer := {
    feasible := by decide +kernel
    upper := by decide +kernel
    lower := by decide +kernel
    stationary := stationary_of _ _ mixVars (by decide +kernel) (by decide +kernel) (by decide +kernel)
    noGap := by decide +kernel }

/-- A price of 2 instead of 1/2 replaces coal by gas. -/
example : emitted mixNet mixData (mixVal 0 10) ≤ emitted mixNet mixData (mixVal 10 0) ∧ emitted mixNet mixData (mixVal 10 0) = 60 :=
  ⟨(higher_price mixLinear (by decide +kernel) (by decide +kernel) (Option.some_get mix_some.2.2.1).symm (Option.some_get mix_some.2.2.2.1).symm
    (best_of_solved mixCheap _) (best_of_solved mixDear _)).1, by decide +kernel⟩

/-- The optimum with a price of 1/2 is the optimum under the limit of 60 that it reaches. -/
example : SolverBest mixNet ((createModel mixNet ([] ++ [remap evar (mixRow 60)])).get mix_some.2.2.2.2) (fun _ => True) (mixVal 10 0) :=
  price_is_limit (d := mixData) (price := 1 / 2) mixLinear mixCarry (by decide +kernel) (show limit mixNet mixData 60 = .ok [mixRow 60] by decide +kernel)
    (Option.some_get mix_some.2.2.2.2).symm (Option.some_get mix_some.2.2.1).symm (by decide +kernel) (best_of_solved mixCheap _) (by decide +kernel)
    (by decide +kernel)

/-- Snapshots that count twice in the limit and once in the costs: the levy is twice the price for the emissions. -/
theorem levy_weights : levy { mixNet with gw := fun _ => 6 } mixData 1 ⟨"coal", "A", 1, mixUnit, exInvest 0, exCosts 1 0, fun _ => none, none, none⟩ 0 = 2 * (1 * (1 / (1 / 2))) := by
  decide +kernel

end Verif.Opt.Whole.Emissions
