import Verif.Opt.AfterFlow
import Verif.Opt.ResultsProps
import Verif.Opt.NodalProps
import Verif.Opt.KvlProps

/-!
# Property C128: a power flow after an optimisation starts from the optimum
-/

namespace Verif.Opt.AfterFlow

open Verif.Opt.Nodal Verif.Opt.Results

variable {F : Type} [Field F] [LinearOrder F] [IsStrictOrderedRing F]

/-! ### Specification -/

/-- What is in service in the optimisation is in service in the power flow. -/
structure Covers (a : Flags) (n : Net F) : Prop where
  gen : ∀ g ∈ n.gens, g.active = true → a.gen g.name = true
  store : ∀ g ∈ n.stores, g.active = true → a.store g.name = true
  sunit : ∀ g ∈ n.units, g.active = true → a.sunit g.name = true

/-- A line or transformer as part of a plan: its flow and its losses. -/
structure Carried (F : Type) where
  bus0 : Name
  bus1 : Name
  active : Bool
  flow : F
  loss : F

/-- Lines and transformers with their flows and losses (zero if not modelled). -/
def carried (n : Net F) (losses : Bool) (val : NVar → F) : List (Carried F) :=
  n.lines.map (fun l => ⟨l.bus0, l.bus1, l.active, val (.line l.name), if losses then val (.lineLoss l.name) else 0⟩) ++
  n.trafos.map (fun l => ⟨l.bus0, l.bus1, l.active, val (.trafo l.name), if losses then val (.trafoLoss l.name) else 0⟩)

/-- What leaves the bus `b` into the branch: half of the losses are drawn at each end. -/
def drawn (b : Name) (c : Carried F) : F :=
  if c.active = true then
    (if c.bus0 = b then c.flow + c.loss / 2 else 0) + (if c.bus1 = b then - c.flow + c.loss / 2 else 0)
  else 0

/-- What the shunts bring to the bus. -/
def shuntAt (shunts : List (PowerFlow.OnePort F)) (b : Name) : F :=
  (shunts.map (fun s => if s.active = true ∧ s.bus = b then s.sign * s.p else 0)).sum

/-! ### Lemmas -/

omit [LinearOrder F] [IsStrictOrderedRing F] in
theorem filter_sum {α : Type} (l : List α) (f : α → PowerFlow.OnePort F) (b : Name) :
    (((l.map f).filter (fun o => o.active && o.bus = b)).map (fun o => o.p * o.sign)).sum =
      (l.map (fun x => if (f x).active = true ∧ (f x).bus = b then (f x).sign * (f x).p else 0)).sum := by
  induction l with
  | nil => rfl
  | cons x l ih =>
    rw [List.map_cons, List.map_cons, List.sum_cons, ← ih]
    by_cases h : (f x).active = true ∧ (f x).bus = b
    · rw [List.filter_cons_of_pos (by simp [h]), List.map_cons, List.sum_cons, if_pos h, mul_comm]
    · rw [List.filter_cons_of_neg (by simpa using h), if_neg h, zero_add]

omit [LinearOrder F] [IsStrictOrderedRing F] in
theorem sum_at {α : Type} (l : List α) (at' : α → Name) (x : α → F) (b : Name) :
    ((l.filter (fun q => at' q = b)).map x).sum = (l.map (fun q => if at' q = b then x q else 0)).sum := by
  induction l with
  | nil => rfl
  | cons q l ih =>
    rw [List.map_cons, List.sum_cons, ← ih]
    by_cases h : at' q = b
    · rw [List.filter_cons_of_pos (by simpa using h), List.map_cons, List.sum_cons, if_pos h]
    · rw [List.filter_cons_of_neg (by simpa using h), if_neg h, zero_add]

omit [LinearOrder F] [IsStrictOrderedRing F] in
theorem sum_ports (ports : List (Name × F)) (x : F) (b : Name) (hb : b ≠ "") :
    ((((ports.filter (fun q => q.1 ≠ "")).map (fun q => (q.1, - x * q.2))).filter
      (fun q => q.1 = b)).map (·.2)).sum = (ports.map (fun q => if q.1 = b then - (q.2 * x) else 0)).sum := by
  induction ports with
  | nil => rfl
  | cons q l ih =>
    rw [List.map_cons, List.sum_cons, ← ih]
    by_cases h : q.1 = b
    · have h0 : q.1 ≠ "" := by rw [h]; exact hb
      rw [List.filter_cons_of_pos (by simpa using h0), List.map_cons,
        List.filter_cons_of_pos (by simpa using h), List.map_cons, List.sum_cons, if_pos h]
      congr 1; ring
    · rw [if_neg h, zero_add]
      by_cases h0 : q.1 = ""
      · rw [List.filter_cons_of_neg (by simpa using h0)]
      · rw [List.filter_cons_of_pos (by simpa using h0), List.map_cons,
          List.filter_cons_of_neg (by simpa using h)]

omit [LinearOrder F] [IsStrictOrderedRing F] in
theorem link_flows (k : PowerFlow.LinkRow F) (b : Name) (hb : b ≠ "") :
    - ((k.flows.filter (fun q => q.1 = b)).map (·.2)).sum =
      (if k.bus0 = b then - k.pSet else 0) +
        (k.ports.map (fun q => if q.1 = b then q.2 * k.pSet else 0)).sum := by
  have hp := sum_ports k.ports k.pSet b hb
  have hn : (k.ports.map (fun q => if q.1 = b then - (q.2 * k.pSet) else 0)).sum =
      - (k.ports.map (fun q => if q.1 = b then q.2 * k.pSet else 0)).sum := by
    rw [map_sum_neg]; apply map_sum_congr; intro q _; split_ifs <;> simp
  rw [hn] at hp
  unfold PowerFlow.LinkRow.flows
  by_cases h : k.bus0 = b
  · rw [List.filter_cons_of_pos (by simpa using h), List.map_cons, List.sum_cons, hp, if_pos h]; ring
  · rw [List.filter_cons_of_neg (by simpa using h), hp, if_neg h]; ring

omit [IsStrictOrderedRing F] in
/-- The injections with which the power flow starts are those of the plan, as far as it is about one-ports and
links in service, plus the shunts. -/
theorem start_eq (a : Flags) (n : Net F) (val : NVar → F) (shunts : List (PowerFlow.OnePort F))
    (ha : Covers a n) (losses : Bool) (b : Name) (hb : b ≠ "") :
    startInjection a n val shunts b = supplied n losses val b - demanded n b +
      ((carried n losses val).map (drawn b)).sum + shuntAt shunts b := by
  unfold startInjection PowerFlow.injection fixedOps fixedLinks
  simp only [List.filter_append, List.map_append, List.sum_append, filter_sum, List.map_map]
  have hs : ((shunts.filter (fun o => o.active && o.bus = b)).map (fun o => o.p * o.sign)).sum = shuntAt shunts b := by
    have := filter_sum shunts id b
    simpa [shuntAt] using this
  rw [hs]
  have e1 : (n.gens.map (fun g => if a.gen g.name = true ∧ g.bus = b then g.sign * genP val g else 0)).sum =
      (n.gens.map (fun g => contrib b g.bus g.active (g.sign * val (.gen g.name)))).sum := by
    apply map_sum_congr; intro g hg
    have := ha.gen g hg
    unfold contrib genP recorded
    cases hact : g.active <;> by_cases h : g.bus = b <;> simp_all
  have e2 : (n.stores.map (fun g => if a.store g.name = true ∧ g.bus = b then g.sign * storeP val g else 0)).sum =
      (n.stores.map (fun g => contrib b g.bus g.active (g.sign * val (.store g.name)))).sum := by
    apply map_sum_congr; intro g hg
    have := ha.store g hg
    unfold contrib storeP recorded
    cases hact : g.active <;> by_cases h : g.bus = b <;> simp_all
  have e3 : (n.units.map (fun g => if a.sunit g.name = true ∧ g.bus = b then g.sign * unitP val g else 0)).sum =
      (n.units.map (fun g => contrib b g.bus g.active
        (g.sign * (val (.dispatch g.name) - val (.charge g.name))))).sum := by
    apply map_sum_congr; intro g hg
    have := ha.sunit g hg
    unfold contrib unitP recorded
    cases hact : g.active <;> by_cases h : g.bus = b <;> simp_all
  have e4 : (n.loads.map (fun l => if l.active = true ∧ l.bus = b then l.sign * loadP l else 0)).sum =
      - demanded n b := by
    unfold demanded
    rw [map_sum_neg]
    apply map_sum_congr; intro l _
    unfold contrib loadP
    cases hact : l.active <;> by_cases h : l.bus = b <;> simp_all
  have e5 : (n.links.map ((fun k : PowerFlow.LinkRow F => - ((k.flows.filter (fun q => q.1 = b)).map (·.2)).sum) ∘
      (fun l : LinkC F => (⟨l.bus0, (l.bus1, l.eff) :: l.extra, a.link l.name, linkP0 val l⟩ : PowerFlow.LinkRow F)))).sum =
      (n.links.map (fun l =>
        contrib b l.bus0 l.active (- val (.link l.name)) +
        contrib b l.bus1 l.active (l.eff * val (.link l.name)) +
        (l.extra.map (fun e => contrib b e.1 l.active (e.2 * val (.link l.name)))).sum)).sum := by
    apply map_sum_congr; intro l _
    simp only [Function.comp_apply]
    rw [link_flows _ b hb]
    simp only [List.map_cons, List.sum_cons]
    rw [← add_assoc]
    congr 1
    · unfold contrib linkP0 recorded
      cases l.active <;> by_cases h : l.bus0 = b <;> by_cases h1 : l.bus1 = b <;> simp [h, h1]
    · apply map_sum_congr; intro e _
      unfold contrib linkP0 recorded
      cases l.active <;> by_cases h : e.1 = b <;> simp [h]
  have e6 : ((carried n losses val).map (drawn b)).sum =
      - (n.lines.map (fun l =>
        contrib b l.bus0 l.active (- val (.line l.name) - if losses then val (.lineLoss l.name) / 2 else 0) +
        contrib b l.bus1 l.active (val (.line l.name) - if losses then val (.lineLoss l.name) / 2 else 0))).sum -
      (n.trafos.map (fun l =>
        contrib b l.bus0 l.active (- val (.trafo l.name) - if losses then val (.trafoLoss l.name) / 2 else 0) +
        contrib b l.bus1 l.active (val (.trafo l.name) - if losses then val (.trafoLoss l.name) / 2 else 0))).sum := by
    unfold carried
    rw [List.map_append, List.sum_append, sub_eq_add_neg, map_sum_neg, map_sum_neg, List.map_map, List.map_map]
    congr 1
    · apply map_sum_congr; intro l _
      unfold contrib
      simp only [drawn, Function.comp_apply]
      cases l.active <;> cases losses <;> by_cases h0 : l.bus0 = b <;> by_cases h1 : l.bus1 = b <;>
        simp [h0, h1] <;> ring
    · apply map_sum_congr; intro l _
      unfold contrib
      simp only [drawn, Function.comp_apply]
      cases l.active <;> cases losses <;> by_cases h0 : l.bus0 = b <;> by_cases h1 : l.bus1 = b <;>
        simp [h0, h1] <;> ring
  rw [e1, e2, e3, e4, e6]
  have e5' := e5
  unfold supplied
  rw [← e5']
  ring

/-! ### C128, injections -/

/-- **C128, injections.** For every plan the optimisation admits, with or without losses, the power flow
that starts from the fixed dispatch has at every bus exactly the injection that the flows of the plan
draw there, plus the shunts, which the optimisation ignores; whatever is out of service. -/
theorem start_injections (a : Flags) (n : Net F) (ha : Covers a n) (losses : Bool) (hb : "" ∉ n.buses)
    (rows : List (Name × Con NVar F)) (hrows : balance n losses n.buses = .ok rows) (val : NVar → F)
    (hval : Feasible val (rows.map (·.2))) (shunts : List (PowerFlow.OnePort F)) :
    ∀ b ∈ n.buses, startInjection a n val shunts b =
      ((carried n losses val).map (drawn b)).sum + shuntAt shunts b := by
  intro b hbm
  have hs := ((nodal_balance n losses n.buses hb).1 rows hrows val).mp hval b hbm
  rw [start_eq a n val shunts ha losses b (fun e => hb (e ▸ hbm)), hs]
  ring

/-- A set of buses that no branch in service leaves. -/
def Closed (n : Net F) (S : List Name) : Prop :=
  ∀ l ∈ n.lines ++ n.trafos, l.active = true → (l.bus0 ∈ S ↔ l.bus1 ∈ S)

omit [LinearOrder F] [IsStrictOrderedRing F] in
theorem sum_one {S : List Name} (hS : S.Nodup) (c : Name) (x : F) :
    (S.map (fun b => if c = b then x else 0)).sum = if c ∈ S then x else 0 := by
  induction S with
  | nil => simp
  | cons b S ih =>
    rw [List.nodup_cons] at hS
    rw [List.map_cons, List.sum_cons, ih hS.2]
    by_cases h : c = b
    · subst h; simp [hS.1]
    · simp [h]

omit [LinearOrder F] [IsStrictOrderedRing F] in
theorem sums_swap {α β : Type} (l : List α) (m : List β) (f : α → β → F) :
    (l.map (fun x => (m.map (f x)).sum)).sum = (m.map (fun y => (l.map (fun x => f x y)).sum)).sum := by
  induction l with
  | nil => simp
  | cons x l ih => simp only [List.map_cons, List.sum_cons, ih, List.sum_map_add]

/-- **C128, imbalance.** Over a sub-network the injections with which the power flow starts add up to
the losses of the plan in that sub-network plus the shunts: nothing else is left for the slack. -/
theorem start_total (a : Flags) (n : Net F) (ha : Covers a n) (losses : Bool) (hb : "" ∉ n.buses)
    (rows : List (Name × Con NVar F)) (hrows : balance n losses n.buses = .ok rows) (val : NVar → F)
    (hval : Feasible val (rows.map (·.2))) (shunts : List (PowerFlow.OnePort F))
    (S : List Name) (hnd : S.Nodup) (hS : ∀ b ∈ S, b ∈ n.buses) (hcl : Closed n S) :
    (S.map (startInjection a n val shunts)).sum =
      ((carried n losses val).map (fun c => if c.active = true ∧ c.bus0 ∈ S then c.loss else 0)).sum +
      (shunts.map (fun s => if s.active = true ∧ s.bus ∈ S then s.sign * s.p else 0)).sum := by
  have h1 : (S.map (startInjection a n val shunts)).sum =
      (S.map (fun b => ((carried n losses val).map (drawn b)).sum + shuntAt shunts b)).sum :=
    map_sum_congr (fun b hbS => start_injections a n ha losses hb rows hrows val hval shunts b (hS b hbS))
  rw [h1, List.sum_map_add]
  congr 1
  · rw [sums_swap]
    apply map_sum_congr
    intro c hc
    have hends : c.active = true → (c.bus0 ∈ S ↔ c.bus1 ∈ S) := by
      intro hact
      unfold carried at hc
      rcases List.mem_append.1 hc with h | h
      · obtain ⟨l, hl, rfl⟩ := List.mem_map.1 h
        exact hcl l (by simp [hl]) hact
      · obtain ⟨l, hl, rfl⟩ := List.mem_map.1 h
        exact hcl l (by simp [hl]) hact
    by_cases hact : c.active = true
    · simp only [drawn, hact, if_true, true_and, List.sum_map_add, sum_one hnd]
      have := hends hact
      by_cases h0 : c.bus0 ∈ S
      · rw [if_pos h0, if_pos (this.1 h0), if_pos h0]; ring
      · rw [if_neg h0, if_neg (fun h => h0 (this.2 h)), if_neg h0]; ring
    · simp only [drawn, hact]; simp
  · unfold shuntAt
    rw [sums_swap]
    apply map_sum_congr
    intro s _
    by_cases hact : s.active = true
    · simp only [hact, true_and]; exact sum_one hnd _ _
    · simp [hact]

/-- **C128, linear power flow.** Without losses and shunts the linear power flow after the optimisation
changes no dispatch: the adjustment of the slack is zero, in every sub-network, whatever its slack
bus. -/
theorem lpf_keeps_dispatch {k : Nat} (a : Flags) (n : Net F) (ha : Covers a n) (hb : "" ∉ n.buses)
    (rows : List (Name × Con NVar F)) (hrows : balance n false n.buses = .ok rows) (val : NVar → F)
    (hval : Feasible val (rows.map (·.2)))
    (name : Fin (k + 1) → Name) (hname : Function.Injective name) (hin : ∀ i, name i ∈ n.buses)
    (hcl : Closed n (List.ofFn name)) :
    PowerFlow.slackAdjustment (fun i => startInjection a n val [] (name i)) = 0 ∧
    PowerFlow.busP (fun i => startInjection a n val [] (name i)) =
      (fun i => startInjection a n val [] (name i)) ∧
    ∀ slack, PowerFlow.adjustSlack slack
      (PowerFlow.slackAdjustment (fun i => startInjection a n val [] (name i))) (fixedOps a n val) =
      fixedOps a n val := by
  have ht := start_total a n ha false hb rows hrows val hval [] (List.ofFn name)
    (List.nodup_ofFn.2 hname) (by
      intro b hbm
      obtain ⟨i, rfl⟩ := List.mem_ofFn.1 hbm
      exact hin i) hcl
  have hl : ((carried n false val).map
      (fun c => if c.active = true ∧ c.bus0 ∈ List.ofFn name then c.loss else 0)).sum = 0 := by
    apply List.sum_eq_zero
    intro x hx
    obtain ⟨c, hc, rfl⟩ := List.mem_map.1 hx
    have : c.loss = 0 := by
      unfold carried at hc
      rcases List.mem_append.1 hc with h | h
      · obtain ⟨l, _, rfl⟩ := List.mem_map.1 h; rfl
      · obtain ⟨l, _, rfl⟩ := List.mem_map.1 h; rfl
    split_ifs <;> simp [this]
  rw [hl, List.map_nil, List.sum_nil, add_zero, List.map_ofFn, List.sum_ofFn] at ht
  have hz : PowerFlow.slackAdjustment (fun i => startInjection a n val [] (name i)) = 0 := by
    unfold PowerFlow.slackAdjustment
    rw [Fin.sum_univ_succ] at ht
    simp only [Function.comp_apply] at ht
    linear_combination - ht
  refine ⟨hz, ?_, fun slack => ?_⟩
  · unfold PowerFlow.busP
    rw [hz, add_zero]
    exact Function.update_eq_self _ _
  · rw [hz]
    unfold PowerFlow.adjustSlack
    conv_rhs => rw [← List.map_id (fixedOps a n val)]
    apply List.map_congr_left
    intro o _
    split_ifs <;> simp

/-- Lines and transformers with the variable of their flow. -/
def flowVars (n : Net F) : List (Branch × NVar) :=
  n.lines.map (fun l => (l, .line l.name)) ++ n.trafos.map (fun l => (l, .trafo l.name))

/-- The grid of the linear power flow is the sub-network of the buses `name`: its branches are those in
service that start there. -/
structure IsSub {k m : Nat} (n : Net F) (g : PowerFlow.Grid F k m) (name : Fin (k + 1) → Name)
    (br : Fin m → Branch × NVar) : Prop where
  branches : (List.ofFn br).Perm
    ((flowVars n).filter (fun e => e.1.active && decide (e.1.bus0 ∈ List.ofFn name)))
  bus0 : ∀ l, name (g.bus0 l) = (br l).1.bus0
  bus1 : ∀ l, name (g.bus1 l) = (br l).1.bus1

omit [LinearOrder F] [IsStrictOrderedRing F] in
theorem sum_filter_ite {α : Type} (l : List α) (q : α → Bool) (x : α → F) (h : ∀ e ∈ l, q e = false → x e = 0) :
    ((l.filter q).map x).sum = (l.map x).sum := by
  induction l with
  | nil => rfl
  | cons e l ih =>
    have ih := ih (fun y hy => h y (by simp [hy]))
    rw [List.map_cons, List.sum_cons, ← ih]
    cases hq : q e with
    | true => rw [List.filter_cons_of_pos hq, List.map_cons, List.sum_cons]
    | false => rw [List.filter_cons_of_neg (by simp [hq]), h e (by simp) hq, zero_add]

theorem drawn_outflow {k m : Nat} (n : Net F) (g : PowerFlow.Grid F k m) (name : Fin (k + 1) → Name)
    (hname : Function.Injective name) (br : Fin m → Branch × NVar) (hg : IsSub n g name br)
    (hcl : Closed n (List.ofFn name)) (val : NVar → F) (i : Fin (k + 1)) :
    ((carried n false val).map (drawn (name i))).sum =
      PowerFlow.outflow g (fun l => val (br l).2) i := by
  have h1 : ((carried n false val).map (drawn (name i))).sum =
      ((flowVars n).map (fun e => if e.1.active = true then
        (if e.1.bus0 = name i then val e.2 else 0) + (if e.1.bus1 = name i then - val e.2 else 0) else 0)).sum := by
    unfold carried flowVars
    simp only [List.map_append, List.sum_append, List.map_map]
    congr 1
    · apply map_sum_congr; intro l _; simp [drawn]
    · apply map_sum_congr; intro l _; simp [drawn]
  have hmem : name i ∈ List.ofFn name := List.mem_ofFn.2 ⟨i, rfl⟩
  rw [h1, ← sum_filter_ite (flowVars n) (fun e => e.1.active && decide (e.1.bus0 ∈ List.ofFn name))]
  · rw [← (hg.branches.map _).sum_eq, List.map_ofFn, List.sum_ofFn]
    unfold PowerFlow.outflow
    rw [← Finset.sum_sub_distrib]
    apply Finset.sum_congr rfl
    intro l _
    have hact : (br l).1.active = true := by
      have : br l ∈ List.ofFn br := List.mem_ofFn.2 ⟨l, rfl⟩
      have := (List.mem_filter.1 (hg.branches.mem_iff.1 this)).2
      simp only [Bool.and_eq_true] at this
      exact this.1
    simp only [Function.comp_apply, hact, if_true, ← hg.bus0, ← hg.bus1, hname.eq_iff]
    split_ifs <;> ring
  · intro e he hq
    by_cases hact : e.1.active = true
    · rw [if_pos hact]
      simp only [hact, Bool.true_and, decide_eq_false_iff_not] at hq
      have hl : e.1 ∈ n.lines ++ n.trafos := by
        unfold flowVars at he
        rcases List.mem_append.1 he with h | h
        · obtain ⟨l, hl, rfl⟩ := List.mem_map.1 h; simp [hl]
        · obtain ⟨l, hl, rfl⟩ := List.mem_map.1 h; simp [hl]
      have hc := hcl e.1 hl hact
      have h0 : e.1.bus0 ≠ name i := fun h => hq (by rw [h]; exact hmem)
      have h1 : e.1.bus1 ≠ name i := fun h => hq (hc.2 (by rw [h]; exact hmem))
      rw [if_neg h0, if_neg h1, add_zero]
    · rw [if_neg hact]

/-- **C128, flows (partial: without phase shifts, see C87).** After an optimisation without losses the
linear power flow that starts from the fixed dispatch gives back the optimised flow of every line
and transformer of a sub-network. -/
theorem lpf_after_optimise_partial {k m : Nat} (a : Flags) (n : Net F) (ha : Covers a n) (hb : "" ∉ n.buses)
    (rows : List (Name × Con NVar F)) (hrows : balance n false n.buses = .ok rows) (val : NVar → F)
    (hval : Feasible val (rows.map (·.2)))
    (g : PowerFlow.Grid F k m) (name : Fin (k + 1) → Name) (hname : Function.Injective name)
    (br : Fin m → Branch × NVar) (hg : IsSub n g name br) (hin : ∀ i, name i ∈ n.buses)
    (hcl : Closed n (List.ofFn name))
    (solve : PowerFlow.Solve F) (hs : PowerFlow.Solves solve) (hz : ∀ l, 0 < g.z l)
    (hc : PowerFlow.Connected g) (hshift : ∀ l, g.shift l = 0)
    (cycles : List (List Name)) (hcyc : Graph.CycleBasis F (Kvl.gridEdges g name) cycles)
    (w f : Nat → F) (hw : ∀ l : Fin m, w l = g.z l) (hf : ∀ l : Fin m, f l = val (br l).2)
    (krows : List (Con Nat F)) (hk : Kvl.kvlCons (Kvl.gridEdges g name) w cycles = .ok krows)
    (hkf : Feasible f krows) (l : Fin m) :
    PowerFlow.flows solve g (fun i => startInjection a n val [] (name i)) l = val (br l).2 := by
  have hbal : ∀ i, PowerFlow.outflow g (fun l : Fin m => f l) i = startInjection a n val [] (name i) := by
    intro i
    rw [start_injections a n ha false hb rows hrows val hval [] (name i) (hin i),
      drawn_outflow n g name hname br hg hcl val i]
    simp only [hf]
    simp [shuntAt]
  rw [← hf l]
  exact Kvl.lpf_reproduces_partial solve hs g hz hc hshift name cycles hcyc w f hw _ hbal krows hk hkf l

/-! ### C128, controls -/

/-- Names of generators occur once; each sub-network has its slack generator among its generators,
which are known, and no generator is in two of them. -/
structure GoodSubs (subs : List SubGens) (gens : List Graph.Gen) : Prop where
  names : (gens.map (·.name)).Nodup
  slack : ∀ s ∈ subs, s.slack ∈ s.gens
  apart : subs.Pairwise (fun s s' => ∀ x ∈ s.gens, x ∉ s'.gens)

theorem foldl_least_mem (l : List Name) (a : Name) :
    l.foldl (fun best c => if c < best then c else best) a ∈ a :: l := by
  induction l generalizing a with
  | nil => simp
  | cons b l ih =>
    simp only [List.foldl_cons]
    rcases List.mem_cons.1 (ih (if b < a then b else a)) with h | h
    · rw [h]; split_ifs <;> simp
    · simp [h]

theorem pqOf_mem {s : SubGens} {x : Name} (h : pqOf s = some x) : x ∈ s.gens ∧ x ≠ s.slack := by
  unfold pqOf at h
  cases hl : s.gens.filter (fun g => g ≠ s.slack) with
  | nil => rw [hl] at h; simp [least] at h
  | cons a l =>
    rw [hl] at h
    simp only [least, Option.some.injEq] at h
    have := foldl_least_mem l a
    rw [h, ← hl] at this
    simpa using List.mem_filter.1 this

theorem pqOf_none {s : SubGens} : pqOf s = none ↔ ∀ x ∈ s.gens, x = s.slack := by
  unfold pqOf
  cases hl : s.gens.filter (fun g => g ≠ s.slack) with
  | nil =>
    simp only [least, true_iff]
    rw [List.filter_eq_nil_iff] at hl
    simpa using hl
  | cons a l =>
    simp only [least, reduceCtorEq, false_iff]
    intro h
    have : a ∈ s.gens.filter (fun g => g ≠ s.slack) := by rw [hl]; simp
    obtain ⟨h1, h2⟩ := List.mem_filter.1 this
    exact absurd (h a h1) (by simpa using h2)

theorem setSlacks_map (subs : List SubGens) (gens : List Graph.Gen) :
    setSlacks subs gens = gens.map (fun g => if (∃ s ∈ subs, s.slack = g.name) then { g with control := "Slack" } else g) := by
  unfold setSlacks
  induction subs generalizing gens with
  | nil => simp
  | cons s subs ih =>
    rw [List.foldl_cons, ih]
    unfold setAt
    rw [List.map_map]
    apply List.map_congr_left
    intro g _
    simp only [Function.comp_apply, List.mem_cons, exists_eq_or_imp]
    by_cases h : g.name = s.slack
    · rw [if_pos h]
      simp only [h, true_or, if_true]
      split_ifs <;> rfl
    · rw [if_neg h]
      have : ¬ s.slack = g.name := fun e => h e.symm
      simp only [this, false_or]

theorem setPqs_map (subs : List SubGens) (gens : List Graph.Gen) :
    setPqs subs gens = gens.map (fun g => if (∃ s ∈ subs, pqOf s = some g.name) then { g with control := "PQ" } else g) := by
  unfold setPqs
  induction subs generalizing gens with
  | nil => simp
  | cons s subs ih =>
    rw [List.foldl_cons, ih]
    cases hp : pqOf s with
    | none =>
      apply List.map_congr_left
      intro g _
      simp [hp]
    | some x =>
      unfold setAt
      simp only [List.map_map]
      apply List.map_congr_left
      intro g _
      simp only [Function.comp_apply, List.mem_cons, exists_eq_or_imp, hp, Option.some.injEq]
      by_cases h : g.name = x
      · rw [if_pos h]
        simp only [h, true_or, if_true]
        split_ifs <;> rfl
      · rw [if_neg h]
        have : ¬ x = g.name := fun e => h e.symm
        simp only [this, false_or]

theorem sub_unique {subs : List SubGens}
    (h : subs.Pairwise (fun s s' => ∀ x ∈ s.gens, x ∉ s'.gens)) {s s' : SubGens} (hs : s ∈ subs)
    (hs' : s' ∈ subs) {x : Name} (hx : x ∈ s.gens) (hx' : x ∈ s'.gens) : s = s' := by
  induction subs with
  | nil => simp at hs
  | cons a l ih =>
    rw [List.pairwise_cons] at h
    rcases List.mem_cons.1 hs with h1 | h1 <;> rcases List.mem_cons.1 hs' with h2 | h2
    · rw [h1, h2]
    · subst h1; exact absurd hx' (h.1 s' h2 x hx)
    · subst h2; exact absurd hx (h.1 s h1 x hx')
    · exact ih h.2 h1 h2

/-- **C128, controls.** Generators keep names and buses.  In each sub-network exactly its slack generator
becomes "Slack", of the others exactly one (if there are any) becomes "PQ", all others "PV"; the same
holds for generators outside, which all become "PV". -/
theorem controls_set (subs : List SubGens) (gens : List Graph.Gen) (h : GoodSubs subs gens) :
    ∃ gens', setControls (some subs) gens = some gens' ∧
      gens'.map (fun g => (g.name, g.bus)) = gens.map (fun g => (g.name, g.bus)) ∧
      (∀ g ∈ gens', (∀ s ∈ subs, g.name ∉ s.gens) → g.control = "PV") ∧
      ∀ s ∈ subs, ∃ q : Option Name,
        (q = none ↔ ∀ x ∈ s.gens, x = s.slack) ∧ (∀ x, q = some x → x ∈ s.gens ∧ x ≠ s.slack) ∧
        ∀ g ∈ gens', g.name ∈ s.gens → g.control =
          if g.name = s.slack then "Slack" else if q = some g.name then "PQ" else "PV" := by
  refine ⟨_, rfl, ?_, ?_, ?_⟩
  · rw [setPqs_map, setSlacks_map, List.map_map, List.map_map, List.map_map]
    apply List.map_congr_left
    intro g _
    simp only [Function.comp_apply]
    split_ifs <;> rfl
  · intro g hg hout
    rw [setPqs_map, setSlacks_map, List.map_map, List.map_map] at hg
    obtain ⟨g0, _, rfl⟩ := List.mem_map.1 hg
    simp only [Function.comp_apply] at hout ⊢
    have hn : ¬ ∃ s ∈ subs, s.slack = g0.name := by
      rintro ⟨s, hs, he⟩
      apply hout s hs
      have := h.slack s hs
      rw [he] at this
      split_ifs <;> exact this
    have hn2 : ¬ ∃ s ∈ subs, pqOf s = some g0.name := by
      rintro ⟨s, hs, he⟩
      apply hout s hs
      have := (pqOf_mem he).1
      split_ifs <;> exact this
    simp only [hn, if_false, hn2]
  · intro s hs
    refine ⟨pqOf s, pqOf_none, fun x hx => pqOf_mem hx, ?_⟩
    intro g hg hgs
    rw [setPqs_map, setSlacks_map, List.map_map, List.map_map] at hg
    obtain ⟨g0, _, rfl⟩ := List.mem_map.1 hg
    have hname : ∀ (c d : Prop) [Decidable c] [Decidable d],
        (if d then { (if c then { ({ g0 with control := "PV" } : Graph.Gen) with control := "Slack" }
          else { g0 with control := "PV" }) with control := "PQ" }
          else (if c then { ({ g0 with control := "PV" } : Graph.Gen) with control := "Slack" }
          else { g0 with control := "PV" })).name = g0.name := by
      intro c d _ _; split_ifs <;> rfl
    have hn0 : g0.name ∈ s.gens := by
      revert hgs; simp only [Function.comp_apply]
      split_ifs <;> exact id
    have hsl : (∃ s' ∈ subs, s'.slack = g0.name) ↔ g0.name = s.slack := by
      constructor
      · rintro ⟨s', hs', he⟩
        have h1 := h.slack s' hs'
        rw [he] at h1
        rw [sub_unique h.apart hs hs' hn0 h1, he]
      · intro he; exact ⟨s, hs, he.symm⟩
    have hpq : (∃ s' ∈ subs, pqOf s' = some g0.name) ↔ pqOf s = some g0.name := by
      constructor
      · rintro ⟨s', hs', he⟩
        rw [sub_unique h.apart hs hs' hn0 (pqOf_mem he).1, he]
      · intro he; exact ⟨s, hs, he⟩
    simp only [Function.comp_apply, hsl]
    by_cases h1 : g0.name = s.slack
    · have h2 : ¬ pqOf s = some g0.name := fun e => (pqOf_mem e).2 h1
      have h3 : ¬ ∃ s' ∈ subs, pqOf s' = some s.slack := by rw [← h1, hpq]; exact h2
      simp only [h1, if_true, h3, if_false]
    · by_cases h2 : pqOf s = some g0.name
      · have h3 := hpq.2 h2
        simp only [h1, if_false, h3, if_true, h2]
      · have h3 : ¬ ∃ s' ∈ subs, pqOf s' = some g0.name := fun e => h2 (hpq.1 e)
        simp only [h1, if_false, h3, h2]

theorem filter_eq_single {l : List Graph.Gen} {g0 : Graph.Gen} (hl : l.Nodup) (h : g0 ∈ l) :
    l.filter (fun g => decide (g = g0)) = [g0] := by
  induction l with
  | nil => simp at h
  | cons g l ih =>
    rw [List.nodup_cons] at hl
    by_cases e : g = g0
    · subst e
      rw [List.filter_cons_of_pos (by simp)]
      congr 1
      rw [List.filter_eq_nil_iff]
      intro x hx hxe
      have : x = g := by simpa using hxe
      exact hl.1 (this ▸ hx)
    · rw [List.filter_cons_of_neg (by simpa using e)]
      apply ih hl.2
      rcases List.mem_cons.1 h with h | h
      · exact absurd h.symm e
      · exact h

/-- The power flow then finds the same slack generator, and changes no control. -/
theorem slack_kept (subs : List SubGens) (gens gens' : List Graph.Gen) (h : GoodSubs subs gens)
    (hset : setControls (some subs) gens = some gens') (s : SubGens) (hs : s ∈ subs)
    (hknown : s.slack ∈ gens.map (·.name)) (buses : List Name) :
    ∃ bus, (s.slack, bus) ∈ gens.map (fun g => (g.name, g.bus)) ∧
      Graph.findSlack buses (gens'.filter (fun g => s.gens.contains g.name)) =
        some (some s.slack, bus, gens'.filter (fun g => s.gens.contains g.name)) := by
  obtain ⟨g1, hg1, hkeep, _, hctl⟩ := controls_set subs gens h
  rw [hset] at hg1
  simp only [Option.some.injEq] at hg1
  subst hg1
  obtain ⟨q, _, hq2, hc⟩ := hctl s hs
  have hnames : gens'.map (·.name) = gens.map (·.name) := by
    have := congrArg (List.map Prod.fst) hkeep
    simpa [List.map_map, Function.comp_def] using this
  rw [← hnames] at hknown
  obtain ⟨g0, hg0, hg0n⟩ := List.mem_map.1 hknown
  have hnd : (gens'.map (·.name)).Nodup := hnames ▸ h.names
  have hinj : ∀ g ∈ gens', g.name = s.slack → g = g0 := by
    intro g hg hn
    exact List.inj_on_of_nodup_map hnd hg hg0 (hn.trans hg0n.symm)
  have hfil : (gens'.filter (fun g => s.gens.contains g.name)).filter (fun g => g.control = "Slack") = [g0] := by
    rw [List.filter_filter]
    have hpred : gens'.filter (fun g => decide (g.control = "Slack") && s.gens.contains g.name) =
        gens'.filter (fun g => decide (g = g0)) := by
      apply List.filter_congr
      intro g hg
      by_cases hm : g.name ∈ s.gens
      · have := hc g hg hm
        by_cases hn : g.name = s.slack
        · have e := hinj g hg hn
          simp [this, hn, hm, ← e]
          rw [← hn]; exact hm
        · have : g.control ≠ "Slack" := by
            rw [this, if_neg hn]; split_ifs <;> decide
          have hne : g ≠ g0 := fun e => hn (e ▸ hg0n)
          simp [this, hne]
      · have hne : g ≠ g0 := by
          rintro rfl
          exact hm (hg0n ▸ h.slack s hs)
        simp [hm, hne]
    rw [hpred]
    exact filter_eq_single (List.Nodup.of_map _ hnd) hg0
  refine ⟨g0.bus, ?_, ?_⟩
  · rw [← hkeep]
    exact List.mem_map.2 ⟨g0, hg0, by rw [hg0n]⟩
  · have hne : gens'.filter (fun g => s.gens.contains g.name) ≠ [] := by
      intro e; rw [e] at hfil; simp at hfil
    obtain ⟨x, l, hx⟩ := List.exists_cons_of_ne_nil hne
    unfold Graph.findSlack
    rw [hx] at hfil ⊢
    simp only [hfil, hg0n, List.map_nil]
    congr 3
    conv_rhs => rw [← List.map_id (x :: l)]
    apply List.map_congr_left
    intro y _
    simp [Graph.setControl]

/-- **C128, buses with given reactive power (partial: see `no_pq_bus`).** If some bus of the sub-network
other than that of the slack generator has no generator of the sub-network besides the one that became
"PQ", then the power flow has a PQ bus. -/
theorem pq_bus_partial (subs : List SubGens) (gens gens' : List Graph.Gen) (h : GoodSubs subs gens)
    (hset : setControls (some subs) gens = some gens') (s : SubGens) (hs : s ∈ subs)
    (hknown : s.slack ∈ gens.map (·.name)) (buses : List Name) (old : Name → Option Name)
    (b : Name) (hb : b ∈ buses) (hsl : ∀ g ∈ gens, g.name = s.slack → g.bus ≠ b)
    (hfree : ∀ g ∈ gens', g.name ∈ s.gens → g.bus = b → g.control = "PQ") :
    ∃ c, Graph.busControls buses (gens'.filter (fun g => s.gens.contains g.name)) old = some c ∧ b ∈ c.pqs := by
  obtain ⟨bus, hbus, hfind⟩ := slack_kept subs gens gens' h hset s hs hknown buses
  obtain ⟨g0, hg0, he⟩ := List.mem_map.1 hbus
  simp only [Prod.mk.injEq] at he
  have hne : b ≠ bus := fun e => hsl g0 hg0 he.1 (he.2.trans e.symm)
  unfold Graph.busControls
  rw [hfind]
  refine ⟨_, rfl, ?_⟩
  simp only [List.mem_filter, decide_eq_true_eq]
  refine ⟨hb, ?_⟩
  rw [if_neg hne, if_neg]
  intro hm
  obtain ⟨g, hg, hgb⟩ := List.mem_map.1 hm
  obtain ⟨hg1, hg2⟩ := List.mem_filter.1 hg
  obtain ⟨hg3, hg4⟩ := List.mem_filter.1 hg1
  have h1 := hfree g hg3 (by simpa using hg4) hgb
  rw [h1] at hg2
  exact absurd hg2 (by decide)

def afterVal : NVar → ℚ
  | .gen _ => 10
  | .dispatch _ => 3
  | .charge _ => 1
  | .line _ => 3
  | .trafo _ => 3
  | .link _ => 4
  | _ => 0

def afterBr : Fin 2 → Branch × NVar := fun l =>
  if l = 0 then (⟨"l", "a", "b", true⟩, .line "l") else (⟨"t", "a", "b", true⟩, .trafo "t")

def allOn : Flags := ⟨fun _ => true, fun _ => true, fun _ => true, fun _ => true⟩

/-- Two parallel branches beside a link that loses half of what it takes; the rows of Kirchhoff's law are those of the
example in `KvlProps`. -/
example : Covers allOn Results.exNet ∧ "" ∉ Results.exNet.buses ∧
    (∃ rows, balance Results.exNet false Results.exNet.buses = .ok rows ∧ Feasible afterVal (rows.map (·.2))) ∧
    Function.Injective Kvl.exOrder ∧ IsSub Results.exNet (Kvl.exGrid 0) Kvl.exOrder afterBr ∧
    (∀ i, Kvl.exOrder i ∈ Results.exNet.buses) ∧ Closed Results.exNet (List.ofFn Kvl.exOrder) ∧
    (∀ l : Fin 2, (3 : ℚ) = afterVal (afterBr l).2) ∧
    startInjection allOn Results.exNet afterVal [] "a" = 6 ∧ startInjection allOn Results.exNet afterVal [] "b" = -6 := by
  refine ⟨⟨by decide +kernel, by decide +kernel, by decide +kernel⟩, by decide +kernel, ⟨_, rfl, by decide +kernel⟩,
    by decide +kernel, ⟨?_, by decide +kernel, by decide +kernel⟩, by decide +kernel, ?_, by decide +kernel,
    by decide +kernel, by decide +kernel⟩
  · have h : (List.ofFn afterBr) = (flowVars Results.exNet).filter
        (fun e => e.1.active && decide (e.1.bus0 ∈ List.ofFn Kvl.exOrder)) := by rfl
    rw [h]
  · intro l hl _
    simp only [Results.exNet, List.cons_append, List.nil_append, List.mem_cons, List.not_mem_nil, or_false] at hl
    rcases hl with rfl | rfl <;> decide +kernel

/-- **Finding** (`optimize.py` 743-744): shunt impedances are not in the nodal balance, but draw power in the
power flow, so that the slack does not keep its dispatch. -/
theorem shunt_not_optimised : ∃ rows, balance Results.exNet false Results.exNet.buses = .ok rows ∧
    Feasible afterVal (rows.map (·.2)) ∧
    startInjection allOn Results.exNet afterVal [] "a" + startInjection allOn Results.exNet afterVal [] "b" = 0 ∧
    startInjection allOn Results.exNet afterVal [⟨"s", "b", -1, true, 2⟩] "a" +
      startInjection allOn Results.exNet afterVal [⟨"s", "b", -1, true, 2⟩] "b" ≠ 0 :=
  ⟨_, rfl, by decide +kernel, by decide +kernel, by decide +kernel⟩

/-- Two buses with two generators each. -/
def fourGens : List Graph.Gen := [⟨"g0", "a", "PQ"⟩, ⟨"g1", "a", "PQ"⟩, ⟨"g2", "b", "PQ"⟩, ⟨"g3", "b", "PQ"⟩]

def fourSubs : List SubGens := [⟨"g0", ["g0", "g1", "g2", "g3"]⟩]

/-- The step meant to leave a PQ bus ("Need some PQ buses so that Jacobian doesn't break") may leave
none: here the chosen generator is at the bus of the slack generator. -/
theorem no_pq_bus : GoodSubs fourSubs fourGens ∧ ∃ gens' c, setControls (some fourSubs) fourGens = some gens' ∧
    Graph.busControls ["a", "b"] gens' (fun _ => none) = some c ∧ c.pqs = [] ∧ c.pvs = ["b"] := by
  refine ⟨⟨by decide +kernel, by decide +kernel, by simp [fourSubs]⟩, _, _, rfl, rfl, ?_, ?_⟩ <;> decide +kernel

/-- Without lines and transformers no topology is determined and the loop over sub-networks raises. -/
theorem controls_without_branches (gens : List Graph.Gen) : setControls none gens = none := rfl

/-- Two sub-networks; the second has a slack generator only. -/
def twoSubs : List SubGens := [⟨"g1", ["g3", "g1", "g2"]⟩, ⟨"h", ["h"]⟩]

def fiveGens : List Graph.Gen :=
  [⟨"g3", "a", "PQ"⟩, ⟨"g1", "a", "Slack"⟩, ⟨"g2", "b", "PV"⟩, ⟨"h", "c", "PQ"⟩, ⟨"off", "c", "PQ"⟩]

example : GoodSubs twoSubs fiveGens ∧ ∃ gens', setControls (some twoSubs) fiveGens = some gens' ∧
    gens'.map (·.control) = ["PV", "Slack", "PQ", "Slack", "PV"] ∧
    (∀ g ∈ fiveGens, g.name = "g1" → g.bus ≠ "b") ∧
    ∀ g ∈ gens', g.name ∈ ["g3", "g1", "g2"] → g.bus = "b" → g.control = "PQ" := by
  refine ⟨⟨by decide +kernel, by decide +kernel, by simp [twoSubs]⟩, _, rfl, ?_, ?_, ?_⟩ <;> decide +kernel

end Verif.Opt.AfterFlow
