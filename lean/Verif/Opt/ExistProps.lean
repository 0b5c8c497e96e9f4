import Verif.Opt.Farkas
import Verif.Opt.RulesProps
import Verif.Opt.WholeProps
import Verif.Opt.WholeExample
import Verif.Opt.EmissionProps

/-!
# An optimum exists, and so do prices for it (C154)

The theorems about prices (C107 to C111, C135, C138) speak of a pair of solution and duals.  Here it is shown for the problem that `createModel` builds
(`pypsa/optimization/optimize.py` 208-325, see `Whole.lean`) that such a pair exists whenever it can: if the rules allow a plan and costs are limited below, then there
is a plan with least costs; every plan with least costs has prices; and if the rules allow no plan, then weights of the rows prove it.
-/

namespace Verif.Opt.Whole.Exist

open Doc

variable {F : Type} [Field F] [LinearOrder F] [IsStrictOrderedRing F]

/-! ## One row of the balance per bus and snapshot -/

omit [IsStrictOrderedRing F] in
theorem balance_keys {w : WNet F} (hw : Sound w) {bal : List ((Name × Nat) × Con WVar F)} (h : balanceRows w = some bal) :
    (bal.map (·.1)).Nodup := by
  unfold balanceRows at h
  obtain ⟨ls, hls, rfl⟩ := Option.map_eq_some_iff.mp h
  have hm := mapM_some_eq _ _ ls hls
  have hn : (List.range w.len).Nodup := List.nodup_range
  generalize List.range w.len = ts at hm hls hn
  clear hls h
  suffices hh : (ls.flatten.map (·.1)).Nodup ∧ ∀ k ∈ ls.flatten.map (·.1), k.2 ∈ ts from hh.1
  induction ts generalizing ls with
  | nil =>
    cases ls with
    | nil => simp
    | cons a b => simp at hm
  | cons t ts ih =>
    cases ls with
    | nil => simp at hm
    | cons l ls =>
      simp only [List.map_cons, List.cons.injEq] at hm
      obtain ⟨h1, h2⟩ := hm
      obtain ⟨rows, h3, h4⟩ := Option.map_eq_some_iff.mp h1
      have h5 : Nodal.createBalance (nodal w t) (w.tangents != 0) w.threshold = .ok rows := by
        cases hc : Nodal.createBalance (nodal w t) (w.tangents != 0) w.threshold with
        | error e => rw [hc] at h3; cases h3
        | ok r => rw [hc] at h3; injection h3 with h3; rw [h3]
      subst h4
      obtain ⟨hnt, hnd⟩ := List.nodup_cons.mp hn
      obtain ⟨i1, i2⟩ := ih ls h2 hnd
      have hk := ((Nodal.split_same_partial (nodal w t) (w.tangents != 0) w.threshold hw.noEmpty hw.buses (refs_known hw t)).1 rows h5).1
      simp only [List.flatten_cons, List.map_append, List.map_map]
      have e : ((fun x : (Name × Nat) × Con WVar F => x.1) ∘ fun r : Name × Con Nodal.NVar F => ((r.1, t), remap (nodalVar t) r.2)) =
          (fun b => (b, t)) ∘ (fun r : Name × Con Nodal.NVar F => r.1) := rfl
      rw [e, ← List.map_map]
      constructor
      · refine List.nodup_append.mpr ⟨List.Nodup.map (fun a b hab => (Prod.mk.inj hab).1) hk, i1, ?_⟩
        rintro a ha b hb rfl
        obtain ⟨q, -, rfl⟩ := List.mem_map.mp ha
        exact hnt (i2 _ hb)
      · intro k hk'
        rcases List.mem_append.mp hk' with hk' | hk'
        · obtain ⟨q, -, rfl⟩ := List.mem_map.mp hk'
          exact List.mem_cons_self
        · exact List.mem_cons_of_mem _ (i2 k hk')

/-- Numbers in the order of a list without repeated keys are a function of the keys. -/
theorem by_key {α β γ : Type} [DecidableEq α] (d : γ) : ∀ (l : List (α × β)) (m : List γ), (l.map (·.1)).Nodup → m.length = l.length →
    ∃ f : α → γ, (l.map (·.2)).zip m = l.map (fun r => (r.2, f r.1)) ∧ ∀ a, a ∉ l.map (·.1) → f a = d
  | [], [], _, _ => ⟨fun _ => d, rfl, fun _ _ => rfl⟩
  | [], _ :: _, _, h => by simp at h
  | _ :: _, [], _, h => by simp at h
  | r :: l, c :: m, h, hl => by
    obtain ⟨h1, h2⟩ := List.nodup_cons.mp h
    obtain ⟨f, hf, hz⟩ := by_key d l m h2 (by simpa using hl)
    refine ⟨fun a => if a = r.1 then c else f a, ?_, fun a ha => ?_⟩
    swap
    · rw [List.map_cons, List.mem_cons, not_or] at ha
      exact (if_neg ha.1).trans (hz a ha.2)
    simp only [List.map_cons, List.zip_cons_cons, if_pos, hf]
    congr 1
    apply List.map_congr_left
    intro q hq
    rw [if_neg]
    intro e
    have := List.mem_map_of_mem (f := fun x : α × β => x.1) hq
    simp only [e] at this
    exact h1 this

/-- Sum over the rows of one snapshot, for numbers that vanish at buses without a row. -/
theorem balance_sum_one {n : Nodal.Net F} {losses : Bool} {threshold : Nat} {rows : List (Name × Con Nodal.NVar F)}
    (hne : "" ∉ n.buses) (hnd : n.buses.Nodup) (href : ∀ b ∈ Nodal.busRefs n, b ∈ n.buses)
    (h : Nodal.createBalance n losses threshold = .ok rows) (f : Name → F) (hf : ∀ b, b ∉ rows.map (·.1) → f b = 0) :
    (rows.map (fun r => f r.1 * r.2.rhs)).sum = (n.buses.map (fun b => f b * Nodal.demanded n b)).sum := by
  obtain ⟨hk, rows', h', hiff, -⟩ := (Nodal.split_same_partial n losses threshold hne hnd href).1 rows h
  unfold Nodal.balance at h'
  split at h'
  · cases h'
  split at h'
  · cases h'
  injection h' with h'
  subst h'
  have hk' : (((n.buses.filter (fun b => !(Nodal.termsAt n losses b).isEmpty)).map
      (fun b => (b, (⟨Nodal.termsAt n losses b, .eq, Nodal.loadAt n b⟩ : Con Nodal.NVar F))))).Nodup := by
    apply List.Nodup.map _ (hnd.filter _)
    intro a b hab
    exact (Prod.mk.inj hab).1
  have hperm := (List.perm_ext_iff_of_nodup (List.Nodup.of_map _ hk) hk').mpr hiff
  rw [(hperm.map _).sum_eq, List.map_map]
  rw [Objective.sum_filter_eq]
  · congr 1
    apply List.map_congr_left
    intro b _
    simp only [Function.comp]
    rw [Nodal.loadAt_eq]
  · intro b _ hb
    have : f b = 0 := by
      apply hf
      intro hm
      obtain ⟨r, hr, hrb⟩ := List.mem_map.mp hm
      obtain ⟨c, hc, rfl⟩ := List.mem_map.mp ((hiff r).mp hr)
      simp only at hrb
      subst hrb
      rw [(List.mem_filter.mp hc).2] at hb
      cases hb
    simp [this]

theorem balance_bill {w : WNet F} (hw : Sound w) {bal : List ((Name × Nat) × Con WVar F)} (h : balanceRows w = some bal)
    (lam : Name → Nat → F) (hf : ∀ k, k ∉ bal.map (·.1) → lam k.1 k.2 = 0) :
    (bal.map (fun r => lam r.1.1 r.1.2 * r.2.rhs)).sum =
      ((List.range w.len).map (fun t => (w.buses.map (fun b => lam b t * Nodal.demanded (nodal w t) b)).sum)).sum := by
  have hall := balance_keys hw h
  unfold balanceRows at h
  obtain ⟨ls, hls, rfl⟩ := Option.map_eq_some_iff.mp h
  have hm := mapM_some_eq _ _ ls hls
  have hn : (List.range w.len).Nodup := List.nodup_range
  generalize List.range w.len = ts at hm hls hn ⊢
  have hf' : ∀ t ∈ ts, ∀ b, (b, t) ∉ ls.flatten.map (·.1) → lam b t = 0 := fun t _ b hb => hf (b, t) hb
  clear hls h hall hf
  induction ts generalizing ls with
  | nil =>
    cases ls with
    | nil => rfl
    | cons a b => simp at hm
  | cons t ts ih =>
    cases ls with
    | nil => simp at hm
    | cons l ls =>
      simp only [List.map_cons, List.cons.injEq] at hm
      obtain ⟨h1, h2⟩ := hm
      obtain ⟨rows, h3, h4⟩ := Option.map_eq_some_iff.mp h1
      have h5 : Nodal.createBalance (nodal w t) (w.tangents != 0) w.threshold = .ok rows := by
        cases hc : Nodal.createBalance (nodal w t) (w.tangents != 0) w.threshold with
        | error e => rw [hc] at h3; cases h3
        | ok r => rw [hc] at h3; injection h3 with h3; rw [h3]
      subst h4
      obtain ⟨hnt, hnd⟩ := List.nodup_cons.mp hn
      have later : ∀ k ∈ ls.flatten.map (·.1), k.2 ∈ ts := by
        clear ih hf' h1 h3 h5 hn hnt hnd rows t
        intro k hk
        obtain ⟨r, hr, rfl⟩ := List.mem_map.mp hk
        obtain ⟨l, hl, hr⟩ := List.mem_flatten.mp hr
        have : some l ∈ ls.map some := List.mem_map_of_mem hl
        rw [← h2] at this
        obtain ⟨s, hs, e⟩ := List.mem_map.mp this
        obtain ⟨rows, -, e⟩ := Option.map_eq_some_iff.mp e
        subst e
        obtain ⟨q, -, rfl⟩ := List.mem_map.mp hr
        exact hs
      simp only [List.flatten_cons, List.map_append, List.sum_append, List.map_cons, List.sum_cons]
      rw [ih ls h2 hnd, List.map_map]
      · congr 1
        refine (balance_sum_one (n := nodal w t) hw.noEmpty hw.buses (refs_known hw t) h5 (fun b => lam b t) (fun b hb => ?_))
        refine hf' t List.mem_cons_self b (fun hm => ?_)
        rw [List.flatten_cons, List.map_append, List.mem_append] at hm
        rcases hm with hm | hm
        · rw [List.map_map] at hm
          obtain ⟨q, hq, e⟩ := List.mem_map.mp hm
          exact hb (List.mem_map.mpr ⟨q, hq, (Prod.mk.inj e).1⟩)
        · exact hnt (later _ hm)
      · intro s hs b hb
        refine hf' s (List.mem_cons_of_mem _ hs) b (fun hm => ?_)
        rw [List.flatten_cons, List.map_append, List.mem_append] at hm
        rcases hm with hm | hm
        · rw [List.map_map] at hm
          obtain ⟨q, hq, e⟩ := List.mem_map.mp hm
          exact hnt ((Prod.mk.inj e).2 ▸ hs)
        · exact hb hm

/-! ## Prices of an optimum -/

omit [IsStrictOrderedRing F] in
theorem feasibleIn_append (P : Program F) (x : WVar → F) : FeasibleIn P x ↔ Feasible x (P.balance.map (·.2) ++ P.rows) := by
  unfold FeasibleIn Feasible
  simp only [List.forall_mem_append]
  exact and_comm

theorem solver_prices {w : WNet F} (hw : Sound w) {other : List (Con WVar F)} {P : Program F} (hP : createModel w other = some P)
    {x : WVar → F} (hx : FeasibleIn P x) (hmin : ∀ z, FeasibleIn P z → lin x P.linear ≤ lin z P.linear) :
    ∃ lam mu, Solved P x lam mu := by
  obtain ⟨own, bal, o, h1, h2, h3, h4, -, h5, h6⟩ := createModel_parts hP
  have hk : (P.balance.map (·.1)).Nodup := by rw [h5]; exact balance_keys hw h2
  obtain ⟨nu, hl, ha⟩ := Farkas.duals_exist ((feasibleIn_append P x).mp hx) (fun y hy => hmin y ((feasibleIn_append P y).mpr hy))
  have hlen : (nu.take P.balance.length).length = P.balance.length := by
    rw [List.length_take, hl]
    simp
  obtain ⟨f, hf, -⟩ := by_key 0 P.balance (nu.take P.balance.length) hk hlen
  refine ⟨fun b t => f (b, t), nu.drop P.balance.length, ⟨by rw [List.length_drop, hl]; simp, ?_⟩⟩
  have e : (P.balance.map (·.2) ++ P.rows).zip nu =
      P.balance.map (fun r => (r.2, f (r.1.1, r.1.2))) ++ P.rows.zip (nu.drop P.balance.length) := by
    conv_lhs => rw [← List.take_append_drop P.balance.length nu]
    rw [List.zip_append (by rw [hlen]; simp)]
    rw [hf]
  rw [← e]
  exact ha

/-! ## The statements about plans -/

/-- The plans the rules allow, with the rows from outside. -/
def Plan (w : WNet F) (other : List (Con WVar F)) (x : WVar → F) : Prop := Rules w x ∧ Feasible x other

section
variable {w : WNet F} (hw : Sound w) (hlin : LinearCosts w) (hd : Orderly w) {other : List (Con WVar F)}
  (ho : ∀ r ∈ other, ∀ e ∈ r.terms, e.2 ≠ .const) {P : Program F} (hP : createModel w other = some P)
include hw hlin hd ho hP

/-- If there is a plan and costs are limited below, then some plan has least costs. -/
theorem best_exists (h0 : ∃ x, Plan w other x) {δ : F} (h : ∀ x, Plan w other x → δ ≤ totalCost w x) :
    ∃ x, Best w other (fun _ => True) x := by
  obtain ⟨x0, h1, h2⟩ := h0
  have fs : FeasibleIn P (setConst (Objective.constant (objNet w)) x0) :=
    (rules_iff hw hd hP _).mpr ⟨rules_const _ h1, other_const ho _ h2, rfl⟩
  have hb : ∀ z, Feasible z (P.balance.map (·.2) ++ P.rows) → δ - Objective.constant (objNet w) ≤ lin z P.linear := by
    intro z hz
    have hz' := (feasibleIn_append P z).mpr hz
    obtain ⟨r1, r2, -⟩ := (rules_iff hw hd hP z).mp hz'
    have hc := cost_total hlin hP z hz'
    have := h z ⟨r1, r2⟩
    rw [← hc] at this
    unfold costOf at this
    linarith
  obtain ⟨x, hx, hm⟩ := Farkas.optimum_exists ⟨_, (feasibleIn_append P _).mp fs⟩ hb
  refine ⟨x, ((best_iff hw hlin hd ho hP (fun _ => True) (fun _ _ _ => trivial) x).1 ⟨(feasibleIn_append P x).mpr hx, trivial, fun z hz _ => ?_⟩).1⟩
  have := hm z ((feasibleIn_append P z).mp hz)
  unfold costOf
  linarith

/-- Every plan with least costs has prices: the solver's answer for it exists. -/
theorem prices_exist {x : WVar → F} (hx : Best w other (fun _ => True) x) :
    ∃ lam mu, Solved P (setConst (Objective.constant (objNet w)) x) lam mu := by
  obtain ⟨h1, -, h3⟩ := (best_iff hw hlin hd ho hP (fun _ => True) (fun _ _ _ => trivial) x).2 hx
  refine solver_prices hw hP h1 (fun z hz => ?_)
  have := h3 z hz trivial
  unfold costOf at this
  linarith

/-- Only plans with least costs have prices. -/
theorem priced_best {x : WVar → F} {lam : Name → Nat → F} {mu : List F} (hs : Solved P x lam mu) : Best w other (fun _ => True) x :=
  ((best_iff hw hlin hd ho hP (fun _ => True) (fun _ _ _ => trivial) x).1 (Emissions.best_of_solved hs w)).1

end

/-! ## Rules without the balance -/

/-- Each asset obeys its own rules; the balance of the buses is left out. -/
structure AssetRules (w : WNet F) (x : WVar → F) : Prop where
  gens : ∀ g ∈ w.gens, GenRule w g (fun v => x (.of "Generator" g.name v))
  links : ∀ g ∈ w.links, LinkRule w g (fun v => x (.of "Link" g.name v))
  stores : ∀ g ∈ w.stores, StoreRule w g (fun v => x (.of "Store" g.name v))
  units : ∀ g ∈ w.units, StorageRule w g (fun v => x (.of "StorageUnit" g.name v))
  lines : ∀ g ∈ w.lines, BranchRule w g (fun v => x (.of "Line" g.name v))
  trafos : ∀ g ∈ w.trafos, BranchRule w g (fun v => x (.of "Transformer" g.name v))

omit [IsStrictOrderedRing F] in
theorem Rules.assets {w : WNet F} {x : WVar → F} (h : Rules w x) : AssetRules w x := ⟨h.gens, h.links, h.stores, h.units, h.lines, h.trafos⟩

theorem own_hold {w : WNet F} (hd : Orderly w) {own : List (Con WVar F)} (h1 : ownRows w = some own) {x : WVar → F} (h : AssetRules w x) :
    Feasible x own := by
  intro r hr
  rcases mem_ownRows h1 r hr with ⟨g, hg, rs, e, c, hc, rfl⟩ | ⟨g, hg, rs, e, c, hc, rfl⟩ | ⟨g, hg, rs, e, c, hc, rfl⟩ |
    ⟨g, hg, rs, e, c, hc, rfl⟩ | ⟨g, hg, rs, e, c, hc, rfl⟩ | ⟨g, hg, rs, e, c, hc, rfl⟩
  · exact (holds_remap _ _ _).mpr ((gen_rule (hd.gens g hg) e _).mpr (h.gens g hg) c hc)
  · exact (holds_remap _ _ _).mpr ((link_rule (hd.links g hg) e _).mpr (h.links g hg) c hc)
  · exact (holds_remap _ _ _).mpr ((store_rule (hd.stores g hg) e _).mpr (h.stores g hg) c hc)
  · exact (holds_remap _ _ _).mpr ((storage_rule (hd.units g hg) e _).mpr (h.units g hg) c hc)
  · exact (holds_remap _ _ _).mpr ((branch_rule rfl e _).mpr (h.lines g hg) c hc)
  · exact (holds_remap _ _ _).mpr ((branch_rule rfl e _).mpr (h.trafos g hg) c hc)

/-- What is supplied to the buses is worth at these prices (of a unit of power at a snapshot). -/
def worth (w : WNet F) (lam : Name → Nat → F) (x : WVar → F) : F :=
  ((List.range w.len).map (fun t => (w.buses.map (fun b => lam b t * supply w x t b)).sum)).sum

/-- What the loads are worth. -/
def bill (w : WNet F) (lam : Name → Nat → F) : F :=
  ((List.range w.len).map (fun t => (w.buses.map (fun b => lam b t * demand w t b)).sum)).sum

omit [IsStrictOrderedRing F] in
theorem worth_bill {w : WNet F} (lam : Name → Nat → F) {x : WVar → F} (h : ∀ t < w.len, ∀ b ∈ w.buses, supply w x t b = demand w t b) :
    worth w lam x = bill w lam := by
  unfold worth bill
  congr 1
  apply List.map_congr_left
  intro t ht
  congr 1
  apply List.map_congr_left
  intro b hb
  rw [h t (List.mem_range.mp ht) b hb]

/-! ## Prices as a market: the plan with least costs is the one with the greatest profit -/

section
variable {w : WNet F} (hw : Sound w) (hlin : LinearCosts w) (hd : Orderly w) {other : List (Con WVar F)}
  (ho : ∀ r ∈ other, ∀ e ∈ r.terms, e.2 ≠ .const) {P : Program F} (hP : createModel w other = some P)
include hw hlin hd ho hP

/-- Costs less revenue at the prices of an optimum: no way to run the assets does better. -/
theorem joint {x : WVar → F} {lam : Name → Nat → F} {mu : List F} (hs : Solved P x lam mu) {z : WVar → F} (hz : AssetRules w z) (hzo : Feasible z other) :
    totalCost w x - worth w lam x ≤ totalCost w z - worth w lam z := by
  obtain ⟨own, bal, o, h1, h2, h3, h4, -, h5, h6⟩ := createModel_parts hP
  have hb := Emissions.best_of_solved hs w
  set k := Objective.constant (objNet w) with hk
  have hxf := hb.1
  have hz' : Feasible (setConst k z) P.rows := by
    rw [h6]
    intro r hr
    rcases List.mem_append.mp hr with hr | hr
    · exact own_hold hd h1 (x := setConst k z) ⟨hz.gens, hz.links, hz.stores, hz.units, hz.lines, hz.trafos⟩ r hr
    · rcases List.mem_cons.mp hr with rfl | hr
      · simp [constRow, Con.holds, lin, setConst, hk]
      · exact other_const ho k hzo r hr
  have cost : ∀ y : WVar → F, Feasible y P.rows → lin y P.linear = totalCost w y - k := by
    intro y hy
    have := objective_cost hlin hP y hy
    rw [system_total hlin] at this
    linarith
  have value : ∀ y : WVar → F, lin y P.linear = worth w lam y + ((P.rows.zip mu).map (fun r => r.2 * lin y r.1.terms)).sum := by
    intro y
    rw [lin_of_stationary _ _ hs.answer.stationary y, List.map_append, List.sum_append, List.map_map]
    congr 1
    rw [h5]
    refine (balance_sum hw h2 (fun b t s _ => lam b t * s) (fun b t d => by simp) y).trans ?_
    unfold worth
    simp only [supply_rule]
  have hsl := slackness hs.answer
  have gap : ((P.rows.zip mu).map (fun r => r.2 * lin x r.1.terms)).sum ≤ ((P.rows.zip mu).map (fun r => r.2 * lin (setConst k z) r.1.terms)).sum := by
    apply List.sum_le_sum
    intro r hr
    have hm : r ∈ P.balance.map (fun r => (r.2, lam r.1.1 r.1.2)) ++ P.rows.zip mu := List.mem_append_right _ hr
    rw [hsl r hm]
    have := dual_gap hs.answer r hm r.1.terms r.1.rhs (setConst k z) (hz' _ (mem_zip_left hr))
    rw [mul_sub] at this
    linarith
  have e1 := cost x hxf.1
  have e2 := cost _ hz'
  have e3 := value x
  have e4 := value (setConst k z)
  have e5 : totalCost w (setConst k z) = totalCost w z := rfl
  have e6 : worth w lam (setConst k z) = worth w lam z := rfl
  rw [e5] at e2
  rw [e6] at e4
  linarith

/-- A plan has least costs exactly if there are prices at which the assets together, each within its own rules and all within the rows from outside, could not
earn more. -/
theorem market (x : WVar → F) : Best w other (fun _ => True) x ↔ Plan w other x ∧
    ∃ lam : Name → Nat → F, ∀ z, AssetRules w z → Feasible z other → totalCost w x - worth w lam x ≤ totalCost w z - worth w lam z := by
  constructor
  · intro h
    obtain ⟨lam, mu, hs⟩ := prices_exist hw hlin hd ho hP h
    exact ⟨⟨h.1, h.2.1⟩, lam, fun z h1 h2 => joint hw hlin hd ho hP hs h1 h2⟩
  · rintro ⟨⟨h1, h2⟩, lam, h⟩
    refine ⟨h1, h2, trivial, fun z z1 z2 _ => ?_⟩
    have := h z (Rules.assets z1) z2
    rw [worth_bill lam h1.balance, worth_bill lam z1.balance] at this
    linarith

omit hlin in
/-- There is no plan exactly if there are prices at which nothing the assets can do is worth as much as the loads. -/
theorem no_plan : (¬ ∃ x, Plan w other x) ↔ ∃ lam : Name → Nat → F, ∀ z, AssetRules w z → Feasible z other → worth w lam z < bill w lam := by
  constructor
  swap
  · rintro ⟨lam, h⟩ ⟨x, h1, h2⟩
    have := h x (Rules.assets h1) h2
    rw [worth_bill lam h1.balance] at this
    exact lt_irrefl _ this
  · intro hno
    obtain ⟨own, bal, o, h1, h2, h3, h4, -, h5, h6⟩ := createModel_parts hP
    have hn : ¬ ∃ x, Feasible x (P.balance.map (·.2) ++ P.rows) := by
      rintro ⟨x, hx⟩
      obtain ⟨r1, r2, -⟩ := (rules_iff hw hd hP x).mp ((feasibleIn_append P x).mpr hx)
      exact hno ⟨x, r1, r2⟩
    obtain ⟨nu, hl, hsg, hst, hpos⟩ := (Farkas.no_point _).mp hn
    have hk : (P.balance.map (·.1)).Nodup := by rw [h5]; exact balance_keys hw h2
    have hlen : (nu.take P.balance.length).length = P.balance.length := by
      rw [List.length_take, hl]
      simp
    obtain ⟨f, hf, hf0⟩ := by_key 0 P.balance (nu.take P.balance.length) hk hlen
    have e : (P.balance.map (·.2) ++ P.rows).zip nu =
        P.balance.map (fun r => (r.2, f r.1)) ++ P.rows.zip (nu.drop P.balance.length) := by
      conv_lhs => rw [← List.take_append_drop P.balance.length nu]
      rw [List.zip_append (by rw [hlen]; simp)]
      rw [hf]
    refine ⟨fun b t => f (b, t), fun z hz hzo => ?_⟩
    set k := Objective.constant (objNet w) with hkk
    have hz' : Feasible (setConst k z) P.rows := by
      rw [h6]
      intro r hr
      rcases List.mem_append.mp hr with hr | hr
      · exact own_hold hd h1 (x := setConst k z) ⟨hz.gens, hz.links, hz.stores, hz.units, hz.lines, hz.trafos⟩ r hr
      · rcases List.mem_cons.mp hr with rfl | hr
        · simp [constRow, Con.holds, lin, setConst, hkk]
        · exact other_const ho k hzo r hr
    have s1 := lin_of_stationary [] _ (fun v => ((hst v).symm : coef [] v = _)) (setConst k z)
    rw [e, List.map_append, List.sum_append, List.map_map] at s1 hpos
    have b1 : (P.balance.map (fun r => f r.1 * lin (setConst k z) r.2.terms)).sum = worth w (fun b t => f (b, t)) z := by
      rw [h5]
      refine (balance_sum hw h2 (fun b t s _ => f (b, t) * s) (fun b t d => by simp) (setConst k z)).trans ?_
      unfold worth
      simp only [supply_rule]
      rfl
    have b2 : (P.balance.map (fun r => f r.1 * r.2.rhs)).sum = bill w (fun b t => f (b, t)) := by
      rw [h5] at hf0 ⊢
      refine (balance_bill hw h2 (fun b t => f (b, t)) hf0).trans ?_
      unfold bill
      simp only [demand_rule]
    have gap : ((P.rows.zip (nu.drop P.balance.length)).map (fun r => r.2 * r.1.rhs)).sum ≤
        ((P.rows.zip (nu.drop P.balance.length)).map (fun r => r.2 * lin (setConst k z) r.1.terms)).sum := by
      apply List.sum_le_sum
      intro r hr
      obtain ⟨g1, g2⟩ := hsg r (e ▸ List.mem_append_right _ hr)
      have hh := hz' _ (mem_zip_left hr)
      unfold Con.holds at hh
      cases hs : r.1.sense with
      | le => rw [hs] at hh; exact mul_le_mul_of_nonpos_left hh (g1 hs)
      | ge => rw [hs] at hh; exact mul_le_mul_of_nonneg_left hh (g2 hs)
      | eq => rw [hs] at hh; exact le_of_eq (by rw [show lin _ _ = _ from hh])
    simp only [Function.comp_def] at s1 hpos
    rw [b1, lin_nil] at s1
    rw [b2] at hpos
    linarith

/-- Exactly one of three holds: prices prove that there is no plan, or the costs of plans fall below every limit, or some plan has least costs (and so prices). -/
theorem three_ways :
    ((∃ lam : Name → Nat → F, ∀ z, AssetRules w z → Feasible z other → worth w lam z < bill w lam) ∧ ¬ (∃ x, Plan w other x)) ∨
    ((∀ δ : F, ∃ x, Plan w other x ∧ totalCost w x < δ) ∧ ¬ ∃ x, Best w other (fun _ => True) x) ∨
    (∃ x lam mu, Best w other (fun _ => True) x ∧ Solved P x lam mu) := by
  by_cases h0 : ∃ x, Plan w other x
  · right
    by_cases hb : ∃ δ : F, ∀ x, Plan w other x → δ ≤ totalCost w x
    · right
      obtain ⟨δ, hδ⟩ := hb
      obtain ⟨x, hx⟩ := best_exists hw hlin hd ho hP h0 hδ
      obtain ⟨lam, mu, hs⟩ := prices_exist hw hlin hd ho hP hx
      exact ⟨_, lam, mu, priced_best hw hlin hd ho hP hs, hs⟩
    · left
      push Not at hb
      refine ⟨hb, ?_⟩
      rintro ⟨x, hx⟩
      obtain ⟨z, hz, hlt⟩ := hb (totalCost w x)
      exact absurd (hx.2.2.2 z hz.1 hz.2 trivial) (not_le.mpr hlt)
  · exact Or.inl ⟨(no_plan hw hd ho hP).mp h0, h0⟩

end

/-! ## Costs that are not negative -/

/-- Nothing is paid for being built or run: capacities, lower limits and costs are not negative, and stores have no marginal cost (their power has both signs). -/
structure Thrifty (w : WNet F) : Prop where
  weights : ∀ t < w.len, 0 ≤ weight w t
  genSize : ∀ g ∈ w.gens, 0 ≤ g.unit.nom ∧ (g.unit.extendable = true → 0 ≤ g.invest.nomMin ∧ 0 ≤ lifeWeight w g.invest * g.invest.capitalCost)
  genRun : ∀ g ∈ w.gens, ∀ t < w.len, 0 ≤ g.unit.minPu t ∧ 0 ≤ g.costs.marginal t ∧ 0 ≤ g.costs.standBy t
  linkSize : ∀ g ∈ w.links, 0 ≤ g.unit.nom ∧ (g.unit.extendable = true → 0 ≤ g.invest.nomMin ∧ 0 ≤ lifeWeight w g.invest * g.invest.capitalCost)
  linkRun : ∀ g ∈ w.links, ∀ t < w.len, 0 ≤ g.unit.minPu t ∧ 0 ≤ g.costs.marginal t ∧ 0 ≤ g.costs.standBy t
  storeSize : ∀ s ∈ w.stores, 0 ≤ s.nom ∧ (s.ext = true → 0 ≤ s.invest.nomMin ∧ 0 ≤ lifeWeight w s.invest * s.invest.capitalCost)
  storeRun : ∀ s ∈ w.stores, ∀ t < w.len, 0 ≤ s.minPu t ∧ s.costs.marginal t = 0 ∧ 0 ≤ s.costs.marginalStorage t
  unitSize : ∀ s ∈ w.units, s.ext = true → 0 ≤ s.invest.nomMin ∧ 0 ≤ lifeWeight w s.invest * s.invest.capitalCost
  unitRun : ∀ s ∈ w.units, ∀ t < w.len, 0 ≤ s.costs.marginal t ∧ 0 ≤ s.costs.marginalStorage t ∧ 0 ≤ s.costs.spillCost t
  lineSize : ∀ b ∈ w.lines, b.ext = true → 0 ≤ b.invest.nomMin ∧ 0 ≤ lifeWeight w b.invest * b.invest.capitalCost
  trafoSize : ∀ b ∈ w.trafos, b.ext = true → 0 ≤ b.invest.nomMin ∧ 0 ≤ lifeWeight w b.invest * b.invest.capitalCost

theorem built {ext : Bool} {i : Invest F} {cap mods c : F} (h : CapRule ext i cap mods) (hc : ext = true → 0 ≤ i.nomMin ∧ 0 ≤ c) :
    0 ≤ if ext = true then c * cap else 0 := by
  split
  · rename_i e
    exact mul_nonneg (hc e).2 ((hc e).1.trans (h.least e))
  · exact le_rfl

theorem unit_runs {u : Unit' F} {past : Past F} {linear ramps : Prop} {n : Nat} {p status up down : Nat → F} {cap : F} (h : UnitRule u past linear ramps n p status up down cap)
    (hn : 0 ≤ u.nom) (hcap : u.extendable = true → 0 ≤ cap) (t : Nat) (ht : t < n) (ha : u.active t = true) (hm : 0 ≤ u.minPu t) : 0 ≤ p t := by
  cases he : u.extendable with
  | true => exact (mul_nonneg hm (hcap he)).trans (h.extendable he t ht ha).1
  | false =>
    cases hc : u.committable with
    | true => exact (mul_nonneg (h.unitInterval hc t ht ha).1.1 (mul_nonneg hm hn)).trans (h.committed hc t ht ha).1
    | false => exact (mul_nonneg hm hn).trans (h.fixed he hc t ht ha).1

/-- Then no plan costs less than nothing. -/
theorem cost_nonneg {w : WNet F} (hlin : LinearCosts w) (ht : Thrifty w) {x : WVar → F} (h : Rules w x) : 0 ≤ totalCost w x := by
  have sums : ∀ {α : Type} (l : List α) (f : α → F), (∀ a ∈ l, 0 ≤ f a) → 0 ≤ (l.map f).sum := fun l f hf =>
    List.sum_nonneg (fun y hy => by obtain ⟨a, ha, rfl⟩ := List.mem_map.mp hy; exact hf a ha)
  unfold totalCost
  refine add_nonneg (add_nonneg (add_nonneg (add_nonneg (add_nonneg ?_ ?_) ?_) ?_) ?_) ?_
  · refine sums _ _ (fun g hg => add_nonneg (sums _ _ (fun t htl => ?_)) ?_)
    · have htt := List.mem_range.mp htl
      split
      · rename_i ha
        obtain ⟨m1, m2, m3⟩ := ht.genRun g hg t htt
        have hp := unit_runs (h.gens g hg).unit (ht.genSize g hg).1 (fun e => ((ht.genSize g hg).2 e).1.trans ((h.gens g hg).cap.least e)) t htt ha m1
        refine add_nonneg (mul_nonneg (mul_nonneg (ht.weights t htt) m2) hp) ?_
        split
        · rename_i hc
          obtain ⟨⟨s1, -⟩, ⟨s2, -⟩, ⟨s3, -⟩⟩ := (h.gens g hg).unit.unitInterval hc t htt ha
          exact add_nonneg (add_nonneg (mul_nonneg (mul_nonneg (ht.weights t htt) m3) s1) (mul_nonneg (hlin.genEvents g hg).1 s2))
            (mul_nonneg (hlin.genEvents g hg).2 s3)
        · exact le_rfl
      · exact le_rfl
    · exact built (h.gens g hg).cap (ht.genSize g hg).2
  · refine sums _ _ (fun g hg => add_nonneg (sums _ _ (fun t htl => ?_)) ?_)
    · have htt := List.mem_range.mp htl
      split
      · rename_i ha
        obtain ⟨m1, m2, m3⟩ := ht.linkRun g hg t htt
        have hp := unit_runs (h.links g hg).unit (ht.linkSize g hg).1 (fun e => ((ht.linkSize g hg).2 e).1.trans ((h.links g hg).cap.least e)) t htt ha m1
        refine add_nonneg (mul_nonneg (mul_nonneg (ht.weights t htt) m2) hp) ?_
        split
        · rename_i hc
          obtain ⟨⟨s1, -⟩, ⟨s2, -⟩, ⟨s3, -⟩⟩ := (h.links g hg).unit.unitInterval hc t htt ha
          exact add_nonneg (add_nonneg (mul_nonneg (mul_nonneg (ht.weights t htt) m3) s1) (mul_nonneg (hlin.linkEvents g hg).1 s2))
            (mul_nonneg (hlin.linkEvents g hg).2 s3)
        · exact le_rfl
      · exact le_rfl
    · exact built (h.links g hg).cap (ht.linkSize g hg).2
  · refine sums _ _ (fun g hg => add_nonneg (sums _ _ (fun t htl => ?_)) ?_)
    · have htt := List.mem_range.mp htl
      split
      · rename_i ha
        obtain ⟨m1, m2, m3⟩ := ht.storeRun g hg t htt
        rw [m2, mul_zero, zero_mul, zero_add]
        refine mul_nonneg (mul_nonneg (ht.weights t htt) m3) (le_trans ?_ ((h.stores g hg).limits t htt ha).1)
        refine mul_nonneg m1 ?_
        split
        · rename_i e
          exact ((ht.storeSize g hg).2 e).1.trans ((h.stores g hg).cap.least e)
        · exact (ht.storeSize g hg).1
      · exact le_rfl
    · exact built (h.stores g hg).cap (ht.storeSize g hg).2
  · refine sums _ _ (fun g hg => add_nonneg (sums _ _ (fun t htl => ?_)) ?_)
    · have htt := List.mem_range.mp htl
      split
      · rename_i ha
        obtain ⟨m1, m2, m3⟩ := ht.unitRun g hg t htt
        refine add_nonneg (add_nonneg (mul_nonneg (mul_nonneg (ht.weights t htt) m1) ((h.units g hg).dispatch t htt ha).1)
          (mul_nonneg (mul_nonneg (ht.weights t htt) m2) ((h.units g hg).charge t htt ha).1)) ?_
        split
        · rename_i hi
          exact mul_nonneg (mul_nonneg (ht.weights t htt) m3) ((h.units g hg).spill t htt ha hi).1
        · exact le_rfl
      · exact le_rfl
    · exact built (h.units g hg).cap (ht.unitSize g hg)
  · exact sums _ _ (fun g hg => built (h.lines g hg).cap (ht.lineSize g hg))
  · exact sums _ _ (fun g hg => built (h.trafos g hg).cap (ht.trafoSize g hg))

/-- With costs that are not negative, one plan is enough for a best one, with prices. -/
theorem thrifty_best {w : WNet F} (hw : Sound w) (hlin : LinearCosts w) (hd : Orderly w) {other : List (Con WVar F)}
    (ho : ∀ r ∈ other, ∀ e ∈ r.terms, e.2 ≠ .const) {P : Program F} (hP : createModel w other = some P) (ht : Thrifty w) (h0 : ∃ x, Plan w other x) :
    ∃ x lam mu, Best w other (fun _ => True) x ∧ Solved P x lam mu := by
  obtain ⟨x, hx⟩ := best_exists hw hlin hd ho hP h0 (fun x hx => cost_nonneg hlin ht hx.1)
  obtain ⟨lam, mu, hs⟩ := prices_exist hw hlin hd ho hP hx
  exact ⟨_, lam, mu, priced_best hw hlin hd ho hP hs, hs⟩

/-! ## Examples -/

theorem exThrifty : Thrifty exNet := by constructor <;> decide +kernel

/-- The network of the example has an optimum with prices. -/
example : ∃ x lam mu, Best exNet exOther (fun _ => True) x ∧ Solved exModel x lam mu :=
  thrifty_best exSound exLinear (orderly_single rfl rfl) (by decide +kernel) exModel_eq exThrifty
    ⟨exVal, (fun h => ⟨h.1, h.2.1⟩) ((rules_iff exSound (orderly_single rfl rfl) exModel_eq exVal).mp (by unfold FeasibleIn; decide +kernel))⟩

/-- Two generators of 10 at one bus, with marginal costs 2 and 5. -/
def cheap : GenW ℚ := ⟨"cheap", "A", 1, exUnit' false 10, exInvest 0, exCosts 2 0, fun _ => none, none, none⟩
def dear : GenW ℚ := ⟨"dear", "A", 1, exUnit' false 10, exInvest 0, exCosts 5 0, fun _ => none, none, none⟩

def twoNet (load : ℚ) : WNet ℚ :=
  { exNet with len := 1, buses := ["A"], gens := [cheap, dear], links := [], stores := [], units := [], lines := [], trafos := [],
               loads := [⟨"A", -1, fun _ => load, fun _ => true⟩] }

theorem twoSound (load : ℚ) : Sound (twoNet load) := by
  constructor <;> simp [twoNet, cheap, dear]

theorem twoLinear (load : ℚ) : LinearCosts (twoNet load) := by
  constructor <;> simp [twoNet, cheap, dear, exCosts, exUnit']

theorem twoSome12 : (createModel (twoNet 12) []).isSome = true := by decide +kernel
theorem twoSome25 : (createModel (twoNet 25) []).isSome = true := by decide +kernel

theorem two_balance {load : ℚ} {x : WVar → ℚ} (h : Rules (twoNet load) x) :
    x (.of "Generator" "cheap" (.op "p" 0)) + x (.of "Generator" "dear" (.op "p" 0)) = load := by
  have := h.balance 0 Nat.one_pos "A" (by simp [twoNet])
  simp [supply, demand, atBus, twoNet, cheap, dear, exUnit'] at this
  exact this

theorem two_limits {load : ℚ} {x : WVar → ℚ} (h : AssetRules (twoNet load) x) :
    (0 ≤ x (.of "Generator" "cheap" (.op "p" 0)) ∧ x (.of "Generator" "cheap" (.op "p" 0)) ≤ 10) ∧
    (0 ≤ x (.of "Generator" "dear" (.op "p" 0)) ∧ x (.of "Generator" "dear" (.op "p" 0)) ≤ 10) := by
  have h1 := (h.gens cheap (by simp [twoNet])).unit.fixed rfl rfl 0 Nat.one_pos rfl
  have h2 := (h.gens dear (by simp [twoNet])).unit.fixed rfl rfl 0 Nat.one_pos rfl
  simpa [cheap, dear, exUnit'] using And.intro h1 h2

/-- For a load of 25 there is no plan, and prices of 1 prove it: the generators can deliver no more than 20. -/
example : ¬ ∃ x, Plan (twoNet 25) [] x := by
  refine (no_plan (twoSound 25) (orderly_single rfl rfl) (by simp) (Option.some_get twoSome25).symm).mpr ⟨fun _ _ => 1, fun z hz _ => ?_⟩
  obtain ⟨⟨-, a⟩, ⟨-, b⟩⟩ := two_limits hz
  have e1 : worth (twoNet 25) (fun _ _ => 1) z = z (.of "Generator" "cheap" (.op "p" 0)) + z (.of "Generator" "dear" (.op "p" 0)) := by
    simp [worth, supply, atBus, twoNet, cheap, dear, exUnit']
  have e2 : bill (twoNet 25) (fun _ _ => 1) = 25 := by simp [bill, demand, atBus, twoNet]
  rw [e1, e2]
  linarith

/-- For a load of 12 the cheap generator is full. -/
def twoVal (v : WVar) : ℚ :=
  if v = .of "Generator" "cheap" (.op "p" 0) then 10 else if v = .of "Generator" "dear" (.op "p" 0) then 2 else 0

theorem twoFeasible : FeasibleIn ((createModel (twoNet 12) []).get twoSome12) twoVal := by unfold FeasibleIn; decide +kernel

theorem twoPlan : Plan (twoNet 12) [] twoVal :=
  (fun h => ⟨h.1, h.2.1⟩) ((rules_iff (twoSound 12) (orderly_single rfl rfl) (Option.some_get twoSome12).symm twoVal).mp twoFeasible)

/-- A price of 5 shows that this is best; the snapshot counts twice. -/
theorem twoBest : Best (twoNet 12) [] (fun _ => True) twoVal := by
  refine (market (twoSound 12) (twoLinear 12) (orderly_single rfl rfl) (by simp) (Option.some_get twoSome12).symm twoVal).mpr
    ⟨twoPlan, fun _ _ => 10, fun z hz _ => ?_⟩
  obtain ⟨⟨-, a⟩, ⟨-, b⟩⟩ := two_limits hz
  have e : ∀ y : WVar → ℚ, totalCost (twoNet 12) y - worth (twoNet 12) (fun _ _ => 10) y = -6 * y (.of "Generator" "cheap" (.op "p" 0)) := by
    intro y
    simp [totalCost, genCost, worth, supply, atBus, twoNet, cheap, dear, exUnit', weight, exNet, exCosts]
    ring
  rw [e, e]
  have : twoVal (.of "Generator" "cheap" (.op "p" 0)) = 10 := by decide +kernel
  rw [this]
  linarith

end Verif.Opt.Whole.Exist
