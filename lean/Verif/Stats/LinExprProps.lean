import Verif.Stats.LinExpr
import Mathlib.Tactic.Ring
import Mathlib.Tactic.FieldSimp

/-!
# Expressions of the optimisation problem and statistics of its solution
-/

namespace Verif.Stats

open Verif.Opt

variable {F : Type} [Field F] [LinearOrder F]

/-! ## Tables -/

omit [LinearOrder F] in
theorem portVals_congr (search : String → String → Bool) (n : Net) (o : Opts F) (f g : Comp → String → Option (Vals F)) (c : Comp)
    (port : String) (h : f c port = g c port) : portVals search n o f c port = portVals search n o g c port := by
  unfold portVals; rw [h]

omit [LinearOrder F] in
theorem portRows_congr (search : String → String → Bool) (n : Net) (o : Opts F) (f g : Comp → String → Option (Vals F)) (c : Comp)
    (port : String) (h : f c port = g c port) : portRows search n o f c port = portRows search n o g c port := by
  unfold portRows; rw [portVals_congr search n o f g c port h]

theorem any_on {α : Type} (l : List α) (p q : α → Bool) (h : ∀ x ∈ l, p x = q x) : l.any p = l.any q := by
  induction l with
  | nil => rfl
  | cons a l ih =>
    rw [List.any_cons, List.any_cons, h a (List.mem_cons_self ..), ih (fun x hx => h x (List.mem_cons_of_mem _ hx))]

/-- Aggregated tables are alike if the values of all classes and ports in use are. -/
theorem aggregate_congr (search : String → String → Bool) (n : Net) (o : Opts F) (f g : Comp → String → Option (Vals F))
    (comps : List Comp) (h : ∀ c ∈ comps, ∀ port ∈ usedPorts o.atPort c, f c port = g c port) :
    aggregate search n o f comps = aggregate search n o g comps := by
  have hbad : badGrouper search n o f comps = badGrouper search n o g comps := by
    unfold badGrouper
    refine any_on _ _ _ (fun c hc => any_on _ _ _ (fun port hp => ?_))
    rw [portVals_congr search n o f g c port (h c hc port hp)]
  have hfr : isFrame search n o f comps = isFrame search n o g comps := by
    unfold isFrame
    refine any_on _ _ _ (fun c hc => any_on _ _ _ (fun port hp => ?_))
    rw [portVals_congr search n o f g c port (h c hc port hp)]
  have hcd : concatData search n o f comps = concatData search n o g comps := by
    unfold concatData
    apply List.flatMap_congr
    intro c hc
    have : compRows search n o f c = compRows search n o g c := by
      unfold compRows
      congr 1
      apply List.flatMap_congr
      intro port hp
      exact portRows_congr search n o f g c port (h c hc port hp)
    rw [this]
  unfold aggregate
  rw [hbad, hfr, hcd]

theorem mem_ports_of_used {at_ : AtPort} {c : Comp} {port : String} (h : port ∈ usedPorts at_ c) : port ∈ c.ports := by
  unfold usedPorts at h
  split_ifs at h
  · exact h
  · exact List.mem_of_mem_take h

/-! ## Flows -/

/-- Columns of a class as in a network: buses, signs and efficiencies. -/
structure Fits (d : ModelData F) (c : Comp) : Prop where
  branch : c.branch = true ↔ c.cname = "Line" ∨ c.cname = "Link" ∨ c.cname = "Transformer"
  ports : c.branch = false → c.ports = [""]
  passive : c.cname = "Line" ∨ c.cname = "Transformer" → ∀ p ∈ c.ports, p = "0" ∨ p = "1"
  sign : c.branch = true → ∀ a ∈ c.assets, d.sign a = 1
  noEff : c.cname = "Line" ∨ c.cname = "Transformer" → d.dense c "efficiency" = none
  eff : c.cname = "Link" → ∀ p ∈ c.ports, p ≠ "" ∧ (p ≠ "0" → (d.dense c (effKey p)).isSome)

theorem recorded_mul (b : Bool) (x e : F) : Results.recorded b (- x * e) = - (Results.recorded b x * e) := by
  cases b <;> simp [Results.recorded]

/-- The recorded flow at a port is, up to the sign of the class, the variable times its coefficient.  Stores are left out. -/
theorem flow_recorded {d : ModelData F} (x : Point F) {c : Comp} (h : Fits d c)
    (hcls : c.cname = "Generator" ∨ c.cname = "StorageUnit" ∨ (c.cname = "Load" ∧ (d.dense c "p_set").isSome) ∨ c.branch = true)
    (hused : ∀ p ∈ c.ports, ∀ a ∈ c.assets, a.col ("bus" ++ p) ≠ some "") {port : String} (hp : port ∈ c.ports) :
    ∃ v p, opVariable d x c = some v ∧ (recordOf d x).table c ("p" ++ port) = some p ∧
      ∀ a ∈ c.assets, ∀ t, signOf (recordOf d x) c a * p a t = v a t * (effAt d c port a t * d.sign a) := by
  have onePort : c.branch = false → port = "" := fun hb => by
    have := h.ports hb; rw [this] at hp; simpa using hp
  rcases hcls with hc | hc | ⟨hc, hd⟩ | hb
  · have hb : c.branch = false := by
      cases hbr : c.branch with
      | false => rfl
      | true => rcases h.branch.1 hbr with h1 | h1 | h1 <;> rw [hc] at h1 <;> exact absurd h1 (by decide)
    have hport := onePort hb; subst hport
    refine ⟨opVal d x c "p", opVal d x c "p", by simp [opVariable, opAttr, hc], by simp [recordOf, recTable, hc], fun a _ t => ?_⟩
    simp [signOf, hb, effAt, recordOf]; ring
  · have hb : c.branch = false := by
      cases hbr : c.branch with
      | false => rfl
      | true => rcases h.branch.1 hbr with h1 | h1 | h1 <;> rw [hc] at h1 <;> exact absurd h1 (by decide)
    have hport := onePort hb; subst hport
    refine ⟨fun a t => opVal d x c "p_dispatch" a t - opVal d x c "p_store" a t,
      fun a t => opVal d x c "p_dispatch" a t - opVal d x c "p_store" a t, by simp [opVariable, hc],
      by simp [recordOf, recTable, hc], fun a _ t => ?_⟩
    simp [signOf, hb, effAt, recordOf]; ring
  · have hb : c.branch = false := by
      cases hbr : c.branch with
      | false => rfl
      | true => rcases h.branch.1 hbr with h1 | h1 | h1 <;> rw [hc] at h1 <;> exact absurd h1 (by decide)
    have hport := onePort hb; subst hport
    obtain ⟨q, hq⟩ := Option.isSome_iff_exists.1 hd
    refine ⟨q, q, by simp [opVariable, hc, hq], by simp [recordOf, recTable, hc, hq], fun a _ t => ?_⟩
    simp [signOf, hb, effAt, recordOf]; ring
  · have hs := h.sign hb
    by_cases hc : c.cname = "Line" ∨ c.cname = "Transformer"
    · have hv : opVariable d x c = some (opVal d x c "s") := by
        rcases hc with hc | hc <;> simp [opVariable, opAttr, hc]
      rcases h.passive hc port hp with hport | hport
      · subst hport
        exact ⟨opVal d x c "s", opVal d x c "s", hv, by
          rcases hc with hc | hc <;> simp [recordOf, recTable, hc], fun a ha t => by
          simp [signOf, hb, effAt, hs a ha]⟩
      · subst hport
        exact ⟨opVal d x c "s", fun a t => - opVal d x c "s" a t, hv, by
          rcases hc with hc | hc <;> simp [recordOf, recTable, hc], fun a ha t => by
          simp [signOf, hb, effAt, hs a ha, effKey, h.noEff hc]⟩
    · have hc : c.cname = "Link" := by
        rcases h.branch.1 hb with h1 | h1 | h1
        · exact absurd (.inl h1) hc
        · exact h1
        · exact absurd (.inr h1) hc
      have hv : opVariable d x c = some (opVal d x c "p") := by simp [opVariable, opAttr, hc]
      obtain ⟨hp0, he⟩ := h.eff hc port hp
      by_cases h0 : port = "0"
      · subst h0
        exact ⟨opVal d x c "p", opVal d x c "p", hv, by simp [recordOf, recTable, hc], fun a ha t => by
          simp [signOf, hb, effAt, hs a ha]⟩
      · obtain ⟨e, hee⟩ := Option.isSome_iff_exists.1 (he h0)
        have hk : ("p" ++ port = "p0") = False := by
          simp only [eq_iff_iff, iff_false]
          exact fun hh => h0 ((String.append_right_inj "p").1 hh)
        have hfind : c.ports.find? (fun i => i ≠ "0" ∧ "p" ++ port = "p" ++ i) = some port := by
          have hex : ∃ j, c.ports.find? (fun i => i ≠ "0" ∧ "p" ++ port = "p" ++ i) = some j := by
            rw [← Option.isSome_iff_exists, List.find?_isSome]
            exact ⟨port, hp, by simp [h0]⟩
          obtain ⟨j, hj⟩ := hex
          have := List.find?_some hj
          simp only [ne_eq, decide_eq_true_eq] at this
          rw [hj, (String.append_right_inj "p").1 this.2]
        refine ⟨opVal d x c "p", fun a t => if a.col ("bus" ++ port) = some "" then 0 else
          Results.recorded (d.act c a t) (- x.op "Link" "p" a.name t * e a t), hv, ?_, fun a ha t => ?_⟩
        · simp only [recordOf, recTable, hc, hk, if_false]
          simp only [hfind]
          simp [hee]
        · beta_reduce
          rw [if_neg (hused port hp a ha), recorded_mul]
          simp [signOf, hb, effAt, hs a ha, h0, hp0, hee, opVal, hc]

/-- Classes with flows of their own whose power is the variable of the expressions. -/
def Flows (d : ModelData F) (c : Comp) : Prop :=
  c.cname = "Generator" ∨ c.cname = "StorageUnit" ∨ (c.cname = "Load" ∧ (d.dense c "p_set").isSome) ∨ c.branch = true

def Kind.dir : Kind → Dir
  | .balance => .balance
  | .supply => .supply
  | .withdrawal => .withdrawal

theorem clip_mul [IsStrictOrderedRing F] (kind : Kind) {v k : F} (h : kind = .balance ∨ 0 ≤ v) :
    kind.dir.clip (v * k) = v * kind.clip k := by
  cases kind with
  | balance => rfl
  | supply =>
    rcases h with h | h
    · exact absurd h (by decide)
    · simp only [Kind.dir, Dir.clip, Kind.clip]
      rw [mul_max_of_nonneg _ _ h, mul_zero]
  | withdrawal =>
    rcases h with h | h
    · exact absurd h (by decide)
    · simp only [Kind.dir, Dir.clip, Kind.clip]
      rw [mul_neg, mul_min_of_nonneg _ _ h, mul_zero]

theorem series_congr (n : Net) (d : Data F) (agg : TimeAgg) (c : Comp) {f g : Asset → Nat → F} (h : ∀ a ∈ c.assets, ∀ t, f a t = g a t) :
    series n d agg c f = series n d agg c g := by
  unfold series
  congr 1
  refine List.map_congr_left (fun a ha => ?_)
  rw [show f a = g a from funext (h a ha)]

/-- One class and port. -/
theorem balance_class [IsStrictOrderedRing F] (n : Net) {d : ModelData F} (x : Point F) (agg : TimeAgg) (kind : Kind) {c : Comp}
    (h : Fits d c) (hcls : Flows d c) (hused : ∀ p ∈ c.ports, ∀ a ∈ c.assets, a.col ("bus" ++ p) ≠ some "")
    (hpos : kind = .balance ∨ ∀ v, opVariable d x c = some v → ∀ a ∈ c.assets, ∀ t, 0 ≤ v a t) {port : String} (hp : port ∈ c.ports) :
    balanceE n d x agg kind c port = balanceF n (recordOf d x) agg kind.dir c port := by
  obtain ⟨v, p, hv, hpp, hval⟩ := flow_recorded x h hcls hused hp
  unfold balanceE balanceF
  rw [hv, hpp]
  simp only [Option.map_some, Option.some.injEq]
  refine (series_congr n d.toData agg c (fun a ha t => ?_)).trans rfl
  rw [hval a ha t, clip_mul kind (hpos.imp id (fun hh => hh v hv a ha t))]

/-- **Energy balance.**  The value of the expression at any point is the energy balance of the network after the point has been
recorded, for any grouping, ports, carriers and aggregation over time.  For supply and withdrawal the operation must not be
negative.  Missing: stores, the unused ports of links and units that are charged. -/
theorem balance_expression_partial [IsStrictOrderedRing F] (search : String → String → Bool) (n : Net) (o : Opts F) (d : ModelData F)
    (x : Point F) (agg : TimeAgg) (kind : Kind) (comps : List Comp) (hfit : ∀ c ∈ comps, Fits d c) (hcls : ∀ c ∈ comps, Flows d c)
    (hused : ∀ c ∈ comps, ∀ p ∈ c.ports, ∀ a ∈ c.assets, a.col ("bus" ++ p) ≠ some "")
    (hpos : kind = .balance ∨ ∀ c ∈ comps, ∀ v, opVariable d x c = some v → ∀ a ∈ c.assets, ∀ t, 0 ≤ v a t) :
    aggregate search n o (balanceE n d x agg kind) comps = aggregate search n o (balanceF n (recordOf d x) agg kind.dir) comps :=
  aggregate_congr search n o _ _ comps (fun c hc _ hport => balance_class n x agg kind (hfit c hc) (hcls c hc) (hused c hc)
    (hpos.imp id (fun hh => hh c hc)) (mem_ports_of_used hport))

/-- Supply less withdrawal is the energy balance, for each asset and snapshot. -/
theorem supply_less_withdrawal (n : Net) (d : ModelData F) (x : Point F) (agg : TimeAgg) (c : Comp) (port : String) {b : Vals F}
    (hb : balanceE n d x agg .balance c port = some b) :
    ∃ f g : Asset → Nat → F, balanceE n d x agg .supply c port = some (series n d.toData agg c f) ∧
      balanceE n d x agg .withdrawal c port = some (series n d.toData agg c g) ∧
      b = series n d.toData agg c (fun a t => f a t - g a t) := by
  unfold balanceE at hb ⊢
  obtain ⟨v, hv, rfl⟩ := Option.map_eq_some_iff.1 hb
  refine ⟨_, _, by rw [hv]; rfl, by rw [hv]; rfl, ?_⟩
  refine series_congr n d.toData agg c (fun a _ t => ?_)
  simp only [Kind.clip]
  have := max_add_min (effAt d c port a t * d.sign a) 0
  rw [mul_neg, sub_neg_eq_add, ← mul_add, this, add_zero]

/-! ## Transmission -/

/-- The table with the signs changed. -/
def negated (v : Vals F) : Vals F := ⟨v.frame, v.rows.map (fun r => (r.1, fun j => (r.2 j).map (fun y => -y)))⟩

theorem timeAgg_neg (T : Time F) (multi : Option Nat) (agg : TimeAgg) (w f : Nat → F) (j : Nat) :
    timeAgg T multi agg w (fun t => - f t) j = - timeAgg T multi agg w f j := by
  have hw : ∀ (l : List Nat) (u : Nat → F), weighted l u (fun t => - f t) = - weighted l u f := by
    intro l u
    unfold weighted
    induction l with
    | nil => simp
    | cons a l ih => simp only [List.map_cons, List.sum_cons]; rw [ih]; ring
  unfold timeAgg
  cases agg <;> simp only [hw]

theorem two_members {α : Type} (l : List α) (hn : l.Nodup) : 1 < l.length ↔ ∃ a b, a ∈ l ∧ b ∈ l ∧ a ≠ b := by
  match l, hn with
  | [], _ => simp
  | [x], _ =>
    simp only [List.length_singleton, lt_self_iff_false, List.mem_singleton, false_iff, not_exists, not_and, not_not]
    rintro a b rfl rfl; rfl
  | x :: y :: l, hn =>
    refine ⟨fun _ => ?_, fun _ => by simp only [List.length_cons]; omega⟩
    refine ⟨x, y, by simp, by simp, ?_⟩
    rintro rfl
    simp at hn

/-- A branch transmits a carrier if it joins two known buses of that carrier. -/
theorem transmits_iff (n : Net) (sel : List String) (c : Comp) (hn : c.cols.Nodup) (a : Asset) :
    transmits n sel c a = true ↔ ∃ k ∈ sel, ∃ s s' b b', s ∈ c.cols ∧ s' ∈ c.cols ∧ s ≠ s' ∧ s.startsWith "bus" = true ∧
      s'.startsWith "bus" = true ∧ a.col s = some b ∧ a.col s' = some b' ∧ b ∈ n.buses ∧ b' ∈ n.buses ∧
      n.busCol "carrier" b = some k ∧ n.busCol "carrier" b' = some k := by
  unfold transmits
  simp only [List.any_eq_true, decide_eq_true_eq]
  refine exists_congr fun k => and_congr_right fun _ => ?_
  rw [two_members _ ((hn.filter _).filter _)]
  simp only [List.mem_filter, decide_eq_true_eq, Option.bind_eq_some_iff, Net.busAttr, List.contains_eq_mem]
  constructor
  · rintro ⟨s, s', ⟨⟨h1, h2⟩, b, h3, h4⟩, ⟨⟨h5, h6⟩, b', h7, h8⟩, h9⟩
    split at h4 <;> [skip; cases h4]
    split at h8 <;> [skip; cases h8]
    exact ⟨s, s', b, b', h1, h5, h9, h2, h6, h3, h7, by assumption, by assumption, h4, h8⟩
  · rintro ⟨s, s', b, b', h1, h5, h9, h2, h6, h3, h7, h10, h11, h4, h8⟩
    exact ⟨s, s', ⟨⟨h1, h2⟩, b, h3, by simp [h10, h4]⟩, ⟨⟨h5, h6⟩, b', h7, by simp [h11, h8]⟩, h9⟩

/-- **Transmission.**  The expression of transmission has the opposite sign of the statistic. -/
theorem transmission_reversed (n : Net) {d : ModelData F} (x : Point F) (agg : TimeAgg) (sel : List String) {c : Comp} (h : Fits d c)
    (hb : c.branch = true) (hused : ∀ p ∈ c.ports, ∀ a ∈ c.assets, a.col ("bus" ++ p) ≠ some "") {port : String} (hp : port ∈ c.ports) :
    transmissionF n (recordOf d x) agg sel c port = (transmissionE n d x agg sel c port).map negated := by
  obtain ⟨v, p, hv, hpp, hval⟩ := flow_recorded x h (.inr (.inr (.inr hb))) hused hp
  unfold transmissionE transmissionF
  rw [if_pos hb, if_pos hb, hv, hpp]
  simp only [Option.map_some, Option.some.injEq, seriesOf, negated, List.map_map]
  congr 1
  refine List.map_congr_left (fun a ha => ?_)
  have ha := (List.mem_filter.1 ha).1
  simp only [Function.comp, Option.map_some, Prod.mk.injEq, true_and]
  funext j
  rw [← timeAgg_neg]
  have : p a = fun t => - (v a t * effAt d c port a t) := by
    funext t
    have := hval a ha t
    rw [h.sign hb a ha, signOf, if_pos hb, mul_one] at this
    rw [← this]; ring
  rw [this]
  rfl

/-! ## Operation and its costs -/

/-- **Operation.** -/
theorem operation_class (n : Net) {d : ModelData F} (x : Point F) (agg : TimeAgg) {c : Comp} (h : Fits d c)
    (hcls : Flows d c ∨ c.cname = "Store") (port : String) :
    operationE n d x agg c port = (operation (recordOf d x) c).map (series n (recordOf d x) agg c) := by
  have hnb : ∀ s : String, c.cname = s → s ≠ "Line" → s ≠ "Link" → s ≠ "Transformer" → c.branch = false := by
    intro s hs h1 h2 h3
    cases hbr : c.branch with
    | false => rfl
    | true =>
      rcases h.branch.1 hbr with hh | hh | hh
      · exact absurd (hs.symm.trans hh) h1
      · exact absurd (hs.symm.trans hh) h2
      · exact absurd (hs.symm.trans hh) h3
  unfold operationE operation
  rcases hcls with (hc | hc | ⟨hc, hd⟩ | hb) | hc
  · have hb := hnb _ hc (by decide) (by decide) (by decide)
    simp [hb, opVariable, opAttr, hc, recordOf, recTable]; rfl
  · have hb := hnb _ hc (by decide) (by decide) (by decide)
    simp [hb, opVariable, hc, recordOf, recTable]; rfl
  · have hb := hnb _ hc (by decide) (by decide) (by decide)
    obtain ⟨q, hq⟩ := Option.isSome_iff_exists.1 hd
    simp [hb, opVariable, hc, recordOf, recTable, hq]; rfl
  · rcases h.branch.1 hb with hc | hc | hc <;> · simp [hb, opVariable, opAttr, hc, recordOf, recTable]; rfl
  · have hb := hnb _ hc (by decide) (by decide) (by decide)
    simp [hb, opVariable, opAttr, hc, recordOf, recTable]; rfl

/-- One class. -/
theorem opex_expression_class (n : Net) {d : ModelData F} (x : Point F) (agg : TimeAgg) {c : Comp}
    (hcls : c.cname = "Generator" ∨ c.cname = "Store" ∨ c.cname = "StorageUnit") (port : String) :
    opexE n d x agg c port = opexF n (recordCosts d x) ["marginal_cost"] agg c port := by
  have hts : opexTerms (recordCosts d x) ["marginal_cost"] c =
      if (d.dense c "marginal_cost").isSome then [opTerm (recordCosts d x) c "marginal_cost"] else [] := by
    unfold opexTerms opTypes comTypes
    simp only [List.filter_cons, List.filter_nil]
    cases hd : d.dense c "marginal_cost" <;> simp [recordCosts, hd]
  unfold opexE opexF
  simp only [hts]
  cases hd : d.dense c "marginal_cost" with
  | none => cases costVar c.cname "marginal_cost" <;> simp
  | some k =>
    have key : ∀ attr, costVar c.cname "marginal_cost" = some attr → (recordOf d x).table c attr = some (opVal d x c attr) →
        opTerm (recordCosts d x) c "marginal_cost" = some (false, fun a t => opVal d x c attr a t * k a t) := by
      intro attr h1 h2
      unfold opTerm
      rw [h1]
      simp only [Option.bind_some]
      rw [show (recordCosts d x).table c attr = some (opVal d x c attr) from h2]
      simp [recordCosts, hd]
    have main : ∀ attr, costVar c.cname "marginal_cost" = some attr → (recordOf d x).table c attr = some (opVal d x c attr) →
        Option.bind (costVar c.cname "marginal_cost") (fun attr => Option.map (fun k =>
          series n d.toData agg c (fun a t => opVal d x c attr a t * k a t)) (some k)) =
        if ((if (some k : Option (Asset → Nat → F)).isSome = true then [opTerm (recordCosts d x) c "marginal_cost"] else []).isEmpty ||
            (if (some k : Option (Asset → Nat → F)).isSome = true then [opTerm (recordCosts d x) c "marginal_cost"] else []).any (·.isNone)) = true
        then none
        else some ⟨timeFrame n.multi agg, c.assets.map (fun a => (a, fun j => some (opexOf n (recordCosts d x) agg c
          ((if (some k : Option (Asset → Nat → F)).isSome = true then [opTerm (recordCosts d x) c "marginal_cost"] else []).filterMap id) a j)))⟩ := by
      intro attr h1 h2
      rw [key attr h1 h2, h1]
      simp [series, opexOf]
      intro a _
      funext j
      rfl
    rcases hcls with hc | hc | hc
    · exact main "p" (by rw [hc]; rfl) (by simp [recordOf, recTable, hc])
    · exact main "p" (by rw [hc]; rfl) (by simp [recordOf, recTable, hc])
    · exact main "p_dispatch" (by rw [hc]; rfl) (by simp [recordOf, recTable, hc])

/-- **Costs of operation.**  The expression is the statistic restricted to marginal costs.  Missing: other kinds of costs, and links,
which are in the expression but not in the statistic. -/
theorem opex_expression_partial (search : String → String → Bool) (n : Net) (o : Opts F) (d : ModelData F) (x : Point F) (agg : TimeAgg)
    (comps : List Comp) (hcls : ∀ c ∈ comps, c.cname = "Generator" ∨ c.cname = "Store" ∨ c.cname = "StorageUnit") :
    aggregate search n o (opexE n d x agg) comps = aggregate search n o (opexF n (recordCosts d x) ["marginal_cost"] agg) comps :=
  aggregate_congr search n o _ _ comps (fun c hc port _ => opex_expression_class n x agg (hcls c hc) port)

/-- Links are in the expression and not in the statistic. -/
theorem opex_links (n : Net) {d : ModelData F} (x : Point F) (agg : TimeAgg) {c : Comp} (hc : c.cname = "Link")
    {k : Asset → Nat → F} (hk : d.dense c "marginal_cost" = some k) (hports : ∀ p ∈ c.ports, p ≠ "") (port : String) :
    opexE n d x agg c port = some (series n d.toData agg c (fun a t => opVal d x c "p" a t * k a t)) ∧
      opexF n (recordCosts d x) ["marginal_cost"] agg c port = none := by
  have ht : (recordOf d x).table c "p" = none := by
    have hf : c.ports.find? (fun i => decide (i ≠ "0" ∧ "p" = "p" ++ i)) = none := by
      rw [List.find?_eq_none]
      intro i hi hh
      simp only [ne_eq, decide_eq_true_eq] at hh
      exact hports i hi ((String.append_right_inj "p").1 (hh.2.symm.trans (show "p" = "p" ++ "" from rfl)))
    simp only [recordOf, recTable, hc]
    simp only [hf]
    simp
  have hcv : costVar c.cname "marginal_cost" = some "p" := by rw [hc]; rfl
  constructor
  · unfold opexE
    rw [hcv, hk]
    rfl
  · have hts : opexTerms (recordCosts d x) ["marginal_cost"] c = [opTerm (recordCosts d x) c "marginal_cost"] := by
      unfold opexTerms opTypes comTypes
      simp [List.filter_cons, recordCosts, hk]
    have hn : opTerm (recordCosts d x) c "marginal_cost" = none := by
      unfold opTerm
      rw [hcv, Option.bind_some, show (recordCosts d x).table c "p" = none from ht]
      rfl
    unfold opexF
    simp only [hts, hn]
    rfl

/-! ## Capacities -/

theorem eff_key_ne (port s : String) (h : s.toList.take 2 ≠ ['e', 'f']) : (if port = "1" then "efficiency" else "efficiency" ++ port) ≠ s := by
  intro hh
  apply h
  rw [← hh]
  split_ifs
  · rfl
  · rw [String.toList_append]; rfl

theorem record_num {d : ModelData F} (x : Point F) {c : Comp} {k : String} (h : ∀ attr, nominal c = some attr → k ≠ attr ++ "_opt") :
    (recordOf d x).num c k = d.num c k := by
  unfold recordOf
  simp only
  cases hn : nominal c with
  | none => rfl
  | some attr => simp only; rw [if_neg (h attr hn)]

theorem nominal_cases {c : Comp} {attr : String} (h : nominal c = some attr) : attr = "p_nom" ∨ attr = "s_nom" ∨ attr = "e_nom" := by
  unfold nominal at h
  split_ifs at h <;> simp_all

theorem record_eff {d : ModelData F} (x : Point F) (c : Comp) (port : String) (a : Asset) :
    efficiency (recordOf d x) c port a = efficiency d.toData c port a := by
  unfold efficiency
  rw [record_num x]
  intro attr h
  apply eff_key_ne
  rcases nominal_cases h with rfl | rfl | rfl <;> decide

theorem capacityVar_all {d : ModelData F} (x : Point F) {c : Comp} {col : String} (hext : c.assets.any (d.ext c) = true) {nom : Asset → F}
    (hn : d.num c col = some nom) :
    capacityVar d x true col c = some (c.assets.map (fun a => (a, Results.nomOpt (d.ext c a) (nom a) (x.cap c.cname a.name)))) := by
  unfold capacityVar
  rw [if_pos hext, if_pos rfl, hn]
  rfl

theorem record_nom {d : ModelData F} (x : Point F) {c : Comp} {attr : String} (ha : nominal c = some attr) {nom : Asset → F}
    (hn : d.num c attr = some nom) :
    (recordOf d x).num c (attr ++ "_opt") = some (fun a => Results.nomOpt (d.ext c a) (nom a) (x.cap c.cname a.name)) := by
  unfold recordOf
  simp only [ha, if_true, hn, Option.map_some]

/-- One class. -/
theorem capacity_class {d : ModelData F} (x : Point F) (ports storage : Bool) {c : Comp} (hext : c.assets.any (d.ext c) = true)
    (hnum : ∀ attr, nominal c = some attr → (d.num c attr).isSome) (port : String) :
    capacityE d x true ports storage c port = optimalF (recordOf d x) ports storage c port := by
  unfold capacityE optimalF
  cases ha : nominal c with
  | none => rfl
  | some attr =>
    obtain ⟨nom, hn⟩ := Option.isSome_iff_exists.1 (hnum attr ha)
    simp only [Option.bind_some]
    rw [capacityVar_all x hext hn, record_nom x ha hn, record_num x (k := "max_hours") (fun b hb => by
      rcases nominal_cases hb with rfl | rfl | rfl <;> decide)]
    simp only [Option.bind_some, static, List.map_map, Function.comp_def, record_eff]

/-- **Optimal capacities.**  For classes with an asset that may be extended the expression of capacities is the statistic of
optimal capacities, for any grouping, ports and carriers. -/
theorem capacity_expression_partial (search : String → String → Bool) (n : Net) (o : Opts F) (d : ModelData F) (x : Point F)
    (ports storage : Bool) (comps : List Comp) (hext : ∀ c ∈ comps, c.assets.any (d.ext c) = true)
    (hnum : ∀ c ∈ comps, ∀ attr, nominal c = some attr → (d.num c attr).isSome) :
    aggregate search n o (capacityE d x true ports storage) comps = aggregate search n o (optimalF (recordOf d x) ports storage) comps :=
  aggregate_congr search n o _ _ comps (fun c hc port _ => capacity_class x ports storage (hext c hc) (hnum c hc) port)

/-- One class. -/
theorem capex_class {d : ModelData F} (x : Point F) {c : Comp} (hext : c.assets.any (d.ext c) = true) (hattr : nominal c = some "p_nom")
    (hnum : (d.num c "p_nom").isSome) (port : String) : capexE d x true c port = capexF (recordOf d x) "_opt" c port := by
  obtain ⟨nom, hn⟩ := Option.isSome_iff_exists.1 hnum
  unfold capexE capexF
  rw [hattr]
  simp only [Option.bind_some]
  rw [capacityVar_all x hext hn, record_nom x hattr hn, record_num x (k := "capital_cost") (fun b hb => by
      rcases nominal_cases hb with rfl | rfl | rfl <;> decide)]
  cases d.num c "capital_cost" with
  | none => rfl
  | some k => simp [static, List.map_map, Function.comp_def]

/-- **Capital costs.**  For generators, links and storage units with an asset that may be extended the expression is the statistic.
Missing: lines, transformers, stores, and classes without such an asset. -/
theorem capex_expression_partial (search : String → String → Bool) (n : Net) (o : Opts F) (d : ModelData F) (x : Point F)
    (comps : List Comp) (hext : ∀ c ∈ comps, c.assets.any (d.ext c) = true) (hattr : ∀ c ∈ comps, nominal c = some "p_nom")
    (hnum : ∀ c ∈ comps, (d.num c "p_nom").isSome) :
    aggregate search n o (capexE d x true) comps = aggregate search n o (capexF (recordOf d x) "_opt") comps :=
  aggregate_congr search n o _ _ comps (fun c hc port _ => capex_class x (hext c hc) (hattr c hc) (hnum c hc) port)

/-- Without an asset that may be extended nothing is reported of a class, whatever its capacities. -/
theorem fixed_class_missing (n : Net) (d : ModelData F) (x : Point F) (agg : TimeAgg) (fixed ports storage : Bool) {c : Comp}
    (hext : ∀ a ∈ c.assets, d.ext c a = false) (port : String) :
    capacityE d x fixed ports storage c port = none ∧ capexE d x fixed c port = none ∧ curtailmentE n d x agg c port = none := by
  have h0 : ∀ b col, capacityVar d x b col c = none := by
    intro b col
    unfold capacityVar
    rw [if_neg]
    simpa using hext
  unfold capacityE capexE curtailmentE
  refine ⟨?_, ?_, ?_⟩ <;> cases nominal c <;> simp [h0]

/-- Lines, transformers and stores, which have no column `p_nom`, are missing from capital costs. -/
theorem capex_missing (d : ModelData F) (x : Point F) {c : Comp} (hnum : d.num c "p_nom" = none) (port : String) :
    capexE d x true c port = none := by
  unfold capexE capacityVar
  rw [hnum]
  cases nominal c <;> simp

/-! ## Curtailment -/

/-- One class. -/
theorem curtailment_class [IsStrictOrderedRing F] (n : Net) {d : ModelData F} (x : Point F) (agg : TimeAgg) {c : Comp}
    (hcls : c.cname = "Generator" ∨ c.cname = "StorageUnit") (hext : c.assets.any (d.ext c) = true) {nom : Asset → F}
    (hnum : d.num c "p_nom" = some nom) {m : Asset → Nat → F} (hm : d.dense c "p_max_pu" = some m) {p : Asset → Nat → F}
    (hp : opVariable d x c = some p) (hm0 : ∀ a ∈ c.assets, ∀ t, m a t ≠ 0)
    (hle : ∀ a ∈ c.assets, ∀ t, p a t ≤ m a t * Results.nomOpt (d.ext c a) (nom a) (x.cap c.cname a.name)) (port : String) :
    curtailmentE n d x agg c port = curtailmentF n (recordOf d x) agg c port := by
  have hattr : nominal c = some "p_nom" := by
    unfold nominal
    rw [if_pos]
    rcases hcls with h | h
    · exact .inl h
    · exact .inr (.inr h)
  have h1 : (recordOf d x).table c "p_max_pu" = some m := by
    rcases hcls with h | h <;> simp [recordOf, recTable, h, hm]
  have h2 : (recordOf d x).table c "p" = some p := by
    rw [← hp]
    rcases hcls with h | h <;> simp [recordOf, recTable, h, opVariable, opAttr]
  have h3 := record_nom x hattr hnum
  unfold curtailmentE curtailmentF
  rw [hattr, h1, h2, show "p_nom_opt" = "p_nom" ++ "_opt" from rfl, h3]
  simp only [Option.bind_some]
  rw [capacityVar_all x hext hnum]
  simp only [Option.bind_some, hm, hp, Option.map_some, Option.some.injEq, series, List.map_map]
  congr 1
  refine List.map_congr_left (fun a ha => ?_)
  simp only [Function.comp, Prod.mk.injEq, true_and]
  funext j
  have hc : ∀ t, curtailCoef (m a t) = some 1 := fun t => by
    unfold curtailCoef
    rw [if_neg (hm0 a ha t), one_div_mul_cancel (hm0 a ha t)]
  rw [if_pos (by simp [hc])]
  congr 1
  have : (fun t => Results.nomOpt (d.ext c a) (nom a) (x.cap c.cname a.name) * m a t - (curtailCoef (m a t)).getD 0 * p a t) =
      fun t => max (m a t * Results.nomOpt (d.ext c a) (nom a) (x.cap c.cname a.name) - p a t) 0 := by
    funext t
    rw [hc, Option.getD_some, one_mul, max_eq_left (sub_nonneg.2 (hle a ha t)), mul_comm]
  rw [this]
  rfl

/-- **Curtailment** where the availability is never zero and the operation within it. -/
theorem curtailment_expression_partial [IsStrictOrderedRing F] (search : String → String → Bool) (n : Net) (o : Opts F) (d : ModelData F)
    (x : Point F) (agg : TimeAgg) (comps : List Comp)
    (h : ∀ c ∈ comps, (c.cname = "Generator" ∨ c.cname = "StorageUnit") ∧ c.assets.any (d.ext c) = true ∧
      ∃ nom m p, d.num c "p_nom" = some nom ∧ d.dense c "p_max_pu" = some m ∧ opVariable d x c = some p ∧
        (∀ a ∈ c.assets, ∀ t, m a t ≠ 0) ∧
        ∀ a ∈ c.assets, ∀ t, p a t ≤ m a t * Results.nomOpt (d.ext c a) (nom a) (x.cap c.cname a.name)) :
    aggregate search n o (curtailmentE n d x agg) comps = aggregate search n o (curtailmentF n (recordOf d x) agg) comps :=
  aggregate_congr search n o _ _ comps (fun c hc port _ => by
    obtain ⟨h1, h2, nom, m, p, h3, h4, h5, h6, h7⟩ := h c hc
    exact curtailment_class n x agg h1 h2 h3 h4 h5 h6 h7 port)

/-- One snapshot without availability makes the sum NaN. -/
theorem curtailment_nan (n : Net) {d : ModelData F} (x : Point F) {c : Comp} {port : String} {v : Vals F}
    (hv : curtailmentE n d x .sum c port = some v) {m : Asset → Nat → F} (hm : d.dense c "p_max_pu" = some m)
    {r : Asset × (Nat → Option F)} (hr : r ∈ v.rows) {t : Nat} {j : Nat} (ht : t ∈ d.time.part n.multi j) (h0 : m r.1 t = 0) :
    r.2 j = none := by
  unfold curtailmentE at hv
  obtain ⟨attr, _, hv⟩ := Option.bind_eq_some_iff.1 hv
  obtain ⟨w, _, hv⟩ := Option.bind_eq_some_iff.1 hv
  rw [hm] at hv
  obtain ⟨p, _, rfl⟩ := Option.map_eq_some_iff.1 hv
  obtain ⟨e, _, rfl⟩ := List.mem_map.1 hr
  simp only at h0 ⊢
  rw [if_neg]
  simp only [List.all_eq_true, not_forall]
  exact ⟨t, ht, by simp [curtailCoef, h0]⟩

/-! ## Stores and charging -/

/-- The energy balance of stores is made of levels of energy. -/
theorem store_balance_is_level (n : Net) (d : ModelData F) (x : Point F) (agg : TimeAgg) {c : Comp} (hc : c.cname = "Store") :
    balanceE n d x agg .balance c "" = some (series n d.toData agg c (fun a t => opVal d x c "e" a t * d.sign a)) := by
  simp [balanceE, opVariable, opAttr, hc, Kind.clip, effAt]

/-- Storage units never withdraw, and charging is negative supply. -/
theorem unit_supply [IsStrictOrderedRing F] (n : Net) (d : ModelData F) (x : Point F) (agg : TimeAgg) {c : Comp} (hc : c.cname = "StorageUnit")
    (hs : ∀ a ∈ c.assets, d.sign a = 1) :
    balanceE n d x agg .withdrawal c "" = some (series n d.toData agg c (fun _ _ => 0)) ∧
      balanceE n d x agg .supply c "" = some (series n d.toData agg c (fun a t => opVal d x c "p_dispatch" a t - opVal d x c "p_store" a t)) := by
  unfold balanceE opVariable
  rw [if_neg (by rw [hc]; decide), if_pos hc]
  constructor <;> refine congrArg some (series_congr n d.toData agg c (fun a ha t => ?_))
  · simp [Kind.clip, effAt, hs a ha]
  · simp [Kind.clip, effAt, hs a ha]

/-! ## A network -/

def eAsset (name : String) (cols : List (String × String)) : Asset := ⟨name, fun k => cols.lookup k, true, fun _ => true⟩

def eNet : Net := ⟨["A", "B"], fun _ _ => some "AC", id, none⟩

def eGen : Comp := ⟨"Generator", false, ["bus", "carrier"],
  [eAsset "wind" [("bus", "A"), ("carrier", "wind")], eAsset "gas" [("bus", "B"), ("carrier", "gas")]]⟩

def eLoad : Comp := ⟨"Load", false, ["bus"], [eAsset "city" [("bus", "B")]]⟩

def eUnit : Comp := ⟨"StorageUnit", false, ["bus"], [eAsset "hydro" [("bus", "A")]]⟩

def eStore : Comp := ⟨"Store", false, ["bus"], [eAsset "tank" [("bus", "A")]]⟩

def eLine : Comp := ⟨"Line", true, ["bus0", "bus1"], [eAsset "ab" [("bus0", "A"), ("bus1", "B")]]⟩

def eLink : Comp := ⟨"Link", true, ["bus0", "bus1"], [eAsset "dc" [("bus0", "A"), ("bus1", "B")]]⟩

/-- With a column for a third bus that the link does not use. -/
def eLink3 : Comp := ⟨"Link", true, ["bus0", "bus1", "bus2"], [eAsset "dc" [("bus0", "A"), ("bus1", "B"), ("bus2", "")]]⟩

def eData : ModelData ℚ where
  time := ⟨[0, 1], fun _ => 0⟩
  wGen := fun _ => 2
  wSto := fun _ => 2
  wObj := fun _ => 2
  sign := fun a => if a.name = "city" then -1 else 1
  table := fun _ _ => none
  num := fun c k => if k = "p_nom" ∧ c.cname ≠ "Line" ∧ c.cname ≠ "Store" then some (fun _ => 4)
    else if k = "s_nom" ∧ c.cname = "Line" then some (fun _ => 3)
    else if k = "capital_cost" then some (fun _ => 10) else none
  price := fun _ _ => 0
  ext := fun c a => a.name = "wind" ∨ c.cname = "Line"
  act := fun _ _ _ => true
  dense := fun c k => if k = "p_set" ∧ c.cname = "Load" then some (fun _ t => if t = 0 then 5 else 6)
    else if (k = "efficiency" ∨ k = "efficiency2") ∧ c.cname = "Link" then some (fun _ _ => 1 / 2)
    else if k = "marginal_cost" then some (fun a _ => if a.name = "gas" then 7 else 1)
    else if k = "p_max_pu" then some (fun a t => if a.name = "wind" ∧ t = 1 then 1 / 2 else 1) else none

def ePoint : Point ℚ where
  op := fun c k _ t => if c = "Generator" then (if t = 0 then 3 else 2) else if k = "p_store" then 1 else if k = "e" then 5
    else if k = "s" then 2 else if c = "Link" then 4 else 0
  cap := fun _ _ => 8

theorem eGen_fits : Fits eData eGen := ⟨by decide, by decide +kernel, by decide +kernel, by decide, by decide, by decide +kernel⟩

theorem eLoad_fits : Fits eData eLoad := ⟨by decide, by decide +kernel, by decide +kernel, by decide, by decide, by decide +kernel⟩

theorem eUnit_fits : Fits eData eUnit := ⟨by decide, by decide +kernel, by decide +kernel, by decide, by decide, by decide +kernel⟩

theorem eLine_fits : Fits eData eLine := ⟨by decide, by decide +kernel, by decide +kernel, by decide +kernel, fun _ => rfl, by decide +kernel⟩

theorem eLink_fits : Fits eData eLink := ⟨by decide, by decide +kernel, by decide +kernel, by decide +kernel, by decide, by decide +kernel⟩

theorem eLink3_fits : Fits eData eLink3 := ⟨by decide, by decide +kernel, by decide +kernel, by decide +kernel, by decide, by decide +kernel⟩

/-- Options with all ports, by class and carrier of the bus. -/
def eOpts : Opts ℚ where
  agg := sumAgg
  one := false
  groupby := some [.busCarrier]
  across := false
  atPort := .flag true
  busCarrier := .all
  carrier := .all
  nice := false
  dropZero := none
  round := none

/-- The energy balance of five classes by expression and by statistic. -/
example : aggregate (fun _ _ => false) eNet eOpts (balanceE eNet eData ePoint .sum .balance) [eGen, eLoad, eUnit, eLine, eLink] =
    aggregate (fun _ _ => false) eNet eOpts (balanceF eNet (recordOf eData ePoint) .sum .balance) [eGen, eLoad, eUnit, eLine, eLink] :=
  balance_expression_partial (fun _ _ => false) eNet eOpts eData ePoint .sum .balance _
    (by
      intro c hc
      simp only [List.mem_cons, List.not_mem_nil, or_false] at hc
      rcases hc with rfl | rfl | rfl | rfl | rfl
      exacts [eGen_fits, eLoad_fits, eUnit_fits, eLine_fits, eLink_fits])
    (by
      intro c hc
      simp only [List.mem_cons, List.not_mem_nil, or_false] at hc
      rcases hc with rfl | rfl | rfl | rfl | rfl
      exacts [.inl rfl, .inr (.inr (.inl ⟨rfl, rfl⟩)), .inr (.inl rfl), .inr (.inr (.inr rfl)), .inr (.inr (.inr rfl))])
    (by decide +kernel) (.inl rfl)

/-- Cells of the first column. -/
def firsts (r : Except Unit (List (Row ℚ))) : List (List String × Option ℚ) :=
  match r with
  | .error _ => []
  | .ok l => l.map (fun e => (e.1, e.2 0))

example : firsts (aggregate (fun _ _ => false) eNet eOpts (balanceE eNet eData ePoint .sum .balance) [eGen, eLoad, eUnit, eLine, eLink]) =
    [(["Generator", "AC"], some 20), (["Load", "AC"], some (-22)), (["StorageUnit", "AC"], some (-4)), (["Line", "AC"], some 0),
      (["Link", "AC"], some (-8))] := by decide +kernel

/-- Supply of generators. -/
example : aggregate (fun _ _ => false) eNet eOpts (balanceE eNet eData ePoint .sum .supply) [eGen, eLink] =
    aggregate (fun _ _ => false) eNet eOpts (balanceF eNet (recordOf eData ePoint) .sum .supply) [eGen, eLink] :=
  balance_expression_partial (fun _ _ => false) eNet eOpts eData ePoint .sum .supply _
    (by
      intro c hc
      simp only [List.mem_cons, List.not_mem_nil, or_false] at hc
      rcases hc with rfl | rfl
      exacts [eGen_fits, eLink_fits])
    (by
      intro c hc
      simp only [List.mem_cons, List.not_mem_nil, or_false] at hc
      rcases hc with rfl | rfl
      exacts [.inl rfl, .inr (.inr (.inr rfl))])
    (by decide +kernel)
    (.inr (by
      intro c hc v hv a _ t
      simp only [List.mem_cons, List.not_mem_nil, or_false] at hc
      rcases hc with rfl | rfl
      · obtain rfl : opVal eData ePoint eGen "p" = v := Option.some.inj hv
        simp only [opVal, Results.recorded, eData, ePoint, eGen]
        split_ifs <;> norm_num
      · obtain rfl : opVal eData ePoint eLink "p" = v := Option.some.inj hv
        simp [opVal, Results.recorded, eData, ePoint, eLink]))

example : firsts (aggregate (fun _ _ => false) eNet eOpts (balanceE eNet eData ePoint .sum .supply) [eGen, eLink]) =
    [(["Generator", "AC"], some 20), (["Link", "AC"], some 8)] := by decide +kernel

example : ∃ b, balanceE eNet eData ePoint .sum .balance eLink "0" = some b := ⟨_, rfl⟩

/-- Cells of the first column of a class. -/
def cells (v : Option (Vals ℚ)) : Option (List (Option ℚ)) := v.map (fun w => w.rows.map (fun r => r.2 0))

/-- A flow from A to B is positive in the statistic and negative in the expression. -/
example : transmissionF eNet (recordOf eData ePoint) .sum ["AC"] eLine "0" =
    (transmissionE eNet eData ePoint .sum ["AC"] eLine "0").map negated ∧
    cells (transmissionF eNet (recordOf eData ePoint) .sum ["AC"] eLine "0") = some [some 8] ∧
    cells (transmissionE eNet eData ePoint .sum ["AC"] eLine "0") = some [some (-8)] :=
  ⟨transmission_reversed eNet ePoint .sum ["AC"] eLine_fits rfl (by decide +kernel) (by decide +kernel), by decide +kernel, by decide +kernel⟩

example : operationE eNet eData ePoint .mean eLink "0" = (operation (recordOf eData ePoint) eLink).map (series eNet (recordOf eData ePoint) .mean eLink) :=
  operation_class eNet ePoint .mean eLink_fits (.inl (.inr (.inr (.inr rfl)))) "0"

example : aggregate (fun _ _ => false) eNet eOpts (opexE eNet eData ePoint .sum) [eGen, eStore, eUnit] =
    aggregate (fun _ _ => false) eNet eOpts (opexF eNet (recordCosts eData ePoint) ["marginal_cost"] .sum) [eGen, eStore, eUnit] :=
  opex_expression_partial _ eNet eOpts eData ePoint .sum _ (by decide)

example : firsts (aggregate (fun _ _ => false) eNet eOpts (opexE eNet eData ePoint .sum) [eGen]) = [(["Generator", "AC"], some 80)] := by
  decide +kernel

example := opex_links eNet ePoint .sum (c := eLink) (d := eData) rfl (k := _) rfl (by decide +kernel) "0"

example : aggregate (fun _ _ => false) eNet eOpts (capacityE eData ePoint true true false) [eGen, eLine] =
    aggregate (fun _ _ => false) eNet eOpts (optimalF (recordOf eData ePoint) true false) [eGen, eLine] :=
  capacity_expression_partial _ eNet eOpts eData ePoint true false _ (by decide +kernel) (by
    intro c hc attr h
    simp only [List.mem_cons, List.not_mem_nil, or_false] at hc
    rcases hc with rfl | rfl
    · obtain rfl : "p_nom" = attr := Option.some.inj h
      rfl
    · obtain rfl : "s_nom" = attr := Option.some.inj h
      rfl)

example : cells (capacityE eData ePoint true false false eGen "") = some [some 8, some 4] := by decide +kernel

example : aggregate (fun _ _ => false) eNet eOpts (capexE eData ePoint true) [eGen] =
    aggregate (fun _ _ => false) eNet eOpts (capexF (recordOf eData ePoint) "_opt") [eGen] :=
  capex_expression_partial _ eNet eOpts eData ePoint _ (by decide +kernel) (by decide) (by decide)

example : cells (capexE eData ePoint true eGen "") = some [some 80, some 40] := by decide +kernel

/-- The capital costs of an extended line are 80, and missing from the expression. -/
theorem line_capex_missing : capexE eData ePoint true eLine "0" = none ∧ cells (capexF (recordOf eData ePoint) "_opt" eLine "0") = some [some 80] ∧
    cells (capexE eData ePoint false eLine "0") = some [some 80] := ⟨by decide +kernel, by decide +kernel, by decide +kernel⟩

/-- The capital costs of a link that may not be extended are 40, and missing from the expression. -/
theorem link_capex_missing : capexE eData ePoint true eLink "0" = none ∧ cells (capexF (recordOf eData ePoint) "_opt" eLink "0") = some [some 40] :=
  ⟨(fixed_class_missing eNet eData ePoint .sum true false false (by decide) "0").2.1, by decide +kernel⟩

example : cells (curtailmentE eNet eData ePoint .sum eGen "") = some [some 14, some 6] ∧
    cells (curtailmentF eNet (recordOf eData ePoint) .sum eGen "") = some [some 14, some 6] := ⟨by decide +kernel, by decide +kernel⟩

example : aggregate (fun _ _ => false) eNet eOpts (curtailmentE eNet eData ePoint .sum) [eGen] =
    aggregate (fun _ _ => false) eNet eOpts (curtailmentF eNet (recordOf eData ePoint) .sum) [eGen] :=
  curtailment_expression_partial _ eNet eOpts eData ePoint .sum _ (by
    intro c hc
    obtain rfl := List.mem_singleton.1 hc
    refine ⟨.inl rfl, by decide +kernel, _, _, _, rfl, rfl, rfl, ?_, ?_⟩
    · intro a _ t
      split_ifs <;> norm_num
    · intro a ha t
      simp only [eGen, List.mem_cons, List.not_mem_nil, or_false] at ha
      rcases ha with rfl | rfl <;> simp [opVal, Results.recorded, Results.nomOpt, eData, ePoint, eGen, eAsset] <;> split_ifs <;> norm_num)

/-- A night without sun. -/
def eNight : ModelData ℚ := { eData with dense := fun c k => if k = "p_max_pu" then some (fun _ t => if t = 1 then 0 else 1) else eData.dense c k }

theorem night_curtailment : cells (curtailmentE eNet eNight ePoint .sum eGen "") = some [none, none] ∧
    cells (curtailmentF eNet (recordOf eNight ePoint) .sum eGen "") = some [some 10, some 2] := ⟨by decide +kernel, by decide +kernel⟩

/-- A store that is idle at a level of 5 has an energy balance of 0, and of 20 by the expression. -/
theorem store_balance_wrong : cells (balanceE eNet eData ePoint .sum .balance eStore "") = some [some 20] ∧
    cells (balanceF eNet (recordOf eData ePoint) .sum .balance eStore "") = some [some 0] := ⟨by decide +kernel, by decide +kernel⟩

/-- A storage unit that is charged withdraws 4, and nothing by the expression. -/
theorem charging_missing : cells (balanceE eNet eData ePoint .sum .withdrawal eUnit "") = some [some 0] ∧
    cells (balanceF eNet (recordOf eData ePoint) .sum .withdrawal eUnit "") = some [some 4] ∧
    cells (balanceE eNet eData ePoint .sum .supply eUnit "") = some [some (-4)] := ⟨by decide +kernel, by decide +kernel, by decide +kernel⟩

example := unit_supply eNet eData ePoint .sum (c := eUnit) rfl (by decide +kernel)

/-- A port without a bus counts in the expression when grouping by class only. -/
theorem unused_port_counts :
    firsts (aggregate (fun _ _ => false) eNet { eOpts with groupby := some [.carrier] } (balanceE eNet eData ePoint .sum .balance) [eLink3]) =
      [(["Link", ""], some 0)] ∧
    firsts (aggregate (fun _ _ => false) eNet { eOpts with groupby := some [.carrier] } (balanceF eNet (recordOf eData ePoint) .sum .balance) [eLink3]) =
      [(["Link", ""], some (-8))] := ⟨by decide +kernel, by decide +kernel⟩

end Verif.Stats
