import Verif.Stats.Cost
import Verif.Stats.ExpressionsProps
import Verif.Opt.ObjectiveProps

/-!
# Statistics of costs and near-optimal alternatives (C64, C97)
-/

namespace Verif.Stats

open Verif.Opt

variable {F : Type} [Field F] [LinearOrder F] (search : String → String → Bool)

/-! ## Specification -/

/-- Capital cost of given capacities of one class; with periods, once for each period in service. -/
def capitalOf (n : Objective.Net F) (cap : Objective.Asset F → F) (comp : String) : F :=
  ((n.assets comp).map (fun a => match n.periods with
    | none => if a.activeFlag then a.capitalCost * cap a else 0
    | some (ps, pw, _) => (ps.map (fun p => if a.activeIn p then pw p * a.capitalCost * cap a else 0)).sum)).sum

/-- Over all classes. -/
def capitalAll (n : Objective.Net F) (cap : String → String → Objective.Asset F → F) : F :=
  capitalOf n (cap "Generator" "p_nom") "Generator" + capitalOf n (cap "Link" "p_nom") "Link" +
  capitalOf n (cap "Line" "s_nom") "Line" + capitalOf n (cap "Transformer" "s_nom") "Transformer" +
  capitalOf n (cap "Store" "e_nom") "Store" + capitalOf n (cap "StorageUnit" "p_nom") "StorageUnit"

/-- Capital cost of capacities that are not extendable. -/
def capitalFixed (n : Objective.Net F) : F := capitalAll n (fun _ _ a => if a.ext then 0 else a.nom)

/-- Cost of all capacities and of operation. -/
def fullCost (n : Objective.Net F) (val : Objective.OVar → F) (w : Nat → F) : F :=
  Objective.systemCost n val w + capitalFixed n

/-- Cost of operating links. -/
def linkCost (n : Objective.Net F) (val : Objective.OVar → F) (w : Nat → F) : F :=
  Objective.total n "Link" (fun a t => Objective.running val w "Link" "p" a t + Objective.commitment val w "Link" a t)

/-! ## Totals of statistics -/

/-- All assets are counted, at one port, each in one group. -/
structure Plain (n : Net) (o : Opts F) (comps : List Comp) : Prop where
  agg : o.agg = sumAgg
  round : o.round = none
  bus : o.busCarrier = .all
  car : o.carrier = .all
  port : ∀ c ∈ comps, ∃ p, usedPorts o.atPort c = [p]
  lab : ∀ c ∈ comps, ∀ port, ∀ a ∈ c.assets, (groupOf n o c port a).isSome

omit [LinearOrder F] in
theorem portVals_plain (n : Net) (o : Opts F) (hb : o.busCarrier = .all) (hc : o.carrier = .all)
    (func : Comp → String → Option (Vals F)) (c : Comp) (port : String) (v : Vals F) (h : func c port = some v) :
    (portVals search n o func c port).rows = (filterActive n v).rows := by
  unfold portVals
  have h1 : ∀ a, busOk search n port o.busCarrier a = true := by intro a; rw [hb]; rfl
  have h2 : ∀ (idx : List Asset) (a : Asset), carrierOk search c idx o.carrier a = true := by
    intro idx a; rw [hc]; unfold carrierOk; split <;> rfl
  simp [h, h1, h2]

/-- Static values: those of assets in service (in the period). -/
theorem compTotal_static (n : Net) (o : Opts F) (comps : List Comp) (hp : Plain n o comps) (func : Comp → String → Option (Vals F))
    (c : Comp) (hc : c ∈ comps) (x : Asset → F) (h : ∀ port, func c port = some (static c x)) (j : Nat)
    (hj : ∀ k, n.multi = some k → j < k) :
    compTotal search n o func c j = (c.assets.map (fun a =>
      if (match n.multi with
        | none => a.active
        | some _ => a.activeIn j) = true then x a else 0)).sum := by
  obtain ⟨p, hp1⟩ := hp.port c hc
  unfold compTotal
  rw [hp1]
  simp only [List.map_cons, List.map_nil, List.sum_cons, List.sum_nil, add_zero]
  rw [portVals_plain search n o hp.bus hp.car func c p _ (h p)]
  unfold filterActive static
  simp only [Bool.false_eq_true, if_false]
  cases hm : n.multi with
  | none =>
    simp only [List.filter_map, List.map_map, Function.comp_def, Option.getD_some]
    rw [sum_filter_eq]
    congr 1; apply List.map_congr_left; intro a ha
    simp [hp.lab c hc p a ha]
  | some k =>
    simp only [List.filter_map, List.map_map, Function.comp_def]
    rw [sum_filter_eq]
    congr 1; apply List.map_congr_left; intro a ha
    have hl := hp.lab c hc p a ha
    cases hact : a.activeIn j with
    | true =>
      have : (List.range k).any a.activeIn = true := List.any_eq_true.mpr ⟨j, List.mem_range.mpr (hj k hm), hact⟩
      simp [this, hl]
    | false => simp

/-- Values by time: those of assets in service, or of all in networks with periods. -/
theorem compTotal_time (n : Net) (o : Opts F) (comps : List Comp) (hp : Plain n o comps) (func : Comp → String → Option (Vals F))
    (c : Comp) (hc : c ∈ comps) (agg : TimeAgg) (x : Asset → Nat → F)
    (h : ∀ port, func c port = some ⟨timeFrame n.multi agg, c.assets.map (fun a => (a, fun j => some (x a j)))⟩) (j : Nat) :
    compTotal search n o func c j = (c.assets.map (fun a => if (timeFrame n.multi agg || a.active) = true then x a j else 0)).sum := by
  obtain ⟨p, hp1⟩ := hp.port c hc
  unfold compTotal
  rw [hp1]
  simp only [List.map_cons, List.map_nil, List.sum_cons, List.sum_nil, add_zero]
  rw [portVals_of search n o func c p (timeFrame n.multi agg) (fun a j => some (x a j)) (h p) (timeFrame_multi n agg)]
  have hs : selected search n o (timeFrame n.multi agg) c p = c.assets.filter (fun a => timeFrame n.multi agg || a.active) := by
    have h1 : ∀ a, busOk search n p o.busCarrier a = true := by intro a; rw [hp.bus]; rfl
    have h2 : ∀ (idx : List Asset) (a : Asset), carrierOk search c idx o.carrier a = true := by
      intro idx a; rw [hp.car]; unfold carrierOk; split <;> rfl
    unfold selected; simp [h1, h2]
  rw [hs]
  simp only [List.map_map, Function.comp_def, Option.getD_some]
  rw [sum_filter_eq]
  congr 1; apply List.map_congr_left; intro a ha
  simp [hp.lab c hc p a ha]

/-- A class without values. -/
theorem compTotal_none (n : Net) (o : Opts F) (func : Comp → String → Option (Vals F)) (c : Comp) (h : ∀ port, func c port = none)
    (j : Nat) : compTotal search n o func c j = 0 := by
  unfold compTotal
  apply sum_map_zero
  intro port _
  unfold portVals
  rw [h]; rfl

/-! ## The recorded network -/

section record
variable (n : Objective.Net F) (val : Objective.OVar → F) (col : String → String → String → Option String)
  (cols : String → List String)

omit [Field F] [LinearOrder F] in
theorem recRow_self (cname : String) (hn : ((n.assets cname).map (·.name)).Nodup) (a : Objective.Asset F)
    (ha : a ∈ n.assets cname) : recRow n cname a.name = some a := by
  unfold recRow
  generalize n.assets cname = l at hn ha
  induction l with
  | nil => simp at ha
  | cons x l ih =>
    rw [List.map_cons, List.nodup_cons] at hn
    rcases List.mem_cons.mp ha with rfl | ha
    · simp
    · have : x.name ≠ a.name := fun e => hn.1 (e ▸ List.mem_map_of_mem ha)
      rw [List.find?_cons_of_neg (by simpa using this)]
      exact ih hn.2 ha

/-! ## Weighted totals -/

/-- A column of the result. -/
def IsCol (j : Nat) : Prop := match n.periods with
  | none => j = 0
  | some (ps, _, _) => j < ps.length

omit [LinearOrder F] in
theorem weightedTotal_congr (f g : Nat → F) (h : ∀ j, IsCol n j → f j = g j) : weightedTotal n f = weightedTotal n g := by
  unfold weightedTotal
  unfold IsCol at h
  cases hp : n.periods with
  | none => rw [hp] at h; exact h 0 rfl
  | some y =>
    rw [hp] at h
    simp only
    congr 1; apply List.map_congr_left; intro j hj
    rw [h j (List.mem_range.mp hj)]

omit [LinearOrder F] in
theorem weightedTotal_add (f g : Nat → F) : weightedTotal n (fun j => f j + g j) = weightedTotal n f + weightedTotal n g := by
  unfold weightedTotal
  cases n.periods with
  | none => rfl
  | some y => simp only [add_mul]; rw [List.sum_map_add]

omit [LinearOrder F] in
theorem weightedTotal_zero : weightedTotal n (fun _ => (0 : F)) = 0 := by
  unfold weightedTotal
  cases n.periods with
  | none => rfl
  | some y => simp

omit [LinearOrder F] in
theorem weightedTotal_sum {α : Type} (l : List α) (f : α → Nat → F) :
    weightedTotal n (fun j => (l.map (fun a => f a j)).sum) = (l.map (fun a => weightedTotal n (f a))).sum := by
  induction l with
  | nil => simp only [List.map_nil, List.sum_nil]; exact weightedTotal_zero n
  | cons a l ih =>
    simp only [List.map_cons, List.sum_cons]
    rw [weightedTotal_add, ih]

omit [LinearOrder F] in
theorem sum_range_get {α : Type} (l : List α) (g : Option α → F) :
    ((List.range l.length).map (fun j => g l[j]?)).sum = (l.map (fun x => g (some x))).sum := by
  have : (List.range l.length).map (fun j => l[j]?) = l.map some := by
    apply List.ext_getElem
    · simp
    · intro i h1 h2; simp at h1; simp [h1]
  have h2 : (List.range l.length).map (fun j => g l[j]?) = ((List.range l.length).map (fun j => l[j]?)).map g := by simp
  rw [h2, this, List.map_map]; rfl

omit [LinearOrder F] in
/-- Weighted total of a value counted in the columns in which the asset is in service. -/
theorem weightedTotal_service (cname : String) (a : Objective.Asset F) (v : F) :
    weightedTotal n (fun j => if (match n.periods.map (fun x => x.1.length) with
        | none => (recAsset n col cname a).active
        | some _ => (recAsset n col cname a).activeIn j) = true then v else 0) =
      match n.periods with
      | none => if a.activeFlag then v else 0
      | some (ps, pw, _) => (ps.map (fun p => if a.activeIn p then pw p * v else 0)).sum := by
  unfold weightedTotal recAsset
  cases hp : n.periods with
  | none => simp
  | some y =>
    obtain ⟨ps, pw, per⟩ := y
    simp only [Option.map_some]
    rw [sum_range_get ps (fun o => (if (o.map a.activeIn).getD false = true then v else 0) * (o.map pw).getD 0)]
    congr 1; apply List.map_congr_left; intro p _
    simp [mul_comm]

/-- Weight of events: 1, or that of the period. -/
def periodWeight (t : Nat) : F := match n.periods with
  | none => 1
  | some (_, pw, per) => pw (per t)

/-- Snapshots lie in the periods. -/
def InPeriods : Prop := match n.periods with
  | none => True
  | some (ps, _, per) => ∀ t ∈ n.sns, per t ∈ ps

omit [LinearOrder F] in
/-- Weighted total of a sum over time. -/
theorem weightedTotal_time (hin : InPeriods n) (T : Time F)
    (hT : T = ⟨n.sns, fun t => match n.periods with
      | none => 0
      | some (ps, _, per) => ps.idxOf (per t)⟩) (w f : Nat → F) :
    weightedTotal n (fun j => timeAgg T (n.periods.map (fun x => x.1.length)) .sum w f j) =
      (n.sns.map (fun t => periodWeight n t * w t * f t)).sum := by
  subst hT
  unfold weightedTotal timeAgg weighted Time.part periodWeight
  unfold InPeriods at hin
  cases hp : n.periods with
  | none => simp
  | some y =>
    obtain ⟨ps, pw, per⟩ := y
    rw [hp] at hin
    simp only [Option.map_some] at hin ⊢
    have h1 : ∀ j ∈ List.range ps.length, ((n.sns.filter (fun t => decide (ps.idxOf (per t) = j))).map (fun t => w t * f t)).sum *
        (ps[j]?.map pw).getD 0 =
        (n.sns.map (fun t => if ps.idxOf (per t) = j then pw (per t) * w t * f t else 0)).sum := by
      intro j _
      rw [sum_filter_eq, mul_comm, mul_list_sum]
      congr 1; apply List.map_congr_left; intro t ht
      by_cases h : ps.idxOf (per t) = j
      · have hm := hin t ht
        have : ps[j]? = some (per t) := by
          rw [← h, List.getElem?_eq_getElem (List.idxOf_lt_length_of_mem hm), List.getElem_idxOf]
        simp [h, this, mul_assoc]
      · simp [h]
    rw [List.map_congr_left h1, sum_comm']
    congr 1; apply List.map_congr_left; intro t ht
    exact sum_ite_mem (List.range ps.length) List.nodup_range _ (List.mem_range.mpr (List.idxOf_lt_length_of_mem (hin t ht))) _

/-! ## Capital -/

theorem recComp_mem (c : String × Bool) (hc : c ∈ classes) : recComp n col cols c ∈ classes.map (recComp n col cols) :=
  List.mem_map_of_mem hc

theorem nominal_rec (c : String × Bool) (hc : c ∈ classes) : ∃ attr, nominal (recComp n col cols c) = some attr ∧
    (c.1, attr) ∈ Objective.nominalAttrs ∧ attr ≠ attr ++ "_opt" ∧ attr ≠ "capital_cost" ∧ attr ++ "_opt" ≠ "capital_cost" := by
  simp only [classes, List.mem_cons, List.not_mem_nil, or_false] at hc
  rcases hc with rfl | rfl | rfl | rfl | rfl | rfl <;> exact ⟨_, rfl, by decide, by decide, by decide, by decide⟩

variable (buses : List String) (busCol : String → String → Option String) (nice : String → String) (wGen wSto : Nat → F)

omit [LinearOrder F] in
theorem isFrame_multi (m : Net) (o : Opts F) (func : Comp → String → Option (Vals F)) (comps : List Comp) (k : Nat)
    (hm : m.multi = some k) (c : Comp) (hc : c ∈ comps) (p : String) (hp : usedPorts o.atPort c = [p])
    (v : Vals F) (hv : func c p = some v) : isFrame search m o func comps = true := by
  unfold isFrame
  refine List.any_eq_true.mpr ⟨c, hc, List.any_eq_true.mpr ⟨p, by rw [hp]; simp, ?_⟩⟩
  unfold portVals filterActive
  simp only [hv, hm]
  cases h : v.frame <;> simp [h]

/-- Names are unique in each class. -/
def UniqueNames : Prop := ∀ c ∈ classes, ((n.assets c.1).map (·.name)).Nodup

theorem recNum_self (c : String × Bool) (hc : c ∈ classes) (hn : UniqueNames n) (f : Objective.Asset F → F)
    (a : Objective.Asset F) (ha : a ∈ n.assets c.1) :
    recNum n f (recComp n col cols c) (recAsset n col c.1 a) = f a := by
  unfold recNum
  rw [show (recComp n col cols c).cname = c.1 from rfl, show (recAsset n col c.1 a).name = a.name from rfl,
    recRow_self n c.1 (hn c hc) a ha]

/-- Weighted total of static values of all classes. -/
theorem static_total (o : Opts F) (func : Comp → String → Option (Vals F))
    (hp : Plain (recNet n buses busCol nice) o (classes.map (recComp n col cols)))
    (x : String → Objective.Asset F → F)
    (hf : ∀ c ∈ classes, ∃ y, (∀ port, func (recComp n col cols c) port = some (static (recComp n col cols c) y)) ∧
      ∀ a ∈ n.assets c.1, y (recAsset n col c.1 a) = a.capitalCost * x c.1 a)
    (res : List (Row F)) (h : aggregate search (recNet n buses busCol nice) o func (classes.map (recComp n col cols)) = .ok res) :
    weightedTotal n (colTotal res) = (classes.map (fun c => capitalOf n (x c.1) c.1)).sum := by
  have h1 : weightedTotal n (colTotal res) = weightedTotal n (fun j =>
      (classes.map (fun c => compTotal search (recNet n buses busCol nice) o func (recComp n col cols c) j)).sum) := by
    apply weightedTotal_congr
    intro j hj
    have hg := grand_total search (recNet n buses busCol nice) o hp.agg hp.round func _ res h j
    rw [List.map_map] at hg
    apply hg
    intro hfr
    unfold IsCol at hj
    cases hper : n.periods with
    | none => rw [hper] at hj; exact hj
    | some y =>
      exfalso
      have hc0 : (("Generator", false) : String × Bool) ∈ classes := by decide
      obtain ⟨q, hq⟩ := hp.port _ (recComp_mem n col cols _ hc0)
      obtain ⟨y', hy', _⟩ := hf _ hc0
      rw [isFrame_multi search (recNet n buses busCol nice) o func _ y.1.length (by unfold recNet; rw [hper]; rfl) _
        (recComp_mem n col cols _ hc0) q hq _ (hy' q)] at hfr
      exact absurd hfr (by simp)
  rw [h1, weightedTotal_sum]
  congr 1; apply List.map_congr_left; intro c hc
  obtain ⟨y, hy, hyx⟩ := hf c hc
  have h2 : weightedTotal n (compTotal search (recNet n buses busCol nice) o func (recComp n col cols c)) =
      weightedTotal n (fun j => ((n.assets c.1).map (fun a => if (match n.periods.map (fun x => x.1.length) with
        | none => (recAsset n col c.1 a).active
        | some _ => (recAsset n col c.1 a).activeIn j) = true then a.capitalCost * x c.1 a else 0)).sum) := by
    apply weightedTotal_congr
    intro j hj
    rw [compTotal_static search (recNet n buses busCol nice) o _ hp func _ (recComp_mem n col cols c hc) y hy j
      (by
        intro k hk
        unfold IsCol at hj
        unfold recNet at hk
        cases hper : n.periods with
        | none => rw [hper] at hk; simp at hk
        | some z => rw [hper] at hk hj; simp at hk; rw [← hk]; exact hj)]
    rw [show (recComp n col cols c).assets = (n.assets c.1).map (recAsset n col c.1) from rfl, List.map_map]
    congr 1; apply List.map_congr_left; intro a ha
    simp only [Function.comp]
    rw [hyx a ha]
    rfl
  rw [h2, weightedTotal_sum]
  unfold capitalOf
  congr 1; apply List.map_congr_left; intro a _
  rw [weightedTotal_service]
  cases n.periods with
  | none => rfl
  | some z =>
    simp only
    congr 1; apply List.map_congr_left; intro p _
    split <;> ring

theorem capexF_rec (hn : UniqueNames n) (sfx : String) (hs : sfx = "_opt" ∨ sfx = "") (c : String × Bool) (hc : c ∈ classes) :
    ∃ attr, (c.1, attr) ∈ Objective.nominalAttrs ∧ ∃ y,
      (∀ port, capexF (recData n val wGen wSto).toData sfx (recComp n col cols c) port = some (static (recComp n col cols c) y)) ∧
      ∀ a ∈ n.assets c.1, y (recAsset n col c.1 a) =
        a.capitalCost * (if sfx = "" then a.nom else Results.nomOpt a.ext a.nom (val (.nom c.1 attr a.name))) := by
  obtain ⟨attr, h1, h2, h3, h4, h5⟩ := nominal_rec n col cols c hc
  refine ⟨attr, h2, ?_⟩
  rcases hs with rfl | rfl
  · refine ⟨fun a => recNum n (fun x => Results.nomOpt x.ext x.nom (val (.nom c.1 attr x.name))) (recComp n col cols c) a *
      recNum n (·.capitalCost) (recComp n col cols c) a, ?_, ?_⟩
    · intro port
      unfold capexF
      simp only [h1, recData, if_neg (Ne.symm h3), if_neg (Ne.symm h4), if_neg (Ne.symm h5), if_true]
      rfl
    · intro a ha
      beta_reduce
      rw [recNum_self n col cols c hc hn _ a ha, recNum_self n col cols c hc hn _ a ha, mul_comm]
      simp
  · refine ⟨fun a => recNum n (·.nom) (recComp n col cols c) a * recNum n (·.capitalCost) (recComp n col cols c) a, ?_, ?_⟩
    · intro port
      unfold capexF
      simp only [h1, recData, if_neg (Ne.symm h4), if_neg (Ne.symm h5), if_true, String.append_empty]
    · intro a ha
      beta_reduce
      rw [recNum_self n col cols c hc hn _ a ha, recNum_self n col cols c hc hn _ a ha, mul_comm]
      simp

theorem capital_classes (x : String → String → Objective.Asset F → F) (attr : String → String)
    (h : ∀ c ∈ classes, (c.1, attr c.1) ∈ Objective.nominalAttrs) :
    (classes.map (fun c => capitalOf n (x c.1 (attr c.1)) c.1)).sum = capitalAll n x := by
  have e : attr "Generator" = "p_nom" ∧ attr "Link" = "p_nom" ∧ attr "Line" = "s_nom" ∧ attr "Transformer" = "s_nom" ∧
      attr "Store" = "e_nom" ∧ attr "StorageUnit" = "p_nom" := by
    have h1 := h ("Generator", false) (by decide)
    have h2 := h ("Link", true) (by decide)
    have h3 := h ("Line", true) (by decide)
    have h4 := h ("Transformer", true) (by decide)
    have h5 := h ("Store", false) (by decide)
    have h6 := h ("StorageUnit", false) (by decide)
    simp only [Objective.nominalAttrs, List.mem_cons, List.not_mem_nil, or_false, Prod.mk.injEq] at h1 h2 h3 h4 h5 h6
    simp_all
  obtain ⟨e1, e2, e3, e4, e5, e6⟩ := e
  unfold classes capitalAll
  simp only [List.map_cons, List.map_nil, List.sum_cons, List.sum_nil, e1, e2, e3, e4, e5, e6]
  ring

/-- C97: the capital expenditure of the recorded network, over all groups and weighed by period, is that of the
optimal capacities. -/
theorem capex_total (hn : UniqueNames n) (o : Opts F)
    (hp : Plain (recNet n buses busCol nice) o (classes.map (recComp n col cols))) (res : List (Row F))
    (h : aggregate search (recNet n buses busCol nice) o (capexF (recData n val wGen wSto).toData "_opt")
      (classes.map (recComp n col cols)) = .ok res) :
    weightedTotal n (colTotal res) = capitalAll n (fun c attr a => if a.ext then val (.nom c attr a.name) else a.nom) := by
  have hch : ∀ c ∈ classes, _ := fun c hc => capexF_rec n val col cols wGen wSto hn "_opt" (.inl rfl) c hc
  let attr : String → String := fun c => ((Objective.nominalAttrs.find? (fun e => e.1 == c)).map (·.2)).getD ""
  have hat : ∀ c ∈ classes, (c.1, attr c.1) ∈ Objective.nominalAttrs := by decide
  have huniq : ∀ c ∈ classes, ∀ at', (c.1, at') ∈ Objective.nominalAttrs → at' = attr c.1 := by
    intro c hc at' ha
    simp only [classes, List.mem_cons, List.not_mem_nil, or_false] at hc
    simp only [Objective.nominalAttrs, List.mem_cons, List.not_mem_nil, or_false, Prod.mk.injEq] at ha
    rcases hc with rfl | rfl | rfl | rfl | rfl | rfl <;> simp at ha <;> subst ha <;> rfl
  rw [static_total search n col cols buses busCol nice o _ hp
    (fun c a => if a.ext then val (.nom c (attr c) a.name) else a.nom) (by
      intro c hc
      obtain ⟨at', ha, y, hy1, hy2⟩ := hch c hc
      refine ⟨y, hy1, fun a haa => ?_⟩
      rw [hy2 a haa, huniq c hc at' ha]
      rfl) res h]
  exact capital_classes n (fun c attr a => if a.ext then val (.nom c attr a.name) else a.nom) attr hat

/-- C97: the same for installed capacities. -/
theorem installed_total (hn : UniqueNames n) (o : Opts F)
    (hp : Plain (recNet n buses busCol nice) o (classes.map (recComp n col cols))) (res : List (Row F))
    (h : aggregate search (recNet n buses busCol nice) o (capexF (recData n val wGen wSto).toData "")
      (classes.map (recComp n col cols)) = .ok res) :
    weightedTotal n (colTotal res) = capitalAll n (fun _ _ a => a.nom) := by
  rw [static_total search n col cols buses busCol nice o _ hp (fun _ a => a.nom) (by
      intro c hc
      obtain ⟨at', _, y, hy1, hy2⟩ := capexF_rec n val col cols wGen wSto hn "" (.inr rfl) c hc
      exact ⟨y, hy1, fun a haa => by rw [hy2 a haa, if_pos rfl]⟩) res h]
  unfold classes capitalAll
  simp only [List.map_cons, List.map_nil, List.sum_cons, List.sum_nil]
  ring

/-! ## Operation -/

/-- Recorded value of a variable. -/
def recVal (c : String × Bool) (attr : String) (a : Asset) (t : Nat) : F :=
  recNum n (fun x => Results.recorded (Objective.present x attr t) (val (.op c.1 attr x.name t))) (recComp n col cols c) a

def opE (c : String × Bool) (ty attr : String) (f : Objective.Asset F → Nat → F) : Bool × (Asset → Nat → F) :=
  (false, fun a t => (if ty = "marginal_cost_quadratic" then recVal n val col cols c attr a t * recVal n val col cols c attr a t
    else recVal n val col cols c attr a t) * recNum n (fun x => f x t) (recComp n col cols c) a)

def comE (c : String × Bool) (attr : String) (f : Objective.Asset F → Nat → F) : Bool × (Asset → Nat → F) :=
  (attr != "status", fun a t => if (recData n val wGen wSto).com (recComp n col cols c) a = true then
    recVal n val col cols c attr a t * recNum n (fun x => f x t) (recComp n col cols c) a else 0)

theorem opTerm_rec (c : String × Bool) (ty attr : String) (f : Objective.Asset F → Nat → F) (h1 : costVar c.1 ty = some attr)
    (h2 : (recTables c.1).contains attr = true) (h3 : recCost (recComp n col cols c) ty = some f) :
    opTerm (recData n val wGen wSto) (recComp n col cols c) ty = some (opE n val col cols c ty attr f) := by
  unfold opTerm
  rw [show (recComp n col cols c).cname = c.1 from rfl, h1]
  have ht : (recData n val wGen wSto).table (recComp n col cols c) attr = some (recVal n val col cols c attr) := by
    unfold recData
    simp only
    rw [show (recComp n col cols c).cname = c.1 from rfl, if_pos h2]
    rfl
  have hc : (recData n val wGen wSto).cost (recComp n col cols c) ty = some (fun a t => recNum n (fun x => f x t) (recComp n col cols c) a) := by
    unfold recData
    simp only
    rw [h3]; rfl
  simp only [Option.bind_some, ht, hc, Option.map_some]
  rfl

theorem comTerm_rec (c : String × Bool) (ty : String × String) (f : Objective.Asset F → Nat → F)
    (h2 : (recTables c.1).contains ty.2 = true) (h3 : recCost (recComp n col cols c) ty.1 = some f) :
    comTerm (recData n val wGen wSto) (recComp n col cols c) ty = some (comE n val col cols wGen wSto c ty.2 f) := by
  unfold comTerm
  have ht : (recData n val wGen wSto).table (recComp n col cols c) ty.2 = some (recVal n val col cols c ty.2) := by
    unfold recData
    simp only
    rw [show (recComp n col cols c).cname = c.1 from rfl, if_pos h2]
    rfl
  have hc : (recData n val wGen wSto).cost (recComp n col cols c) ty.1 = some (fun a t => recNum n (fun x => f x t) (recComp n col cols c) a) := by
    unfold recData
    simp only
    rw [h3]; rfl
  simp only [Option.bind_some, ht, hc, Option.map_some]
  rfl

theorem cost_isSome (c : String × Bool) (ty : String) :
    ((recData n val wGen wSto).cost (recComp n col cols c) ty).isSome = (recCost (F := F) (recComp n col cols c) ty).isSome := by
  unfold recData; simp

theorem opexTerms_gen : opexTerms (recData n val wGen wSto) allTypes (recComp n col cols ("Generator", false)) =
    [some (opE n val col cols ("Generator", false) "marginal_cost" "p" (·.marginal)),
     some (opE n val col cols ("Generator", false) "marginal_cost_quadratic" "p" (·.quadratic))] ++
    if (recComp n col cols ("Generator", false)).assets.any ((recData n val wGen wSto).com (recComp n col cols ("Generator", false))) = true then
      [some (comE n val col cols wGen wSto ("Generator", false) "start_up" (fun a _ => a.startUp)),
       some (comE n val col cols wGen wSto ("Generator", false) "shut_down" (fun a _ => a.shutDown)),
       some (comE n val col cols wGen wSto ("Generator", false) "status" (·.standBy))] else [] := by
  have e1 := opTerm_rec n val col cols wGen wSto ("Generator", false) "marginal_cost" "p" (·.marginal) (by decide) (by decide) rfl
  have e2 := opTerm_rec n val col cols wGen wSto ("Generator", false) "marginal_cost_quadratic" "p" (·.quadratic) (by decide) (by decide) rfl
  have e3 := comTerm_rec n val col cols wGen wSto ("Generator", false) ("start_up_cost", "start_up") (fun a _ => a.startUp) (by decide) rfl
  have e4 := comTerm_rec n val col cols wGen wSto ("Generator", false) ("shut_down_cost", "shut_down") (fun a _ => a.shutDown) (by decide) rfl
  have e5 := comTerm_rec n val col cols wGen wSto ("Generator", false) ("stand_by_cost", "status") (·.standBy) (by decide) rfl
  unfold opexTerms
  simp only [cost_isSome]
  have hop : opTypes.filter (fun ty => allTypes.contains ty && (recCost (F := F) (recComp n col cols ("Generator", false)) ty).isSome) =
      ["marginal_cost", "marginal_cost_quadratic"] := rfl
  rw [hop]
  cases (recComp n col cols ("Generator", false)).assets.any ((recData n val wGen wSto).com (recComp n col cols ("Generator", false))) with
  | false =>
    simp [e1, e2]
  | true =>
    have hco : comTypes.filter (fun ty => allTypes.contains ty.1 &&
        (recCost (F := F) (recComp n col cols ("Generator", false)) ty.1).isSome && true) = comTypes := rfl
    rw [hco]
    simp [comTypes, e1, e2, e3, e4, e5]

theorem opexTerms_store : opexTerms (recData n val wGen wSto) allTypes (recComp n col cols ("Store", false)) =
    [some (opE n val col cols ("Store", false) "marginal_cost" "p" (·.marginal)),
     some (opE n val col cols ("Store", false) "marginal_cost_storage" "e" (·.marginalStorage)),
     some (opE n val col cols ("Store", false) "marginal_cost_quadratic" "p" (·.quadratic))] := by
  have e1 := opTerm_rec n val col cols wGen wSto ("Store", false) "marginal_cost" "p" (·.marginal) (by decide) (by decide) rfl
  have e2 := opTerm_rec n val col cols wGen wSto ("Store", false) "marginal_cost_quadratic" "p" (·.quadratic) (by decide) (by decide) rfl
  have e3 := opTerm_rec n val col cols wGen wSto ("Store", false) "marginal_cost_storage" "e" (·.marginalStorage) (by decide) (by decide) rfl
  unfold opexTerms
  simp only [cost_isSome]
  have hop : opTypes.filter (fun ty => allTypes.contains ty && (recCost (F := F) (recComp n col cols ("Store", false)) ty).isSome) =
      ["marginal_cost", "marginal_cost_storage", "marginal_cost_quadratic"] := rfl
  have hco : comTypes.filter (fun ty => allTypes.contains ty.1 &&
        (recCost (F := F) (recComp n col cols ("Store", false)) ty.1).isSome &&
        (recComp n col cols ("Store", false)).assets.any ((recData n val wGen wSto).com (recComp n col cols ("Store", false)))) = [] := rfl
  rw [hop, hco]
  simp [e1, e2, e3]

theorem opexTerms_unit : opexTerms (recData n val wGen wSto) allTypes (recComp n col cols ("StorageUnit", false)) =
    [some (opE n val col cols ("StorageUnit", false) "marginal_cost" "p_dispatch" (·.marginal)),
     some (opE n val col cols ("StorageUnit", false) "marginal_cost_storage" "state_of_charge" (·.marginalStorage)),
     some (opE n val col cols ("StorageUnit", false) "marginal_cost_quadratic" "p_dispatch" (·.quadratic)),
     some (opE n val col cols ("StorageUnit", false) "spill_cost" "spill" (·.spillCost))] := by
  have e1 := opTerm_rec n val col cols wGen wSto ("StorageUnit", false) "marginal_cost" "p_dispatch" (·.marginal) (by decide) (by decide) rfl
  have e2 := opTerm_rec n val col cols wGen wSto ("StorageUnit", false) "marginal_cost_quadratic" "p_dispatch" (·.quadratic) (by decide) (by decide) rfl
  have e3 := opTerm_rec n val col cols wGen wSto ("StorageUnit", false) "marginal_cost_storage" "state_of_charge" (·.marginalStorage) (by decide) (by decide) rfl
  have e4 := opTerm_rec n val col cols wGen wSto ("StorageUnit", false) "spill_cost" "spill" (·.spillCost) (by decide) (by decide) rfl
  unfold opexTerms
  simp only [cost_isSome]
  have hop : opTypes.filter (fun ty => allTypes.contains ty && (recCost (F := F) (recComp n col cols ("StorageUnit", false)) ty).isSome) =
      ["marginal_cost", "marginal_cost_storage", "marginal_cost_quadratic", "spill_cost"] := rfl
  have hco : comTypes.filter (fun ty => allTypes.contains ty.1 &&
        (recCost (F := F) (recComp n col cols ("StorageUnit", false)) ty.1).isSome &&
        (recComp n col cols ("StorageUnit", false)).assets.any ((recData n val wGen wSto).com (recComp n col cols ("StorageUnit", false)))) = [] := rfl
  rw [hop, hco]
  simp [e1, e2, e3, e4]

/-- Links: there is no table `p`; lines and transformers have no costs of operation. -/
theorem opexF_none (m : Net) (agg : TimeAgg) (c : String × Bool) (hc : c = ("Link", true) ∨ c = ("Line", true) ∨ c = ("Transformer", true))
    (port : String) : opexF m (recData n val wGen wSto) allTypes agg (recComp n col cols c) port = none := by
  unfold opexF opexTerms
  simp only [cost_isSome]
  rcases hc with rfl | rfl | rfl
  · have hop : opTypes.filter (fun ty => allTypes.contains ty && (recCost (F := F) (recComp n col cols ("Link", true)) ty).isSome) =
      ["marginal_cost", "marginal_cost_quadratic"] := rfl
    have hl : opTerm (recData n val wGen wSto) (recComp n col cols ("Link", true)) "marginal_cost" = none := rfl
    rw [hop]
    simp [hl]
  · have hop : opTypes.filter (fun ty => allTypes.contains ty && (recCost (F := F) (recComp n col cols ("Line", true)) ty).isSome) = [] := rfl
    have hco : comTypes.filter (fun ty => allTypes.contains ty.1 &&
        (recCost (F := F) (recComp n col cols ("Line", true)) ty.1).isSome &&
        (recComp n col cols ("Line", true)).assets.any ((recData n val wGen wSto).com (recComp n col cols ("Line", true)))) = [] := rfl
    rw [hop, hco]; rfl
  · have hop : opTypes.filter (fun ty => allTypes.contains ty && (recCost (F := F) (recComp n col cols ("Transformer", true)) ty).isSome) = [] := rfl
    have hco : comTypes.filter (fun ty => allTypes.contains ty.1 &&
        (recCost (F := F) (recComp n col cols ("Transformer", true)) ty.1).isSome &&
        (recComp n col cols ("Transformer", true)).assets.any ((recData n val wGen wSto).com (recComp n col cols ("Transformer", true)))) = [] := rfl
    rw [hop, hco]; rfl

/-- Without periods, an asset that is in service at some time is active. -/
def FlagRespected : Prop := n.periods = none → ∀ c ∈ classes, ∀ a ∈ n.assets c.1, ∀ t ∈ n.sns, a.active t = true → a.activeFlag = true

/-- Weighted total of the operation of one class. -/
theorem opex_class (o : Opts F) (hp : Plain (recNet n buses busCol nice) o (classes.map (recComp n col cols)))
    (hin : InPeriods n) (hfl : FlagRespected n) (c : String × Bool) (hc : c ∈ classes)
    (ts : List (Bool × (Asset → Nat → F))) (hne : ts ≠ [])
    (hts : opexTerms (recData n val wGen wSto) allTypes (recComp n col cols c) = ts.map some)
    (hz : ∀ e ∈ ts, ∀ a ∈ n.assets c.1, ∀ t ∈ n.sns, a.active t = false → e.2 (recAsset n col c.1 a) t = 0) :
    weightedTotal n (compTotal search (recNet n buses busCol nice) o
        (opexF (recNet n buses busCol nice) (recData n val wGen wSto) allTypes .sum) (recComp n col cols c)) =
      Objective.total n c.1 (fun a t => (ts.map (fun e => periodWeight n t *
        (if e.1 then fun _ => 1 else weights (recData n val wGen wSto).toData (recComp n col cols c)) t * e.2 (recAsset n col c.1 a) t)).sum) := by
  have hfun : ∀ port, opexF (recNet n buses busCol nice) (recData n val wGen wSto) allTypes .sum (recComp n col cols c) port =
      some ⟨timeFrame (recNet n buses busCol nice).multi .sum, (recComp n col cols c).assets.map (fun a => (a, fun j =>
        some (opexOf (recNet n buses busCol nice) (recData n val wGen wSto) .sum (recComp n col cols c) ts a j)))⟩ := by
    intro port
    unfold opexF
    simp only [hts]
    have h1 : (ts.map some).isEmpty = false := by
      cases ts with
      | nil => exact absurd rfl hne
      | cons => rfl
    have h2 : (ts.map some).any (·.isNone) = false := by simp
    have h3 : (ts.map some).filterMap id = ts := by simp [List.filterMap_map]
    rw [h1, h2, h3]
    rfl
  have h1 : weightedTotal n (compTotal search (recNet n buses busCol nice) o
        (opexF (recNet n buses busCol nice) (recData n val wGen wSto) allTypes .sum) (recComp n col cols c)) =
      weightedTotal n (fun j => ((n.assets c.1).map (fun a => (ts.map (fun e =>
        timeAgg (recData n val wGen wSto).time (n.periods.map (fun x => x.1.length)) .sum
          (if e.1 then fun _ => 1 else weights (recData n val wGen wSto).toData (recComp n col cols c))
          (fun t => if a.active t then e.2 (recAsset n col c.1 a) t else 0) j)).sum)).sum) := by
    apply weightedTotal_congr
    intro j _
    rw [compTotal_time search (recNet n buses busCol nice) o _ hp _ _ (recComp_mem n col cols c hc) .sum _ hfun j,
      show (recComp n col cols c).assets = (n.assets c.1).map (recAsset n col c.1) from rfl, List.map_map]
    congr 1; apply List.map_congr_left; intro a ha
    simp only [Function.comp]
    have hsum : opexOf (recNet n buses busCol nice) (recData n val wGen wSto) .sum (recComp n col cols c) ts (recAsset n col c.1 a) j =
        (ts.map (fun e =>
        timeAgg (recData n val wGen wSto).time (n.periods.map (fun x => x.1.length)) .sum
          (if e.1 then fun _ => 1 else weights (recData n val wGen wSto).toData (recComp n col cols c))
          (fun t => if a.active t then e.2 (recAsset n col c.1 a) t else 0) j)).sum := by
      unfold opexOf
      congr 1; apply List.map_congr_left; intro e he
      apply timeAgg_congr _ _ _ _ _ _ _ _ (fun _ _ => rfl) _ (by simp)
      intro t ht
      cases hact : a.active t with
      | true => simp
      | false => simp [hz e he a ha t ht hact]
    by_cases hcount : (timeFrame (recNet n buses busCol nice).multi .sum || (recAsset n col c.1 a).active) = true
    · rw [if_pos hcount, hsum]
    · rw [if_neg hcount]
      symm
      apply sum_map_zero
      intro e _
      apply timeAgg_zero _ _ _ _ _ _ _ (by simp)
      intro t ht
      have hper : n.periods = none := by
        unfold recNet timeFrame at hcount
        cases h : n.periods with
        | none => rfl
        | some y => simp [h] at hcount
      cases hact : a.active t with
      | false => rfl
      | true =>
        exfalso; apply hcount
        rw [show (recAsset n col c.1 a).active = a.activeFlag from rfl, hfl hper c hc a ha t ht hact, Bool.or_true]
  rw [h1, weightedTotal_sum]
  unfold Objective.total
  congr 1; apply List.map_congr_left; intro a _
  rw [weightedTotal_sum]
  have h2 : ∀ e ∈ ts, weightedTotal n (fun j => timeAgg (recData n val wGen wSto).time (n.periods.map (fun x => x.1.length)) .sum
          (if e.1 then fun _ => 1 else weights (recData n val wGen wSto).toData (recComp n col cols c))
          (fun t => if a.active t then e.2 (recAsset n col c.1 a) t else 0) j) =
      (n.sns.map (fun t => periodWeight n t *
        (if e.1 then fun _ => 1 else weights (recData n val wGen wSto).toData (recComp n col cols c)) t *
        (if a.active t then e.2 (recAsset n col c.1 a) t else 0))).sum := by
    intro e _
    exact weightedTotal_time n hin (recData n val wGen wSto).time rfl _ _
  rw [List.map_congr_left h2, sum_comm']
  congr 1; apply List.map_congr_left; intro t _
  cases a.active t <;> simp

/-- All weightings agree. -/
def OneWeighting : Prop := ∀ t ∈ n.sns, wGen t = n.sw t ∧ wSto t = n.sw t

/-- Events have no costs, or there are no periods. -/
def EventsWeighed : Prop := n.periods = none ∨ ∀ a ∈ n.assets "Generator", a.com = true → a.startUp = 0 ∧ a.shutDown = 0

omit [LinearOrder F] in
theorem weight_eq (w : Nat → F) (hw : Objective.Weight n w) (t : Nat) (ht : t ∈ n.sns) : w t = periodWeight n t * n.sw t := by
  have := hw t ht
  unfold periodWeight
  cases hp : n.periods with
  | none => rw [hp] at this; simp only at this; rw [this, one_mul]
  | some y => rw [hp] at this; simp only at this; rw [this, mul_comm]

theorem recVal_self (c : String × Bool) (hc : c ∈ classes) (hn : UniqueNames n) (attr : String) (a : Objective.Asset F)
    (ha : a ∈ n.assets c.1) (t : Nat) : recVal n val col cols c attr (recAsset n col c.1 a) t =
      if Objective.present a attr t = true then val (.op c.1 attr a.name t) else 0 := by
  unfold recVal
  rw [recNum_self n col cols c hc hn _ a ha]
  rfl

theorem com_self (c : String × Bool) (hc : c ∈ classes) (hg : c.1 = "Generator") (hn : UniqueNames n) (a : Objective.Asset F)
    (ha : a ∈ n.assets c.1) : (recData n val wGen wSto).com (recComp n col cols c) (recAsset n col c.1 a) = a.com := by
  unfold recData
  simp only
  rw [show (recComp n col cols c).cname = c.1 from rfl, show (recAsset n col c.1 a).name = a.name from rfl,
    recRow_self n c.1 (hn c hc) a ha, hg]
  rfl

/-- C97: the operational expenditure of the recorded network, over all groups and weighed by period, is that of
generators, stores and storage units.  Links are missing. -/
theorem opex_total_partial (hn : UniqueNames n) (hin : InPeriods n) (hfl : FlagRespected n) (how : OneWeighting n wGen wSto)
    (hev : EventsWeighed n) (w : Nat → F) (hw : Objective.Weight n w) (o : Opts F)
    (hp : Plain (recNet n buses busCol nice) o (classes.map (recComp n col cols))) (res : List (Row F))
    (h : aggregate search (recNet n buses busCol nice) o
      (opexF (recNet n buses busCol nice) (recData n val wGen wSto) allTypes .sum) (classes.map (recComp n col cols)) = .ok res) :
    weightedTotal n (colTotal res) =
      Objective.total n "Generator" (fun a t => Objective.running val w "Generator" "p" a t + Objective.commitment val w "Generator" a t) +
      Objective.total n "Store" (fun a t => Objective.running val w "Store" "p" a t +
        w t * a.marginalStorage t * val (.op "Store" "e" a.name t)) +
      Objective.total n "StorageUnit" (fun a t => Objective.running val w "StorageUnit" "p_dispatch" a t +
        w t * a.marginalStorage t * val (.op "StorageUnit" "state_of_charge" a.name t) +
        (if 0 < a.inflow t then w t * a.spillCost t * val (.op "StorageUnit" "spill" a.name t) else 0)) := by
  have hG : (("Generator", false) : String × Bool) ∈ classes := by decide
  have hS : (("Store", false) : String × Bool) ∈ classes := by decide
  have hU : (("StorageUnit", false) : String × Bool) ∈ classes := by decide
  set fn := opexF (recNet n buses busCol nice) (recData n val wGen wSto) allTypes .sum with hfn
  have tG := opexTerms_gen n val col cols wGen wSto
  have h1 : weightedTotal n (colTotal res) = weightedTotal n (fun j =>
      (classes.map (fun c => compTotal search (recNet n buses busCol nice) o fn (recComp n col cols c) j)).sum) := by
    apply weightedTotal_congr
    intro j hj
    have hg := grand_total search (recNet n buses busCol nice) o hp.agg hp.round fn _ res h j
    rw [List.map_map] at hg
    apply hg
    intro hfr
    unfold IsCol at hj
    cases hper : n.periods with
    | none => rw [hper] at hj; exact hj
    | some y =>
      exfalso
      obtain ⟨q, hq⟩ := hp.port _ (recComp_mem n col cols _ hG)
      have : ∃ v, fn (recComp n col cols ("Generator", false)) q = some v := by
        rw [hfn]
        unfold opexF
        rw [tG]
        cases (recComp n col cols ("Generator", false)).assets.any
          ((recData n val wGen wSto).com (recComp n col cols ("Generator", false))) <;> exact ⟨_, rfl⟩
      obtain ⟨v, hv⟩ := this
      rw [isFrame_multi search (recNet n buses busCol nice) o fn _ y.1.length (by unfold recNet; rw [hper]; rfl) _
        (recComp_mem n col cols _ hG) q hq _ hv] at hfr
      exact absurd hfr (by simp)
  rw [h1, weightedTotal_sum]
  have hnone : ∀ c, (c = ("Link", true) ∨ c = ("Line", true) ∨ c = ("Transformer", true)) →
      weightedTotal n (compTotal search (recNet n buses busCol nice) o fn (recComp n col cols c)) = 0 := by
    intro c hc
    rw [show (compTotal search (recNet n buses busCol nice) o fn (recComp n col cols c)) = fun _ => 0 from
      funext (fun j => compTotal_none search _ o fn _ (fun port => opexF_none n val col cols wGen wSto _ .sum c hc port) j)]
    exact weightedTotal_zero n
  unfold classes
  simp only [List.map_cons, List.map_nil, List.sum_cons, List.sum_nil]
  rw [hnone _ (.inl rfl), hnone _ (.inr (.inl rfl)), hnone _ (.inr (.inr rfl))]
  simp only [zero_add, add_zero]
  -- terms vanish out of service
  have hzop : ∀ (c : String × Bool) (hc : c ∈ classes) ty attr f, ∀ a ∈ n.assets c.1, ∀ t ∈ n.sns, a.active t = false →
      (opE n val col cols c ty attr f).2 (recAsset n col c.1 a) t = 0 := by
    intro c hc ty attr f a ha t _ hact
    unfold opE
    simp only
    rw [recVal_self n val col cols c hc hn attr a ha t]
    simp [Objective.present, hact]
  have hzcom : ∀ (c : String × Bool) (hc : c ∈ classes) attr f, ∀ a ∈ n.assets c.1, ∀ t ∈ n.sns, a.active t = false →
      (comE n val col cols wGen wSto c attr f).2 (recAsset n col c.1 a) t = 0 := by
    intro c hc attr f a ha t _ hact
    unfold comE
    simp only
    rw [recVal_self n val col cols c hc hn attr a ha t]
    simp [Objective.present, hact]
  have wG : ∀ t ∈ n.sns, weights (recData n val wGen wSto).toData (recComp n col cols ("Generator", false)) t = n.sw t :=
    fun t ht => (how t ht).1
  have wS : ∀ t ∈ n.sns, weights (recData n val wGen wSto).toData (recComp n col cols ("Store", false)) t = n.sw t :=
    fun t ht => (how t ht).2
  have wU : ∀ t ∈ n.sns, weights (recData n val wGen wSto).toData (recComp n col cols ("StorageUnit", false)) t = n.sw t :=
    fun t ht => (how t ht).2
  rw [← add_assoc]
  congr 1
  · congr 1
    · -- generators
      by_cases hany : (recComp n col cols ("Generator", false)).assets.any ((recData n val wGen wSto).com (recComp n col cols ("Generator", false))) = true
      · rw [if_pos hany] at tG
        rw [opex_class search n val col cols buses busCol nice wGen wSto o hp hin hfl _ hG
          [opE n val col cols ("Generator", false) "marginal_cost" "p" (·.marginal),
           opE n val col cols ("Generator", false) "marginal_cost_quadratic" "p" (·.quadratic),
           comE n val col cols wGen wSto ("Generator", false) "start_up" (fun a _ => a.startUp),
           comE n val col cols wGen wSto ("Generator", false) "shut_down" (fun a _ => a.shutDown),
           comE n val col cols wGen wSto ("Generator", false) "status" (·.standBy)] (by simp) tG (by
            intro e he
            simp only [List.mem_cons, List.not_mem_nil, or_false] at he
            rcases he with rfl | rfl | rfl | rfl | rfl
            · exact hzop _ hG _ _ _
            · exact hzop _ hG _ _ _
            · exact hzcom _ hG _ _
            · exact hzcom _ hG _ _
            · exact hzcom _ hG _ _)]
        apply Objective.total_congr
        intro a ha t ht hact
        simp only [List.map_cons, List.map_nil, List.sum_cons, List.sum_nil, opE, comE]
        simp only [recVal_self n val col cols ("Generator", false) hG hn _ a ha t, recNum_self n col cols ("Generator", false) hG hn _ a ha,
          com_self n val col cols wGen wSto ("Generator", false) hG rfl hn a ha]
        simp only [Objective.present, hact, Bool.true_and, show ("p" = "spill") = False by decide, show ("start_up" = "spill") = False by decide,
          show ("shut_down" = "spill") = False by decide, show ("status" = "spill") = False by decide, if_false, if_true,
          show ("marginal_cost" = "marginal_cost_quadratic") = False by decide, Bool.false_eq_true,
          show ("start_up" != "status") = true by decide, show ("shut_down" != "status") = true by decide,
          show ("status" != "status") = false by decide]
        unfold Objective.running Objective.commitment
        rw [weight_eq n w hw t ht, wG t ht]
        cases hcom : a.com with
        | false => simp only [Bool.false_eq_true, if_false]; ring
        | true =>
          simp only [if_true]
          rcases hev with hper | hzero
          · have : periodWeight n t = 1 := by unfold periodWeight; rw [hper]
            rw [this]; ring
          · obtain ⟨z1, z2⟩ := hzero a ha hcom
            rw [z1, z2]; ring
      · rw [if_neg hany] at tG
        rw [opex_class search n val col cols buses busCol nice wGen wSto o hp hin hfl _ hG
          [opE n val col cols ("Generator", false) "marginal_cost" "p" (·.marginal),
           opE n val col cols ("Generator", false) "marginal_cost_quadratic" "p" (·.quadratic)] (by simp) tG (by
            intro e he
            simp only [List.mem_cons, List.not_mem_nil, or_false] at he
            rcases he with rfl | rfl
            · exact hzop _ hG _ _ _
            · exact hzop _ hG _ _ _)]
        apply Objective.total_congr
        intro a ha t ht hact
        have hcom : a.com = false := by
          by_contra hc
          apply hany
          refine List.any_eq_true.mpr ⟨recAsset n col "Generator" a, List.mem_map_of_mem ha, ?_⟩
          rw [com_self n val col cols wGen wSto ("Generator", false) hG rfl hn a ha]
          simpa using hc
        simp only [List.map_cons, List.map_nil, List.sum_cons, List.sum_nil, opE]
        simp only [recVal_self n val col cols ("Generator", false) hG hn _ a ha t, recNum_self n col cols ("Generator", false) hG hn _ a ha]
        simp only [Objective.present, hact, Bool.true_and, show ("p" = "spill") = False by decide, if_false, if_true,
          show ("marginal_cost" = "marginal_cost_quadratic") = False by decide, Bool.false_eq_true]
        unfold Objective.running Objective.commitment
        rw [weight_eq n w hw t ht, wG t ht, hcom]
        simp only [Bool.false_eq_true, if_false]; ring
    · -- stores
      rw [opex_class search n val col cols buses busCol nice wGen wSto o hp hin hfl _ hS
        [opE n val col cols ("Store", false) "marginal_cost" "p" (·.marginal),
         opE n val col cols ("Store", false) "marginal_cost_storage" "e" (·.marginalStorage),
         opE n val col cols ("Store", false) "marginal_cost_quadratic" "p" (·.quadratic)] (by simp)
        (opexTerms_store n val col cols wGen wSto) (by
          intro e he
          simp only [List.mem_cons, List.not_mem_nil, or_false] at he
          rcases he with rfl | rfl | rfl <;> exact hzop _ hS _ _ _)]
      apply Objective.total_congr
      intro a ha t ht hact
      simp only [List.map_cons, List.map_nil, List.sum_cons, List.sum_nil, opE]
      simp only [recVal_self n val col cols ("Store", false) hS hn _ a ha t, recNum_self n col cols ("Store", false) hS hn _ a ha]
      simp only [Objective.present, hact, Bool.true_and, show ("p" = "spill") = False by decide, show ("e" = "spill") = False by decide,
        if_false, if_true, show ("marginal_cost" = "marginal_cost_quadratic") = False by decide,
        show ("marginal_cost_storage" = "marginal_cost_quadratic") = False by decide, Bool.false_eq_true]
      unfold Objective.running
      rw [weight_eq n w hw t ht, wS t ht]
      ring
  · -- storage units
    rw [opex_class search n val col cols buses busCol nice wGen wSto o hp hin hfl _ hU
      [opE n val col cols ("StorageUnit", false) "marginal_cost" "p_dispatch" (·.marginal),
       opE n val col cols ("StorageUnit", false) "marginal_cost_storage" "state_of_charge" (·.marginalStorage),
       opE n val col cols ("StorageUnit", false) "marginal_cost_quadratic" "p_dispatch" (·.quadratic),
       opE n val col cols ("StorageUnit", false) "spill_cost" "spill" (·.spillCost)] (by simp)
      (opexTerms_unit n val col cols wGen wSto) (by
        intro e he
        simp only [List.mem_cons, List.not_mem_nil, or_false] at he
        rcases he with rfl | rfl | rfl | rfl <;> exact hzop _ hU _ _ _)]
    apply Objective.total_congr
    intro a ha t ht hact
    simp only [List.map_cons, List.map_nil, List.sum_cons, List.sum_nil, opE]
    simp only [recVal_self n val col cols ("StorageUnit", false) hU hn _ a ha t, recNum_self n col cols ("StorageUnit", false) hU hn _ a ha]
    simp only [Objective.present, hact, Bool.true_and, show ("p_dispatch" = "spill") = False by decide,
      show ("state_of_charge" = "spill") = False by decide,
      if_false, if_true, show ("marginal_cost" = "marginal_cost_quadratic") = False by decide,
      show ("marginal_cost_storage" = "marginal_cost_quadratic") = False by decide,
      show ("spill_cost" = "marginal_cost_quadratic") = False by decide, Bool.false_eq_true, decide_eq_true_eq]
    unfold Objective.running
    rw [weight_eq n w hw t ht, wU t ht]
    split <;> ring

/-! ## Costs of the system -/

omit [LinearOrder F] in
theorem capitalOf_add (x y z : Objective.Asset F → F) (comp : String) (h : ∀ a, x a = y a + z a) :
    capitalOf n x comp = capitalOf n y comp + capitalOf n z comp := by
  unfold capitalOf
  rw [← List.sum_map_add]
  congr 1; apply List.map_congr_left; intro a _
  cases n.periods with
  | none => simp only; split <;> simp [h, mul_add]
  | some p =>
    simp only
    rw [← List.sum_map_add]
    congr 1; apply List.map_congr_left; intro q _
    split <;> simp [h, mul_add]

omit [LinearOrder F] in
theorem capitalOf_ext (comp attr : String) :
    capitalOf n (fun a => if a.ext then val (.nom comp attr a.name) else 0) comp = Objective.capital n val comp attr := by
  unfold capitalOf Objective.capital
  congr 1; apply List.map_congr_left; intro a _
  cases hx : a.ext with
  | true => cases n.periods <;> simp [hx]
  | false =>
    cases n.periods with
    | none => simp [hx]
    | some p => simp [hx]

/-- All capital: of extendable and of other capacities. -/
theorem capitalAll_split : capitalAll n (fun c attr a => if a.ext then val (.nom c attr a.name) else a.nom) =
    Objective.capital n val "Generator" "p_nom" + Objective.capital n val "Link" "p_nom" + Objective.capital n val "Line" "s_nom" +
    Objective.capital n val "Transformer" "s_nom" + Objective.capital n val "Store" "e_nom" +
    Objective.capital n val "StorageUnit" "p_nom" + capitalFixed n := by
  have h : ∀ comp attr, capitalOf n (fun a => if a.ext then val (.nom comp attr a.name) else a.nom) comp =
      Objective.capital n val comp attr + capitalOf n (fun a => if a.ext then 0 else a.nom) comp := by
    intro comp attr
    rw [← capitalOf_ext, ← capitalOf_add]
    intro a; cases a.ext <;> simp
  unfold capitalFixed capitalAll
  simp only [h]
  ring

/-- C97: capital and operational expenditure of the recorded network add up to the cost of the system, without the
operation of links (finding: `linkCost` is missing). -/
theorem statistics_cost_partial (hn : UniqueNames n) (hin : InPeriods n) (hfl : FlagRespected n) (how : OneWeighting n wGen wSto)
    (hev : EventsWeighed n) (w : Nat → F) (hw : Objective.Weight n w) (o : Opts F)
    (hp : Plain (recNet n buses busCol nice) o (classes.map (recComp n col cols))) (capex opex : List (Row F))
    (h1 : aggregate search (recNet n buses busCol nice) o (capexF (recData n val wGen wSto).toData "_opt")
      (classes.map (recComp n col cols)) = .ok capex)
    (h2 : aggregate search (recNet n buses busCol nice) o
      (opexF (recNet n buses busCol nice) (recData n val wGen wSto) allTypes .sum) (classes.map (recComp n col cols)) = .ok opex) :
    optimalCost n capex opex = fullCost n val w - linkCost n val w := by
  unfold optimalCost
  rw [weightedTotal_add, show weightedTotal n (fun j => colTotal capex j) = weightedTotal n (colTotal capex) from rfl,
    show weightedTotal n (fun j => colTotal opex j) = weightedTotal n (colTotal opex) from rfl,
    capex_total search n val col cols buses busCol nice wGen wSto hn o hp capex h1,
    opex_total_partial search n val col cols buses busCol nice wGen wSto hn hin hfl how hev w hw o hp opex h2, capitalAll_split]
  unfold fullCost linkCost Objective.systemCost
  ring

/-- The objective constant is the capital cost of the existing capacity of extendable assets. -/
theorem constant_capital : Objective.constant n = capitalAll n (fun _ _ a => if a.ext then a.nom else 0) := by
  have h : ∀ comp, (((n.assets comp).filter (·.ext)).map (fun a => Objective.capitalWeight n a * a.capitalCost * a.nom)).sum =
      capitalOf n (fun a => if a.ext then a.nom else 0) comp := by
    intro comp
    unfold capitalOf Objective.capitalWeight
    rw [sum_filter_eq]
    congr 1; apply List.map_congr_left; intro a _
    cases hx : a.ext with
    | false =>
      cases n.periods with
      | none => simp [hx]
      | some p => simp [hx]
    | true =>
      cases n.periods with
      | none => simp only [if_true, hx]; split <;> simp
      | some p =>
        simp only [if_true, hx]
        rw [mul_assoc, mul_comm, mul_list_sum]
        congr 1; apply List.map_congr_left; intro q _
        split <;> ring
  unfold Objective.constant Objective.nominalAttrs capitalAll
  simp only [List.map_cons, List.map_nil, List.sum_cons, List.sum_nil, h]
  ring

theorem capitalAll_installed : capitalAll n (fun _ _ a => a.nom) = Objective.constant n + capitalFixed n := by
  rw [constant_capital]
  have h : ∀ comp, capitalOf n (fun a => a.nom) comp =
      capitalOf n (fun a => if a.ext then a.nom else 0) comp + capitalOf n (fun a => if a.ext then 0 else a.nom) comp := by
    intro comp
    rw [← capitalOf_add]
    intro a; cases a.ext <;> simp
  unfold capitalFixed capitalAll
  simp only [h]
  ring

section mga

/-- C64: the constraint `budget` at a point of the model holds exactly if the full cost of that point is at most (1 + slack)
times the full cost of the recorded solution without the operation of links. -/
theorem budget_iff (hn : UniqueNames n) (hin : InPeriods n) (hfl : FlagRespected n) (how : OneWeighting n wGen wSto)
    (hev : EventsWeighed n) (w : Nat → F) (hw : Objective.Weight n w) (o : Opts F)
    (hp : Plain (recNet n buses busCol nice) o (classes.map (recComp n col cols))) (capex opex installed : List (Row F))
    (h1 : aggregate search (recNet n buses busCol nice) o (capexF (recData n val wGen wSto).toData "_opt")
      (classes.map (recComp n col cols)) = .ok capex)
    (h2 : aggregate search (recNet n buses busCol nice) o
      (opexF (recNet n buses busCol nice) (recData n val wGen wSto) allTypes .sum) (classes.map (recComp n col cols)) = .ok opex)
    (h3 : aggregate search (recNet n buses busCol nice) o (capexF (recData n val wGen wSto).toData "")
      (classes.map (recComp n col cols)) = .ok installed)
    (obj : Objective.Obj F) (ho : Objective.objective n = .ok obj) (new : Objective.OVar → F)
    (hconst : new .const = Objective.constant n)
    (hsu : ∀ c ∈ ["Generator", "Link"], (((n.assets c).filter (·.com)).map (·.startUp)).sum = 0 →
        ∀ a ∈ n.assets c, a.com = true → a.startUp = 0)
    (hsd : ∀ c ∈ ["Generator", "Link"], (((n.assets c).filter (·.com)).map (·.shutDown)).sum = 0 →
        ∀ a ∈ n.assets c, a.com = true → a.shutDown = 0)
    (slack : F) :
    budget n obj slack capex opex installed new ↔ fullCost n new w ≤ (1 + slack) * (fullCost n val w - linkCost n val w) := by
  unfold budget
  rw [statistics_cost_partial search n val col cols buses busCol nice wGen wSto hn hin hfl how hev w hw o hp capex opex h1 h2]
  have hfix : fixedCost n installed = Objective.constant n + capitalFixed n := by
    unfold fixedCost
    rw [installed_total search n val col cols buses busCol nice wGen wSto hn o hp installed h3, capitalAll_installed]
  rw [hfix, ← add_assoc, Objective.objective_is_cost_partial n obj ho new hconst w hw hsu hsd]
  rfl

/-- C64 (partial: no costs of operating links): the constraint holds exactly for the points whose full cost is at most (1 + slack)
times that of the recorded solution. -/
theorem budget_partial (hn : UniqueNames n) (hin : InPeriods n) (hfl : FlagRespected n) (how : OneWeighting n wGen wSto)
    (hev : EventsWeighed n) (w : Nat → F) (hw : Objective.Weight n w) (o : Opts F)
    (hp : Plain (recNet n buses busCol nice) o (classes.map (recComp n col cols))) (capex opex installed : List (Row F))
    (h1 : aggregate search (recNet n buses busCol nice) o (capexF (recData n val wGen wSto).toData "_opt")
      (classes.map (recComp n col cols)) = .ok capex)
    (h2 : aggregate search (recNet n buses busCol nice) o
      (opexF (recNet n buses busCol nice) (recData n val wGen wSto) allTypes .sum) (classes.map (recComp n col cols)) = .ok opex)
    (h3 : aggregate search (recNet n buses busCol nice) o (capexF (recData n val wGen wSto).toData "")
      (classes.map (recComp n col cols)) = .ok installed)
    (obj : Objective.Obj F) (ho : Objective.objective n = .ok obj) (new : Objective.OVar → F)
    (hconst : new .const = Objective.constant n)
    (hsu : ∀ c ∈ ["Generator", "Link"], (((n.assets c).filter (·.com)).map (·.startUp)).sum = 0 →
        ∀ a ∈ n.assets c, a.com = true → a.startUp = 0)
    (hsd : ∀ c ∈ ["Generator", "Link"], (((n.assets c).filter (·.com)).map (·.shutDown)).sum = 0 →
        ∀ a ∈ n.assets c, a.com = true → a.shutDown = 0)
    (hlink : ∀ a ∈ n.assets "Link", (∀ t, a.marginal t = 0 ∧ a.quadratic t = 0) ∧ a.com = false) (slack : F) :
    budget n obj slack capex opex installed new ↔ fullCost n new w ≤ (1 + slack) * fullCost n val w := by
  rw [budget_iff search n val col cols buses busCol nice wGen wSto hn hin hfl how hev w hw o hp capex opex installed h1 h2 h3
    obj ho new hconst hsu hsd slack]
  have : linkCost n val w = 0 := by
    unfold linkCost Objective.total
    apply sum_map_zero; intro a ha
    apply sum_map_zero; intro t _
    obtain ⟨hm, hc⟩ := hlink a ha
    unfold Objective.running Objective.commitment
    simp [hm t, hc]
  rw [this, sub_zero]

end mga

end record

/-! ## The alternate objective -/

/-- Value of one entry of the weights: over capacities of extendable assets, or over assets and snapshots in service. -/
def entryValue (n : Objective.Net F) (val : Objective.OVar → F) (e : (String × String) × Coef F) : F :=
  if e.1 ∈ Objective.nominalAttrs then
    ((n.assets e.1.1).map (fun a => if a.ext then (match e.2 with
      | .num x => x
      | .series f => f a.name
      | .frame f => (n.sns.map (fun t => f t a.name)).sum) * val (.nom e.1.1 e.1.2 a.name) else 0)).sum
  else ((n.assets e.1.1).map (fun a => (n.sns.map (fun t => if Objective.present a e.1.2 t then (match e.2 with
      | .num x => x
      | .series f => f a.name
      | .frame f => f t a.name) * val (.op e.1.1 e.1.2 a.name t) else 0)).sum)).sum

theorem altTerms_value (n : Objective.Net F) (val : Objective.OVar → F) (sense : Int) (e : (String × String) × Coef F)
    (ts : List (F × Objective.OVar)) (h : altTerms n sense e = .ok ts) : lin val ts = (sense : F) * entryValue n val e := by
  unfold altTerms at h
  split at h
  · split at h
    · simp at h
    · split at h
      · simp at h
      · next vs hvs =>
        obtain rfl := Except.ok.inj h
        unfold altVars at hvs
        unfold entryValue lin
        by_cases hnom : e.1 ∈ Objective.nominalAttrs
        · rw [if_pos (show (e.1.1, e.1.2) ∈ Objective.nominalAttrs from hnom)] at hvs
          rw [if_pos hnom]
          split at hvs
          · simp at hvs
          · obtain rfl := Option.some.inj hvs
            rw [List.map_map, List.map_map, sum_filter_eq, mul_list_sum]
            congr 1; apply List.map_congr_left; intro a _
            cases a.ext with
            | false => simp
            | true =>
              simp only [if_true, Function.comp]
              cases e.2 <;> simp only [Coef.at] <;> ring
        · rw [if_neg (show ¬ (e.1.1, e.1.2) ∈ Objective.nominalAttrs from hnom)] at hvs
          rw [if_neg hnom]
          split at hvs
          · obtain rfl := Option.some.inj hvs
            rw [List.map_map, Objective.sum_flatMap_list, mul_list_sum]
            congr 1; apply List.map_congr_left; intro a _
            rw [List.map_map, sum_filter_eq, mul_list_sum]
            congr 1; apply List.map_congr_left; intro t _
            cases Objective.present a e.1.2 t with
            | false => simp
            | true =>
              simp only [if_true, Function.comp]
              cases e.2 <;> simp only [Coef.at] <;> ring
          · simp at hvs
  · simp at h

/-- C64: the alternate objective is the weighted sum of the given variables, times the sense. -/
theorem alt_value (n : Objective.Net F) (val : Objective.OVar → F) (sense : Int) (ws : List ((String × String) × Coef F))
    (ts : List (F × Objective.OVar)) (h : altObjective n sense ws = .ok ts) :
    lin val ts = (sense : F) * (ws.map (entryValue n val)).sum := by
  induction ws generalizing ts with
  | nil => obtain rfl := Except.ok.inj h; simp [lin]
  | cons e ws ih =>
    unfold altObjective at h
    split at h
    · simp at h
    · next us hus =>
      split at h
      · simp at h
      · next vs hvs =>
        obtain rfl := Except.ok.inj h
        rw [lin_append, altTerms_value n val sense e us hus, ih vs hvs, List.map_cons, List.sum_cons, mul_add]

/-- C64: a point that minimises the alternate objective among those allowed minimises the weighted sum for a sense that begins
with `min` or is positive, and maximises it for one that begins with `max` or is negative. -/
theorem alt_direction [IsStrictOrderedRing F] (n : Objective.Net F) (sense : Sense) (i : Int) (hi : parseSense sense = .ok i)
    (ws : List ((String × String) × Coef F)) (ts : List (F × Objective.OVar)) (h : altObjective n i ws = .ok ts)
    (allowed : (Objective.OVar → F) → Prop) (v : Objective.OVar → F) (hmin : ∀ u, allowed u → lin v ts ≤ lin u ts) :
    (((∃ s, sense = .str s ∧ s.startsWith "min" = true) ∨ (∃ k, sense = .int k ∧ 0 < k)) →
      ∀ u, allowed u → (ws.map (entryValue n v)).sum ≤ (ws.map (entryValue n u)).sum) ∧
    (((∃ s, sense = .str s ∧ s.startsWith "min" = false ∧ s.startsWith "max" = true) ∨ (∃ k, sense = .int k ∧ k < 0)) →
      ∀ u, allowed u → (ws.map (entryValue n u)).sum ≤ (ws.map (entryValue n v)).sum) := by
  constructor
  · intro hs u hu
    have : i = 1 := by
      rcases hs with ⟨s, rfl, hs⟩ | ⟨k, rfl, hk⟩
      · simp only [parseSense, hs, if_true] at hi; exact (Except.ok.inj hi).symm
      · simp only [parseSense, hk, if_true] at hi; exact (Except.ok.inj hi).symm
    have := hmin u hu
    rw [alt_value n v i ws ts h, alt_value n u i ws ts h] at this
    subst i
    simpa using this
  · intro hs u hu
    have : i = -1 := by
      rcases hs with ⟨s, rfl, hs, hs'⟩ | ⟨k, rfl, hk⟩
      · simp only [parseSense, hs, hs', if_true, Bool.false_eq_true, if_false] at hi; exact (Except.ok.inj hi).symm
      · simp only [parseSense, hk, if_true, if_neg (not_lt.mpr hk.le)] at hi; exact (Except.ok.inj hi).symm
    have := hmin u hu
    rw [alt_value n v i ws ts h, alt_value n u i ws ts h] at this
    subst i
    simpa using this

omit [LinearOrder F] in
/-- C64: any other sense raises. -/
theorem sense_other (sense : Sense) : parseSense sense = .error () ↔
    (∃ s, sense = .str s ∧ s.startsWith "min" = false ∧ s.startsWith "max" = false) ∨ sense = .int 0 ∨ sense = .other := by
  cases sense with
  | str s =>
    show (if s.startsWith "min" = true then Except.ok 1 else if s.startsWith "max" = true then Except.ok (-1) else Except.error ()) =
      (Except.error () : Except Unit Int) ↔ _
    generalize hb1 : s.startsWith "min" = b1
    generalize hb2 : s.startsWith "max" = b2
    constructor
    · intro h
      refine .inl ⟨s, rfl, ?_, ?_⟩
      · rw [hb1]; cases b1 <;> simp at h ⊢
      · rw [hb2]; cases b1 <;> cases b2 <;> simp at h ⊢
    · rintro (⟨s', he, h1, h2⟩ | h | h)
      · obtain rfl := Sense.str.inj he
        rw [hb1] at h1; rw [hb2] at h2; subst h1 h2; rfl
      · cases h
      · cases h
  | int i =>
    unfold parseSense
    rcases lt_trichotomy i 0 with h | h | h
    · simp [h, not_lt.mpr h.le, h.ne]
    · simp [h]
    · simp [h, h.ne']
  | other => simp [parseSense]

/-- **Finding** (abstract.py 640-641): weights by asset (a dict or a series) for a variable of operation raise, although the
documentation allows them. -/
theorem series_weights_raise (n : Objective.Net F) (sense : Int) (c attr : String) (f : String → F)
    (hc : c ∈ Objective.nominalAttrs.map (·.1)) (ha : (c, attr) ∉ Objective.nominalAttrs) :
    altObjective n sense [((c, attr), .series f)] = .error .typeError := by
  unfold altObjective altTerms
  have h1 : (Objective.nominalAttrs.map (·.1)).contains c = true := List.contains_iff_mem.mpr hc
  have h2 : (Coef.series f : Coef F).raises (decide ((c, attr) ∈ Objective.nominalAttrs)) = true := by simp [Coef.raises, ha]
  simp only [h1, h2, if_true]

/-- **Finding** (abstract.py 571, 646): the default weights raise if no generator is extendable. -/
theorem default_weights_raise (n : Objective.Net F) (sense : Int) (h : ∀ a ∈ n.assets "Generator", a.ext = false) :
    altObjective n sense [(("Generator", "p_nom"), .series (fun _ => 1))] = .error .keyError := by
  have h1 : (n.assets "Generator").filter (·.ext) = [] := by
    rw [List.filter_eq_nil_iff]; intro a ha; simp [h a ha]
  have h2 : altVars n "Generator" "p_nom" = none := by
    unfold altVars
    rw [if_pos (by decide), h1]; rfl
  have h3 : altTerms n sense (("Generator", "p_nom"), Coef.series (fun _ => (1 : F))) = .error .keyError := by
    unfold altTerms
    rw [if_pos (by simp [Objective.nominalAttrs]), if_neg (by simp [Coef.raises, Objective.nominalAttrs]), h2]
  unfold altObjective
  rw [h3]

/-! ## Examples and findings -/

namespace CostDemo

def unit (name : String) (ext : Bool) (marginal capital : ℚ) : Objective.Asset ℚ :=
  { name := name, ext := ext, com := false, nom := 4, capitalCost := capital, marginal := fun _ => marginal,
    marginalStorage := fun _ => 0, spillCost := fun _ => 0, quadratic := fun _ => 0, standBy := fun _ => 0, startUp := 0, shutDown := 0,
    inflow := fun _ => 0, active := fun _ => true, activeIn := fun _ => true, activeFlag := true }

/-- An extendable and a fixed generator, a link; two snapshots. -/
def net (linkCost : ℚ) : Objective.Net ℚ :=
  { assets := fun c => if c = "Generator" then [unit "g" true 2 10, unit "f" false 1 7] else if c = "Link" then [unit "k" false linkCost 0] else [],
    sns := [0, 1], sw := fun _ => 3, periods := none }

/-- Dispatch of 5 everywhere, capacity 6. -/
def val : Objective.OVar → ℚ
  | .op _ _ _ _ => 5
  | .nom _ _ _ => 6
  | .const => 40

def opts : Opts ℚ := ⟨sumAgg, false, some [.carrier], false, .flag false, .all, .all, false, none, none⟩

def col (_ _ k : String) : Option String := some (if k = "carrier" then "x" else "u")

def cols (c : String) : List String :=
  if c = "Link" ∨ c = "Line" ∨ c = "Transformer" then ["bus0", "bus1", "carrier"] else ["bus", "carrier"]

def comps (n : Objective.Net ℚ) : List Comp := classes.map (recComp n col cols)

def rnet (n : Objective.Net ℚ) : Net := recNet n ["u"] (fun _ _ => some "AC") id

def capex (n : Objective.Net ℚ) : List (Row ℚ) := Demo.get (aggregate Demo.noSearch (rnet n) opts (capexF (recData n val n.sw n.sw).toData "_opt") (comps n))
def installed (n : Objective.Net ℚ) : List (Row ℚ) := Demo.get (aggregate Demo.noSearch (rnet n) opts (capexF (recData n val n.sw n.sw).toData "") (comps n))
def opex (n : Objective.Net ℚ) : List (Row ℚ) := Demo.get (aggregate Demo.noSearch (rnet n) opts (opexF (rnet n) (recData n val n.sw n.sw) allTypes .sum) (comps n))

/-- The hypotheses of `budget_partial` hold. -/
example : UniqueNames (net 0) ∧ InPeriods (net 0) ∧ OneWeighting (net 0) (net 0).sw (net 0).sw ∧ EventsWeighed (net 0) ∧
    Objective.Weight (net 0) (fun _ => 3) ∧ Objective.constant (net 0) = 40 := by
  refine ⟨by unfold UniqueNames; decide +kernel, trivial, fun t _ => ⟨rfl, rfl⟩, .inl rfl, fun t _ => rfl, by decide +kernel⟩

/-- Capital 60 + 28, operation 30 · (2 + 1). -/
example : optimalCost (net 0) (capex (net 0)) (opex (net 0)) = 178 ∧ fixedCost (net 0) (installed (net 0)) = 68 ∧
    fullCost (net 0) val (fun _ => 3) = 178 ∧ linkCost (net 1) val (fun _ => 3) = 30 := by decide +kernel

/-- The alternate objective. -/
example : (altObjective (net 0) (-1) [(("Generator", "p_nom"), .series (fun _ => 1)), (("Link", "p"), .num 2)]).toOption =
    some [(-1, .nom "Generator" "p_nom" "g"), (-2, .op "Link" "p" "k" 0), (-2, .op "Link" "p" "k" 1)] := by decide +kernel

/-- **Finding** (expressions.py 1153-1156, abstract.py 592-610): costs of operating links are missing in `opex`, so the
recorded optimum itself breaks the budget of the alternatives. -/
theorem link_opex_missing :
    aggregate Demo.noSearch (rnet (net 1)) opts (opexF (rnet (net 1)) (recData (net 1) val (net 1).sw (net 1).sw) allTypes .sum) (comps (net 1)) =
      .ok (opex (net 1)) ∧
    Demo.show_ (.ok (opex (net 1))) = some [(["Generator", "x"], some 90)] ∧
    fullCost (net 1) val (fun _ => 3) = 208 ∧
    ∃ obj, Objective.objective (net 1) = .ok obj ∧
      ¬ budget (net 1) obj (1 / 20) (capex (net 1)) (opex (net 1)) (installed (net 1)) val := by
  refine ⟨Demo.ok_get _ (by decide +kernel), by decide +kernel, by decide +kernel, ?_⟩
  have h : ((Objective.objective (net 1)).toOption.map (fun obj => decide (obj.value val + fixedCost (net 1) (installed (net 1)) ≤
      (1 + 1 / 20) * optimalCost (net 1) (capex (net 1)) (opex (net 1))))) = some false := by decide +kernel
  cases ho : Objective.objective (net 1) with
  | error e => rw [ho] at h; simp [Except.toOption] at h
  | ok obj =>
    rw [ho] at h
    exact ⟨obj, rfl, by simpa [Except.toOption, budget] using h⟩

end CostDemo

end Verif.Stats
