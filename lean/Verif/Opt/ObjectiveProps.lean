import Verif.Opt.Objective
import Mathlib.Tactic.Ring
import Mathlib.Tactic.Linarith
import Mathlib.Tactic.LinearCombination
import Mathlib.Algebra.Order.Ring.Rat

/-!
# The objective is the system cost (C56)
-/

namespace Verif.Opt.Objective

/-! ## Specification -/

section spec
variable {F : Type} [Field F] [LinearOrder F]

/-- Sum over assets and over the snapshots in which they are in service. -/
def total (n : Net F) (comp : Name) (f : Asset F → Nat → F) : F :=
  ((n.assets comp).map (fun a => (n.sns.map (fun t => if a.active t then f a t else 0)).sum)).sum

/-- Weight of a snapshot. -/
def Weight (n : Net F) (w : Nat → F) : Prop :=
  ∀ t ∈ n.sns, match n.periods with
    | none => w t = n.sw t
    | some (_, pw, per) => w t = n.sw t * pw (per t)

/-- Cost of running a unit: marginal and quadratic. -/
def running (val : OVar → F) (w : Nat → F) (comp var : Name) (a : Asset F) (t : Nat) : F :=
  w t * (a.marginal t * val (.op comp var a.name t) + a.quadratic t * val (.op comp var a.name t) ^ 2)

/-- Commitment: stand-by weighted by the snapshot, start-ups and shut-downs per event. -/
def commitment (val : OVar → F) (w : Nat → F) (comp : Name) (a : Asset F) (t : Nat) : F :=
  if a.com then w t * a.standBy t * val (.op comp "status" a.name t) +
    a.startUp * val (.op comp "start_up" a.name t) + a.shutDown * val (.op comp "shut_down" a.name t)
  else 0

/-- Capital cost of the extendable capacity of one class; in networks with periods, once for each period in which the
asset is in service. -/
def capital (n : Net F) (val : OVar → F) (comp var : Name) : F :=
  ((n.assets comp).map (fun a => if a.ext then
    (match n.periods with
      | none => if a.activeFlag then a.capitalCost * val (.nom comp var a.name) else 0
      | some (ps, pw, _) => (ps.map (fun p => if a.activeIn p then pw p * a.capitalCost * val (.nom comp var a.name)
          else 0)).sum)
    else 0)).sum

/-- Cost of the system. -/
def systemCost (n : Net F) (val : OVar → F) (w : Nat → F) : F :=
  total n "Generator" (fun a t => running val w "Generator" "p" a t + commitment val w "Generator" a t) +
  total n "Link" (fun a t => running val w "Link" "p" a t + commitment val w "Link" a t) +
  total n "Store" (fun a t => running val w "Store" "p" a t +
    w t * a.marginalStorage t * val (.op "Store" "e" a.name t)) +
  total n "StorageUnit" (fun a t => running val w "StorageUnit" "p_dispatch" a t +
    w t * a.marginalStorage t * val (.op "StorageUnit" "state_of_charge" a.name t) +
    (if 0 < a.inflow t then w t * a.spillCost t * val (.op "StorageUnit" "spill" a.name t) else 0)) +
  capital n val "Generator" "p_nom" + capital n val "Link" "p_nom" + capital n val "Line" "s_nom" +
  capital n val "Transformer" "s_nom" + capital n val "Store" "e_nom" + capital n val "StorageUnit" "p_nom"

end spec

section proofs
variable {F : Type} [Field F] [LinearOrder F]

omit [LinearOrder F] in
theorem sum_filter_eq {α : Type} (l : List α) (p : α → Bool) (f : α → F) (h : ∀ a ∈ l, p a = false → f a = 0) :
    ((l.filter p).map f).sum = (l.map f).sum := by
  induction l with
  | nil => rfl
  | cons a t ih =>
    have ih := ih (fun x hx => h x (by simp [hx]))
    cases hp : p a with
    | true => simp [hp, ih]
    | false => simp [hp, ih, h a (by simp) hp]

omit [LinearOrder F] in
theorem sum_filter_ite {α : Type} (l : List α) (p : α → Bool) (f : α → F) :
    ((l.filter p).map f).sum = (l.map (fun a => if p a then f a else 0)).sum := by
  induction l with
  | nil => rfl
  | cons a t ih => cases hp : p a <;> simp [hp, ih]

omit [LinearOrder F] in
theorem sum_flatMap_list {α β : Type} (l : List α) (f : α → List β) (g : β → F) :
    ((l.flatMap f).map g).sum = (l.map (fun a => ((f a).map g).sum)).sum := by
  induction l with
  | nil => rfl
  | cons a t ih => simp [List.flatMap_cons, ih]

omit [LinearOrder F] in
theorem sum_flatten_list {β : Type} (l : List (List β)) (g : β → F) :
    ((l.flatten).map g).sum = (l.map (fun a => (a.map g).sum)).sum := by
  induction l with
  | nil => rfl
  | cons a t ih => simp only [List.flatten_cons, List.map_append, List.sum_append, List.map_cons, List.sum_cons, ih]

/-- Sum of the terms of an operation, with an arbitrary function of the variable. -/
theorem opTerms_sum (n : Net F) (comp var : Name) (cost : Asset F → Nat → F) (as : List (Asset F))
    (g : OVar → F) :
    ((opTerms n comp var cost as).map (fun e => e.1 * g e.2)).sum =
      (as.map (fun a => (n.sns.map (fun t => if present a var t then
        cost a t * weighting n t * g (.op comp var a.name t) else 0)).sum)).sum := by
  unfold opTerms
  rw [sum_flatMap_list]
  congr 1
  apply List.map_congr_left
  intro a _
  rw [List.map_map]
  exact sum_filter_ite n.sns (present a var) _

/-- Leaving out columns without costs changes nothing. -/
theorem costly_sum (n : Net F) (cost : Asset F → Nat → F) (as : List (Asset F)) (h : Asset F → Nat → F)
    (p : Asset F → Nat → Bool) :
    ((costly n cost as).map (fun a => (n.sns.map (fun t => if p a t then cost a t * h a t else 0)).sum)).sum =
      (as.map (fun a => (n.sns.map (fun t => if p a t then cost a t * h a t else 0)).sum)).sum := by
  unfold costly
  apply sum_filter_eq
  intro a _ ha
  apply List.sum_eq_zero
  intro x hx
  obtain ⟨t, ht, rfl⟩ := List.mem_map.mp hx
  have : cost a t = 0 := by
    by_contra h0
    rw [List.any_eq_false] at ha
    exact ha t ht (by simpa using h0)
  simp [this]

/-- Value of one cost type. -/
theorem costType_sum (n : Net F) (flag : Row → Bool) (cost : Asset F → Nat → F) (g : OVar → F) :
    (((costType n flag cost).flatten).map (fun e => e.1 * g e.2)).sum =
      ((table.filter flag).map (fun r => ((n.assets r.comp).map (fun a => (n.sns.map (fun t =>
        if present a r.var t then cost a t * (weighting n t * g (.op r.comp r.var a.name t)) else 0)).sum)).sum)).sum := by
  unfold costType
  rw [sum_flatten_list, List.map_map]
  have hrow : ∀ r : Row, ((opTerms n r.comp r.var cost (costly n cost (n.assets r.comp))).map
      (fun e => e.1 * g e.2)).sum = ((n.assets r.comp).map (fun a => (n.sns.map (fun t =>
        if present a r.var t then cost a t * (weighting n t * g (.op r.comp r.var a.name t)) else 0)).sum)).sum := by
    intro r
    rw [opTerms_sum, ← costly_sum n cost (n.assets r.comp)
      (fun a t => weighting n t * g (.op r.comp r.var a.name t)) (fun a => present a r.var)]
    simp only [mul_assoc]
  rw [sum_filter_eq]
  · congr 1
    apply List.map_congr_left
    intro r _
    exact hrow r
  · intro r _ h
    simp only [Bool.not_eq_false', List.isEmpty_iff] at h
    simp only [Function.comp, h]
    rfl

omit [LinearOrder F] in
theorem total_add (n : Net F) (comp : Name) (f g : Asset F → Nat → F) :
    total n comp (fun a t => f a t + g a t) = total n comp f + total n comp g := by
  unfold total
  rw [← List.sum_map_add]
  congr 1
  apply List.map_congr_left
  intro a _
  rw [← List.sum_map_add]
  congr 1
  apply List.map_congr_left
  intro t _
  split <;> simp

omit [LinearOrder F] in
theorem total_congr (n : Net F) (comp : Name) (f g : Asset F → Nat → F)
    (h : ∀ a ∈ n.assets comp, ∀ t ∈ n.sns, a.active t = true → f a t = g a t) : total n comp f = total n comp g := by
  unfold total
  congr 1
  apply List.map_congr_left
  intro a ha
  congr 1
  apply List.map_congr_left
  intro t ht
  split
  · rename_i hact; exact h a ha t ht hact
  · rfl

/-- A row of the table as a total. -/
theorem row_total (n : Net F) (comp var : Name) (cost : Asset F → Nat → F) (g : OVar → F) (hv : var ≠ "spill") :
    ((n.assets comp).map (fun a => (n.sns.map (fun t =>
        if present a var t then cost a t * (weighting n t * g (.op comp var a.name t)) else 0)).sum)).sum =
      total n comp (fun a t => weighting n t * (cost a t * g (.op comp var a.name t))) := by
  unfold total present
  simp only [if_neg hv, Bool.and_true]
  congr 1
  apply List.map_congr_left
  intro a _
  congr 1
  apply List.map_congr_left
  intro t _
  split
  · ring
  · rfl

/-- Stand-by cost. -/
theorem standBy_sum (n : Net F) (val : OVar → F) :
    lin val (standByTerms n).flatten =
      total n "Generator" (fun a t => if a.com then weighting n t * (a.standBy t * val (.op "Generator" "status" a.name t)) else 0) +
      total n "Link" (fun a t => if a.com then weighting n t * (a.standBy t * val (.op "Link" "status" a.name t)) else 0) := by
  unfold standByTerms lin
  rw [sum_flatten_list, List.map_map, sum_filter_eq]
  · have h : ∀ c, ((opTerms n c "status" Asset.standBy (costly n Asset.standBy ((n.assets c).filter (·.com)))).map
        (fun e => e.1 * val e.2)).sum =
        total n c (fun a t => if a.com then weighting n t * (a.standBy t * val (.op c "status" a.name t)) else 0) := by
      intro c
      rw [opTerms_sum]
      have := costly_sum n Asset.standBy ((n.assets c).filter (·.com))
        (fun a t => weighting n t * val (.op c "status" a.name t)) (fun a => present a "status")
      simp only [← mul_assoc] at this
      rw [this, sum_filter_ite]
      unfold total present
      congr 1
      apply List.map_congr_left
      intro a _
      cases hcom : a.com with
      | true =>
        simp only [if_true]
        congr 1
        apply List.map_congr_left
        intro t _
        simp only [if_neg (show ¬ ("status" = "spill") by decide), Bool.and_true]
        split
        · ring
        · rfl
      | false => simp [hcom]
    simp only [List.map_cons, List.map_nil, List.sum_cons, List.sum_nil, Function.comp, h, add_zero]
  · intro c _ h
    simp only [Bool.not_eq_false', List.isEmpty_iff] at h
    simp only [Function.comp, h]
    rfl

/-- Investment. -/
theorem invest_sum (n : Net F) (val : OVar → F) :
    lin val (investTerms n).flatten = (nominalAttrs.map (fun c => capital n val c.1 c.2)).sum := by
  unfold investTerms lin
  rw [sum_flatten_list, List.map_map, sum_filter_eq]
  · congr 1
    apply List.map_congr_left
    intro c _
    simp only [Function.comp, List.map_map]
    rw [sum_filter_ite]
    unfold capital
    congr 1
    apply List.map_congr_left
    intro a _
    cases hext : a.ext with
    | false => simp
    | true =>
      simp only [if_true, Function.comp]
      unfold capitalWeight
      cases n.periods with
      | none =>
        simp only
        cases a.activeFlag <;> simp
      | some x =>
        obtain ⟨ps, pw, per⟩ := x
        simp only
        rw [mul_assoc, ← List.sum_map_mul_right]
        congr 1
        apply List.map_congr_left
        intro p _
        split
        · ring
        · ring
  · intro c _ h
    simp only [Bool.not_eq_false', List.isEmpty_iff] at h
    simp [Function.comp, h]

/-- Start-up and shut-down cost. -/
theorem event_sum (n : Net F) (val : OVar → F)
    (hev : ∀ c ∈ ["Generator", "Link"], ∀ v ∈ ["start_up", "shut_down"],
      (((n.assets c).filter (·.com)).map (eventCost v)).sum = 0 →
        ∀ a ∈ n.assets c, a.com = true → eventCost v a = 0) :
    lin val (eventTerms n).flatten =
      total n "Generator" (fun a t => if a.com then a.startUp * val (.op "Generator" "start_up" a.name t) else 0) +
      total n "Generator" (fun a t => if a.com then a.shutDown * val (.op "Generator" "shut_down" a.name t) else 0) +
      (total n "Link" (fun a t => if a.com then a.startUp * val (.op "Link" "start_up" a.name t) else 0) +
      total n "Link" (fun a t => if a.com then a.shutDown * val (.op "Link" "shut_down" a.name t) else 0)) := by
  unfold eventTerms lin
  rw [sum_flatten_list, List.map_map]
  have htab : table.filter (fun r => r.var == "start_up" || r.var == "shut_down") =
      [{ comp := "Generator", var := "start_up" }, { comp := "Generator", var := "shut_down" },
       { comp := "Link", var := "start_up" }, { comp := "Link", var := "shut_down" }] := by
    rfl
  rw [htab]
  have hterm : ∀ c v : Name, ((((n.assets c).filter (·.com)).flatMap (fun a => (n.sns.filter a.active).map (fun t =>
      (eventCost v a, OVar.op c v a.name t)))).map (fun e => e.1 * val e.2)).sum =
      total n c (fun a t => if a.com then eventCost v a * val (.op c v a.name t) else 0) := by
    intro c v
    rw [sum_flatMap_list, sum_filter_ite]
    unfold total
    congr 1
    apply List.map_congr_left
    intro a _
    cases hcom : a.com with
    | false => simp [hcom]
    | true =>
      simp only [if_true, List.map_map, hcom]
      exact sum_filter_ite n.sns a.active _
  have hz : ∀ c ∈ ["Generator", "Link"], ∀ v ∈ ["start_up", "shut_down"],
      (((n.assets c).filter (·.com)).map (eventCost v)).sum = 0 →
      total n c (fun a t => if a.com then eventCost v a * val (.op c v a.name t) else 0) = 0 := by
    intro c hc v hv h0
    unfold total
    apply List.sum_eq_zero
    intro x hx
    obtain ⟨a, ha, rfl⟩ := List.mem_map.mp hx
    apply List.sum_eq_zero
    intro y hy
    obtain ⟨t, -, rfl⟩ := List.mem_map.mp hy
    cases hcom : a.com with
    | false => simp [hcom]
    | true => simp [hev c hc v hv h0 a ha hcom]
  rw [sum_filter_eq]
  · simp only [List.map_cons, List.map_nil, List.sum_cons, List.sum_nil, Function.comp, hterm, add_zero]
    simp only [eventCost, if_true, if_neg (show ¬ ("shut_down" = "start_up") by decide)]
    ring
  · intro r hr h
    simp only [decide_eq_false_iff_not, not_not] at h
    simp only [Function.comp, hterm]
    simp only [List.mem_cons, List.not_mem_nil, or_false] at hr
    rcases hr with rfl | rfl | rfl | rfl <;> exact hz _ (by simp) _ (by simp) h

/-- C56 (partial): whenever the objective can be built, its value plus the objective constant is the system
cost.  Missing: start-up or shut-down costs of a class are ignored if they add up to zero without being
zero (`event_costs_ignored`), and spill costs raise if nothing has inflow (`spill_cost_raises`). -/
theorem objective_is_cost_partial (n : Net F) (o : Obj F) (ho : objective n = .ok o) (val : OVar → F)
    (hconst : val .const = constant n) (w : Nat → F) (hw : Weight n w)
    (hsu : ∀ c ∈ ["Generator", "Link"], (((n.assets c).filter (·.com)).map (·.startUp)).sum = 0 →
        ∀ a ∈ n.assets c, a.com = true → a.startUp = 0)
    (hsd : ∀ c ∈ ["Generator", "Link"], (((n.assets c).filter (·.com)).map (·.shutDown)).sum = 0 →
        ∀ a ∈ n.assets c, a.com = true → a.shutDown = 0) :
    o.value val + constant n = systemCost n val w := by
  have hw' : ∀ t ∈ n.sns, w t = weighting n t := by
    intro t ht
    have := hw t ht
    unfold weighting
    cases hp : n.periods with
    | none => rw [hp] at this; exact this
    | some x => rw [hp] at this; exact this
  unfold objective at ho
  simp only at ho
  split at ho
  swap
  · cases ho
  split at ho
  · cases ho
  injection ho with ho
  subst ho
  unfold Obj.value
  simp only
  have hev := event_sum n val (by
    intro c hc v hv
    simp only [List.mem_cons, List.not_mem_nil, or_false] at hv
    rcases hv with rfl | rfl
    · exact hsu c hc
    · exact hsd c hc)
  have hM := costType_sum n (·.marginal) Asset.marginal val
  have hS := costType_sum n (·.storage) Asset.marginalStorage val
  have hP := costType_sum n (·.spill) Asset.spillCost val
  have hQ := costType_sum n (·.quadratic) Asset.quadratic (fun v => val v * val v)
  have tM : table.filter (·.marginal) = [{ comp := "Generator", var := "p", marginal := true, quadratic := true },
    { comp := "Link", var := "p", marginal := true, quadratic := true },
    { comp := "Store", var := "p", marginal := true, quadratic := true },
    { comp := "StorageUnit", var := "p_dispatch", marginal := true, quadratic := true }] := rfl
  have tQ : table.filter (·.quadratic) = [{ comp := "Generator", var := "p", marginal := true, quadratic := true },
    { comp := "Link", var := "p", marginal := true, quadratic := true },
    { comp := "Store", var := "p", marginal := true, quadratic := true },
    { comp := "StorageUnit", var := "p_dispatch", marginal := true, quadratic := true }] := rfl
  have tS : table.filter (·.storage) = [{ comp := "Store", var := "e", storage := true },
    { comp := "StorageUnit", var := "state_of_charge", storage := true }] := rfl
  have tP : table.filter (·.spill) = [{ comp := "StorageUnit", var := "spill", spill := true }] := rfl
  rw [tM] at hM
  rw [tS] at hS
  rw [tQ] at hQ
  simp only [List.map_cons, List.map_nil, List.sum_cons, List.sum_nil, add_zero] at hM hS hQ
  rw [row_total n "Generator" "p" _ _ (by decide), row_total n "Link" "p" _ _ (by decide),
    row_total n "Store" "p" _ _ (by decide), row_total n "StorageUnit" "p_dispatch" _ _ (by decide)] at hM
  have rq := fun comp var hv => row_total n comp var Asset.quadratic (fun v => val v * val v) hv
  beta_reduce at rq
  rw [rq "Generator" "p" (by decide), rq "Link" "p" (by decide), rq "Store" "p" (by decide),
    rq "StorageUnit" "p_dispatch" (by decide)] at hQ
  rw [row_total n "Store" "e" _ _ (by decide), row_total n "StorageUnit" "state_of_charge" _ _ (by decide)] at hS
  have hP' : lin val (costType n (·.spill) Asset.spillCost).flatten = total n "StorageUnit" (fun a t =>
      if 0 < a.inflow t then w t * a.spillCost t * val (.op "StorageUnit" "spill" a.name t) else 0) := by
    unfold lin
    rw [hP, tP]
    simp only [List.map_cons, List.map_nil, List.sum_cons, List.sum_nil, add_zero]
    unfold total present
    congr 1
    apply List.map_congr_left
    intro a _
    congr 1
    apply List.map_congr_left
    intro t ht
    rw [if_pos rfl]
    beta_reduce
    rw [hw' t ht]
    by_cases h1 : a.active t = true
    · by_cases h2 : 0 < a.inflow t
      · simp [h1, h2]; ring
      · simp [h1, h2]
    · simp [h1]
  have hC : lin val (constTerms n).flatten = - constant n := by
    unfold constTerms
    split
    · rename_i h0; simp [h0]
    · simp [lin, hconst]
  rw [List.flatten_append, List.flatten_append, List.flatten_append, List.flatten_append, List.flatten_append,
    List.flatten_append, lin_append, lin_append, lin_append, lin_append, lin_append, lin_append, hC, hP', hev,
    standBy_sum, invest_sum, hQ]
  rw [show lin val (costType n (·.marginal) Asset.marginal).flatten = _ from hM,
    show lin val (costType n (·.storage) Asset.marginalStorage).flatten = _ from hS]
  -- the specification, expanded
  have hrun : ∀ comp var, total n comp (fun a t => running val w comp var a t) =
      total n comp (fun a t => weighting n t * (a.marginal t * val (.op comp var a.name t))) +
      total n comp (fun a t => weighting n t * (a.quadratic t *
        (val (.op comp var a.name t) * val (.op comp var a.name t)))) := by
    intro comp var
    rw [← total_add]
    apply total_congr
    intro a _ t ht _
    unfold running
    rw [hw' t ht]; ring
  have hcom : ∀ comp, total n comp (fun a t => commitment val w comp a t) =
      total n comp (fun a t => if a.com then weighting n t * (a.standBy t * val (.op comp "status" a.name t)) else 0) +
      total n comp (fun a t => if a.com then a.startUp * val (.op comp "start_up" a.name t) else 0) +
      total n comp (fun a t => if a.com then a.shutDown * val (.op comp "shut_down" a.name t) else 0) := by
    intro comp
    rw [← total_add, ← total_add]
    apply total_congr
    intro a _ t ht _
    unfold commitment
    rw [hw' t ht]
    split <;> ring
  have hsto : ∀ comp var, total n comp (fun a t => w t * a.marginalStorage t * val (.op comp var a.name t)) =
      total n comp (fun a t => weighting n t * (a.marginalStorage t * val (.op comp var a.name t))) := by
    intro comp var
    apply total_congr
    intro a _ t ht _
    rw [hw' t ht]; ring
  unfold systemCost nominalAttrs
  rw [total_add, total_add, total_add, total_add, total_add, hrun, hrun, hrun, hrun, hcom, hcom, hsto, hsto]
  simp only [List.map_cons, List.map_nil, List.sum_cons, List.sum_nil, add_zero]
  ring

end proofs

/-! ## Examples and findings -/

def exAsset : Asset ℚ where
  name := "a"
  ext := false
  com := false
  nom := 0
  capitalCost := 0
  marginal := fun _ => 0
  marginalStorage := fun _ => 0
  spillCost := fun _ => 0
  quadratic := fun _ => 0
  standBy := fun _ => 0
  startUp := 0
  shutDown := 0
  inflow := fun _ => 0
  active := fun _ => true
  activeIn := fun _ => true
  activeFlag := true

/-- An extendable generator in a network with two periods, a store and a unit with start-up costs. -/
def exNet : Net ℚ where
  assets := fun c => if c = "Generator" then
      [{ exAsset with name := "g", ext := true, nom := 2, capitalCost := 3, marginal := fun t => t + 1,
                      quadratic := fun _ => 1 },
       { exAsset with name := "u", com := true, startUp := 5, standBy := fun _ => 1 }]
    else if c = "Store" then [{ exAsset with name := "s", marginalStorage := fun _ => 1 }] else []
  sns := [0, 1]
  sw := fun _ => 2
  periods := some ([2020, 2030], fun p => if p = 2020 then 1 else 1 / 2, fun t => if t = 0 then 2020 else 2030)

def exVal : OVar → ℚ
  | .op _ _ _ _ => 1
  | .nom _ _ _ => 4
  | .const => 9

/-- Objective and constant, if there is an objective. -/
def exTotal (n : Net ℚ) (val : OVar → ℚ) : Option ℚ :=
  match objective n with
  | .ok o => some (o.value val + constant n)
  | .error _ => none

theorem exTotal_some {n : Net ℚ} {val : OVar → ℚ} {x : ℚ} (h : exTotal n val = some x) :
    ∃ o, objective n = .ok o ∧ o.value val + constant n = x := by
  unfold exTotal at h
  split at h
  · rename_i o ho
    injection h with h
    exact ⟨o, ho, h⟩
  · cases h

example : constant exNet = 9 ∧ exTotal exNet exVal = some 41 ∧
    systemCost exNet exVal (fun t => if t = 0 then 2 else 1) = 41 := by
  decide +kernel

example : Weight exNet (fun t => if t = 0 then 2 else 1) := by
  intro t ht
  simp only [exNet, List.mem_cons, List.not_mem_nil, or_false] at ht ⊢
  rcases ht with rfl | rfl <;> norm_num

/-- **Finding** (optimize.py 191): start-up costs that add up to zero within a class are ignored. -/
theorem event_costs_ignored : ∃ (n : Net ℚ) (o : Obj ℚ) (val : OVar → ℚ), objective n = .ok o ∧
    n.periods = none ∧ (∀ t, n.sw t = 1) ∧
    o.value val + constant n = 0 ∧ systemCost n val (fun _ => 1) = 5 := by
  let n : Net ℚ := ⟨fun c => if c = "Generator" then [{ exAsset with name := "u", com := true, startUp := 5 },
    { exAsset with name := "v", com := true, startUp := -5 }] else [], [0], fun _ => 1, none⟩
  let val : OVar → ℚ := fun v => if v = .op "Generator" "start_up" "u" 0 then 1 else 0
  have h : exTotal n val = some 0 := by decide +kernel
  obtain ⟨o, ho, h1⟩ := exTotal_some h
  exact ⟨n, o, val, ho, rfl, fun _ => rfl, h1, by decide +kernel⟩

/-- **Finding** (optimize.py 133, variables.py 137-139): a spill cost on storage units none of which has
inflow raises. -/
theorem spill_cost_raises : ∃ n : Net ℚ, (∀ c, ∀ a ∈ n.assets c, ∀ t, a.inflow t = 0) ∧
    objective n = .error .keyError := by
  refine ⟨⟨fun c => if c = "StorageUnit" then [{ exAsset with name := "u", spillCost := fun _ => 1 }] else [], [0],
    fun _ => 1, none⟩, ?_, by decide +kernel⟩
  intro c a ha t
  simp only at ha
  split at ha
  · simp only [List.mem_singleton] at ha; subst ha; rfl
  · cases ha

/-- Networks without any costs are rejected. -/
theorem no_cost_raises : ∃ n : Net ℚ, (n.assets "Generator").length = 1 ∧ objective n = .error .valueError :=
  ⟨⟨fun c => if c = "Generator" then [exAsset] else [], [0], fun _ => 1, none⟩, by decide, by decide +kernel⟩

end Verif.Opt.Objective
