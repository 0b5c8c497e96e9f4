import Verif.Stats.Expressions
import Verif.Stats.AggregateProps

/-!
# Statistics (C72, C76, C77, C93, C94, C95, C96)
-/

namespace Verif.Stats

variable {F : Type} [Field F] (search : String → String → Bool)

/-! ## Sums -/

theorem sum_map_zero {α : Type} (l : List α) (f : α → F) (h : ∀ x ∈ l, f x = 0) : (l.map f).sum = 0 :=
  List.sum_eq_zero (fun y hy => by obtain ⟨x, hx, rfl⟩ := List.mem_map.mp hy; exact h x hx)

theorem sum_map_sub' {α : Type} (l : List α) (f g : α → F) :
    (l.map (fun x => f x - g x)).sum = (l.map f).sum - (l.map g).sum := by
  induction l with
  | nil => simp
  | cons x l ih => simp only [List.map_cons, List.sum_cons, ih]; ring

theorem sum_comm' {α β : Type} (l : List α) (m : List β) (f : α → β → F) :
    (l.map (fun x => (m.map (fun y => f x y)).sum)).sum = (m.map (fun y => (l.map (fun x => f x y)).sum)).sum := by
  induction l with
  | nil => simp
  | cons x l ih => simp only [List.map_cons, List.sum_cons, ih]; rw [← List.sum_map_add]

theorem mul_list_sum {α : Type} (l : List α) (c : F) (f : α → F) : c * (l.map f).sum = (l.map (fun x => c * f x)).sum := by
  induction l with
  | nil => simp
  | cons x l ih => simp only [List.map_cons, List.sum_cons, mul_add, ih]

theorem weighted_sum {α : Type} (sns : List Nat) (w : Nat → F) (l : List α) (x : α → Nat → F) :
    (l.map (fun a => weighted sns w (x a))).sum = weighted sns w (fun t => (l.map (fun a => x a t)).sum) := by
  unfold weighted
  rw [sum_comm']
  congr 1; apply List.map_congr_left; intro t _
  rw [mul_list_sum]

theorem timeAgg_sum {α : Type} (T : Time F) (multi : Option Nat) (agg : TimeAgg) (w : Nat → F) (j : Nat) (l : List α)
    (x : α → Nat → F) :
    (l.map (fun a => timeAgg T multi agg w (x a) j)).sum = timeAgg T multi agg w (fun t => (l.map (fun a => x a t)).sum) j := by
  unfold timeAgg
  cases agg with
  | none => rfl
  | sum => exact weighted_sum _ _ l x
  | mean => exact weighted_sum _ _ l x

theorem weighted_congr (sns : List Nat) (w w' f g : Nat → F) (hw : ∀ t ∈ sns, w t = w' t) (h : ∀ t ∈ sns, f t = g t) :
    weighted sns w f = weighted sns w' g := by
  unfold weighted
  congr 1; apply List.map_congr_left; intro t ht; rw [h t ht, hw t ht]

theorem timeAgg_congr (T : Time F) (multi : Option Nat) (agg : TimeAgg) (w w' f g : Nat → F) (j : Nat)
    (hw : ∀ t ∈ T.sns, w t = w' t) (h : ∀ t ∈ T.sns, f t = g t) (hj : agg = .none → j ∈ T.sns) :
    timeAgg T multi agg w f j = timeAgg T multi agg w' g j := by
  have hp : ∀ t ∈ T.part multi j, t ∈ T.sns := fun t ht => ((part_spec T multi j t).mp ht).1
  unfold timeAgg
  cases agg with
  | none => exact h j (hj rfl)
  | sum => exact weighted_congr _ _ _ _ _ (fun t ht => hw t (hp t ht)) (fun t ht => h t (hp t ht))
  | mean =>
    refine weighted_congr _ _ _ _ _ (fun t ht => ?_) (fun t ht => h t (hp t ht))
    unfold normed
    rw [hw t (hp t ht)]
    congr 2
    apply List.map_congr_left; intro t ht; exact hw t (hp t ht)

theorem timeAgg_zero (T : Time F) (multi : Option Nat) (agg : TimeAgg) (w f : Nat → F) (j : Nat)
    (h : ∀ t ∈ T.sns, f t = 0) (hj : agg = .none → j ∈ T.sns) : timeAgg T multi agg w f j = 0 := by
  rw [timeAgg_congr T multi agg w w f (fun _ => 0) j (fun _ _ => rfl) h hj]
  unfold timeAgg weighted
  cases agg <;> simp

theorem timeAgg_sub (T : Time F) (multi : Option Nat) (agg : TimeAgg) (w f g : Nat → F) (j : Nat) :
    timeAgg T multi agg w (fun t => f t - g t) j = timeAgg T multi agg w f j - timeAgg T multi agg w g j := by
  unfold timeAgg weighted
  cases agg with
  | none => rfl
  | sum => simp only [mul_sub]; exact sum_map_sub' _ _ _
  | mean => simp only [mul_sub]; exact sum_map_sub' _ _ _

/-! ## Selected assets -/

/-- The assets of a class counted at a port: those in service (only if the values are no table by time or
period), at a bus of the given carriers, of the given carriers. -/
def selected (n : Net) (o : Opts F) (frame : Bool) (c : Comp) (port : String) : List Asset :=
  let idx := (c.assets.filter (fun a => frame || a.active)).filter (fun a => busOk search n port o.busCarrier a)
  idx.filter (fun a => carrierOk search c idx o.carrier a)

theorem portVals_of (n : Net) (o : Opts F) (func : Comp → String → Option (Vals F)) (c : Comp) (port : String) (fr : Bool)
    (g : Asset → Nat → Option F) (h : func c port = some ⟨fr, c.assets.map (fun a => (a, g a))⟩)
    (hm : n.multi = none ∨ fr = true) :
    portVals search n o func c port = ⟨fr, (selected search n o fr c port).map (fun a => (a, g a))⟩ := by
  have h1 : filterActive n ⟨fr, c.assets.map (fun a => (a, g a))⟩ =
      ⟨fr, (c.assets.filter (fun a => fr || a.active)).map (fun a => (a, g a))⟩ := by
    unfold filterActive
    cases fr with
    | true => simp
    | false =>
      have : n.multi = none := by simpa using hm
      simp [this, List.filter_map, Function.comp_def]
  unfold portVals
  rw [h]
  simp only [h1]
  rw [List.filter_map, List.filter_map, List.map_map]
  simp only [Function.comp_def, List.map_id']
  rfl

theorem timeFrame_multi (n : Net) (agg : TimeAgg) : n.multi = none ∨ timeFrame n.multi agg = true := by
  cases h : n.multi <;> cases agg <;> simp [timeFrame]

section ordered
variable [LinearOrder F]

/-- Values of a statistic that is a series for each asset. -/
theorem compValue_series (n : Net) (o : Opts F) (d : Data F) (agg : TimeAgg) (func : Comp → String → Option (Vals F)) (c : Comp)
    (tbl : String → Option (Asset → Nat → F)) (x : String → (Asset → Nat → F) → Asset → Nat → F)
    (h : ∀ port, func c port = (tbl port).map (fun p => series n d agg c (x port p))) (l : List String) (j : Nat) :
    compValue search n o func c l j = ((usedPorts o.atPort c).map (fun port => match tbl port with
      | none => 0
      | some p => ((selected search n o (timeFrame n.multi agg) c port).map (fun a =>
          if groupOf n o c port a = some l then timeAgg d.time n.multi agg (weights d c) (x port p a) j else 0)).sum)).sum := by
  unfold compValue
  congr 1; apply List.map_congr_left; intro port _
  cases ht : tbl port with
  | none =>
    have : func c port = none := by rw [h, ht]; rfl
    unfold portVals; rw [this]; rfl
  | some p =>
    rw [portVals_of search n o func c port (timeFrame n.multi agg)
      (fun a j => some (timeAgg d.time n.multi agg (weights d c) (x port p a) j)) (by rw [h, ht]; rfl) (timeFrame_multi n agg)]
    simp only [List.map_map, Function.comp_def, Option.getD_some]

theorem compTotal_series (n : Net) (o : Opts F) (d : Data F) (agg : TimeAgg) (func : Comp → String → Option (Vals F)) (c : Comp)
    (tbl : String → Option (Asset → Nat → F)) (x : String → (Asset → Nat → F) → Asset → Nat → F)
    (h : ∀ port, func c port = (tbl port).map (fun p => series n d agg c (x port p))) (j : Nat) :
    compTotal search n o func c j = ((usedPorts o.atPort c).map (fun port => match tbl port with
      | none => 0
      | some p => ((selected search n o (timeFrame n.multi agg) c port).map (fun a =>
          if (groupOf n o c port a).isSome then timeAgg d.time n.multi agg (weights d c) (x port p a) j else 0)).sum)).sum := by
  unfold compTotal
  congr 1; apply List.map_congr_left; intro port _
  cases ht : tbl port with
  | none =>
    have : func c port = none := by rw [h, ht]; rfl
    unfold portVals; rw [this]; rfl
  | some p =>
    rw [portVals_of search n o func c port (timeFrame n.multi agg)
      (fun a j => some (timeAgg d.time n.multi agg (weights d c) (x port p a) j)) (by rw [h, ht]; rfl) (timeFrame_multi n agg)]
    simp only [List.map_map, Function.comp_def, Option.getD_some]

theorem isFrame_dir (n : Net) (o : Opts F) (d : Data F) (agg : TimeAgg) (dir : Dir) (comps : List Comp) :
    isFrame search n o (balanceF n d agg dir) comps = isFrame search n o (balanceF n d agg .balance) comps := by
  unfold isFrame
  congr 1; funext c; congr 1; funext port
  cases h : d.table c ("p" ++ port) with
  | none => unfold portVals balanceF; rw [h]; rfl
  | some p =>
    rw [portVals_of search n o (balanceF n d agg dir) c port (timeFrame n.multi agg)
      (fun a j => some (timeAgg d.time n.multi agg (weights d c) (fun t => dir.clip (signOf d c a * p a t)) j))
      (by unfold balanceF; rw [h]; rfl) (timeFrame_multi n agg),
      portVals_of search n o (balanceF n d agg .balance) c port (timeFrame n.multi agg)
      (fun a j => some (timeAgg d.time n.multi agg (weights d c) (fun t => Dir.balance.clip (signOf d c a * p a t)) j))
      (by unfold balanceF; rw [h]; rfl) (timeFrame_multi n agg)]

end ordered

section stats
variable [LinearOrder F] [IsStrictOrderedRing F]

theorem list_sum_nonneg (l : List F) (h : ∀ x ∈ l, 0 ≤ x) : 0 ≤ l.sum := by
  induction l with
  | nil => simp
  | cons x l ih =>
    rw [List.sum_cons]
    exact add_nonneg (h x (by simp)) (ih (fun y hy => h y (by simp [hy])))

theorem timeAgg_nonneg (T : Time F) (multi : Option Nat) (agg : TimeAgg) (w f : Nat → F) (j : Nat)
    (hw : ∀ t ∈ T.sns, 0 ≤ w t) (h : ∀ t, 0 ≤ f t) : 0 ≤ timeAgg T multi agg w f j := by
  have hp : ∀ t ∈ T.part multi j, 0 ≤ w t := fun t ht => hw t ((part_spec T multi j t).mp ht).1
  have h0 : 0 ≤ weighted (T.part multi j) w f := by
    have := weighted_mono (T.part multi j) w (fun _ => 0) f hp (fun t _ => h t)
    rwa [weighted_const, mul_zero] at this
  unfold timeAgg
  cases agg with
  | none => exact h j
  | sum => exact h0
  | mean =>
    rw [weighted_normed]
    apply div_nonneg h0
    apply list_sum_nonneg
    intro x hx
    obtain ⟨t, ht, rfl⟩ := List.mem_map.mp hx
    exact hp t ht

omit [IsStrictOrderedRing F] in
theorem clip_sub (x : F) : Dir.supply.clip x - Dir.withdrawal.clip x = Dir.balance.clip x := by
  simp only [Dir.clip, sub_neg_eq_add]
  rw [add_comm, min_add_max, add_zero]

omit [IsStrictOrderedRing F] in
theorem compValue_balance (n : Net) (o : Opts F) (d : Data F) (agg : TimeAgg) (c : Comp) (l : List String) (j : Nat) :
    compValue search n o (balanceF n d agg .supply) c l j - compValue search n o (balanceF n d agg .withdrawal) c l j =
      compValue search n o (balanceF n d agg .balance) c l j := by
  have h := fun dir : Dir => compValue_series search n o d agg (balanceF n d agg dir) c (fun port => d.table c ("p" ++ port))
    (fun _ p a t => dir.clip (signOf d c a * p a t)) (fun _ => rfl) l j
  rw [h .supply, h .withdrawal, h .balance, ← sum_map_sub']
  congr 1; apply List.map_congr_left; intro port _
  cases d.table c ("p" ++ port) with
  | none => simp
  | some p =>
    simp only
    rw [← sum_map_sub']
    congr 1; apply List.map_congr_left; intro a _
    split
    · rw [← timeAgg_sub]; simp only [clip_sub]
    · simp

/-- C72: supply minus withdrawal is the energy balance of each group, whatever the filters, ports,
groupers and the aggregation over time; up to rounding to `ε`, exactly without rounding. -/
theorem supply_minus_withdrawal (n : Net) (o : Opts F) (ho : o.agg = sumAgg) (h1 : o.one = false) (ha : o.across = false)
    (hr : ∀ f, o.round = some f → f 0 = 0) (d : Data F) (agg : TimeAgg) (comps : List Comp) (hc : (comps.map (·.cname)).Nodup)
    (s w b : List (Row F)) (hs : aggregate search n o (balanceF n d agg .supply) comps = .ok s)
    (hw : aggregate search n o (balanceF n d agg .withdrawal) comps = .ok w)
    (hb : aggregate search n o (balanceF n d agg .balance) comps = .ok b)
    (c : Comp) (hm : c ∈ comps) (l : List String) (j : Nat)
    (hj : isFrame search n o (balanceF n d agg .balance) comps = false → j = 0) :
    (o.round = none → valueAt s (c.cname :: l) j - valueAt w (c.cname :: l) j = valueAt b (c.cname :: l) j) ∧
    (∀ ε f, o.round = some f → (∀ x, |f x - x| ≤ ε) →
      |valueAt s (c.cname :: l) j - valueAt w (c.cname :: l) j - valueAt b (c.cname :: l) j| ≤ 3 * ε) := by
  rw [(group_value search n o ho h1 ha hr _ comps hc s hs).2 c hm l j (by rw [isFrame_dir]; exact hj),
    (group_value search n o ho h1 ha hr _ comps hc w hw).2 c hm l j (by rw [isFrame_dir]; exact hj),
    (group_value search n o ho h1 ha hr _ comps hc b hb).2 c hm l j hj]
  have hv := compValue_balance search n o d agg c l j
  refine ⟨fun h0 => ?_, fun ε f hf he => ?_⟩
  · rw [h0]; exact hv
  · rw [hf]
    simp only [Option.getD_some]
    generalize compValue search n o (balanceF n d agg .supply) c l j = x at hv ⊢
    generalize compValue search n o (balanceF n d agg .withdrawal) c l j = y at hv ⊢
    generalize compValue search n o (balanceF n d agg .balance) c l j = z at hv ⊢
    have hx := abs_le.mp (he x)
    have hy := abs_le.mp (he y)
    have hz := abs_le.mp (he z)
    rw [abs_le]
    constructor <;> linarith

/-- C72: supply and withdrawal are not negative. -/
theorem supply_nonneg (n : Net) (o : Opts F) (ho : o.agg = sumAgg) (h1 : o.one = false) (ha : o.across = false)
    (hr : ∀ f, o.round = some f → f 0 = 0 ∧ ∀ x, 0 ≤ x → 0 ≤ f x) (d : Data F) (agg : TimeAgg) (comps : List Comp)
    (hc : (comps.map (·.cname)).Nodup) (hw : ∀ t ∈ d.time.sns, 0 ≤ d.wGen t ∧ 0 ≤ d.wSto t ∧ 0 ≤ d.wObj t)
    (dir : Dir) (hd : dir ≠ .balance) (s : List (Row F)) (hs : aggregate search n o (balanceF n d agg dir) comps = .ok s)
    (c : Comp) (hm : c ∈ comps) (l : List String) (j : Nat)
    (hj : isFrame search n o (balanceF n d agg .balance) comps = false → j = 0) : 0 ≤ valueAt s (c.cname :: l) j := by
  rw [(group_value search n o ho h1 ha (fun f hf => (hr f hf).1) _ comps hc s hs).2 c hm l j (by rw [isFrame_dir]; exact hj)]
  have h0 : 0 ≤ compValue search n o (balanceF n d agg dir) c l j := by
    rw [compValue_series search n o d agg (balanceF n d agg dir) c (fun port => d.table c ("p" ++ port))
      (fun _ p a t => dir.clip (signOf d c a * p a t)) (fun _ => rfl) l j]
    apply list_sum_nonneg
    intro x hx
    obtain ⟨port, _, rfl⟩ := List.mem_map.mp hx
    cases d.table c ("p" ++ port) with
    | none => exact le_refl _
    | some p =>
      simp only
      apply list_sum_nonneg
      intro y hy
      obtain ⟨a, _, rfl⟩ := List.mem_map.mp hy
      split
      · apply timeAgg_nonneg
        · intro t ht
          obtain ⟨g1, g2, g3⟩ := hw t ht
          unfold weights; split
          · exact g1
          · split
            · exact g2
            · exact g3
        · intro t
          cases dir with
          | balance => exact absurd rfl hd
          | supply => exact le_max_right _ _
          | withdrawal => exact neg_nonneg.mpr (min_le_right _ _)
      · exact le_refl _
  cases hro : o.round with
  | none => exact h0
  | some f => exact (hr f hro).2 _ h0

end stats

/-! ## Balanced buses -/

/-- Injection of all components into a bus: over all ports of the assets that count.  The power of a branch at a port is what
it takes from the bus; of another asset, `sign` times its power is what it gives. -/
def injection (d : Data F) (counts : Asset → Bool) (comps : List Comp) (b : String) (t : Nat) : F :=
  (comps.map (fun c => (c.ports.map (fun port => match d.table c ("p" ++ port) with
    | none => 0
    | some p => (c.assets.map (fun a => if counts a = true ∧ a.col ("bus" ++ port) = some b then
        (if c.branch then - p a t else d.sign a * p a t) else 0)).sum)).sum)).sum

theorem sum_over_buses (bs : List String) (hb : bs.Nodup) (x : Option String) (φ : String → F) :
    (bs.map (fun b => if x = some b then φ b else 0)).sum = (match x with
      | none => 0
      | some b => if b ∈ bs then φ b else 0) := by
  induction bs with
  | nil => cases x <;> simp
  | cons b bs ih =>
    rw [List.nodup_cons] at hb
    rw [List.map_cons, List.sum_cons, ih hb.2]
    cases x with
    | none => simp
    | some y =>
      by_cases h : y = b
      · subst h; simp [hb.1]
      · simp [h]

/-- Counting each asset at the price `φ` of its bus is counting each bus. -/
theorem injection_sum (d : Data F) (counts : Asset → Bool) (comps : List Comp) (bs : List String) (hb : bs.Nodup)
    (φ : String → F) (t : Nat) :
    (comps.map (fun c => (c.ports.map (fun port => match d.table c ("p" ++ port) with
      | none => 0
      | some p => (c.assets.map (fun a => if counts a = true then signOf d c a * p a t *
          (match a.col ("bus" ++ port) with
            | none => 0
            | some b => if b ∈ bs then φ b else 0) else 0)).sum)).sum)).sum =
      (bs.map (fun b => φ b * injection d counts comps b t)).sum := by
  unfold injection
  simp only [mul_list_sum]
  rw [sum_comm']
  congr 1; apply List.map_congr_left; intro c _
  rw [sum_comm']
  congr 1; apply List.map_congr_left; intro port _
  cases d.table c ("p" ++ port) with
  | none => simp
  | some p =>
    simp only [mul_list_sum]
    rw [sum_comm']
    congr 1; apply List.map_congr_left; intro a _
    rw [← sum_over_buses bs hb]
    cases counts a with
    | false => simp
    | true =>
      simp only [if_true, true_and, mul_list_sum]
      congr 1; apply List.map_congr_left; intro b _
      by_cases h : a.col ("bus" ++ port) = some b
      · unfold signOf; cases c.branch <;> simp [h, mul_comm]
      · simp [h]

section balance
variable [LinearOrder F]

/-- Buses that pass the filter by carrier. -/
def chosenBus (n : Net) (s : Sel) (b : String) : Bool :=
  match s with
  | .all => true
  | _ => match n.busCol "carrier" b with
    | none => false
    | some x => s.holds search (n.buses.filterMap (n.busCol "carrier")) x

theorem busOk_iff (n : Net) (s : Sel) (hs : s ≠ .all) (port : String) (a : Asset) :
    busOk search n port s a = match a.col ("bus" ++ port) with
      | none => false
      | some b => n.buses.contains b && chosenBus search n s b := by
  unfold busOk portCarrier Net.busAttr chosenBus
  cases s with
  | all => exact absurd rfl hs
  | str p =>
    cases a.col ("bus" ++ port) with
    | none => rfl
    | some b =>
      simp only [Option.bind_some]
      by_cases h : n.buses.contains b = true
      · simp only [h, if_true, Bool.true_and]; cases n.busCol "carrier" b <;> rfl
      · simp only [h, Bool.false_eq_true, if_false, Bool.false_and]
  | list p =>
    cases a.col ("bus" ++ port) with
    | none => rfl
    | some b =>
      simp only [Option.bind_some]
      by_cases h : n.buses.contains b = true
      · simp only [h, if_true, Bool.true_and]; cases n.busCol "carrier" b <;> rfl
      · simp only [h, Bool.false_eq_true, if_false, Bool.false_and]

/-- Totals of balanced flows, each asset weighed by a factor `φ` of the bus at the port. -/
theorem total_balanced (n : Net) (o : Opts F) (ho : o.agg = sumAgg) (hr : o.round = none)
    (hp : o.atPort.truthy = true) (hcar : o.carrier = .all)
    (d : Data F) (agg : TimeAgg) (comps : List Comp) (hb : n.buses.Nodup)
    (func : Comp → String → Option (Vals F)) (φ : String → Nat → F)
    (val : Comp → String → (Asset → Nat → F) → Asset → Nat → F)
    (hfunc : ∀ c ∈ comps, ∀ port, func c port = (d.table c ("p" ++ port)).map (fun p => series n d agg c (val c port p)))
    (hval : ∀ c ∈ comps, ∀ port p a t, busOk search n port o.busCarrier a = true → val c port p a t = signOf d c a * p a t *
      (match a.col ("bus" ++ port) with
        | none => 0
        | some b => if b ∈ n.buses then φ b t else 0))
    (w : Nat → F) (hw : ∀ c ∈ comps, ∀ t ∈ d.time.sns, weights d c t = w t)
    (hlab : ∀ c ∈ comps, ∀ port, ∀ a ∈ c.assets, busOk search n port o.busCarrier a = true → (groupOf n o c port a).isSome)
    (hbal : ∀ b ∈ n.buses, ∀ t ∈ d.time.sns, injection d (fun a => timeFrame n.multi agg || a.active) comps b t = 0)
    (res : List (Row F)) (h : aggregate search n o func comps = .ok res) (j : Nat)
    (hj : isFrame search n o func comps = false → j = 0) (hj' : agg = .none → j ∈ d.time.sns) : total res j = 0 := by
  rw [grand_total search n o ho hr func comps res h j hj]
  set cnt : Asset → Bool := fun a => timeFrame n.multi agg || a.active with hcnt
  -- value of an asset at a port
  have hone : ∀ c ∈ comps, compTotal search n o func c j =
      timeAgg d.time n.multi agg w (fun t => (c.ports.map (fun port => match d.table c ("p" ++ port) with
        | none => 0
        | some p => (c.assets.map (fun a => if cnt a = true then signOf d c a * p a t *
          (match a.col ("bus" ++ port) with
            | none => 0
            | some b => if b ∈ n.buses.filter (chosenBus search n o.busCarrier) then φ b t else 0) else 0)).sum)).sum) j := by
    intro c hc
    rw [compTotal_series search n o d agg func c (fun port => d.table c ("p" ++ port)) (val c) (hfunc c hc) j]
    rw [← timeAgg_sum, show usedPorts o.atPort c = c.ports from by unfold usedPorts; rw [hp]; rfl]
    congr 1; apply List.map_congr_left; intro port _
    cases d.table c ("p" ++ port) with
    | none => exact (timeAgg_zero _ _ _ _ _ _ (fun _ _ => rfl) hj').symm
    | some p =>
      simp only
      rw [← timeAgg_sum]
      have hsel : selected search n o (timeFrame n.multi agg) c port =
          c.assets.filter (fun a => cnt a && busOk search n port o.busCarrier a) := by
        have hall : ∀ (idx : List Asset) (a : Asset), carrierOk search c idx o.carrier a = true := by
          intro idx a; rw [hcar]; unfold carrierOk; split <;> rfl
        unfold selected
        simp [hall, List.filter_filter, hcnt, Bool.and_comm]
      rw [hsel, sum_filter_eq]
      congr 1; apply List.map_congr_left; intro a haa
      cases hca : cnt a with
      | false =>
        simp only [Bool.false_and, Bool.false_eq_true, if_false]
        exact (timeAgg_zero _ _ _ _ _ _ (fun _ _ => rfl) hj').symm
      | true =>
        cases hok : busOk search n port o.busCarrier a with
        | true =>
          simp only [Bool.and_self, if_true, hlab c hc port a haa hok]
          apply timeAgg_congr _ _ _ _ _ _ _ _ (hw c hc) _ hj'
          intro t _
          rw [hval c hc port p a t hok]
          congr 1
          cases hcol : a.col ("bus" ++ port) with
          | none => rfl
          | some b =>
            simp only [List.mem_filter]
            by_cases hall : o.busCarrier = .all
            · simp [hall, chosenBus]
            · rw [busOk_iff search n _ hall, hcol] at hok
              simp only [Bool.and_eq_true, List.contains_iff_mem] at hok
              rw [if_pos hok.1, if_pos hok]
        | false =>
          simp only [Bool.and_false, Bool.false_eq_true, if_false]
          symm
          apply timeAgg_zero _ _ _ _ _ _ _ hj'
          intro t _
          simp only [if_true]
          have hall : o.busCarrier ≠ .all := by
            intro h0; rw [h0] at hok; simp [busOk] at hok
          rw [busOk_iff search n _ hall] at hok
          cases hcol : a.col ("bus" ++ port) with
          | none => simp
          | some b =>
            rw [hcol] at hok
            simp only [List.mem_filter]
            rw [if_neg, mul_zero]
            rintro ⟨g1, g2⟩
            simp [g1, g2] at hok
  rw [List.map_congr_left hone, timeAgg_sum]
  apply timeAgg_zero _ _ _ _ _ _ _ hj'
  intro t ht
  rw [injection_sum d cnt comps (n.buses.filter (chosenBus search n o.busCarrier)) (hb.filter _) (fun b => φ b t) t]
  apply sum_map_zero
  intro b hbm
  rw [hbal b (List.mem_filter.mp hbm).1 t ht, mul_zero]

/-- C77: if every bus is balanced at every snapshot and all weightings agree, the energy balance over all ports at buses
of the chosen carriers adds up to zero, with any grouping that has a group for each asset at such a bus. -/
theorem balance_vanishes (n : Net) (o : Opts F) (ho : o.agg = sumAgg) (hr : o.round = none)
    (hp : o.atPort = .flag true) (hcar : o.carrier = .all) (hbc : o.busCarrier ≠ .all)
    (d : Data F) (agg : TimeAgg) (comps : List Comp) (hb : n.buses.Nodup)
    (w : Nat → F) (hw : ∀ c ∈ comps, ∀ t ∈ d.time.sns, weights d c t = w t)
    (hlab : ∀ c ∈ comps, ∀ port, ∀ a ∈ c.assets, busOk search n port o.busCarrier a = true → (groupOf n o c port a).isSome)
    (hbal : ∀ b ∈ n.buses, ∀ t ∈ d.time.sns, injection d (fun a => timeFrame n.multi agg || a.active) comps b t = 0)
    (res : List (Row F)) (h : aggregate search n o (balanceF n d agg .balance) comps = .ok res) (j : Nat)
    (hj : isFrame search n o (balanceF n d agg .balance) comps = false → j = 0) (hj' : agg = .none → j ∈ d.time.sns) :
    total res j = 0 := by
  refine total_balanced search n o ho hr (by rw [hp]; rfl) hcar d agg comps hb _ (fun _ _ => 1)
    (fun c _ p a t => signOf d c a * p a t) (fun _ _ _ => rfl) ?_ w hw hlab hbal res h j hj hj'
  intro c _ port p a t hok
  rw [busOk_iff search n _ hbc] at hok
  cases hcol : a.col ("bus" ++ port) with
  | none => rw [hcol] at hok; simp at hok
  | some b =>
    rw [hcol] at hok
    simp only [Bool.and_eq_true, List.contains_iff_mem] at hok
    simp [hok.1]

/-- The default grouping, by carrier and carrier of the bus, has a group for each asset at a bus with a carrier. -/
theorem default_groups (n : Net) (o : Opts F) (hg : o.groupby = some [.carrier, .busCarrier]) (hbc : o.busCarrier ≠ .all)
    (c : Comp) (port : String) (a : Asset) (hcol : c.cols.contains "carrier" = true → (a.col "carrier").isSome)
    (hok : busOk search n port o.busCarrier a = true) : (groupOf n o c port a).isSome := by
  unfold groupOf
  rw [hg]
  have h2 : (portCarrier n port a).isSome := by
    unfold busOk at hok
    cases hs : o.busCarrier with
    | all => exact absurd hs hbc
    | str p => rw [hs] at hok; cases hpc : portCarrier n port a with
      | none => rw [hpc] at hok; simp at hok
      | some x => rfl
    | list p => rw [hs] at hok; cases hpc : portCarrier n port a with
      | none => rw [hpc] at hok; simp at hok
      | some x => rfl
  obtain ⟨x, hx⟩ := Option.isSome_iff_exists.mp h2
  cases hc : c.cols.contains "carrier" with
  | true =>
    obtain ⟨y, hy⟩ := Option.isSome_iff_exists.mp (hcol hc)
    have hc' := List.contains_iff_mem.mp hc
    simp [labels, Grouper.label, hx, hy, hc']
  | false =>
    have hc' : "carrier" ∉ c.cols := fun h => by simp [h] at hc
    simp [labels, Grouper.label, hx, hc']

/-- C96: if every bus is balanced at every snapshot and all weightings agree, the revenues of all components at
all their ports add up to zero, whatever the prices. -/
theorem revenue_vanishes (n : Net) (o : Opts F) (ho : o.agg = sumAgg) (hr : o.round = none)
    (hp : o.atPort = .flag true) (hcar : o.carrier = .all)
    (d : Data F) (agg : TimeAgg) (comps : List Comp) (hb : n.buses.Nodup)
    (w : Nat → F) (hw : ∀ c ∈ comps, ∀ t ∈ d.time.sns, weights d c t = w t)
    (hlab : ∀ c ∈ comps, ∀ port, ∀ a ∈ c.assets, busOk search n port o.busCarrier a = true → (groupOf n o c port a).isSome)
    (hbal : ∀ b ∈ n.buses, ∀ t ∈ d.time.sns, injection d (fun a => timeFrame n.multi agg || a.active) comps b t = 0)
    (res : List (Row F)) (h : aggregate search n o (revenueF n d agg .all) comps = .ok res) (j : Nat)
    (hj : isFrame search n o (revenueF n d agg .all) comps = false → j = 0) (hj' : agg = .none → j ∈ d.time.sns) :
    total res j = 0 := by
  refine total_balanced search n o ho hr (by rw [hp]; rfl) hcar d agg comps hb _ d.price
    (fun c port p a t => signOf d c a * p a t * portPrice n d port a t) (fun _ _ _ => rfl) ?_ w hw hlab hbal res h j hj hj'
  intro c _ port p a t _
  unfold portPrice
  congr 1
  cases a.col ("bus" ++ port) with
  | none => rfl
  | some b => simp

end balance

/-! ## Selection by carrier -/

/-- A carrier that a string stands for: itself if it is among the given carriers, otherwise all that match it. -/
def standsFor (known : List String) (p x : String) : Prop := (p ∈ known ∧ x = p) ∨ (p ∉ known ∧ search p x = true)

omit [Field F] in
theorem holds_str (known : List String) (p x : String) : (Sel.str p).holds search known x = true ↔ standsFor search known p x := by
  unfold Sel.holds standsFor
  by_cases h : p ∈ known <;> simp [h]

/-- C93: which assets count at a port, for a class with carriers: those in service (unless the values are a table),
at a bus with one of the carriers of buses, with one of the carriers; a list gives exact names. -/
theorem selected_partial (n : Net) (o : Opts F) (fr : Bool) (c : Comp) (port : String) (a : Asset)
    (hc : "carrier" ∈ c.cols) (lb lc : List String) (hb : o.busCarrier = .list lb) (hl : o.carrier = .list lc) :
    a ∈ selected search n o fr c port ↔ a ∈ c.assets ∧ (fr = true ∨ a.active = true) ∧
      (∃ b x, a.col ("bus" ++ port) = some b ∧ b ∈ n.buses ∧ n.busCol "carrier" b = some x ∧ x ∈ lb) ∧
      (a.col "carrier").getD "" ∈ lc := by
  have hb' : busOk search n port o.busCarrier a = true ↔
      ∃ b x, a.col ("bus" ++ port) = some b ∧ b ∈ n.buses ∧ n.busCol "carrier" b = some x ∧ x ∈ lb := by
    rw [busOk_iff search n _ (by rw [hb]; simp), hb]
    cases a.col ("bus" ++ port) with
    | none => simp
    | some b =>
      simp only [chosenBus, Bool.and_eq_true, List.contains_iff_mem]
      cases hx : n.busCol "carrier" b with
      | none => simp [hx]
      | some x => simp [Sel.holds, hx]
  unfold selected carrierOk
  simp only [List.mem_filter, List.contains_iff_mem.mpr hc, if_true, hl, Sel.holds, List.contains_iff_mem, hb',
    Bool.or_eq_true]
  tauto

/-- C93: one string stands for one carrier in classes that have it, and for all that match it in others. -/
theorem selected_string_partial (n : Net) (o : Opts F) (fr : Bool) (c : Comp) (port : String) (a : Asset)
    (hc : "carrier" ∈ c.cols) (p : String) (hb : o.busCarrier = .all) (hl : o.carrier = .str p) :
    a ∈ selected search n o fr c port ↔ a ∈ c.assets ∧ (fr = true ∨ a.active = true) ∧
      standsFor search ((c.assets.filter (fun b => fr || b.active)).filterMap (·.col "carrier")) p ((a.col "carrier").getD "") := by
  unfold selected carrierOk
  have hall : ∀ a, busOk search n port o.busCarrier a = true := by intro a; rw [hb]; rfl
  simp only [List.mem_filter, List.contains_iff_mem.mpr hc, if_true, hl, holds_str, hall, List.filter_true,
    Bool.or_eq_true]
  tauto

/-- **Finding** (abstract.py 355-379): whether a string is an exact carrier is decided class by class.  With
`carrier="gas"` the generator `gas boiler` is left out, since there is a generator `gas`, but the link
`gas boiler` is counted. -/
theorem carrier_by_class : ∃ (n : Net) (o : Opts ℚ) (gens links : Comp) (a b : Asset),
    o.carrier = .str "gas" ∧ a.col "carrier" = some "gas boiler" ∧ b.col "carrier" = some "gas boiler" ∧
    a ∈ gens.assets ∧ b ∈ links.assets ∧
    (selected (fun p x => x.startsWith p) n o false gens "").map (·.name) = ["g"] ∧
    (selected (fun p x => x.startsWith p) n o false links "0").map (·.name) = ["b"] := by
  refine ⟨⟨["u"], fun _ _ => some "AC", id, none⟩,
    ⟨sumAgg, false, none, false, .flag false, .all, .str "gas", false, none, none⟩,
    ⟨"Generator", false, ["bus", "carrier"], [⟨"g", fun k => if k = "carrier" then some "gas" else some "u", true, fun _ => true⟩,
      ⟨"a", fun k => if k = "carrier" then some "gas boiler" else some "u", true, fun _ => true⟩]⟩,
    ⟨"Link", true, ["bus0", "bus1", "carrier"], [⟨"b", fun k => if k = "carrier" then some "gas boiler" else some "u", true, fun _ => true⟩]⟩,
    ⟨"a", fun k => if k = "carrier" then some "gas boiler" else some "u", true, fun _ => true⟩,
    ⟨"b", fun k => if k = "carrier" then some "gas boiler" else some "u", true, fun _ => true⟩,
    rfl, rfl, rfl, by simp, by simp, by decide +kernel, by decide +kernel⟩

/-! ## Combinations of tables -/

section tables
variable [LinearOrder F]

theorem find_key (rows : List (Row F)) (hn : (rows.map (·.1)).Nodup) (k : List String) (j : Nat) :
    valueAt rows k j = (cell rows k j).getD 0 := by
  induction rows with
  | nil => rfl
  | cons r rows ih =>
    rw [List.map_cons, List.nodup_cons] at hn
    rw [valueAt_cons, ih hn.2]
    unfold cell
    by_cases h : r.1 = k
    · have hk : rows.find? (fun r => decide (r.1 = k)) = none := by
        rw [List.find?_eq_none]
        intro x hx hx'
        exact hn.1 (by rw [h, ← (by simpa using hx' : x.1 = k)]; exact List.mem_map_of_mem hx)
      simp [h, hk]
    · simp [h]

theorem cell_none (rows : List (Row F)) (k : List String) (hk : k ∉ rows.map (·.1)) (j : Nat) : cell rows k j = none := by
  unfold cell
  have : rows.find? (fun r => decide (r.1 = k)) = none := by
    rw [List.find?_eq_none]
    intro x hx hx'
    exact hk (List.mem_map.mpr ⟨x, hx, by simpa using hx'⟩)
  rw [this]; rfl

theorem valueAt_combine (f : F → F → F) (hf : f 0 0 = 0) (a b : List (Row F)) (ha : (a.map (·.1)).Nodup)
    (hb : (b.map (·.1)).Nodup) (k : List String) (j : Nat) :
    valueAt (combine f a b) k j = f (valueAt a k j) (valueAt b k j) := by
  rw [find_key a ha, find_key b hb]
  unfold combine valueAt
  rw [filter_map_nodup _ (List.nodup_dedup _)]
  by_cases h : k ∈ (List.map (·.1) (a ++ b)).dedup
  · rw [if_pos h]
    cases hx : cell a k j <;> cases hy : cell b k j <;> simp [hf, hx, hy]
  · rw [if_neg h, List.mem_dedup, List.map_append, List.mem_append, not_or] at *
    rw [cell_none a k h.1, cell_none b k h.2]
    simp [hf]

theorem aggregate_nodup (n : Net) (o : Opts F) (func : Comp → String → Option (Vals F)) (comps : List Comp)
    (hc : (comps.map (·.cname)).Nodup) (h1 : o.one = true → comps.length ≤ 1) (res : List (Row F))
    (h : aggregate search n o func comps = .ok res) : (res.map (·.1)).Nodup := by
  unfold aggregate at h
  split at h
  · simp at h
  · obtain rfl := Except.ok.inj h
    unfold applyAcross
    split
    · rw [regroup_keys]; exact List.nodup_dedup _
    · exact (applyDrop_sublist o _ _).nodup (by rw [applyRound_keys]; exact concatData_nodup search n o func comps hc h1)

/-- C76: the capital expenditure is that of installed capacities plus that of expanded ones, group by group, with all
options. -/
theorem capex_split (n : Net) (o : Opts F) (d : Data F) (comps : List Comp) (hc : (comps.map (·.cname)).Nodup)
    (h1 : o.one = true → comps.length ≤ 1) (capex installed : List (Row F))
    (ha : aggregate search n o (capexF d "_opt") comps = .ok capex)
    (hb : aggregate search n o (capexF d "") comps = .ok installed) (k : List String) (j : Nat) :
    valueAt capex k j = valueAt installed k j + valueAt (expandedCapex capex installed) k j := by
  unfold expandedCapex
  rw [valueAt_combine (· - ·) (sub_zero _) capex installed (aggregate_nodup search n o _ comps hc h1 _ ha)
    (aggregate_nodup search n o _ comps hc h1 _ hb)]
  ring

/-- C76: the system cost is the capital expenditure plus the operational expenditure, group by group, with all options. -/
theorem systemCost_value (n : Net) (o o' : Opts F) (f g : Comp → String → Option (Vals F)) (comps : List Comp)
    (hc : (comps.map (·.cname)).Nodup) (h1 : o.one = true → comps.length ≤ 1) (h2 : o'.one = true → comps.length ≤ 1)
    (capex opex : List (Row F)) (ha : aggregate search n o f comps = .ok capex) (hb : aggregate search n o' g comps = .ok opex)
    (k : List String) (j : Nat) : valueAt (systemCost capex opex) k j = valueAt capex k j + valueAt opex k j := by
  unfold systemCost
  exact valueAt_combine (· + ·) (add_zero _) capex opex (aggregate_nodup search n o _ comps hc h1 _ ha)
    (aggregate_nodup search n o' _ comps hc h2 _ hb) k j

/-- No missing values. -/
def Full (rows : List (Row F)) (j : Nat) : Prop := ∀ r ∈ rows, (r.2 j).isSome = true

omit [LinearOrder F] in
theorem full_regroup (rows : List (Row F)) (j : Nat) : Full (regroup sumAgg rows) j := by
  intro r hr
  obtain ⟨k, _, rfl⟩ := List.mem_map.mp hr
  rfl

theorem aggregate_full (n : Net) (o : Opts F) (ho : o.agg = sumAgg) (func : Comp → String → Option (Vals F)) (comps : List Comp)
    (hv : ∀ c ∈ comps, ∀ port, ∀ r ∈ (portVals search n o func c port).rows, (r.2 0).isSome = true)
    (hf : isFrame search n o func comps = false) (res : List (Row F))
    (h : aggregate search n o func comps = .ok res) : Full res 0 := by
  have h1 : ∀ c ∈ comps, ∀ port, Full (portRows search n o func c port) 0 := by
    intro c hc port
    unfold portRows
    cases o.groupby with
    | none =>
      intro r hr
      obtain ⟨x, hx, rfl⟩ := List.mem_map.mp hr
      exact hv c hc port x hx
    | some gs => simp only [ho]; exact full_regroup _ 0
  have h2 : ∀ c ∈ comps, Full (compRows search n o func c) 0 := by
    intro c hc
    unfold compRows concatValues
    split
    · intro r hr
      obtain ⟨port, _, hr'⟩ := List.mem_flatMap.mp hr
      exact h1 c hc port r hr'
    · rw [ho]; exact full_regroup _ 0
  have h3 : Full (concatData search n o func comps) 0 := by
    intro r hr
    obtain ⟨c, hc, hr'⟩ := List.mem_flatMap.mp hr
    obtain ⟨x, hx, rfl⟩ := List.mem_map.mp hr'
    exact h2 c hc x hx
  have h4 : Full (applyRound o (concatData search n o func comps)) 0 := by
    unfold applyRound
    split
    · exact h3
    · intro r hr
      obtain ⟨x, hx, rfl⟩ := List.mem_map.mp hr
      simpa using h3 x hx
  unfold aggregate at h
  split at h
  · simp at h
  · obtain rfl := Except.ok.inj h
    unfold applyAcross
    split
    · rw [ho]; exact full_regroup _ 0
    · unfold applyDrop
      split
      · exact h4
      · rw [hf]
        intro r hr
        exact h4 r (List.mem_filter.mp hr).1

theorem reindexed_value (rows : List (Row F)) (hn : (rows.map (·.1)).Nodup) (hf : Full rows 0) (k : List String) :
    reindexed rows k 0 = some (valueAt rows k 0) := by
  rw [find_key rows hn]
  unfold reindexed cell
  cases h : rows.find? (fun r => decide (r.1 = k)) with
  | none => rfl
  | some r =>
    have := hf r (List.mem_of_find?_eq_some h)
    obtain ⟨x, hx⟩ := Option.isSome_iff_exists.mp this
    simp [hx]

/-- Static values are no frame in a network without investment periods. -/
theorem isFrame_static (n : Net) (o : Opts F) (func : Comp → String → Option (Vals F)) (comps : List Comp) (hm : n.multi = none)
    (hs : ∀ c port v, func c port = some v → v.frame = false) : isFrame search n o func comps = false := by
  unfold isFrame
  rw [List.any_eq_false]
  intro c _ h
  obtain ⟨port, _, hp⟩ := List.any_eq_true.mp h
  unfold portVals at hp
  cases hf : func c port with
  | none => rw [hf] at hp; simp at hp
  | some v =>
    rw [hf] at hp
    simp only [filterActive, hs c port v hf, hm] at hp
    simp [hs c port v hf] at hp

theorem capacityF_static (d : Data F) (sfx : String) (ports : Bool) (c : Comp) (port : String) (v : Vals F)
    (h : capacityF d sfx ports c port = some v) : ∃ x : Asset → F, v = static c x := by
  unfold capacityF at h
  split at h
  · simp at h
  · obtain ⟨y, _, rfl⟩ := Option.map_eq_some_iff.mp h
    exact ⟨_, rfl⟩

theorem capacity_full (n : Net) (o : Opts F) (d : Data F) (sfx : String) (ports : Bool) (c : Comp) (port : String) (hm : n.multi = none) :
    ∀ r ∈ (portVals search n o (capacityF d sfx ports) c port).rows, (r.2 0).isSome = true := by
  intro r hr
  cases hf : capacityF d sfx ports c port with
  | none => unfold portVals at hr; rw [hf] at hr; simp at hr
  | some v =>
    obtain ⟨x, rfl⟩ := capacityF_static d sfx ports c port v hf
    rw [portVals_of search n o _ c port false (fun a _ => some (x a)) hf (.inl hm)] at hr
    obtain ⟨a, _, rfl⟩ := List.mem_map.mp hr
    rfl

/-- C76: without investment periods the expanded capacity of a group is the growth from installed to optimal capacity
where the capacity grew, and zero where it did not. -/
theorem expanded_capacity_partial (n : Net) (hm : n.multi = none) (o : Opts F) (ho : o.agg = sumAgg) (d : Data F) (comps : List Comp)
    (hc : (comps.map (·.cname)).Nodup) (h1 : o.one = true → comps.length ≤ 1) (ports : Bool) (optimal installed : List (Row F))
    (ha : aggregate search n o (capacityF d "_opt" ports) comps = .ok optimal)
    (hb : aggregate search n o (capacityF d "" ports) comps = .ok installed) (k : List String) (hk : k ∈ optimal.map (·.1)) :
    valueAt (expandedCapacity optimal installed) k 0 =
      if |valueAt installed k 0| < |valueAt optimal k 0| then valueAt optimal k 0 - valueAt installed k 0 else 0 := by
  have hst : ∀ sfx c port v, capacityF d sfx ports c port = some v → v.frame = false := by
    intro sfx c port v hv
    obtain ⟨x, rfl⟩ := capacityF_static d sfx ports c port v hv
    rfl
  have fa := aggregate_full search n o ho _ comps (fun c _ port => capacity_full search n o d "_opt" ports c port hm)
    (isFrame_static search n o _ comps hm (hst "_opt")) optimal ha
  have fb := aggregate_full search n o ho _ comps (fun c _ port => capacity_full search n o d "" ports c port hm)
    (isFrame_static search n o _ comps hm (hst "")) installed hb
  have na := aggregate_nodup search n o _ comps hc h1 _ ha
  have nb := aggregate_nodup search n o _ comps hc h1 _ hb
  have ne : ((expandedCapacity optimal installed).map (·.1)).Nodup := by
    unfold expandedCapacity; rw [List.map_map]; exact na
  obtain ⟨r, hr, rfl⟩ := List.mem_map.mp hk
  have hfind : ∀ (l : List (Row F)), (l.map (·.1)).Nodup → ∀ x ∈ l, valueAt l x.1 0 = (x.2 0).getD 0 := by
    intro l hl x hx
    induction l with
    | nil => simp at hx
    | cons y l ih =>
      rw [List.map_cons, List.nodup_cons] at hl
      rw [valueAt_cons]
      rcases List.mem_cons.mp hx with rfl | hx
      · have : valueAt l x.1 0 = 0 := by
          by_contra h0
          exact hl.1 (mem_keys_of_valueAt l _ 0 h0)
        simp [this]
      · have : y.1 ≠ x.1 := fun e => hl.1 (e ▸ List.mem_map_of_mem hx)
        rw [if_neg this, zero_add, ih hl.2 hx]
  have he : (r.1, fun j => grown (r.2 j) (reindexed installed r.1 j)) ∈ expandedCapacity optimal installed :=
    List.mem_map.mpr ⟨r, hr, rfl⟩
  rw [hfind _ ne _ he, hfind _ na r hr]
  simp only
  rw [reindexed_value installed nb fb]
  obtain ⟨x, hx⟩ := Option.isSome_iff_exists.mp (fa r hr)
  rw [hx]
  simp only [grown, Option.getD_some]
  split <;> simp

end tables

/-! ## Capacity factors and curtailment -/

section factors
variable [LinearOrder F] [IsStrictOrderedRing F]

omit [IsStrictOrderedRing F] in
theorem key_of_result (n : Net) (o : Opts F) (h1 : o.one = false) (ha : o.across = false)
    (func : Comp → String → Option (Vals F)) (comps : List Comp) (res : List (Row F))
    (h : aggregate search n o func comps = .ok res) (r : Row F) (hr : r ∈ res) :
    ∃ c ∈ comps, ∃ l, r.1 = c.cname :: l := by
  have hk : r.1 ∈ (concatData search n o func comps).map (·.1) := by
    unfold aggregate at h
    split at h
    · simp at h
    · obtain rfl := Except.ok.inj h
      unfold applyAcross at hr
      simp only [ha, Bool.false_eq_true, if_false] at hr
      have := (applyDrop_sublist o (isFrame search n o func comps) (applyRound o (concatData search n o func comps))).subset
        (List.mem_map_of_mem (f := (·.1)) hr)
      rwa [applyRound_keys] at this
  obtain ⟨x, hx, he⟩ := List.mem_map.mp hk
  obtain ⟨c, hc, hx'⟩ := List.mem_flatMap.mp hx
  obtain ⟨y, _, rfl⟩ := List.mem_map.mp hx'
  exact ⟨c, hc, y.1, by rw [← he]; simp [h1]⟩

omit [IsStrictOrderedRing F] in
theorem value_of_mem (l : List (Row F)) (hl : (l.map (·.1)).Nodup) (x : Row F) (hx : x ∈ l) (j : Nat) :
    valueAt l x.1 j = (x.2 j).getD 0 := by
  induction l with
  | nil => simp at hx
  | cons y l ih =>
    rw [List.map_cons, List.nodup_cons] at hl
    rw [valueAt_cons]
    rcases List.mem_cons.mp hx with rfl | hx
    · have : valueAt l x.1 j = 0 := by
        by_contra h0
        exact hl.1 (mem_keys_of_valueAt l _ j h0)
      simp [this]
    · have : y.1 ≠ x.1 := fun e => hl.1 (e ▸ List.mem_map_of_mem hx)
      rw [if_neg this, zero_add, ih hl.2 hx]

theorem list_sum_le {α : Type} (l : List α) (f g : α → F) (h : ∀ x ∈ l, f x ≤ g x) : (l.map f).sum ≤ (l.map g).sum := by
  induction l with
  | nil => simp
  | cons x l ih =>
    rw [List.map_cons, List.map_cons, List.sum_cons, List.sum_cons]
    exact add_le_add (h x (by simp)) (ih (fun y hy => h y (by simp [hy])))

/-- Use and capacity of a group at a port. -/
theorem usage_le (n : Net) (hm : n.multi = none) (o : Opts F) (d : Data F) (c : Comp) (port : String) (hp : port = "" ∨ port = "0")
    (hw : ∀ t ∈ d.time.sns, 0 ≤ weights d c t) (hpos : 0 < (d.time.sns.map (weights d c)).sum)
    (p : Asset → Nat → F) (x : Asset → F) (hpc : operation d c = some p) (attr : String) (hn : nominal c = some attr)
    (hx : d.num c (attr ++ "_opt") = some x) (hle : ∀ a ∈ c.assets, ∀ t ∈ d.time.sns, |p a t| ≤ x a)
    (l : List String) :
    ((portVals search n o (usageF n d .mean) c port).rows.map (fun r => if groupOf n o c port r.1 = some l then (r.2 0).getD 0 else 0)).sum ≤
      ((portVals search n o (capacityF d "_opt" false) c port).rows.map (fun r =>
        if groupOf n o c port r.1 = some l then (r.2 0).getD 0 else 0)).sum := by
  rw [portVals_of search n o (usageF n d .mean) c port false
    (fun a j => some (timeAgg d.time n.multi .mean (weights d c) (fun t => |p a t|) j))
    (by unfold usageF series; rw [hpc, hm]; rfl) (.inl hm),
    portVals_of search n o (capacityF d "_opt" false) c port false
    (fun a j => some (x a * |efficiency d c port a|))
    (by unfold capacityF static; rw [hn]; simp [hx]) (.inl hm)]
  simp only [List.map_map, Function.comp_def, Option.getD_some]
  apply list_sum_le
  intro a ha
  have ham : a ∈ c.assets := by
    unfold selected at ha
    exact (List.mem_filter.mp (List.mem_filter.mp (List.mem_filter.mp ha).1).1).1
  have he : |efficiency d c port a| = 1 := by
    unfold efficiency
    rcases hp with rfl | rfl <;> simp
  rw [he, mul_one]
  split
  · exact ((mean_weighted d.time n.multi (weights d c) (fun t => |p a t|) 0 hw (by rw [hm]; exact hpos)).2.1 0 (x a)
      (fun t ht => ⟨abs_nonneg _, hle a ham t ((part_spec d.time n.multi 0 t).mp ht).1⟩)).2
  · exact le_refl _

theorem usage_nonneg (n : Net) (o : Opts F) (d : Data F) (agg : TimeAgg) (c : Comp)
    (hw : ∀ t ∈ d.time.sns, 0 ≤ weights d c t) (l : List String) (j : Nat) :
    0 ≤ compValue search n o (usageF n d agg) c l j := by
  rw [compValue_series search n o d agg (usageF n d agg) c (fun _ => operation d c) (fun _ p a t => |p a t|) (fun _ => rfl) l j]
  apply list_sum_nonneg
  intro x hx
  obtain ⟨port, _, rfl⟩ := List.mem_map.mp hx
  cases operation d c with
  | none => exact le_refl _
  | some p =>
    simp only
    apply list_sum_nonneg
    intro y hy
    obtain ⟨a, _, rfl⟩ := List.mem_map.mp hy
    split
    · exact timeAgg_nonneg _ _ _ _ _ _ hw (fun t => abs_nonneg _)
    · exact le_refl _

/-- The series compared with the capacity: power, energy of stores, power at the first port of branches. -/
def outputName (c : Comp) : String := if c.branch then "p0" else if c.cname = "Store" then "e" else "p"

theorem operation_eq (d : Data F) (c : Comp) : operation d c = d.table c (outputName c) := by
  unfold operation outputName
  split
  · rfl
  · split <;> rfl

/-- C94: without investment periods, if no asset is used beyond its capacity, every capacity factor lies between 0 and 1. -/
theorem capacity_factor_range (n : Net) (hm : n.multi = none) (o : Opts F) (ho : o.agg = sumAgg) (h1 : o.one = false)
    (ha : o.across = false) (hr : o.round = none) (hpt : o.atPort.truthy = false) (d : Data F) (comps : List Comp)
    (hc : (comps.map (·.cname)).Nodup) (hp : ∀ c ∈ comps, ∀ port ∈ c.ports.take 1, port = "" ∨ port = "0")
    (hw : ∀ c ∈ comps, ∀ t ∈ d.time.sns, 0 ≤ weights d c t) (hpos : ∀ c ∈ comps, 0 < (d.time.sns.map (weights d c)).sum)
    (hle : ∀ c ∈ comps, ∀ p attr x, d.table c (outputName c) = some p → nominal c = some attr → d.num c (attr ++ "_opt") = some x →
      ∀ a ∈ c.assets, ∀ t ∈ d.time.sns, |p a t| ≤ x a)
    (usage capacity : List (Row F)) (hu : aggregate search n o (usageF n d .mean) comps = .ok usage)
    (hcap : aggregate search n o (capacityF d "_opt" false) comps = .ok capacity)
    (r : Row F) (hrm : r ∈ capacityFactor usage capacity) (v : F) (hv : r.2 0 = some v) : 0 ≤ v ∧ v ≤ 1 := by
  have nu := aggregate_nodup search n o _ comps hc (by simp [h1]) _ hu
  have nc := aggregate_nodup search n o _ comps hc (by simp [h1]) _ hcap
  obtain ⟨u, hum, rfl⟩ := List.mem_map.mp hrm
  obtain ⟨c, hcm, l, hk⟩ := key_of_result search n o h1 ha _ comps usage hu u hum
  simp only at hv
  have h0 : ∀ f, o.round = some f → f 0 = 0 := by simp [hr]
  have vu := (group_value search n o ho h1 ha h0 _ comps hc usage hu).2 c hcm l 0 (fun _ => rfl)
  have vc := (group_value search n o ho h1 ha h0 _ comps hc capacity hcap).2 c hcm l 0 (fun _ => rfl)
  rw [← hk, value_of_mem usage nu u hum, hr] at vu
  rw [← hk, find_key capacity nc, hr] at vc
  simp only [Option.getD_none, id] at vu vc
  cases hx : u.2 0 with
  | none => rw [hx] at hv; simp [quotient] at hv
  | some x =>
    cases hy : cell capacity u.1 0 with
    | none => rw [hx, hy] at hv; simp [quotient] at hv
    | some y =>
      rw [hx, hy] at hv
      rw [hx] at vu
      rw [hy] at vc
      simp only [Option.getD_some] at vu vc
      unfold quotient at hv
      simp only at hv
      split at hv
      · simp at hv
      · next hy0 =>
        obtain rfl := Option.some.inj hv
        have hx0 : 0 ≤ x := by rw [vu]; exact usage_nonneg search n o d .mean c (hw c hcm) l 0
        -- no capacity without a nominal attribute
        have hxy : operation d c = none ∨ x ≤ y := by
          cases hop : operation d c with
          | none => exact .inl rfl
          | some p =>
            right
            cases hn : nominal c with
            | none =>
              exfalso; apply hy0; rw [vc]; unfold compValue
              apply sum_map_zero; intro port _
              have : capacityF d "_opt" false c port = none := by unfold capacityF; rw [hn]
              unfold portVals; rw [this]; rfl
            | some attr =>
              cases hnum : d.num c (attr ++ "_opt") with
              | none =>
                exfalso; apply hy0; rw [vc]; unfold compValue
                apply sum_map_zero; intro port _
                have : capacityF d "_opt" false c port = none := by unfold capacityF; simp [hn, hnum]
                unfold portVals; rw [this]; rfl
              | some z =>
                rw [vu, vc]
                unfold compValue
                have hup : usedPorts o.atPort c = c.ports.take 1 := by unfold usedPorts; rw [hpt]; rfl
                rw [hup]
                apply list_sum_le
                intro port hport
                exact usage_le search n hm o d c port (hp c hcm port hport) (hw c hcm) (hpos c hcm) p z hop attr hn hnum
                  (hle c hcm p attr z (operation_eq d c ▸ hop) hn hnum) l
        rcases hxy with hop | hxy
        · have : x = 0 := by
            rw [vu, compValue_series search n o d .mean (usageF n d .mean) c (fun _ => operation d c) (fun _ p a t => |p a t|)
              (fun _ => rfl) l 0]
            apply sum_map_zero; intro port _; rw [hop]
          rw [this, zero_div]; exact ⟨le_refl _, zero_le_one⟩
        · have hy1 : 0 < y := lt_of_le_of_ne (le_trans hx0 hxy) (Ne.symm hy0)
          exact ⟨div_nonneg hx0 hy1.le, (div_le_one hy1).mpr hxy⟩

/-- Share of the capacity that appears at a port: it is taken at the first port of a branch and delivered with the efficiency of
that port at the others. -/
def portShare (d : Data F) (c : Comp) (port : String) (a : Asset) : F :=
  let col (k : String) : F := ((d.num c k).map (fun e => e a)).getD 1
  if port = "" then 1 else if port = "0" then -1 else if port = "1" then col "efficiency" else col ("efficiency" ++ port)

/-- C94: without investment periods, the capacity of a group is the sum over ports and assets of the capacity
times the share of the port, with the sign only if ports are asked for. -/
theorem capacity_value (n : Net) (hm : n.multi = none) (o : Opts F) (ho : o.agg = sumAgg) (h1 : o.one = false) (ha : o.across = false)
    (hr : o.round = none) (d : Data F) (sfx : String) (ports : Bool) (comps : List Comp) (hc : (comps.map (·.cname)).Nodup)
    (res : List (Row F)) (h : aggregate search n o (capacityF d sfx ports) comps = .ok res) (c : Comp) (hcm : c ∈ comps)
    (attr : String) (hn : nominal c = some attr) (x : Asset → F) (hx : d.num c (attr ++ sfx) = some x) (l : List String) :
    valueAt res (c.cname :: l) 0 = ((usedPorts o.atPort c).map (fun port =>
      ((selected search n o false c port).map (fun a => if groupOf n o c port a = some l then
        x a * (if ports then portShare d c port a else |portShare d c port a|) else 0)).sum)).sum := by
  have hv := (group_value search n o ho h1 ha (by simp [hr]) _ comps hc res h).2 c hcm l 0 (fun _ => rfl)
  rw [hr] at hv
  simp only [Option.getD_none, id] at hv
  rw [hv]
  unfold compValue
  congr 1; apply List.map_congr_left; intro port _
  have he : ∀ a, efficiency d c port a = portShare d c port a := by
    intro a
    unfold efficiency portShare
    by_cases h0 : port = ""
    · simp [h0]
    · by_cases h1 : port = "0"
      · simp [h1]
      · by_cases h2 : port = "1"
        · subst h2; cases hq : d.num c "efficiency" <;> simp [hq]
        · cases hq : d.num c ("efficiency" ++ port) <;> simp [h0, h1, h2, hq]
  rw [portVals_of search n o (capacityF d sfx ports) c port false
    (fun a _ => some (x a * if ports then efficiency d c port a else |efficiency d c port a|))
    (by unfold capacityF static; rw [hn]; simp [hx]) (.inl hm)]
  simp only [List.map_map, Function.comp_def, Option.getD_some, he]

/-- C95: if no asset is dispatched beyond what is available, the curtailment of a group is what is available less what
is dispatched. -/
theorem curtailment_value (n : Net) (o : Opts F) (ho : o.agg = sumAgg) (h1 : o.one = false) (ha : o.across = false)
    (hr : o.round = none) (d : Data F) (agg : TimeAgg) (comps : List Comp) (hc : (comps.map (·.cname)).Nodup)
    (cur : List (Row F)) (h : aggregate search n o (curtailmentF n d agg) comps = .ok cur) (c : Comp) (hcm : c ∈ comps)
    (m p : Asset → Nat → F) (nom : Asset → F) (hmx : d.table c "p_max_pu" = some m) (hnom : d.num c "p_nom_opt" = some nom)
    (hp : d.table c "p" = some p) (hle : ∀ a ∈ c.assets, ∀ t, p a t ≤ m a t * nom a) (l : List String) (j : Nat)
    (hj : isFrame search n o (curtailmentF n d agg) comps = false → j = 0) :
    valueAt cur (c.cname :: l) j = ((usedPorts o.atPort c).map (fun port =>
      ((selected search n o (timeFrame n.multi agg) c port).map (fun a => if groupOf n o c port a = some l then
        timeAgg d.time n.multi agg (weights d c) (fun t => m a t * nom a) j -
          timeAgg d.time n.multi agg (weights d c) (p a) j else 0)).sum)).sum := by
  have hv := (group_value search n o ho h1 ha (by simp [hr]) _ comps hc cur h).2 c hcm l j hj
  rw [hr] at hv
  simp only [Option.getD_none, id] at hv
  rw [hv, compValue_series search n o d agg (curtailmentF n d agg) c (fun _ => some p)
    (fun _ p a t => max (m a t * nom a - p a t) 0) (fun port => by unfold curtailmentF; rw [hmx, hnom, hp]; rfl) l j]
  congr 1; apply List.map_congr_left; intro port _
  simp only
  congr 1; apply List.map_congr_left; intro a hma
  have ham : a ∈ c.assets := by
    unfold selected at hma
    exact (List.mem_filter.mp (List.mem_filter.mp (List.mem_filter.mp hma).1).1).1
  split
  · rw [← timeAgg_sub]
    congr 1; funext t
    exact max_eq_left (sub_nonneg.mpr (hle a ham t))
  · rfl

/-- C95: curtailment is not negative. -/
theorem curtailment_nonneg (n : Net) (o : Opts F) (ho : o.agg = sumAgg) (h1 : o.one = false) (ha : o.across = false)
    (hr : o.round = none) (d : Data F) (agg : TimeAgg) (comps : List Comp) (hc : (comps.map (·.cname)).Nodup)
    (cur : List (Row F)) (h : aggregate search n o (curtailmentF n d agg) comps = .ok cur) (c : Comp) (hcm : c ∈ comps)
    (hw : ∀ t ∈ d.time.sns, 0 ≤ weights d c t) (l : List String) (j : Nat)
    (hj : isFrame search n o (curtailmentF n d agg) comps = false → j = 0) : 0 ≤ valueAt cur (c.cname :: l) j := by
  have hv := (group_value search n o ho h1 ha (by simp [hr]) _ comps hc cur h).2 c hcm l j hj
  rw [hr] at hv
  simp only [Option.getD_none, id] at hv
  rw [hv, compValue_series search n o d agg (curtailmentF n d agg) c
    (fun _ => match d.table c "p_max_pu", d.num c "p_nom_opt", d.table c "p" with
      | some m, some nom, some p => some (fun a t => max (m a t * nom a - p a t) 0)
      | _, _, _ => none) (fun _ p => p)
    (fun port => by
      unfold curtailmentF
      cases d.table c "p_max_pu" <;> cases d.num c "p_nom_opt" <;> cases d.table c "p" <;> rfl) l j]
  apply list_sum_nonneg
  intro x hx
  obtain ⟨port, _, rfl⟩ := List.mem_map.mp hx
  beta_reduce
  cases d.table c "p_max_pu" <;> cases d.num c "p_nom_opt" <;> cases d.table c "p" <;> try exact le_refl _
  simp only
  apply list_sum_nonneg
  intro y hy
  obtain ⟨a, _, rfl⟩ := List.mem_map.mp hy
  split
  · exact timeAgg_nonneg _ _ _ _ _ _ hw (fun t => le_max_right _ _)
  · exact le_refl _

end factors

/-! ## Market value -/

section market
variable [LinearOrder F] [IsStrictOrderedRing F]

/-- All assets of a class only inject, at known buses with prices between two bounds. -/
def Injects (n : Net) (d : Data F) (c : Comp) (lo hi : F) : Prop :=
  ∀ port ∈ c.ports, ∀ p, d.table c ("p" ++ port) = some p → ∀ a ∈ c.assets, ∀ t ∈ d.time.sns,
    0 ≤ (if c.branch then - p a t else d.sign a * p a t) ∧
    ∃ b ∈ n.buses, a.col ("bus" ++ port) = some b ∧ lo ≤ d.price b t ∧ d.price b t ≤ hi

theorem timeAgg_le (T : Time F) (multi : Option Nat) (agg : TimeAgg) (hagg : agg ≠ .none) (w f g : Nat → F) (j : Nat)
    (hw : ∀ t ∈ T.sns, 0 ≤ w t) (h : ∀ t ∈ T.sns, f t ≤ g t) : timeAgg T multi agg w f j ≤ timeAgg T multi agg w g j := by
  have hsub : ∀ t ∈ T.part multi j, t ∈ T.sns := fun t ht => ((part_spec T multi j t).mp ht).1
  cases agg with
  | none => exact absurd rfl hagg
  | sum => exact list_sum_le _ _ _ (fun t ht => mul_le_mul_of_nonneg_left (h t (hsub t ht)) (hw t (hsub t ht)))
  | mean =>
    refine list_sum_le _ _ _ (fun t ht => mul_le_mul_of_nonneg_left (h t (hsub t ht)) ?_)
    unfold normed
    exact div_nonneg (hw t (hsub t ht)) (list_sum_nonneg _ (by
      intro x hx
      obtain ⟨u, hu, rfl⟩ := List.mem_map.mp hx
      exact hw u (hsub u hu)))

omit [LinearOrder F] [IsStrictOrderedRing F] in
theorem timeAgg_smul (T : Time F) (multi : Option Nat) (agg : TimeAgg) (w f : Nat → F) (k : F) (j : Nat) :
    k * timeAgg T multi agg w f j = timeAgg T multi agg w (fun t => k * f t) j := by
  cases agg with
  | none => rfl
  | sum =>
    unfold timeAgg weighted
    rw [mul_list_sum]; congr 1; apply List.map_congr_left; intro t _; ring
  | mean =>
    unfold timeAgg weighted
    rw [mul_list_sum]; congr 1; apply List.map_congr_left; intro t _; ring

/-- Revenue and supply of a group that only injects. -/
theorem revenue_supply (n : Net) (o : Opts F) (d : Data F) (agg : TimeAgg) (hagg : agg ≠ .none) (c : Comp)
    (hw : ∀ t ∈ d.time.sns, 0 ≤ weights d c t) (lo hi : F) (hin : Injects n d c lo hi) (l : List String) (j : Nat) :
    lo * compValue search n o (balanceF n d agg .supply) c l j ≤ compValue search n o (revenueF n d agg .all) c l j ∧
    compValue search n o (revenueF n d agg .all) c l j ≤ hi * compValue search n o (balanceF n d agg .supply) c l j := by
  rw [compValue_series search n o d agg (balanceF n d agg .supply) c (fun port => d.table c ("p" ++ port))
      (fun _ p a t => Dir.supply.clip (signOf d c a * p a t)) (fun _ => rfl) l j,
    compValue_series search n o d agg (revenueF n d agg .all) c (fun port => d.table c ("p" ++ port))
      (fun port p a t => RevDir.all.clip (signOf d c a * p a t) * portPrice n d port a t) (fun _ => rfl) l j]
  have key : ∀ port ∈ c.ports, ∀ p, d.table c ("p" ++ port) = some p → ∀ a ∈ c.assets, ∀ t ∈ d.time.sns,
      lo * Dir.supply.clip (signOf d c a * p a t) ≤ RevDir.all.clip (signOf d c a * p a t) * portPrice n d port a t ∧
      RevDir.all.clip (signOf d c a * p a t) * portPrice n d port a t ≤ hi * Dir.supply.clip (signOf d c a * p a t) := by
    intro port hport p hp a ha t ht
    obtain ⟨h0, b, hb, hcol, hlo, hhi⟩ := hin port hport p hp a ha t ht
    have hs : signOf d c a * p a t = if c.branch then - p a t else d.sign a * p a t := by
      unfold signOf; cases c.branch <;> simp
    rw [← hs] at h0
    have hpr : portPrice n d port a t = d.price b t := by
      unfold portPrice; rw [hcol]; simp only; rw [if_pos (List.contains_iff_mem.mpr hb)]
    unfold Dir.clip RevDir.clip
    simp only [max_eq_left h0, hpr]
    constructor
    · rw [mul_comm]; exact mul_le_mul_of_nonneg_left hlo h0
    · rw [mul_comm hi]; exact mul_le_mul_of_nonneg_left hhi h0
  have hports : ∀ port ∈ usedPorts o.atPort c, port ∈ c.ports := by
    intro port hp
    unfold usedPorts at hp
    split at hp
    · exact hp
    · exact List.mem_of_mem_take hp
  have hsel : ∀ port, ∀ a ∈ selected search n o (timeFrame n.multi agg) c port, a ∈ c.assets := by
    intro port a ha
    unfold selected at ha
    exact (List.mem_filter.mp (List.mem_filter.mp (List.mem_filter.mp ha).1).1).1
  constructor
  · rw [mul_list_sum]
    apply list_sum_le
    intro port hport
    cases hp : d.table c ("p" ++ port) with
    | none => simp
    | some p =>
      simp only
      rw [mul_list_sum]
      apply list_sum_le
      intro a ha
      split
      · rw [timeAgg_smul]
        exact timeAgg_le _ _ _ hagg _ _ _ _ hw (fun t ht => (key port (hports port hport) p hp a (hsel port a ha) t ht).1)
      · simp
  · rw [mul_list_sum]
    apply list_sum_le
    intro port hport
    cases hp : d.table c ("p" ++ port) with
    | none => simp
    | some p =>
      simp only
      rw [mul_list_sum]
      apply list_sum_le
      intro a ha
      split
      · rw [timeAgg_smul]
        exact timeAgg_le _ _ _ hagg _ _ _ _ hw (fun t ht => (key port (hports port hport) p hp a (hsel port a ha) t ht).2)
      · simp

/-- C98: the market value of a group that only injects lies between the lowest and the highest price it gets. -/
theorem market_value_range (n : Net) (o : Opts F) (ho : o.agg = sumAgg) (h1 : o.one = false) (ha : o.across = false)
    (hr : o.round = none) (d : Data F) (agg : TimeAgg) (hagg : agg ≠ .none) (comps : List Comp) (hc : (comps.map (·.cname)).Nodup)
    (rev sup : List (Row F)) (hrev : aggregate search n o (revenueF n d agg .all) comps = .ok rev)
    (hsup : aggregate search n o (balanceF n d agg .supply) comps = .ok sup) (c : Comp) (hcm : c ∈ comps)
    (hw : ∀ c ∈ comps, ∀ t ∈ d.time.sns, 0 ≤ weights d c t) (lo hi : F) (hin : Injects n d c lo hi) (l : List String) (j : Nat)
    (hj : isFrame search n o (revenueF n d agg .all) comps = false ∨ isFrame search n o (balanceF n d agg .supply) comps = false → j = 0)
    (r : Row F) (hrm : r ∈ marketValue rev sup) (hk : r.1 = c.cname :: l) (v : F) (hv : r.2 j = some v) : lo ≤ v ∧ v ≤ hi := by
  have nr := aggregate_nodup search n o _ comps hc (by simp [h1]) _ hrev
  have ns := aggregate_nodup search n o _ comps hc (by simp [h1]) _ hsup
  have h0 : ∀ f, o.round = some f → f 0 = 0 := by simp [hr]
  have vr := (group_value search n o ho h1 ha h0 _ comps hc rev hrev).2 c hcm l j (fun h => hj (.inl h))
  have vs := (group_value search n o ho h1 ha h0 _ comps hc sup hsup).2 c hcm l j (fun h => hj (.inr h))
  rw [hr] at vr vs
  simp only [Option.getD_none, id] at vr vs
  rw [find_key rev nr] at vr
  rw [find_key sup ns] at vs
  obtain ⟨k, -, rfl⟩ := List.mem_map.mp hrm
  simp only at hk hv
  subst hk
  have hs0 : 0 ≤ compValue search n o (balanceF n d agg .supply) c l j := by
    rw [compValue_series search n o d agg (balanceF n d agg .supply) c (fun port => d.table c ("p" ++ port))
      (fun _ p a t => Dir.supply.clip (signOf d c a * p a t)) (fun _ => rfl) l j]
    apply list_sum_nonneg
    intro x hx
    obtain ⟨port, -, rfl⟩ := List.mem_map.mp hx
    cases d.table c ("p" ++ port) with
    | none => exact le_refl _
    | some p =>
      apply list_sum_nonneg
      intro x hx
      obtain ⟨a, -, rfl⟩ := List.mem_map.mp hx
      split
      · exact timeAgg_nonneg _ _ _ _ _ _ (hw c hcm) (fun t => le_max_right _ _)
      · exact le_refl _
  obtain ⟨g1, g2⟩ := revenue_supply search n o d agg hagg c (hw c hcm) lo hi hin l j
  cases hx : cell rev (c.cname :: l) j with
  | none => rw [hx] at hv; simp [quotient] at hv
  | some x =>
    cases hy : cell sup (c.cname :: l) j with
    | none => rw [hx, hy] at hv; simp [quotient] at hv
    | some y =>
      rw [hx, hy] at hv
      rw [hx] at vr; rw [hy] at vs
      simp only [Option.getD_some] at vr vs
      unfold quotient at hv
      simp only at hv
      split at hv
      · simp at hv
      · next hy0 =>
        obtain rfl := Option.some.inj hv
        rw [← vs] at hs0 g1 g2
        rw [← vr] at g1 g2
        have hy1 : 0 < y := lt_of_le_of_ne hs0 (Ne.symm hy0)
        exact ⟨(le_div_iff₀ hy1).mpr g1, (div_le_iff₀ hy1).mpr g2⟩

end market

/-! ## A small network -/

namespace Demo

/-- An asset at up to two buses. -/
def asset (name carrier b0 b1 : String) (active : Bool := true) : Asset :=
  ⟨name, fun k => if k = "carrier" then some carrier else if k = "bus1" then some b1 else some b0, active, fun _ => active⟩

def gen : Comp := ⟨"Generator", false, ["bus", "carrier"], [asset "g" "gas" "u" ""]⟩
def load : Comp := ⟨"Load", false, ["bus", "carrier"], [asset "l" "el" "v" "", asset "off" "el" "v" "" false]⟩
def line : Comp := ⟨"Line", true, ["bus0", "bus1", "carrier"], [asset "k" "AC" "u" "v"]⟩
def net : Net := ⟨["u", "v"], fun _ _ => some "AC", id, none⟩

/-- Generation of 5 at bus `u` for a load of 5 at bus `v`; a load of 3 is out of service. -/
def data (wGen wObj : ℚ) : Data ℚ :=
  { time := ⟨[0, 1], fun _ => 0⟩, wGen := fun _ => wGen, wSto := fun _ => 1, wObj := fun _ => wObj,
    sign := fun a => if a.name = "g" then 1 else -1,
    table := fun c k => if c.cname = "Generator" ∧ k = "p" then some (fun _ _ => 5)
      else if c.cname = "Generator" ∧ k = "p_max_pu" then some (fun _ t => if t = 0 then 1 else 3 / 4)
      else if c.cname = "Load" ∧ k = "p" then some (fun a _ => if a.name = "off" then 3 else 5)
      else if c.cname = "Line" ∧ k = "p0" then some (fun _ _ => 5)
      else if c.cname = "Line" ∧ k = "p1" then some (fun _ _ => -5) else none,
    num := fun c k => if c.cname = "Generator" ∧ k = "p_nom_opt" then some (fun _ => 8)
      else if c.cname = "Generator" ∧ k = "p_nom" then some (fun _ => 2)
      else if c.cname = "Generator" ∧ k = "capital_cost" then some (fun _ => 10)
      else if c.cname = "Line" ∧ (k = "s_nom_opt" ∨ k = "s_nom") then some (fun _ => 6) else none,
    price := fun b _ => if b = "u" then 10 else 20 }

def opts : Opts ℚ := ⟨sumAgg, false, some [.carrier, .busCarrier], false, .flag true, .str "AC", .all, false, none, none⟩

def comps : List Comp := [gen, load, line]

def noSearch (_ _ : String) : Bool := false

/-- Results as values at the first column. -/
def show_ (r : Except Unit (List (Row ℚ))) : Option (List (List String × Option ℚ)) :=
  match r with
  | .error _ => none
  | .ok l => some (l.map (fun r => (r.1, r.2 0)))

def get (r : Except Unit (List (Row ℚ))) : List (Row ℚ) :=
  match r with
  | .error _ => []
  | .ok l => l

theorem ok_get (r : Except Unit (List (Row ℚ))) (h : (show_ r).isSome = true) : r = .ok (get r) := by
  cases r with
  | error e => simp [show_] at h
  | ok l => rfl

/-- The hypotheses of `balance_vanishes` and `revenue_vanishes` hold. -/
example : net.buses.Nodup ∧ (∀ c ∈ comps, ∀ t ∈ (data 2 2).time.sns, weights (data 2 2) c t = 2) ∧
    (∀ b ∈ net.buses, ∀ t ∈ (data 2 2).time.sns, injection (data 2 2) (fun a => timeFrame none .sum || a.active) comps b t = 0) := by
  decide +kernel

example : show_ (aggregate noSearch net opts (balanceF net (data 2 2) .sum .balance) comps) =
    some [(["Generator", "gas", "AC"], some 20), (["Load", "el", "AC"], some (-20)), (["Line", "AC", "AC"], some 0)] := by
  decide +kernel

example : show_ (aggregate noSearch net opts (balanceF net (data 2 2) .sum .supply) comps) =
    some [(["Generator", "gas", "AC"], some 20), (["Load", "el", "AC"], some 0), (["Line", "AC", "AC"], some 20)] := by
  decide +kernel

example : show_ (aggregate noSearch net opts (revenueF net (data 2 2) .sum .all) comps) =
    some [(["Generator", "gas", "AC"], some 200), (["Load", "el", "AC"], some (-400)), (["Line", "AC", "AC"], some 200)] := by
  decide +kernel

/-- The generator only injects, at a price of 10. -/
example : Injects net (data 2 2) gen 10 10 := by
  intro port hp p h a ha t ht
  have hport : port = "" := by
    have : gen.ports = [""] := by decide +kernel
    rw [this] at hp; simpa using hp
  subst hport
  obtain rfl : (fun _ _ => (5 : ℚ)) = p := Option.some.inj h
  have ha' : a = asset "g" "gas" "u" "" := by simpa [gen] using ha
  subst ha'
  exact ⟨by simp [gen, data, asset], "u", by decide +kernel, by decide +kernel, by simp [data], by simp [data]⟩

/-- Market value of all classes: revenue of a line is net of what it buys. -/
theorem market_value_of_line : ∃ u k, aggregate noSearch net opts (revenueF net (data 2 2) .sum .all) comps = .ok u ∧
    aggregate noSearch net opts (balanceF net (data 2 2) .sum .supply) comps = .ok k ∧
    show_ (.ok (marketValue u k)) =
      some [(["Generator", "gas", "AC"], some 10), (["Load", "el", "AC"], none), (["Line", "AC", "AC"], some 10)] :=
  ⟨_, _, ok_get _ (by decide +kernel), ok_get _ (by decide +kernel), by decide +kernel⟩

/-- Curtailment, capacity factor and expansion of the generator. -/
example :
    let o := { opts with atPort := .flag false, groupby := some [.carrier] }
    show_ (aggregate noSearch net o (curtailmentF net (data 2 2) .sum) comps) = some [(["Generator", "gas"], some 8)] ∧
    (∃ u k, aggregate noSearch net o (usageF net (data 2 2) .mean) [gen] = .ok u ∧
      aggregate noSearch net o (capacityF (data 2 2) "_opt" false) [gen] = .ok k ∧
      show_ (.ok (capacityFactor u k)) = some [(["Generator", "gas"], some (5 / 8))]) ∧
    (∃ u k, aggregate noSearch net o (capexF (data 2 2) "_opt") comps = .ok u ∧
      aggregate noSearch net o (capexF (data 2 2) "") comps = .ok k ∧
      show_ (.ok (expandedCapex u k)) = some [(["Generator", "gas"], some 60)]) ∧
    (∃ u k, aggregate noSearch net o (capacityF (data 2 2) "_opt" false) comps = .ok u ∧
      aggregate noSearch net o (capacityF (data 2 2) "" false) comps = .ok k ∧
      show_ (.ok (expandedCapacity u k)) = some [(["Generator", "gas"], some 6), (["Line", "AC"], some 0)]) := by
  refine ⟨by decide +kernel, ⟨_, _, ok_get _ (by decide +kernel), ok_get _ (by decide +kernel), by decide +kernel⟩, ⟨_, _, ok_get _ (by decide +kernel), ok_get _ (by decide +kernel), by decide +kernel⟩,
    ⟨_, _, ok_get _ (by decide +kernel), ok_get _ (by decide +kernel), by decide +kernel⟩⟩

/-- **Finding** (expressions.py 43-50): with generator weightings that differ from the objective weightings the
energy balance of a balanced network is not zero: each class has its own weightings. -/
theorem balance_own_weights : ∃ res, aggregate noSearch net opts (balanceF net (data 3 2) .sum .balance) comps = .ok res ∧
    (∀ b ∈ net.buses, ∀ t ∈ (data 3 2).time.sns, injection (data 3 2) (fun a => a.active) comps b t = 0) ∧
    total res 0 = 10 := ⟨_, ok_get _ (by decide +kernel), by decide +kernel, by decide +kernel⟩

/-- **Finding** (abstract.py 307-322): tables by time are not restricted to assets in service: with
`aggregate_time=False` the load out of service counts. -/
theorem balance_counts_inactive : ∃ res, aggregate noSearch net opts (balanceF net (data 2 2) .none .balance) comps = .ok res ∧
    (∀ b ∈ net.buses, ∀ t ∈ (data 2 2).time.sns, injection (data 2 2) (fun a => a.active) comps b t = 0) ∧
    total res 0 = -3 := ⟨_, ok_get _ (by decide +kernel), by decide +kernel, by decide +kernel⟩

/-- **Finding** (expressions.py 1034-1035, abstract.py 290): with investment periods and zeros dropped, the expanded capacity of
a group that had no capacity is reported as zero. -/
theorem greenfield_expansion : ∃ (d : Data ℚ) (o : Opts ℚ) (u k : List (Row ℚ)),
    aggregate noSearch { net with multi := some 1 } o (capacityF d "_opt" false) [gen] = .ok u ∧
    aggregate noSearch { net with multi := some 1 } o (capacityF d "" false) [gen] = .ok k ∧
    show_ (.ok u) = some [(["Generator", "gas"], some 8)] ∧
    show_ (.ok (expandedCapacity u k)) = some [(["Generator", "gas"], some 0)] := by
  refine ⟨{ data 2 2 with num := fun _ k => if k = "p_nom_opt" then some (fun _ => 8) else if k = "p_nom" then some (fun _ => 0) else none },
    { opts with atPort := .flag false, groupby := some [.carrier], dropZero := some true }, _, _, ok_get _ (by decide +kernel), ok_get _ (by decide +kernel), by decide +kernel, by decide +kernel⟩

/-- **Finding** (expressions.py 467-470): with `at_port=True` capital expenditure of a branch is counted at each port. -/
theorem capex_per_port : ∃ (d : Data ℚ), d.num line "s_nom_opt" = some (fun _ => 6) ∧ d.num line "capital_cost" = some (fun _ => 1) ∧
    show_ (aggregate noSearch net opts (capexF d "_opt") [line]) = some [(["Line", "AC", "AC"], some 12)] := by
  refine ⟨{ data 2 2 with num := fun _ k => if k = "s_nom_opt" then some (fun _ => 6) else if k = "capital_cost" then some (fun _ => 1) else none }, rfl, rfl, by decide +kernel⟩

end Demo

end Verif.Stats
