import Verif.Opt.WeightingProps

/-!
# C150: means over blocks of snapshots give a lower bound of the costs

Over the whole problem of `Whole.lean` and the rules of `RulesProps.lean`.
-/

namespace Verif.Opt.Whole.Coarse

open Doc Snap Weights

variable {F : Type} [Field F] [LinearOrder F]

/-! ## Specification: the network of means -/

/-- Mean over the block `r` of `k` snapshots: numbers are resampled so (`resample_timeseries`, pypsa/common.py 614-652, line 648; what is not a
number keeps the value at the start of the block, line 649). -/
def mean (k : Nat) (f : Nat → F) (r : Nat) : F := ((List.range k).map (fun i => f (k * r + i))).sum / k

/-- Last snapshot of a block. -/
def last (k r : Nat) : Nat := k * r + (k - 1)

/-- A set point for a block, if all its snapshots have one. -/
def meanSet (k : Nat) (s : Nat → Option F) (r : Nat) : Option F :=
  if (List.range k).all (fun i => (s (k * r + i)).isSome) then some (mean k (fun t => (s t).getD 0) r) else none

def unitMean (k : Nat) (u : Unit' F) : Unit' F :=
  { u with active := fun r => u.active (k * r), minPu := mean k u.minPu, maxPu := mean k u.maxPu, rampUp := fun r => u.rampUp (k * r), rampDown := fun r => u.rampDown (k * r) }

def costsMean (k : Nat) (c : Costs F) : Costs F :=
  ⟨mean k c.marginal, fun r => c.quadratic (k * r), fun r => c.marginalStorage (k * r), fun r => c.spillCost (k * r), fun r => c.standBy (k * r)⟩

def genMean (k : Nat) (g : GenW F) : GenW F := { g with unit := unitMean k g.unit, costs := costsMean k g.costs, pSet := meanSet k g.pSet }

def linkMean (k : Nat) (g : LinkW F) : LinkW F :=
  { g with eff := fun r => g.eff (k * r), extra := g.extra.map (fun e => (e.1, fun r => e.2 (k * r))), unit := unitMean k g.unit, costs := costsMean k g.costs, pSet := meanSet k g.pSet }

/-- Hours add up. -/
def storageMean (k : Nat) (s : Storage F) : Storage F :=
  { s with active := fun r => s.active (k * r), eh := fun r => k * s.eh (k * r), keep := fun r => s.keep (k * r) ^ k }

/-- Levels are those at the end of a block. -/
def storeMean (k : Nat) (s : StoreW F) : StoreW F :=
  { s with storage := storageMean k s.storage, minPu := fun r => s.minPu (last k r), maxPu := fun r => s.maxPu (last k r), costs := costsMean k s.costs,
           eSet := fun r => s.eSet (last k r) }

def sunitMean (k : Nat) (s : UnitW F) : UnitW F :=
  { s with storage := ⟨storageMean k s.storage.toStorage, fun r => s.storage.effStore (k * r), fun r => s.storage.effDispatch (k * r), mean k s.storage.inflow⟩,
           minPu := mean k s.minPu, maxPu := mean k s.maxPu, costs := costsMean k s.costs, socSet := fun r => s.socSet (last k r) }

def branchMean (k : Nat) (b : BranchW F) : BranchW F := { b with active := fun r => b.active (k * r), maxPu := mean k b.maxPu, sSet := meanSet k b.sSet }

def loadMean (k : Nat) (l : LoadW F) : LoadW F := { l with pSet := mean k l.pSet, active := fun r => l.active (k * r) }

/-- The network with one snapshot for each block of `k`: means of series, sums of weightings. -/
def coarse (w : WNet F) (k L : Nat) : WNet F where
  len := L
  multi := w.multi
  period := fun r => w.period (k * r)
  rolling := w.rolling
  linearized := w.linearized
  tangents := w.tangents
  threshold := w.threshold
  sw := fun r => k * w.sw (k * r)
  gw := fun r => k * w.gw (k * r)
  periods := w.periods.map (fun p => (p.1, p.2.1, fun r => p.2.2 (k * r)))
  buses := w.buses
  gens := w.gens.map (genMean k)
  links := w.links.map (linkMean k)
  stores := w.stores.map (storeMean k)
  units := w.units.map (sunitMean k)
  lines := w.lines.map (branchMean k)
  trafos := w.trafos.map (branchMean k)
  loads := w.loads.map (loadMean k)

/-- The same at all snapshots of a block. -/
def Same {A : Type} (k L : Nat) (f : Nat → A) : Prop := ∀ r < L, ∀ i < k, f (k * r + i) = f (k * r)

structure UnitEven (k L : Nat) (u : Unit' F) (c : Costs F) : Prop where
  plain : Weights.Plain u
  active : Same k L u.active
  marginal : Same k L c.marginal

structure StorageEven (w : WNet F) (k L : Nat) (s : Storage F) (c : Costs F) : Prop where
  active : ∀ t < k * L, s.active t = true
  keep : ∀ t < k * L, s.keep t = 1
  eh : Same k L s.eh
  account : ¬ (w.multi = true ∧ (s.cyclicPerPeriod = true ∨ s.initialPerPeriod = true))
  marginal : Same k L c.marginal
  level : ∀ t < k * L, c.marginalStorage t = 0

structure BranchEven (w : WNet F) (k L : Nat) (b : BranchW F) : Prop where
  active : Same k L b.active
  rating : w.tangents ≠ 0 → Same k L b.maxPu

/-- What has to be the same within a block: weightings, what is in service, costs, efficiencies.  Loads, availability, inflow and set points may vary. -/
structure Even (w : WNet F) (k L : Nat) : Prop where
  pos : 0 < k
  len : w.len = k * L
  weight : Same k L (Whole.weight w)
  gw : Same k L w.gw
  gens : ∀ g ∈ w.gens, UnitEven k L g.unit g.costs
  links : ∀ g ∈ w.links, UnitEven k L g.unit g.costs
  effs : ∀ g ∈ w.links, Same k L g.eff ∧ ∀ e ∈ g.extra, Same k L e.2
  stores : ∀ s ∈ w.stores, StorageEven w k L s.storage s.costs
  units : ∀ s ∈ w.units, StorageEven w k L s.storage.toStorage s.costs
  unitData : ∀ s ∈ w.units, Same k L s.storage.effStore ∧ Same k L s.storage.effDispatch ∧ Same k L s.costs.spillCost ∧ ∀ t < k * L, 0 ≤ s.storage.inflow t
  lines : ∀ b ∈ w.lines, BranchEven w k L b
  trafos : ∀ b ∈ w.trafos, BranchEven w k L b
  loads : ∀ l ∈ w.loads, Same k L l.active

/-- Variables of which the end of a block or a part counts. -/
def special : List Name := ["e", "state_of_charge", "spill"]

/-- Rows of the snapshots and budgets: the same in a block, about powers. -/
structure RowsEven (k L : Nat) (rows : Nat → List (Con (Name × Name × Name) F)) (bs : List (Budget F)) : Prop where
  same : Same k L rows
  power : ∀ r < L, ∀ q ∈ rows (k * r), ∀ e ∈ q.terms, e.2.2.2 ∉ special
  per : ∀ b ∈ bs, Same k L b.per
  perPower : ∀ b ∈ bs, ∀ r < L, ∀ e ∈ b.per (k * r), e.2.2.2 ∉ special

def fineRows (n : Nat) (gw : Nat → F) (rows : Nat → List (Con (Name × Name × Name) F)) (bs : List (Budget F)) : List (Con WVar F) :=
  otherRows rows 0 n ++ bs.map (fun b => b.row (fun t => t) n gw)

/-- The rows of the network of means. -/
def coarseRows (w : WNet F) (k L : Nat) (rows : Nat → List (Con (Name × Name × Name) F)) (bs : List (Budget F)) : List (Con WVar F) :=
  fineRows L (coarse w k L).gw (fun r => rows (k * r)) (bs.map (fun b => { b with per := fun r => b.per (k * r) }))

/-! ## The plan of means -/

def spills (w : WNet F) (a : Name) (t : Nat) : Bool := w.units.any (fun u => decide (u.name = a) && decide (0 < u.storage.inflow t))

def merge (w : WNet F) (k : Nat) (z : WVar → F) : WVar → F
  | .of c a (.op v r) =>
    if v = "e" ∨ v = "state_of_charge" then z (.of c a (.op v (last k r)))
    else if v = "spill" then mean k (fun t => if spills w a t then z (.of c a (.op v t)) else 0) r
    else mean k (fun t => z (.of c a (.op v t))) r
  | v => z v

theorem merge_op (w : WNet F) (k : Nat) (z : WVar → F) (c a v : Name) (r : Nat) (h : v ∉ special) :
    merge w k z (.of c a (.op v r)) = mean k (fun t => z (.of c a (.op v t))) r := by
  simp only [special, List.mem_cons, List.not_mem_nil, or_false, not_or] at h
  simp [merge, h.1, h.2.1, h.2.2]

/-! ## Means -/

section means
variable {k L : Nat}

theorem mean_congr {f g : Nat → F} {r : Nat} (h : ∀ i < k, f (k * r + i) = g (k * r + i)) : mean k f r = mean k g r := by
  unfold mean
  rw [List.map_congr_left (fun i hi => h i (List.mem_range.mp hi))]

theorem mean_add (f g : Nat → F) (r : Nat) : mean k (fun t => f t + g t) r = mean k f r + mean k g r := by
  unfold mean
  rw [List.sum_map_add, add_div]

theorem mean_mul (c : F) (f : Nat → F) (r : Nat) : mean k (fun t => c * f t) r = c * mean k f r := by
  unfold mean
  rw [List.sum_map_mul_left, mul_div_assoc]

theorem mean_mul_right (c : F) (f : Nat → F) (r : Nat) : mean k (fun t => f t * c) r = mean k f r * c := by
  rw [mul_comm, ← mean_mul]
  exact mean_congr fun i _ => mul_comm _ _

theorem mean_neg (f : Nat → F) (r : Nat) : mean k (fun t => - f t) r = - mean k f r := by
  have := mean_mul (k := k) (-1) f r
  rw [neg_one_mul] at this
  rw [← this]
  exact mean_congr fun i _ => (neg_one_mul _).symm

theorem mean_sub (f g : Nat → F) (r : Nat) : mean k (fun t => f t - g t) r = mean k f r - mean k g r := by
  rw [sub_eq_add_neg, ← mean_neg, ← mean_add]
  exact mean_congr fun i _ => sub_eq_add_neg _ _

theorem mean_zero (r : Nat) : mean k (fun _ => (0 : F)) r = 0 := by simp [mean]

theorem mean_list {A : Type} (l : List A) (f : A → Nat → F) (r : Nat) : mean k (fun t => (l.map (fun a => f a t)).sum) r = (l.map (fun a => mean k (f a) r)).sum := by
  induction l with
  | nil => simp [mean_zero]
  | cons a l ih =>
    simp only [List.map_cons, List.sum_cons]
    rw [mean_add, ih]

theorem mean_bus (b bus : Name) {active : Nat → Bool} {r : Nat} (h : ∀ i < k, active (k * r + i) = active (k * r)) (f : Nat → F) :
    mean k (fun t => atBus b bus (active t) (f t)) r = atBus b bus (active (k * r)) (mean k f r) := by
  by_cases hc : bus = b ∧ active (k * r) = true
  · rw [atBus, if_pos hc]
    refine mean_congr fun i hi => ?_
    rw [atBus, if_pos ⟨hc.1, (h i hi).trans hc.2⟩]
  · rw [atBus, if_neg hc]
    rw [← mean_zero (k := k) r]
    refine mean_congr fun i hi => ?_
    rw [atBus, if_neg (by rw [h i hi]; exact hc)]

theorem lt_len {r i : Nat} (hr : r < L) (hi : i < k) : k * r + i < k * L :=
  calc k * r + i < k * r + k := by omega
    _ = k * (r + 1) := by ring
    _ ≤ k * L := Nat.mul_le_mul_left k hr

variable [IsStrictOrderedRing F]

theorem mean_le {f g : Nat → F} {r : Nat} (h : ∀ i < k, f (k * r + i) ≤ g (k * r + i)) : mean k f r ≤ mean k g r := by
  unfold mean
  refine div_le_div_of_nonneg_right (List.sum_le_sum fun i hi => h i (List.mem_range.mp hi)) (Nat.cast_nonneg k)

theorem mean_const (hk : 0 < k) {f : Nat → F} {r : Nat} {c : F} (h : ∀ i < k, f (k * r + i) = c) : mean k f r = c := by
  unfold mean
  rw [List.map_congr_left (fun i hi => h i (List.mem_range.mp hi))]
  have : (k : F) ≠ 0 := by exact_mod_cast hk.ne'
  simp only [List.map_const', List.length_range, List.sum_replicate, nsmul_eq_mul]
  field_simp

/-- One block of a weighted sum. -/
theorem block_sum (hk : 0 < k) {c : Nat → F} {r : Nat} (h : ∀ i < k, c (k * r + i) = c (k * r)) (x : Nat → F) :
    k * c (k * r) * mean k x r = ((List.range k).map (fun i => c (k * r + i) * x (k * r + i))).sum := by
  have hk' : (k : F) ≠ 0 := by exact_mod_cast hk.ne'
  rw [List.map_congr_left (g := fun i => c (k * r) * x (k * r + i)) (fun i hi => by rw [h i (List.mem_range.mp hi)]), List.sum_map_mul_left]
  unfold mean
  field_simp

omit [LinearOrder F] [IsStrictOrderedRing F] in
theorem sum_blocks (k L : Nat) (f : Nat → F) : ((List.range (k * L)).map f).sum = ((List.range L).map (fun r => ((List.range k).map (fun i => f (k * r + i))).sum)).sum := by
  induction L with
  | zero => simp
  | succ L ih =>
    rw [Nat.mul_succ, List.range_add, List.map_append, List.sum_append, ih, List.range_succ, List.map_append, List.sum_append, List.map_map]
    simp [Function.comp_def]

theorem weighted_sum (hk : 0 < k) {c : Nat → F} (h : Same k L c) (x : Nat → F) :
    ((List.range L).map (fun r => k * c (k * r) * mean k x r)).sum = ((List.range (k * L)).map (fun t => c t * x t)).sum := by
  rw [sum_blocks]
  congr 1
  exact List.map_congr_left fun r hr => block_sum hk (h r (List.mem_range.mp hr)) x

end means

/-! ## Units and branches -/

variable {w : WNet F} {k L : Nat} [IsStrictOrderedRing F]

omit [IsStrictOrderedRing F] in
/-- A set point that is followed is followed on average. -/
theorem mean_set {s : Nat → Option F} {x : Nat → F} {r : Nat} (h : ∀ i < k, ∀ v, s (k * r + i) = some v → x (k * r + i) = v) :
    ∀ v, meanSet k s r = some v → mean k x r = v := by
  intro v hv
  unfold meanSet at hv
  split at hv
  · rename_i ha
    rw [← Option.some.inj hv]
    refine mean_congr fun i hi => ?_
    obtain ⟨a, e⟩ := Option.isSome_iff_exists.mp (List.all_eq_true.mp ha i (List.mem_range.mpr hi))
    rw [h i hi a e]
    simp [e]
  · cases hv

omit [IsStrictOrderedRing F] in
theorem plain_mean {u : Unit' F} (h : Weights.Plain u) : Weights.Plain (unitMean k u) := ⟨h.com, fun r => h.ramps (k * r)⟩

theorem unit_merge {u : Unit' F} {c : Costs F} (h : UnitEven k L u c) {past past' : Past F} {l l' ramps ramps' : Prop} {p status up down status' up' down' : Nat → F}
    {cap : F} (hr : UnitRule u past l ramps (k * L) p status up down cap) :
    UnitRule (unitMean k u) past' l' ramps' L (mean k p) status' up' down' cap := by
  refine (unit_in (plain_mean h.plain)).mpr fun r hlt ha => ?_
  have key : ∀ i < k, _ := fun i hi => (unit_in h.plain).mp hr (k * r + i) (lt_len hlt hi) ((h.active r hlt i hi).trans ha)
  constructor
  · change mean k u.minPu r * (if u.extendable then cap else u.nom) ≤ _
    rw [← mean_mul_right]
    exact mean_le fun i hi => (key i hi).1
  · change _ ≤ mean k u.maxPu r * (if u.extendable then cap else u.nom)
    rw [← mean_mul_right]
    exact mean_le fun i hi => (key i hi).2

omit [IsStrictOrderedRing F] in
theorem set_merge {active : Nat → Bool} {s : Nat → Option F} {x : Nat → F} (ha : Same k L active) (h : SetRule (k * L) active s x) :
    SetRule L (fun r => active (k * r)) (meanSet k s) (mean k x) :=
  fun r hlt hc => mean_set fun i hi v hv => h (k * r + i) (lt_len hlt hi) ((ha r hlt i hi).trans hc) v hv

theorem branch_merge {b : BranchW F} (hk : 0 < k) (he : BranchEven w k L b) {y y' : Loc → F} (hlen : w.len = k * L) (hc : y' .cap = y .cap) (hm : y' .mod = y .mod)
    (hs : ∀ r, y' (.op "s" r) = mean k (fun t => y (.op "s" t)) r) (hl : ∀ r, y' (.op "loss" r) = mean k (fun t => y (.op "loss" t)) r) (h : BranchRule w b y) :
    BranchRule (coarse w k L) (branchMean k b) y' := by
  refine ⟨by rw [hc, hm]; exact h.cap, fun r hlt ha => ?_, ?_, fun h0 r hlt ha rating hr => ?_⟩
  · have key : ∀ i < k, _ := fun i hi => h.limits (k * r + i) (hlen ▸ lt_len hlt hi) ((he.active r hlt i hi).trans ha)
    rw [hc, hs, hl]
    change - (mean k b.maxPu r * (if b.ext then y .cap else b.nom)) ≤ mean k _ r - (if w.tangents = 0 then 0 else mean k _ r) ∧
      mean k _ r + (if w.tangents = 0 then 0 else mean k _ r) ≤ mean k b.maxPu r * (if b.ext then y .cap else b.nom)
    have e : (if w.tangents = 0 then 0 else mean k (fun t => y (.op "loss" t)) r) = mean k (fun t => if w.tangents = 0 then 0 else y (.op "loss" t)) r := by
      split
      · exact (mean_zero r).symm
      · rfl
    rw [e, ← mean_mul_right, ← mean_neg, ← mean_sub, ← mean_add]
    exact ⟨mean_le fun i hi => (key i hi).1, mean_le fun i hi => (key i hi).2⟩
  · have := set_merge he.active (hlen ▸ h.set)
    intro r hlt ha v hv
    change y' (.op "s" r) = v
    rw [hs]
    exact this r hlt ha v hv
  · change w.tangents ≠ 0 at h0
    have key : ∀ i < k, _ := fun i hi => h.loss h0 (k * r + i) (hlen ▸ lt_len hlt hi) ((he.active r hlt i hi).trans ha) rating hr
    have e : ∀ i < k, b.maxPu (k * r + i) = mean k b.maxPu r := fun i hi => by
      rw [mean_const hk fun j hj => he.rating h0 r hlt j hj]
      exact he.rating h0 r hlt i hi
    have kc : ∀ c : F, mean k (fun _ => c) r = c := fun c => mean_const hk fun _ _ => rfl
    rw [hl, hs]
    change 0 ≤ mean k _ r ∧ mean k _ r ≤ b.rPuEff * (mean k b.maxPu r * rating) ^ 2 ∧
      ∀ i, 1 ≤ i → i ≤ w.tangents → ∀ p, p = (i : F) / (w.tangents : F) * mean k b.maxPu r * rating → _
    refine ⟨?_, ?_, fun j h1 h2 p hp => ?_⟩
    · rw [← mean_zero (k := k) r]
      exact mean_le fun i hi => (key i hi).1
    · rw [← kc (b.rPuEff * (mean k b.maxPu r * rating) ^ 2)]
      exact mean_le fun i hi => by rw [← e i hi]; exact (key i hi).2.1
    · have kk := fun i (hi : i < k) => (key i hi).2.2 j h1 h2 p (by rw [e i hi]; exact hp)
      have lo : ∀ c : F, mean k (fun t => b.rPuEff * p ^ 2 + 2 * b.rPuEff * p * (c * y (.op "s" t) - p)) r =
          b.rPuEff * p ^ 2 + 2 * b.rPuEff * p * (c * mean k (fun t => y (.op "s" t)) r - p) := fun c => by
        rw [mean_add, kc, mean_mul, mean_sub, mean_mul, kc]
      change b.rPuEff * p ^ 2 + 2 * b.rPuEff * p * (mean k (fun t => y (.op "s" t)) r - p) ≤ _ ∧
        b.rPuEff * p ^ 2 + 2 * b.rPuEff * p * (- mean k (fun t => y (.op "s" t)) r - p) ≤ _
      constructor
      · rw [show mean k (fun t => y (.op "s" t)) r = 1 * mean k (fun t => y (.op "s" t)) r by ring, ← lo]
        exact mean_le fun i hi => by simpa using (kk i hi).1
      · rw [show - mean k (fun t => y (.op "s" t)) r = -1 * mean k (fun t => y (.op "s" t)) r by ring, ← lo]
        exact mean_le fun i hi => by simpa using (kk i hi).2

/-! ## Levels -/

omit [LinearOrder F] [IsStrictOrderedRing F] in
theorem level_all {n : Nat} {active : Nat → Bool} {cyclic : Bool} {initial : F} {keep level gain : Nat → F} (ha : ∀ t < n, active t = true) (hk : ∀ t < n, keep t = 1) :
    LevelRule n active cyclic initial keep level gain ↔ (∀ t, t + 1 < n → level (t + 1) = level t + gain (t + 1)) ∧
      (0 < n → level 0 = (if cyclic then level (n - 1) else initial) + gain 0) := by
  constructor
  · intro h
    refine ⟨fun t ht => ?_, fun h0 => ?_⟩
    · have := h.next t (t + 1) (by omega) ht (ha t (by omega)) (ha _ ht) (fun r h1 h2 => by omega)
      rwa [hk _ ht, one_mul] at this
    · cases hc : cyclic with
      | true =>
        have := h.around hc (n - 1) 0 (by omega) (by omega) (ha _ (by omega)) (ha _ h0) (fun r h => by omega) (fun r h1 h2 => by omega)
        rw [hk 0 h0, one_mul] at this
        simpa using this
      | false => simpa using h.first hc 0 h0 (ha 0 h0) (fun r h => by omega)
  · rintro ⟨h1, h2⟩
    refine ⟨fun s t hs ht _ _ hn => ?_, fun hc s t ht hs _ _ hb hl => ?_, fun hc t ht _ hb => ?_⟩
    · have : t = s + 1 := by
        by_contra hne
        have := hn (s + 1) (by omega) (by omega)
        rw [ha _ (by omega)] at this
        cases this
      subst this
      rw [hk _ ht, one_mul]
      exact h1 s ht
    · have e1 : t = 0 := by
        by_contra hne
        have := hb 0 (by omega)
        rw [ha 0 (by omega)] at this
        cases this
      have e2 : s = n - 1 := by
        by_contra hne
        have := hl (n - 1) (by omega) (by omega)
        rw [ha _ (by omega)] at this
        cases this
      subst e1 e2
      rw [hk 0 (by omega), one_mul]
      simpa [hc] using h2 (by omega)
    · have e1 : t = 0 := by
        by_contra hne
        have := hb 0 (by omega)
        rw [ha 0 (by omega)] at this
        cases this
      subst e1
      simpa [hc] using h2 ht

omit [LinearOrder F] [IsStrictOrderedRing F] in
theorem level_merge {active active' : Nat → Bool} {cyclic : Bool} {initial : F} {keep keep' level gain gain' : Nat → F} (hk : 0 < k)
    (ha : ∀ t < k * L, active t = true) (hkeep : ∀ t < k * L, keep t = 1) (ha' : ∀ r < L, active' r = true) (hkeep' : ∀ r < L, keep' r = 1)
    (hg : ∀ r < L, gain' r = ((List.range k).map (fun i => gain (k * r + i))).sum) (h : LevelRule (k * L) active cyclic initial keep level gain) :
    LevelRule L active' cyclic initial keep' (fun r => level (last k r)) gain' := by
  obtain ⟨h1, h2⟩ := (level_all ha hkeep).mp h
  have inner : ∀ r < L, ∀ i < k, level (k * r + i) + gain (k * r) = level (k * r) + ((List.range (i + 1)).map (fun j => gain (k * r + j))).sum := by
    intro r hr i
    induction i with
    | zero => intro _; simp
    | succ i ih =>
      intro hi
      have e := ih (by omega)
      have := h1 (k * r + i) (lt_len hr hi)
      rw [List.range_succ, List.map_append, List.sum_append]
      simp only [List.map_cons, List.map_nil, List.sum_cons, List.sum_nil, add_zero, ← Nat.add_assoc]
      linear_combination e + this
  have block : ∀ r < L, level (last k r) + gain (k * r) = level (k * r) + gain' r := by
    intro r hr
    have := inner r hr (k - 1) (by omega)
    rw [Nat.sub_add_cancel hk, ← hg r hr] at this
    exact this
  refine (level_all ha' hkeep').mpr ⟨fun r hr => ?_, fun h0 => ?_⟩
  · have e : last k r + 1 = k * (r + 1) := by
      unfold last
      rw [Nat.mul_succ]
      omega
    have l := lt_len hr hk
    have := h1 (last k r) (by rw [e]; simpa using l)
    rw [e] at this
    have b := block (r + 1) hr
    linear_combination b + this
  · have b := block 0 h0
    have := h2 (Nat.mul_pos hk h0)
    have e : last k (L - 1) = k * L - 1 := by
      unfold last
      obtain ⟨m, rfl⟩ : ∃ m, L = m + 1 := ⟨L - 1, by omega⟩
      rw [Nat.add_sub_cancel, Nat.mul_succ]
      omega
    rw [e]
    rw [Nat.mul_zero] at b
    linear_combination b + this

/-! ## Rules -/

omit [IsStrictOrderedRing F] in
theorem spills_unit (hw : Sound w) {s : UnitW F} (hs : s ∈ w.units) (t : Nat) : spills w s.name t = decide (0 < s.storage.inflow t) := by
  rw [Bool.eq_iff_iff, spills, List.any_eq_true]
  constructor
  · rintro ⟨u, hu, h⟩
    simp only [Bool.and_eq_true, decide_eq_true_eq] at h ⊢
    have : u = s := List.inj_on_of_nodup_map hw.units hu hs h.1
    exact this ▸ h.2
  · intro h
    exact ⟨s, hs, by simpa using h⟩

omit [IsStrictOrderedRing F] in
theorem merge_spill (hw : Sound w) {s : UnitW F} (hs : s ∈ w.units) (z : WVar → F) (r : Nat) :
    merge w k z (.of "StorageUnit" s.name (.op "spill" r)) = mean k (fun t => if 0 < s.storage.inflow t then z (.of "StorageUnit" s.name (.op "spill" t)) else 0) r := by
  have e : merge w k z (.of "StorageUnit" s.name (.op "spill" r)) =
      mean k (fun t => if spills w s.name t = true then z (.of "StorageUnit" s.name (.op "spill" t)) else 0) r := by
    simp [merge]
  rw [e]
  refine mean_congr fun i _ => ?_
  rw [spills_unit hw hs]
  simp

/-- The mean of inflow is 0 only if all of it is. -/
theorem mean_pos {f g : Nat → F} {r : Nat} (h : ∀ i < k, 0 ≤ f (k * r + i)) :
    (if 0 < mean k f r then mean k (fun t => if 0 < f t then g t else 0) r else 0) = mean k (fun t => if 0 < f t then g t else 0) r := by
  split
  · rfl
  · rename_i hn
    refine (mean_zero (k := k) r).symm.trans (mean_congr fun i hi => ?_)
    have : ¬ 0 < f (k * r + i) := by
      intro hp
      apply hn
      unfold mean
      have hk : (0 : F) < k := by exact_mod_cast (by omega : 0 < k)
      refine div_pos (lt_of_lt_of_le hp ?_) hk
      refine List.single_le_sum ?_ _ (List.mem_map.mpr ⟨i, List.mem_range.mpr hi, rfl⟩)
      intro x hx
      obtain ⟨j, hj, rfl⟩ := List.mem_map.mp hx
      exact h j (List.mem_range.mp hj)
    rw [if_neg this]

theorem supply_merge (he : Even w k L) (z : WVar → F) {r : Nat} (hr : r < L) (b : Name) :
    supply (coarse w k L) (merge w k z) r b = mean k (fun t => supply w z t b) r := by
  have hm := fun c a v h => merge_op w k z c a v r h
  have hh : ∀ x : Nat → F, mean k (fun t => halfLoss w (x t)) r = halfLoss w (mean k x r) := by
    intro x
    unfold halfLoss
    split
    · exact mean_zero r
    · simp only [div_eq_mul_inv]
      exact mean_mul_right _ _ _
  have st : ∀ t, t < k * L → ∀ s ∈ w.stores, s.storage.active t = true := fun t ht s hs => (he.stores s hs).active t ht
  have su : ∀ t, t < k * L → ∀ s ∈ w.units, s.storage.active t = true := fun t ht s hs => (he.units s hs).active t ht
  unfold supply
  rw [mean_add, mean_add, mean_add, mean_add, mean_add, mean_list, mean_list, mean_list, mean_list, mean_list, mean_list]
  simp only [coarse, List.map_map, Function.comp_def]
  congr 1
  · congr 1
    · congr 1
      · congr 1
        · congr 1
          · congr 1
            refine List.map_congr_left fun g hg => ?_
            rw [mean_bus b g.bus ((he.gens g hg).active r hr), mean_mul]
            change atBus b g.bus (g.unit.active (k * r)) (g.sign * _) = _
            rw [← hm _ _ _ (by decide)]
            rfl
          · congr 1
            refine List.map_congr_left fun g hg => ?_
            rw [mean_bus b g.bus (fun i hi => by rw [st _ (lt_len hr hi) g hg, st (k * r) (by simpa using lt_len hr (i := 0) he.pos) g hg]), mean_mul, ← hm _ _ _ (by decide)]
            rfl
        · congr 1
          refine List.map_congr_left fun g hg => ?_
          rw [mean_bus b g.bus (fun i hi => by rw [su _ (lt_len hr hi) g hg, su (k * r) (by simpa using lt_len hr (i := 0) he.pos) g hg]), mean_mul, mean_sub, ← hm _ _ _ (by decide),
            ← hm _ _ _ (by decide)]
          rfl
      · congr 1
        refine List.map_congr_left fun g hg => ?_
        rw [mean_add, mean_bus b g.bus0 ((he.lines g hg).active r hr), mean_bus b g.bus1 ((he.lines g hg).active r hr), mean_sub, mean_sub, mean_neg, hh, ← hm _ _ _ (by decide),
          ← hm _ _ _ (by decide)]
        rfl
    · congr 1
      refine List.map_congr_left fun g hg => ?_
      rw [mean_add, mean_bus b g.bus0 ((he.trafos g hg).active r hr), mean_bus b g.bus1 ((he.trafos g hg).active r hr), mean_sub, mean_sub, mean_neg, hh, ← hm _ _ _ (by decide),
        ← hm _ _ _ (by decide)]
      rfl
  · congr 1
    refine List.map_congr_left fun g hg => ?_
    have ha := (he.links g hg).active r hr
    have hf : ∀ f : Nat → F, Same k L f → mean k (fun t => f t * z (.of "Link" g.name (.op "p" t))) r = f (k * r) * merge w k z (.of "Link" g.name (.op "p" r)) := by
      intro f h
      rw [hm _ _ _ (by decide), ← mean_mul]
      exact mean_congr fun i hi => by rw [h r hr i hi]
    rw [mean_add, mean_add, mean_list, mean_bus b g.bus0 ha, mean_bus b g.bus1 ha, mean_neg, hf _ (he.effs g hg).1, ← hm _ _ _ (by decide)]
    have e : (g.extra.map (fun e => mean k (fun t => atBus b e.1 (g.unit.active t) (e.2 t * z (.of "Link" g.name (.op "p" t)))) r)) =
        (g.extra.map (fun e => atBus b e.1 (g.unit.active (k * r)) (e.2 (k * r) * merge w k z (.of "Link" g.name (.op "p" r))))) := by
      refine List.map_congr_left fun x hx => ?_
      rw [mean_bus b x.1 ha, hf _ ((he.effs g hg).2 x hx)]
    rw [e]
    simp only [linkMean, List.map_map, Function.comp_def]
    rfl

omit [IsStrictOrderedRing F] in
theorem demand_merge (he : Even w k L) {r : Nat} (hr : r < L) (b : Name) : demand (coarse w k L) r b = mean k (fun t => demand w t b) r := by
  unfold demand
  rw [mean_list]
  simp only [coarse, List.map_map, Function.comp_def]
  congr 1
  refine List.map_congr_left fun l hl => ?_
  rw [mean_bus b l.bus (he.loads l hl r hr), mean_neg, mean_mul]
  rfl

theorem store_merge (he : Even w k L) {s : StoreW F} (hs : s ∈ w.stores) (z : WVar → F) (h : StoreRule w s (fun v => z (.of "Store" s.name v))) :
    StoreRule (coarse w k L) (storeMean k s) (fun v => merge w k z (.of "Store" s.name v)) := by
  have ev := he.stores s hs
  have hp := he.pos
  have al : ∀ r < L, s.storage.active (last k r) = true := fun r hr => ev.active _ (lt_len hr (by omega))
  have ll : ∀ r < L, last k r < w.len := fun r hr => by rw [he.len]; exact lt_len hr (by omega)
  refine ⟨h.cap, fun r hr _ => h.limits (last k r) (ll r hr) (al r hr), fun r hr _ v hv => h.set (last k r) (ll r hr) (al r hr) v hv, ?_⟩
  have hl := h.level
  unfold PeriodRule at hl ⊢
  rw [if_neg ev.account] at hl
  rw [if_neg (show ¬ ((coarse w k L).multi = true ∧ ((storeMean k s).storage.cyclicPerPeriod = true ∨ (storeMean k s).storage.initialPerPeriod = true)) from ev.account)]
  rw [he.len] at hl
  refine level_merge hp ev.active ev.keep (fun r hr => ?_) (fun r hr => ?_) (fun r hr => ?_) hl
  · exact ev.active _ (by simpa using lt_len hr (i := 0) hp)
  · change s.storage.keep (k * r) ^ k = 1
    rw [ev.keep _ (by simpa using lt_len hr (i := 0) hp), one_pow]
  · change - (k * s.storage.eh (k * r) * merge w k z (.of "Store" s.name (.op "p" r))) = _
    rw [merge_op _ _ _ _ _ _ _ (by decide), block_sum hp (ev.eh r hr), ← neg_one_mul, ← List.sum_map_mul_left]
    congr 1
    exact List.map_congr_left fun i _ => neg_one_mul _

theorem sunit_merge (hw : Sound w) (he : Even w k L) {s : UnitW F} (hs : s ∈ w.units) (z : WVar → F) (h : StorageRule w s (fun v => z (.of "StorageUnit" s.name v))) :
    StorageRule (coarse w k L) (sunitMean k s) (fun v => merge w k z (.of "StorageUnit" s.name v)) := by
  have ev := he.units s hs
  obtain ⟨e1, e2, e3, e4⟩ := he.unitData s hs
  have hp := he.pos
  have al : ∀ r < L, s.storage.active (last k r) = true := fun r hr => ev.active _ (lt_len hr (by omega))
  have ll : ∀ r < L, last k r < w.len := fun r hr => by rw [he.len]; exact lt_len hr (by omega)
  have li : ∀ r < L, ∀ i < k, k * r + i < w.len := fun r hr i hi => by rw [he.len]; exact lt_len hr hi
  have ai : ∀ r < L, ∀ i < k, s.storage.active (k * r + i) = true := fun r hr i hi => ev.active _ (lt_len hr hi)
  have d0 : ∀ r : Nat, (0 : F) = mean k (fun _ => 0) r := fun r => (mean_zero r).symm
  refine ⟨h.cap, fun r hr _ => ?_, fun r hr _ => ?_, fun r hr _ => h.charge (last k r) (ll r hr) (al r hr), fun r hr _ hpos => ?_,
    fun r hr _ v hv => h.set (last k r) (ll r hr) (al r hr) v hv, ?_⟩
  · rw [merge_op _ _ _ _ _ _ _ (by decide)]
    constructor
    · rw [d0 r]
      exact mean_le fun i hi => (h.dispatch _ (li r hr i hi) (ai r hr i hi)).1
    · change _ ≤ mean k s.maxPu r * (if s.ext then z (.of "StorageUnit" s.name .cap) else s.nom)
      rw [← mean_mul_right]
      exact mean_le fun i hi => (h.dispatch _ (li r hr i hi) (ai r hr i hi)).2
  · rw [merge_op _ _ _ _ _ _ _ (by decide)]
    constructor
    · rw [d0 r]
      exact mean_le fun i hi => (h.store _ (li r hr i hi) (ai r hr i hi)).1
    · change _ ≤ - (mean k s.minPu r * (if s.ext then z (.of "StorageUnit" s.name .cap) else s.nom))
      rw [← mean_mul_right, ← mean_neg]
      exact mean_le fun i hi => (h.store _ (li r hr i hi) (ai r hr i hi)).2
  · rw [merge_spill hw hs]
    change 0 ≤ _ ∧ _ ≤ mean k s.storage.inflow r
    constructor
    · refine (d0 r).le.trans (mean_le fun i hi => ?_)
      by_cases hq : 0 < s.storage.inflow (k * r + i)
      · simpa [hq] using (h.spill _ (li r hr i hi) (ai r hr i hi) hq).1
      · simp [hq]
    · refine mean_le fun i hi => ?_
      by_cases hq : 0 < s.storage.inflow (k * r + i)
      · simpa [hq] using (h.spill _ (li r hr i hi) (ai r hr i hi) hq).2
      · simpa [hq] using e4 _ (lt_len hr hi)
  · have hl := h.level
    unfold PeriodRule at hl ⊢
    rw [if_neg ev.account] at hl
    rw [if_neg (show ¬ ((coarse w k L).multi = true ∧ ((sunitMean k s).storage.cyclicPerPeriod = true ∨ (sunitMean k s).storage.initialPerPeriod = true)) from ev.account)]
    rw [he.len] at hl
    refine level_merge hp ev.active ev.keep (fun r hr => ?_) (fun r hr => ?_) (fun r hr => ?_) hl
    · exact ev.active _ (by simpa using lt_len hr (i := 0) hp)
    · change s.storage.keep (k * r) ^ k = 1
      rw [ev.keep _ (by simpa using lt_len hr (i := 0) hp), one_pow]
    · change k * s.storage.eh (k * r) * (s.storage.effStore (k * r) * merge w k z (.of "StorageUnit" s.name (.op "p_store" r)) -
        merge w k z (.of "StorageUnit" s.name (.op "p_dispatch" r)) / s.storage.effDispatch (k * r) + mean k s.storage.inflow r -
        if 0 < mean k s.storage.inflow r then merge w k z (.of "StorageUnit" s.name (.op "spill" r)) else 0) = _
      rw [merge_op _ _ _ _ _ _ _ (by decide), merge_op _ _ _ _ _ _ _ (by decide), merge_spill hw hs, mean_pos fun i hi => e4 _ (lt_len hr hi), ← mean_mul,
        div_eq_mul_inv, ← mean_mul_right, ← mean_sub, ← mean_add, ← mean_sub, block_sum hp (ev.eh r hr)]
      congr 1
      refine List.map_congr_left fun i hi => ?_
      rw [e1 r hr i (List.mem_range.mp hi), e2 r hr i (List.mem_range.mp hi), div_eq_mul_inv]

theorem weight_coarse (w : WNet F) (k L r : Nat) : weight (coarse w k L) r = k * weight w (k * r) := by
  unfold weight coarse
  cases w.periods
  · rfl
  · simp only [Option.map_some]
    ring

/-- Energy of a generator. -/
theorem energy_merge (he : Even w k L) {g : GenW F} (hg : g ∈ w.gens) (z : WVar → F) :
    total L (coarse w k L).gw (genMean k g).unit.active (fun r => merge w k z (.of "Generator" g.name (.op "p" r))) =
      total (k * L) w.gw g.unit.active (fun t => z (.of "Generator" g.name (.op "p" t))) := by
  unfold total
  have := weighted_sum he.pos (L := L) (c := fun t => if g.unit.active t then w.gw t else 0) (fun r hr i hi => by
    simp only [(he.gens g hg).active r hr i hi, he.gw r hr i hi]) (fun t => z (.of "Generator" g.name (.op "p" t)))
  simp only [ite_mul, zero_mul] at this
  rw [← this]
  congr 1
  refine List.map_congr_left fun r hr => ?_
  change (if g.unit.active (k * r) = true then k * w.gw (k * r) * merge w k z (.of "Generator" g.name (.op "p" r)) else 0) = _
  rw [merge_op _ _ _ _ _ _ _ (by decide)]
  split <;> simp

/-- The means of a plan are a plan of the network of means. -/
theorem rules_merge (hw : Sound w) (he : Even w k L) {z : WVar → F} (h : Rules w z) : Rules (coarse w k L) (merge w k z) := by
  have hl := he.len
  refine ⟨?_, ?_, ?_, ?_, ?_, ?_, ?_⟩
  · intro g hg
    obtain ⟨g, hm, rfl⟩ := List.mem_map.mp hg
    have hg := h.gens g hm
    have ev := he.gens g hm
    have ep : (fun r => merge w k z (.of "Generator" g.name (.op "p" r))) = mean k (fun t => z (.of "Generator" g.name (.op "p" t))) :=
      funext fun r => merge_op _ _ _ _ _ _ _ (by decide)
    have hx : (∃ r < L, g.unit.active (k * r) = true) → ∃ t < w.len, g.unit.active t = true := fun ⟨r, hr, ha⟩ =>
      ⟨k * r, by rw [hl]; simpa using lt_len hr (i := 0) he.pos, ha⟩
    refine ⟨hg.cap, ?_, ?_, fun hq e hee => ?_, fun hq e hee => ?_⟩
    · have := hg.unit
      rw [hl] at this
      change UnitRule _ _ _ _ L (fun r => merge w k z (.of "Generator" g.name (.op "p" r))) _ _ _ _
      rw [ep]
      exact unit_merge ev this
    · have := hg.set
      rw [hl] at this
      change SetRule L _ _ (fun r => merge w k z (.of "Generator" g.name (.op "p" r)))
      rw [ep]
      exact set_merge ev.active this
    · have := hg.sumMin (hx hq) e hee
      rw [hl, ← energy_merge he hm] at this
      exact this
    · have := hg.sumMax (hx hq) e hee
      rw [hl, ← energy_merge he hm] at this
      exact this
  · intro g hg
    obtain ⟨g, hm, rfl⟩ := List.mem_map.mp hg
    have hg := h.links g hm
    have ev := he.links g hm
    have ep : (fun r => merge w k z (.of "Link" g.name (.op "p" r))) = mean k (fun t => z (.of "Link" g.name (.op "p" t))) :=
      funext fun r => merge_op _ _ _ _ _ _ _ (by decide)
    refine ⟨hg.cap, ?_, ?_⟩
    · have := hg.unit
      rw [hl] at this
      change UnitRule _ _ _ _ L (fun r => merge w k z (.of "Link" g.name (.op "p" r))) _ _ _ _
      rw [ep]
      exact unit_merge ev this
    · have := hg.set
      rw [hl] at this
      change SetRule L _ _ (fun r => merge w k z (.of "Link" g.name (.op "p" r)))
      rw [ep]
      exact set_merge ev.active this
  · intro g hg
    obtain ⟨g, hm, rfl⟩ := List.mem_map.mp hg
    exact store_merge he hm z (h.stores g hm)
  · intro g hg
    obtain ⟨g, hm, rfl⟩ := List.mem_map.mp hg
    exact sunit_merge hw he hm z (h.units g hm)
  · intro g hg
    obtain ⟨g, hm, rfl⟩ := List.mem_map.mp hg
    exact branch_merge he.pos (he.lines g hm) hl rfl rfl (fun r => merge_op _ _ _ _ _ _ _ (by decide)) (fun r => merge_op _ _ _ _ _ _ _ (by decide)) (h.lines g hm)
  · intro g hg
    obtain ⟨g, hm, rfl⟩ := List.mem_map.mp hg
    exact branch_merge he.pos (he.trafos g hm) hl rfl rfl (fun r => merge_op _ _ _ _ _ _ _ (by decide)) (fun r => merge_op _ _ _ _ _ _ _ (by decide)) (h.trafos g hm)
  · intro r hr b hb
    change r < L at hr
    rw [supply_merge he z hr, demand_merge he hr]
    exact mean_congr fun i hi => h.balance _ (by rw [hl]; exact lt_len hr hi) b hb

/-! ## Costs -/

theorem life_coarse (w : WNet F) (k L : Nat) (i : Invest F) : lifeWeight (coarse w k L) i = lifeWeight w i := by
  unfold lifeWeight coarse
  cases w.periods <;> rfl

/-- Costs of an output over all snapshots. -/
theorem running_merge (he : Even w k L) {active : Nat → Bool} {m : Nat → F} (ha : Same k L active) (hm : Same k L m) (x : Nat → F) :
    ((List.range L).map (fun r => if active (k * r) then weight (coarse w k L) r * m (k * r) * mean k x r else 0)).sum =
      ((List.range (k * L)).map (fun t => if active t then weight w t * m t * x t else 0)).sum := by
  have := weighted_sum he.pos (L := L) (c := fun t => if active t then weight w t * m t else 0) (fun r hr i hi => by
    simp only [ha r hr i hi, hm r hr i hi, he.weight r hr i hi]) x
  simp only [ite_mul, zero_mul] at this
  rw [← this]
  congr 1
  refine List.map_congr_left fun r _ => ?_
  rw [weight_coarse]
  split
  · ring
  · ring

theorem gen_cost (he : Even w k L) {g : GenW F} (hg : g ∈ w.gens) (z : WVar → F) : genCost (coarse w k L) (genMean k g) (merge w k z) = genCost w g z := by
  have ev := he.gens g hg
  unfold genCost
  rw [life_coarse, he.len]
  refine congrArg₂ (· + ·) ?_ rfl
  have hc : g.unit.committable = false := ev.plain.com
  have hc' : (genMean k g).unit.committable = false := ev.plain.com
  simp only [hc, hc', Bool.false_eq_true, if_false, add_zero]
  rw [← running_merge he ev.active ev.marginal]
  change ((List.range L).map _).sum = _
  congr 1
  refine List.map_congr_left fun r hr => ?_
  have e : mean k g.costs.marginal r = g.costs.marginal (k * r) := mean_const he.pos (ev.marginal r (List.mem_range.mp hr))
  rw [← merge_op w _ _ _ _ _ _ (by decide), ← e]
  rfl

theorem link_cost (he : Even w k L) {g : LinkW F} (hg : g ∈ w.links) (z : WVar → F) : linkCost (coarse w k L) (linkMean k g) (merge w k z) = linkCost w g z := by
  have ev := he.links g hg
  unfold linkCost
  rw [life_coarse, he.len]
  refine congrArg₂ (· + ·) ?_ rfl
  have hc : g.unit.committable = false := ev.plain.com
  have hc' : (linkMean k g).unit.committable = false := ev.plain.com
  simp only [hc, hc', Bool.false_eq_true, if_false, add_zero]
  rw [← running_merge he ev.active ev.marginal]
  change ((List.range L).map _).sum = _
  congr 1
  refine List.map_congr_left fun r hr => ?_
  have e : mean k g.costs.marginal r = g.costs.marginal (k * r) := mean_const he.pos (ev.marginal r (List.mem_range.mp hr))
  rw [← merge_op w _ _ _ _ _ _ (by decide), ← e]
  rfl

theorem active_same {active : Nat → Bool} (hk : 0 < k) (h : ∀ t < k * L, active t = true) : Same k L active := fun r hr i hi => by
  rw [h _ (lt_len hr hi), h _ (by simpa using lt_len hr (i := 0) hk)]

theorem store_cost (he : Even w k L) {g : StoreW F} (hg : g ∈ w.stores) (z : WVar → F) : storeCost (coarse w k L) (storeMean k g) (merge w k z) = storeCost w g z := by
  have ev := he.stores g hg
  unfold storeCost
  rw [life_coarse, he.len]
  refine congrArg₂ (· + ·) ?_ rfl
  have e0 : ((List.range (k * L)).map (fun t => if g.storage.active t then weight w t * g.costs.marginal t * z (.of "Store" g.name (.op "p" t)) +
      weight w t * g.costs.marginalStorage t * z (.of "Store" g.name (.op "e" t)) else 0)) =
      ((List.range (k * L)).map (fun t => if g.storage.active t then weight w t * g.costs.marginal t * z (.of "Store" g.name (.op "p" t)) else 0)) :=
    List.map_congr_left fun t ht => by rw [ev.level t (List.mem_range.mp ht)]; simp
  rw [e0, ← running_merge he (active_same he.pos ev.active) ev.marginal]
  change ((List.range L).map _).sum = _
  congr 1
  refine List.map_congr_left fun r hr => ?_
  have hr := List.mem_range.mp hr
  have e : mean k g.costs.marginal r = g.costs.marginal (k * r) := mean_const he.pos (ev.marginal r hr)
  rw [← merge_op w _ _ _ _ _ _ (by decide), ← e]
  have e1 : (storeMean k g).costs.marginalStorage r = 0 := ev.level (k * r) (by simpa using lt_len hr (i := 0) he.pos)
  rw [e1, mul_zero, zero_mul, add_zero]
  rfl

theorem sunit_cost (hw : Sound w) (he : Even w k L) {g : UnitW F} (hg : g ∈ w.units) (z : WVar → F) :
    unitCost (coarse w k L) (sunitMean k g) (merge w k z) = unitCost w g z := by
  have ev := he.units g hg
  obtain ⟨-, -, e3, e4⟩ := he.unitData g hg
  unfold unitCost
  rw [life_coarse, he.len]
  refine congrArg₂ (· + ·) ?_ rfl
  have sa := active_same he.pos ev.active
  have e0 : ((List.range (k * L)).map (fun t => if g.storage.active t then weight w t * g.costs.marginal t * z (.of "StorageUnit" g.name (.op "p_dispatch" t)) +
      weight w t * g.costs.marginalStorage t * z (.of "StorageUnit" g.name (.op "state_of_charge" t)) +
      (if 0 < g.storage.inflow t then weight w t * g.costs.spillCost t * z (.of "StorageUnit" g.name (.op "spill" t)) else 0) else 0)) =
      ((List.range (k * L)).map (fun t => (if g.storage.active t then weight w t * g.costs.marginal t * z (.of "StorageUnit" g.name (.op "p_dispatch" t)) else 0) +
        (if g.storage.active t then weight w t * g.costs.spillCost t * (if 0 < g.storage.inflow t then z (.of "StorageUnit" g.name (.op "spill" t)) else 0) else 0))) :=
    List.map_congr_left fun t ht => by
      rw [ev.level t (List.mem_range.mp ht)]
      split <;> simp
  rw [e0, List.sum_map_add, ← running_merge he sa ev.marginal, ← running_merge he sa e3, ← List.sum_map_add]
  change ((List.range L).map _).sum = _
  congr 1
  refine List.map_congr_left fun r hr => ?_
  have hr := List.mem_range.mp hr
  have hl : k * r < k * L := by simpa using lt_len hr (i := 0) he.pos
  have e : mean k g.costs.marginal r = g.costs.marginal (k * r) := mean_const he.pos (ev.marginal r hr)
  rw [← merge_op w _ _ _ _ _ _ (by decide), ← e, ← mean_pos fun i hi => e4 _ (lt_len hr hi), ← merge_spill hw hg]
  have e1 : (sunitMean k g).costs.marginalStorage r = 0 := ev.level (k * r) hl
  have e2 : (sunitMean k g).storage.active r = true := ev.active (k * r) hl
  rw [e1, mul_zero, zero_mul, add_zero, e2, ev.active (k * r) hl]
  change _ + (if 0 < mean k g.storage.inflow r then weight (coarse w k L) r * g.costs.spillCost (k * r) * merge w k z (.of "StorageUnit" g.name (.op "spill" r)) else 0) =
    _ + weight (coarse w k L) r * g.costs.spillCost (k * r) * (if 0 < mean k g.storage.inflow r then merge w k z (.of "StorageUnit" g.name (.op "spill" r)) else 0)
  split
  · rfl
  · rw [mul_zero]
    rfl

/-- The plan of means costs the same. -/
theorem cost_merge (hw : Sound w) (he : Even w k L) (z : WVar → F) : totalCost (coarse w k L) (merge w k z) = totalCost w z := by
  unfold totalCost
  simp only [coarse, List.map_map, Function.comp_def]
  change (w.gens.map (fun g => genCost (coarse w k L) (genMean k g) (merge w k z))).sum + (w.links.map (fun g => linkCost (coarse w k L) (linkMean k g) (merge w k z))).sum +
    (w.stores.map (fun g => storeCost (coarse w k L) (storeMean k g) (merge w k z))).sum + (w.units.map (fun g => unitCost (coarse w k L) (sunitMean k g) (merge w k z))).sum +
    (w.lines.map (fun g => branchCost (coarse w k L) "Line" (branchMean k g) (merge w k z))).sum +
    (w.trafos.map (fun g => branchCost (coarse w k L) "Transformer" (branchMean k g) (merge w k z))).sum = _
  rw [List.map_congr_left fun g hg => gen_cost he hg z, List.map_congr_left fun g hg => link_cost he hg z, List.map_congr_left fun g hg => store_cost he hg z,
    List.map_congr_left fun g hg => sunit_cost hw he hg z]
  have hb : ∀ c (g : BranchW F), branchCost (coarse w k L) c (branchMean k g) (merge w k z) = branchCost w c g z := fun c g => by
    unfold branchCost
    rw [life_coarse]
    rfl
  simp only [hb]

/-! ## The problem of the network of means -/

theorem coarse_sound (hw : Sound w) (k L : Nat) : Sound (coarse w k L) := by
  refine ⟨hw.noEmpty, hw.buses, ?_, ?_, ?_, ?_, ?_, ?_, ?_, ?_, ?_, ?_, ?_, ?_, ?_⟩
  · intro g hg
    obtain ⟨g, h, rfl⟩ := List.mem_map.mp hg
    exact hw.genBus g h
  · intro g hg
    obtain ⟨g, h, rfl⟩ := List.mem_map.mp hg
    exact hw.storeBus g h
  · intro g hg
    obtain ⟨g, h, rfl⟩ := List.mem_map.mp hg
    exact hw.unitBus g h
  · intro g hg
    obtain ⟨g, h, rfl⟩ := List.mem_map.mp hg
    exact hw.loadBus g h
  · intro g hg
    obtain ⟨g, h, rfl⟩ := List.mem_map.mp hg
    exact hw.lineBus g h
  · intro g hg
    obtain ⟨g, h, rfl⟩ := List.mem_map.mp hg
    exact hw.trafoBus g h
  · intro g hg
    obtain ⟨g, h, rfl⟩ := List.mem_map.mp hg
    refine ⟨(hw.linkBus g h).1, (hw.linkBus g h).2.1, fun e he => ?_⟩
    obtain ⟨e', he', rfl⟩ := List.mem_map.mp he
    exact (hw.linkBus g h).2.2 e' he'
  · change ((w.gens.map _).map _).Nodup; rw [List.map_map]; exact hw.gens
  · change ((w.links.map _).map _).Nodup; rw [List.map_map]; exact hw.links
  · change ((w.stores.map _).map _).Nodup; rw [List.map_map]; exact hw.stores
  · change ((w.units.map _).map _).Nodup; rw [List.map_map]; exact hw.units
  · change ((w.lines.map _).map _).Nodup; rw [List.map_map]; exact hw.lines
  · change ((w.trafos.map _).map _).Nodup; rw [List.map_map]; exact hw.trafos

theorem coarse_linear (hl : LinearCosts w) (k L : Nat) : LinearCosts (coarse w k L) := by
  refine ⟨?_, ?_, ?_, ?_, ?_, ?_⟩
  · intro g hg t
    obtain ⟨g, h, rfl⟩ := List.mem_map.mp hg
    exact hl.gens g h (k * t)
  · intro g hg t
    obtain ⟨g, h, rfl⟩ := List.mem_map.mp hg
    exact hl.links g h (k * t)
  · intro g hg t
    obtain ⟨g, h, rfl⟩ := List.mem_map.mp hg
    exact hl.stores g h (k * t)
  · intro g hg t
    obtain ⟨g, h, rfl⟩ := List.mem_map.mp hg
    exact hl.units g h (k * t)
  · intro g hg
    obtain ⟨g, h, rfl⟩ := List.mem_map.mp hg
    exact hl.genEvents g h
  · intro g hg
    obtain ⟨g, h, rfl⟩ := List.mem_map.mp hg
    exact hl.linkEvents g h

theorem even_orderly (he : Even w k L) : Orderly w := by
  refine ⟨fun g hg _ hc => ?_, fun g hg _ hc => ?_, fun s hs h1 h2 => absurd ⟨h1, h2⟩ (he.stores s hs).account, fun s hs h1 h2 => absurd ⟨h1, h2⟩ (he.units s hs).account⟩
  · rw [(he.gens g hg).plain.com] at hc
    cases hc
  · rw [(he.links g hg).plain.com] at hc
    cases hc

theorem coarse_orderly (he : Even w k L) : Orderly (coarse w k L) := by
  refine ⟨fun g hg _ hc => ?_, fun g hg _ hc => ?_, fun s hs h1 h2 => ?_, fun s hs h1 h2 => ?_⟩
  · obtain ⟨g, h, rfl⟩ := List.mem_map.mp hg
    have : g.unit.committable = true := hc
    rw [(he.gens g h).plain.com] at this
    cases this
  · obtain ⟨g, h, rfl⟩ := List.mem_map.mp hg
    have : g.unit.committable = true := hc
    rw [(he.links g h).plain.com] at this
    cases this
  · obtain ⟨s, h, rfl⟩ := List.mem_map.mp hs
    exact absurd ⟨h1, h2⟩ (he.stores s h).account
  · obtain ⟨s, h, rfl⟩ := List.mem_map.mp hs
    exact absurd ⟨h1, h2⟩ (he.units s h).account

/-- A sum of powers at the plan of means. -/
theorem lin_merge (z : WVar → F) {ts : List (F × Name × Name × Name)} (h : ∀ e ∈ ts, e.2.2.2 ∉ special) (r : Nat) :
    lin (fun v : Name × Name × Name => merge w k z (.of v.1 v.2.1 (.op v.2.2 r))) ts =
      mean k (fun t => lin (fun v : Name × Name × Name => z (.of v.1 v.2.1 (.op v.2.2 t))) ts) r := by
  unfold lin
  rw [mean_list]
  congr 1
  refine List.map_congr_left fun e he => ?_
  change e.1 * merge w k z (.of e.2.1 e.2.2.1 (.op e.2.2.2 r)) = _
  rw [merge_op _ _ _ _ _ _ _ (h e he), ← mean_mul]

theorem rows_merge (he : Even w k L) {rows : Nat → List (Con (Name × Name × Name) F)} {bs : List (Budget F)} (hr : RowsEven k L rows bs) {z : WVar → F}
    (h : Feasible z (fineRows w.len w.gw rows bs)) : Feasible (merge w k z) (coarseRows w k L rows bs) := by
  rw [he.len] at h
  intro q hq
  rcases List.mem_append.mp hq with hq | hq
  · obtain ⟨r, hlt, p, hp, rfl⟩ := mem_otherRows.mp hq
    rw [Nat.zero_add] at hp
    rw [holds_remap]
    have key : ∀ i < k, p.holds (fun v => z (.of v.1 v.2.1 (.op v.2.2 (k * r + i)))) := fun i hi => by
      have := h _ (List.mem_append_left _ (mem_otherRows.mpr ⟨k * r + i, lt_len hlt hi, p, by rw [Nat.zero_add, hr.same r hlt i hi]; exact hp, rfl⟩))
      rwa [holds_remap] at this
    have kc : ∀ c : F, mean k (fun _ => c) r = c := fun c => mean_const he.pos fun _ _ => rfl
    unfold Con.holds at key ⊢
    rw [lin_merge z (hr.power r hlt p hp)]
    rcases hs : p.sense with _ | _ | _ <;> simp only [hs] at key ⊢
    · rw [← kc p.rhs]
      exact mean_le key
    · rw [← kc p.rhs]
      exact mean_le key
    · exact mean_const he.pos key
  · obtain ⟨b', hm, rfl⟩ := List.mem_map.mp hq
    obtain ⟨b, hb, rfl⟩ := List.mem_map.mp hm
    have hz := h _ (List.mem_append_right _ (List.mem_map_of_mem hb))
    have e : lin (merge w k z) (Budget.row { b with per := fun r => b.per (k * r) } (fun t => t) L (coarse w k L).gw).terms = lin z (b.row (fun t => t) (k * L) w.gw).terms := by
      rw [budget_total, budget_total, ← range_sum, ← range_sum]
      refine congrArg₂ (· + ·) ?_ rfl
      rw [sum_blocks]
      congr 1
      refine List.map_congr_left fun r hlt => ?_
      have hlt := List.mem_range.mp hlt
      change k * w.gw (k * r) * lin (fun v : Name × Name × Name => merge w k z (.of v.1 v.2.1 (.op v.2.2 r))) (b.per (k * r)) = _
      rw [lin_merge z (hr.perPower b hb r hlt), block_sum he.pos (he.gw r hlt)]
      congr 1
      refine List.map_congr_left fun i hi => ?_
      rw [hr.per b hb r hlt i (List.mem_range.mp hi)]
      rfl
    unfold Con.holds at hz ⊢
    rw [e]
    exact hz

/-- C150: every plan has a plan of the network of means with the same capacities and costs … -/
theorem means_plan (hw : Sound w) (hl : LinearCosts w) (he : Even w k L) {rows : Nat → List (Con (Name × Name × Name) F)} {bs : List (Budget F)} (hr : RowsEven k L rows bs)
    {P Q : Program F} (hP : createModel w (fineRows w.len w.gw rows bs) = some P) (hQ : createModel (coarse w k L) (coarseRows w k L rows bs) = some Q)
    {z : WVar → F} (hz : FeasibleIn P z) :
    ∃ x, FeasibleIn Q x ∧ (∀ c a, x (.of c a .cap) = z (.of c a .cap) ∧ x (.of c a .mod) = z (.of c a .mod)) ∧ costOf (coarse w k L) Q x = costOf w P z := by
  obtain ⟨h1, h2, -⟩ := (rules_iff hw (even_orderly he) hP z).mp hz
  have hx := (rules_iff (coarse_sound hw k L) (coarse_orderly he) hQ (setConst (Objective.constant (objNet (coarse w k L))) (merge w k z))).mpr
    ⟨rules_const _ (rules_merge hw he h1), other_const (rows_const _ _ _ _ _) _ (rows_merge he hr h2), rfl⟩
  refine ⟨_, hx, fun c a => ⟨rfl, rfl⟩, ?_⟩
  rw [cost_total (coarse_linear hl k L) hQ _ hx, cost_total hl hP z hz]
  exact cost_merge hw he z

/-- … so its optimum is not dearer. -/
theorem means_lower_partial (hw : Sound w) (hl : LinearCosts w) (he : Even w k L) {rows : Nat → List (Con (Name × Name × Name) F)} {bs : List (Budget F)} (hr : RowsEven k L rows bs)
    {P Q : Program F} (hP : createModel w (fineRows w.len w.gw rows bs) = some P) (hQ : createModel (coarse w k L) (coarseRows w k L rows bs) = some Q)
    {D : (WVar → F) → Prop} (hD : AboutCapacity D) {x z : WVar → F} (hz : SolverBest w P D z) (hx : SolverBest (coarse w k L) Q D x) :
    costOf (coarse w k L) Q x ≤ costOf w P z := by
  obtain ⟨y, h1, h2, h3⟩ := means_plan hw hl he hr hP hQ hz.1
  rw [← h3]
  exact hx.2.2 y h1 (hD z y (fun c a => ⟨(h2 c a).1.symm, (h2 c a).2.symm⟩) hz.2.1)

/-! ## Examples -/

def coWind (av cost : Nat → ℚ) : GenW ℚ := ⟨"wind", "A", 1, { rollUnit none 4 with maxPu := av }, exInvest 0, { exCosts 0 0 with marginal := cost }, fun _ => none, none, none⟩
def coGas (cost : Nat → ℚ) : GenW ℚ := ⟨"gas", "A", 1, rollUnit none 9, exInvest 0, { exCosts 0 0 with marginal := cost }, fun _ => none, none, none⟩
def coTank (keep nom : ℚ) : StoreW ℚ := ⟨"tank", "A", 1, { rollStorage 0 with keep := fun _ => keep }, false, nom, fun _ => 0, fun _ => 1, exInvest 0, exCosts 0 0, fun _ => none⟩

/-- Four snapshots. -/
def coNet (keep nom : ℚ) (av load wind gas : Nat → ℚ) : WNet ℚ where
  len := 4
  multi := false
  period := fun _ => 0
  rolling := false
  linearized := false
  tangents := 0
  threshold := 45
  sw := fun _ => 1
  gw := fun _ => 1
  periods := none
  buses := ["A"]
  gens := [coWind av wind, coGas gas]
  links := []
  stores := [coTank keep nom]
  units := []
  lines := []
  trafos := []
  loads := [⟨"A", -1, load, fun _ => true⟩]

theorem coNet_sound (keep nom : ℚ) (av load wind gas : Nat → ℚ) : Sound (coNet keep nom av load wind gas) := by
  constructor <;> simp [coNet, coWind, coGas, coTank]

theorem coNet_linear (keep nom : ℚ) (av load wind gas : Nat → ℚ) : LinearCosts (coNet keep nom av load wind gas) := by
  constructor <;> simp [coNet, coWind, coGas, coTank, exCosts, rollUnit, exUnit']

theorem coNet_orderly (keep nom : ℚ) (av load wind gas : Nat → ℚ) : Orderly (coNet keep nom av load wind gas) := orderly_single rfl rfl

theorem coarse_single {w : WNet ℚ} (h1 : w.rolling = false) (h2 : w.multi = false) (k L : Nat) : Orderly (coarse w k L) := orderly_single h1 h2

/-- Wind at every other snapshot, a tank for half of the load of the next one. -/
def gusts : WNet ℚ := coNet 1 1 (fun t => if t % 2 = 0 then 1 else 0) (fun _ => 2) (fun _ => 0) (fun _ => 2)

/-- At most 7 of gas. -/
def coBudget : Budget ℚ := ⟨fun _ => [(1, "Generator", "gas", "p")], [], .le, 7⟩

theorem gusts_even : Even gusts 2 2 := by
  refine ⟨by decide, rfl, fun _ _ _ _ => rfl, fun _ _ _ _ => rfl, ?_, ?_, ?_, ?_, ?_, ?_, ?_, ?_, ?_⟩
  · intro g hg
    simp only [gusts, coNet, List.mem_cons, List.not_mem_nil, or_false] at hg
    rcases hg with rfl | rfl <;> exact ⟨⟨rfl, fun _ => ⟨rfl, rfl⟩⟩, fun _ _ _ _ => rfl, fun _ _ _ _ => rfl⟩
  · intro g hg; simp [gusts, coNet] at hg
  · intro g hg; simp [gusts, coNet] at hg
  · intro g hg
    simp only [gusts, coNet, List.mem_cons, List.not_mem_nil, or_false] at hg
    subst hg
    exact ⟨fun _ _ => rfl, fun _ _ => rfl, fun _ _ _ _ => rfl, by decide, fun _ _ _ _ => rfl, fun _ _ => rfl⟩
  · intro g hg; simp [gusts, coNet] at hg
  · intro g hg; simp [gusts, coNet] at hg
  · intro g hg; simp [gusts, coNet] at hg
  · intro g hg; simp [gusts, coNet] at hg
  · intro l hl
    simp only [gusts, coNet, List.mem_cons, List.not_mem_nil, or_false] at hl
    subst hl
    exact fun _ _ _ _ => rfl

theorem coRows_even : RowsEven (F := ℚ) 2 2 (fun _ => []) [coBudget] := by
  refine ⟨fun _ _ _ _ => rfl, fun _ _ q hq => absurd hq List.not_mem_nil, fun b hb => ?_, fun b hb => ?_⟩
  · simp only [List.mem_cons, List.not_mem_nil, or_false] at hb
    subst hb
    exact fun _ _ _ _ => rfl
  · simp only [List.mem_cons, List.not_mem_nil, or_false] at hb
    subst hb
    intro r _ e he
    simp only [coBudget, List.mem_cons, List.not_mem_nil, or_false] at he
    subst he
    decide

def gustsVal : WVar → ℚ
  | .of _ a (.op v t) =>
    if a = "wind" then (if t % 2 = 0 then 3 else 0) else if a = "gas" then (if t % 2 = 0 then 0 else 1)
    else if v = "p" then (if t % 2 = 0 then -1 else 1) else (if t % 2 = 0 then 1 else 0)
  | _ => 0

def meanVal : WVar → ℚ
  | .of _ a (.op _ _) => if a = "wind" then 2 else 0
  | _ => 0

theorem gusts_some : (createModel gusts (fineRows gusts.len gusts.gw (fun _ => []) [coBudget])).isSome = true ∧
    (createModel (coarse gusts 2 2) (coarseRows gusts 2 2 (fun _ => []) [coBudget])).isSome = true := by decide +kernel

theorem gusts_best : SolverBest gusts ((createModel gusts (fineRows gusts.len gusts.gw (fun _ => []) [coBudget])).get gusts_some.1) (fun _ => True) gustsVal := by
  have hP := (Option.some_get gusts_some.1).symm
  have hf : FeasibleIn ((createModel gusts (fineRows gusts.len gusts.gw (fun _ => []) [coBudget])).get gusts_some.1) gustsVal := by unfold FeasibleIn; decide +kernel
  have hn : LinearCosts gusts := coNet_linear ..
  refine ⟨hf, trivial, fun z hz _ => ?_⟩
  rw [cost_total hn hP _ hf, cost_total hn hP z hz]
  obtain ⟨r, -, -⟩ := (rules_iff (coNet_sound ..) (coNet_orderly ..) hP z).mp hz
  have g := (r.gens (coGas (fun _ => 2)) (by simp [gusts, coNet])).unit.fixed rfl rfl
  have w := (r.gens (coWind (fun t => if t % 2 = 0 then 1 else 0) (fun _ => 0)) (by simp [gusts, coNet])).unit.fixed rfl rfl
  have s := r.stores (coTank 1 1) (by simp [gusts, coNet])
  have l := s.level
  unfold PeriodRule at l
  rw [if_neg (by decide)] at l
  have l1 := l.next 0 1 (by decide) (by decide) rfl rfl (fun r h1 h2 => by omega)
  have l3 := l.next 2 3 (by decide) (by decide) rfl rfl (fun r h1 h2 => by omega)
  have s0 := (s.limits 0 (by decide) rfl).2
  have s1 := (s.limits 1 (by decide) rfl).1
  have s2 := (s.limits 2 (by decide) rfl).2
  have s3 := (s.limits 3 (by decide) rfl).1
  have b1 := r.balance 1 (by decide) "A" (by decide)
  have b3 := r.balance 3 (by decide) "A" (by decide)
  have g0 := (g 0 (by decide) rfl).1
  have g2 := (g 2 (by decide) rfl).1
  have w1 := (w 1 (by decide) rfl).2
  have w3 := (w 3 (by decide) rfl).2
  rw [show totalCost gusts gustsVal = 4 by decide +kernel]
  simp [totalCost, genCost, storeCost, gusts, coNet, coWind, coGas, coTank, rollUnit, rollStorage, exUnit', exCosts, exInvest, weight, supply, demand, atBus,
    List.range_succ] at l1 l3 s0 s1 s2 s3 b1 b3 g0 g2 w1 w3 ⊢
  linarith

theorem means_best : SolverBest (coarse gusts 2 2) ((createModel (coarse gusts 2 2) (coarseRows gusts 2 2 (fun _ => []) [coBudget])).get gusts_some.2) (fun _ => True) meanVal := by
  have hP := (Option.some_get gusts_some.2).symm
  have hf : FeasibleIn ((createModel (coarse gusts 2 2) (coarseRows gusts 2 2 (fun _ => []) [coBudget])).get gusts_some.2) meanVal := by unfold FeasibleIn; decide +kernel
  have hl : LinearCosts (coarse gusts 2 2) := coarse_linear (coNet_linear ..) 2 2
  refine ⟨hf, trivial, fun z hz _ => ?_⟩
  rw [cost_total hl hP _ hf, cost_total hl hP z hz]
  obtain ⟨r, -, -⟩ := (rules_iff (coarse_sound (coNet_sound ..) 2 2) (coarse_single rfl rfl 2 2) hP z).mp hz
  have g := (r.gens (genMean 2 (coGas (fun _ => 2))) (by simp [gusts, coNet, coarse])).unit.fixed rfl rfl
  have g0 := (g 0 (by decide) rfl).1
  have g1 := (g 1 (by decide) rfl).1
  rw [show totalCost (coarse gusts 2 2) meanVal = 0 by decide +kernel]
  simp [totalCost, genCost, storeCost, coarse, genMean, unitMean, storeMean, storageMean, costsMean, mean, gusts, coNet, coWind, coGas, coTank, rollUnit, rollStorage, exUnit', exCosts, exInvest, weight,
    List.range_succ] at g0 g1 ⊢
  linarith

/-- Means hide that there is no wind at every other snapshot: costs of 0 instead of 4. -/
example : costOf (coarse gusts 2 2) ((createModel (coarse gusts 2 2) (coarseRows gusts 2 2 (fun _ => []) [coBudget])).get gusts_some.2) meanVal ≤
    costOf gusts ((createModel gusts (fineRows gusts.len gusts.gw (fun _ => []) [coBudget])).get gusts_some.1) gustsVal :=
  means_lower_partial (coNet_sound ..) (coNet_linear ..) gusts_even coRows_even (Option.some_get gusts_some.1).symm (Option.some_get gusts_some.2).symm
    (D := fun _ => True) (fun _ _ _ _ => trivial) gusts_best means_best

example : totalCost (coarse gusts 2 2) meanVal = 0 ∧ totalCost gusts gustsVal = 4 := by decide +kernel

/-- Half of the tank is lost in each snapshot; wind at the second snapshot, load at the third one. -/
def leak : WNet ℚ := coNet (1 / 2) 4 (fun t => if t = 1 then 1 else 0) (fun t => if t = 2 then 2 else 0) (fun _ => 0) (fun _ => 1)

def leakVal : WVar → ℚ
  | .of _ a (.op v t) =>
    if a = "wind" then (if t = 1 then 4 else 0) else if a = "gas" then 0
    else if v = "p" then (if t = 1 then -4 else if t = 2 then 2 else 0) else (if t = 1 then 4 else 0)
  | _ => 0

def leakMean : WVar → ℚ
  | .of _ a (.op v t) =>
    if a = "wind" then (if t = 0 then 2 else 0) else if a = "gas" then (if t = 0 then 0 else 1 / 2)
    else if v = "p" then (if t = 0 then -2 else 1 / 2) else (if t = 0 then 4 else 0)
  | _ => 0

theorem leak_some : (createModel leak []).isSome = true ∧ (createModel (coarse leak 2 2) []).isSome = true := by decide +kernel

/-- With standing losses, means need not give a bound: costs of 1, where 0 is enough. -/
theorem not_lower_losses : ∃ (P Q : Program ℚ) (z x : WVar → ℚ), createModel leak [] = some P ∧ createModel (coarse leak 2 2) [] = some Q ∧
    SolverBest leak P (fun _ => True) z ∧ SolverBest (coarse leak 2 2) Q (fun _ => True) x ∧ costOf leak P z < costOf (coarse leak 2 2) Q x := by
  have hP := (Option.some_get leak_some.1).symm
  have hQ := (Option.some_get leak_some.2).symm
  have hf : FeasibleIn ((createModel leak []).get leak_some.1) leakVal := by unfold FeasibleIn; decide +kernel
  have hg : FeasibleIn ((createModel (coarse leak 2 2) []).get leak_some.2) leakMean := by unfold FeasibleIn; decide +kernel
  have hl : LinearCosts (coarse leak 2 2) := coarse_linear (coNet_linear ..) 2 2
  have hn : LinearCosts leak := coNet_linear ..
  refine ⟨_, _, leakVal, leakMean, hP, hQ, ⟨hf, trivial, fun z hz _ => ?_⟩, ⟨hg, trivial, fun z hz _ => ?_⟩, ?_⟩
  · rw [cost_total hn hP _ hf, cost_total hn hP z hz]
    obtain ⟨r, -, -⟩ := (rules_iff (coNet_sound ..) (coNet_orderly ..) hP z).mp hz
    have g := (r.gens (coGas (fun _ => 1)) (by simp [leak, coNet])).unit.fixed rfl rfl
    have g0 := (g 0 (by decide) rfl).1
    have g1 := (g 1 (by decide) rfl).1
    have g2 := (g 2 (by decide) rfl).1
    have g3 := (g 3 (by decide) rfl).1
    rw [show totalCost leak leakVal = 0 by decide +kernel]
    simp [totalCost, genCost, storeCost, leak, coNet, coWind, coGas, coTank, rollUnit, rollStorage, exUnit', exCosts, exInvest, weight, List.range_succ] at g0 g1 g2 g3 ⊢
    linarith
  · rw [cost_total hl hQ _ hg, cost_total hl hQ z hz]
    obtain ⟨r, -, -⟩ := (rules_iff (coarse_sound (coNet_sound ..) 2 2) (coarse_single rfl rfl 2 2) hQ z).mp hz
    have g := (r.gens (genMean 2 (coGas (fun _ => 1))) (by simp [leak, coNet, coarse])).unit.fixed rfl rfl
    have w := (r.gens (genMean 2 (coWind (fun t => if t = 1 then 1 else 0) (fun _ => 0))) (by simp [leak, coNet, coarse])).unit.fixed rfl rfl
    have s := r.stores (storeMean 2 (coTank (1 / 2) 4)) (by simp [leak, coNet, coarse])
    have l := s.level
    unfold PeriodRule at l
    rw [if_neg (by decide)] at l
    have l1 := l.next 0 1 (by decide) (by decide) rfl rfl (fun r h1 h2 => by omega)
    have s0 := (s.limits 0 (by decide) rfl).2
    have s1 := (s.limits 1 (by decide) rfl).1
    have b1 := r.balance 1 (by decide) "A" (by decide)
    have g0 := (g 0 (by decide) rfl).1
    have w1 := (w 1 (by decide) rfl).2
    rw [show totalCost (coarse leak 2 2) leakMean = 1 by decide +kernel]
    simp [totalCost, genCost, storeCost, coarse, genMean, unitMean, storeMean, storageMean, costsMean, loadMean, mean, leak, coNet, coWind, coGas, coTank, rollUnit, rollStorage, exUnit', exCosts,
      exInvest, weight, supply, demand, atBus, List.range_succ] at l1 s0 s1 b1 g0 w1 ⊢
    linarith
  · rw [cost_total hn hP _ hf, cost_total hl hQ _ hg]
    decide +kernel

/-- Wind is free at every other snapshot, gas at the others. -/
def swap : WNet ℚ := coNet 1 0 (fun _ => 1) (fun _ => 1) (fun t => if t % 2 = 0 then 0 else 10) (fun t => if t % 2 = 0 then 10 else 0)

def swapVal : WVar → ℚ
  | .of _ a (.op _ t) => if a = "wind" then (if t % 2 = 0 then 1 else 0) else if a = "gas" then (if t % 2 = 0 then 0 else 1) else 0
  | _ => 0

def swapMean : WVar → ℚ
  | .of _ a (.op _ _) => if a = "wind" then 1 else 0
  | _ => 0

theorem swap_some : (createModel swap []).isSome = true ∧ (createModel (coarse swap 2 2) []).isSome = true := by decide +kernel

/-- Nor do they with costs that vary: 20 instead of 0. -/
theorem not_lower_prices : ∃ (P Q : Program ℚ) (z x : WVar → ℚ), createModel swap [] = some P ∧ createModel (coarse swap 2 2) [] = some Q ∧
    SolverBest swap P (fun _ => True) z ∧ SolverBest (coarse swap 2 2) Q (fun _ => True) x ∧ costOf swap P z < costOf (coarse swap 2 2) Q x := by
  have hP := (Option.some_get swap_some.1).symm
  have hQ := (Option.some_get swap_some.2).symm
  have hf : FeasibleIn ((createModel swap []).get swap_some.1) swapVal := by unfold FeasibleIn; decide +kernel
  have hg : FeasibleIn ((createModel (coarse swap 2 2) []).get swap_some.2) swapMean := by unfold FeasibleIn; decide +kernel
  have hl : LinearCosts (coarse swap 2 2) := coarse_linear (coNet_linear ..) 2 2
  have hn : LinearCosts swap := coNet_linear ..
  refine ⟨_, _, swapVal, swapMean, hP, hQ, ⟨hf, trivial, fun z hz _ => ?_⟩, ⟨hg, trivial, fun z hz _ => ?_⟩, ?_⟩
  · rw [cost_total hn hP _ hf, cost_total hn hP z hz]
    obtain ⟨r, -, -⟩ := (rules_iff (coNet_sound ..) (coNet_orderly ..) hP z).mp hz
    have g := (r.gens (coGas (fun t => if t % 2 = 0 then 10 else 0)) (by simp [swap, coNet])).unit.fixed rfl rfl
    have w := (r.gens (coWind (fun _ => 1) (fun t => if t % 2 = 0 then 0 else 10)) (by simp [swap, coNet])).unit.fixed rfl rfl
    have g0 := (g 0 (by decide) rfl).1
    have w1 := (w 1 (by decide) rfl).1
    have g2 := (g 2 (by decide) rfl).1
    have w3 := (w 3 (by decide) rfl).1
    rw [show totalCost swap swapVal = 0 by decide +kernel]
    simp [totalCost, genCost, storeCost, swap, coNet, coWind, coGas, coTank, rollUnit, rollStorage, exUnit', exCosts, exInvest, weight, List.range_succ] at g0 w1 g2 w3 ⊢
    linarith
  · rw [cost_total hl hQ _ hg, cost_total hl hQ z hz]
    obtain ⟨r, -, -⟩ := (rules_iff (coarse_sound (coNet_sound ..) 2 2) (coarse_single rfl rfl 2 2) hQ z).mp hz
    have s := r.stores (storeMean 2 (coTank 1 0)) (by simp [swap, coNet, coarse])
    have l := s.level
    unfold PeriodRule at l
    rw [if_neg (by decide)] at l
    have l0 := l.first rfl 0 (by decide) rfl (fun r h => by omega)
    have l1 := l.next 0 1 (by decide) (by decide) rfl rfl (fun r h1 h2 => by omega)
    have s0 := s.limits 0 (by decide) rfl
    have s1 := s.limits 1 (by decide) rfl
    have b0 := r.balance 0 (by decide) "A" (by decide)
    have b1 := r.balance 1 (by decide) "A" (by decide)
    rw [show totalCost (coarse swap 2 2) swapMean = 20 by decide +kernel]
    simp [totalCost, genCost, storeCost, coarse, genMean, unitMean, storeMean, storageMean, costsMean, loadMean, mean, swap, coNet, coWind, coGas, coTank, rollUnit, rollStorage, exUnit', exCosts,
      exInvest, weight, supply, demand, atBus, List.range_succ] at l0 l1 s0 s1 b0 b1 ⊢
    linarith
  · rw [cost_total hn hP _ hf, cost_total hl hQ _ hg]
    decide +kernel

end Verif.Opt.Whole.Coarse
