import Verif.Opt.ReplaceProps
import Verif.Opt.RollingWholeProps
import Verif.Opt.UnitProps
import Mathlib.Tactic.CasesM

/-!
# C126: the problem handed to the solver is the documented one

The rules of the documentation (`doc/user-guide/optimal-power-flow.rst`) are written as plain arithmetic about the quantities of
the network; a point satisfies all rows of the problem exactly if it obeys the rules.
-/

namespace Verif.Opt.Whole.Doc

variable {F : Type} [Field F] [LinearOrder F]

/-! ## The rules -/

/-- Value at a snapshot, 0 while out of service. -/
def inService (active : Nat → Bool) (x : Nat → F) (t : Nat) : F := if active t then x t else 0

/-- Minimum, maximum, set point and module size of a capacity to be optimised. -/
structure CapRule (ext : Bool) (i : Invest F) (cap mods : F) : Prop where
  least : ext = true → i.nomMin ≤ cap
  most : ext = true → ∀ u, i.nomMax = some u → cap ≤ u
  set : ext = true → ∀ s, i.nomSet = some s → cap = s
  modules : ext = true → 0 < i.nomMod → 0 ≤ mods ∧ cap = mods * i.nomMod

/-- What a unit did before the window: for how long it has been running and standing still, whether it counts as running, and the
output and status from which it ramps (nothing before the first window). -/
structure Past (F : Type) where
  up : Nat
  down : Nat
  on : Bool
  ramp : Option (F × F)

/-- So many snapshots at the end of the record have this status. -/
def run (b : F) (record : List F) : Nat := (record.reverse.takeWhile (fun s => s = b)).length

/-- The attributes count before the first window, the record before all others.  There, a unit without a minimum up time counts as
standing still (C44). -/
def pastOf (rolling : Bool) (u : Unit' F) : Past F :=
  if rolling then
    ⟨run 1 u.histStatus, run 0 u.histStatus, decide (0 < u.minUp ∧ 0 < run 1 u.histStatus), some (u.histP, u.histStatus.getLastD 0)⟩
  else ⟨u.upBefore, u.downBefore, decide (0 < u.upBefore), none⟩

/-- Rules for generators and links. -/
structure UnitRule (u : Unit' F) (past : Past F) (linear ramps : Prop) (n : Nat) (p status up down : Nat → F) (cap : F) : Prop where
  /-- limits of fixed, extendable and committable units -/
  fixed : u.extendable = false → u.committable = false → ∀ t < n, u.active t = true →
    u.minPu t * u.nom ≤ p t ∧ p t ≤ u.maxPu t * u.nom
  extendable : u.extendable = true → ∀ t < n, u.active t = true → u.minPu t * cap ≤ p t ∧ p t ≤ u.maxPu t * cap
  committed : u.committable = true → ∀ t < n, u.active t = true →
    status t * (u.minPu t * u.nom) ≤ p t ∧ p t ≤ status t * (u.maxPu t * u.nom)
  /-- status, start-up and shut-down -/
  unitInterval : u.committable = true → ∀ t < n, u.active t = true →
    (0 ≤ status t ∧ status t ≤ 1) ∧ (0 ≤ up t ∧ up t ≤ 1) ∧ (0 ≤ down t ∧ down t ≤ 1)
  firstSwitch : u.committable = true → 0 < n → u.active 0 = true →
    (if past.on then status 0 - 1 ≤ up 0 ∧ 1 - status 0 ≤ down 0 else status 0 ≤ up 0 ∧ - status 0 ≤ down 0)
  switch : u.committable = true → ∀ t, t + 1 < n → u.active (t + 1) = true →
    status (t + 1) - inService u.active status t ≤ up (t + 1) ∧ inService u.active status t - status (t + 1) ≤ down (t + 1)
  /-- minimum up and down times: one start-up (shut-down) within so many snapshots, and none while off (on) -/
  minUp : u.committable = true → 0 < u.minUp → ∀ t < n, 1 ≤ t → u.active t = true →
    (((List.range n).filter (fun s => decide (s ≤ t ∧ t < s + u.minUp))).map (inService u.active up)).sum ≤ status t
  minDown : u.committable = true → 0 < u.minDown → ∀ t < n, 1 ≤ t → u.active t = true →
    (((List.range n).filter (fun s => decide (s ≤ t ∧ t < s + u.minDown))).map (inService u.active down)).sum ≤ 1 - status t
  stayUp : u.committable = true → 0 < past.up → ∀ t < n, u.active t = true → past.up + t < u.minUp → status t = 1
  stayDown : u.committable = true → 0 < past.down → ∀ t < n, u.active t = true → past.down + t < u.minDown → status t = 0
  /-- ramp limits -/
  rampUp : ramps → ∀ t, t + 1 < n → u.active (t + 1) = true → ∀ r, u.rampUp (t + 1) = some r →
    (u.extendable = false → u.committable = false → p (t + 1) - inService u.active p t ≤ r * u.nom) ∧
    (u.extendable = true → p (t + 1) - inService u.active p t ≤ r * cap)
  rampDown : ramps → ∀ t, t + 1 < n → u.active (t + 1) = true → ∀ r, u.rampDown (t + 1) = some r →
    (u.extendable = false → u.committable = false → inService u.active p t - p (t + 1) ≤ r * u.nom) ∧
    (u.extendable = true → inService u.active p t - p (t + 1) ≤ r * cap)
  rampUpCommitted : ramps → u.committable = true → ∀ t, t + 1 < n → u.active (t + 1) = true → ∀ r, u.rampUpStatic = some r →
    p (t + 1) - inService u.active p t ≤ r * u.nom * inService u.active status t +
      u.rampStart * u.nom * (status (t + 1) - inService u.active status t)
  rampDownCommitted : ramps → u.committable = true → ∀ t, t + 1 < n → u.active (t + 1) = true → ∀ r, u.rampDownStatic = some r →
    inService u.active p t - p (t + 1) ≤ r * u.nom * status (t + 1) +
      u.rampShut * u.nom * (inService u.active status t - status (t + 1))
  /-- ramp limits from the window before -/
  rampUpFirst : ramps → 0 < n → u.active 0 = true → ∀ q s, past.ramp = some (q, s) →
    (∀ r, u.rampUp 0 = some r → (u.extendable = false → u.committable = false → p 0 - q ≤ r * u.nom) ∧
      (u.extendable = true → p 0 - q ≤ r * cap)) ∧
    (u.committable = true → ∀ r, u.rampUpStatic = some r → p 0 - q ≤ r * u.nom * s + u.rampStart * u.nom * (status 0 - s))
  rampDownFirst : ramps → 0 < n → u.active 0 = true → ∀ q s, past.ramp = some (q, s) →
    (∀ r, u.rampDown 0 = some r → (u.extendable = false → u.committable = false → q - p 0 ≤ r * u.nom) ∧
      (u.extendable = true → q - p 0 ≤ r * cap)) ∧
    (u.committable = true → ∀ r, u.rampDownStatic = some r → q - p 0 ≤ r * u.nom * status 0 + u.rampShut * u.nom * (s - status 0))
  /-- tighter limits for the linearised commitment of units whose start-up costs as much as its shut-down -/
  linearised : linear → u.committable = true → u.startUpCost = u.shutDownCost → ∀ t, t + 1 < n → u.active (t + 1) = true →
    ∀ most least rise fall start shut before on, most = u.maxPu (t + 1) * u.nom → least = u.minPu (t + 1) * u.nom →
      rise = u.nom * u.rampUpStatic.getD 1 → fall = u.nom * u.rampDownStatic.getD 1 → start = u.nom * u.rampStart → shut = u.nom * u.rampShut →
      before = inService u.active p t → on = inService u.active status t →
      before ≤ shut * on + (most - shut) * (status (t + 1) - up (t + 1)) ∧
      p (t + 1) ≤ most * status (t + 1) - (most - start) * up (t + 1) ∧
      p (t + 1) - before ≤ (least + rise) * status (t + 1) - least * on - (least + rise - start) * up (t + 1) ∧
      before - p (t + 1) ≤ shut * on - (shut - fall) * status (t + 1) + (least + fall - shut) * up (t + 1)

/-- Ramp limits of a class are looked at unless there are none at all, or all of them are 1. -/
def RampsCount (us : List (Unit' F)) (n : Nat) : Prop :=
  (∃ u ∈ us, ∃ t < n, u.rampUp t ≠ none ∨ u.rampDown t ≠ none) ∧ (∃ u ∈ us, ∃ t < n, u.rampUp t ≠ some 1 ∨ u.rampDown t ≠ some 1)

/-- A given course is followed. -/
def SetRule (n : Nat) (active : Nat → Bool) (set : Nat → Option F) (x : Nat → F) : Prop :=
  ∀ t < n, active t = true → ∀ s, set t = some s → x t = s

/-- Weighted sum over the snapshots in service. -/
def total (n : Nat) (weight : Nat → F) (active : Nat → Bool) (x : Nat → F) : F :=
  ((List.range n).map (fun t => if active t then weight t * x t else 0)).sum

structure GenRule (w : WNet F) (g : GenW F) (y : Loc → F) : Prop where
  cap : CapRule g.unit.extendable g.invest (y .cap) (y .mod)
  unit : UnitRule g.unit (pastOf w.rolling g.unit) (w.linearized = true) (RampsCount (w.gens.map (·.unit)) w.len) w.len (fun t => y (.op "p" t)) (fun t => y (.op "status" t))
    (fun t => y (.op "start_up" t)) (fun t => y (.op "shut_down" t)) (y .cap)
  set : SetRule w.len g.unit.active g.pSet (fun t => y (.op "p" t))
  sumMin : (∃ t < w.len, g.unit.active t = true) → ∀ e, g.eSumMin = some e → e ≤ total w.len w.gw g.unit.active (fun t => y (.op "p" t))
  sumMax : (∃ t < w.len, g.unit.active t = true) → ∀ e, g.eSumMax = some e → total w.len w.gw g.unit.active (fun t => y (.op "p" t)) ≤ e

structure LinkRule (w : WNet F) (g : LinkW F) (y : Loc → F) : Prop where
  cap : CapRule g.unit.extendable g.invest (y .cap) (y .mod)
  unit : UnitRule g.unit (pastOf w.rolling g.unit) (w.linearized = true) (RampsCount (w.links.map (·.unit)) w.len) w.len (fun t => y (.op "p" t)) (fun t => y (.op "status" t))
    (fun t => y (.op "start_up" t)) (fun t => y (.op "shut_down" t)) (y .cap)
  set : SetRule w.len g.unit.active g.pSet (fun t => y (.op "p" t))

/-- The level follows from the one at the snapshot in service before, from the last one, or from the initial one. -/
structure LevelRule (n : Nat) (active : Nat → Bool) (cyclic : Bool) (initial : F) (keep level gain : Nat → F) : Prop where
  next : ∀ s t, s < t → t < n → active s = true → active t = true → (∀ r, s < r → r < t → active r = false) →
    level t = keep t * level s + gain t
  around : cyclic = true → ∀ s t, t ≤ s → s < n → active s = true → active t = true → (∀ r < t, active r = false) →
    (∀ r, s < r → r < n → active r = false) → level t = keep t * level s + gain t
  first : cyclic = false → ∀ t < n, active t = true → (∀ r < t, active r = false) → level t = initial + gain t

/-- With several investment periods, an asset may keep its account in each period on its own. -/
def PeriodRule (w : WNet F) (s : Storage F) (level gain : Nat → F) : Prop :=
  if w.multi = true ∧ (s.cyclicPerPeriod = true ∨ s.initialPerPeriod = true) then
    ∀ q, LevelRule w.len (fun t => s.active t && decide (w.period t = q)) s.cyclic s.initial s.keep level gain
  else LevelRule w.len s.active s.cyclic s.initial s.keep level gain

structure StoreRule (w : WNet F) (s : StoreW F) (y : Loc → F) : Prop where
  cap : CapRule s.ext s.invest (y .cap) (y .mod)
  limits : ∀ t < w.len, s.storage.active t = true →
    s.minPu t * (if s.ext then y .cap else s.nom) ≤ y (.op "e" t) ∧ y (.op "e" t) ≤ s.maxPu t * (if s.ext then y .cap else s.nom)
  set : SetRule w.len s.storage.active s.eSet (fun t => y (.op "e" t))
  level : PeriodRule w s.storage (fun t => y (.op "e" t))
    (fun t => - (s.storage.eh t * y (.op "p" t)))

structure StorageRule (w : WNet F) (s : UnitW F) (y : Loc → F) : Prop where
  cap : CapRule s.ext s.invest (y .cap) (y .mod)
  dispatch : ∀ t < w.len, s.storage.active t = true →
    0 ≤ y (.op "p_dispatch" t) ∧ y (.op "p_dispatch" t) ≤ s.maxPu t * (if s.ext then y .cap else s.nom)
  store : ∀ t < w.len, s.storage.active t = true →
    0 ≤ y (.op "p_store" t) ∧ y (.op "p_store" t) ≤ - (s.minPu t * (if s.ext then y .cap else s.nom))
  charge : ∀ t < w.len, s.storage.active t = true →
    0 ≤ y (.op "state_of_charge" t) ∧ y (.op "state_of_charge" t) ≤ s.maxHours * (if s.ext then y .cap else s.nom)
  spill : ∀ t < w.len, s.storage.active t = true → 0 < s.storage.inflow t →
    0 ≤ y (.op "spill" t) ∧ y (.op "spill" t) ≤ s.storage.inflow t
  set : SetRule w.len s.storage.active s.socSet (fun t => y (.op "state_of_charge" t))
  level : PeriodRule w s.storage.toStorage (fun t => y (.op "state_of_charge" t))
    (fun t => s.storage.eh t * (s.storage.effStore t * y (.op "p_store" t) - y (.op "p_dispatch" t) / s.storage.effDispatch t +
      s.storage.inflow t - if 0 < s.storage.inflow t then y (.op "spill" t) else 0))

/-- Lines and transformers; with losses, the flow and the loss share the capacity, and the loss is above the tangents of
`r p²`. -/
structure BranchRule (w : WNet F) (b : BranchW F) (y : Loc → F) : Prop where
  cap : CapRule b.ext b.invest (y .cap) (y .mod)
  limits : ∀ t < w.len, b.active t = true →
    - (b.maxPu t * (if b.ext then y .cap else b.nom)) ≤ y (.op "s" t) - (if w.tangents = 0 then 0 else y (.op "loss" t)) ∧
    y (.op "s" t) + (if w.tangents = 0 then 0 else y (.op "loss" t)) ≤ b.maxPu t * (if b.ext then y .cap else b.nom)
  set : SetRule w.len b.active b.sSet (fun t => y (.op "s" t))
  loss : w.tangents ≠ 0 → ∀ t < w.len, b.active t = true → ∀ rating, (if b.ext then b.invest.nomMax else some b.nom) = some rating →
    0 ≤ y (.op "loss" t) ∧ y (.op "loss" t) ≤ b.rPuEff * (b.maxPu t * rating) ^ 2 ∧
    ∀ k, 1 ≤ k → k ≤ w.tangents → ∀ p, p = (k : F) / (w.tangents : F) * b.maxPu t * rating →
      b.rPuEff * p ^ 2 + 2 * b.rPuEff * p * (y (.op "s" t) - p) ≤ y (.op "loss" t) ∧
      b.rPuEff * p ^ 2 + 2 * b.rPuEff * p * (- y (.op "s" t) - p) ≤ y (.op "loss" t)

/-- What is taken at the bus, if it is this bus and the asset is in service. -/
def atBus (b bus : Name) (active : Bool) (x : F) : F := if bus = b ∧ active = true then x else 0

/-- Half of the loss is taken at each end. -/
def halfLoss (w : WNet F) (loss : F) : F := if w.tangents = 0 then 0 else loss / 2

/-- What goes into the bus, without loads. -/
def supply (w : WNet F) (x : WVar → F) (t : Nat) (b : Name) : F :=
  (w.gens.map (fun g => atBus b g.bus (g.unit.active t) (g.sign * x (.of "Generator" g.name (.op "p" t))))).sum +
  (w.stores.map (fun s => atBus b s.bus (s.storage.active t) (s.sign * x (.of "Store" s.name (.op "p" t))))).sum +
  (w.units.map (fun s => atBus b s.bus (s.storage.active t)
    (s.sign * (x (.of "StorageUnit" s.name (.op "p_dispatch" t)) - x (.of "StorageUnit" s.name (.op "p_store" t)))))).sum +
  (w.lines.map (fun l =>
    atBus b l.bus0 (l.active t) (- x (.of "Line" l.name (.op "s" t)) - halfLoss w (x (.of "Line" l.name (.op "loss" t)))) +
    atBus b l.bus1 (l.active t) (x (.of "Line" l.name (.op "s" t)) - halfLoss w (x (.of "Line" l.name (.op "loss" t)))))).sum +
  (w.trafos.map (fun l =>
    atBus b l.bus0 (l.active t) (- x (.of "Transformer" l.name (.op "s" t)) - halfLoss w (x (.of "Transformer" l.name (.op "loss" t)))) +
    atBus b l.bus1 (l.active t) (x (.of "Transformer" l.name (.op "s" t)) - halfLoss w (x (.of "Transformer" l.name (.op "loss" t)))))).sum +
  (w.links.map (fun l =>
    atBus b l.bus0 (l.unit.active t) (- x (.of "Link" l.name (.op "p" t))) +
    atBus b l.bus1 (l.unit.active t) (l.eff t * x (.of "Link" l.name (.op "p" t))) +
    (l.extra.map (fun e => atBus b e.1 (l.unit.active t) (e.2 t * x (.of "Link" l.name (.op "p" t))))).sum)).sum

def demand (w : WNet F) (t : Nat) (b : Name) : F := (w.loads.map (fun l => atBus b l.bus (l.active t) (- (l.sign * l.pSet t)))).sum

/-- All rules. -/
structure Rules (w : WNet F) (x : WVar → F) : Prop where
  gens : ∀ g ∈ w.gens, GenRule w g (fun v => x (.of "Generator" g.name v))
  links : ∀ g ∈ w.links, LinkRule w g (fun v => x (.of "Link" g.name v))
  stores : ∀ g ∈ w.stores, StoreRule w g (fun v => x (.of "Store" g.name v))
  units : ∀ g ∈ w.units, StorageRule w g (fun v => x (.of "StorageUnit" g.name v))
  lines : ∀ g ∈ w.lines, BranchRule w g (fun v => x (.of "Line" g.name v))
  trafos : ∀ g ∈ w.trafos, BranchRule w g (fun v => x (.of "Transformer" g.name v))
  balance : ∀ t < w.len, ∀ b ∈ w.buses, supply w x t b = demand w t b

/-! ## Rows and rules -/

theorem cap_rule (ext : Bool) (i : Invest F) (cap mods : F) : CapOk ext i cap mods ↔ CapRule ext i cap mods := by
  constructor
  · intro h
    exact ⟨fun e => (h e).1, fun e => (h e).2.1, fun e => (h e).2.2.1, fun e hp => ⟨((h e).2.2.2 hp).2, by rw [((h e).2.2.2 hp).1, mul_comm]⟩⟩
  · intro h e
    exact ⟨h.least e, h.most e, h.set e, fun hp => ⟨by rw [(h.modules e hp).2, mul_comm], (h.modules e hp).1⟩⟩

theorem skip_rule (us : List (Unit' F)) (n : Nat) : rampSkip us n = false ↔ RampsCount us n := by
  unfold rampSkip RampsCount
  rw [Bool.or_eq_false_iff]
  simp only [List.all_eq_false, Bool.not_eq_true, decide_eq_false_iff_not, List.mem_range]
  simp only [not_and_or, ne_eq]

/-- A window backwards, as a sum over snapshots. -/
theorem window_sum (f : Nat → F) (m t n : Nat) (ht : t < n) :
    ((List.range m).map (fun k => if k ≤ t then f (t - k) else 0)).sum =
      (((List.range n).filter (fun s => decide (s ≤ t ∧ t < s + m))).map f).sum := by
  have e1 : ((List.range m).map (fun k => if k ≤ t then f (t - k) else 0)).sum =
      ∑ k ∈ Finset.range m, (if k ≤ t then f (t - k) else 0) := by
    rw [← List.sum_toFinset _ List.nodup_range]
    exact Finset.sum_congr (by ext; simp) (fun _ _ => rfl)
  have e2 : (((List.range n).filter (fun s => decide (s ≤ t ∧ t < s + m))).map f).sum =
      ∑ s ∈ (Finset.range n).filter (fun s => s ≤ t ∧ t < s + m), f s := by
    rw [← List.sum_toFinset _ (List.nodup_range.filter _)]
    apply Finset.sum_congr _ (fun _ _ => rfl)
    ext s
    simp
  rw [e1, e2, ← Finset.sum_filter]
  refine Finset.sum_bij' (fun k _ => t - k) (fun s _ => t - s) ?_ ?_ ?_ ?_ ?_
  · intro k hk
    simp only [Finset.mem_filter, Finset.mem_range] at hk ⊢
    omega
  · intro s hs
    simp only [Finset.mem_filter, Finset.mem_range] at hs ⊢
    omega
  · intro k hk
    simp only [Finset.mem_filter, Finset.mem_range] at hk
    omega
  · intro s hs
    simp only [Finset.mem_filter, Finset.mem_range] at hs
    omega
  · intro k _
    rfl

theorem feasible_if {V : Type} (val : V → F) (c : Prop) [Decidable c] (l : List (Con V F)) :
    Feasible val (if c then l else []) ↔ (c → Feasible val l) := by
  by_cases h : c <;> simp [h, Feasible]

theorem fixed_rule [IsStrictOrderedRing F] {u : Unit' F} {n : Nat} (val : UVar → F) :
    Feasible val (nonExtCons u n) ↔ (u.extendable = false → u.committable = false → ∀ t < n, u.active t = true →
      u.minPu t * u.nom ≤ val (.p t) ∧ val (.p t) ≤ u.maxPu t * u.nom) := by
  unfold nonExtCons
  cases u.extendable <;> cases u.committable <;> simp only [Bool.or_self, Bool.or_true, Bool.true_or, Bool.false_or, if_true, Bool.false_eq_true, if_false, feasible_nil,
    true_imp_iff, Bool.true_eq_false, false_imp_iff, implies_true, feasible_rowsAt, List.mem_range]
  refine forall₃_congr (fun t _ ha => ?_)
  simp [feasible_cons, Con.holds, orZero, present, ha]

theorem extendable_rule [IsStrictOrderedRing F] {u : Unit' F} {n : Nat} (val : UVar → F) :
    Feasible val (extCons u n) ↔ (u.extendable = true → ∀ t < n, u.active t = true →
      u.minPu t * val .cap ≤ val (.p t) ∧ val (.p t) ≤ u.maxPu t * val .cap) := by
  unfold extCons
  cases u.extendable <;> simp only [Bool.not_true, Bool.not_false, if_true, Bool.false_eq_true, if_false, feasible_nil,
    true_imp_iff, false_imp_iff, feasible_rowsAt, List.mem_range]
  refine forall₃_congr (fun t _ ha => ?_)
  simp [feasible_cons, Con.holds, orZero, present, ha]

theorem interval_rule {u : Unit' F} {n : Nat} (y : Loc → F) :
    Feasible y (commitRows n u) ↔ (u.committable = true → ∀ t < n, u.active t = true →
      (0 ≤ y (.op "status" t) ∧ y (.op "status" t) ≤ 1) ∧ (0 ≤ y (.op "start_up" t) ∧ y (.op "start_up" t) ≤ 1) ∧
        (0 ≤ y (.op "shut_down" t) ∧ y (.op "shut_down" t) ≤ 1)) := by
  unfold commitRows
  cases u.committable
  · simp
  · simp only [if_true, true_imp_iff, feasible_flatMap, List.mem_range]
    refine forall₂_congr (fun t _ => ?_)
    by_cases ha : u.active t = true
    · simp only [ha, if_true, true_imp_iff]
      simp only [feasible_flatMap, List.mem_cons, List.not_mem_nil, or_false, forall_eq_or_imp, forall_eq, feasible_cons, Con.holds, lin_cons, lin_nil,
        one_mul, add_zero, feasible_nil, and_true]
    · simp [ha]

/-- The rows of commitment, as inequalities, for a unit that has been up for `U` and down for `D` snapshots. -/
def CommitRows (u : Unit' F) (n U D : Nat) (val : UVar → F) : Prop :=
      (u.committable = true →
      (∀ t < n, u.active t = true → val (.status t) * (u.minPu t * u.nom) ≤ val (.p t) ∧ val (.p t) ≤ val (.status t) * (u.maxPu t * u.nom)) ∧
      (∀ t < n, u.active t = true →
        val (.status t) - before (if U = 0 then 0 else 1) (inService u.active (fun t => val (.status t))) t ≤ val (.startUp t) ∧
        before (if U = 0 then 0 else 1) (inService u.active (fun t => val (.status t))) t - val (.status t) ≤ val (.shutDown t)) ∧
      (∀ t < n, 1 ≤ t → u.active t = true →
        (0 < u.minUp → (((List.range n).filter (fun s => decide (s ≤ t ∧ t < s + u.minUp))).map
          (inService u.active (fun t => val (.startUp t)))).sum ≤ val (.status t)) ∧
        (0 < u.minDown → (((List.range n).filter (fun s => decide (s ≤ t ∧ t < s + u.minDown))).map
          (inService u.active (fun t => val (.shutDown t)))).sum ≤ 1 - val (.status t))) ∧
      (∀ t < n, u.active t = true →
        (0 < U → U + t < u.minUp → val (.status t) = 1) ∧
        (0 < D → D + t < u.minDown → val (.status t) = 0)))

theorem commit_iff [IsStrictOrderedRing F] {u : Unit' F} {n : Nat} {r : Bool} {U D : Nat} (hU : upTimeSet u r = (U : F))
    (hD : downTimeSet u r = (D : F)) (val : UVar → F) : Feasible val (comCons u n r) ↔ CommitRows u n U D val := by
  unfold CommitRows
  have hUp : initUp u r = decide (U ≠ 0) := by simp [initUp, hU]
  have hDown : initDown u r = decide (D ≠ 0) := by simp [initDown, hD]
  have hle : ∀ t a b : Nat, ((t + 1 : Nat) : F) ≤ max ((a : F) - (b : F)) 0 ↔ b + t < a := by
    intro t a b
    rw [le_max_iff]
    constructor
    · rintro (h | h)
      · have : ((b + (t + 1) : Nat) : F) ≤ (a : F) := by push_cast at h ⊢; linarith
        have := Nat.cast_le.mp this
        omega
      · have : (0 : F) < ((t + 1 : Nat) : F) := by exact_mod_cast Nat.succ_pos t
        exact absurd h (not_le.mpr this)
    · intro h
      left
      have : ((b + (t + 1) : Nat) : F) ≤ (a : F) := by exact_mod_cast h
      push_cast at this ⊢
      linarith
  unfold comCons
  cases hc : u.committable with
  | false => simp
  | true =>
    simp only [Bool.not_true, Bool.false_eq_true, if_false, true_imp_iff, feasible_append, feasible_rowsAt, List.mem_range, mem_tail]
    rw [and_assoc, and_assoc]
    refine and_congr ?_ (and_congr ?_ (and_congr ?_ ?_))
    · refine forall₃_congr (fun t _ ha => ?_)
      simp only [feasible_cons, feasible_nil, and_true, Con.holds, lin_append, lin_tm, orZero, present, ha, if_true]
      refine and_congr ?_ ?_ <;> constructor <;> intro h <;> linarith
    · refine forall₃_congr (fun t _ ha => ?_)
      simp only [feasible_cons, feasible_nil, and_true, Con.holds, lin_append, lin_tm, statusDiff, lin_prevTm u val _ UVar.status (fun _ => rfl), orZero, present, ha, if_true, hUp]
      have e : (level u fun t => val (.status t)) = inService u.active (fun t => val (.status t)) := rfl
      rw [e]
      cases t with
      | zero =>
        by_cases h0 : U = 0 <;> simp only [h0, before] <;> simp [h0, -and_congr_left_iff, -and_congr_right_iff] <;> refine and_congr ?_ ?_ <;>
          constructor <;> intro h <;> linarith
      | succ t =>
        simp only [before]
        simp [-and_congr_left_iff, -and_congr_right_iff]
        refine and_congr ?_ ?_ <;> constructor <;> intro h <;> linarith
    · have key : ∀ t < n, 1 ≤ t → u.active t = true → (Feasible val
          (if u.minUp ≠ 0 then [⟨tm (present u) (-1) (.status t) ++ windowTm u .startUp u.minUp t, .le, 0⟩] else []) ∧
          Feasible val (if u.minDown ≠ 0 then [⟨tm (present u) 1 (.status t) ++ windowTm u .shutDown u.minDown t, .le, 1⟩] else []) ↔
          (0 < u.minUp → (((List.range n).filter (fun s => decide (s ≤ t ∧ t < s + u.minUp))).map
            (inService u.active (fun t => val (.startUp t)))).sum ≤ val (.status t)) ∧
          (0 < u.minDown → (((List.range n).filter (fun s => decide (s ≤ t ∧ t < s + u.minDown))).map
            (inService u.active (fun t => val (.shutDown t)))).sum ≤ 1 - val (.status t))) := by
        intro t ht _ ha
        rw [← window_sum _ _ _ _ ht, ← window_sum _ _ _ _ ht, ← Nat.ne_zero_iff_zero_lt, ← Nat.ne_zero_iff_zero_lt]
        refine and_congr ?_ ?_
        · rw [feasible_if]
          refine imp_congr_right (fun _ => ?_)
          simp only [feasible_cons, feasible_nil, and_true, Con.holds, lin_append, lin_tm, lin_windowTm u val UVar.startUp (fun _ => rfl), orZero, present, ha,
            if_true]
          change _ + ((List.range u.minUp).map (fun k => if k ≤ t then inService u.active (fun t => val (.startUp t)) (t - k) else 0)).sum ≤ 0 ↔ _
          constructor <;> intro h <;> linarith
        · rw [feasible_if]
          refine imp_congr_right (fun _ => ?_)
          simp only [feasible_cons, feasible_nil, and_true, Con.holds, lin_append, lin_tm, lin_windowTm u val UVar.shutDown (fun _ => rfl), orZero, present, ha,
            if_true]
          change _ + ((List.range u.minDown).map (fun k => if k ≤ t then inService u.active (fun t => val (.shutDown t)) (t - k) else 0)).sum ≤ 1 ↔ _
          constructor <;> intro h <;> linarith
      exact ⟨fun h t ht h1 ha => (key t ht h1 ha).mp (h t ⟨h1, ht⟩ ha), fun h t ht ha => (key t ht.2 ht.1 ha).mpr (h t ht.2 ht.1 ha)⟩
    · refine forall₃_congr (fun t _ ha => ?_)
      simp only [feasible_append, hUp, hDown, hU, hD, hle, decide_eq_true_eq, feasible_if, feasible_cons,
        feasible_nil, and_true, Con.holds, lin_tm, orZero, present, ha, if_true, one_mul, and_imp, Nat.pos_iff_ne_zero]

/-- Ramp limits between two snapshots. -/
def RampStep (u : Unit' F) (up down : Option F) (p q status s cap : F) : Prop :=
  (∀ r, up = some r → (u.extendable = false → u.committable = false → p - q ≤ r * u.nom) ∧ (u.extendable = true → p - q ≤ r * cap)) ∧
  (∀ r, down = some r → (u.extendable = false → u.committable = false → q - p ≤ r * u.nom) ∧ (u.extendable = true → q - p ≤ r * cap)) ∧
  (u.committable = true → ∀ r, u.rampUpStatic = some r → p - q ≤ r * u.nom * s + u.rampStart * u.nom * (status - s)) ∧
  (u.committable = true → ∀ r, u.rampDownStatic = some r → q - p ≤ r * u.nom * status + u.rampShut * u.nom * (s - status))

theorem rows_later [IsStrictOrderedRing F] {u : Unit' F} {r : Bool} (val : UVar → F) {t : Nat} (ha : u.active (t + 1) = true) :
    Feasible val (rampRows u r (t + 1)) ↔ RampStep u (u.rampUp (t + 1)) (u.rampDown (t + 1)) (val (.p (t + 1)))
      (inService u.active (fun t => val (.p t)) t) (val (.status (t + 1))) (inService u.active (fun t => val (.status t)) t) (val .cap) := by
  have e1 : lin val (pDiff u (t + 1)) = val (.p (t + 1)) - inService u.active (fun t => val (.p t)) t := by
    rw [lin_pDiff]
    simp [before, dispatch, level, inService, ha]
  have e2 : ∀ k, lin val (prevTm u k .status (t + 1)) = k * inService u.active (fun t => val (.status t)) t := by
    intro k
    rw [lin_prevTm u val k UVar.status (fun _ => rfl)]
    rfl
  have e3 : ∀ k, lin val (tm (present u) k (.status (t + 1))) = k * val (.status (t + 1)) := by
    intro k
    simp [orZero, present, ha]
  have e4 : ∀ k, lin val (tm (present u) k .cap) = k * val .cap := by
    intro k
    simp [orZero, present]
  unfold rampRows RampStep
  simp only [feasible_append, feasible_if, rampStartRhs, Nat.add_eq_zero_iff, one_ne_zero, and_false, if_false, add_zero, Bool.and_eq_true,
    Bool.not_eq_true', and_imp]
  cases u.rampUp (t + 1) <;> cases u.rampDown (t + 1) <;> cases u.rampUpStatic <;> cases u.rampDownStatic <;>
    simp only [feasible_cons, feasible_nil, and_true, true_and, Con.holds, lin_append, e1, e2, e3, e4, Option.some.injEq, forall_eq', reduceCtorEq,
      false_imp_iff, implies_true, imp_true_iff]
  all_goals
    cases u.extendable <;> cases u.committable <;> simp only [true_imp_iff, Bool.true_eq_false, Bool.false_eq_true, false_imp_iff, implies_true, and_true,
      true_and, imp_true_iff]
  all_goals
    constructor <;> intro h <;> (try casesm* _ ∧ _) <;> (try constructorm* _ ∧ _) <;> linarith

theorem rows_first [IsStrictOrderedRing F] {u : Unit' F} (val : UVar → F) (ha : u.active 0 = true) :
    Feasible val (rampRows u true 0) ↔ RampStep u (u.rampUp 0) (u.rampDown 0) (val (.p 0)) u.histP (val (.status 0)) (u.histStatus.getLastD 0)
      (val .cap) := by
  have e1 : lin val (pDiff u 0) = val (.p 0) := by
    rw [lin_pDiff]
    simp [before, dispatch, level, ha]
  have e2 : ∀ k, lin val (prevTm u k .status 0) = 0 := by
    intro k
    simp [prevTm]
  have e3 : ∀ k, lin val (tm (present u) k (.status 0)) = k * val (.status 0) := by
    intro k
    simp [orZero, present, ha]
  have e4 : ∀ k, lin val (tm (present u) k .cap) = k * val .cap := by
    intro k
    simp [orZero, present]
  unfold rampRows RampStep
  simp only [feasible_append, feasible_if, rampStartRhs, lastStatus, true_and, if_true, Bool.and_eq_true, Bool.not_eq_true', and_imp]
  generalize u.histStatus.getLastD 0 = s
  cases u.rampUp 0 <;> cases u.rampDown 0 <;> cases u.rampUpStatic <;> cases u.rampDownStatic <;>
    simp only [feasible_cons, feasible_nil, and_true, true_and, Con.holds, lin_append, e1, e2, e3, e4, Option.some.injEq, forall_eq', reduceCtorEq,
      false_imp_iff, implies_true, imp_true_iff]
  all_goals
    cases u.extendable <;> cases u.committable <;> simp only [true_imp_iff, Bool.true_eq_false, Bool.false_eq_true, false_imp_iff, implies_true, and_true,
      true_and, imp_true_iff]
  all_goals
    constructor <;> intro h <;> (try casesm* _ ∧ _) <;> (try constructorm* _ ∧ _) <;> linarith

theorem ramp_rule [IsStrictOrderedRing F] {cls : List (Unit' F)} {u : Unit' F} {n : Nat} {r : Bool} (val : UVar → F) :
    Feasible val (rampCons cls u n r) ↔ (RampsCount cls n →
      (r = true → 0 < n → u.active 0 = true → RampStep u (u.rampUp 0) (u.rampDown 0) (val (.p 0)) u.histP (val (.status 0))
        (u.histStatus.getLastD 0) (val .cap)) ∧
      ∀ t, t + 1 < n → u.active (t + 1) = true → RampStep u (u.rampUp (t + 1)) (u.rampDown (t + 1)) (val (.p (t + 1)))
        (inService u.active (fun t => val (.p t)) t) (val (.status (t + 1))) (inService u.active (fun t => val (.status t)) t) (val .cap)) := by
  have hs : rampSkip cls n = true ∨ rampSkip cls n = false := by cases rampSkip cls n <;> simp
  unfold rampCons
  rcases hs with hs | hs
  · have hn : ¬ RampsCount cls n := fun h => by rw [(skip_rule cls n).mpr h] at hs; cases hs
    simp [hs, hn]
  · have hy : RampsCount cls n := (skip_rule cls n).mp hs
    simp only [hs, Bool.false_eq_true, if_false, hy, true_imp_iff, feasible_rowsAt]
    cases r with
    | false =>
      simp only [Bool.false_eq_true, if_false, false_imp_iff, true_and, mem_tail]
      constructor
      · exact fun h t ht ha => (rows_later val ha).mp (h (t + 1) ⟨by omega, ht⟩ ha)
      · intro h t ht ha
        obtain ⟨k, rfl⟩ : ∃ k, t = k + 1 := ⟨t - 1, by omega⟩
        exact (rows_later val ha).mpr (h k ht.2 ha)
    | true =>
      simp only [if_true, true_imp_iff, List.mem_range]
      constructor
      · exact fun h => ⟨fun h0 ha => (rows_first val ha).mp (h 0 h0 ha), fun t ht ha => (rows_later val ha).mp (h (t + 1) ht ha)⟩
      · rintro ⟨h0, h⟩ t ht ha
        cases t with
        | zero => exact (rows_first val ha).mpr (h0 ht ha)
        | succ t => exact (rows_later val ha).mpr (h t ht ha)

theorem linear_rule [IsStrictOrderedRing F] {u : Unit' F} {n : Nat} (val : UVar → F) :
    Feasible val (linearizedCons u n) ↔ (u.committable = true → u.startUpCost = u.shutDownCost → ∀ t, t + 1 < n → u.active (t + 1) = true →
    ∀ most least rise fall start shut before on, most = u.maxPu (t + 1) * u.nom → least = u.minPu (t + 1) * u.nom →
      rise = u.nom * u.rampUpStatic.getD 1 → fall = u.nom * u.rampDownStatic.getD 1 → start = u.nom * u.rampStart → shut = u.nom * u.rampShut →
      before = inService u.active (fun t => val (.p t)) t → on = inService u.active (fun t => val (.status t)) t →
      before ≤ shut * on + (most - shut) * (val (.status (t + 1)) - val (.startUp (t + 1))) ∧
      val (.p (t + 1)) ≤ most * val (.status (t + 1)) - (most - start) * val (.startUp (t + 1)) ∧
      val (.p (t + 1)) - before ≤ (least + rise) * val (.status (t + 1)) - least * on - (least + rise - start) * val (.startUp (t + 1)) ∧
      before - val (.p (t + 1)) ≤ shut * on - (shut - fall) * val (.status (t + 1)) + (least + fall - shut) * val (.startUp (t + 1))) := by
  unfold linearizedCons
  by_cases hc : u.committable = true
  · by_cases he : u.startUpCost = u.shutDownCost
    · simp only [hc, he, Bool.not_true, ne_eq, not_true, decide_false, Bool.or_false, Bool.false_eq_true, if_false, true_imp_iff, feasible_rowsAt, mem_tail]
      have key : ∀ t, u.active (t + 1) = true → ∀ k : F, ∀ mk : Nat → UVar, (∀ s, present u (mk s) = u.active s) →
          lin val (prevTm u k mk (t + 1)) = k * inService u.active (fun t => val (mk t)) t ∧
          lin val (tm (present u) k (mk (t + 1))) = k * val (mk (t + 1)) := by
        intro t ha k mk hmk
        refine ⟨?_, ?_⟩
        · rw [lin_prevTm u val k mk hmk]
          rfl
        · simp [orZero, hmk, ha]
      have shift : ∀ {A B : Nat → Prop}, (∀ t, u.active (t + 1) = true → (A (t + 1) ↔ B t)) →
          ((∀ t, 1 ≤ t ∧ t < n → u.active t = true → A t) ↔ ∀ t, t + 1 < n → u.active (t + 1) = true → B t) := by
        intro A B h
        constructor
        · exact fun hA t ht ha => (h t ha).mp (hA (t + 1) ⟨by omega, ht⟩ ha)
        · intro hB t ht ha
          obtain ⟨k, rfl⟩ : ∃ k, t = k + 1 := ⟨t - 1, by omega⟩
          exact (h k ha).mpr (hB k ht.2 ha)
      apply shift
      intro t ha
      have p1 : ∀ k, _ := fun k => (key t ha k UVar.p (fun _ => rfl)).1
      have p2 : ∀ k, _ := fun k => (key t ha k UVar.p (fun _ => rfl)).2
      have s1 : ∀ k, _ := fun k => (key t ha k UVar.status (fun _ => rfl)).1
      have s2 : ∀ k, _ := fun k => (key t ha k UVar.status (fun _ => rfl)).2
      have u2 : ∀ k, _ := fun k => (key t ha k UVar.startUp (fun _ => rfl)).2
      simp only [feasible_cons, feasible_nil, and_true, Con.holds, lin_append, p1, p2, s1, s2, u2]
      constructor
      · rintro ⟨h1, h2, h3, h4⟩ most least rise fall start shut before on rfl rfl rfl rfl rfl rfl rfl rfl
        refine ⟨?_, ?_, ?_, ?_⟩ <;> linarith
      · intro h
        obtain ⟨h1, h2, h3, h4⟩ := h _ _ _ _ _ _ _ _ rfl rfl rfl rfl rfl rfl rfl rfl
        refine ⟨?_, ?_, ?_, ?_⟩ <;> linarith
    · simp [he]
  · simp [hc]

/-- Recorded statuses are 0 or 1. -/
def Recorded (rolling : Bool) (u : Unit' F) : Prop := rolling = true → u.committable = true → ∀ s ∈ u.histStatus, s = 0 ∨ s = 1

theorem past_times [IsStrictOrderedRing F] {u : Unit' F} {r : Bool} (hc : u.committable = true) (hh : Recorded r u) : ∃ U D : Nat,
    upTimeSet u r = (U : F) ∧ downTimeSet u r = (D : F) ∧ ((pastOf r u).on = true ↔ U ≠ 0) ∧
    (∀ t, (0 < U ∧ U + t < u.minUp ↔ 0 < (pastOf r u).up ∧ (pastOf r u).up + t < u.minUp)) ∧
    (∀ t, (0 < D ∧ D + t < u.minDown ↔ 0 < (pastOf r u).down ∧ (pastOf r u).down + t < u.minDown)) := by
  cases r with
  | false => exact ⟨u.upBefore, u.downBefore, by simp [upTimeSet], by simp [downTimeSet], by simp [pastOf, Nat.pos_iff_ne_zero], by simp [pastOf],
      by simp [pastOf]⟩
  | true =>
    have hr : ∀ x ∈ u.histStatus.reverse, x = 0 ∨ x = 1 := fun x hx => hh rfl hc x (List.mem_reverse.mp hx)
    refine ⟨min (run 1 u.histStatus) u.minUp, min (run 0 u.histStatus) u.minDown, ?_, ?_, ?_, ?_, ?_⟩
    · have := runLength_run u.histStatus.reverse hr 0
      simp only [Nat.cast_zero] at this
      simp [upTimeSet, this, run]
    · simp only [downTimeSet, runLength_off _ hr, run, if_true]
      push_cast
      rfl
    · simp only [pastOf, if_true, decide_eq_true_eq]
      omega
    · intro t
      simp only [pastOf, if_true]
      omega
    · intro t
      simp only [pastOf, if_true]
      omega

theorem unit_rule [IsStrictOrderedRing F] {cls : List (Unit' F)} {u : Unit' F} {n : Nat} {r l : Bool} (hh : Recorded r u) (y : Loc → F) :
    (Feasible y ((unitCons cls u n r l).map (remap unitLoc)) ∧ Feasible y (commitRows n u)) ↔
      UnitRule u (pastOf r u) (l = true) (RampsCount cls n) n (fun t => y (.op "p" t)) (fun t => y (.op "status" t)) (fun t => y (.op "start_up" t))
        (fun t => y (.op "shut_down" t)) (y .cap) := by
  have hcom : ∃ U D : Nat, (Feasible (fun v => y (unitLoc v)) (comCons u n r) ↔ CommitRows u n U D (fun v => y (unitLoc v))) ∧ (u.committable = true →
      ((pastOf r u).on = true ↔ U ≠ 0) ∧
      (∀ t, (0 < U ∧ U + t < u.minUp ↔ 0 < (pastOf r u).up ∧ (pastOf r u).up + t < u.minUp)) ∧
      (∀ t, (0 < D ∧ D + t < u.minDown ↔ 0 < (pastOf r u).down ∧ (pastOf r u).down + t < u.minDown))) := by
    by_cases hc : u.committable = true
    · obtain ⟨U, D, hU, hD, h⟩ := past_times hc hh
      exact ⟨U, D, commit_iff hU hD _, fun _ => h⟩
    · refine ⟨0, 0, ?_, fun h => absurd h hc⟩
      have : comCons u n r = comCons u n false := by simp [comCons, hc]
      rw [this]
      have e := commit_iff (u := u) (n := n) (r := false) (U := u.upBefore) (D := u.downBefore) (by simp [upTimeSet]) (by simp [downTimeSet])
        (fun v => y (unitLoc v))
      rw [e]
      exact ⟨fun _ h => absurd h hc, fun _ h => absurd h hc⟩
  obtain ⟨U, D, hcom, hpast⟩ := hcom
  rw [show Feasible y (List.map (remap unitLoc) _) ↔ _ from all_moved _ _ _]
  unfold unitCons
  simp only [feasible_append, feasible_if]
  rw [fixed_rule, extendable_rule, hcom, ramp_rule, interval_rule, linear_rule]
  unfold CommitRows
  simp only [unitLoc]
  constructor
  · rintro ⟨⟨⟨⟨⟨h1, h2⟩, h3⟩, h6⟩, h4⟩, h5⟩
    refine ⟨h1, h2, fun c => (h3 c).1, h5, ?_, ?_, ?_, ?_, ?_, ?_, ?_, ?_, ?_, ?_, ?_, ?_, h6⟩
    · intro c h0 ha
      have := (h3 c).2.1 0 h0 ha
      simp only [before] at this
      have ho := (hpast c).1
      by_cases hb : U = 0
      · rw [if_neg (by rw [ho]; simpa using hb)]
        simpa [hb] using this
      · rw [if_pos (ho.mpr hb)]
        simpa [hb] using this
    · exact fun c t ht ha => (h3 c).2.1 (t + 1) ht ha
    · exact fun c hm t ht h1 ha => ((h3 c).2.2.1 t ht h1 ha).1 hm
    · exact fun c hm t ht h1 ha => ((h3 c).2.2.1 t ht h1 ha).2 hm
    · intro c hb t ht ha hlt
      have := ((hpast c).2.1 t).mpr ⟨hb, hlt⟩
      exact ((h3 c).2.2.2 t ht ha).1 this.1 this.2
    · intro c hb t ht ha hlt
      have := ((hpast c).2.2 t).mpr ⟨hb, hlt⟩
      exact ((h3 c).2.2.2 t ht ha).2 this.1 this.2
    · exact fun hr t ht ha => ((h4 hr).2 t ht ha).1
    · exact fun hr t ht ha => ((h4 hr).2 t ht ha).2.1
    · exact fun hr c t ht ha => ((h4 hr).2 t ht ha).2.2.1 c
    · exact fun hr c t ht ha => ((h4 hr).2 t ht ha).2.2.2 c
    · intro hr h0 ha q s hq
      cases r with
      | false => simp [pastOf] at hq
      | true =>
        simp only [pastOf, if_true, Option.some.injEq, Prod.mk.injEq] at hq
        obtain ⟨rfl, rfl⟩ := hq
        have := (h4 hr).1 rfl h0 ha
        exact ⟨this.1, this.2.2.1⟩
    · intro hr h0 ha q s hq
      cases r with
      | false => simp [pastOf] at hq
      | true =>
        simp only [pastOf, if_true, Option.some.injEq, Prod.mk.injEq] at hq
        obtain ⟨rfl, rfl⟩ := hq
        have := (h4 hr).1 rfl h0 ha
        exact ⟨this.2.1, this.2.2.2⟩
  · intro h
    refine ⟨⟨⟨⟨⟨h.fixed, h.extendable⟩, fun c => ⟨h.committed c, ?_, fun t ht h1 ha => ⟨fun hm => h.minUp c hm t ht h1 ha, fun hm => h.minDown c hm t ht h1 ha⟩,
      fun t ht ha => ⟨fun hb hlt => ?_, fun hb hlt => ?_⟩⟩⟩, h.linearised⟩,
      fun hr => ⟨?_, fun t ht ha => ⟨h.rampUp hr t ht ha, h.rampDown hr t ht ha, fun c => h.rampUpCommitted hr c t ht ha, fun c => h.rampDownCommitted hr c t ht ha⟩⟩⟩,
      h.unitInterval⟩
    · intro t ht ha
      cases t with
      | zero =>
        have := h.firstSwitch c ht ha
        have ho := (hpast c).1
        simp only [before]
        by_cases hb : U = 0
        · rw [if_neg (by rw [ho]; simpa using hb)] at this
          simpa [hb] using this
        · rw [if_pos (ho.mpr hb)] at this
          simpa [hb] using this
      | succ t => exact h.switch c t ht ha
    · have := ((hpast c).2.1 t).mp ⟨hb, hlt⟩
      exact h.stayUp c this.1 t ht ha this.2
    · have := ((hpast c).2.2 t).mp ⟨hb, hlt⟩
      exact h.stayDown c this.1 t ht ha this.2
    · rintro rfl h0 ha
      have e : (pastOf true u).ramp = some (u.histP, u.histStatus.getLastD 0) := by simp [pastOf]
      exact ⟨(h.rampUpFirst hr h0 ha _ _ e).1, (h.rampDownFirst hr h0 ha _ _ e).1, (h.rampUpFirst hr h0 ha _ _ e).2, (h.rampDownFirst hr h0 ha _ _ e).2⟩

theorem total_filter (n : Nat) (weight : Nat → F) (active : Nat → Bool) (x : Nat → F) :
    (((List.range n).filter active).map (fun t => weight t * x t)).sum = total n weight active x := by
  unfold total
  induction (List.range n) with
  | nil => rfl
  | cons a l ih => by_cases h : active a = true <;> simp [h, ih]

theorem sum_rule (n : Nat) (weight : Nat → F) (name : Name) (active : Nat → Bool) (lo hi : Option F) (y : Loc → F) :
    Feasible y ((Capacity.totalSupplyCons (List.range n) weight [⟨name, active, lo, hi⟩]).map (remap (fun v => Loc.op "p" v.2))) ↔
      ((∃ t < n, active t = true) → ∀ e, lo = some e → e ≤ total n weight active (fun t => y (.op "p" t))) ∧
      ((∃ t < n, active t = true) → ∀ e, hi = some e → total n weight active (fun t => y (.op "p" t)) ≤ e) := by
  rw [show Feasible y (List.map (remap _) _) ↔ _ from all_moved _ _ _]
  have key : ∀ (sense : Sense) (e : F), Feasible (fun v : Name × Nat => y (.op "p" v.2))
      (Capacity.rowOf (Capacity.sumTerms (List.range n) weight ⟨name, active, lo, hi⟩) sense e) ↔
      ((∃ t < n, active t = true) → Con.holds (fun v : Name × Nat => y (.op "p" v.2))
        ⟨Capacity.sumTerms (List.range n) weight ⟨name, active, lo, hi⟩, sense, e⟩) := by
    intro sense e
    have hex : (∃ t < n, active t = true) ↔ (Capacity.sumTerms (List.range n) weight ⟨name, active, lo, hi⟩).isEmpty = false := by
      unfold Capacity.sumTerms
      rw [← Bool.not_eq_true, List.isEmpty_iff, List.map_eq_nil_iff, List.filter_eq_nil_iff]
      simp
    rw [hex]
    unfold Capacity.rowOf
    cases (Capacity.sumTerms (List.range n) weight ⟨name, active, lo, hi⟩).isEmpty <;> simp [feasible_cons]
  have hl : lin (fun v : Name × Nat => y (.op "p" v.2)) (Capacity.sumTerms (List.range n) weight ⟨name, active, lo, hi⟩) =
      total n weight active (fun t => y (.op "p" t)) := by
    unfold Capacity.sumTerms lin
    rw [List.map_map]
    exact total_filter n weight active _
  unfold Capacity.totalSupplyCons
  simp only [List.flatMap_cons, List.flatMap_nil, List.append_nil, feasible_append]
  refine and_congr ?_ ?_
  · cases lo with
    | none => simp
    | some e =>
      rw [key]
      simp only [Con.holds, hl]
      simp
  · cases hi with
    | none => simp
    | some e =>
      rw [key]
      simp only [Con.holds, hl]
      simp

/-- The rows over a set of snapshots within which each one refers to the one before. -/
theorem level_core [IsStrictOrderedRing F] {a : Storage F} {win : Window} {ok : Nat → Bool}
    (hprev : ∀ t < win.len, ok t = true →
      (∀ s, PrevIn (fun s => ok s = true) t s → previous a win t = some s ∧ included a win t = true) ∧
      ((¬ ∃ s, PrevIn (fun s => ok s = true) t s) →
        if a.cyclic then ∀ s, LastIn (fun s => ok s = true) win.len s → previous a win t = some s ∧ included a win t = true
        else previous a win t = none ∧ included a win t = false)) (lev gain : Nat → F) :
    (∀ t < win.len, ok t = true → lev t = kept a win lev t + gain t + if included a win t then 0 else a.initial) ↔
      LevelRule win.len ok a.cyclic a.initial a.keep lev gain := by
  have prevIs : ∀ {s t : Nat}, s < t → ok s = true → (∀ r, s < r → r < t → ok r = false) →
      PrevIn (fun s => ok s = true) t s := fun h h1 h2 => ⟨h, h1, fun r hr hr' => by simp [h2 r hr hr']⟩
  have noPrev : ∀ {t : Nat}, (∀ r < t, ok r = false) → ¬ ∃ s, PrevIn (fun s => ok s = true) t s := by
    rintro t h ⟨s, hs, h1, -⟩
    rw [h s hs] at h1
    cases h1
  constructor
  · intro h
    refine ⟨?_, ?_, ?_⟩
    · intro s t hs ht as at' hn
      obtain ⟨e1, e2⟩ := (hprev t ht at').1 s (prevIs hs as hn)
      have := h t ht at'
      rw [e2] at this
      simp only [kept, e1] at this
      simpa using this
    · intro hc s t hts hs as at' hn hl
      have ht : t < win.len := by omega
      have := (hprev t ht at').2 (noPrev hn)
      rw [if_pos hc] at this
      obtain ⟨e1, e2⟩ := this s ⟨hs, as, fun r hr hr' => by simp [hl r hr hr']⟩
      have := h t ht at'
      rw [e2] at this
      simp only [kept, e1] at this
      simpa using this
    · intro hc t ht at' hn
      have := (hprev t ht at').2 (noPrev hn)
      rw [hc] at this
      simp only [Bool.false_eq_true, if_false] at this
      have h' := h t ht at'
      rw [this.2] at h'
      simp only [kept, this.1] at h'
      rw [h']
      simp [add_comm]
  · intro h t ht at'
    rcases prevIn_or (fun s => ok s = true) t with ⟨s, hs⟩ | hn
    · obtain ⟨e1, e2⟩ := (hprev t ht at').1 s hs
      rw [e2]
      simp only [kept, e1, if_true, add_zero]
      exact h.next s t hs.1 ht hs.2.1 at' (fun r hr hr' => by simpa using hs.2.2 r hr hr')
    · have hn' : ∀ r < t, ok r = false := fun r hr => by simpa using hn r hr
      have := (hprev t ht at').2 (noPrev hn')
      cases hc : a.cyclic with
      | false =>
        rw [hc] at this
        simp only [Bool.false_eq_true, if_false] at this
        rw [this.2]
        simp only [kept, this.1, Bool.false_eq_true, if_false]
        rw [h.first hc t ht at' hn']
        ring
      | true =>
        rw [if_pos hc] at this
        rcases prevIn_or (fun s => ok s = true) win.len with ⟨s, hs⟩ | hno
        · obtain ⟨e1, e2⟩ := this s hs
          rw [e2]
          simp only [kept, e1, if_true, add_zero]
          have hts : t ≤ s := by
            by_contra hlt
            exact hs.2.2 t (by omega) ht at'
          exact h.around hc s t hts hs.1 hs.2.1 at' hn' (fun r hr hr' => by simpa using hs.2.2 r hr hr')
        · exact absurd at' (hno t ht)

/-- Where the account is kept per period, the snapshots of a period are consecutive and share the activity. -/
def InPeriods (w : WNet F) (a : Storage F) : Prop :=
  w.multi = true → a.cyclicPerPeriod = true ∨ a.initialPerPeriod = true → Regular a.active ⟨w.len, w.multi, w.period⟩

theorem level_rule [IsStrictOrderedRing F] {w : WNet F} {a : Storage F} (hreg : InPeriods w a) (lev gain : Nat → F) :
    Levels a ⟨w.len, w.multi, w.period⟩ lev gain ↔ PeriodRule w a lev gain := by
  unfold PeriodRule
  by_cases hp : w.multi = true ∧ (a.cyclicPerPeriod = true ∨ a.initialPerPeriod = true)
  · rw [if_pos hp]
    have hpp : perPeriod a ⟨w.len, w.multi, w.period⟩ = true := by simpa [perPeriod] using hp
    have e : ∀ t, (fun s => a.active s = true ∧ w.period s = w.period t) = (fun s => (a.active s && decide (w.period s = w.period t)) = true) := by
      intro t; funext s; simp
    have core : ∀ q, _ := fun q => level_core (a := a) (win := ⟨w.len, w.multi, w.period⟩) (ok := fun t => a.active t && decide (w.period t = q))
      (by
        intro t ht hok
        simp only [Bool.and_eq_true, decide_eq_true_eq] at hok
        obtain ⟨ha, rfl⟩ := hok
        have := previous_perPeriod a ⟨w.len, w.multi, w.period⟩ (hreg hp.1 hp.2) hpp t ht ha
        simp only [e] at this
        exact this) lev gain
    constructor
    · intro h q
      refine (core q).mp (fun t ht hok => h t ht ?_)
      simp only [Bool.and_eq_true] at hok
      exact hok.1
    · intro h t ht ha
      exact (core (w.period t)).mpr (h (w.period t)) t ht (by simp [ha])
  · rw [if_neg hp]
    have hpp : perPeriod a ⟨w.len, w.multi, w.period⟩ = false := by
      rw [← Bool.not_eq_true]
      simpa [perPeriod] using hp
    exact level_core (a := a) (win := ⟨w.len, w.multi, w.period⟩) (ok := a.active) (fun t ht ha => previous_whole a _ hpp t ht ha) lev gain

theorem store_rule [IsStrictOrderedRing F] {w : WNet F} {s : StoreW F} (hm : InPeriods w s.storage) {rs : List (Con Loc F)}
    (h : storeRows w s = some rs) (y : Loc → F) : (∀ q ∈ rs, q.holds y) ↔ StoreRule w s y := by
  rw [store_iff h, level_rule hm, cap_rule]
  have e : (fun t => - s.storage.eh t * y (.op "p" t)) = (fun t => - (s.storage.eh t * y (.op "p" t))) := by
    funext t; ring
  rw [e]
  exact ⟨fun ⟨h1, h2, h3, h4⟩ => ⟨h1, h2, h3, h4⟩, fun h => ⟨h.cap, h.limits, h.set, h.level⟩⟩

theorem storage_rule [IsStrictOrderedRing F] {w : WNet F} {s : UnitW F} (hm : InPeriods w s.storage.toStorage) {rs : List (Con Loc F)}
    (h : sunitRows w s = some rs) (y : Loc → F) : (∀ q ∈ rs, q.holds y) ↔ StorageRule w s y := by
  rw [sunit_iff h, level_rule hm, cap_rule]
  constructor
  · rintro ⟨h1, h2, h3, h4, h5⟩
    exact ⟨h1, fun t ht ha => (h2 t ht ha).1, fun t ht ha => ⟨(h2 t ht ha).2.1.1, by rw [← neg_mul]; exact (h2 t ht ha).2.1.2⟩,
      fun t ht ha => (h2 t ht ha).2.2, h4, h3, h5⟩
  · intro h
    exact ⟨h.cap, fun t ht ha => ⟨h.dispatch t ht ha, ⟨(h.store t ht ha).1, by rw [neg_mul]; exact (h.store t ht ha).2⟩,
      h.charge t ht ha⟩, h.set, h.spill, h.level⟩

theorem gen_rule [IsStrictOrderedRing F] {w : WNet F} {g : GenW F} (hh : Recorded w.rolling g.unit)
    {rs : List (Con Loc F)} (h : genRows w g = some rs) (y : Loc → F) : (∀ q ∈ rs, q.holds y) ↔ GenRule w g y := by
  unfold genRows at h
  obtain ⟨cap, hc, rfl⟩ := Option.map_eq_some_iff.mp h
  change Feasible y _ ↔ _
  simp only [feasible_append]
  rw [show Feasible y cap ↔ _ from capRows_iff hc y, show Feasible y (setRows _ _ _ _) ↔ _ from set_iff y, sum_rule, cap_rule,
    and_assoc (a := CapRule _ _ _ _), unit_rule hh]
  exact ⟨fun ⟨⟨⟨h1, h2⟩, h3⟩, h4⟩ => ⟨h1, h2, h3, h4.1, h4.2⟩, fun h => ⟨⟨⟨h.cap, h.unit⟩, h.set⟩, h.sumMin, h.sumMax⟩⟩

theorem link_rule [IsStrictOrderedRing F] {w : WNet F} {g : LinkW F} (hh : Recorded w.rolling g.unit)
    {rs : List (Con Loc F)} (h : linkRows w g = some rs) (y : Loc → F) : (∀ q ∈ rs, q.holds y) ↔ LinkRule w g y := by
  unfold linkRows at h
  obtain ⟨cap, hc, rfl⟩ := Option.map_eq_some_iff.mp h
  change Feasible y _ ↔ _
  simp only [feasible_append]
  rw [show Feasible y cap ↔ _ from capRows_iff hc y, show Feasible y (setRows _ _ _ _) ↔ _ from set_iff y, cap_rule,
    and_assoc (a := CapRule _ _ _ _), unit_rule hh]
  exact ⟨fun ⟨⟨h1, h2⟩, h3⟩ => ⟨h1, h2, h3⟩, fun h => ⟨⟨h.cap, h.unit⟩, h.set⟩⟩

theorem limits_rule [IsStrictOrderedRing F] {len : Nat} {c : Accessor.Cls} (hp : Accessor.passive c = true) {losses : Bool} {b : BranchW F} (y : Loc → F) :
    Feasible y (boundRows len c .s "s" losses (branchBound b)) ↔ ∀ t < len, b.active t = true →
      - (b.maxPu t * (if b.ext then y .cap else b.nom)) ≤ y (.op "s" t) - (if losses then y (.op "loss" t) else 0) ∧
      y (.op "s" t) + (if losses then y (.op "loss" t) else 0) ≤ b.maxPu t * (if b.ext then y .cap else b.nom) := by
  unfold boundRows
  simp only [feasible_flatMap, List.mem_range]
  refine forall₂_congr (fun t _ => ?_)
  rw [show Feasible y _ ↔ _ from all_moved (boundLoc "s" t) y (Accessor.opRows c .s losses (branchBound b t))]
  have hb : Accessor.boundsPu c .s (branchBound b t) = (- b.maxPu t, b.maxPu t) := by
    cases c <;> simp_all [Accessor.passive, Accessor.boundsPu, branchBound]
  unfold Accessor.opRows Accessor.fixRows Accessor.extRows
  rw [hb]
  cases ha : b.active t <;> cases he : b.ext <;> cases losses <;>
    simp [branchBound, ha, he, feasible_cons, Con.holds, Accessor.lossTm, hp, boundLoc, lin, sub_eq_add_neg, -and_congr_left_iff, -and_congr_right_iff]
  all_goals
    refine and_congr ?_ ?_ <;> constructor <;> intro h <;> linarith

theorem loss_rule [IsStrictOrderedRing F] {w : WNet F} {b : BranchW F} {rs : List (Con Loc F)} (h : lossRows w b = some rs) (y : Loc → F) :
    Feasible y rs ↔ (w.tangents ≠ 0 → ∀ t < w.len, b.active t = true → ∀ rating, (if b.ext then b.invest.nomMax else some b.nom) = some rating →
      0 ≤ y (.op "loss" t) ∧ y (.op "loss" t) ≤ b.rPuEff * (b.maxPu t * rating) ^ 2 ∧
      ∀ k, 1 ≤ k → k ≤ w.tangents → ∀ p, p = (k : F) / (w.tangents : F) * b.maxPu t * rating →
        b.rPuEff * p ^ 2 + 2 * b.rPuEff * p * (y (.op "s" t) - p) ≤ y (.op "loss" t) ∧
        b.rPuEff * p ^ 2 + 2 * b.rPuEff * p * (- y (.op "s" t) - p) ≤ y (.op "loss" t)) := by
  have hall : Feasible y rs ↔ (w.tangents ≠ 0 → ∀ t < w.len, ∀ r, lossCons (branchLoss b t) w.tangents = .ok r →
      Feasible (fun v => y (lossLoc t v)) r) := by
    constructor
    · intro hf h0 t ht r hr q hq
      exact (holds_remap _ _ _).mp (hf _ ((mem_lossRows h _).mpr ⟨h0, t, ht, r, hr, q, hq, rfl⟩))
    · intro hf q hq
      obtain ⟨h0, t, ht, r, hr, c, hc, rfl⟩ := (mem_lossRows h q).mp hq
      exact (holds_remap _ _ _).mpr (hf h0 t ht r hr c hc)
  rw [hall]
  refine imp_congr_right (fun _ => forall₂_congr (fun t _ => ?_))
  have e : (if b.ext then b.invest.nomMax else some b.nom) = lossRating (branchLoss b t) := rfl
  rw [e]
  unfold lossCons
  cases lossRating (branchLoss b t) with
  | none => simp
  | some R =>
    by_cases ha : b.active t = true
    · have ha' : (branchLoss b t).active = true := ha
      simp only [ha, ha', if_true, Except.ok.injEq, Option.some.injEq, forall_eq', true_imp_iff, feasible_cons, feasible_flatMap, List.mem_range'_1,
        Con.holds, tangentRow, lin_cons, lin_nil, lossLoc, feasible_nil, and_true, one_mul, add_zero, branchLoss, forall_eq]
      refine and_congr Iff.rfl (and_congr Iff.rfl ⟨?_, ?_⟩)
      · intro h k h1 h2
        obtain ⟨a, b⟩ := h k ⟨h1, by omega⟩
        constructor <;> linarith
      · intro h k hk
        obtain ⟨a, b⟩ := h k hk.1 (by omega)
        constructor <;> linarith
    · have ha' : (branchLoss b t).active = false := Bool.eq_false_iff.mpr ha
      simp [ha, ha']

theorem branch_rule [IsStrictOrderedRing F] {w : WNet F} {c : Accessor.Cls} (hp : Accessor.passive c = true) {b : BranchW F}
    {rs : List (Con Loc F)} (h : branchRows w c b = some rs) (y : Loc → F) : (∀ q ∈ rs, q.holds y) ↔ BranchRule w b y := by
  unfold branchRows at h
  obtain ⟨cap, hc, h⟩ := Option.bind_eq_some_iff.mp h
  obtain ⟨loss, hls, rfl⟩ := Option.map_eq_some_iff.mp h
  change Feasible y _ ↔ _
  simp only [feasible_append]
  rw [show Feasible y cap ↔ _ from capRows_iff hc y, show Feasible y (setRows _ _ _ _) ↔ _ from set_iff y, limits_rule hp, loss_rule hls, cap_rule]
  have e : ∀ v : F, (if (w.tangents != 0) = true then v else 0) = if w.tangents = 0 then 0 else v := by
    intro v; by_cases h0 : w.tangents = 0 <;> simp [h0]
  simp only [e]
  exact ⟨fun ⟨⟨⟨h1, h2⟩, h3⟩, h4⟩ => ⟨h1, h2, h3, h4⟩, fun h => ⟨⟨⟨h.cap, h.limits⟩, h.set⟩, h.loss⟩⟩

theorem supply_rule (w : WNet F) (x : WVar → F) (t : Nat) (b : Name) :
    Nodal.supplied (nodal w t) (w.tangents != 0) (fun v => x (nodalVar t v)) b = supply w x t b := by
  have e : ∀ v : F, (if (w.tangents != 0) = true then v / 2 else 0) = halfLoss w v := by
    intro v; unfold halfLoss; by_cases h0 : w.tangents = 0 <;> simp [h0]
  unfold Nodal.supplied nodal supply
  simp only [List.map_map, Function.comp_def, nodalVar, e]
  rfl

theorem demand_rule (w : WNet F) (t : Nat) (b : Name) : Nodal.demanded (nodal w t) b = demand w t b := by
  unfold Nodal.demanded nodal demand
  simp only [List.map_map, Function.comp_def]
  rfl

/-- What is asked of the data: the recorded statuses are 0 or 1, and periods are consecutive and share the activity where an account is
kept per period. -/
structure Orderly (w : WNet F) : Prop where
  gens : ∀ g ∈ w.gens, Recorded w.rolling g.unit
  links : ∀ g ∈ w.links, Recorded w.rolling g.unit
  stores : ∀ s ∈ w.stores, InPeriods w s.storage
  units : ∀ s ∈ w.units, InPeriods w s.storage.toStorage

/-- One window of one investment period. -/
theorem orderly_single {w : WNet F} (hr : w.rolling = false) (hm : w.multi = false) : Orderly w := by
  constructor
  · intro g _ h
    rw [hr] at h
    cases h
  · intro g _ h
    rw [hr] at h
    cases h
  · intro s _ h
    rw [hm] at h
    cases h
  · intro s _ h
    rw [hm] at h
    cases h

/-- A point satisfies the rows of the problem exactly if it obeys the rules. -/
theorem rules_iff [IsStrictOrderedRing F] {w : WNet F} (hw : Sound w) (hd : Orderly w) {other : List (Con WVar F)} {P : Program F} (hP : createModel w other = some P) (x : WVar → F) :
    FeasibleIn P x ↔ Rules w x ∧ Feasible x other ∧ x .const = Objective.constant (objNet w) := by
  rw [feasible_iff hw hP]
  obtain ⟨own, bal, o, h1, -⟩ := createModel_parts hP
  obtain ⟨m1, m2, m3, m4, m5, m6⟩ := ownRows_mem h1
  constructor
  · rintro ⟨ha, hb, hc, ho⟩
    refine ⟨⟨?_, ?_, ?_, ?_, ?_, ?_, ?_⟩, ho, hc⟩
    · intro g hg
      obtain ⟨rs, e, -⟩ := m1 g hg
      exact (gen_rule (hd.gens g hg) e _).mp (ha.gens g hg rs e)
    · intro g hg
      obtain ⟨rs, e, -⟩ := m2 g hg
      exact (link_rule (hd.links g hg) e _).mp (ha.links g hg rs e)
    · intro g hg
      obtain ⟨rs, e, -⟩ := m3 g hg
      exact (store_rule (hd.stores g hg) e _).mp (ha.stores g hg rs e)
    · intro g hg
      obtain ⟨rs, e, -⟩ := m4 g hg
      exact (storage_rule (hd.units g hg) e _).mp (ha.units g hg rs e)
    · intro g hg
      obtain ⟨rs, e, -⟩ := m5 g hg
      exact (branch_rule rfl e _).mp (ha.lines g hg rs e)
    · intro g hg
      obtain ⟨rs, e, -⟩ := m6 g hg
      exact (branch_rule rfl e _).mp (ha.trafos g hg rs e)
    · intro t ht b hbb
      rw [← supply_rule, ← demand_rule]
      exact hb t ht b hbb
  · rintro ⟨h, ho, hc⟩
    refine ⟨⟨?_, ?_, ?_, ?_, ?_, ?_⟩, ?_, hc, ho⟩
    · intro g hg rs e
      exact (gen_rule (hd.gens g hg) e _).mpr (h.gens g hg)
    · intro g hg rs e
      exact (link_rule (hd.links g hg) e _).mpr (h.links g hg)
    · intro g hg rs e
      exact (store_rule (hd.stores g hg) e _).mpr (h.stores g hg)
    · intro g hg rs e
      exact (storage_rule (hd.units g hg) e _).mpr (h.units g hg)
    · intro g hg rs e
      exact (branch_rule rfl e _).mpr (h.lines g hg)
    · intro g hg rs e
      exact (branch_rule rfl e _).mpr (h.trafos g hg)
    · intro t ht b hbb
      rw [supply_rule, demand_rule]
      exact h.balance t ht b hbb

/-! ## The optimum -/

theorem rules_const {w : WNet F} {x : WVar → F} (k : F) (h : Rules w x) : Rules w (setConst k x) :=
  ⟨h.gens, h.links, h.stores, h.units, h.lines, h.trafos, h.balance⟩

theorem other_const {other : List (Con WVar F)} (ho : ∀ r ∈ other, ∀ e ∈ r.terms, e.2 ≠ .const) {x : WVar → F} (k : F)
    (h : Feasible x other) : Feasible (setConst k x) other := by
  refine apart_feasible (fun r hr e he => ?_) h
  cases hv : e.2 with
  | const => exact absurd hv (ho r hr e he)
  | of c a v => rfl

/-- Best for the solver, within a domain (whole numbers for statuses and modules). -/
def SolverBest (w : WNet F) (P : Program F) (D : (WVar → F) → Prop) (x : WVar → F) : Prop :=
  FeasibleIn P x ∧ D x ∧ ∀ z, FeasibleIn P z → D z → costOf w P x ≤ costOf w P z

/-- Least system costs among everything the rules allow. -/
def Best (w : WNet F) (other : List (Con WVar F)) (D : (WVar → F) → Prop) (x : WVar → F) : Prop :=
  Rules w x ∧ Feasible x other ∧ D x ∧ ∀ z, Rules w z → Feasible z other → D z → totalCost w x ≤ totalCost w z

/-- The solver looks for the cheapest point among those that obey the rules: its optimum is one, and every such point is an
optimum once the constant has its value. -/
theorem best_iff [IsStrictOrderedRing F] {w : WNet F} (hw : Sound w) (hlin : LinearCosts w) (hd : Orderly w) {other : List (Con WVar F)} (ho : ∀ r ∈ other, ∀ e ∈ r.terms, e.2 ≠ .const)
    {P : Program F} (hP : createModel w other = some P) (D : (WVar → F) → Prop) (hD : ∀ k x, D x → D (setConst k x)) (x : WVar → F) :
    (SolverBest w P D x → Best w other D x ∧ costOf w P x = totalCost w x) ∧
    (Best w other D x → SolverBest w P D (setConst (Objective.constant (objNet w)) x)) := by
  have fs : ∀ z, Rules w z → Feasible z other → FeasibleIn P (setConst (Objective.constant (objNet w)) z) := fun z h1 h2 =>
    (rules_iff hw hd hP _).mpr ⟨rules_const _ h1, other_const ho _ h2, rfl⟩
  have cs : ∀ k z, totalCost w (setConst k z) = totalCost w z := fun _ _ => rfl
  constructor
  · rintro ⟨h1, h2, h3⟩
    obtain ⟨r1, r2, -⟩ := (rules_iff hw hd hP x).mp h1
    have hc := cost_total hlin hP x h1
    refine ⟨⟨r1, r2, h2, fun z z1 z2 z3 => ?_⟩, hc⟩
    have := h3 _ (fs z z1 z2) (hD _ z z3)
    rw [hc, cost_total hlin hP _ (fs z z1 z2), cs] at this
    exact this
  · rintro ⟨h1, h2, h3, h4⟩
    refine ⟨fs x h1 h2, hD _ x h3, fun z z1 z2 => ?_⟩
    rw [cost_total hlin hP _ (fs x h1 h2), cost_total hlin hP z z1, cs]
    obtain ⟨r1, r2, -⟩ := (rules_iff hw hd hP z).mp z1
    exact h4 z r1 r2 z2

/-! ## Examples -/

/-- The rules allow the optimum of the example, and forbid it for a smaller transformer. -/
example : Rules exNet exVal ∧ ¬ Rules exNet (fun v => if v = .of "Transformer" "trafo" .cap then 7 else exVal v) := by
  constructor
  · exact ((rules_iff exSound (orderly_single rfl rfl) exModel_eq exVal).mp (by unfold FeasibleIn; decide +kernel)).1
  · intro h
    have := ((h.trafos exTrafo (by simp [exNet])).limits 0 (by decide) rfl).2
    revert this
    decide +kernel

/-- A unit that is committed, with ramp limits. -/
def docUnit : Unit' ℚ where
  nom := 10
  extendable := false
  committable := true
  active := fun _ => true
  minPu := fun _ => 2 / 5
  maxPu := fun _ => 1
  minUp := 2
  minDown := 2
  upBefore := 0
  downBefore := 1
  rampUp := fun _ => some (1 / 2)
  rampDown := fun _ => some (1 / 2)
  rampUpStatic := some (1 / 2)
  rampDownStatic := some (1 / 2)
  rampStart := 2 / 5
  rampShut := 2 / 5
  startUpCost := 3
  shutDownCost := 0
  histStatus := []
  histP := 0

def docGen : GenW ℚ := ⟨"coal", "A", 1, docUnit, exInvest 0, exCosts 1 0, fun _ => none, none, some 30⟩
def docGas : GenW ℚ := ⟨"gas", "B", 1, { docUnit with committable := false, minPu := fun _ => 0, rampUp := fun _ => none, rampDown := fun _ => none },
  exInvest 0, exCosts 5 0, fun _ => none, none, none⟩
def docLine : BranchW ℚ := ⟨"line", "A", "B", fun _ => true, false, 10, fun _ => 1, 1 / 100, exInvest 0, fun _ => none⟩

/-- Losses with two tangents. -/
def docNet : WNet ℚ where
  len := 4
  multi := false
  period := fun _ => 0
  rolling := false
  linearized := false
  tangents := 2
  threshold := 45
  sw := fun _ => 1
  gw := fun _ => 1
  periods := none
  buses := ["A", "B"]
  gens := [docGen, docGas]
  links := []
  stores := []
  units := []
  lines := [docLine]
  trafos := []
  loads := [⟨"B", -1, fun _ => 5, fun _ => true⟩]

/-- The unit is off at first, runs for three snapshots; half of the losses (1/4 and 3/10) is covered at each end. -/
def docVal : WVar → ℚ
  | .of _ a (.op v t) =>
    if a = "coal" ∧ v = "p" then (if t = 0 then 0 else if t = 1 then 4 else 5)
    else if a = "coal" ∧ v = "status" then (if t = 0 then 0 else 1)
    else if a = "coal" ∧ v = "start_up" then (if t = 1 then 1 else 0)
    else if a = "line" ∧ v = "s" then (if t = 0 then 0 else if t = 1 then 31 / 8 else 39 / 8)
    else if a = "line" ∧ v = "loss" then (if t = 0 then 0 else 1 / 4)
    else if a = "gas" ∧ v = "p" then (if t = 0 then 5 else if t = 1 then 5 / 4 else 1 / 4)
    else 0
  | _ => 0

theorem docModel_some : (createModel docNet []).isSome = true := by decide +kernel

example : Rules docNet docVal := by
  refine ((rules_iff (w := docNet) ?_ (orderly_single rfl rfl) (Option.some_get docModel_some).symm docVal).mp ?_).1
  · constructor <;> decide
  · unfold FeasibleIn
    decide +kernel

/-- A start-up with more than the limit is forbidden. -/
example : ¬ Rules docNet (fun v => if v = .of "Generator" "coal" (.op "p" 1) then 5 else docVal v) := by
  intro h
  have hr : RampsCount (docNet.gens.map (·.unit)) docNet.len :=
    ⟨⟨docUnit, by simp [docNet, docGen], 0, by decide, by decide⟩, ⟨docUnit, by simp [docNet, docGen], 0, by decide, by decide +kernel⟩⟩
  have := (h.gens docGen (by simp [docNet])).unit.rampUpCommitted hr rfl 0 (by decide) rfl (1 / 2) rfl
  revert this
  decide +kernel

/-- All hypotheses of the theorem about the optimum hold for the example, with whole numbers of modules. -/
example : ∀ x, SolverBest exNet exModel (fun x => ∃ k : Int, x (.of "Generator" "wind" .mod) = k) x → costOf exNet exModel x = totalCost exNet x := fun x hx =>
  ((best_iff exSound exLinear (orderly_single rfl rfl) (by decide +kernel) exModel_eq (fun x => ∃ k : Int, x (.of "Generator" "wind" .mod) = k) (fun _ _ h => h) x).1 hx).2

/-- A later window, linearised, over two periods; the unit was started one snapshot before the window. -/
def laterGen : GenW ℚ := { docGen with unit := { docUnit with shutDownCost := 3, histStatus := [0, 1], histP := 4 } }
def laterStore : StoreW ℚ := ⟨"tank", "B", 1, ⟨fun _ => true, false, false, true, 2, fun _ => 1, fun _ => 1⟩, false, 5, fun _ => 0, fun _ => 1, exInvest 0,
  exCosts 0 0, fun _ => none⟩

def laterNet : WNet ℚ := { docNet with multi := true, period := fun t => t / 2, rolling := true, linearized := true, gens := [laterGen, docGas],
                                       stores := [laterStore] }

/-- The tank is charged in the first snapshot of each period, from its initial level of 2 each time. -/
def laterVal : WVar → ℚ
  | .of _ a (.op v t) =>
    if a = "coal" ∧ v = "p" then 5
    else if a = "coal" ∧ v = "status" then 1
    else if a = "line" ∧ v = "s" then 39 / 8
    else if a = "line" ∧ v = "loss" then 1 / 4
    else if a = "gas" ∧ v = "p" then (if t % 2 = 0 then 5 / 4 else 1 / 4)
    else if a = "tank" ∧ v = "p" then (if t % 2 = 0 then -1 else 0)
    else if a = "tank" ∧ v = "e" then 3
    else 0
  | _ => 0

theorem laterModel_some : (createModel laterNet []).isSome = true := by decide +kernel

theorem laterOrderly : Orderly laterNet := by
  constructor
  · intro g hg _ _
    simp only [laterNet, List.mem_cons, List.not_mem_nil, or_false] at hg
    rcases hg with rfl | rfl <;> decide +kernel
  · intro g hg
    simp [laterNet, docNet] at hg
  · intro s hs _ _
    simp only [laterNet, List.mem_cons, List.not_mem_nil, or_false] at hs
    subst hs
    refine ⟨?_, fun _ _ _ _ _ => rfl⟩
    intro i j k h1 h2 h3 h4
    simp only [laterNet] at h4 ⊢
    omega
  · intro g hg
    simp [laterNet, docNet] at hg

example : Rules laterNet laterVal := by
  refine ((rules_iff (w := laterNet) ?_ laterOrderly (Option.some_get laterModel_some).symm laterVal).mp ?_).1
  · constructor <;> decide
  · unfold FeasibleIn
    decide +kernel

/-- Standing still at the first snapshot is forbidden, since the minimum up time has not passed. -/
example : ¬ Rules laterNet (fun v => if v = .of "Generator" "coal" (.op "status" 0) then 0 else laterVal v) := by
  intro h
  have := (h.gens laterGen (by simp [laterNet])).unit.stayUp rfl (by decide +kernel) 0 (by decide) rfl (by decide +kernel)
  revert this
  decide +kernel

end Verif.Opt.Whole.Doc
