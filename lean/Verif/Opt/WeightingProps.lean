import Verif.Opt.SnapshotProps
import Mathlib.Analysis.Convex.Combination
import Mathlib.Tactic.IntervalCases

/-!
# C132: snapshots that repeat may be replaced by one with the sum of their weightings

Over the whole problem of `Whole.lean` and the rules of `RulesProps.lean`.
-/

namespace Verif.Opt.Whole.Weights

open Doc Snap

variable {F : Type} [Field F] [LinearOrder F]

/-! ## A network whose snapshots repeat those of another -/

def unitRep (m : Nat → Nat) (u : Unit' F) : Unit' F :=
  { u with active := fun t => u.active (m t), minPu := fun t => u.minPu (m t), maxPu := fun t => u.maxPu (m t),
           rampUp := fun t => u.rampUp (m t), rampDown := fun t => u.rampDown (m t) }

def costsRep (m : Nat → Nat) (c : Costs F) : Costs F :=
  ⟨fun t => c.marginal (m t), fun t => c.quadratic (m t), fun t => c.marginalStorage (m t), fun t => c.spillCost (m t),
    fun t => c.standBy (m t)⟩

def genRep (m : Nat → Nat) (g : GenW F) : GenW F :=
  { g with unit := unitRep m g.unit, costs := costsRep m g.costs, pSet := fun t => g.pSet (m t) }

def linkRep (m : Nat → Nat) (g : LinkW F) : LinkW F :=
  { g with eff := fun t => g.eff (m t), extra := g.extra.map (fun e => (e.1, fun t => e.2 (m t))), unit := unitRep m g.unit,
           costs := costsRep m g.costs, pSet := fun t => g.pSet (m t) }

def branchRep (m : Nat → Nat) (b : BranchW F) : BranchW F :=
  { b with active := fun t => b.active (m t), maxPu := fun t => b.maxPu (m t), sSet := fun t => b.sSet (m t) }

def loadRep (m : Nat → Nat) (l : LoadW F) : LoadW F := { l with pSet := fun t => l.pSet (m t), active := fun t => l.active (m t) }

/-- The network with `n` snapshots, where all series have at snapshot `t` the value they had at `m t`. -/
def repeatNet (w : WNet F) (m : Nat → Nat) (n : Nat) (sw gw : Nat → F) : WNet F where
  len := n
  multi := w.multi
  period := fun t => w.period (m t)
  rolling := w.rolling
  linearized := w.linearized
  tangents := w.tangents
  threshold := w.threshold
  sw := sw
  gw := gw
  periods := w.periods.map (fun p => (p.1, p.2.1, fun t => p.2.2 (m t)))
  buses := w.buses
  gens := w.gens.map (genRep m)
  links := w.links.map (linkRep m)
  stores := []
  units := []
  lines := w.lines.map (branchRep m)
  trafos := w.trafos.map (branchRep m)
  loads := w.loads.map (loadRep m)

/-- Every snapshot stands for at least one, with the sum of their weightings; the weightings of energy are in the same proportion. -/
structure Represents (w : WNet F) (m : Nat → Nat) (n : Nat) (sw gw : Nat → F) : Prop where
  into : ∀ t < n, m t < w.len
  onto : ∀ r < w.len, ∃ t < n, m t = r
  pos : ∀ t < n, 0 < sw t
  sum : ∀ r < w.len, w.sw r = (((List.range n).filter (fun t => m t = r)).map sw).sum
  energy : ∀ t < n, gw t * w.sw (m t) = sw t * w.gw (m t)

/-- Neither commitment nor ramp limits. -/
structure Plain (u : Unit' F) : Prop where
  com : u.committable = false
  ramps : ∀ t, u.rampUp t = none ∧ u.rampDown t = none

/-- Snapshots are linked by capacities and budgets only. -/
structure NoMemory (w : WNet F) : Prop where
  gens : ∀ g ∈ w.gens, Plain g.unit
  links : ∀ g ∈ w.links, Plain g.unit
  stores : w.stores = []
  units : w.units = []

/-- A limit on a sum over all snapshots, such as one on emissions: contributions of each snapshot, which count as often as its weighting
of energy, and of capacities. -/
structure Budget (F : Type) where
  per : Nat → List (F × Name × Name × Name)
  caps : List (F × Name × Name)
  sense : Sense
  rhs : F

def Budget.row (b : Budget F) (m : Nat → Nat) (n : Nat) (gw : Nat → F) : Con WVar F :=
  ⟨(List.range n).flatMap (fun t => (b.per (m t)).map (fun e => (gw t * e.1, .of e.2.1 e.2.2.1 (.op e.2.2.2 t)))) ++
    b.caps.map (fun e => (e.1, .of e.2.1 e.2.2 .cap)), b.sense, b.rhs⟩

/-- Rows of the snapshots, and budgets. -/
def shortRows (w : WNet F) (rows : Nat → List (Con (Name × Name × Name) F)) (bs : List (Budget F)) : List (Con WVar F) :=
  otherRows rows 0 w.len ++ bs.map (fun b => b.row (fun t => t) w.len w.gw)

def longRows (m : Nat → Nat) (n : Nat) (gw : Nat → F) (rows : Nat → List (Con (Name × Name × Name) F)) (bs : List (Budget F)) :
    List (Con WVar F) :=
  otherRows (fun t => rows (m t)) 0 n ++ bs.map (fun b => b.row m n gw)

/-- The same operation whenever a snapshot repeats. -/
def expand (m : Nat → Nat) (x : WVar → F) : WVar → F
  | .of c a (.op v t) => x (.of c a (.op v (m t)))
  | v => x v

/-- Mean operation over the snapshots for which one stands. -/
def average (w : WNet F) (m : Nat → Nat) (n : Nat) (sw : Nat → F) (z : WVar → F) : WVar → F
  | .of c a (.op v r) => (((List.range n).filter (fun t => m t = r)).map (fun t => sw t / w.sw r * z (.of c a (.op v t)))).sum
  | v => z v

/-- Nothing is asked of operation (the domain of modules and the like). -/
def AboutCapacity (D : (WVar → F) → Prop) : Prop :=
  ∀ x y : WVar → F, (∀ c a, x (.of c a .cap) = y (.of c a .cap) ∧ x (.of c a .mod) = y (.of c a .mod)) → D x → D y

/-! ## Rules of one snapshot for given capacities -/

structure UnitIn (u : Unit' F) (set : Nat → Option F) (t : Nat) (cap p : F) : Prop where
  limits : u.active t = true → u.minPu t * (if u.extendable then cap else u.nom) ≤ p ∧ p ≤ u.maxPu t * (if u.extendable then cap else u.nom)
  set : u.active t = true → ∀ s, set t = some s → p = s

structure BranchIn (tangents : Nat) (b : BranchW F) (t : Nat) (cap s loss : F) : Prop where
  limits : b.active t = true →
    - (b.maxPu t * (if b.ext then cap else b.nom)) ≤ s - (if tangents = 0 then 0 else loss) ∧
    s + (if tangents = 0 then 0 else loss) ≤ b.maxPu t * (if b.ext then cap else b.nom)
  set : b.active t = true → ∀ v, b.sSet t = some v → s = v
  loss : tangents ≠ 0 → b.active t = true → ∀ rating, (if b.ext then b.invest.nomMax else some b.nom) = some rating →
    0 ≤ loss ∧ loss ≤ b.rPuEff * (b.maxPu t * rating) ^ 2 ∧
    ∀ k, 1 ≤ k → k ≤ tangents → ∀ p, p = (k : F) / (tangents : F) * b.maxPu t * rating →
      b.rPuEff * p ^ 2 + 2 * b.rPuEff * p * (s - p) ≤ loss ∧ b.rPuEff * p ^ 2 + 2 * b.rPuEff * p * (- s - p) ≤ loss

structure SnapIn (w : WNet F) (t : Nat) (K : Name → Name → F) (y : Name → Name → Name → F) : Prop where
  gens : ∀ g ∈ w.gens, UnitIn g.unit g.pSet t (K "Generator" g.name) (y "Generator" g.name "p")
  links : ∀ g ∈ w.links, UnitIn g.unit g.pSet t (K "Link" g.name) (y "Link" g.name "p")
  lines : ∀ b ∈ w.lines, BranchIn w.tangents b t (K "Line" b.name) (y "Line" b.name "s") (y "Line" b.name "loss")
  trafos : ∀ b ∈ w.trafos, BranchIn w.tangents b t (K "Transformer" b.name) (y "Transformer" b.name "s") (y "Transformer" b.name "loss")
  balance : ∀ b ∈ w.buses, supply w (steady y) t b = demand w t b

def capsOf (x : WVar → F) (c a : Name) : F := x (.of c a .cap)

structure CapsOk (w : WNet F) (x : WVar → F) : Prop where
  gens : ∀ g ∈ w.gens, CapRule g.unit.extendable g.invest (x (.of "Generator" g.name .cap)) (x (.of "Generator" g.name .mod))
  links : ∀ g ∈ w.links, CapRule g.unit.extendable g.invest (x (.of "Link" g.name .cap)) (x (.of "Link" g.name .mod))
  lines : ∀ g ∈ w.lines, CapRule g.ext g.invest (x (.of "Line" g.name .cap)) (x (.of "Line" g.name .mod))
  trafos : ∀ g ∈ w.trafos, CapRule g.ext g.invest (x (.of "Transformer" g.name .cap)) (x (.of "Transformer" g.name .mod))

def SumsOk (w : WNet F) (x : WVar → F) : Prop :=
  ∀ g ∈ w.gens, (∃ t < w.len, g.unit.active t = true) →
    (∀ e, g.eSumMin = some e → e ≤ total w.len w.gw g.unit.active (fun t => x (.of "Generator" g.name (.op "p" t)))) ∧
    (∀ e, g.eSumMax = some e → total w.len w.gw g.unit.active (fun t => x (.of "Generator" g.name (.op "p" t))) ≤ e)

theorem unit_in {u : Unit' F} (h : Plain u) {past : Past F} {l ramps : Prop} {n : Nat} {p status up down : Nat → F} {cap : F} :
    UnitRule u past l ramps n p status up down cap ↔ ∀ t < n, u.active t = true →
      u.minPu t * (if u.extendable then cap else u.nom) ≤ p t ∧ p t ≤ u.maxPu t * (if u.extendable then cap else u.nom) := by
  constructor
  · intro hu t ht ha
    by_cases he : u.extendable = true
    · simpa [he] using hu.extendable he t ht ha
    · simpa [he] using hu.fixed (by simpa using he) h.com t ht ha
  · intro hf
    have hc : ∀ {A : Prop}, u.committable = true → A := fun hc => by rw [h.com] at hc; cases hc
    have hu : ∀ t r {A : Prop}, u.rampUp t = some r → A := fun t r {A} hr => by rw [(h.ramps t).1] at hr; cases hr
    have hd : ∀ t r {A : Prop}, u.rampDown t = some r → A := fun t r {A} hr => by rw [(h.ramps t).2] at hr; cases hr
    exact ⟨fun he _ t ht ha => by simpa [he] using hf t ht ha, fun he t ht ha => by simpa [he] using hf t ht ha,
      hc, hc, hc, hc, hc, hc, hc, hc, fun _ t _ _ r hr => hu _ r hr, fun _ t _ _ r hr => hd _ r hr, fun _ => hc, fun _ => hc,
      fun _ _ _ _ _ _ => ⟨fun r hr => hu _ r hr, hc⟩, fun _ _ _ _ _ _ => ⟨fun r hr => hd _ r hr, hc⟩, fun _ => hc⟩

theorem branch_in {w : WNet F} {b : BranchW F} {y : Loc → F} :
    BranchRule w b y ↔ CapRule b.ext b.invest (y .cap) (y .mod) ∧
      ∀ t < w.len, BranchIn w.tangents b t (y .cap) (y (.op "s" t)) (y (.op "loss" t)) := by
  constructor
  · intro h
    exact ⟨h.cap, fun t ht => ⟨fun ha => h.limits t ht ha, fun ha => h.set t ht ha, fun h0 ha => h.loss h0 t ht ha⟩⟩
  · rintro ⟨hc, h⟩
    exact ⟨hc, fun t ht ha => (h t ht).limits ha, fun t ht ha => (h t ht).set ha, fun h0 t ht ha => (h t ht).loss h0 ha⟩

/-- The rules are those of the capacities, of each snapshot for them, and of the sums. -/
theorem rules_in {w : WNet F} (hu : NoMemory w) (x : WVar → F) :
    Rules w x ↔ CapsOk w x ∧ (∀ t < w.len, SnapIn w t (capsOf x) (atSnap x t)) ∧ SumsOk w x := by
  constructor
  · intro h
    refine ⟨⟨fun g hg => (h.gens g hg).cap, fun g hg => (h.links g hg).cap, fun g hg => (h.lines g hg).cap, fun g hg => (h.trafos g hg).cap⟩,
      fun t ht => ⟨fun g hg => ⟨(unit_in (hu.gens g hg)).mp (h.gens g hg).unit t ht, (h.gens g hg).set t ht⟩,
        fun g hg => ⟨(unit_in (hu.links g hg)).mp (h.links g hg).unit t ht, (h.links g hg).set t ht⟩,
        fun b hb => (branch_in.mp (h.lines b hb)).2 t ht, fun b hb => (branch_in.mp (h.trafos b hb)).2 t ht, fun b hb => ?_⟩,
      fun g hg ha => ⟨(h.gens g hg).sumMin ha, (h.gens g hg).sumMax ha⟩⟩
    rw [← supply_at]
    exact h.balance t ht b hb
  · rintro ⟨hc, hs, he⟩
    refine ⟨fun g hg => ⟨hc.gens g hg, (unit_in (hu.gens g hg)).mpr (fun t ht => ((hs t ht).gens g hg).limits),
        fun t ht => ((hs t ht).gens g hg).set, fun ha => (he g hg ha).1, fun ha => (he g hg ha).2⟩,
      fun g hg => ⟨hc.links g hg, (unit_in (hu.links g hg)).mpr (fun t ht => ((hs t ht).links g hg).limits), fun t ht => ((hs t ht).links g hg).set⟩,
      ?_, ?_, fun b hb => branch_in.mpr ⟨hc.lines b hb, fun t ht => (hs t ht).lines b hb⟩,
      fun b hb => branch_in.mpr ⟨hc.trafos b hb, fun t ht => (hs t ht).trafos b hb⟩, fun t ht b hb => ?_⟩
    · rw [hu.stores]
      intro g hg
      cases hg
    · rw [hu.units]
      intro g hg
      cases hg
    · rw [supply_at]
      exact (hs t ht).balance b hb

/-! ## Rules of the repeated snapshots -/

theorem rep_noMemory {w : WNet F} (hu : NoMemory w) (m : Nat → Nat) (n : Nat) (sw gw : Nat → F) : NoMemory (repeatNet w m n sw gw) := by
  refine ⟨?_, ?_, rfl, rfl⟩
  · intro g hg
    obtain ⟨g, h, rfl⟩ := List.mem_map.mp hg
    exact ⟨(hu.gens g h).com, fun t => (hu.gens g h).ramps (m t)⟩
  · intro g hg
    obtain ⟨g, h, rfl⟩ := List.mem_map.mp hg
    exact ⟨(hu.links g h).com, fun t => (hu.links g h).ramps (m t)⟩

theorem rep_supply {w : WNet F} (hu : NoMemory w) (m : Nat → Nat) (n : Nat) (sw gw : Nat → F) (y : Name → Name → Name → F) (t : Nat) (b : Name) :
    supply (repeatNet w m n sw gw) (steady y) t b = supply w (steady y) (m t) b := by
  unfold supply
  rw [hu.stores, hu.units]
  simp only [repeatNet, List.map_map, Function.comp_def, genRep, linkRep, branchRep, unitRep]
  rfl

theorem rep_demand (w : WNet F) (m : Nat → Nat) (n : Nat) (sw gw : Nat → F) (t : Nat) (b : Name) :
    demand (repeatNet w m n sw gw) t b = demand w (m t) b := by
  unfold demand
  simp only [repeatNet, List.map_map, Function.comp_def, loadRep]

theorem rep_in {w : WNet F} (hu : NoMemory w) (m : Nat → Nat) (n : Nat) (sw gw : Nat → F) (t : Nat) (K : Name → Name → F) (y : Name → Name → Name → F) :
    SnapIn (repeatNet w m n sw gw) t K y ↔ SnapIn w (m t) K y := by
  constructor
  · intro h
    refine ⟨fun g hg => ?_, fun g hg => ?_, fun b hb => ?_, fun b hb => ?_, fun b hb => ?_⟩
    · have := h.gens _ (List.mem_map_of_mem hg)
      exact ⟨this.limits, this.set⟩
    · have := h.links _ (List.mem_map_of_mem hg)
      exact ⟨this.limits, this.set⟩
    · have := h.lines _ (List.mem_map_of_mem hb)
      exact ⟨this.limits, this.set, this.loss⟩
    · have := h.trafos _ (List.mem_map_of_mem hb)
      exact ⟨this.limits, this.set, this.loss⟩
    · have := h.balance b hb
      rw [rep_supply hu, rep_demand] at this
      exact this
  · intro h
    refine ⟨fun g hg => ?_, fun g hg => ?_, fun b hb => ?_, fun b hb => ?_, fun b hb => ?_⟩
    · obtain ⟨g, hm, rfl⟩ := List.mem_map.mp hg
      exact ⟨(h.gens g hm).limits, (h.gens g hm).set⟩
    · obtain ⟨g, hm, rfl⟩ := List.mem_map.mp hg
      exact ⟨(h.links g hm).limits, (h.links g hm).set⟩
    · obtain ⟨b, hm, rfl⟩ := List.mem_map.mp hb
      exact ⟨(h.lines b hm).limits, (h.lines b hm).set, (h.lines b hm).loss⟩
    · obtain ⟨b, hm, rfl⟩ := List.mem_map.mp hb
      exact ⟨(h.trafos b hm).limits, (h.trafos b hm).set, (h.trafos b hm).loss⟩
    · rw [rep_supply hu, rep_demand]
      exact h.balance b hb

theorem rep_caps {w : WNet F} (m : Nat → Nat) (n : Nat) (sw gw : Nat → F) (x : WVar → F) : CapsOk (repeatNet w m n sw gw) x ↔ CapsOk w x := by
  constructor
  · intro h
    exact ⟨fun g hg => h.gens (genRep m g) (List.mem_map_of_mem hg), fun g hg => h.links (linkRep m g) (List.mem_map_of_mem hg),
      fun g hg => h.lines (branchRep m g) (List.mem_map_of_mem hg), fun g hg => h.trafos (branchRep m g) (List.mem_map_of_mem hg)⟩
  · intro h
    refine ⟨?_, ?_, ?_, ?_⟩ <;> intro g hg <;> obtain ⟨g, hm, rfl⟩ := List.mem_map.mp hg
    · exact h.gens g hm
    · exact h.links g hm
    · exact h.lines g hm
    · exact h.trafos g hm

/-! ## Linearity -/

section linear

theorem list_linear {α : Type} (l : List α) (f : α → (Name → Name → Name → F) → F) (h : ∀ a ∈ l, IsLinearMap F (f a)) :
    IsLinearMap F (fun y => (l.map (fun a => f a y)).sum) := by
  induction l with
  | nil => exact ⟨fun _ _ => by simp, fun _ _ => by simp⟩
  | cons a l ih =>
    have h1 := h a List.mem_cons_self
    have h2 := ih (fun b hb => h b (List.mem_cons_of_mem _ hb))
    refine ⟨fun y z => ?_, fun c y => ?_⟩
    · simp only [List.map_cons, List.sum_cons]
      rw [h1.map_add, h2.map_add]
      ring
    · simp only [List.map_cons, List.sum_cons]
      rw [h1.map_smul, h2.map_smul]
      simp only [smul_eq_mul]
      ring

theorem add_linear {f g : (Name → Name → Name → F) → F} (hf : IsLinearMap F f) (hg : IsLinearMap F g) : IsLinearMap F (fun y => f y + g y) := by
  refine ⟨fun y z => ?_, fun c y => ?_⟩
  · rw [hf.map_add, hg.map_add]
    ring
  · rw [hf.map_smul, hg.map_smul]
    simp only [smul_eq_mul]
    ring

theorem atBus_linear (b bus : Name) (active : Bool) {f : (Name → Name → Name → F) → F} (hf : IsLinearMap F f) :
    IsLinearMap F (fun y => atBus b bus active (f y)) := by
  unfold atBus
  split
  · exact hf
  · exact ⟨fun _ _ => by simp, fun _ _ => by simp⟩

theorem supply_linear (w : WNet F) (t : Nat) (b : Name) : IsLinearMap F (fun y : Name → Name → Name → F => supply w (steady y) t b) := by
  have flow : ∀ (a c : Name) (s : F), IsLinearMap F (fun y : Name → Name → Name → F => s * y a c "s" - halfLoss w (y a c "loss")) := by
    intro a c s
    refine ⟨fun y z => ?_, fun k y => ?_⟩ <;> unfold halfLoss <;> split_ifs <;> simp <;> ring
  unfold supply
  refine add_linear (add_linear (add_linear (add_linear (add_linear ?_ ?_) ?_) ?_) ?_) ?_
  · refine list_linear w.gens _ (fun g _ => atBus_linear _ _ _ ⟨fun y z => ?_, fun c y => ?_⟩) <;> simp [steady] <;> ring
  · refine list_linear w.stores _ (fun g _ => atBus_linear _ _ _ ⟨fun y z => ?_, fun c y => ?_⟩) <;> simp [steady] <;> ring
  · refine list_linear w.units _ (fun g _ => atBus_linear _ _ _ ⟨fun y z => ?_, fun c y => ?_⟩) <;> simp [steady] <;> ring
  · refine list_linear w.lines _ (fun g _ => add_linear (atBus_linear _ _ _ ?_) (atBus_linear _ _ _ ?_))
    · simpa [steady] using flow "Line" g.name (-1)
    · simpa [steady] using flow "Line" g.name 1
  · refine list_linear w.trafos _ (fun g _ => add_linear (atBus_linear _ _ _ ?_) (atBus_linear _ _ _ ?_))
    · simpa [steady] using flow "Transformer" g.name (-1)
    · simpa [steady] using flow "Transformer" g.name 1
  · refine list_linear w.links _ (fun g _ => add_linear (add_linear (atBus_linear _ _ _ ?_) (atBus_linear _ _ _ ?_))
      (list_linear g.extra _ (fun e _ => atBus_linear _ _ _ ?_))) <;>
    refine ⟨fun y z => ?_, fun c y => ?_⟩ <;> simp [steady] <;> ring

theorem lin_linear (ts : List (F × Name × Name × Name)) :
    IsLinearMap F (fun y : Name → Name → Name → F => lin (fun v : Name × Name × Name => y v.1 v.2.1 v.2.2) ts) := by
  unfold lin
  exact list_linear ts _ (fun e _ => ⟨fun y z => by simp; ring, fun c y => by simp; ring⟩)

/-- Costs of a snapshot for each unit of its weight. -/
def rate (w : WNet F) (t : Nat) (y : Name → Name → Name → F) : F :=
  (w.gens.map (fun g => if g.unit.active t then g.costs.marginal t * y "Generator" g.name "p" else 0)).sum +
  (w.links.map (fun g => if g.unit.active t then g.costs.marginal t * y "Link" g.name "p" else 0)).sum

theorem rate_linear (w : WNet F) (t : Nat) : IsLinearMap F (rate w t) := by
  unfold rate
  refine add_linear (list_linear w.gens _ (fun g _ => ?_)) (list_linear w.links _ (fun g _ => ?_)) <;> split <;>
    refine ⟨fun y z => ?_, fun c y => ?_⟩ <;> simp <;> ring

end linear

/-! ## Costs -/

/-- How often the period of the snapshot counts. -/
def factor (w : WNet F) (t : Nat) : F :=
  match w.periods with
  | none => 1
  | some (_, pw, per) => pw (per t)

theorem weight_factor (w : WNet F) (t : Nat) : weight w t = w.sw t * factor w t := by
  unfold weight factor
  cases w.periods <;> simp

theorem rep_factor (w : WNet F) (m : Nat → Nat) (n : Nat) (sw gw : Nat → F) (t : Nat) : factor (repeatNet w m n sw gw) t = factor w (m t) := by
  unfold factor repeatNet
  cases w.periods <;> rfl

theorem mul_sum {α : Type} (l : List α) (c : F) (f : α → F) : (l.map (fun a => c * f a)).sum = c * (l.map f).sum := by
  induction l with
  | nil => simp
  | cons a l ih => simp [ih, mul_add]

theorem snap_rate {w : WNet F} (hu : NoMemory w) (hl : LinearCosts w) (x : WVar → F) (t : Nat) :
    snapCost w x t = w.sw t * (factor w t * rate w t (atSnap x t)) := by
  have e1 : (w.gens.map (fun g => runs (g.unit.active t) (weight w t) (g.costs.marginal t) (g.costs.quadratic t) (x (.of "Generator" g.name (.op "p" t))) +
      commits (g.unit.active t) g.unit (weight w t) (g.costs.standBy t) (x (.of "Generator" g.name (.op "status" t)))
        (x (.of "Generator" g.name (.op "start_up" t))) (x (.of "Generator" g.name (.op "shut_down" t))))) =
      w.gens.map (fun g => weight w t * (if g.unit.active t then g.costs.marginal t * x (.of "Generator" g.name (.op "p" t)) else 0)) := by
    refine List.map_congr_left (fun g hg => ?_)
    simp [runs, commits, (hu.gens g hg).com, hl.gens g hg]
  have e2 : (w.links.map (fun g => runs (g.unit.active t) (weight w t) (g.costs.marginal t) (g.costs.quadratic t) (x (.of "Link" g.name (.op "p" t))) +
      commits (g.unit.active t) g.unit (weight w t) (g.costs.standBy t) (x (.of "Link" g.name (.op "status" t)))
        (x (.of "Link" g.name (.op "start_up" t))) (x (.of "Link" g.name (.op "shut_down" t))))) =
      w.links.map (fun g => weight w t * (if g.unit.active t then g.costs.marginal t * x (.of "Link" g.name (.op "p" t)) else 0)) := by
    refine List.map_congr_left (fun g hg => ?_)
    simp [runs, commits, (hu.links g hg).com, hl.links g hg]
  unfold snapCost
  rw [e1, e2, hu.stores, hu.units, mul_sum, mul_sum, weight_factor]
  simp only [List.map_nil, List.sum_nil, add_zero, rate, atSnap]
  ring

theorem rep_rate (w : WNet F) (m : Nat → Nat) (n : Nat) (sw gw : Nat → F) (t : Nat) (y : Name → Name → Name → F) :
    rate (repeatNet w m n sw gw) t y = rate w (m t) y := by
  unfold rate
  simp only [repeatNet, List.map_map, Function.comp_def, genRep, linkRep, costsRep, unitRep]
  rfl

theorem rep_linear {w : WNet F} (hl : LinearCosts w) (m : Nat → Nat) (n : Nat) (sw gw : Nat → F) : LinearCosts (repeatNet w m n sw gw) := by
  refine ⟨?_, ?_, fun g hg => absurd hg List.not_mem_nil, fun g hg => absurd hg List.not_mem_nil, ?_, ?_⟩
  · intro g hg t
    obtain ⟨g, h, rfl⟩ := List.mem_map.mp hg
    exact hl.gens g h (m t)
  · intro g hg t
    obtain ⟨g, h, rfl⟩ := List.mem_map.mp hg
    exact hl.links g h (m t)
  · intro g hg
    obtain ⟨g, h, rfl⟩ := List.mem_map.mp hg
    exact hl.genEvents g h
  · intro g hg
    obtain ⟨g, h, rfl⟩ := List.mem_map.mp hg
    exact hl.linkEvents g h

theorem rep_capital {w : WNet F} (hu : NoMemory w) (m : Nat → Nat) (n : Nat) (sw gw : Nat → F) (x : WVar → F) :
    capitalCosts (repeatNet w m n sw gw) x = capitalCosts w x := by
  have hlw : ∀ i, lifeWeight (repeatNet w m n sw gw) i = lifeWeight w i := by
    intro i
    unfold lifeWeight repeatNet
    cases w.periods <;> rfl
  unfold capitalCosts
  simp only [hlw]
  rw [hu.stores, hu.units]
  simp only [repeatNet, List.map_map, Function.comp_def, genRep, linkRep, branchRep, unitRep]
  rfl

theorem rep_sound {w : WNet F} (hw : Sound w) (m : Nat → Nat) (n : Nat) (sw gw : Nat → F) : Sound (repeatNet w m n sw gw) := by
  refine ⟨hw.noEmpty, hw.buses, ?_, fun g hg => absurd hg List.not_mem_nil, fun g hg => absurd hg List.not_mem_nil, ?_, ?_, ?_, ?_, ?_, ?_,
    List.nodup_nil, List.nodup_nil, ?_, ?_⟩
  · intro g hg
    obtain ⟨g, h, rfl⟩ := List.mem_map.mp hg
    exact hw.genBus g h
  · intro g hg
    obtain ⟨g, h, rfl⟩ := List.mem_map.mp hg
    exact hw.loadBus g h
  · intro g hg
    obtain ⟨g, h, rfl⟩ := List.mem_map.mp hg
    exact hw.lineBus g h
  · intro g hg
    obtain ⟨g, h, rfl⟩ := List.mem_map.mp hg
    exact hw.trafoBus g h
  · intro g hg
    obtain ⟨g, h, rfl⟩ := List.mem_map.mp hg
    refine ⟨(hw.linkBus g h).1, (hw.linkBus g h).2.1, fun e he => ?_⟩
    obtain ⟨e', he', rfl⟩ := List.mem_map.mp he
    exact (hw.linkBus g h).2.2 e' he'
  · change ((w.gens.map _).map _).Nodup; rw [List.map_map]; exact hw.gens
  · change ((w.links.map _).map _).Nodup; rw [List.map_map]; exact hw.links
  · change ((w.lines.map _).map _).Nodup; rw [List.map_map]; exact hw.lines
  · change ((w.trafos.map _).map _).Nodup; rw [List.map_map]; exact hw.trafos

theorem noMemory_orderly {w : WNet F} (hu : NoMemory w) : Orderly w := by
  refine ⟨fun g hg _ hc => ?_, fun g hg _ hc => ?_, ?_, ?_⟩
  · rw [(hu.gens g hg).com] at hc
    cases hc
  · rw [(hu.links g hg).com] at hc
    cases hc
  · rw [hu.stores]
    intro g hg
    cases hg
  · rw [hu.units]
    intro g hg
    cases hg

/-! ## Means -/

variable [IsStrictOrderedRing F]

theorem filter_sum (n : Nat) (p : Nat → Bool) (f : Nat → F) :
    (((List.range n).filter p).map f).sum = ∑ t ∈ (Finset.range n).filter (fun t => p t = true), f t := by
  rw [← List.sum_toFinset _ (List.nodup_range.filter _)]
  exact Finset.sum_congr (by ext; simp) (fun _ _ => rfl)

theorem range_sum (n : Nat) (f : Nat → F) : ((List.range n).map f).sum = ∑ t ∈ Finset.range n, f t := by
  rw [← List.sum_toFinset _ List.nodup_range]
  exact Finset.sum_congr (by ext; simp) (fun _ _ => rfl)

variable {w : WNet F} {m : Nat → Nat} {n : Nat} {sw gw : Nat → F}

theorem weights_pos (hr : Represents w m n sw gw) {r : Nat} (h : r < w.len) : 0 < w.sw r := by
  rw [hr.sum r h, filter_sum]
  obtain ⟨t, ht, e⟩ := hr.onto r h
  refine Finset.sum_pos (fun t ht => hr.pos t ?_) ⟨t, ?_⟩
  · simp only [Finset.mem_filter, Finset.mem_range] at ht
    exact ht.1
  · simp [ht, e]

theorem average_at (z : WVar → F) (r : Nat) :
    atSnap (average w m n sw z) r = ∑ t ∈ (Finset.range n).filter (fun t => m t = r), (sw t / w.sw r) • atSnap z t := by
  funext c a v
  simp only [atSnap, average, filter_sum, Finset.sum_apply, Pi.smul_apply, smul_eq_mul, decide_eq_true_eq]

theorem shares (hr : Represents w m n sw gw) {r : Nat} (h : r < w.len) : ∑ t ∈ (Finset.range n).filter (fun t => m t = r), sw t / w.sw r = 1 := by
  have h0 := weights_pos hr h
  have := hr.sum r h
  rw [filter_sum] at this
  simp only [decide_eq_true_eq] at this
  simp only [div_eq_mul_inv]
  rw [← Finset.sum_mul, ← this, mul_inv_cancel₀ h0.ne']

/-- A convex rule that holds at all snapshots holds for their mean. -/
theorem average_mem (hr : Represents w m n sw gw) {r : Nat} (h : r < w.len) {s : Set (Name → Name → Name → F)} (hs : Convex F s) (z : WVar → F)
    (hz : ∀ t < n, m t = r → atSnap z t ∈ s) : atSnap (average w m n sw z) r ∈ s := by
  rw [average_at]
  have h0 := weights_pos hr h
  refine hs.sum_mem (fun t ht => ?_) (shares hr h) (fun t ht => ?_)
  · simp only [Finset.mem_filter, Finset.mem_range] at ht
    exact div_nonneg (hr.pos t ht.1).le h0.le
  · simp only [Finset.mem_filter, Finset.mem_range] at ht
    exact hz t ht.1 ht.2

/-- A sum over the snapshots is the sum over what stands for them, with means. -/
theorem average_total (hr : Represents w m n sw gw) (z : WVar → F) {g g' : Nat → F} (hg : ∀ t < n, g' t * w.sw (m t) = sw t * g (m t))
    (L : Nat → (Name → Name → Name → F) → F) (hL : ∀ r, IsLinearMap F (L r)) :
    ∑ t ∈ Finset.range n, g' t * L (m t) (atSnap z t) = ∑ r ∈ Finset.range w.len, g r * L r (atSnap (average w m n sw z) r) := by
  rw [← Finset.sum_fiberwise_of_maps_to (s := Finset.range n) (t := Finset.range w.len) (g := m)
    (fun t ht => Finset.mem_range.mpr (hr.into t (Finset.mem_range.mp ht)))]
  refine Finset.sum_congr rfl (fun r hrr => ?_)
  have h0 := weights_pos hr (Finset.mem_range.mp hrr)
  rw [average_at]
  have := map_sum (IsLinearMap.mk' (L r) (hL r)) (fun t => (sw t / w.sw r) • atSnap z t) ((Finset.range n).filter (fun t => m t = r))
  simp only [IsLinearMap.mk'_apply] at this
  rw [this, Finset.mul_sum]
  refine Finset.sum_congr rfl (fun t ht => ?_)
  simp only [Finset.mem_filter, Finset.mem_range] at ht
  have hgt := hg t ht.1
  rw [ht.2] at hgt ⊢
  rw [(hL r).map_smul, smul_eq_mul, ← mul_assoc]
  congr 1
  field_simp
  linarith

/-- The mean of the repetitions is what was repeated. -/
theorem average_expand (hr : Represents w m n sw gw) (x : WVar → F) {r : Nat} (h : r < w.len) :
    atSnap (average w m n sw (expand m x)) r = atSnap x r := by
  have := average_mem hr h (convex_singleton (atSnap x r)) (expand m x) (fun t ht e => by
    simp only [Set.mem_singleton_iff]
    funext c a v
    simp [atSnap, expand, e])
  exact this

/-- A sum over repetitions. -/
theorem expand_total (hr : Represents w m n sw gw) (x : WVar → F) {g g' : Nat → F} (hg : ∀ t < n, g' t * w.sw (m t) = sw t * g (m t))
    (L : Nat → (Name → Name → Name → F) → F) (hL : ∀ r, IsLinearMap F (L r)) :
    ∑ t ∈ Finset.range n, g' t * L (m t) (atSnap (expand m x) t) = ∑ r ∈ Finset.range w.len, g r * L r (atSnap x r) := by
  rw [average_total hr _ hg L hL]
  refine Finset.sum_congr rfl (fun r h => ?_)
  rw [average_expand hr x (Finset.mem_range.mp h)]

/-! ## Convexity of the rules of a snapshot -/

theorem mix_eq {a b p q s : F} (h : a + b = 1) (h1 : p = s) (h2 : q = s) : a * p + b * q = s := by
  rw [h1, h2, ← add_mul, h, one_mul]

theorem mix_le {a b p q s : F} (ha : 0 ≤ a) (hb : 0 ≤ b) (h : a + b = 1) (h1 : p ≤ s) (h2 : q ≤ s) : a * p + b * q ≤ s := by
  have e : s = a * s + b * s := by rw [← add_mul, h, one_mul]
  rw [e]
  exact add_le_add (mul_le_mul_of_nonneg_left h1 ha) (mul_le_mul_of_nonneg_left h2 hb)

theorem le_mix {a b p q s : F} (ha : 0 ≤ a) (hb : 0 ≤ b) (h : a + b = 1) (h1 : s ≤ p) (h2 : s ≤ q) : s ≤ a * p + b * q := by
  have e : s = a * s + b * s := by rw [← add_mul, h, one_mul]
  rw [e]
  exact add_le_add (mul_le_mul_of_nonneg_left h1 ha) (mul_le_mul_of_nonneg_left h2 hb)

theorem unitIn_mix {u : Unit' F} {set : Nat → Option F} {t : Nat} {cap p q a b : F} (ha : 0 ≤ a) (hb : 0 ≤ b) (h : a + b = 1)
    (h1 : UnitIn u set t cap p) (h2 : UnitIn u set t cap q) : UnitIn u set t cap (a * p + b * q) :=
  ⟨fun hc => ⟨le_mix ha hb h (h1.limits hc).1 (h2.limits hc).1, mix_le ha hb h (h1.limits hc).2 (h2.limits hc).2⟩,
    fun hc s hs => mix_eq h (h1.set hc s hs) (h2.set hc s hs)⟩

theorem branchIn_mix {k : Nat} {c : BranchW F} {t : Nat} {cap p q l l' a b : F} (ha : 0 ≤ a) (hb : 0 ≤ b) (h : a + b = 1)
    (h1 : BranchIn k c t cap p l) (h2 : BranchIn k c t cap q l') : BranchIn k c t cap (a * p + b * q) (a * l + b * l') := by
  refine ⟨fun hc => ⟨?_, ?_⟩, fun hc s hs => mix_eq h (h1.set hc s hs) (h2.set hc s hs), fun h0 hc rating hrr => ?_⟩
  · have := le_mix ha hb h (h1.limits hc).1 (h2.limits hc).1
    refine this.trans (le_of_eq ?_)
    split <;> ring
  · have := mix_le ha hb h (h1.limits hc).2 (h2.limits hc).2
    refine (le_of_eq ?_).trans this
    split <;> ring
  · obtain ⟨a1, a2, a3⟩ := h1.loss h0 hc rating hrr
    obtain ⟨b1, b2, b3⟩ := h2.loss h0 hc rating hrr
    refine ⟨le_mix ha hb h a1 b1, mix_le ha hb h a2 b2, fun i hi hk r hp => ?_⟩
    obtain ⟨c1, c2⟩ := a3 i hi hk r hp
    obtain ⟨d1, d2⟩ := b3 i hi hk r hp
    have e : a = 1 - b := by linarith
    have f1 := add_le_add (mul_le_mul_of_nonneg_left c1 ha) (mul_le_mul_of_nonneg_left d1 hb)
    have f2 := add_le_add (mul_le_mul_of_nonneg_left c2 ha) (mul_le_mul_of_nonneg_left d2 hb)
    refine ⟨(le_of_eq ?_).trans f1, (le_of_eq ?_).trans f2⟩ <;> rw [e] <;> ring

theorem snapIn_convex (w : WNet F) (t : Nat) (K : Name → Name → F) : Convex F {y | SnapIn w t K y} := by
  intro y hy z hz a b ha hb h
  simp only [Set.mem_setOf_eq] at hy hz ⊢
  refine ⟨fun g hg => unitIn_mix ha hb h (hy.gens g hg) (hz.gens g hg), fun g hg => unitIn_mix ha hb h (hy.links g hg) (hz.links g hg),
    fun g hg => branchIn_mix ha hb h (hy.lines g hg) (hz.lines g hg), fun g hg => branchIn_mix ha hb h (hy.trafos g hg) (hz.trafos g hg),
    fun c hc => ?_⟩
  have hL := supply_linear w t c
  rw [hL.map_add, hL.map_smul, hL.map_smul]
  exact mix_eq h (hy.balance c hc) (hz.balance c hc)

theorem row_convex (q : Con (Name × Name × Name) F) :
    Convex F {y : Name → Name → Name → F | q.holds (fun v => y v.1 v.2.1 v.2.2)} := by
  intro y hy z hz a b ha hb h
  simp only [Set.mem_setOf_eq, Con.holds] at hy hz ⊢
  have hL := lin_linear q.terms
  have e := hL.map_add (a • y) (b • z)
  rw [hL.map_smul, hL.map_smul] at e
  rcases hs : q.sense with _ | _ | _ <;> simp only [hs] at hy hz ⊢ <;> rw [e]
  · exact mix_le ha hb h hy hz
  · exact le_mix ha hb h hy hz
  · exact mix_eq h hy hz

/-! ## Plans of both networks -/

theorem own_weights (t : Nat) (_ : t < n) : sw t * w.sw (m t) = sw t * w.sw (m t) := rfl

theorem budget_total (b : Budget F) (m : Nat → Nat) (n : Nat) (g : Nat → F) (x : WVar → F) :
    lin x (b.row m n g).terms = (∑ t ∈ Finset.range n, g t * lin (fun v : Name × Name × Name => atSnap x t v.1 v.2.1 v.2.2) (b.per (m t))) +
      (b.caps.map (fun e => e.1 * x (.of e.2.1 e.2.2 .cap))).sum := by
  unfold Budget.row
  rw [lin_append, lin_flatMap, range_sum]
  congr 1
  · refine Finset.sum_congr rfl (fun t _ => ?_)
    unfold lin
    rw [← mul_sum, List.map_map]
    congr 1
    refine List.map_congr_left (fun e _ => ?_)
    simp only [Function.comp_apply, atSnap]
    ring
  · unfold lin
    rw [List.map_map]
    rfl

theorem total_range (g : GenW F) (k : Nat) (wt : Nat → F) (x : WVar → F) :
    total k wt g.unit.active (fun t => x (.of "Generator" g.name (.op "p" t))) =
      ∑ t ∈ Finset.range k, wt t * (if g.unit.active t then atSnap x t "Generator" g.name "p" else 0) := by
  unfold total
  rw [range_sum]
  refine Finset.sum_congr rfl (fun t _ => ?_)
  simp only [atSnap]
  split <;> simp

/-- Energy of a generator at a snapshot is linear. -/
theorem gen_linear (g : GenW F) (r : Nat) :
    IsLinearMap F (fun y : Name → Name → Name → F => if g.unit.active r then y "Generator" g.name "p" else 0) := by
  split
  · exact ⟨fun _ _ => rfl, fun _ _ => rfl⟩
  · exact ⟨fun _ _ => by simp, fun _ _ => by simp⟩

/-- Two plans, one of the long and one of the short network, with the same capacities and the same sums. -/
structure Alike (w : WNet F) (m : Nat → Nat) (n : Nat) (sw gw : Nat → F) (x z : WVar → F) : Prop where
  caps : ∀ c a, x (.of c a .cap) = z (.of c a .cap) ∧ x (.of c a .mod) = z (.of c a .mod)
  costs : ∀ L : Nat → (Name → Name → Name → F) → F, (∀ r, IsLinearMap F (L r)) →
    ∑ t ∈ Finset.range n, sw t * L (m t) (atSnap z t) = ∑ r ∈ Finset.range w.len, w.sw r * L r (atSnap x r)
  energy : ∀ L : Nat → (Name → Name → Name → F) → F, (∀ r, IsLinearMap F (L r)) →
    ∑ t ∈ Finset.range n, gw t * L (m t) (atSnap z t) = ∑ r ∈ Finset.range w.len, w.gw r * L r (atSnap x r)

theorem alike_expand (hr : Represents w m n sw gw) (x : WVar → F) : Alike w m n sw gw x (expand m x) :=
  ⟨fun _ _ => ⟨rfl, rfl⟩, fun L hL => expand_total hr x own_weights L hL, fun L hL => expand_total hr x hr.energy L hL⟩

theorem alike_average (hr : Represents w m n sw gw) (z : WVar → F) : Alike w m n sw gw (average w m n sw z) z :=
  ⟨fun _ _ => ⟨rfl, rfl⟩, fun L hL => average_total hr z own_weights L hL, fun L hL => average_total hr z hr.energy L hL⟩

theorem alike_cost (hu : NoMemory w) (hl : LinearCosts w) {x z : WVar → F} (h : Alike w m n sw gw x z) :
    totalCost (repeatNet w m n sw gw) z = totalCost w x := by
  rw [← system_total hl, ← system_total (rep_linear hl m n sw gw), cost_snapshots, cost_snapshots, rep_capital hu]
  have hc : capitalCosts w z = capitalCosts w x := by
    unfold capitalCosts
    simp only [(h.caps _ _).1]
  rw [hc, range_sum, range_sum]
  congr 1
  have := h.costs (fun r y => factor w r * rate w r y) (fun r => by
    have hL := rate_linear w r
    exact ⟨fun y z => by rw [hL.map_add]; ring, fun c y => by rw [hL.map_smul]; simp only [smul_eq_mul]; ring⟩)
  have e : ∀ t, snapCost (repeatNet w m n sw gw) z t = sw t * (factor w (m t) * rate w (m t) (atSnap z t)) := by
    intro t
    rw [snap_rate (rep_noMemory hu m n sw gw) (rep_linear hl m n sw gw), rep_factor, rep_rate]
    rfl
  rw [Finset.sum_congr rfl (fun t _ => e t)]
  refine Eq.trans this ?_
  exact Finset.sum_congr rfl (fun r _ => (snap_rate hu hl x r).symm)

theorem alike_budget {x z : WVar → F} (h : Alike w m n sw gw x z) (b : Budget F) :
    (b.row m n gw).holds z ↔ (b.row (fun t => t) w.len w.gw).holds x := by
  have e : lin z (b.row m n gw).terms = lin x (b.row (fun t => t) w.len w.gw).terms := by
    rw [budget_total, budget_total, h.energy (fun r y => lin (fun v : Name × Name × Name => y v.1 v.2.1 v.2.2) (b.per r)) (fun r => lin_linear _)]
    simp only [(h.caps _ _).1]
  unfold Con.holds
  rw [e]
  rfl

theorem alike_sums (hr : Represents w m n sw gw) {x z : WVar → F} (h : Alike w m n sw gw x z) : SumsOk (repeatNet w m n sw gw) z ↔ SumsOk w x := by
  have e : ∀ g : GenW F, total n gw (genRep m g).unit.active (fun t => z (.of "Generator" g.name (.op "p" t))) =
      total w.len w.gw g.unit.active (fun t => x (.of "Generator" g.name (.op "p" t))) := by
    intro g
    rw [total_range, ← h.energy (fun r y => if g.unit.active r then y "Generator" g.name "p" else 0) (gen_linear g)]
    exact total_range (genRep m g) n gw z
  have ea : ∀ g : GenW F, (∃ t < n, (genRep m g).unit.active t = true) ↔ ∃ t < w.len, g.unit.active t = true := by
    intro g
    constructor
    · rintro ⟨t, ht, ha⟩
      exact ⟨m t, hr.into t ht, ha⟩
    · rintro ⟨r, h, ha⟩
      obtain ⟨t, ht, rfl⟩ := hr.onto r h
      exact ⟨t, ht, ha⟩
  constructor
  · intro hs g hg ha
    have := hs (genRep m g) (List.mem_map_of_mem hg) ((ea g).mpr ha)
    rw [← e g]
    exact this
  · intro hs g hg ha
    obtain ⟨g, hm, rfl⟩ := List.mem_map.mp hg
    have := hs g hm ((ea g).mp ha)
    rw [← e g] at this
    exact this

theorem caps_congr {x z : WVar → F} (h : ∀ c a, x (.of c a .cap) = z (.of c a .cap) ∧ x (.of c a .mod) = z (.of c a .mod)) : CapsOk w x → CapsOk w z := by
  intro hx
  have h1 := fun c a => (h c a).1
  have h2 := fun c a => (h c a).2
  refine ⟨?_, ?_, ?_, ?_⟩ <;> simp only [← h1, ← h2]
  · exact hx.gens
  · exact hx.links
  · exact hx.lines
  · exact hx.trafos

/-- A plan can be repeated. -/
theorem rules_expand (hu : NoMemory w) (hr : Represents w m n sw gw) (rows : Nat → List (Con (Name × Name × Name) F)) (bs : List (Budget F)) (x : WVar → F)
    (hx : Rules w x) (hb : Feasible x (shortRows w rows bs)) :
    Rules (repeatNet w m n sw gw) (expand m x) ∧ Feasible (expand m x) (longRows m n gw rows bs) := by
  obtain ⟨h1, h2, h3⟩ := (rules_in hu x).mp hx
  have ha := alike_expand hr x
  constructor
  · refine (rules_in (rep_noMemory hu m n sw gw) _).mpr ⟨(rep_caps m n sw gw _).mpr (caps_congr ha.caps h1), fun t ht => ?_, (alike_sums hr ha).mpr h3⟩
    rw [rep_in hu]
    exact h2 (m t) (hr.into t ht)
  · intro q hq
    rcases List.mem_append.mp hq with hq | hq
    · obtain ⟨t, ht, r, hrr, rfl⟩ := mem_otherRows.mp hq
      rw [Nat.zero_add] at hrr
      have := hb _ (List.mem_append_left _ (mem_otherRows.mpr ⟨m t, hr.into t ht, r, by rw [Nat.zero_add]; exact hrr, rfl⟩))
      rw [holds_remap] at this ⊢
      exact this
    · obtain ⟨b, hm, rfl⟩ := List.mem_map.mp hq
      rw [alike_budget ha]
      exact hb _ (List.mem_append_right _ (List.mem_map_of_mem hm))

/-- The mean of a plan is a plan. -/
theorem rules_average (hu : NoMemory w) (hr : Represents w m n sw gw) (rows : Nat → List (Con (Name × Name × Name) F)) (bs : List (Budget F))
    (z : WVar → F) (hz : Rules (repeatNet w m n sw gw) z) (hb : Feasible z (longRows m n gw rows bs)) :
    Rules w (average w m n sw z) ∧ Feasible (average w m n sw z) (shortRows w rows bs) := by
  obtain ⟨h1, h2, h3⟩ := (rules_in (rep_noMemory hu m n sw gw) z).mp hz
  have ha := alike_average hr z
  constructor
  · refine (rules_in hu _).mpr ⟨(rep_caps m n sw gw _).mp (caps_congr (x := z) (fun _ _ => ⟨rfl, rfl⟩) h1), fun r h => ?_, (alike_sums hr ha).mp h3⟩
    refine average_mem hr h (snapIn_convex w r _) z (fun t ht e => ?_)
    have := h2 t ht
    rw [rep_in hu, e] at this
    exact this
  · intro q hq
    rcases List.mem_append.mp hq with hq | hq
    · obtain ⟨r, h, p, hp, rfl⟩ := mem_otherRows.mp hq
      rw [Nat.zero_add] at hp
      rw [holds_remap]
      refine average_mem hr h (row_convex p) z (fun t ht e => ?_)
      have := hb _ (List.mem_append_left _ (mem_otherRows.mpr ⟨t, ht, p, by rw [Nat.zero_add, e]; exact hp, rfl⟩))
      rw [holds_remap] at this
      exact this
    · obtain ⟨b, hm, rfl⟩ := List.mem_map.mp hq
      rw [← alike_budget ha]
      exact hb _ (List.mem_append_right _ (List.mem_map_of_mem hm))

theorem rows_const (rows : Nat → List (Con (Name × Name × Name) F)) (k : Nat) (bs : List (Budget F)) (m : Nat → Nat) (gw : Nat → F) :
    ∀ r ∈ otherRows rows 0 k ++ bs.map (fun b => b.row m k gw), ∀ e ∈ r.terms, e.2 ≠ .const := by
  intro r hr e he
  rcases List.mem_append.mp hr with hr | hr
  · obtain ⟨t, -, p, -, rfl⟩ := mem_otherRows.mp hr
    obtain ⟨e, -, rfl⟩ := List.mem_map.mp he
    simp
  · obtain ⟨b, -, rfl⟩ := List.mem_map.mp hr
    unfold Budget.row at he
    rcases List.mem_append.mp he with he | he
    · obtain ⟨t, -, he⟩ := List.mem_flatMap.mp he
      obtain ⟨e, -, rfl⟩ := List.mem_map.mp he
      simp
    · obtain ⟨e, -, rfl⟩ := List.mem_map.mp he
      simp

theorem rep_constant {w : WNet F} (hu : NoMemory w) (m : Nat → Nat) (n : Nat) (sw gw : Nat → F) :
    Objective.constant (objNet (repeatNet w m n sw gw)) = Objective.constant (objNet w) := by
  have key : ∀ c, (((objNet (repeatNet w m n sw gw)).assets c).filter (·.ext)).map (fun a =>
      Objective.capitalWeight (objNet (repeatNet w m n sw gw)) a * a.capitalCost * a.nom) =
      (((objNet w).assets c).filter (·.ext)).map (fun a => Objective.capitalWeight (objNet w) a * a.capitalCost * a.nom) := by
    intro c
    have hw : ∀ a, Objective.capitalWeight (objNet (repeatNet w m n sw gw)) a = Objective.capitalWeight (objNet w) a := by
      intro a
      unfold Objective.capitalWeight objNet repeatNet
      cases w.periods <;> rfl
    simp only [hw]
    have hl : ∀ {α : Type} (l : List α) (f g : α → Objective.Asset F), (∀ a, (f a).ext = (g a).ext ∧ (f a).capitalCost = (g a).capitalCost ∧
        (f a).nom = (g a).nom ∧ Objective.capitalWeight (objNet w) (f a) = Objective.capitalWeight (objNet w) (g a)) →
        ((l.map f).filter (·.ext)).map (fun a => Objective.capitalWeight (objNet w) a * a.capitalCost * a.nom) =
        ((l.map g).filter (·.ext)).map (fun a => Objective.capitalWeight (objNet w) a * a.capitalCost * a.nom) := by
      intro α l f g h
      induction l with
      | nil => rfl
      | cons a l ih =>
        obtain ⟨h1, h2, h3, h4⟩ := h a
        simp only [List.map_cons, List.filter_cons, h1]
        split
        · simp only [List.map_cons, ih, h2, h3, h4]
        · exact ih
    change (((if c = "Generator" then (w.gens.map (genRep m)).map genAsset
      else if c = "Link" then (w.links.map (linkRep m)).map linkAsset
      else if c = "Store" then [] else if c = "StorageUnit" then []
      else if c = "Line" then (w.lines.map (branchRep m)).map branchAsset
      else if c = "Transformer" then (w.trafos.map (branchRep m)).map branchAsset else []).filter (·.ext)).map _) =
      (((objAssets w c).filter (·.ext)).map _)
    unfold objAssets
    rw [hu.stores, hu.units]
    split_ifs
    · rw [List.map_map]
      exact hl w.gens _ _ (fun g => ⟨rfl, rfl, rfl, rfl⟩)
    · rw [List.map_map]
      exact hl w.links _ _ (fun g => ⟨rfl, rfl, rfl, rfl⟩)
    · rfl
    · rfl
    · rw [List.map_map]
      exact hl w.lines _ _ (fun g => ⟨rfl, rfl, rfl, rfl⟩)
    · rw [List.map_map]
      exact hl w.trafos _ _ (fun g => ⟨rfl, rfl, rfl, rfl⟩)
    · rfl
  unfold Objective.constant
  simp only [key]

/-- C132: with one snapshot in place of several equal ones, and the sum of their weightings, the optimisation finds the same capacities
and the same costs. -/
theorem representative (hw : Sound w) (hu : NoMemory w) (hl : LinearCosts w) (hr : Represents w m n sw gw)
    (rows : Nat → List (Con (Name × Name × Name) F)) (bs : List (Budget F)) {P Q : Program F}
    (hP : createModel w (shortRows w rows bs) = some P) (hQ : createModel (repeatNet w m n sw gw) (longRows m n gw rows bs) = some Q)
    {D : (WVar → F) → Prop} (hD : AboutCapacity D) :
    (∀ x, SolverBest w P D x → SolverBest (repeatNet w m n sw gw) Q D (expand m x)) ∧
    (∀ z, SolverBest (repeatNet w m n sw gw) Q D z → SolverBest w P D (average w m n sw z)) ∧
    (∀ x z, SolverBest w P D x → SolverBest (repeatNet w m n sw gw) Q D z → costOf (repeatNet w m n sw gw) Q z = costOf w P x) := by
  have hW := rep_sound hw m n sw gw
  have hU := rep_noMemory hu m n sw gw
  have hL := rep_linear hl m n sw gw
  have hDc : ∀ k x, D x → D (setConst k x) := fun k x h => hD x _ (fun _ _ => ⟨rfl, rfl⟩) h
  have bP := fun x => best_iff hw hl (noMemory_orderly hu) (rows_const rows w.len bs _ _) hP D hDc x
  have bQ := fun z => best_iff hW hL (noMemory_orderly hU) (rows_const (fun t => rows (m t)) n bs _ _) hQ D hDc z
  have up : ∀ x, Best w (shortRows w rows bs) D x → Best (repeatNet w m n sw gw) (longRows m n gw rows bs) D (expand m x) := by
    rintro x ⟨h1, h2, h3, h4⟩
    obtain ⟨e1, e2⟩ := rules_expand hu hr rows bs x h1 h2
    refine ⟨e1, e2, hD x _ (alike_expand hr x).caps h3, fun z z1 z2 z3 => ?_⟩
    obtain ⟨a1, a2⟩ := rules_average hu hr rows bs z z1 z2
    rw [alike_cost hu hl (alike_expand hr x), alike_cost hu hl (alike_average hr z)]
    exact h4 _ a1 a2 (hD z _ (fun _ _ => ⟨rfl, rfl⟩) z3)
  have down : ∀ z, Best (repeatNet w m n sw gw) (longRows m n gw rows bs) D z → Best w (shortRows w rows bs) D (average w m n sw z) := by
    rintro z ⟨h1, h2, h3, h4⟩
    obtain ⟨e1, e2⟩ := rules_average hu hr rows bs z h1 h2
    refine ⟨e1, e2, hD z _ (fun _ _ => ⟨rfl, rfl⟩) h3, fun x x1 x2 x3 => ?_⟩
    obtain ⟨a1, a2⟩ := rules_expand hu hr rows bs x x1 x2
    rw [← alike_cost hu hl (alike_expand hr x), ← alike_cost hu hl (alike_average hr z)]
    exact h4 _ a1 a2 (hD x _ (alike_expand hr x).caps x3)
  have cst := fun x (hx : SolverBest w P D x) => ((rules_iff hw (noMemory_orderly hu) hP x).mp hx.1).2.2
  have cstQ := fun z (hz : SolverBest (repeatNet w m n sw gw) Q D z) => ((rules_iff hW (noMemory_orderly hU) hQ z).mp hz.1).2.2
  refine ⟨fun x hx => ?_, fun z hz => ?_, fun x z hx hz => ?_⟩
  · have := (bQ _).2 (up x ((bP x).1 hx).1)
    have e : setConst (Objective.constant (objNet (repeatNet w m n sw gw))) (expand m x) = expand m x := by
      funext v
      cases v with
      | const => exact (rep_constant hu m n sw gw).trans (cst x hx).symm
      | of c a v => rfl
    rwa [e] at this
  · have := (bP _).2 (down z ((bQ z).1 hz).1)
    have e : setConst (Objective.constant (objNet w)) (average w m n sw z) = average w m n sw z := by
      funext v
      cases v with
      | const => exact (rep_constant hu m n sw gw).symm.trans (cstQ z hz).symm
      | of c a v => rfl
    rwa [e] at this
  · rw [((bP x).1 hx).2, ((bQ z).1 hz).2, ← alike_cost hu hl (alike_expand hr x)]
    have u := up x ((bP x).1 hx).1
    have v := ((bQ z).1 hz).1
    exact le_antisymm (v.2.2.2 _ u.1 u.2.1 u.2.2.1) (u.2.2.2 _ v.1 v.2.1 v.2.2.1)

/-! ## Example -/

/-- Wind that may be extended to 8 and gives half of it at the second snapshot, and gas. -/
def repWind : GenW ℚ := ⟨"wind", "A", 1, { rollUnit none 0 with extendable := true, maxPu := fun t => if t = 0 then 1 else 1 / 2 },
  ⟨0, some 8, 0, none, 1, fun _ => true, true⟩, exCosts 0 0, fun _ => none, none, none⟩
def repGas : GenW ℚ := ⟨"gas", "A", 1, rollUnit none 9, exInvest 0, exCosts 2 0, fun _ => none, none, some 20⟩

/-- A snapshot that stands for three and one that stands for two. -/
def repNet : WNet ℚ where
  len := 2
  multi := false
  period := fun _ => 0
  rolling := false
  linearized := false
  tangents := 0
  threshold := 45
  sw := fun t => if t = 0 then 3 else 2
  gw := fun t => if t = 0 then 3 else 2
  periods := none
  buses := ["A"]
  gens := [repWind, repGas]
  links := []
  stores := []
  units := []
  lines := []
  trafos := []
  loads := [⟨"A", -1, fun t => if t = 0 then 4 else 6, fun _ => true⟩]

/-- Gas may give at most 5. -/
def repBudget : Budget ℚ := ⟨fun _ => [(1, "Generator", "gas", "p")], [], .le, 5⟩

def repVal : WVar → ℚ
  | .of _ a (.op _ t) => if a = "wind" then 4 else if t = 0 then 0 else 2
  | .of _ _ .cap => 8
  | _ => 0

def repMap (t : Nat) : Nat := t % 2

theorem rep_represents : Represents repNet repMap 5 (fun _ => 1) (fun _ => 1) := by
  refine ⟨fun t _ => Nat.mod_lt _ (by decide), fun r hr => ⟨r, by change r < 2 at hr; omega, Nat.mod_eq_of_lt hr⟩, fun _ _ => by decide,
    fun r hr => ?_, fun t _ => by simp [repNet]⟩
  change r < 2 at hr
  interval_cases r <;> decide +kernel

theorem repNet_sound : Sound repNet := by constructor <;> decide

theorem repNet_plain : NoMemory repNet := by
  refine ⟨?_, ?_, rfl, rfl⟩
  · intro g hg
    simp only [repNet, List.mem_cons, List.not_mem_nil, or_false] at hg
    rcases hg with rfl | rfl <;> exact ⟨rfl, fun _ => ⟨rfl, rfl⟩⟩
  · intro g hg
    simp [repNet] at hg

theorem repNet_linear : LinearCosts repNet := by
  constructor
  · intro g hg t
    simp only [repNet, List.mem_cons, List.not_mem_nil, or_false] at hg
    rcases hg with rfl | rfl <;> rfl
  · intro g hg; simp [repNet] at hg
  · intro g hg; simp [repNet] at hg
  · intro g hg; simp [repNet] at hg
  · decide +kernel
  · decide

theorem rep_some : (createModel repNet (shortRows repNet (fun _ => []) [repBudget])).isSome = true ∧
    (createModel (repeatNet repNet repMap 5 (fun _ => 1) (fun _ => 1)) (longRows repMap 5 (fun _ => 1) (fun _ => []) [repBudget])).isSome = true := by
  decide +kernel

theorem repNet_best : SolverBest repNet ((createModel repNet (shortRows repNet (fun _ => []) [repBudget])).get rep_some.1) (fun _ => True) repVal := by
  have hP := (Option.some_get rep_some.1).symm
  have hf : FeasibleIn ((createModel repNet (shortRows repNet (fun _ => []) [repBudget])).get rep_some.1) repVal := by unfold FeasibleIn; decide +kernel
  refine ⟨hf, trivial, fun z hz _ => ?_⟩
  rw [cost_total repNet_linear hP _ hf, cost_total repNet_linear hP z hz]
  obtain ⟨r, -, -⟩ := (rules_iff repNet_sound (noMemory_orderly repNet_plain) hP z).mp hz
  obtain ⟨r1, r2, -⟩ := (rules_in repNet_plain z).mp r
  have c := (r1.gens repWind (by simp [repNet])).most rfl 8 rfl
  have g := (((r2 0 (by decide)).gens repGas (by simp [repNet])).limits rfl).1
  have u := (((r2 1 (by decide)).gens repWind (by simp [repNet])).limits rfl).2
  have b := (r2 1 (by decide)).balance "A" (by simp [repNet])
  rw [show totalCost repNet repVal = 16 by decide +kernel, ← system_total repNet_linear, cost_snapshots]
  simp [repNet, repWind, repGas, snapCost, capitalCosts, lifeWeight, runs, commits, rollUnit, exUnit', exCosts, exInvest, weight, supply, demand, atBus, steady,
    atSnap, capsOf, List.range_succ] at c g u b ⊢
  linarith

example : SolverBest (repeatNet repNet repMap 5 (fun _ => 1) (fun _ => 1))
    ((createModel (repeatNet repNet repMap 5 (fun _ => 1) (fun _ => 1)) (longRows repMap 5 (fun _ => 1) (fun _ => []) [repBudget])).get rep_some.2)
    (fun _ => True) (expand repMap repVal) :=
  (representative repNet_sound repNet_plain repNet_linear rep_represents (fun _ => []) [repBudget] (Option.some_get rep_some.1).symm
    (Option.some_get rep_some.2).symm (D := fun _ => True) (fun _ _ _ _ => trivial)).1 repVal repNet_best

end Verif.Opt.Whole.Weights
