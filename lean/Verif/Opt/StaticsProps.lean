import Verif.Opt.EmissionProps
import Mathlib.Tactic.Linarith
import Mathlib.Tactic.Ring

/-!
# C141: what is dearer is not used more, where more is needed the price is not lower

About the whole problem of `Whole.lean`: two networks that differ in costs only, and two that differ in loads only.
-/

namespace Verif.Opt.Whole.Statics

open Doc

variable {F : Type} [Field F] [LinearOrder F]

/-- A rise of the cost columns (negative where costs fall): `marginal_cost`, `marginal_cost_storage`, `spill_cost` and `stand_by_cost` by
class, asset and snapshot, `capital_cost` by class and asset. -/
structure Rise (F : Type) where
  marginal : Name → Name → Nat → F
  level : Name → Name → Nat → F
  spill : Name → Name → Nat → F
  standBy : Name → Name → Nat → F
  capital : Name → Name → F

def raiseCosts (d : Rise F) (c a : Name) (k : Costs F) : Costs F :=
  { k with
    marginal := fun t => k.marginal t + d.marginal c a t
    marginalStorage := fun t => k.marginalStorage t + d.level c a t
    spillCost := fun t => k.spillCost t + d.spill c a t
    standBy := fun t => k.standBy t + d.standBy c a t }

def raiseInvest (d : Rise F) (c a : Name) (i : Invest F) : Invest F := { i with capitalCost := i.capitalCost + d.capital c a }

def raiseGen (d : Rise F) (g : GenW F) : GenW F :=
  { g with costs := raiseCosts d "Generator" g.name g.costs, invest := raiseInvest d "Generator" g.name g.invest }
def raiseLink (d : Rise F) (g : LinkW F) : LinkW F :=
  { g with costs := raiseCosts d "Link" g.name g.costs, invest := raiseInvest d "Link" g.name g.invest }
def raiseStore (d : Rise F) (g : StoreW F) : StoreW F :=
  { g with costs := raiseCosts d "Store" g.name g.costs, invest := raiseInvest d "Store" g.name g.invest }
def raiseUnit (d : Rise F) (g : UnitW F) : UnitW F :=
  { g with costs := raiseCosts d "StorageUnit" g.name g.costs, invest := raiseInvest d "StorageUnit" g.name g.invest }
def raiseBranch (d : Rise F) (c : Name) (g : BranchW F) : BranchW F := { g with invest := raiseInvest d c g.name g.invest }

/-- The network with these costs. -/
def raise (d : Rise F) (w : WNet F) : WNet F :=
  { w with
    gens := w.gens.map (raiseGen d)
    links := w.links.map (raiseLink d)
    stores := w.stores.map (raiseStore d)
    units := w.units.map (raiseUnit d)
    lines := w.lines.map (raiseBranch d "Line")
    trafos := w.trafos.map (raiseBranch d "Transformer") }

/-! ## What the user means -/

/-- Rise times use, over the snapshots in which the asset is in service. -/
def over (w : WNet F) (active : Nat → Bool) (rise use : Nat → F) : F :=
  ((List.range w.len).map (fun t => if active t then weight w t * rise t * use t else 0)).sum

/-- Rise of the capital cost times capacity. -/
def onCap (w : WNet F) (ext : Bool) (i : Invest F) (rise cap : F) : F := if ext then lifeWeight w i * rise * cap else 0

/-- What the rise costs a plan that does not react. -/
def burden (d : Rise F) (w : WNet F) (x : WVar → F) : F :=
  (w.gens.map (fun g => over w g.unit.active (d.marginal "Generator" g.name) (fun t => x (.of "Generator" g.name (.op "p" t))) +
    over w (fun t => g.unit.committable && g.unit.active t) (d.standBy "Generator" g.name) (fun t => x (.of "Generator" g.name (.op "status" t))) +
    onCap w g.unit.extendable g.invest (d.capital "Generator" g.name) (x (.of "Generator" g.name .cap)))).sum +
  (w.links.map (fun g => over w g.unit.active (d.marginal "Link" g.name) (fun t => x (.of "Link" g.name (.op "p" t))) +
    over w (fun t => g.unit.committable && g.unit.active t) (d.standBy "Link" g.name) (fun t => x (.of "Link" g.name (.op "status" t))) +
    onCap w g.unit.extendable g.invest (d.capital "Link" g.name) (x (.of "Link" g.name .cap)))).sum +
  (w.stores.map (fun g => over w g.storage.active (d.marginal "Store" g.name) (fun t => x (.of "Store" g.name (.op "p" t))) +
    over w g.storage.active (d.level "Store" g.name) (fun t => x (.of "Store" g.name (.op "e" t))) +
    onCap w g.ext g.invest (d.capital "Store" g.name) (x (.of "Store" g.name .cap)))).sum +
  (w.units.map (fun g => over w g.storage.active (d.marginal "StorageUnit" g.name) (fun t => x (.of "StorageUnit" g.name (.op "p_dispatch" t))) +
    over w g.storage.active (d.level "StorageUnit" g.name) (fun t => x (.of "StorageUnit" g.name (.op "state_of_charge" t))) +
    over w (fun t => g.storage.active t && decide (0 < g.storage.inflow t)) (d.spill "StorageUnit" g.name) (fun t => x (.of "StorageUnit" g.name (.op "spill" t))) +
    onCap w g.ext g.invest (d.capital "StorageUnit" g.name) (x (.of "StorageUnit" g.name .cap)))).sum +
  (w.lines.map (fun g => onCap w g.ext g.invest (d.capital "Line" g.name) (x (.of "Line" g.name .cap)))).sum +
  (w.trafos.map (fun g => onCap w g.ext g.invest (d.capital "Transformer" g.name) (x (.of "Transformer" g.name .cap)))).sum

/-! ## Costs -/

variable {w : WNet F} {d : Rise F}

omit [LinearOrder F] in
theorem life_raise (c a : Name) (i : Invest F) : lifeWeight (raise d w) (raiseInvest d c a i) = lifeWeight w i := rfl

omit [LinearOrder F] in
theorem cap_raise (ext : Bool) (i : Invest F) (c a : Name) (cap : F) :
    (if ext then lifeWeight (raise d w) (raiseInvest d c a i) * (raiseInvest d c a i).capitalCost * cap else 0) =
    (if ext then lifeWeight w i * i.capitalCost * cap else 0) + onCap w ext i (d.capital c a) cap := by
  unfold onCap
  rw [life_raise]
  cases ext <;> simp [raiseInvest]
  ring

omit [LinearOrder F] in
theorem sum_two {l : List Nat} {f f' a b : Nat → F} {p q o : F} (h : ∀ t, f' t = f t + a t + b t) (hp : q = p + o) :
    (l.map f').sum + q = ((l.map f).sum + p) + ((l.map a).sum + (l.map b).sum + o) := by
  have e : (l.map f').sum = (l.map f).sum + (l.map a).sum + (l.map b).sum := by
    rw [← List.sum_map_add, ← List.sum_map_add]
    exact congrArg List.sum (List.map_congr_left (fun t _ => h t))
  rw [e, hp]
  ring

omit [LinearOrder F] in
theorem sum_three {l : List Nat} {f f' a b c : Nat → F} {p q o : F} (h : ∀ t, f' t = f t + a t + b t + c t) (hp : q = p + o) :
    (l.map f').sum + q = ((l.map f).sum + p) + ((l.map a).sum + (l.map b).sum + (l.map c).sum + o) := by
  have e : (l.map f').sum = (l.map f).sum + (l.map a).sum + (l.map b).sum + (l.map c).sum := by
    rw [← List.sum_map_add, ← List.sum_map_add, ← List.sum_map_add]
    exact congrArg List.sum (List.map_congr_left (fun t _ => h t))
  rw [e, hp]
  ring

theorem gen_raise (x : WVar → F) (g : GenW F) : genCost (raise d w) (raiseGen d g) x = genCost w g x +
    (over w g.unit.active (d.marginal "Generator" g.name) (fun t => x (.of "Generator" g.name (.op "p" t))) +
    over w (fun t => g.unit.committable && g.unit.active t) (d.standBy "Generator" g.name) (fun t => x (.of "Generator" g.name (.op "status" t))) +
    onCap w g.unit.extendable g.invest (d.capital "Generator" g.name) (x (.of "Generator" g.name .cap))) := by
  have h := cap_raise (w := w) (d := d) g.unit.extendable g.invest "Generator" g.name (x (.of "Generator" g.name .cap))
  unfold genCost over
  refine sum_two ?_ h
  intro t
  cases ha : g.unit.active t <;> cases hc : g.unit.committable <;> simp [ha, hc, raiseCosts, raiseGen, show weight (raise d w) t = weight w t from rfl] <;> ring

theorem link_raise (x : WVar → F) (g : LinkW F) : linkCost (raise d w) (raiseLink d g) x = linkCost w g x +
    (over w g.unit.active (d.marginal "Link" g.name) (fun t => x (.of "Link" g.name (.op "p" t))) +
    over w (fun t => g.unit.committable && g.unit.active t) (d.standBy "Link" g.name) (fun t => x (.of "Link" g.name (.op "status" t))) +
    onCap w g.unit.extendable g.invest (d.capital "Link" g.name) (x (.of "Link" g.name .cap))) := by
  have h := cap_raise (w := w) (d := d) g.unit.extendable g.invest "Link" g.name (x (.of "Link" g.name .cap))
  unfold linkCost over
  refine sum_two ?_ h
  intro t
  cases ha : g.unit.active t <;> cases hc : g.unit.committable <;> simp [ha, hc, raiseCosts, raiseLink, show weight (raise d w) t = weight w t from rfl] <;> ring

theorem store_raise (x : WVar → F) (g : StoreW F) : storeCost (raise d w) (raiseStore d g) x = storeCost w g x +
    (over w g.storage.active (d.marginal "Store" g.name) (fun t => x (.of "Store" g.name (.op "p" t))) +
    over w g.storage.active (d.level "Store" g.name) (fun t => x (.of "Store" g.name (.op "e" t))) +
    onCap w g.ext g.invest (d.capital "Store" g.name) (x (.of "Store" g.name .cap))) := by
  have h := cap_raise (w := w) (d := d) g.ext g.invest "Store" g.name (x (.of "Store" g.name .cap))
  unfold storeCost over
  refine sum_two ?_ h
  intro t
  cases ha : g.storage.active t <;> simp [ha, raiseCosts, raiseStore, show weight (raise d w) t = weight w t from rfl] <;> ring

theorem unit_raise (x : WVar → F) (g : UnitW F) : unitCost (raise d w) (raiseUnit d g) x = unitCost w g x +
    (over w g.storage.active (d.marginal "StorageUnit" g.name) (fun t => x (.of "StorageUnit" g.name (.op "p_dispatch" t))) +
    over w g.storage.active (d.level "StorageUnit" g.name) (fun t => x (.of "StorageUnit" g.name (.op "state_of_charge" t))) +
    over w (fun t => g.storage.active t && decide (0 < g.storage.inflow t)) (d.spill "StorageUnit" g.name) (fun t => x (.of "StorageUnit" g.name (.op "spill" t))) +
    onCap w g.ext g.invest (d.capital "StorageUnit" g.name) (x (.of "StorageUnit" g.name .cap))) := by
  have h := cap_raise (w := w) (d := d) g.ext g.invest "StorageUnit" g.name (x (.of "StorageUnit" g.name .cap))
  unfold unitCost over
  refine sum_three ?_ h
  intro t
  by_cases hi : 0 < g.storage.inflow t <;> cases ha : g.storage.active t <;> simp [ha, hi, raiseCosts, raiseUnit, show weight (raise d w) t = weight w t from rfl] <;> ring

theorem branch_raise (c : Name) (x : WVar → F) (g : BranchW F) : branchCost (raise d w) c (raiseBranch d c g) x = branchCost w c g x +
    onCap w g.ext g.invest (d.capital c g.name) (x (.of c g.name .cap)) :=
  cap_raise (w := w) (d := d) g.ext g.invest c g.name (x (.of c g.name .cap))

/-- **C141.** The costs of a plan after the rise. -/
theorem cost_raise (x : WVar → F) : totalCost (raise d w) x = totalCost w x + burden d w x := by
  unfold totalCost burden
  rw [show (raise d w).gens = w.gens.map (raiseGen d) from rfl, show (raise d w).links = w.links.map (raiseLink d) from rfl,
    show (raise d w).stores = w.stores.map (raiseStore d) from rfl, show (raise d w).units = w.units.map (raiseUnit d) from rfl,
    show (raise d w).lines = w.lines.map (raiseBranch d "Line") from rfl, show (raise d w).trafos = w.trafos.map (raiseBranch d "Transformer") from rfl]
  simp only [List.map_map, Function.comp_def, gen_raise, link_raise, store_raise, unit_raise, branch_raise]
  simp only [List.sum_map_add]
  ring

/-! ## The rules do not look at costs -/

theorem capRule_raise {ext : Bool} {c a : Name} {i : Invest F} {cap mods : F} : CapRule ext (raiseInvest d c a i) cap mods ↔ CapRule ext i cap mods :=
  ⟨fun h => ⟨h.least, h.most, h.set, h.modules⟩, fun h => ⟨h.least, h.most, h.set, h.modules⟩⟩

theorem genRamps_raise : (raise d w).gens.map (·.unit) = w.gens.map (·.unit) := by simp [raise, raiseGen, Function.comp_def]
theorem linkRamps_raise : (raise d w).links.map (·.unit) = w.links.map (·.unit) := by simp [raise, raiseLink, Function.comp_def]

theorem genRule_raise {g : GenW F} {y : Loc → F} : GenRule (raise d w) (raiseGen d g) y ↔ GenRule w g y := by
  constructor
  · intro h
    have hu := h.unit
    rw [genRamps_raise] at hu
    exact ⟨capRule_raise.mp h.cap, hu, h.set, h.sumMin, h.sumMax⟩
  · intro h
    have hu := h.unit
    rw [← genRamps_raise (d := d)] at hu
    exact ⟨capRule_raise.mpr h.cap, hu, h.set, h.sumMin, h.sumMax⟩

theorem linkRule_raise {g : LinkW F} {y : Loc → F} : LinkRule (raise d w) (raiseLink d g) y ↔ LinkRule w g y := by
  constructor
  · intro h
    have hu := h.unit
    rw [linkRamps_raise] at hu
    exact ⟨capRule_raise.mp h.cap, hu, h.set⟩
  · intro h
    have hu := h.unit
    rw [← linkRamps_raise (d := d)] at hu
    exact ⟨capRule_raise.mpr h.cap, hu, h.set⟩

theorem storeRule_raise {g : StoreW F} {y : Loc → F} : StoreRule (raise d w) (raiseStore d g) y ↔ StoreRule w g y :=
  ⟨fun h => ⟨capRule_raise.mp h.cap, h.limits, h.set, h.level⟩, fun h => ⟨capRule_raise.mpr h.cap, h.limits, h.set, h.level⟩⟩

theorem storageRule_raise {g : UnitW F} {y : Loc → F} : StorageRule (raise d w) (raiseUnit d g) y ↔ StorageRule w g y :=
  ⟨fun h => ⟨capRule_raise.mp h.cap, h.dispatch, h.store, h.charge, h.spill, h.set, h.level⟩,
    fun h => ⟨capRule_raise.mpr h.cap, h.dispatch, h.store, h.charge, h.spill, h.set, h.level⟩⟩

theorem branchRule_raise {c : Name} {g : BranchW F} {y : Loc → F} : BranchRule (raise d w) (raiseBranch d c g) y ↔ BranchRule w g y :=
  ⟨fun h => ⟨capRule_raise.mp h.cap, h.limits, h.set, h.loss⟩, fun h => ⟨capRule_raise.mpr h.cap, h.limits, h.set, h.loss⟩⟩

theorem supply_raise (x : WVar → F) (t : Nat) (b : Name) : supply (raise d w) x t b = supply w x t b := by
  simp only [supply, raise, List.map_map, Function.comp_def]
  rfl

/-- **C141.** The rules after the rise are those before it. -/
theorem rules_raise {x : WVar → F} : Rules (raise d w) x ↔ Rules w x := by
  constructor
  · intro h
    exact ⟨fun g hg => genRule_raise.mp (h.gens _ (List.mem_map.mpr ⟨g, hg, rfl⟩)), fun g hg => linkRule_raise.mp (h.links _ (List.mem_map.mpr ⟨g, hg, rfl⟩)),
      fun g hg => storeRule_raise.mp (h.stores _ (List.mem_map.mpr ⟨g, hg, rfl⟩)), fun g hg => storageRule_raise.mp (h.units _ (List.mem_map.mpr ⟨g, hg, rfl⟩)),
      fun g hg => branchRule_raise.mp (h.lines _ (List.mem_map.mpr ⟨g, hg, rfl⟩)), fun g hg => branchRule_raise.mp (h.trafos _ (List.mem_map.mpr ⟨g, hg, rfl⟩)),
      fun t ht b hb => (supply_raise x t b).symm.trans (h.balance t ht b hb)⟩
  · intro h
    refine ⟨?_, ?_, ?_, ?_, ?_, ?_, fun t ht b hb => (supply_raise x t b).trans (h.balance t ht b hb)⟩
    · intro g hg
      obtain ⟨g, hm, rfl⟩ := List.mem_map.mp hg
      exact genRule_raise.mpr (h.gens g hm)
    · intro g hg
      obtain ⟨g, hm, rfl⟩ := List.mem_map.mp hg
      exact linkRule_raise.mpr (h.links g hm)
    · intro g hg
      obtain ⟨g, hm, rfl⟩ := List.mem_map.mp hg
      exact storeRule_raise.mpr (h.stores g hm)
    · intro g hg
      obtain ⟨g, hm, rfl⟩ := List.mem_map.mp hg
      exact storageRule_raise.mpr (h.units g hm)
    · intro g hg
      obtain ⟨g, hm, rfl⟩ := List.mem_map.mp hg
      exact branchRule_raise.mpr (h.lines g hm)
    · intro g hg
      obtain ⟨g, hm, rfl⟩ := List.mem_map.mp hg
      exact branchRule_raise.mpr (h.trafos g hm)

omit [LinearOrder F] in
theorem sound_raise (h : Sound w) : Sound (raise d w) := by
  refine ⟨h.noEmpty, h.buses, ?_, ?_, ?_, h.loadBus, ?_, ?_, ?_, ?_, ?_, ?_, ?_, ?_, ?_⟩
  · intro g hg
    obtain ⟨g, hm, rfl⟩ := List.mem_map.mp hg
    exact h.genBus g hm
  · intro g hg
    obtain ⟨g, hm, rfl⟩ := List.mem_map.mp hg
    exact h.storeBus g hm
  · intro g hg
    obtain ⟨g, hm, rfl⟩ := List.mem_map.mp hg
    exact h.unitBus g hm
  · intro g hg
    obtain ⟨g, hm, rfl⟩ := List.mem_map.mp hg
    exact h.lineBus g hm
  · intro g hg
    obtain ⟨g, hm, rfl⟩ := List.mem_map.mp hg
    exact h.trafoBus g hm
  · intro g hg
    obtain ⟨g, hm, rfl⟩ := List.mem_map.mp hg
    exact h.linkBus g hm
  · have := h.gens
    simpa [raise, raiseGen, Function.comp_def] using this
  · have := h.links
    simpa [raise, raiseLink, Function.comp_def] using this
  · have := h.stores
    simpa [raise, raiseStore, Function.comp_def] using this
  · have := h.units
    simpa [raise, raiseUnit, Function.comp_def] using this
  · have := h.lines
    simpa [raise, raiseBranch, Function.comp_def] using this
  · have := h.trafos
    simpa [raise, raiseBranch, Function.comp_def] using this

theorem linear_raise (h : LinearCosts w) : LinearCosts (raise d w) := by
  refine ⟨?_, ?_, ?_, ?_, ?_, ?_⟩
  · intro g hg
    obtain ⟨g, hm, rfl⟩ := List.mem_map.mp hg
    exact h.gens g hm
  · intro g hg
    obtain ⟨g, hm, rfl⟩ := List.mem_map.mp hg
    exact h.links g hm
  · intro g hg
    obtain ⟨g, hm, rfl⟩ := List.mem_map.mp hg
    exact h.stores g hm
  · intro g hg
    obtain ⟨g, hm, rfl⟩ := List.mem_map.mp hg
    exact h.units g hm
  · intro g hg
    obtain ⟨g, hm, rfl⟩ := List.mem_map.mp hg
    exact h.genEvents g hm
  · intro g hg
    obtain ⟨g, hm, rfl⟩ := List.mem_map.mp hg
    exact h.linkEvents g hm

theorem orderly_raise (h : Orderly w) : Orderly (raise d w) := by
  refine ⟨?_, ?_, ?_, ?_⟩
  · intro g hg
    obtain ⟨g, hm, rfl⟩ := List.mem_map.mp hg
    exact h.gens g hm
  · intro g hg
    obtain ⟨g, hm, rfl⟩ := List.mem_map.mp hg
    exact h.links g hm
  · intro g hg
    obtain ⟨g, hm, rfl⟩ := List.mem_map.mp hg
    exact h.stores g hm
  · intro g hg
    obtain ⟨g, hm, rfl⟩ := List.mem_map.mp hg
    exact h.units g hm

/-! ## Two optima -/

section two
variable [IsStrictOrderedRing F] (hw : Sound w) (hl : LinearCosts w) (hd : Orderly w) {other : List (Con WVar F)}
  (ho : ∀ r ∈ other, ∀ e ∈ r.terms, e.2 ≠ .const) {P Q : Program F} (hP : createModel w other = some P) (hQ : createModel (raise d w) other = some Q)
  {D : (WVar → F) → Prop} (hD : ∀ k x, D x → D (setConst k x)) {x y : WVar → F} (hx : SolverBest w P D x) (hy : SolverBest (raise d w) Q D y)
include hw hl hd ho hP hQ hD hx hy

/-- **C141.** The optimum costs at least as much more as the rise costs the new plan, and at most as much more as it costs the old. -/
theorem bounds : costOf w P x + burden d w y ≤ costOf (raise d w) Q y ∧ costOf (raise d w) Q y ≤ costOf w P x + burden d w x := by
  obtain ⟨⟨a1, a2, a3, a4⟩, a5⟩ := (best_iff hw hl hd ho hP D hD x).1 hx
  obtain ⟨⟨b1, b2, b3, b4⟩, b5⟩ := (best_iff (sound_raise hw) (linear_raise hl) (orderly_raise hd) ho hQ D hD y).1 hy
  have e1 := a4 y (rules_raise.mp b1) b2 b3
  have e2 := b4 x (rules_raise.mpr a1) a2 a3
  rw [cost_raise, cost_raise] at e2
  rw [a5, b5, cost_raise]
  constructor
  · linarith
  · linarith

/-- **C141.** What has become dearer is, on the whole, not used more. -/
theorem less_used : burden d w y ≤ burden d w x := by
  obtain ⟨h1, h2⟩ := bounds hw hl hd ho hP hQ hD hx hy
  linarith

end two

/-! ## Rises of some columns only -/

def scaleRise (θ : F) (d : Rise F) : Rise F :=
  ⟨fun c a t => θ * d.marginal c a t, fun c a t => θ * d.level c a t, fun c a t => θ * d.spill c a t, fun c a t => θ * d.standBy c a t,
    fun c a => θ * d.capital c a⟩

/-- A rise of `marginal_cost` in one class. -/
def onMarginal (c : Name) (r : Name → Nat → F) : Rise F := ⟨fun c' a t => if c' = c then r a t else 0, fun _ _ _ => 0, fun _ _ _ => 0, fun _ _ _ => 0, fun _ _ => 0⟩

/-- A rise of `capital_cost` in one class. -/
def onCapital (c : Name) (r : Name → F) : Rise F := ⟨fun _ _ _ => 0, fun _ _ _ => 0, fun _ _ _ => 0, fun _ _ _ => 0, fun c' a => if c' = c then r a else 0⟩

omit [LinearOrder F] in
theorem over_scale (θ : F) (act : Nat → Bool) (r u : Nat → F) : over w act (fun t => θ * r t) u = θ * over w act r u := by
  unfold over
  rw [← List.sum_map_mul_left]
  refine congrArg List.sum (List.map_congr_left (fun t _ => ?_))
  split
  · ring
  · ring

omit [LinearOrder F] in
theorem over_zero (act : Nat → Bool) (u : Nat → F) : over w act (fun _ => 0) u = 0 := by simp [over]

omit [LinearOrder F] in
theorem onCap_scale (θ : F) (ext : Bool) (i : Invest F) (r cap : F) : onCap w ext i (θ * r) cap = θ * onCap w ext i r cap := by
  unfold onCap
  split <;> ring

omit [LinearOrder F] in
theorem onCap_zero (ext : Bool) (i : Invest F) (cap : F) : onCap w ext i 0 cap = 0 := by simp [onCap]

theorem burden_scale (θ : F) (x : WVar → F) : burden (scaleRise θ d) w x = θ * burden d w x := by
  unfold burden scaleRise
  simp only [over_scale, onCap_scale, ← mul_add, List.sum_map_mul_left]

theorem burden_gens (r : Name → Nat → F) (x : WVar → F) : burden (onMarginal "Generator" r) w x =
    (w.gens.map (fun g => over w g.unit.active (r g.name) (fun t => x (.of "Generator" g.name (.op "p" t))))).sum := by
  simp [burden, onMarginal, over_zero, onCap_zero]

theorem burden_links (r : Name → Nat → F) (x : WVar → F) : burden (onMarginal "Link" r) w x =
    (w.links.map (fun g => over w g.unit.active (r g.name) (fun t => x (.of "Link" g.name (.op "p" t))))).sum := by
  simp [burden, onMarginal, over_zero, onCap_zero]

theorem burden_stores (r : Name → Nat → F) (x : WVar → F) : burden (onMarginal "Store" r) w x =
    (w.stores.map (fun g => over w g.storage.active (r g.name) (fun t => x (.of "Store" g.name (.op "p" t))))).sum := by
  simp [burden, onMarginal, over_zero, onCap_zero]

theorem burden_units (r : Name → Nat → F) (x : WVar → F) : burden (onMarginal "StorageUnit" r) w x =
    (w.units.map (fun g => over w g.storage.active (r g.name) (fun t => x (.of "StorageUnit" g.name (.op "p_dispatch" t))))).sum := by
  simp [burden, onMarginal, over_zero, onCap_zero]

theorem burden_genCaps (r : Name → F) (x : WVar → F) : burden (onCapital "Generator" r) w x =
    (w.gens.map (fun g => onCap w g.unit.extendable g.invest (r g.name) (x (.of "Generator" g.name .cap)))).sum := by
  simp [burden, onCapital, over_zero, onCap_zero]

theorem burden_linkCaps (r : Name → F) (x : WVar → F) : burden (onCapital "Link" r) w x =
    (w.links.map (fun g => onCap w g.unit.extendable g.invest (r g.name) (x (.of "Link" g.name .cap)))).sum := by
  simp [burden, onCapital, over_zero, onCap_zero]

theorem burden_storeCaps (r : Name → F) (x : WVar → F) : burden (onCapital "Store" r) w x =
    (w.stores.map (fun g => onCap w g.ext g.invest (r g.name) (x (.of "Store" g.name .cap)))).sum := by
  simp [burden, onCapital, over_zero, onCap_zero]

theorem burden_unitCaps (r : Name → F) (x : WVar → F) : burden (onCapital "StorageUnit" r) w x =
    (w.units.map (fun g => onCap w g.ext g.invest (r g.name) (x (.of "StorageUnit" g.name .cap)))).sum := by
  simp [burden, onCapital, over_zero, onCap_zero]

theorem burden_lineCaps (r : Name → F) (x : WVar → F) : burden (onCapital "Line" r) w x =
    (w.lines.map (fun g => onCap w g.ext g.invest (r g.name) (x (.of "Line" g.name .cap)))).sum := by
  simp [burden, onCapital, over_zero, onCap_zero]

theorem burden_trafoCaps (r : Name → F) (x : WVar → F) : burden (onCapital "Transformer" r) w x =
    (w.trafos.map (fun g => onCap w g.ext g.invest (r g.name) (x (.of "Transformer" g.name .cap)))).sum := by
  simp [burden, onCapital, over_zero, onCap_zero]

/-! ## Single assets and groups -/

omit [LinearOrder F] in
/-- Only one element counts. -/
theorem sum_only {α β : Type} {l : List α} {n : α → β} (hn : (l.map n).Nodup) {g : α} (hg : g ∈ l) (f : α → F)
    (hz : ∀ h ∈ l, n h ≠ n g → f h = 0) : (l.map f).sum = f g := by
  induction l with
  | nil => cases hg
  | cons a l ih =>
    rw [List.map_cons, List.nodup_cons] at hn
    rw [List.map_cons, List.sum_cons]
    rcases List.mem_cons.mp hg with rfl | hm
    · have : (l.map f).sum = 0 := by
        rw [List.sum_eq_zero]
        intro v hv
        obtain ⟨h, hh, rfl⟩ := List.mem_map.mp hv
        exact hz h (List.mem_cons_of_mem _ hh) (fun e => hn.1 (e ▸ List.mem_map.mpr ⟨h, hh, rfl⟩))
      rw [this, add_zero]
    · rw [ih hn.2 hm (fun h hh => hz h (List.mem_cons_of_mem _ hh)), hz a List.mem_cons_self, zero_add]
      intro e
      exact hn.1 (e ▸ List.mem_map.mpr ⟨g, hm, rfl⟩)

omit [LinearOrder F] in
/-- Only one snapshot counts. -/
theorem over_only (act : Nat → Bool) (u : Nat → F) {t0 : Nat} (k : F) (ht : t0 < w.len) (ha : act t0 = true) :
    over w act (fun t => if t = t0 then k else 0) u = weight w t0 * k * u t0 := by
  unfold over
  rw [sum_only (n := fun t : Nat => t) (by rw [List.map_id']; exact List.nodup_range) (List.mem_range.mpr ht)]
  · simp [ha]
  · intro t _ hne
    simp [hne]

omit [LinearOrder F] in
/-- Energy over the year: rise and weighted sum. -/
theorem over_const (act : Nat → Bool) (u : Nat → F) (k : F) : over w act (fun _ => k) u = k * total w.len (weight w) act u := by
  unfold over total
  rw [← List.sum_map_mul_left]
  refine congrArg List.sum (List.map_congr_left (fun t _ => ?_))
  split
  · ring
  · ring

/-- The rise of one asset in one snapshot. -/
def oneHour (a : Name) (t0 : Nat) (k : F) : Name → Nat → F := fun a' t => if a' = a then (if t = t0 then k else 0) else 0

/-- The same rise for all assets of a group, such as those of one carrier. -/
def group (sel : Name → Bool) (k : F) : Name → Nat → F := fun a _ => if sel a then k else 0

def oneCap (a : Name) (k : F) : Name → F := fun a' => if a' = a then k else 0

omit [LinearOrder F] in
theorem over_group (sel : Name → Bool) (a : Name) (k : F) (act : Nat → Bool) (u : Nat → F) :
    over w act (group sel k a) u = k * (if sel a then total w.len (weight w) act u else 0) := by
  cases h : sel a
  · have : group sel k a = fun _ => 0 := by
      funext t
      simp [group, h]
    rw [this, over_zero]
    simp
  · have : group sel k a = fun _ => k := by
      funext t
      simp [group, h]
    rw [this, over_const]
    simp

theorem pos_cancel [IsStrictOrderedRing F] {v k a b : F} (hv : 0 < v) (hk : 0 < k) (h : v * k * a ≤ v * k * b) : a ≤ b :=
  le_of_mul_le_mul_left h (mul_pos hv hk)

section two
variable [IsStrictOrderedRing F] (hw : Sound w) (hl : LinearCosts w) (hd : Orderly w) {other : List (Con WVar F)}
  (ho : ∀ r ∈ other, ∀ e ∈ r.terms, e.2 ≠ .const) {P Q : Program F} (hP : createModel w other = some P)
  {D : (WVar → F) → Prop} (hD : ∀ k x, D x → D (setConst k x)) {x y : WVar → F} (hx : SolverBest w P D x)
include hw hl hd ho hP hD hx

/-- **C141.** Where the generator is dearer in one snapshot, it does not deliver more there. -/
theorem gen_hour {g} (hg : g ∈ w.gens) {t0 : Nat} (ht : t0 < w.len) (ha : g.unit.active t0 = true) (hwt : 0 < weight w t0) {k : F} (hk : 0 < k)
    (hQ : createModel (raise (onMarginal "Generator" (oneHour g.name t0 k)) w) other = some Q)
    (hy : SolverBest (raise (onMarginal "Generator" (oneHour g.name t0 k)) w) Q D y) :
    y (.of "Generator" g.name (.op "p" t0)) ≤ x (.of "Generator" g.name (.op "p" t0)) := by
  have h := less_used hw hl hd ho hP hQ hD hx hy
  have key : ∀ z : WVar → F, burden (onMarginal "Generator" (oneHour g.name t0 k)) w z = weight w t0 * k * z (.of "Generator" g.name (.op "p" t0)) := by
    intro z
    rw [burden_gens, sum_only hw.gens hg]
    · have : oneHour g.name t0 k g.name = fun t => if t = t0 then k else 0 := by
        funext t
        simp [oneHour]
      rw [this, over_only _ _ k ht ha]
    · intro g' _ hne
      have : oneHour g.name t0 k g'.name = fun _ => 0 := by
        funext t
        simp [oneHour, hne]
      rw [this, over_zero]
  rw [key, key] at h
  exact pos_cancel hwt hk h

/-- **C141.** Where the link is dearer in one snapshot, it does not deliver more there. -/
theorem link_hour {g} (hg : g ∈ w.links) {t0 : Nat} (ht : t0 < w.len) (ha : g.unit.active t0 = true) (hwt : 0 < weight w t0) {k : F} (hk : 0 < k)
    (hQ : createModel (raise (onMarginal "Link" (oneHour g.name t0 k)) w) other = some Q)
    (hy : SolverBest (raise (onMarginal "Link" (oneHour g.name t0 k)) w) Q D y) :
    y (.of "Link" g.name (.op "p" t0)) ≤ x (.of "Link" g.name (.op "p" t0)) := by
  have h := less_used hw hl hd ho hP hQ hD hx hy
  have key : ∀ z : WVar → F, burden (onMarginal "Link" (oneHour g.name t0 k)) w z = weight w t0 * k * z (.of "Link" g.name (.op "p" t0)) := by
    intro z
    rw [burden_links, sum_only hw.links hg]
    · have : oneHour g.name t0 k g.name = fun t => if t = t0 then k else 0 := by
        funext t
        simp [oneHour]
      rw [this, over_only _ _ k ht ha]
    · intro g' _ hne
      have : oneHour g.name t0 k g'.name = fun _ => 0 := by
        funext t
        simp [oneHour, hne]
      rw [this, over_zero]
  rw [key, key] at h
  exact pos_cancel hwt hk h

/-- **C141.** Where the store is dearer in one snapshot, it does not deliver more there. -/
theorem store_hour {g} (hg : g ∈ w.stores) {t0 : Nat} (ht : t0 < w.len) (ha : g.storage.active t0 = true) (hwt : 0 < weight w t0) {k : F} (hk : 0 < k)
    (hQ : createModel (raise (onMarginal "Store" (oneHour g.name t0 k)) w) other = some Q)
    (hy : SolverBest (raise (onMarginal "Store" (oneHour g.name t0 k)) w) Q D y) :
    y (.of "Store" g.name (.op "p" t0)) ≤ x (.of "Store" g.name (.op "p" t0)) := by
  have h := less_used hw hl hd ho hP hQ hD hx hy
  have key : ∀ z : WVar → F, burden (onMarginal "Store" (oneHour g.name t0 k)) w z = weight w t0 * k * z (.of "Store" g.name (.op "p" t0)) := by
    intro z
    rw [burden_stores, sum_only hw.stores hg]
    · have : oneHour g.name t0 k g.name = fun t => if t = t0 then k else 0 := by
        funext t
        simp [oneHour]
      rw [this, over_only _ _ k ht ha]
    · intro g' _ hne
      have : oneHour g.name t0 k g'.name = fun _ => 0 := by
        funext t
        simp [oneHour, hne]
      rw [this, over_zero]
  rw [key, key] at h
  exact pos_cancel hwt hk h

/-- **C141.** Where the storage unit is dearer in one snapshot, it does not deliver more there. -/
theorem unit_hour {g} (hg : g ∈ w.units) {t0 : Nat} (ht : t0 < w.len) (ha : g.storage.active t0 = true) (hwt : 0 < weight w t0) {k : F} (hk : 0 < k)
    (hQ : createModel (raise (onMarginal "StorageUnit" (oneHour g.name t0 k)) w) other = some Q)
    (hy : SolverBest (raise (onMarginal "StorageUnit" (oneHour g.name t0 k)) w) Q D y) :
    y (.of "StorageUnit" g.name (.op "p_dispatch" t0)) ≤ x (.of "StorageUnit" g.name (.op "p_dispatch" t0)) := by
  have h := less_used hw hl hd ho hP hQ hD hx hy
  have key : ∀ z : WVar → F, burden (onMarginal "StorageUnit" (oneHour g.name t0 k)) w z = weight w t0 * k * z (.of "StorageUnit" g.name (.op "p_dispatch" t0)) := by
    intro z
    rw [burden_units, sum_only hw.units hg]
    · have : oneHour g.name t0 k g.name = fun t => if t = t0 then k else 0 := by
        funext t
        simp [oneHour]
      rw [this, over_only _ _ k ht ha]
    · intro g' _ hne
      have : oneHour g.name t0 k g'.name = fun _ => 0 := by
        funext t
        simp [oneHour, hne]
      rw [this, over_zero]
  rw [key, key] at h
  exact pos_cancel hwt hk h

/-- **C141.** Where a group of assets is dearer throughout (`Generator`), it does not deliver more energy. -/
theorem gens_energy (sel : Name → Bool) {k : F} (hk : 0 < k)
    (hQ : createModel (raise (onMarginal "Generator" (group sel k)) w) other = some Q) (hy : SolverBest (raise (onMarginal "Generator" (group sel k)) w) Q D y) :
    (w.gens.map (fun g => if sel g.name then total w.len (weight w) g.unit.active (fun t => y (.of "Generator" g.name (.op "p" t))) else 0)).sum ≤
    (w.gens.map (fun g => if sel g.name then total w.len (weight w) g.unit.active (fun t => x (.of "Generator" g.name (.op "p" t))) else 0)).sum := by
  have h := less_used hw hl hd ho hP hQ hD hx hy
  rw [burden_gens, burden_gens] at h
  simp only [over_group] at h
  rw [List.sum_map_mul_left, List.sum_map_mul_left] at h
  exact le_of_mul_le_mul_left h hk

/-- **C141.** Where a group of assets is dearer throughout (`Link`), it does not deliver more energy. -/
theorem links_energy (sel : Name → Bool) {k : F} (hk : 0 < k)
    (hQ : createModel (raise (onMarginal "Link" (group sel k)) w) other = some Q) (hy : SolverBest (raise (onMarginal "Link" (group sel k)) w) Q D y) :
    (w.links.map (fun g => if sel g.name then total w.len (weight w) g.unit.active (fun t => y (.of "Link" g.name (.op "p" t))) else 0)).sum ≤
    (w.links.map (fun g => if sel g.name then total w.len (weight w) g.unit.active (fun t => x (.of "Link" g.name (.op "p" t))) else 0)).sum := by
  have h := less_used hw hl hd ho hP hQ hD hx hy
  rw [burden_links, burden_links] at h
  simp only [over_group] at h
  rw [List.sum_map_mul_left, List.sum_map_mul_left] at h
  exact le_of_mul_le_mul_left h hk

/-- **C141.** Where a group of assets is dearer throughout (`Store`), it does not deliver more energy. -/
theorem stores_energy (sel : Name → Bool) {k : F} (hk : 0 < k)
    (hQ : createModel (raise (onMarginal "Store" (group sel k)) w) other = some Q) (hy : SolverBest (raise (onMarginal "Store" (group sel k)) w) Q D y) :
    (w.stores.map (fun g => if sel g.name then total w.len (weight w) g.storage.active (fun t => y (.of "Store" g.name (.op "p" t))) else 0)).sum ≤
    (w.stores.map (fun g => if sel g.name then total w.len (weight w) g.storage.active (fun t => x (.of "Store" g.name (.op "p" t))) else 0)).sum := by
  have h := less_used hw hl hd ho hP hQ hD hx hy
  rw [burden_stores, burden_stores] at h
  simp only [over_group] at h
  rw [List.sum_map_mul_left, List.sum_map_mul_left] at h
  exact le_of_mul_le_mul_left h hk

/-- **C141.** Where a group of assets is dearer throughout (`StorageUnit`), it does not deliver more energy. -/
theorem units_energy (sel : Name → Bool) {k : F} (hk : 0 < k)
    (hQ : createModel (raise (onMarginal "StorageUnit" (group sel k)) w) other = some Q) (hy : SolverBest (raise (onMarginal "StorageUnit" (group sel k)) w) Q D y) :
    (w.units.map (fun g => if sel g.name then total w.len (weight w) g.storage.active (fun t => y (.of "StorageUnit" g.name (.op "p_dispatch" t))) else 0)).sum ≤
    (w.units.map (fun g => if sel g.name then total w.len (weight w) g.storage.active (fun t => x (.of "StorageUnit" g.name (.op "p_dispatch" t))) else 0)).sum := by
  have h := less_used hw hl hd ho hP hQ hD hx hy
  rw [burden_units, burden_units] at h
  simp only [over_group] at h
  rw [List.sum_map_mul_left, List.sum_map_mul_left] at h
  exact le_of_mul_le_mul_left h hk

/-- **C141.** Where building the generator is dearer, it is not built larger. -/
theorem gen_capacity {g} (hg : g ∈ w.gens) (he : g.unit.extendable = true) (hlw : 0 < lifeWeight w g.invest) {k : F} (hk : 0 < k)
    (hQ : createModel (raise (onCapital "Generator" (oneCap g.name k)) w) other = some Q)
    (hy : SolverBest (raise (onCapital "Generator" (oneCap g.name k)) w) Q D y) : y (.of "Generator" g.name .cap) ≤ x (.of "Generator" g.name .cap) := by
  have h := less_used hw hl hd ho hP hQ hD hx hy
  have key : ∀ z : WVar → F, burden (onCapital "Generator" (oneCap g.name k)) w z = lifeWeight w g.invest * k * z (.of "Generator" g.name .cap) := by
    intro z
    rw [burden_genCaps, sum_only hw.gens hg]
    · simp [oneCap, onCap, he]
    · intro g' _ hne
      simp [oneCap, onCap, hne]
  rw [key, key] at h
  exact pos_cancel hlw hk h

/-- **C141.** Where building the link is dearer, it is not built larger. -/
theorem link_capacity {g} (hg : g ∈ w.links) (he : g.unit.extendable = true) (hlw : 0 < lifeWeight w g.invest) {k : F} (hk : 0 < k)
    (hQ : createModel (raise (onCapital "Link" (oneCap g.name k)) w) other = some Q)
    (hy : SolverBest (raise (onCapital "Link" (oneCap g.name k)) w) Q D y) : y (.of "Link" g.name .cap) ≤ x (.of "Link" g.name .cap) := by
  have h := less_used hw hl hd ho hP hQ hD hx hy
  have key : ∀ z : WVar → F, burden (onCapital "Link" (oneCap g.name k)) w z = lifeWeight w g.invest * k * z (.of "Link" g.name .cap) := by
    intro z
    rw [burden_linkCaps, sum_only hw.links hg]
    · simp [oneCap, onCap, he]
    · intro g' _ hne
      simp [oneCap, onCap, hne]
  rw [key, key] at h
  exact pos_cancel hlw hk h

/-- **C141.** Where building the store is dearer, it is not built larger. -/
theorem store_capacity {g} (hg : g ∈ w.stores) (he : g.ext = true) (hlw : 0 < lifeWeight w g.invest) {k : F} (hk : 0 < k)
    (hQ : createModel (raise (onCapital "Store" (oneCap g.name k)) w) other = some Q)
    (hy : SolverBest (raise (onCapital "Store" (oneCap g.name k)) w) Q D y) : y (.of "Store" g.name .cap) ≤ x (.of "Store" g.name .cap) := by
  have h := less_used hw hl hd ho hP hQ hD hx hy
  have key : ∀ z : WVar → F, burden (onCapital "Store" (oneCap g.name k)) w z = lifeWeight w g.invest * k * z (.of "Store" g.name .cap) := by
    intro z
    rw [burden_storeCaps, sum_only hw.stores hg]
    · simp [oneCap, onCap, he]
    · intro g' _ hne
      simp [oneCap, onCap, hne]
  rw [key, key] at h
  exact pos_cancel hlw hk h

/-- **C141.** Where building the storage unit is dearer, it is not built larger. -/
theorem unit_capacity {g} (hg : g ∈ w.units) (he : g.ext = true) (hlw : 0 < lifeWeight w g.invest) {k : F} (hk : 0 < k)
    (hQ : createModel (raise (onCapital "StorageUnit" (oneCap g.name k)) w) other = some Q)
    (hy : SolverBest (raise (onCapital "StorageUnit" (oneCap g.name k)) w) Q D y) : y (.of "StorageUnit" g.name .cap) ≤ x (.of "StorageUnit" g.name .cap) := by
  have h := less_used hw hl hd ho hP hQ hD hx hy
  have key : ∀ z : WVar → F, burden (onCapital "StorageUnit" (oneCap g.name k)) w z = lifeWeight w g.invest * k * z (.of "StorageUnit" g.name .cap) := by
    intro z
    rw [burden_unitCaps, sum_only hw.units hg]
    · simp [oneCap, onCap, he]
    · intro g' _ hne
      simp [oneCap, onCap, hne]
  rw [key, key] at h
  exact pos_cancel hlw hk h

/-- **C141.** Where building the line is dearer, it is not built larger. -/
theorem line_capacity {g} (hg : g ∈ w.lines) (he : g.ext = true) (hlw : 0 < lifeWeight w g.invest) {k : F} (hk : 0 < k)
    (hQ : createModel (raise (onCapital "Line" (oneCap g.name k)) w) other = some Q)
    (hy : SolverBest (raise (onCapital "Line" (oneCap g.name k)) w) Q D y) : y (.of "Line" g.name .cap) ≤ x (.of "Line" g.name .cap) := by
  have h := less_used hw hl hd ho hP hQ hD hx hy
  have key : ∀ z : WVar → F, burden (onCapital "Line" (oneCap g.name k)) w z = lifeWeight w g.invest * k * z (.of "Line" g.name .cap) := by
    intro z
    rw [burden_lineCaps, sum_only hw.lines hg]
    · simp [oneCap, onCap, he]
    · intro g' _ hne
      simp [oneCap, onCap, hne]
  rw [key, key] at h
  exact pos_cancel hlw hk h

/-- **C141.** Where building the transformer is dearer, it is not built larger. -/
theorem trafo_capacity {g} (hg : g ∈ w.trafos) (he : g.ext = true) (hlw : 0 < lifeWeight w g.invest) {k : F} (hk : 0 < k)
    (hQ : createModel (raise (onCapital "Transformer" (oneCap g.name k)) w) other = some Q)
    (hy : SolverBest (raise (onCapital "Transformer" (oneCap g.name k)) w) Q D y) : y (.of "Transformer" g.name .cap) ≤ x (.of "Transformer" g.name .cap) := by
  have h := less_used hw hl hd ho hP hQ hD hx hy
  have key : ∀ z : WVar → F, burden (onCapital "Transformer" (oneCap g.name k)) w z = lifeWeight w g.invest * k * z (.of "Transformer" g.name .cap) := by
    intro z
    rw [burden_trafoCaps, sum_only hw.trafos hg]
    · simp [oneCap, onCap, he]
    · intro g' _ hne
      simp [oneCap, onCap, hne]
  rw [key, key] at h
  exact pos_cancel hlw hk h

/-- **C141.** Part of the rise costs at least that part of the whole. -/
theorem concave {θ : F} (h0 : 0 ≤ θ) (h1 : θ ≤ 1) {R : Program F} {z : WVar → F} (hQ : createModel (raise d w) other = some Q) (hy : SolverBest (raise d w) Q D y)
    (hR : createModel (raise (scaleRise θ d) w) other = some R) (hz : SolverBest (raise (scaleRise θ d) w) R D z) :
    (1 - θ) * costOf w P x + θ * costOf (raise d w) Q y ≤ costOf (raise (scaleRise θ d) w) R z := by
  obtain ⟨⟨a1, a2, a3, a4⟩, a5⟩ := (best_iff hw hl hd ho hP D hD x).1 hx
  obtain ⟨⟨b1, b2, b3, b4⟩, b5⟩ := (best_iff (sound_raise hw) (linear_raise hl) (orderly_raise hd) ho hQ D hD y).1 hy
  obtain ⟨⟨c1, c2, c3, c4⟩, c5⟩ := (best_iff (sound_raise hw) (linear_raise hl) (orderly_raise hd) ho hR D hD z).1 hz
  have rz := rules_raise.mp c1
  have e1 := mul_le_mul_of_nonneg_left (a4 z rz c2 c3) (sub_nonneg.mpr h1)
  have e2 := mul_le_mul_of_nonneg_left (b4 z (rules_raise.mpr rz) c2 c3) h0
  rw [cost_raise z] at e2
  rw [a5, b5, c5, cost_raise z, burden_scale]
  linarith

end two

/-! ## Other loads -/

section loads
variable [IsStrictOrderedRing F]

/-- Value of a change of the loads at these prices. -/
def worth (w : WNet F) (price : Name → Nat → F) (before after : List (LoadW F)) : F :=
  ((List.range w.len).map (fun t => (w.buses.map (fun b => weight w t * price b t * (drawn after b t - drawn before b t))).sum)).sum

omit [LinearOrder F] [IsStrictOrderedRing F] in
theorem worth_swap (w : WNet F) (price : Name → Nat → F) (l m : List (LoadW F)) : worth w price m l = - worth w price l m := by
  unfold worth
  rw [neg_eq_neg_one_mul, ← List.sum_map_mul_left]
  refine congrArg List.sum (List.map_congr_left (fun t _ => ?_))
  rw [← List.sum_map_mul_left]
  refine congrArg List.sum (List.map_congr_left (fun b _ => ?_))
  ring

theorem feasible_all {P : Program F} {x : WVar → F} (h : FeasibleIn P x) : Feasible x (P.balance.map (·.2) ++ P.rows) := by
  intro c hc
  rcases List.mem_append.mp hc with hc | hc
  · exact h.2 c hc
  · exact h.1 c hc

variable (hw : Sound w) (hl : LinearCosts w) {other : List (Con WVar F)} {P P' : Program F} (hP : createModel w other = some P)
  {loads : List (LoadW F)} (hb : ∀ l ∈ loads, l.bus ∈ w.buses) (hP' : createModel { w with loads := loads } other = some P')
  {x y : WVar → F} {lam lam' : Name → Nat → F} {mu mu' : List F} (hs : Solved P x lam mu) (hs' : Solved P' y lam' mu')
  (hwt : ∀ t < w.len, weight w t ≠ 0) (old : Name → Nat → F)
include hw hl hP hb hP' hs hs' hwt

/-- **C141.** Other loads cost at least what they are worth at the old prices, at most what they are worth at the new ones. -/
theorem loads_bounds : totalCost w x + worth w (fun b t => busPrice w (old b t) (lam b t) t) w.loads loads ≤ totalCost w y ∧
    totalCost w y ≤ totalCost w x + worth w (fun b t => busPrice w (old b t) (lam' b t) t) w.loads loads := by
  have h1 := price_is_marginal hw hl hP hs hwt old loads hb hP' y (feasible_all (Emissions.best_of_solved hs' w).1)
  have h2 := price_is_marginal (w := { w with loads := loads }) { hw with loadBus := hb } ⟨hl.gens, hl.links, hl.stores, hl.units, hl.genEvents, hl.linkEvents⟩
    hP' hs' hwt old w.loads hw.loadBus (P' := P) hP x (feasible_all (Emissions.best_of_solved hs w).1)
  refine ⟨h1, ?_⟩
  have h3 : totalCost w y + worth w (fun b t => busPrice w (old b t) (lam' b t) t) loads w.loads ≤ totalCost w x := h2
  rw [worth_swap] at h3
  linarith

/-- **C141.** Where more is needed, the price is on the whole not lower. -/
theorem prices_follow : 0 ≤ worth w (fun b t => busPrice w (old b t) (lam' b t) t - busPrice w (old b t) (lam b t) t) w.loads loads := by
  obtain ⟨h1, h2⟩ := loads_bounds hw hl hP hb hP' hs hs' hwt old
  have e : worth w (fun b t => busPrice w (old b t) (lam' b t) t - busPrice w (old b t) (lam b t) t) w.loads loads =
      worth w (fun b t => busPrice w (old b t) (lam' b t) t) w.loads loads - worth w (fun b t => busPrice w (old b t) (lam b t) t) w.loads loads := by
    rw [eq_sub_iff_add_eq]
    unfold worth
    rw [← List.sum_map_add]
    refine congrArg List.sum (List.map_congr_left (fun t _ => ?_))
    rw [← List.sum_map_add]
    refine congrArg List.sum (List.map_congr_left (fun b _ => ?_))
    ring
  rw [e]
  linarith

/-- **C141.** More load at one bus in one snapshot does not lower the price there. -/
theorem price_follows {b0 : Name} (hb0 : b0 ∈ w.buses) {t0 : Nat} (ht : t0 < w.len) (hpos : 0 < weight w t0)
    (hmore : drawn w.loads b0 t0 < drawn loads b0 t0)
    (hsame : ∀ b ∈ w.buses, ∀ t < w.len, (b ≠ b0 ∨ t ≠ t0) → drawn loads b t = drawn w.loads b t) :
    busPrice w (old b0 t0) (lam b0 t0) t0 ≤ busPrice w (old b0 t0) (lam' b0 t0) t0 := by
  have h := prices_follow hw hl hP hb hP' hs hs' hwt old
  unfold worth at h
  rw [sum_only (n := fun t : Nat => t) (by rw [List.map_id']; exact List.nodup_range) (List.mem_range.mpr ht)] at h
  · rw [sum_only (n := fun b : Name => b) (by rw [List.map_id']; exact hw.buses) hb0] at h
    · have hp := mul_pos hpos (sub_pos.mpr hmore)
      have : 0 ≤ weight w t0 * (drawn loads b0 t0 - drawn w.loads b0 t0) * (busPrice w (old b0 t0) (lam' b0 t0) t0 - busPrice w (old b0 t0) (lam b0 t0) t0) := by
        calc (0 : F) ≤ _ := h
          _ = _ := by ring
      have := nonneg_of_mul_nonneg_right this hp
      linarith
    · intro b hbm hne
      rw [hsame b hbm t0 ht (Or.inl hne)]
      ring
  · intro t htm hne
    rw [List.sum_eq_zero]
    intro v hv
    obtain ⟨b, hbm, rfl⟩ := List.mem_map.mp hv
    rw [hsame b hbm t (List.mem_range.mp htm) (Or.inr hne)]
    ring

end loads

/-- **C141.** Loads between two others cost at most the costs between theirs. -/
theorem loads_convex [IsStrictOrderedRing F] (hw : Sound w) (hl : LinearCosts w) {other : List (Con WVar F)} {P P0 P1 : Program F}
    (hP : createModel w other = some P) {l0 l1 : List (LoadW F)} (hb0 : ∀ l ∈ l0, l.bus ∈ w.buses) (hb1 : ∀ l ∈ l1, l.bus ∈ w.buses)
    (hP0 : createModel { w with loads := l0 } other = some P0) (hP1 : createModel { w with loads := l1 } other = some P1)
    {θ : F} (h0 : 0 ≤ θ) (h1 : θ ≤ 1)
    (hmid : ∀ b ∈ w.buses, ∀ t < w.len, drawn w.loads b t = (1 - θ) * drawn l0 b t + θ * drawn l1 b t)
    {x x0 x1 : WVar → F} {lam : Name → Nat → F} {mu : List F} (hs : Solved P x lam mu) (hx0 : FeasibleIn P0 x0) (hx1 : FeasibleIn P1 x1)
    (hwt : ∀ t < w.len, weight w t ≠ 0) : totalCost w x ≤ (1 - θ) * totalCost w x0 + θ * totalCost w x1 := by
  have e0 := price_is_marginal hw hl hP hs hwt (fun _ _ => 0) l0 hb0 hP0 x0 (feasible_all hx0)
  have e1 := price_is_marginal hw hl hP hs hwt (fun _ _ => 0) l1 hb1 hP1 x1 (feasible_all hx1)
  have e0' := mul_le_mul_of_nonneg_left e0 (sub_nonneg.mpr h1)
  have e1' := mul_le_mul_of_nonneg_left e1 h0
  have hz : (1 - θ) * worth w (fun b t => busPrice w 0 (lam b t) t) w.loads l0 + θ * worth w (fun b t => busPrice w 0 (lam b t) t) w.loads l1 = 0 := by
    unfold worth
    rw [← List.sum_map_mul_left, ← List.sum_map_mul_left, ← List.sum_map_add, List.sum_eq_zero]
    intro v hv
    obtain ⟨t, ht, rfl⟩ := List.mem_map.mp hv
    rw [← List.sum_map_mul_left, ← List.sum_map_mul_left, ← List.sum_map_add, List.sum_eq_zero]
    intro v hv
    obtain ⟨b, hb, rfl⟩ := List.mem_map.mp hv
    rw [hmid b hb t (List.mem_range.mp ht)]
    ring
  unfold worth at hz
  linarith

/-! ## Examples -/

open Emissions (mixNet mixUnit mixVal mixVars mixLinear best_of_solved)

/-- Coal becomes dearer than gas in the only snapshot. -/
def mixRise : Rise ℚ := onMarginal "Generator" (oneHour "coal" 0 4)

/-- All of the coal units. -/
def coalRise : Rise ℚ := onMarginal "Generator" (group (fun a => a == "coal") 4)

def half : Rise ℚ := scaleRise (1 / 2) mixRise

theorem mixSound : Sound mixNet := by constructor <;> decide +kernel

theorem mixSome : (createModel mixNet []).isSome = true ∧ (createModel (raise mixRise mixNet) []).isSome = true ∧ (createModel (raise coalRise mixNet) []).isSome = true ∧
    (createModel (raise half mixNet) []).isSome = true := by decide +kernel

theorem mixBefore : Solved ((createModel mixNet []).get mixSome.1) (mixVal 10 0) (fun _ _ => 9) [0, -6, 0, 0, 0] where
  len := by decide +kernel
  answer := {
    feasible := by decide +kernel
    upper := by decide +kernel
    lower := by decide +kernel
    stationary := stationary_of _ _ mixVars (by decide +kernel) (by decide +kernel) (by decide +kernel)
    noGap := by decide +kernel }

theorem mixAfter : Solved ((createModel (raise mixRise mixNet) []).get mixSome.2.1) (mixVal 0 10) (fun _ _ => 9) [6, 0, 0, 0, 0] where
  len := by decide +kernel
  answer := {
    feasible := by decide +kernel
    upper := by decide +kernel
    lower := by decide +kernel
    stationary := stationary_of _ _ mixVars (by decide +kernel) (by decide +kernel) (by decide +kernel)
    noGap := by decide +kernel }

theorem mixCoal : Solved ((createModel (raise coalRise mixNet) []).get mixSome.2.2.1) (mixVal 0 10) (fun _ _ => 9) [6, 0, 0, 0, 0] where
  len := by decide +kernel
  answer := {
    feasible := by decide +kernel
    upper := by decide +kernel
    lower := by decide +kernel
    stationary := stationary_of _ _ mixVars (by decide +kernel) (by decide +kernel) (by decide +kernel)
    noGap := by decide +kernel }

theorem mixHalf : Solved ((createModel (raise half mixNet) []).get mixSome.2.2.2) (mixVal 10 0) (fun _ _ => 9) [0, 0, 0, 0, 0] where
  len := by decide +kernel
  answer := {
    feasible := by decide +kernel
    upper := by decide +kernel
    lower := by decide +kernel
    stationary := stationary_of _ _ mixVars (by decide +kernel) (by decide +kernel) (by decide +kernel)
    noGap := by decide +kernel }

/-- A rise of 4 for coal, weighted by 3, costs the old plan 120 and the new one nothing; the optimum costs 60 more. -/
example : burden mixRise mixNet (mixVal 10 0) = 120 ∧ burden mixRise mixNet (mixVal 0 10) = 0 ∧ totalCost mixNet (mixVal 10 0) = 30 ∧
    totalCost (raise mixRise mixNet) (mixVal 0 10) = 90 := by decide +kernel

example := bounds mixSound mixLinear (orderly_single rfl rfl) (by decide +kernel) (Option.some_get mixSome.1).symm (Option.some_get mixSome.2.1).symm
  (D := fun _ => True) (fun _ _ h => h) (best_of_solved mixBefore _) (best_of_solved mixAfter _)

example : (0 : ℚ) ≤ 10 := gen_hour mixSound mixLinear (orderly_single rfl rfl) (by decide +kernel) (Option.some_get mixSome.1).symm (D := fun _ => True) (fun _ _ h => h)
  (best_of_solved mixBefore _) (g := ⟨"coal", "A", 1, mixUnit, exInvest 0, exCosts 1 0, fun _ => none, none, none⟩) (List.mem_cons_self) (t0 := 0) (by decide +kernel) rfl
  (by decide +kernel) (k := 4) (by decide +kernel) (Option.some_get mixSome.2.1).symm (best_of_solved mixAfter _)

example := gens_energy mixSound mixLinear (orderly_single rfl rfl) (by decide +kernel) (Option.some_get mixSome.1).symm (D := fun _ => True) (fun _ _ h => h)
  (best_of_solved mixBefore _) (fun a => a == "coal") (k := 4) (by decide +kernel) (Option.some_get mixSome.2.2.1).symm (best_of_solved mixCoal _)

/-- With half of the rise coal costs as much as gas: 90, more than the half of 30 and 90. -/
example := concave mixSound mixLinear (orderly_single rfl rfl) (by decide +kernel) (Option.some_get mixSome.1).symm (D := fun _ => True) (fun _ _ h => h)
  (best_of_solved mixBefore _) (θ := 1 / 2) (by decide +kernel) (by decide +kernel) (Option.some_get mixSome.2.1).symm (best_of_solved mixAfter _)
  (Option.some_get mixSome.2.2.2).symm (best_of_solved mixHalf _)

/-- Wind to be built beside gas. -/
def capWind : GenW ℚ := ⟨"wind", "A", 1, { mixUnit with extendable := true }, exInvest 5, exCosts 0 0, fun _ => none, none, none⟩
def capNet : WNet ℚ := { mixNet with gens := [capWind, ⟨"gas", "A", 1, mixUnit, exInvest 0, exCosts 3 0, fun _ => none, none, none⟩] }

def capVal (cap wind gas const : ℚ) : WVar → ℚ
  | .of _ a (.op _ 0) => if a = "wind" then wind else if a = "gas" then gas else 0
  | .of _ a .cap => if a = "wind" then cap else 0
  | .const => const
  | _ => 0

def capVars : List WVar := [.of "Generator" "wind" (.op "p" 0), .of "Generator" "gas" (.op "p" 0), .of "Generator" "wind" .cap, .const]

def capRise : Rise ℚ := onCapital "Generator" (oneCap "wind" 10)

theorem capSound : Sound capNet := by constructor <;> decide +kernel

theorem capLinear : LinearCosts capNet := by
  constructor
  · intro g hg t
    simp only [capNet, List.mem_cons, List.not_mem_nil, or_false] at hg
    rcases hg with rfl | rfl <;> rfl
  · intro g hg; simp [capNet, mixNet] at hg
  · intro g hg; simp [capNet, mixNet] at hg
  · intro g hg; simp [capNet, mixNet] at hg
  · decide +kernel
  · decide +kernel

theorem capSome : (createModel capNet []).isSome = true ∧ (createModel (raise capRise capNet) []).isSome = true := by decide +kernel

theorem capBefore : Solved ((createModel capNet []).get capSome.1) (capVal 10 10 0 50) (fun _ _ => 5) [0, 0, -5, 4, 0, -1] where
  len := by decide +kernel
  answer := {
    feasible := by decide +kernel
    upper := by decide +kernel
    lower := by decide +kernel
    stationary := stationary_of _ _ capVars (by decide +kernel) (by decide +kernel) (by decide +kernel)
    noGap := by decide +kernel }

theorem capAfter : Solved ((createModel (raise capRise capNet) []).get capSome.2) (capVal 0 0 10 150) (fun _ _ => 9) [6, 0, -9, 0, 0, -1] where
  len := by decide +kernel
  answer := {
    feasible := by decide +kernel
    upper := by decide +kernel
    lower := by decide +kernel
    stationary := stationary_of _ _ capVars (by decide +kernel) (by decide +kernel) (by decide +kernel)
    noGap := by decide +kernel }

/-- Wind for 15 instead of 5 is not built. -/
example : (0 : ℚ) ≤ 10 := gen_capacity capSound capLinear (orderly_single rfl rfl) (by decide +kernel) (Option.some_get capSome.1).symm (D := fun _ => True) (fun _ _ h => h)
  (best_of_solved capBefore _) (g := capWind) (List.mem_cons_self) rfl (by decide +kernel) (k := 10) (by decide +kernel) (Option.some_get capSome.2).symm
  (best_of_solved capAfter _)

/-- Loads of 5, 10 and 15: one coal unit, the whole coal unit, and gas in addition. -/
def mixLoad (p : ℚ) : List (LoadW ℚ) := [⟨"A", -1, fun _ => p, fun _ => true⟩]

theorem loadSome : (createModel { mixNet with loads := mixLoad 5 } []).isSome = true ∧ (createModel { mixNet with loads := mixLoad 15 } []).isSome = true := by decide +kernel

theorem loadLow : Solved ((createModel { mixNet with loads := mixLoad 5 } []).get loadSome.1) (mixVal 5 0) (fun _ _ => 3) [0, 0, 6, 0, 0] where
  len := by decide +kernel
  answer := {
    feasible := by decide +kernel
    upper := by decide +kernel
    lower := by decide +kernel
    stationary := stationary_of _ _ mixVars (by decide +kernel) (by decide +kernel) (by decide +kernel)
    noGap := by decide +kernel }

theorem loadHigh : Solved ((createModel { mixNet with loads := mixLoad 15 } []).get loadSome.2) (mixVal 10 5) (fun _ _ => 9) [0, -6, 0, 0, 0] where
  len := by decide +kernel
  answer := {
    feasible := by decide +kernel
    upper := by decide +kernel
    lower := by decide +kernel
    stationary := stationary_of _ _ mixVars (by decide +kernel) (by decide +kernel) (by decide +kernel)
    noGap := by decide +kernel }

/-- The price is 1 for a load of 5 and 3 for a load of 15; ten more for three hours cost 60, between 30 and 90. -/
example : busPrice mixNet 0 3 0 = 1 ∧ busPrice mixNet 0 9 0 = 3 ∧ totalCost mixNet (mixVal 5 0) = 15 ∧ totalCost mixNet (mixVal 10 5) = 75 ∧
    worth mixNet (fun _ _ => 1) (mixLoad 5) (mixLoad 15) = 30 ∧ worth mixNet (fun _ _ => 3) (mixLoad 5) (mixLoad 15) = 90 := by decide +kernel

theorem lowSound : Sound { mixNet with loads := mixLoad 5 } := by constructor <;> decide +kernel

theorem lowLinear : LinearCosts { mixNet with loads := mixLoad 5 } :=
  ⟨mixLinear.gens, mixLinear.links, mixLinear.stores, mixLinear.units, mixLinear.genEvents, mixLinear.linkEvents⟩

example := loads_bounds lowSound lowLinear (Option.some_get loadSome.1).symm (loads := mixLoad 15) (by decide +kernel) (Option.some_get loadSome.2).symm loadLow loadHigh
  (by decide +kernel) (fun _ _ => 0)

example := price_follows lowSound lowLinear (Option.some_get loadSome.1).symm (loads := mixLoad 15) (by decide +kernel) (Option.some_get loadSome.2).symm loadLow loadHigh
  (by decide +kernel) (fun _ _ => 0) (b0 := "A") (by decide +kernel) (t0 := 0) (by decide +kernel) (by decide +kernel) (by decide +kernel) (by decide +kernel)

example := loads_convex mixSound mixLinear (Option.some_get mixSome.1).symm (l0 := mixLoad 5) (l1 := mixLoad 15) (by decide +kernel) (by decide +kernel)
  (Option.some_get loadSome.1).symm (Option.some_get loadSome.2).symm (θ := 1 / 2) (by decide +kernel) (by decide +kernel) (by decide +kernel) mixBefore
  (best_of_solved loadLow mixNet).1 (best_of_solved loadHigh mixNet).1 (by decide +kernel)

end Verif.Opt.Whole.Statics
