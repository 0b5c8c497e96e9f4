import Verif.Opt.ShedProps
import Verif.Opt.CurveProps
import Verif.Opt.JoinProps

/-!
# Quadratic marginal costs in the whole problem (C158)

`marginal_cost_quadratic` (`pypsa/optimization/optimize.py` 136-151).  The objective of the model (`Objective.lean`) has had these terms all along; the statements about optima and
prices (C109, C154, C155) leave them out.  Here they are proved with them.
-/

namespace Verif.Opt.Whole.Quad

open Doc Exist Curve

variable {F : Type} [Field F] [LinearOrder F]

/-! ## Specification -/

/-- Quadratic costs of one asset. -/
def squared (w : WNet F) (active : Nat → Bool) (q p : Nat → F) : F :=
  ((List.range w.len).map (fun t => if active t then weight w t * q t * p t ^ 2 else 0)).sum

/-- Quadratic costs of all generators, links and stores, and of the dispatch of storage units. -/
def squares (w : WNet F) (x : WVar → F) : F :=
  (w.gens.map (fun g => squared w g.unit.active g.costs.quadratic (fun t => x (.of "Generator" g.name (.op "p" t))))).sum +
  (w.links.map (fun g => squared w g.unit.active g.costs.quadratic (fun t => x (.of "Link" g.name (.op "p" t))))).sum +
  (w.stores.map (fun g => squared w g.storage.active g.costs.quadratic (fun t => x (.of "Store" g.name (.op "p" t))))).sum +
  (w.units.map (fun g => squared w g.storage.active g.costs.quadratic (fun t => x (.of "StorageUnit" g.name (.op "p_dispatch" t))))).sum

/-- All costs. -/
def allCost (w : WNet F) (x : WVar → F) : F := totalCost w x + squares w x

/-- Least costs, quadratic ones included, among everything the rules allow. -/
def Least (w : WNet F) (other : List (Con WVar F)) (D : (WVar → F) → Prop) (x : WVar → F) : Prop :=
  Rules w x ∧ Feasible x other ∧ D x ∧ ∀ z, Rules w z → Feasible z other → D z → allCost w x ≤ allCost w z

/-- Events do not pay. -/
structure Events (w : WNet F) : Prop where
  gens : ∀ g ∈ w.gens, 0 ≤ g.unit.startUpCost ∧ 0 ≤ g.unit.shutDownCost
  links : ∀ g ∈ w.links, 0 ≤ g.unit.startUpCost ∧ 0 ≤ g.unit.shutDownCost

/-- Quadratic costs are not negative. -/
structure Rising (w : WNet F) : Prop where
  weights : ∀ t < w.len, 0 ≤ weight w t
  gens : ∀ g ∈ w.gens, ∀ t < w.len, 0 ≤ g.costs.quadratic t
  links : ∀ g ∈ w.links, ∀ t < w.len, 0 ≤ g.costs.quadratic t
  stores : ∀ g ∈ w.stores, ∀ t < w.len, 0 ≤ g.costs.quadratic t
  units : ∀ g ∈ w.units, ∀ t < w.len, 0 ≤ g.costs.quadratic t

/-- Costs of one unit more where the plan is: the marginal cost and twice the quadratic one times what is produced. -/
def slope (p : Nat → F) (k : Costs F) : Costs F :=
  { k with marginal := fun t => k.marginal t + 2 * k.quadratic t * p t, quadratic := fun _ => 0 }

def gTan (x : WVar → F) (g : GenW F) : GenW F := { g with costs := slope (fun t => x (.of "Generator" g.name (.op "p" t))) g.costs }
def lTan (x : WVar → F) (g : LinkW F) : LinkW F := { g with costs := slope (fun t => x (.of "Link" g.name (.op "p" t))) g.costs }
def sTan (x : WVar → F) (g : StoreW F) : StoreW F := { g with costs := slope (fun t => x (.of "Store" g.name (.op "p" t))) g.costs }
def uTan (x : WVar → F) (g : UnitW F) : UnitW F := { g with costs := slope (fun t => x (.of "StorageUnit" g.name (.op "p_dispatch" t))) g.costs }

/-- The network with these costs, and no others. -/
def tangent (w : WNet F) (x : WVar → F) : WNet F :=
  { w with gens := w.gens.map (gTan x), links := w.links.map (lTan x), stores := w.stores.map (sTan x), units := w.units.map (uTan x) }

/-- At these prices no asset on its own could earn more, quadratic costs included. -/
structure Competes (w : WNet F) (lam : Name → Nat → F) (x : WVar → F) : Prop where
  gens : ∀ g ∈ w.gens, ∀ y, GenRule w g y →
    genRevenue w g lam (spread y) - genCost w g (spread y) - squared w g.unit.active g.costs.quadratic (fun t => y (.op "p" t)) ≤
      genRevenue w g lam x - genCost w g x - squared w g.unit.active g.costs.quadratic (fun t => x (.of "Generator" g.name (.op "p" t)))
  links : ∀ g ∈ w.links, ∀ y, LinkRule w g y →
    linkRevenue w g lam (spread y) - linkCost w g (spread y) - squared w g.unit.active g.costs.quadratic (fun t => y (.op "p" t)) ≤
      linkRevenue w g lam x - linkCost w g x - squared w g.unit.active g.costs.quadratic (fun t => x (.of "Link" g.name (.op "p" t)))
  stores : ∀ g ∈ w.stores, ∀ y, StoreRule w g y →
    storeRevenue w g lam (spread y) - storeCost w g (spread y) - squared w g.storage.active g.costs.quadratic (fun t => y (.op "p" t)) ≤
      storeRevenue w g lam x - storeCost w g x - squared w g.storage.active g.costs.quadratic (fun t => x (.of "Store" g.name (.op "p" t)))
  units : ∀ g ∈ w.units, ∀ y, StorageRule w g y →
    unitRevenue w g lam (spread y) - unitCost w g (spread y) - squared w g.storage.active g.costs.quadratic (fun t => y (.op "p_dispatch" t)) ≤
      unitRevenue w g lam x - unitCost w g x - squared w g.storage.active g.costs.quadratic (fun t => x (.of "StorageUnit" g.name (.op "p_dispatch" t)))
  lines : ∀ g ∈ w.lines, ∀ y, BranchRule w g y →
    branchRevenue w "Line" g lam (spread y) - branchCost w "Line" g (spread y) ≤ branchRevenue w "Line" g lam x - branchCost w "Line" g x
  trafos : ∀ g ∈ w.trafos, ∀ y, BranchRule w g y →
    branchRevenue w "Transformer" g lam (spread y) - branchCost w "Transformer" g (spread y) ≤
      branchRevenue w "Transformer" g lam x - branchCost w "Transformer" g x

/-- The objective of the program. -/
def value (P : Program F) (x : WVar → F) : F := lin x P.linear + (P.quadratic.map (fun e => e.1 * (x e.2 * x e.2))).sum

/-- The derivative of the objective. -/
def marginals (P : Program F) (x : WVar → F) : List (F × WVar) := P.linear ++ P.quadratic.map (fun e => (2 * e.1 * x e.2, e.2))

/-- The solver's answer to a problem with quadratic costs: duals for which nothing is gained by a small change. -/
structure Answered (P : Program F) (x : WVar → F) (lam : Name → Nat → F) (mu : List F) : Prop where
  len : mu.length = P.rows.length
  answer : Answer (marginals P x) (P.balance.map (fun r => (r.2, lam r.1.1 r.1.2)) ++ P.rows.zip mu) x

/-! ## The rules do not look at costs -/

variable {w : WNet F} {x : WVar → F}

omit [LinearOrder F] in
theorem genRamps_tan : (tangent w x).gens.map (·.unit) = w.gens.map (·.unit) := by simp [tangent, gTan, Function.comp_def]
omit [LinearOrder F] in
theorem linkRamps_tan : (tangent w x).links.map (·.unit) = w.links.map (·.unit) := by simp [tangent, lTan, Function.comp_def]

theorem gen_tan {g : GenW F} {y : Loc → F} : GenRule (tangent w x) (gTan x g) y ↔ GenRule w g y := by
  constructor
  · intro h
    have hu := h.unit
    rw [genRamps_tan] at hu
    exact ⟨h.cap, hu, h.set, h.sumMin, h.sumMax⟩
  · intro h
    have hu := h.unit
    rw [← genRamps_tan (x := x)] at hu
    exact ⟨h.cap, hu, h.set, h.sumMin, h.sumMax⟩

theorem link_tan {g : LinkW F} {y : Loc → F} : LinkRule (tangent w x) (lTan x g) y ↔ LinkRule w g y := by
  constructor
  · intro h
    have hu := h.unit
    rw [linkRamps_tan] at hu
    exact ⟨h.cap, hu, h.set⟩
  · intro h
    have hu := h.unit
    rw [← linkRamps_tan (x := x)] at hu
    exact ⟨h.cap, hu, h.set⟩

theorem store_tan {g : StoreW F} {y : Loc → F} : StoreRule (tangent w x) (sTan x g) y ↔ StoreRule w g y :=
  ⟨fun h => ⟨h.cap, h.limits, h.set, h.level⟩, fun h => ⟨h.cap, h.limits, h.set, h.level⟩⟩

theorem unit_tan {g : UnitW F} {y : Loc → F} : StorageRule (tangent w x) (uTan x g) y ↔ StorageRule w g y :=
  ⟨fun h => ⟨h.cap, h.dispatch, h.store, h.charge, h.spill, h.set, h.level⟩, fun h => ⟨h.cap, h.dispatch, h.store, h.charge, h.spill, h.set, h.level⟩⟩

theorem branch_tan {g : BranchW F} {y : Loc → F} : BranchRule (tangent w x) g y ↔ BranchRule w g y :=
  ⟨fun h => ⟨h.cap, h.limits, h.set, h.loss⟩, fun h => ⟨h.cap, h.limits, h.set, h.loss⟩⟩

omit [LinearOrder F] in
theorem supply_tan (z : WVar → F) (t : Nat) (b : Name) : supply (tangent w x) z t b = supply w z t b := by
  simp only [supply, tangent, List.map_map, Function.comp_def]
  rfl

omit [LinearOrder F] in
theorem worth_tan (lam : Name → Nat → F) (z : WVar → F) : worth (tangent w x) lam z = worth w lam z := by
  unfold worth
  simp only [supply_tan]
  rfl

theorem assets_tan {z : WVar → F} : AssetRules (tangent w x) z ↔ AssetRules w z := by
  constructor
  · intro h
    exact ⟨fun g hg => gen_tan.mp (h.gens _ (List.mem_map.mpr ⟨g, hg, rfl⟩)), fun g hg => link_tan.mp (h.links _ (List.mem_map.mpr ⟨g, hg, rfl⟩)),
      fun g hg => store_tan.mp (h.stores _ (List.mem_map.mpr ⟨g, hg, rfl⟩)), fun g hg => unit_tan.mp (h.units _ (List.mem_map.mpr ⟨g, hg, rfl⟩)),
      fun g hg => branch_tan.mp (h.lines g hg), fun g hg => branch_tan.mp (h.trafos g hg)⟩
  · intro h
    refine ⟨?_, ?_, ?_, ?_, fun g hg => branch_tan.mpr (h.lines g hg), fun g hg => branch_tan.mpr (h.trafos g hg)⟩
    · intro g hg
      obtain ⟨g, hm, rfl⟩ := List.mem_map.mp hg
      exact gen_tan.mpr (h.gens g hm)
    · intro g hg
      obtain ⟨g, hm, rfl⟩ := List.mem_map.mp hg
      exact link_tan.mpr (h.links g hm)
    · intro g hg
      obtain ⟨g, hm, rfl⟩ := List.mem_map.mp hg
      exact store_tan.mpr (h.stores g hm)
    · intro g hg
      obtain ⟨g, hm, rfl⟩ := List.mem_map.mp hg
      exact unit_tan.mpr (h.units g hm)

theorem rules_split {z : WVar → F} : Rules w z ↔ AssetRules w z ∧ ∀ t < w.len, ∀ b ∈ w.buses, supply w z t b = demand w t b :=
  ⟨fun h => ⟨Rules.assets h, h.balance⟩, fun ⟨h, hb⟩ => ⟨h.gens, h.links, h.stores, h.units, h.lines, h.trafos, hb⟩⟩

theorem rules_tan {z : WVar → F} : Rules (tangent w x) z ↔ Rules w z := by
  rw [rules_split, rules_split, assets_tan]
  simp only [supply_tan]
  rfl

omit [LinearOrder F] in
theorem sound_tan (h : Sound w) : Sound (tangent w x) := by
  refine ⟨h.noEmpty, h.buses, ?_, ?_, ?_, h.loadBus, h.lineBus, h.trafoBus, ?_, ?_, ?_, ?_, ?_, h.lines, h.trafos⟩
  · intro g hg
    obtain ⟨g, hm, rfl⟩ := List.mem_map.mp hg
    exact h.genBus g hm
  · intro g hg
    obtain ⟨g, hm, rfl⟩ := List.mem_map.mp hg
    exact h.storeBus g hm
  · intro g hg
    obtain ⟨g, hm, rfl⟩ := List.mem_map.mp hg
    exact h.unitBus g hm
  · intro g hg
    obtain ⟨g, hm, rfl⟩ := List.mem_map.mp hg
    exact h.linkBus g hm
  · have := h.gens
    simpa [tangent, gTan, Function.comp_def] using this
  · have := h.links
    simpa [tangent, lTan, Function.comp_def] using this
  · have := h.stores
    simpa [tangent, sTan, Function.comp_def] using this
  · have := h.units
    simpa [tangent, uTan, Function.comp_def] using this

theorem orderly_tan (h : Orderly w) : Orderly (tangent w x) := by
  refine ⟨?_, ?_, ?_, ?_⟩
  · intro g hg
    obtain ⟨g, hm, rfl⟩ := List.mem_map.mp hg
    exact h.gens g hm
  · intro g hg
    obtain ⟨g, hm, rfl⟩ := List.mem_map.mp hg
    exact h.links g hm
  · intro g hg
    obtain ⟨g, hm, rfl⟩ := List.mem_map.mp hg
    exact h.stores g hm
  · intro g hg
    obtain ⟨g, hm, rfl⟩ := List.mem_map.mp hg
    exact h.units g hm

theorem linear_tan (h : Events w) : LinearCosts (tangent w x) := by
  refine ⟨?_, ?_, ?_, ?_, ?_, ?_⟩
  · intro g hg
    obtain ⟨g, hm, rfl⟩ := List.mem_map.mp hg
    exact fun _ => rfl
  · intro g hg
    obtain ⟨g, hm, rfl⟩ := List.mem_map.mp hg
    exact fun _ => rfl
  · intro g hg
    obtain ⟨g, hm, rfl⟩ := List.mem_map.mp hg
    exact fun _ => rfl
  · intro g hg
    obtain ⟨g, hm, rfl⟩ := List.mem_map.mp hg
    exact fun _ => rfl
  · intro g hg
    obtain ⟨g, hm, rfl⟩ := List.mem_map.mp hg
    exact h.gens g hm
  · intro g hg
    obtain ⟨g, hm, rfl⟩ := List.mem_map.mp hg
    exact h.links g hm

/-! ## Costs of two plans -/

/-- What belongs to a product of two plans. -/
def pairing (w : WNet F) (active : Nat → Bool) (q a b : Nat → F) : F :=
  ((List.range w.len).map (fun t => if active t then weight w t * q t * (a t * b t) else 0)).sum

def form (w : WNet F) (x y : WVar → F) : F :=
  (w.gens.map (fun g => pairing w g.unit.active g.costs.quadratic (fun t => x (.of "Generator" g.name (.op "p" t))) (fun t => y (.of "Generator" g.name (.op "p" t))))).sum +
  (w.links.map (fun g => pairing w g.unit.active g.costs.quadratic (fun t => x (.of "Link" g.name (.op "p" t))) (fun t => y (.of "Link" g.name (.op "p" t))))).sum +
  (w.stores.map (fun g => pairing w g.storage.active g.costs.quadratic (fun t => x (.of "Store" g.name (.op "p" t))) (fun t => y (.of "Store" g.name (.op "p" t))))).sum +
  (w.units.map (fun g => pairing w g.storage.active g.costs.quadratic (fun t => x (.of "StorageUnit" g.name (.op "p_dispatch" t)))
    (fun t => y (.of "StorageUnit" g.name (.op "p_dispatch" t))))).sum

omit [LinearOrder F] in
theorem squared_mix (active : Nat → Bool) (q u v : Nat → F) (a b : F) : squared w active q (fun t => a * u t + b * v t) =
    a ^ 2 * squared w active q u + 2 * a * b * pairing w active q u v + b ^ 2 * squared w active q v := by
  unfold squared pairing
  rw [← List.sum_map_mul_left, ← List.sum_map_mul_left, ← List.sum_map_mul_left, ← List.sum_map_add, ← List.sum_map_add]
  congr 1
  refine List.map_congr_left (fun t _ => ?_)
  split_ifs <;> ring

omit [LinearOrder F] in
theorem squares_mix (x y : WVar → F) (a b : F) : squares w (fun v => a * x v + b * y v) = a ^ 2 * squares w x + 2 * a * b * form w x y + b ^ 2 * squares w y := by
  unfold squares form
  simp only [squared_mix, List.sum_map_add, List.sum_map_mul_left]
  ring

omit [LinearOrder F] in
theorem squares_neg (x z : WVar → F) : squares w (fun v => z v - x v) = squares w z - 2 * form w x z + squares w x := by
  have h := squares_mix (w := w) x z (-1) 1
  rw [show (fun v => z v - x v) = (fun v => -1 * x v + 1 * z v) from funext (fun v => by ring), h]
  ring

omit [LinearOrder F] in
theorem sum_twice {f f' a : Nat → F} (l : List Nat) (p : F) (h : ∀ t, f' t = f t + 2 * a t) : (l.map f').sum + p = ((l.map f).sum + p) + 2 * (l.map a).sum := by
  rw [← List.sum_map_mul_left, add_right_comm, ← List.sum_map_add]
  congr 2
  exact List.map_congr_left (fun t _ => h t)

theorem genCost_tan (x z : WVar → F) (g : GenW F) : genCost (tangent w x) (gTan x g) z = genCost w g z +
      2 * pairing w g.unit.active g.costs.quadratic (fun t => x (.of "Generator" g.name (.op "p" t))) (fun t => z (.of "Generator" g.name (.op "p" t))) := by
  unfold genCost pairing
  refine sum_twice _ _ (fun t => ?_)
  cases ha : g.unit.active t <;> cases hc : g.unit.committable <;> simp [ha, hc, gTan, slope, show weight (tangent w x) t = weight w t from rfl] <;> ring

theorem linkCost_tan (x z : WVar → F) (g : LinkW F) : linkCost (tangent w x) (lTan x g) z = linkCost w g z +
      2 * pairing w g.unit.active g.costs.quadratic (fun t => x (.of "Link" g.name (.op "p" t))) (fun t => z (.of "Link" g.name (.op "p" t))) := by
  unfold linkCost pairing
  refine sum_twice _ _ (fun t => ?_)
  cases ha : g.unit.active t <;> cases hc : g.unit.committable <;> simp [ha, hc, lTan, slope, show weight (tangent w x) t = weight w t from rfl] <;> ring

theorem storeCost_tan (x z : WVar → F) (g : StoreW F) : storeCost (tangent w x) (sTan x g) z = storeCost w g z +
      2 * pairing w g.storage.active g.costs.quadratic (fun t => x (.of "Store" g.name (.op "p" t))) (fun t => z (.of "Store" g.name (.op "p" t))) := by
  unfold storeCost pairing
  refine sum_twice _ _ (fun t => ?_)
  cases ha : g.storage.active t <;> simp [ha, sTan, slope, show weight (tangent w x) t = weight w t from rfl] <;> ring

theorem unitCost_tan (x z : WVar → F) (g : UnitW F) : unitCost (tangent w x) (uTan x g) z = unitCost w g z +
      2 * pairing w g.storage.active g.costs.quadratic (fun t => x (.of "StorageUnit" g.name (.op "p_dispatch" t)))
        (fun t => z (.of "StorageUnit" g.name (.op "p_dispatch" t))) := by
  unfold unitCost pairing
  refine sum_twice _ _ (fun t => ?_)
  by_cases hi : 0 < g.storage.inflow t <;> cases ha : g.storage.active t <;> simp [ha, hi, uTan, slope, show weight (tangent w x) t = weight w t from rfl] <;> ring

/-- Costs at the slope of a plan. -/
theorem cost_tan (x z : WVar → F) : totalCost (tangent w x) z = totalCost w z + 2 * form w x z := by
  have h5 : ∀ (c : Name) (g : BranchW F), branchCost (tangent w x) c g z = branchCost w c g z := fun _ _ => rfl
  unfold totalCost form
  rw [show (tangent w x).gens = w.gens.map (gTan x) from rfl, show (tangent w x).links = w.links.map (lTan x) from rfl,
    show (tangent w x).stores = w.stores.map (sTan x) from rfl, show (tangent w x).units = w.units.map (uTan x) from rfl,
    show (tangent w x).lines = w.lines from rfl, show (tangent w x).trafos = w.trafos from rfl]
  simp only [List.map_map, Function.comp_def, genCost_tan, linkCost_tan, storeCost_tan, unitCost_tan, h5, List.sum_map_add, List.sum_map_mul_left]
  ring

/-- Costs of another plan: those at the slope of the first one, and the squares of the difference. -/
theorem cost_apart (x z : WVar → F) : allCost w z - allCost w x =
    totalCost (tangent w x) z - totalCost (tangent w x) x + squares w (fun v => z v - x v) := by
  have hx : form w x x = squares w x := by
    unfold form squares pairing squared
    simp only [pow_two]
  rw [squares_neg, cost_tan, cost_tan, hx]
  unfold allCost
  ring

/-! ## The problem at the slope can be set up, unless it costs nothing -/

omit [LinearOrder F] in
theorem nodal_tan (t : Nat) : nodal (tangent w x) t = nodal w t := by
  simp only [nodal, tangent, List.map_map, Function.comp_def]
  rfl

theorem own_tan : ownRows (tangent w x) = ownRows w := by
  have h1 : ∀ g, genRows (tangent w x) (gTan x g) = genRows w g := by
    intro g
    unfold genRows
    rw [genRamps_tan]
    rfl
  have h2 : ∀ g, linkRows (tangent w x) (lTan x g) = linkRows w g := by
    intro g
    unfold linkRows
    rw [linkRamps_tan]
    rfl
  have h3 : ∀ g, storeRows (tangent w x) (sTan x g) = storeRows w g := fun _ => rfl
  have h4 : ∀ g, sunitRows (tangent w x) (uTan x g) = sunitRows w g := fun _ => rfl
  unfold ownRows
  rw [show (tangent w x).gens = w.gens.map (gTan x) from rfl, show (tangent w x).links = w.links.map (lTan x) from rfl,
    show (tangent w x).stores = w.stores.map (sTan x) from rfl, show (tangent w x).units = w.units.map (uTan x) from rfl]
  simp only [List.map_map, Function.comp_def, h1, h2, h3, h4]
  rfl

theorem balance_tan : balanceRows (tangent w x) = balanceRows w := by
  unfold balanceRows
  simp only [nodal_tan]
  rfl

theorem free {v : WNet F} (h : NoCosts (objNet v)) (z : WVar → F) : totalCost v z = 0 := by
  have sns : ∀ t, t ∈ (objNet v).sns ↔ t < v.len := fun t => List.mem_range
  have ge : ∀ g ∈ v.gens, genAsset g ∈ (objNet v).assets "Generator" := fun g hg => by rw [assets_gen]; exact List.mem_map_of_mem hg
  have le : ∀ g ∈ v.links, linkAsset g ∈ (objNet v).assets "Link" := fun g hg => by rw [assets_link]; exact List.mem_map_of_mem hg
  have se : ∀ g ∈ v.stores, storeAsset g ∈ (objNet v).assets "Store" := fun g hg => by rw [assets_store]; exact List.mem_map_of_mem hg
  have ue : ∀ g ∈ v.units, sunitAsset g ∈ (objNet v).assets "StorageUnit" := fun g hg => by rw [assets_unit]; exact List.mem_map_of_mem hg
  have ie : ∀ g ∈ v.lines, branchAsset g ∈ (objNet v).assets "Line" := fun g hg => by rw [assets_line]; exact List.mem_map_of_mem hg
  have te : ∀ g ∈ v.trafos, branchAsset g ∈ (objNet v).assets "Transformer" := fun g hg => by rw [assets_trafo]; exact List.mem_map_of_mem hg
  have zero : ∀ {A : Type} (l : List A) (f : A → F), (∀ a ∈ l, f a = 0) → (l.map f).sum = 0 := fun l f h => List.sum_eq_zero (by simpa using h)
  have m1 : ∀ g ∈ v.gens, ∀ t < v.len, g.costs.marginal t = 0 := fun g hg t ht =>
    h.marginal { comp := "Generator", var := "p", marginal := true, quadratic := true } (by simp [Objective.table]) rfl _ (ge g hg) t ((sns t).mpr ht)
  have m2 : ∀ g ∈ v.links, ∀ t < v.len, g.costs.marginal t = 0 := fun g hg t ht =>
    h.marginal { comp := "Link", var := "p", marginal := true, quadratic := true } (by simp [Objective.table]) rfl _ (le g hg) t ((sns t).mpr ht)
  have m3 : ∀ g ∈ v.stores, ∀ t < v.len, g.costs.marginal t = 0 := fun g hg t ht =>
    h.marginal { comp := "Store", var := "p", marginal := true, quadratic := true } (by simp [Objective.table]) rfl _ (se g hg) t ((sns t).mpr ht)
  have m4 : ∀ g ∈ v.units, ∀ t < v.len, g.costs.marginal t = 0 := fun g hg t ht =>
    h.marginal { comp := "StorageUnit", var := "p_dispatch", marginal := true, quadratic := true } (by simp [Objective.table]) rfl _ (ue g hg) t ((sns t).mpr ht)
  have l3 : ∀ g ∈ v.stores, ∀ t < v.len, g.costs.marginalStorage t = 0 := fun g hg t ht =>
    h.storage { comp := "Store", var := "e", storage := true } (by simp [Objective.table]) rfl _ (se g hg) t ((sns t).mpr ht)
  have l4 : ∀ g ∈ v.units, ∀ t < v.len, g.costs.marginalStorage t = 0 := fun g hg t ht =>
    h.storage { comp := "StorageUnit", var := "state_of_charge", storage := true } (by simp [Objective.table]) rfl _ (ue g hg) t ((sns t).mpr ht)
  have p4 : ∀ g ∈ v.units, ∀ t < v.len, g.costs.spillCost t = 0 := fun g hg t ht =>
    h.spill { comp := "StorageUnit", var := "spill", spill := true } (by simp [Objective.table]) rfl _ (ue g hg) t ((sns t).mpr ht)
  have c1 : ∀ g ∈ v.gens, g.unit.committable = false := fun g hg => h.com _ (Or.inl rfl) _ (ge g hg)
  have c2 : ∀ g ∈ v.links, g.unit.committable = false := fun g hg => h.com _ (Or.inr rfl) _ (le g hg)
  have e1 : ∀ g ∈ v.gens, g.unit.extendable = false := fun g hg => h.ext ("Generator", "p_nom") (by simp [Objective.nominalAttrs]) _ (ge g hg)
  have e2 : ∀ g ∈ v.links, g.unit.extendable = false := fun g hg => h.ext ("Link", "p_nom") (by simp [Objective.nominalAttrs]) _ (le g hg)
  have e3 : ∀ g ∈ v.stores, g.ext = false := fun g hg => h.ext ("Store", "e_nom") (by simp [Objective.nominalAttrs]) _ (se g hg)
  have e4 : ∀ g ∈ v.units, g.ext = false := fun g hg => h.ext ("StorageUnit", "p_nom") (by simp [Objective.nominalAttrs]) _ (ue g hg)
  have e5 : ∀ g ∈ v.lines, g.ext = false := fun g hg => h.ext ("Line", "s_nom") (by simp [Objective.nominalAttrs]) _ (ie g hg)
  have e6 : ∀ g ∈ v.trafos, g.ext = false := fun g hg => h.ext ("Transformer", "s_nom") (by simp [Objective.nominalAttrs]) _ (te g hg)
  unfold totalCost
  rw [zero v.gens, zero v.links, zero v.stores, zero v.units, zero v.lines, zero v.trafos]
  · simp
  · intro g hg
    simp [branchCost, e6 g hg]
  · intro g hg
    simp [branchCost, e5 g hg]
  · intro g hg
    unfold unitCost
    rw [zero, e4 g hg]
    · simp
    · intro t ht
      have ht := List.mem_range.mp ht
      simp [m4 g hg t ht, l4 g hg t ht, p4 g hg t ht]
  · intro g hg
    unfold storeCost
    rw [zero, e3 g hg]
    · simp
    · intro t ht
      have ht := List.mem_range.mp ht
      simp [m3 g hg t ht, l3 g hg t ht]
  · intro g hg
    unfold linkCost
    rw [zero, e2 g hg]
    · simp
    · intro t ht
      have ht := List.mem_range.mp ht
      simp [m2 g hg t ht, c2 g hg]
  · intro g hg
    unfold genCost
    rw [zero, e1 g hg]
    · simp
    · intro t ht
      have ht := List.mem_range.mp ht
      simp [m1 g hg t ht, c1 g hg]

/-- The problem at the slope of a plan can be set up, or it costs nothing. -/
theorem model_tan {other : List (Con WVar F)} {P : Program F} (hP : createModel w other = some P) (x : WVar → F) :
    (∃ P', createModel (tangent w x) other = some P') ∨ ∀ z, totalCost (tangent w x) z = 0 := by
  by_cases hn : NoCosts (objNet (tangent w x))
  · exact Or.inr (free hn)
  left
  obtain ⟨own, bal, o, h1, h2, h3, -⟩ := createModel_parts hP
  have hs : (Objective.objective (objNet w)).toOption.isSome = true := by rw [h3]; rfl
  have hs' : (Objective.objective (objNet (tangent w x))).toOption.isSome = true := by
    rw [objective_some] at hs ⊢
    refine ⟨?_, hn⟩
    rcases hs.1 with h | ⟨a, ha, t, ht, h⟩
    · left
      intro r hr hf a ha t ht
      have hc : r.comp = "StorageUnit" := by
        have key : ∀ r ∈ Objective.table, r.spill = true → r.comp = "StorageUnit" := by decide +kernel
        exact key r hr hf
      rw [hc, assets_unit] at ha
      obtain ⟨u, hu, rfl⟩ := List.mem_map.mp ha
      obtain ⟨g, hg, rfl⟩ := List.mem_map.mp hu
      exact h r hr hf (sunitAsset g) (by rw [hc, assets_unit]; exact List.mem_map_of_mem hg) t ht
    · right
      rw [assets_unit] at ha
      obtain ⟨g, hg, rfl⟩ := List.mem_map.mp ha
      exact ⟨sunitAsset (uTan x g), by rw [assets_unit]; exact List.mem_map_of_mem (List.mem_map_of_mem hg), t, ht, h⟩
  obtain ⟨o', ho'⟩ := Option.isSome_iff_exists.mp hs'
  unfold createModel
  rw [own_tan, balance_tan, h1, h2, ho']
  exact ⟨_, rfl⟩

/-! ## What the solver minimises -/

omit [LinearOrder F] in
theorem sum_more {f f' a : Nat → F} (l : List Nat) (p : F) (h : ∀ t, f' t = f t + a t) : (l.map f').sum + p = ((l.map f).sum + p) + (l.map a).sum := by
  rw [add_right_comm, ← List.sum_map_add]
  congr 2
  exact List.map_congr_left (fun t _ => h t)

/-- The documented cost of the system (C56) is the cost of the assets, quadratic costs included. -/
theorem system_all (x : WVar → F) : Objective.systemCost (objNet w) (fun v => x (objVar v)) (weight w) = allCost w x := by
  unfold Objective.systemCost allCost totalCost squares
  rw [capital_all w _ _ _ w.gens genAsset (·.invest) (assets_gen w) (fun g => ⟨rfl, rfl, rfl⟩),
    capital_all w _ _ _ w.links linkAsset (·.invest) (assets_link w) (fun g => ⟨rfl, rfl, rfl⟩),
    capital_all w _ _ _ w.stores storeAsset (·.invest) (assets_store w) (fun g => ⟨rfl, rfl, rfl⟩),
    capital_all w _ _ _ w.units sunitAsset (·.invest) (assets_unit w) (fun g => ⟨rfl, rfl, rfl⟩),
    capital_all w _ _ _ w.lines branchAsset (·.invest) (assets_line w) (fun g => ⟨rfl, rfl, rfl⟩),
    capital_all w _ _ _ w.trafos branchAsset (·.invest) (assets_trafo w) (fun g => ⟨rfl, rfl, rfl⟩)]
  have hsns : (objNet w).sns = List.range w.len := rfl
  have e1 : Objective.total (objNet w) "Generator" (fun a t => Objective.running (fun v => x (objVar v)) (weight w) "Generator" "p" a t + 
        Objective.commitment (fun v => x (objVar v)) (weight w) "Generator" a t) +
      (w.gens.map (fun g => if (genAsset g).ext then lifeWeight w g.invest * g.invest.capitalCost *
        x (objVar (.nom "Generator" "p_nom" (genAsset g).name)) else 0)).sum = (w.gens.map (fun g => genCost w g x)).sum +
      (w.gens.map (fun g => squared w g.unit.active g.costs.quadratic (fun t => x (.of "Generator" g.name (.op "p" t))))).sum := by
    unfold Objective.total
    rw [assets_gen, List.map_map, hsns, ← sum_add_map, ← sum_add_map]
    congr 1
    refine List.map_congr_left (fun g hg => ?_)
    unfold genCost squared
    refine sum_more _ _ (fun t => ?_)
    cases ha : g.unit.active t <;> cases hc : g.unit.committable <;> simp [ha, hc, Objective.running, Objective.commitment, objVar, genAsset, objAsset] <;> ring
  have e2 : Objective.total (objNet w) "Link" (fun a t => Objective.running (fun v => x (objVar v)) (weight w) "Link" "p" a t + 
        Objective.commitment (fun v => x (objVar v)) (weight w) "Link" a t) +
      (w.links.map (fun g => if (linkAsset g).ext then lifeWeight w g.invest * g.invest.capitalCost *
        x (objVar (.nom "Link" "p_nom" (linkAsset g).name)) else 0)).sum = (w.links.map (fun g => linkCost w g x)).sum +
      (w.links.map (fun g => squared w g.unit.active g.costs.quadratic (fun t => x (.of "Link" g.name (.op "p" t))))).sum := by
    unfold Objective.total
    rw [assets_link, List.map_map, hsns, ← sum_add_map, ← sum_add_map]
    congr 1
    refine List.map_congr_left (fun g hg => ?_)
    unfold linkCost squared
    refine sum_more _ _ (fun t => ?_)
    cases ha : g.unit.active t <;> cases hc : g.unit.committable <;> simp [ha, hc, Objective.running, Objective.commitment, objVar, linkAsset, objAsset] <;> ring
  have e3 : Objective.total (objNet w) "Store" (fun a t => Objective.running (fun v => x (objVar v)) (weight w) "Store" "p" a t + 
        weight w t * a.marginalStorage t * x (objVar (.op "Store" "e" a.name t))) +
      (w.stores.map (fun g => if (storeAsset g).ext then lifeWeight w g.invest * g.invest.capitalCost *
        x (objVar (.nom "Store" "e_nom" (storeAsset g).name)) else 0)).sum = (w.stores.map (fun g => storeCost w g x)).sum +
      (w.stores.map (fun g => squared w g.storage.active g.costs.quadratic (fun t => x (.of "Store" g.name (.op "p" t))))).sum := by
    unfold Objective.total
    rw [assets_store, List.map_map, hsns, ← sum_add_map, ← sum_add_map]
    congr 1
    refine List.map_congr_left (fun g hg => ?_)
    unfold storeCost squared
    refine sum_more _ _ (fun t => ?_)
    cases ha : g.storage.active t <;> simp [ha, Objective.running, objVar, storeAsset, objAsset] <;> ring
  have e4 : Objective.total (objNet w) "StorageUnit" (fun a t => Objective.running (fun v => x (objVar v)) (weight w) "StorageUnit" "p_dispatch" a t + 
        weight w t * a.marginalStorage t * x (objVar (.op "StorageUnit" "state_of_charge" a.name t)) +
        (if 0 < a.inflow t then weight w t * a.spillCost t * x (objVar (.op "StorageUnit" "spill" a.name t)) else 0)) +
      (w.units.map (fun g => if (sunitAsset g).ext then lifeWeight w g.invest * g.invest.capitalCost *
        x (objVar (.nom "StorageUnit" "p_nom" (sunitAsset g).name)) else 0)).sum = (w.units.map (fun g => unitCost w g x)).sum +
      (w.units.map (fun g => squared w g.storage.active g.costs.quadratic (fun t => x (.of "StorageUnit" g.name (.op "p_dispatch" t))))).sum := by
    unfold Objective.total
    rw [assets_unit, List.map_map, hsns, ← sum_add_map, ← sum_add_map]
    congr 1
    refine List.map_congr_left (fun g hg => ?_)
    unfold unitCost squared
    refine sum_more _ _ (fun t => ?_)
    by_cases hi : 0 < g.storage.inflow t <;> cases ha : g.storage.active t <;> simp [ha, hi, Objective.running, objVar, sunitAsset, objAsset] <;> ring
  have e5 : (w.lines.map (fun g => branchCost w "Line" g x)).sum = (w.lines.map (fun g => if (branchAsset g).ext then
      lifeWeight w g.invest * g.invest.capitalCost * x (objVar (.nom "Line" "s_nom" (branchAsset g).name)) else 0)).sum := rfl
  have e6 : (w.trafos.map (fun g => branchCost w "Transformer" g x)).sum = (w.trafos.map (fun g => if (branchAsset g).ext then
      lifeWeight w g.invest * g.invest.capitalCost * x (objVar (.nom "Transformer" "s_nom" (branchAsset g).name)) else 0)).sum :=
    rfl
  rw [e5, e6]
  linear_combination e1 + e2 + e3 + e4

section
variable [IsStrictOrderedRing F]

/-- What the solver minimises, and the constant that is left out of it, are the costs. -/
theorem value_cost (he : Events w) {other : List (Con WVar F)} {P : Program F} (hP : createModel w other = some P) (x : WVar → F) (hx : Feasible x P.rows) :
    value P x + Objective.constant (objNet w) = allCost w x := by
  obtain ⟨own, bal, o, -, -, h3, h4, h5, -, h6⟩ := createModel_parts hP
  have hc : x .const = Objective.constant (objNet w) := by
    have := hx (constRow w) (by rw [h6]; simp)
    simpa [constRow, Con.holds, lin] using this
  have hev : ∀ c ∈ ["Generator", "Link"], ∀ a ∈ (objNet w).assets c, 0 ≤ a.startUp ∧ 0 ≤ a.shutDown := by
    intro c hc a ha
    rcases List.mem_cons.mp hc with rfl | hc
    · rw [assets_gen] at ha
      obtain ⟨g, hg, rfl⟩ := List.mem_map.mp ha
      exact he.gens g hg
    · rw [List.mem_singleton.mp hc, assets_link] at ha
      obtain ⟨g, hg, rfl⟩ := List.mem_map.mp ha
      exact he.links g hg
  have := Objective.objective_is_cost_partial (objNet w) o h3 (fun v => x (objVar v)) hc (weight w) (weight_spec w)
      (fun c hc h => events_zero _ c _ (fun a ha => (hev c hc a ha).1) h)
      (fun c hc h => events_zero _ c _ (fun a ha => (hev c hc a ha).2) h)
  rw [← system_all, ← this]
  unfold value Objective.Obj.value
  rw [h4, h5, lin_map_var, List.map_map]
  rfl

section
variable (hw : Sound w) (he : Events w) (hd : Orderly w) {other : List (Con WVar F)}
  (ho : ∀ r ∈ other, ∀ e ∈ r.terms, e.2 ≠ .const) {P : Program F} (hP : createModel w other = some P)
include hw he hd ho hP

/-- The solver's optimum is a plan with least costs, and every such plan is an optimum once the constant has its value. -/
theorem solver_least (D : (WVar → F) → Prop) (hD : ∀ k x, D x → D (setConst k x)) (x : WVar → F) :
    (FeasibleIn P x ∧ D x ∧ (∀ z, FeasibleIn P z → D z → value P x ≤ value P z) → Least w other D x) ∧
    (Least w other D x → FeasibleIn P (setConst (Objective.constant (objNet w)) x) ∧ D (setConst (Objective.constant (objNet w)) x) ∧
      ∀ z, FeasibleIn P z → D z → value P (setConst (Objective.constant (objNet w)) x) ≤ value P z) := by
  have fs : ∀ z, Rules w z → Feasible z other → FeasibleIn P (setConst (Objective.constant (objNet w)) z) := fun z h1 h2 =>
    (rules_iff hw hd hP _).mpr ⟨rules_const _ h1, other_const ho _ h2, rfl⟩
  have cs : ∀ k z, allCost w (setConst k z) = allCost w z := fun _ _ => rfl
  constructor
  · rintro ⟨h1, h2, h3⟩
    obtain ⟨r1, r2, -⟩ := (rules_iff hw hd hP x).mp h1
    refine ⟨r1, r2, h2, fun z z1 z2 z3 => ?_⟩
    have a1 := h3 _ (fs z z1 z2) (hD _ z z3)
    have a2 := value_cost he hP x h1.1
    have a3 := value_cost he hP _ (fs z z1 z2).1
    rw [cs] at a3
    linarith
  · rintro ⟨h1, h2, h3, h4⟩
    refine ⟨fs x h1 h2, hD _ x h3, fun z z1 z2 => ?_⟩
    obtain ⟨r1, r2, -⟩ := (rules_iff hw hd hP z).mp z1
    have a1 := h4 z r1 r2 z2
    have a2 := value_cost he hP _ (fs x h1 h2).1
    have a3 := value_cost he hP z z1.1
    rw [cs] at a2
    linarith

omit he in
/-- Plans between two plans. -/
theorem between {x z : WVar → F} (hx : Plan w other x) (hz : Plan w other z) {a b : F} (ha : 0 ≤ a) (hb : 0 ≤ b) (hab : a + b = 1) :
    ∃ y, Plan w other y ∧ allCost w y = allCost w (fun v => a * x v + b * z v) := by
  have fs : ∀ z, Plan w other z → FeasibleIn P (setConst (Objective.constant (objNet w)) z) := fun z h =>
    (rules_iff hw hd hP _).mpr ⟨rules_const _ h.1, other_const ho _ h.2, rfl⟩
  have h1 := fs x hx
  have h2 := fs z hz
  have h : FeasibleIn P (fun v => a * setConst (Objective.constant (objNet w)) x v + b * setConst (Objective.constant (objNet w)) z v) :=
    ⟨fun r hr => same_mix ha hb hab (h1.1 r hr) (h2.1 r hr), fun r hr => same_mix ha hb hab (h1.2 r hr) (h2.2 r hr)⟩
  obtain ⟨r1, r2, -⟩ := (rules_iff hw hd hP _).mp h
  exact ⟨_, ⟨r1, r2⟩, rfl⟩

end

theorem squared_nonneg (h : ∀ t < w.len, 0 ≤ weight w t) {active : Nat → Bool} {q : Nat → F} (hq : ∀ t < w.len, 0 ≤ q t) (p : Nat → F) :
    0 ≤ squared w active q p := by
  refine List.sum_nonneg (fun y hy => ?_)
  obtain ⟨t, ht, rfl⟩ := List.mem_map.mp hy
  have ht := List.mem_range.mp ht
  split
  · exact mul_nonneg (mul_nonneg (h t ht) (hq t ht)) (sq_nonneg _)
  · exact le_rfl

theorem squares_nonneg (h : Rising w) (x : WVar → F) : 0 ≤ squares w x := by
  have key : ∀ {A : Type} (l : List A) (f : A → F), (∀ a ∈ l, 0 ≤ f a) → 0 ≤ (l.map f).sum := fun l f hf => List.sum_nonneg (by simpa using hf)
  unfold squares
  have h1 := key w.gens _ (fun g hg => squared_nonneg h.weights (active := g.unit.active) (h.gens g hg) (fun t => x (.of "Generator" g.name (.op "p" t))))
  have h2 := key w.links _ (fun g hg => squared_nonneg h.weights (active := g.unit.active) (h.links g hg) (fun t => x (.of "Link" g.name (.op "p" t))))
  have h3 := key w.stores _ (fun g hg => squared_nonneg h.weights (active := g.storage.active) (h.stores g hg) (fun t => x (.of "Store" g.name (.op "p" t))))
  have h4 := key w.units _ (fun g hg => squared_nonneg h.weights (active := g.storage.active) (h.units g hg) (fun t => x (.of "StorageUnit" g.name (.op "p_dispatch" t))))
  linarith

section
variable (hw : Sound w) (he : Events w) (hq : Rising w) (hd : Orderly w) {other : List (Con WVar F)}
  (ho : ∀ r ∈ other, ∀ e ∈ r.terms, e.2 ≠ .const) {P : Program F} (hP : createModel w other = some P)
include hw hq hd ho hP

/-- A plan has least costs exactly if it has least costs at its own slope. -/
theorem least_tangent (x : WVar → F) : Least w other (fun _ => True) x ↔ Best (tangent w x) other (fun _ => True) x := by
  constructor
  · rintro ⟨h1, h2, -, h4⟩
    refine ⟨rules_tan.mpr h1, h2, trivial, fun z z1 z2 _ => ?_⟩
    by_contra hlt
    push Not at hlt
    set G := totalCost (tangent w x) x - totalCost (tangent w x) z with hG
    have hG0 : 0 < G := by linarith
    set Q := squares w (fun v => z v - x v) with hQ
    have hQ0 : 0 ≤ Q := squares_nonneg hq _
    have hs0 : 0 < Q + G := by linarith
    set s := G / (Q + G) with hs
    have hs1 : s ≤ 1 := (div_le_one hs0).mpr (by linarith)
    have hs2 : 0 < s := div_pos hG0 hs0
    obtain ⟨y, ⟨y1, y2⟩, ye⟩ := between hw hd ho hP ⟨h1, h2⟩ ⟨rules_tan.mp z1, z2⟩ (a := 1 - s) (b := s) (by linarith) hs2.le (by ring)
    have hy := h4 y y1 y2 trivial
    have e := cost_apart (w := w) x (fun v => (1 - s) * x v + s * z v)
    rw [cost_mix, ← ye] at e
    have e2 : squares w (fun v => ((1 - s) * x v + s * z v) - x v) = s ^ 2 * Q := by
      have := squares_mix (w := w) (fun v => z v - x v) (fun v => z v - x v) s 0
      rw [show (fun v => ((1 - s) * x v + s * z v) - x v) = (fun v => s * (z v - x v) + 0 * (z v - x v)) from funext (fun v => by ring), this]
      ring
    rw [e2] at e
    have e3 : s * (Q + G) = G := div_mul_cancel₀ _ hs0.ne'
    have e4 : allCost w y - allCost w x = - (s * s * G) := by
      have : totalCost (tangent w x) z = totalCost (tangent w x) x - G := by rw [hG]; ring
      rw [e, this]
      linear_combination s * e3
    have : 0 < s * s * G := mul_pos (mul_pos hs2 hs2) hG0
    linarith
  · rintro ⟨h1, h2, -, h4⟩
    refine ⟨rules_tan.mp h1, h2, trivial, fun z z1 z2 _ => ?_⟩
    have e := cost_apart (w := w) x z
    have := h4 z (rules_tan.mpr z1) z2 trivial
    have := squares_nonneg hq (fun v => z v - x v)
    linarith

include he

/-- Prices belong to the costs of one unit more, and they exist exactly for the plans with least costs. -/
theorem quad_prices (x : WVar → F) : Least w other (fun _ => True) x ↔ Plan w other x ∧ ∃ lam : Name → Nat → F, ∀ z, AssetRules w z → Feasible z other →
    totalCost (tangent w x) x - worth w lam x ≤ totalCost (tangent w x) z - worth w lam z := by
  rw [least_tangent hw hq hd ho hP]
  rcases model_tan hP x with ⟨P', hP'⟩ | h0
  · rw [market (sound_tan hw) (linear_tan he) (orderly_tan hd) ho hP' x]
    unfold Plan
    simp only [rules_tan, assets_tan, worth_tan]
  · constructor
    · rintro ⟨h1, h2, -⟩
      refine ⟨⟨rules_tan.mp h1, h2⟩, fun _ _ => 0, fun z _ _ => ?_⟩
      rw [h0, h0]
      simp [worth]
    · rintro ⟨⟨h1, h2⟩, -⟩
      exact ⟨rules_tan.mpr h1, h2, trivial, fun z _ _ _ => by rw [h0, h0]⟩

/-- A plan has least costs exactly if there are prices at which the assets together could not earn more. -/
theorem quad_market (x : WVar → F) : Least w other (fun _ => True) x ↔ Plan w other x ∧ ∃ lam : Name → Nat → F, ∀ z, AssetRules w z → Feasible z other →
    allCost w x - worth w lam x ≤ allCost w z - worth w lam z := by
  constructor
  · intro h
    obtain ⟨h1, lam, h2⟩ := (quad_prices hw he hq hd ho hP x).mp h
    refine ⟨h1, lam, fun z z1 z2 => ?_⟩
    have := h2 z z1 z2
    have := cost_apart (w := w) x z
    have := squares_nonneg hq (fun v => z v - x v)
    linarith
  · rintro ⟨⟨h1, h2⟩, lam, h⟩
    refine ⟨h1, h2, trivial, fun z z1 z2 _ => ?_⟩
    have := h z (Rules.assets z1) z2
    rw [worth_bill lam h1.balance, worth_bill lam z1.balance] at this
    linarith

omit he in
/-- Two plans with least costs agree wherever quadratic costs count. -/
theorem quad_unique {x z : WVar → F} (hx : Least w other (fun _ => True) x) (hz : Least w other (fun _ => True) z) : squares w (fun v => z v - x v) = 0 := by
  obtain ⟨y, ⟨y1, y2⟩, ye⟩ := between hw hd ho hP ⟨hx.1, hx.2.1⟩ ⟨hz.1, hz.2.1⟩ (a := 1 / 2) (b := 1 / 2) (by norm_num) (by norm_num) (by norm_num)
  have h1 := hx.2.2.2 y y1 y2 trivial
  have h2 := hz.2.2.2 y y1 y2 trivial
  have h3 := squares_nonneg hq (fun v => z v - x v)
  rw [ye] at h1 h2
  unfold allCost at h1 h2
  rw [cost_mix, squares_mix] at h1 h2
  have h4 := squares_neg (w := w) x z
  linarith

end

/-! ## Each asset on its own -/

theorem below (h : ∀ t < w.len, 0 ≤ weight w t) {active : Nat → Bool} {q : Nat → F} (hq : ∀ t < w.len, 0 ≤ q t) (u v : Nat → F) :
    2 * pairing w active q u v ≤ squared w active q u + squared w active q v := by
  have h1 := squared_mix (w := w) active q u v (-1) 1
  have h2 := squared_nonneg h (active := active) hq (fun t => -1 * u t + 1 * v t)
  rw [h1] at h2
  linarith

omit [LinearOrder F] [IsStrictOrderedRing F] in
theorem pairing_self (active : Nat → Bool) (q u : Nat → F) : pairing w active q u u = squared w active q u := by
  unfold pairing squared
  simp only [pow_two]

theorem competes_of (hq : Rising w) {lam : Name → Nat → F} (h : Competitive (tangent w x) lam x) : Competes w lam x := by
  refine ⟨?_, ?_, ?_, ?_, fun g hg y hy => h.lines g hg y (branch_tan.mpr hy), fun g hg y hy => h.trafos g hg y (branch_tan.mpr hy)⟩
  · intro g hg y hy
    have h1 := h.gens (gTan x g) (List.mem_map_of_mem hg) y (gen_tan.mpr hy)
    have h2 := below hq.weights (active := g.unit.active) (hq.gens g hg) (fun t => x (.of "Generator" g.name (.op "p" t))) (fun t => y (.op "p" t))
    rw [genCost_tan, genCost_tan, pairing_self] at h1
    change genRevenue w g lam (spread y) - (_ + 2 * pairing w _ _ _ (fun t => y (.op "p" t))) ≤ genRevenue w g lam x - _ at h1
    linarith
  · intro g hg y hy
    have h1 := h.links (lTan x g) (List.mem_map_of_mem hg) y (link_tan.mpr hy)
    have h2 := below hq.weights (active := g.unit.active) (hq.links g hg) (fun t => x (.of "Link" g.name (.op "p" t))) (fun t => y (.op "p" t))
    rw [linkCost_tan, linkCost_tan, pairing_self] at h1
    change linkRevenue w g lam (spread y) - (_ + 2 * pairing w _ _ _ (fun t => y (.op "p" t))) ≤ linkRevenue w g lam x - _ at h1
    linarith
  · intro g hg y hy
    have h1 := h.stores (sTan x g) (List.mem_map_of_mem hg) y (store_tan.mpr hy)
    have h2 := below hq.weights (active := g.storage.active) (hq.stores g hg) (fun t => x (.of "Store" g.name (.op "p" t))) (fun t => y (.op "p" t))
    rw [storeCost_tan, storeCost_tan, pairing_self] at h1
    change storeRevenue w g lam (spread y) - (_ + 2 * pairing w _ _ _ (fun t => y (.op "p" t))) ≤ storeRevenue w g lam x - _ at h1
    linarith
  · intro g hg y hy
    have h1 := h.units (uTan x g) (List.mem_map_of_mem hg) y (unit_tan.mpr hy)
    have h2 := below hq.weights (active := g.storage.active) (hq.units g hg) (fun t => x (.of "StorageUnit" g.name (.op "p_dispatch" t))) (fun t => y (.op "p_dispatch" t))
    rw [unitCost_tan, unitCost_tan, pairing_self] at h1
    change unitRevenue w g lam (spread y) - (_ + 2 * pairing w _ _ _ (fun t => y (.op "p_dispatch" t))) ≤ unitRevenue w g lam x - _ at h1
    linarith

theorem competes_all (hw : Sound w) {lam : Name → Nat → F} (h : Competes w lam x) (z : WVar → F) (hz : AssetRules w z) :
    allCost w x - worth w lam x ≤ allCost w z - worth w lam z := by
  have key : ∀ {A : Type} (l : List A) (f f' g g' : A → F), (∀ a ∈ l, f a + g a ≤ f' a + g' a) →
      (l.map f).sum + (l.map g).sum ≤ (l.map f').sum + (l.map g').sum := by
    intro A l f f' g g' h
    rw [← List.sum_map_add, ← List.sum_map_add]
    exact List.sum_le_sum h
  have h1 := key w.gens (fun g => genCost w g x - genRevenue w g lam x) (fun g => genCost w g z - genRevenue w g lam z)
    (fun g => squared w g.unit.active g.costs.quadratic (fun t => x (.of "Generator" g.name (.op "p" t))))
    (fun g => squared w g.unit.active g.costs.quadratic (fun t => z (.of "Generator" g.name (.op "p" t)))) (fun g hg => by
      have := h.gens g hg _ (hz.gens g hg)
      have e := gen_same w lam z (spread (fun v => z (.of "Generator" g.name v))) g (fun v => rfl)
      linarith)
  have h2 := key w.links (fun g => linkCost w g x - linkRevenue w g lam x) (fun g => linkCost w g z - linkRevenue w g lam z)
    (fun g => squared w g.unit.active g.costs.quadratic (fun t => x (.of "Link" g.name (.op "p" t))))
    (fun g => squared w g.unit.active g.costs.quadratic (fun t => z (.of "Link" g.name (.op "p" t)))) (fun g hg => by
      have := h.links g hg _ (hz.links g hg)
      have e := link_same w lam z (spread (fun v => z (.of "Link" g.name v))) g (fun v => rfl)
      linarith)
  have h3 := key w.stores (fun g => storeCost w g x - storeRevenue w g lam x) (fun g => storeCost w g z - storeRevenue w g lam z)
    (fun g => squared w g.storage.active g.costs.quadratic (fun t => x (.of "Store" g.name (.op "p" t))))
    (fun g => squared w g.storage.active g.costs.quadratic (fun t => z (.of "Store" g.name (.op "p" t)))) (fun g hg => by
      have := h.stores g hg _ (hz.stores g hg)
      have e := store_same w lam z (spread (fun v => z (.of "Store" g.name v))) g (fun v => rfl)
      linarith)
  have h4 := key w.units (fun g => unitCost w g x - unitRevenue w g lam x) (fun g => unitCost w g z - unitRevenue w g lam z)
    (fun g => squared w g.storage.active g.costs.quadratic (fun t => x (.of "StorageUnit" g.name (.op "p_dispatch" t))))
    (fun g => squared w g.storage.active g.costs.quadratic (fun t => z (.of "StorageUnit" g.name (.op "p_dispatch" t)))) (fun g hg => by
      have := h.units g hg _ (hz.units g hg)
      have e := unit_same w lam z (spread (fun v => z (.of "StorageUnit" g.name v))) g (fun v => rfl)
      linarith)
  have h5 : (w.lines.map (fun g => branchCost w "Line" g x - branchRevenue w "Line" g lam x)).sum ≤
      (w.lines.map (fun g => branchCost w "Line" g z - branchRevenue w "Line" g lam z)).sum :=
    List.sum_le_sum (fun g hg => by
      have := h.lines g hg _ (hz.lines g hg)
      have e := branch_same w lam z (spread (fun v => z (.of "Line" g.name v))) "Line" g (fun v => rfl)
      linarith)
  have h6 : (w.trafos.map (fun g => branchCost w "Transformer" g x - branchRevenue w "Transformer" g lam x)).sum ≤
      (w.trafos.map (fun g => branchCost w "Transformer" g z - branchRevenue w "Transformer" g lam z)).sum :=
    List.sum_le_sum (fun g hg => by
      have := h.trafos g hg _ (hz.trafos g hg)
      have e := branch_same w lam z (spread (fun v => z (.of "Transformer" g.name v))) "Transformer" g (fun v => rfl)
      linarith)
  have e1 := net_eq hw lam x
  have e2 := net_eq hw lam z
  unfold allCost squares
  linarith

/-- A plan that obeys the rules has least costs exactly if there are prices at which each asset on its own could not earn more. -/
theorem quad_welfare (hw : Sound w) (he : Events w) (hq : Rising w) (hd : Orderly w) {P : Program F} (hP : createModel w [] = some P) (x : WVar → F) :
    Least w [] (fun _ => True) x ↔ Rules w x ∧ ∃ lam : Name → Nat → F, Competes w lam x := by
  constructor
  · intro h
    obtain ⟨⟨h1, -⟩, lam, h2⟩ := (quad_prices hw he hq hd (by simp) hP x).mp h
    refine ⟨h1, lam, competes_of hq (Exist.alone (sound_tan hw) (assets_tan.mpr (Rules.assets h1)) (fun z hz => ?_))⟩
    rw [worth_tan, worth_tan]
    exact h2 z (assets_tan.mp hz) (by simp [Feasible])
  · rintro ⟨h1, lam, h⟩
    exact (quad_market hw he hq hd (by simp) hP x).mpr ⟨⟨h1, by simp [Feasible]⟩, lam, fun z hz _ => competes_all hw h z hz⟩

/-! ## The solver's duals -/

theorem assets_loads (loads : List (LoadW F)) {z : WVar → F} (h : AssetRules { w with loads := loads } z) : AssetRules w z :=
  ⟨fun g hg => let r := h.gens g hg; ⟨r.cap, r.unit, r.set, r.sumMin, r.sumMax⟩, fun g hg => let r := h.links g hg; ⟨r.cap, r.unit, r.set⟩,
    fun g hg => let r := h.stores g hg; ⟨r.cap, r.limits, r.set, r.level⟩,
    fun g hg => let r := h.units g hg; ⟨r.cap, r.dispatch, r.store, r.charge, r.spill, r.set, r.level⟩,
    fun g hg => let r := h.lines g hg; ⟨r.cap, r.limits, r.set, r.loss⟩, fun g hg => let r := h.trafos g hg; ⟨r.cap, r.limits, r.set, r.loss⟩⟩

theorem lin_mix {V : Type} (a b : F) (x y : V → F) (ts : List (F × V)) : lin (fun v => a * x v + b * y v) ts = a * lin x ts + b * lin y ts := by
  induction ts with
  | nil => simp [lin]
  | cons e ts ih =>
    simp only [lin, List.map_cons, List.sum_cons] at ih ⊢
    rw [ih]
    ring

def quads (P : Program F) (d : WVar → F) : F := (P.quadratic.map (fun e => e.1 * (d e.2 * d e.2))).sum

theorem value_apart (P : Program F) (x z : WVar → F) :
    value P z - value P x = lin z (marginals P x) - lin x (marginals P x) + quads P (fun v => z v - x v) := by
  unfold value marginals quads
  rw [lin_append, lin_append]
  have : ∀ l : List (F × WVar), (l.map (fun e => e.1 * (z e.2 * z e.2))).sum - (l.map (fun e => e.1 * (x e.2 * x e.2))).sum =
      lin z (l.map (fun e => (2 * e.1 * x e.2, e.2))) - lin x (l.map (fun e => (2 * e.1 * x e.2, e.2))) +
        (l.map (fun e => e.1 * ((z e.2 - x e.2) * (z e.2 - x e.2)))).sum := by
    intro l
    induction l with
    | nil => simp [lin]
    | cons e l ih =>
      simp only [List.map_cons, List.sum_cons, lin_cons]
      linear_combination ih
  linear_combination this P.quadratic

theorem value_mid (P : Program F) (x z : WVar → F) :
    quads P (fun v => z v - x v) = 2 * value P x + 2 * value P z - 4 * value P (fun v => 1 / 2 * x v + 1 / 2 * z v) := by
  unfold value quads
  rw [lin_mix]
  have : ∀ l : List (F × WVar), (l.map (fun e => e.1 * ((z e.2 - x e.2) * (z e.2 - x e.2)))).sum = 2 * (l.map (fun e => e.1 * (x e.2 * x e.2))).sum +
      2 * (l.map (fun e => e.1 * (z e.2 * z e.2))).sum - 4 * (l.map (fun e => e.1 * ((1 / 2 * x e.2 + 1 / 2 * z e.2) * (1 / 2 * x e.2 + 1 / 2 * z e.2)))).sum := by
    intro l
    induction l with
    | nil => simp
    | cons e l ih =>
      simp only [List.map_cons, List.sum_cons]
      linear_combination ih
  rw [this]
  ring

/-- The derivative of the objective is the cost at the slope. -/
theorem slope_cost (he : Events w) {other : List (Con WVar F)} {P : Program F} (hP : createModel w other = some P) {x z : WVar → F}
    (hx : Feasible x P.rows) (hz : Feasible z P.rows) :
    lin z (marginals P x) - lin x (marginals P x) = totalCost (tangent w x) z - totalCost (tangent w x) x := by
  have hy : Feasible (fun v => 1 / 2 * x v + 1 / 2 * z v) P.rows := fun r hr =>
    same_mix (by norm_num) (by norm_num) (by norm_num) (hx r hr) (hz r hr)
  have v1 := value_cost he hP x hx
  have v2 := value_cost he hP z hz
  have v3 := value_cost he hP _ hy
  have m := value_mid P x z
  have a := value_apart P x z
  have c := cost_apart (w := w) x z
  have n := squares_neg (w := w) x z
  have t3 : allCost w (fun v => 1 / 2 * x v + 1 / 2 * z v) = 1 / 2 * totalCost w x + 1 / 2 * totalCost w z +
      ((1 / 2) ^ 2 * squares w x + 2 * (1 / 2) * (1 / 2) * form w x z + (1 / 2) ^ 2 * squares w z) := by
    unfold allCost
    rw [cost_mix, squares_mix]
  unfold allCost at v1 v2 c
  rw [t3] at v3
  linarith

section
variable (hw : Sound w) (he : Events w) (hq : Rising w) (hd : Orderly w) {other : List (Con WVar F)}
  (ho : ∀ r ∈ other, ∀ e ∈ r.terms, e.2 ≠ .const) {P : Program F} (hP : createModel w other = some P)
include hw he hd ho hP

/-- At the solver's duals the assets could not earn more at the slope of the plan. -/
theorem answered_slope {lam : Name → Nat → F} {mu : List F} (hs : Answered P x lam mu) : Plan w other x ∧
    ∀ z, AssetRules w z → Feasible z other → totalCost (tangent w x) x - worth w lam x ≤ totalCost (tangent w x) z - worth w lam z := by
  obtain ⟨own, bal, o, h1, h2, h3, h4, -, h5, h6⟩ := createModel_parts hP
  have hxf : FeasibleIn P x := by
    refine ⟨fun r hr => ?_, fun r hr => ?_⟩
    · obtain ⟨i, hi, rfl⟩ := List.mem_iff_getElem.mp hr
      exact hs.answer.feasible (P.rows[i], mu[i]'(by rw [hs.len]; exact hi)) (List.mem_append_right _ (by
        rw [List.mem_iff_getElem]
        exact ⟨i, by rw [List.length_zip, hs.len]; omega, by simp⟩))
    · obtain ⟨q, hq, rfl⟩ := List.mem_map.mp hr
      exact hs.answer.feasible (q.2, lam q.1.1 q.1.2) (List.mem_append_left _ (List.mem_map_of_mem (f := fun r => (r.2, lam r.1.1 r.1.2)) hq))
  obtain ⟨r1, r2, -⟩ := (rules_iff hw hd hP x).mp hxf
  refine ⟨⟨r1, r2⟩, fun z hz hzo => ?_⟩
  set k := Objective.constant (objNet w) with hk
  have hz' : Feasible (setConst k z) P.rows := by
    rw [h6]
    intro r hr
    rcases List.mem_append.mp hr with hr | hr
    · exact own_hold hd h1 (x := setConst k z) ⟨hz.gens, hz.links, hz.stores, hz.units, hz.lines, hz.trafos⟩ r hr
    · rcases List.mem_cons.mp hr with rfl | hr
      · simp [constRow, Con.holds, lin, setConst, hk]
      · exact other_const ho k hzo r hr
  have val : ∀ y : WVar → F, lin y (marginals P x) = worth w lam y + ((P.rows.zip mu).map (fun r => r.2 * lin y r.1.terms)).sum := by
    intro y
    rw [lin_of_stationary _ _ hs.answer.stationary y, List.map_append, List.sum_append, List.map_map]
    congr 1
    rw [h5]
    refine (balance_sum hw h2 (fun b t s _ => lam b t * s) (fun b t d => by simp) y).trans ?_
    unfold worth
    simp only [supply_rule]
  have hsl := slackness hs.answer
  have gap : ((P.rows.zip mu).map (fun r => r.2 * lin x r.1.terms)).sum ≤ ((P.rows.zip mu).map (fun r => r.2 * lin (setConst k z) r.1.terms)).sum := by
    apply List.sum_le_sum
    intro r hr
    have hm : r ∈ P.balance.map (fun r => (r.2, lam r.1.1 r.1.2)) ++ P.rows.zip mu := List.mem_append_right _ hr
    rw [hsl r hm]
    have := dual_gap hs.answer r hm r.1.terms r.1.rhs (setConst k z) (hz' _ (mem_zip_left hr))
    rw [mul_sub] at this
    linarith
  have e1 := slope_cost he hP hxf.1 hz'
  have e3 := val x
  have e4 := val (setConst k z)
  have e5 : totalCost (tangent w x) (setConst k z) = totalCost (tangent w x) z := rfl
  have e6 : worth w lam (setConst k z) = worth w lam z := rfl
  rw [e5] at e1
  rw [e6] at e4
  linarith

include hq

/-- The solver's answer exists exactly for the plans with least costs. -/
theorem answered_iff (x : WVar → F) :
    (∀ lam mu, Answered P x lam mu → Least w other (fun _ => True) x) ∧
    (Least w other (fun _ => True) x → ∃ lam mu, Answered P (setConst (Objective.constant (objNet w)) x) lam mu) := by
  constructor
  · intro lam mu hs
    obtain ⟨h1, h2⟩ := answered_slope hw he hd ho hP hs
    exact (quad_prices hw he hq hd ho hP x).mpr ⟨h1, lam, h2⟩
  · intro hx
    obtain ⟨own, bal, o, h1, h2, h3, h4, -, h5, h6⟩ := createModel_parts hP
    have hf : FeasibleIn P (setConst (Objective.constant (objNet w)) x) :=
      (rules_iff hw hd hP _).mpr ⟨rules_const _ hx.1, other_const ho _ hx.2.1, rfl⟩
    have hb := (least_tangent hw hq hd ho hP x).mp hx
    have hk : (P.balance.map (·.1)).Nodup := by rw [h5]; exact balance_keys hw h2
    obtain ⟨nu, hl, ha⟩ := Farkas.duals_exist (obj := marginals P (setConst (Objective.constant (objNet w)) x)) ((feasibleIn_append P _).mp hf) (fun y hy => by
      have hy := (feasibleIn_append P y).mpr hy
      obtain ⟨r1, r2, -⟩ := (rules_iff hw hd hP y).mp hy
      have e1 := slope_cost he hP hf.1 hy.1
      have e2 := hb.2.2.2 y (rules_tan.mpr r1) r2 trivial
      change _ = totalCost (tangent w x) y - totalCost (tangent w x) x at e1
      linarith)
    have hlen : (nu.take P.balance.length).length = P.balance.length := by
      rw [List.length_take, hl]
      simp
    obtain ⟨f, hf, -⟩ := by_key 0 P.balance (nu.take P.balance.length) hk hlen
    refine ⟨fun b t => f (b, t), nu.drop P.balance.length, ⟨by rw [List.length_drop, hl]; simp, ?_⟩⟩
    have e : (P.balance.map (·.2) ++ P.rows).zip nu =
        P.balance.map (fun r => (r.2, f (r.1.1, r.1.2))) ++ P.rows.zip (nu.drop P.balance.length) := by
      conv_lhs => rw [← List.take_append_drop P.balance.length nu]
      rw [List.zip_append (by rw [hlen]; simp)]
      rw [hf]
    rw [← e]
    exact ha

omit hq in
/-- More load costs at least what it is worth at the solver's duals. -/
theorem quad_load {lam : Name → Nat → F} {mu : List F} (hq : Rising w) (hs : Answered P x lam mu) (loads : List (LoadW F)) {z : WVar → F}
    (hz : Plan { w with loads := loads } other z) :
    allCost w x + (bill { w with loads := loads } lam - bill w lam) ≤ allCost w z := by
  obtain ⟨h1, h2⟩ := answered_slope hw he hd ho hP hs
  have ha := Rules.assets hz.1
  have h3 := h2 z (assets_loads loads ha) hz.2
  have h4 := cost_apart (w := w) x z
  have h5 := squares_nonneg hq (fun v => z v - x v)
  have h6 := worth_bill lam h1.1.balance
  have h7 := worth_bill (w := { w with loads := loads }) lam hz.1.balance
  change worth w lam z = _ at h7
  linarith

end

/-! ## One price for one bus -/

/-- One generator changes its course. -/
theorem one_gen (hw : Sound w) (hx : AssetRules w x) {lam : Name → Nat → F} {g : GenW F} (hg : g ∈ w.gens) {y : Loc → F} (hy : GenRule w g y) :
    AssetRules w (put "Generator" g.name y x) ∧
    (totalCost w (put "Generator" g.name y x) - worth w lam (put "Generator" g.name y x)) - (totalCost w x - worth w lam x) =
      (genCost w g (spread y) - genRevenue w g lam (spread y)) - (genCost w g x - genRevenue w g lam x) := by
  have off : ∀ (c a : Name) , c ≠ "Generator" → (fun v => put "Generator" g.name y x (.of c a v)) = fun v => x (.of c a v) :=
    fun c a hc => funext (fun v => put_cls hc g.name a y x v)
  constructor
  · refine ⟨fun a ha => ?_, fun a ha => ?_, fun a ha => ?_, fun a ha => ?_, fun a ha => ?_, fun a ha => ?_⟩
    · by_cases e : a.name = g.name
      · rw [List.inj_on_of_nodup_map hw.gens ha hg e, show (fun v => put "Generator" g.name y x (.of "Generator" g.name v)) = y from
          funext (put_self "Generator" g.name y x)]
        exact hy
      · rw [show (fun v => put "Generator" g.name y x (.of "Generator" a.name v)) = fun v => x (.of "Generator" a.name v) from
          funext (put_name "Generator" e y x)]
        exact hx.gens a ha
    · rw [off _ _ (by simp)]; exact hx.links a ha
    · rw [off _ _ (by simp)]; exact hx.stores a ha
    · rw [off _ _ (by simp)]; exact hx.units a ha
    · rw [off _ _ (by simp)]; exact hx.lines a ha
    · rw [off _ _ (by simp)]; exact hx.trafos a ha
  · have h1 := sum_put w.gens (·.name) hw.gens g hg (fun g => genCost w g x - genRevenue w g lam x)
      (fun g' => genCost w g' (put "Generator" g.name y x) - genRevenue w g' lam (put "Generator" g.name y x))
      (fun a _ hn => gen_same w lam _ _ a (fun v => put_name "Generator" hn y x v))
    have h0 := gen_same w lam (spread y) (put "Generator" g.name y x) g (fun v => put_self "Generator" g.name y x v)
    have h2 : w.links.map (fun a => linkCost w a (put "Generator" g.name y x) - linkRevenue w a lam (put "Generator" g.name y x)) =
        w.links.map (fun a => linkCost w a x - linkRevenue w a lam x) :=
      List.map_congr_left (fun a _ => link_same w lam _ _ a (fun v => put_cls (by simp) g.name a.name y x v))
    have h3 : w.stores.map (fun a => storeCost w a (put "Generator" g.name y x) - storeRevenue w a lam (put "Generator" g.name y x)) =
        w.stores.map (fun a => storeCost w a x - storeRevenue w a lam x) :=
      List.map_congr_left (fun a _ => store_same w lam _ _ a (fun v => put_cls (by simp) g.name a.name y x v))
    have h4 : w.units.map (fun a => unitCost w a (put "Generator" g.name y x) - unitRevenue w a lam (put "Generator" g.name y x)) =
        w.units.map (fun a => unitCost w a x - unitRevenue w a lam x) :=
      List.map_congr_left (fun a _ => unit_same w lam _ _ a (fun v => put_cls (by simp) g.name a.name y x v))
    have h5 : w.lines.map (fun a => branchCost w "Line" a (put "Generator" g.name y x) - branchRevenue w "Line" a lam (put "Generator" g.name y x)) =
        w.lines.map (fun a => branchCost w "Line" a x - branchRevenue w "Line" a lam x) :=
      List.map_congr_left (fun a _ => branch_same w lam _ _ "Line" a (fun v => put_cls (by simp) g.name a.name y x v))
    have h6 : w.trafos.map (fun a => branchCost w "Transformer" a (put "Generator" g.name y x) - branchRevenue w "Transformer" a lam (put "Generator" g.name y x)) =
        w.trafos.map (fun a => branchCost w "Transformer" a x - branchRevenue w "Transformer" a lam x) :=
      List.map_congr_left (fun a _ => branch_same w lam _ _ "Transformer" a (fun v => put_cls (by simp) g.name a.name y x v))
    rw [net_eq hw, net_eq hw, h2, h3, h4, h5, h6]
    linarith

/-- What the generator produces in one snapshot is changed. -/
def shift (g : GenW F) (t : Nat) (v : F) (x : WVar → F) : Loc → F := fun l => if l = .op "p" t then v else x (.of "Generator" g.name l)

theorem shift_rule {g : GenW F} (hp : Weights.Plain g.unit) (hsum : g.eSumMin = none ∧ g.eSumMax = none) {t : Nat} (hset : g.pSet t = none) {v : F}
    (hv : limit g.unit (g.unit.minPu t) (x (.of "Generator" g.name .cap)) ≤ v ∧ v ≤ limit g.unit (g.unit.maxPu t) (x (.of "Generator" g.name .cap)))
    (h : GenRule w g (fun l => x (.of "Generator" g.name l))) : GenRule w g (shift g t v x) := by
  have hc := hp.com
  refine ⟨by simpa [shift] using h.cap, ?_, ?_, fun _ e he => (by rw [hsum.1] at he; cases he), fun _ e he => (by rw [hsum.2] at he; cases he)⟩
  · refine ⟨?_, ?_, ?_, ?_, ?_, ?_, ?_, ?_, ?_, ?_, ?_, ?_, ?_, ?_, ?_, ?_, ?_⟩
    · intro he _ s hs ha
      by_cases e : s = t
      · subst e
        simpa [shift, limit, he] using hv
      · simpa [shift, e] using h.unit.fixed he hc s hs ha
    · intro he s hs ha
      by_cases e : s = t
      · subst e
        simpa [shift, limit, he] using hv
      · simpa [shift, e] using h.unit.extendable he s hs ha
    · intro h'; rw [hc] at h'; cases h'
    · intro h'; rw [hc] at h'; cases h'
    · intro h'; rw [hc] at h'; cases h'
    · intro h'; rw [hc] at h'; cases h'
    · intro h'; rw [hc] at h'; cases h'
    · intro h'; rw [hc] at h'; cases h'
    · intro h'; rw [hc] at h'; cases h'
    · intro h'; rw [hc] at h'; cases h'
    · intro _ s _ _ r hr; rw [(hp.ramps _).1] at hr; cases hr
    · intro _ s _ _ r hr; rw [(hp.ramps _).2] at hr; cases hr
    · intro _ h'; rw [hc] at h'; cases h'
    · intro _ h'; rw [hc] at h'; cases h'
    · intro _ _ _ q s _
      exact ⟨fun r hr => (by rw [(hp.ramps _).1] at hr; cases hr), fun h' => (by rw [hc] at h'; cases h')⟩
    · intro _ _ _ q s _
      exact ⟨fun r hr => (by rw [(hp.ramps _).2] at hr; cases hr), fun h' => (by rw [hc] at h'; cases h')⟩
    · intro _ h'; rw [hc] at h'; cases h'
  · intro s hs ha v' hv'
    by_cases e : s = t
    · subst e
      rw [hset] at hv'
      cases hv'
    · simpa [shift, e] using h.set s hs ha v' hv'

theorem shift_net {g : GenW F} {lam : Name → Nat → F} {t : Nat} (ht : t < w.len) (ha : g.unit.active t = true) (v : F) :
    (genCost w g (spread (shift g t v x)) - genRevenue w g lam (spread (shift g t v x))) - (genCost w g x - genRevenue w g lam x) =
      (weight w t * g.costs.marginal t - lam g.bus t * g.sign) * (v - x (.of "Generator" g.name (.op "p" t))) := by
  have e1 : genCost w g (spread (shift g t v x)) - genCost w g x = weight w t * g.costs.marginal t * (v - x (.of "Generator" g.name (.op "p" t))) := by
    unfold genCost
    have hc : spread (shift g t v x) (.of "Generator" g.name .cap) = x (.of "Generator" g.name .cap) := by simp [spread, shift]
    rw [hc, add_sub_add_right_eq_sub, ← sum_sub_map, single_time ht _ (fun s hs => by simp [spread, shift, hs])]
    simp [spread, shift, ha]
    ring
  have e2 : genRevenue w g lam (spread (shift g t v x)) - genRevenue w g lam x = lam g.bus t * g.sign * (v - x (.of "Generator" g.name (.op "p" t))) := by
    unfold genRevenue
    rw [← sum_sub_map, single_time ht _ (fun s hs => by simp [spread, shift, hs])]
    simp [spread, shift, ha]
    ring
  linear_combination e1 - e2

/-- At the solver's prices a generator below its upper limit is not worth more than one unit more of it costs, one above its lower limit not less. -/
theorem quad_merit (hw : Sound w) (he : Events w) (hd : Orderly w) {other : List (Con WVar F)}
    (ho : ∀ r ∈ other, ∀ e ∈ r.terms, e.2 ≠ .const) {P : Program F} (hP : createModel w other = some P) {lam : Name → Nat → F} {mu : List F} (hs : Answered P x lam mu)
    (old : F) {g : GenW F} (hg : g ∈ w.gens) (hp : Weights.Plain g.unit) (hsum : g.eSumMin = none ∧ g.eSumMax = none) {t : Nat} (ht : t < w.len)
    (ha : g.unit.active t = true) (hset : g.pSet t = none) (hwt : 0 < weight w t) (hfree : ∀ r ∈ other, ∀ e ∈ r.terms, e.2 ≠ .of "Generator" g.name (.op "p" t)) :
    (x (.of "Generator" g.name (.op "p" t)) < limit g.unit (g.unit.maxPu t) (x (.of "Generator" g.name .cap)) →
      g.sign * busPrice w old (lam g.bus t) t ≤ g.costs.marginal t + 2 * g.costs.quadratic t * x (.of "Generator" g.name (.op "p" t))) ∧
    (limit g.unit (g.unit.minPu t) (x (.of "Generator" g.name .cap)) < x (.of "Generator" g.name (.op "p" t)) →
      g.costs.marginal t + 2 * g.costs.quadratic t * x (.of "Generator" g.name (.op "p" t)) ≤ g.sign * busPrice w old (lam g.bus t) t) := by
  obtain ⟨h1, h2⟩ := answered_slope hw he hd ho hP hs
  have hp' : busPrice w old (lam g.bus t) t = lam g.bus t / weight w t := by
    unfold busPrice
    rw [weight_eq]
    rfl
  have hr := (Rules.assets h1.1).gens g hg
  have lims : limit g.unit (g.unit.minPu t) (x (.of "Generator" g.name .cap)) ≤ x (.of "Generator" g.name (.op "p" t)) ∧
      x (.of "Generator" g.name (.op "p" t)) ≤ limit g.unit (g.unit.maxPu t) (x (.of "Generator" g.name .cap)) := by
    unfold limit
    cases hx : g.unit.extendable
    · simpa using hr.unit.fixed hx hp.com t ht ha
    · simpa using hr.unit.extendable hx t ht ha
  have key : ∀ v, limit g.unit (g.unit.minPu t) (x (.of "Generator" g.name .cap)) ≤ v → v ≤ limit g.unit (g.unit.maxPu t) (x (.of "Generator" g.name .cap)) →
      0 ≤ (weight w t * (g.costs.marginal t + 2 * g.costs.quadratic t * x (.of "Generator" g.name (.op "p" t))) - lam g.bus t * g.sign) *
        (v - x (.of "Generator" g.name (.op "p" t))) := by
    intro v v1 v2
    have hy := shift_rule hp hsum hset ⟨v1, v2⟩ hr
    obtain ⟨z1, z2⟩ := one_gen (lam := lam) (sound_tan (x := x) hw) (assets_tan.mpr (Rules.assets h1.1)) (g := gTan x g) (List.mem_map_of_mem hg)
      (y := shift g t v x) (gen_tan.mpr hy)
    have h3 := h2 _ (assets_tan.mp z1) (fun r hr => by
      have same : ∀ e ∈ r.terms, put "Generator" (gTan x g).name (shift g t v x) x e.2 = x e.2 := by
        intro e he
        have n := hfree r hr e he
        rcases e with ⟨k, v'⟩
        cases v' with
        | const => rfl
        | of c a l =>
          by_cases hca : c = "Generator" ∧ a = g.name
          · obtain ⟨rfl, rfl⟩ := hca
            have hl : l ≠ .op "p" t := fun h => n (by rw [h])
            exact (put_self "Generator" g.name _ x l).trans (if_neg hl)
          · exact if_neg hca
      have hlin : lin (put "Generator" (gTan x g).name (shift g t v x) x) r.terms = lin x r.terms := by
        unfold lin
        congr 1
        exact List.map_congr_left (fun e he' => by rw [same e he'])
      have := h1.2 r hr
      unfold Con.holds at this ⊢
      rw [hlin]
      exact this)
    have h4 := shift_net (w := tangent w x) (g := gTan x g) (lam := lam) (x := x) ht ha v
    rw [worth_tan, worth_tan] at z2
    have e5 : shift (gTan x g) t v x = shift g t v x := rfl
    rw [e5] at h4
    rw [h4] at z2
    change _ = (weight w t * (g.costs.marginal t + 2 * g.costs.quadratic t * x (.of "Generator" g.name (.op "p" t))) - lam g.bus t * g.sign) *
      (v - x (.of "Generator" g.name (.op "p" t))) at z2
    rw [← z2]
    linarith
  rw [hp']
  constructor
  · intro h
    have := key _ (lims.1.trans lims.2) le_rfl
    have := nonneg_of_mul_nonneg_left this (sub_pos.mpr h)
    rw [mul_div_assoc', div_le_iff₀ hwt]
    linarith
  · intro h
    have := key _ le_rfl (lims.1.trans lims.2)
    have : weight w t * (g.costs.marginal t + 2 * g.costs.quadratic t * x (.of "Generator" g.name (.op "p" t))) - lam g.bus t * g.sign ≤ 0 := by
      by_contra hn
      push Not at hn
      have := mul_neg_of_pos_of_neg hn (sub_neg.mpr h)
      linarith
    rw [mul_div_assoc', le_div_iff₀ hwt]
    linarith

/-- Squares that sum up to nothing are nothing. -/
theorem squared_zero (h : ∀ t < w.len, 0 ≤ weight w t) {active : Nat → Bool} {q : Nat → F} (hq : ∀ t < w.len, 0 ≤ q t) {d : Nat → F} (hz : squared w active q d ≤ 0)
    {t : Nat} (ht : t < w.len) (ha : active t = true) (hpos : 0 < weight w t * q t) : d t = 0 := by
  have h1 : (if active t then weight w t * q t * d t ^ 2 else 0) ≤ squared w active q d := by
    unfold squared
    refine List.single_le_sum (fun a ha => ?_) _ (List.mem_map.mpr ⟨t, List.mem_range.mpr ht, rfl⟩)
    obtain ⟨s, hs, rfl⟩ := List.mem_map.mp ha
    have hs := List.mem_range.mp hs
    split_ifs
    · exact mul_nonneg (mul_nonneg (h s hs) (hq s hs)) (sq_nonneg _)
    · exact le_rfl
  rw [if_pos ha] at h1
  by_contra hn
  have := mul_pos hpos (pow_pos (abs_pos.mpr hn) 2)
  rw [sq_abs] at this
  linarith

theorem one_le {A : Type} (l : List A) (f : A → F) (h : ∀ a ∈ l, 0 ≤ f a) (a : A) (ha : a ∈ l) : f a ≤ (l.map f).sum := by
  refine List.single_le_sum (fun b hb => ?_) _ (List.mem_map_of_mem ha)
  obtain ⟨c, hc, rfl⟩ := List.mem_map.mp hb
  exact h c hc

theorem sum_least {A : Type} (l : List A) (f : A → F) (h : ∀ a ∈ l, 0 ≤ f a) : 0 ≤ (l.map f).sum :=
  List.sum_nonneg (fun b hb => by
    obtain ⟨c, hc, rfl⟩ := List.mem_map.mp hb
    exact h c hc)

/-- Where one more unit costs more than the last one, all plans with least costs do the same. -/
structure SameCourse (w : WNet F) (x z : WVar → F) : Prop where
  gens : ∀ g ∈ w.gens, ∀ t < w.len, g.unit.active t = true → 0 < weight w t * g.costs.quadratic t →
    x (.of "Generator" g.name (.op "p" t)) = z (.of "Generator" g.name (.op "p" t))
  links : ∀ g ∈ w.links, ∀ t < w.len, g.unit.active t = true → 0 < weight w t * g.costs.quadratic t →
    x (.of "Link" g.name (.op "p" t)) = z (.of "Link" g.name (.op "p" t))
  stores : ∀ g ∈ w.stores, ∀ t < w.len, g.storage.active t = true → 0 < weight w t * g.costs.quadratic t →
    x (.of "Store" g.name (.op "p" t)) = z (.of "Store" g.name (.op "p" t))
  units : ∀ g ∈ w.units, ∀ t < w.len, g.storage.active t = true → 0 < weight w t * g.costs.quadratic t →
    x (.of "StorageUnit" g.name (.op "p_dispatch" t)) = z (.of "StorageUnit" g.name (.op "p_dispatch" t))

theorem quad_course (hw : Sound w) (hq : Rising w) (hd : Orderly w) {other : List (Con WVar F)}
    (ho : ∀ r ∈ other, ∀ e ∈ r.terms, e.2 ≠ .const) {P : Program F} (hP : createModel w other = some P) {x z : WVar → F}
    (hx : Least w other (fun _ => True) x) (hz : Least w other (fun _ => True) z) : SameCourse w x z := by
  have h0 := quad_unique hw hq hd ho hP hx hz
  unfold squares at h0
  have n1 := fun g hg => squared_nonneg hq.weights (active := g.unit.active) (hq.gens g hg) (fun t => z (.of "Generator" g.name (.op "p" t)) - x (.of "Generator" g.name (.op "p" t)))
  have n2 := fun g hg => squared_nonneg hq.weights (active := g.unit.active) (hq.links g hg) (fun t => z (.of "Link" g.name (.op "p" t)) - x (.of "Link" g.name (.op "p" t)))
  have n3 := fun g hg => squared_nonneg hq.weights (active := g.storage.active) (hq.stores g hg) (fun t => z (.of "Store" g.name (.op "p" t)) - x (.of "Store" g.name (.op "p" t)))
  have n4 := fun g hg => squared_nonneg hq.weights (active := g.storage.active) (hq.units g hg) (fun t => z (.of "StorageUnit" g.name (.op "p_dispatch" t)) - x (.of "StorageUnit" g.name (.op "p_dispatch" t)))
  have s1 := sum_least _ _ n1
  have s2 := sum_least _ _ n2
  have s3 := sum_least _ _ n3
  have s4 := sum_least _ _ n4
  refine ⟨?_, ?_, ?_, ?_⟩
  · intro g hg t ht ha hpos
    have := one_le _ _ n1 g hg
    exact (sub_eq_zero.mp (squared_zero hq.weights (hq.gens g hg) (d := fun t => z (.of "Generator" g.name (.op "p" t)) - x (.of "Generator" g.name (.op "p" t))) (by linarith) ht ha hpos)).symm
  · intro g hg t ht ha hpos
    have := one_le _ _ n2 g hg
    exact (sub_eq_zero.mp (squared_zero hq.weights (hq.links g hg) (d := fun t => z (.of "Link" g.name (.op "p" t)) - x (.of "Link" g.name (.op "p" t))) (by linarith) ht ha hpos)).symm
  · intro g hg t ht ha hpos
    have := one_le _ _ n3 g hg
    exact (sub_eq_zero.mp (squared_zero hq.weights (hq.stores g hg) (d := fun t => z (.of "Store" g.name (.op "p" t)) - x (.of "Store" g.name (.op "p" t))) (by linarith) ht ha hpos)).symm
  · intro g hg t ht ha hpos
    have := one_le _ _ n4 g hg
    exact (sub_eq_zero.mp (squared_zero hq.weights (hq.units g hg) (d := fun t => z (.of "StorageUnit" g.name (.op "p_dispatch" t)) - x (.of "StorageUnit" g.name (.op "p_dispatch" t))) (by linarith) ht ha hpos)).symm

end

/-! ## Example: two generators, one bus -/

def flat : GenW ℚ := { cheap with costs := { cheap.costs with quadratic := fun _ => 1 / 2 } }
def steep : GenW ℚ := { dear with costs := { dear.costs with quadratic := fun _ => 1 / 4 } }

def bentNet : WNet ℚ := { twoNet 12 with gens := [flat, steep] }

def bentVal (v : WVar) : ℚ :=
  if v = .of "Generator" "cheap" (.op "p" 0) then 6 else if v = .of "Generator" "dear" (.op "p" 0) then 6 else 0

theorem bentSome : (createModel bentNet []).isSome = true := by decide +kernel
theorem bentSound : Sound bentNet := by constructor <;> decide +kernel
theorem bentEvents : Events bentNet := by constructor <;> decide +kernel
theorem bentRising : Rising bentNet := by
  constructor
  · intro t _
    simp only [weight, bentNet, twoNet, exNet]
    split_ifs <;> norm_num
  all_goals simp [bentNet, twoNet, flat, steep, cheap, dear]

theorem bentAnswered : Answered ((createModel bentNet []).get bentSome) bentVal (fun _ _ => 16) [0, 0, 0, 0, 0] where
  len := by decide +kernel
  answer := {
    feasible := by decide +kernel
    upper := by decide +kernel
    lower := by decide +kernel
    stationary := stationary_of _ _ [.of "Generator" "cheap" (.op "p" 0), .of "Generator" "dear" (.op "p" 0), .const] (by decide +kernel) (by decide +kernel) (by decide +kernel)
    noGap := by decide +kernel }

/-- Six from each of the generators has least costs. -/
theorem bentLeast : Least bentNet [] (fun _ => True) bentVal :=
  (answered_iff bentSound bentEvents bentRising (orderly_single rfl rfl) (by simp) (Option.some_get bentSome).symm bentVal).1 _ _ bentAnswered

/-- The price is 8 = 2 + 2 · 1/2 · 6 = 5 + 2 · 1/4 · 6, and nothing else costs as little. -/
example : busPrice bentNet 0 16 0 = 8 ∧ flat.costs.marginal 0 + 2 * flat.costs.quadratic 0 * bentVal (.of "Generator" "cheap" (.op "p" 0)) = 8 ∧
    steep.costs.marginal 0 + 2 * steep.costs.quadratic 0 * bentVal (.of "Generator" "dear" (.op "p" 0)) = 8 := by decide +kernel

example := quad_merit bentSound bentEvents (orderly_single rfl rfl) (by simp) (Option.some_get bentSome).symm bentAnswered 0 (g := flat) (by simp [bentNet])
  ⟨rfl, fun _ => ⟨rfl, rfl⟩⟩ ⟨rfl, rfl⟩ (t := 0) Nat.one_pos rfl rfl (by decide +kernel) (by simp)

example {z : WVar → ℚ} (hz : Least bentNet [] (fun _ => True) z) : bentVal (.of "Generator" "dear" (.op "p" 0)) = z (.of "Generator" "dear" (.op "p" 0)) :=
  (quad_course bentSound bentRising (orderly_single rfl rfl) (by simp) (Option.some_get bentSome).symm bentLeast hz).gens steep (by simp [bentNet]) 0 Nat.one_pos rfl
    (by decide +kernel)

example := (quad_welfare bentSound bentEvents bentRising (orderly_single rfl rfl) (Option.some_get bentSome).symm bentVal).mp bentLeast

/-- Two more. -/
def more : List (LoadW ℚ) := [⟨"A", -1, fun _ => 14, fun _ => true⟩]

example {z : WVar → ℚ} (hz : Plan { bentNet with loads := more } [] z) := quad_load bentSound bentEvents (orderly_single rfl rfl) (by simp)
  (Option.some_get bentSome).symm bentRising bentAnswered more hz

end Verif.Opt.Whole.Quad
