import Verif.Opt.TurnProps

/-!
# C124: networks that are not connected can be optimised together or one by one

About the whole problem of `Whole.lean`.  A network is joined with another one that has its own buses; nothing connects the two.
-/

namespace Verif.Opt.Whole

variable {F : Type} [Field F] [LinearOrder F]

/-- Another network: buses, assets and loads.  Snapshots, weightings and options are those of the first one. -/
structure Other (F : Type) extends More F where
  buses : List Name
  loads : List (LoadW F)

/-- Both networks in one. -/
def joined (w : WNet F) (p : Other F) : WNet F :=
  { w with buses := w.buses ++ p.buses, gens := w.gens ++ p.gens, links := w.links ++ p.links, stores := w.stores ++ p.stores,
           units := w.units ++ p.units, lines := w.lines ++ p.lines, trafos := w.trafos ++ p.trafos, loads := w.loads ++ p.loads }

/-- The other network alone. -/
def just (w : WNet F) (p : Other F) : WNet F :=
  { w with buses := p.buses, gens := p.gens, links := p.links, stores := p.stores, units := p.units, lines := p.lines,
           trafos := p.trafos, loads := p.loads }

/-- Nothing connects the two networks, and names are not used twice: both are sound, buses and names differ. -/
structure Separate (w : WNet F) (p : Other F) : Prop where
  left : Sound w
  right : Sound (just w p)
  buses : ∀ b ∈ w.buses, b ∉ p.buses
  gens : ∀ g ∈ w.gens, g.name ∉ p.gens.map (·.name)
  links : ∀ g ∈ w.links, g.name ∉ p.links.map (·.name)
  stores : ∀ g ∈ w.stores, g.name ∉ p.stores.map (·.name)
  units : ∀ g ∈ w.units, g.name ∉ p.units.map (·.name)
  lines : ∀ g ∈ w.lines, g.name ∉ p.lines.map (·.name)
  trafos : ∀ g ∈ w.trafos, g.name ∉ p.trafos.map (·.name)

theorem nodup_both {α : Type} {f : α → Name} {l k : List α} (h1 : (l.map f).Nodup) (h2 : (k.map f).Nodup)
    (h : ∀ g ∈ l, f g ∉ k.map f) : ((l ++ k).map f).Nodup := by
  rw [List.map_append, List.nodup_append]
  refine ⟨h1, h2, ?_⟩
  rintro a ha b hb rfl
  obtain ⟨g, hg, rfl⟩ := List.mem_map.mp ha
  exact h g hg hb

theorem sound_joined {w : WNet F} {p : Other F} (h : Separate w p) : Sound (joined w p) where
  noEmpty := by
    show "" ∉ w.buses ++ p.buses
    rw [List.mem_append]
    exact fun g => g.elim h.left.noEmpty h.right.noEmpty
  buses := by
    show (w.buses ++ p.buses).Nodup
    rw [List.nodup_append]
    exact ⟨h.left.buses, h.right.buses, fun a ha b hb e => h.buses a ha (e ▸ hb)⟩
  genBus := fun g hg => (List.mem_append.mp hg).elim (fun k => List.mem_append_left _ (h.left.genBus g k))
    (fun k => List.mem_append_right _ (h.right.genBus g k))
  storeBus := fun g hg => (List.mem_append.mp hg).elim (fun k => List.mem_append_left _ (h.left.storeBus g k))
    (fun k => List.mem_append_right _ (h.right.storeBus g k))
  unitBus := fun g hg => (List.mem_append.mp hg).elim (fun k => List.mem_append_left _ (h.left.unitBus g k))
    (fun k => List.mem_append_right _ (h.right.unitBus g k))
  loadBus := fun g hg => (List.mem_append.mp hg).elim (fun k => List.mem_append_left _ (h.left.loadBus g k))
    (fun k => List.mem_append_right _ (h.right.loadBus g k))
  lineBus := fun g hg => (List.mem_append.mp hg).elim
    (fun k => ⟨List.mem_append_left _ (h.left.lineBus g k).1, List.mem_append_left _ (h.left.lineBus g k).2⟩)
    (fun k => ⟨List.mem_append_right _ (h.right.lineBus g k).1, List.mem_append_right _ (h.right.lineBus g k).2⟩)
  trafoBus := fun g hg => (List.mem_append.mp hg).elim
    (fun k => ⟨List.mem_append_left _ (h.left.trafoBus g k).1, List.mem_append_left _ (h.left.trafoBus g k).2⟩)
    (fun k => ⟨List.mem_append_right _ (h.right.trafoBus g k).1, List.mem_append_right _ (h.right.trafoBus g k).2⟩)
  linkBus := fun g hg => (List.mem_append.mp hg).elim
    (fun k => ⟨List.mem_append_left _ (h.left.linkBus g k).1, List.mem_append_left _ (h.left.linkBus g k).2.1,
      fun e he => ((h.left.linkBus g k).2.2 e he).imp id (List.mem_append_left _)⟩)
    (fun k => ⟨List.mem_append_right _ (h.right.linkBus g k).1, List.mem_append_right _ (h.right.linkBus g k).2.1,
      fun e he => ((h.right.linkBus g k).2.2 e he).imp id (List.mem_append_right _)⟩)
  gens := nodup_both h.left.gens h.right.gens h.gens
  links := nodup_both h.left.links h.right.links h.links
  stores := nodup_both h.left.stores h.right.stores h.stores
  units := nodup_both h.left.units h.right.units h.units
  lines := nodup_both h.left.lines h.right.lines h.lines
  trafos := nodup_both h.left.trafos h.right.trafos h.trafos

/-! ## Rows of assets -/

theorem rampSkip_comm (us vs : List (Unit' F)) (T : Nat) : rampSkip (us ++ vs) T = rampSkip (vs ++ us) T := by
  unfold rampSkip
  simp only [List.all_append]
  rw [Bool.and_comm, Bool.and_comm (us.all fun u => (List.range T).all fun t => decide (u.rampUp t = some 1 ∧ u.rampDown t = some 1))]

theorem unitCons_right {us vs : List (Unit' F)} {T : Nat} (h : RampsStay vs T) {u : Unit' F} (hu : u ∈ vs) {rolling lin' : Bool} :
    unitCons (us ++ vs) u T rolling lin' = unitCons vs u T rolling lin' := by
  rw [← unitCons_more (vs := us) h hu]
  unfold unitCons rampCons
  rw [rampSkip_comm]

/-- Ramp limits of a class count in both networks or in none. -/
structure RampsBoth (w : WNet F) (p : Other F) : Prop where
  gens : RampsStay (w.gens.map (·.unit)) w.len ∧ RampsStay (p.gens.map (·.unit)) w.len
  links : RampsStay (w.links.map (·.unit)) w.len ∧ RampsStay (p.links.map (·.unit)) w.len

theorem genRows_joined {w : WNet F} {p : Other F} (h : RampsBoth w p) (g : GenW F) :
    (g ∈ w.gens → genRows (joined w p) g = genRows w g) ∧ (g ∈ p.gens → genRows (joined w p) g = genRows (just w p) g) := by
  have : ((joined w p).gens.map (·.unit)) = w.gens.map (·.unit) ++ p.gens.map (·.unit) := by simp [joined]
  constructor <;> intro hg <;> unfold genRows <;> rw [this]
  · change Option.map (fun cap => cap ++ (unitCons (w.gens.map (·.unit) ++ p.gens.map (·.unit)) g.unit w.len w.rolling w.linearized).map _ ++ _ ++ _ ++ _) _ = _
    rw [unitCons_more h.gens.1 (List.mem_map_of_mem hg)]
    rfl
  · change Option.map (fun cap => cap ++ (unitCons (w.gens.map (·.unit) ++ p.gens.map (·.unit)) g.unit w.len w.rolling w.linearized).map _ ++ _ ++ _ ++ _) _ = _
    rw [unitCons_right h.gens.2 (List.mem_map_of_mem hg)]
    rfl

theorem linkRows_joined {w : WNet F} {p : Other F} (h : RampsBoth w p) (g : LinkW F) :
    (g ∈ w.links → linkRows (joined w p) g = linkRows w g) ∧ (g ∈ p.links → linkRows (joined w p) g = linkRows (just w p) g) := by
  have : ((joined w p).links.map (·.unit)) = w.links.map (·.unit) ++ p.links.map (·.unit) := by simp [joined]
  constructor <;> intro hg <;> unfold linkRows <;> rw [this]
  · change Option.map (fun cap => cap ++ (unitCons (w.links.map (·.unit) ++ p.links.map (·.unit)) g.unit w.len w.rolling w.linearized).map _ ++ _ ++ _) _ = _
    rw [unitCons_more h.links.1 (List.mem_map_of_mem hg)]
    rfl
  · change Option.map (fun cap => cap ++ (unitCons (w.links.map (·.unit) ++ p.links.map (·.unit)) g.unit w.len w.rolling w.linearized).map _ ++ _ ++ _) _ = _
    rw [unitCons_right h.links.2 (List.mem_map_of_mem hg)]
    rfl

theorem assets_joined {w : WNet F} {p : Other F} (h : RampsBoth w p) (x : WVar → F) :
    AssetsHold (joined w p) x ↔ AssetsHold w x ∧ AssetsHold (just w p) x := by
  constructor
  · intro g
    refine ⟨⟨?_, ?_, ?_, ?_, ?_, ?_⟩, ⟨?_, ?_, ?_, ?_, ?_, ?_⟩⟩
    · exact fun a ha rs hr => g.gens a (List.mem_append_left _ ha) rs (by rw [(genRows_joined h a).1 ha, hr])
    · exact fun a ha rs hr => g.links a (List.mem_append_left _ ha) rs (by rw [(linkRows_joined h a).1 ha, hr])
    · exact fun a ha => g.stores a (List.mem_append_left _ ha)
    · exact fun a ha => g.units a (List.mem_append_left _ ha)
    · exact fun a ha => g.lines a (List.mem_append_left _ ha)
    · exact fun a ha => g.trafos a (List.mem_append_left _ ha)
    · exact fun a ha rs hr => g.gens a (List.mem_append_right _ ha) rs (by rw [(genRows_joined h a).2 ha, hr])
    · exact fun a ha rs hr => g.links a (List.mem_append_right _ ha) rs (by rw [(linkRows_joined h a).2 ha, hr])
    · exact fun a ha => g.stores a (List.mem_append_right _ ha)
    · exact fun a ha => g.units a (List.mem_append_right _ ha)
    · exact fun a ha => g.lines a (List.mem_append_right _ ha)
    · exact fun a ha => g.trafos a (List.mem_append_right _ ha)
  · rintro ⟨g1, g2⟩
    refine ⟨?_, ?_, ?_, ?_, ?_, ?_⟩ <;> intro a ha rs hr q hq <;> rcases List.mem_append.mp ha with hm | hm
    · exact g1.gens a hm rs (by rw [← (genRows_joined h a).1 hm, hr]) q hq
    · exact g2.gens a hm rs (by rw [← (genRows_joined h a).2 hm, hr]) q hq
    · exact g1.links a hm rs (by rw [← (linkRows_joined h a).1 hm, hr]) q hq
    · exact g2.links a hm rs (by rw [← (linkRows_joined h a).2 hm, hr]) q hq
    · exact g1.stores a hm rs hr q hq
    · exact g2.stores a hm rs hr q hq
    · exact g1.units a hm rs hr q hq
    · exact g2.units a hm rs hr q hq
    · exact g1.lines a hm rs hr q hq
    · exact g2.lines a hm rs hr q hq
    · exact g1.trafos a hm rs hr q hq
    · exact g2.trafos a hm rs hr q hq

/-! ## Balance and costs -/

theorem supply_joined (w : WNet F) (p : Other F) (t : Nat) (l : Bool) (val : Nodal.NVar → F) (b : Name) :
    Nodal.supplied (nodal (joined w p) t) l val b =
      Nodal.supplied (nodal w t) l val b + Nodal.supplied (nodal (just w p) t) l val b := by
  unfold Nodal.supplied nodal
  simp only [joined, just, List.map_append, List.sum_append]
  ring

theorem demand_joined (w : WNet F) (p : Other F) (t : Nat) (b : Name) :
    Nodal.demanded (nodal (joined w p) t) b = Nodal.demanded (nodal w t) b + Nodal.demanded (nodal (just w p) t) b := by
  unfold Nodal.demanded nodal
  simp only [joined, just, List.map_append, List.sum_append]

theorem balance_joined {w : WNet F} {p : Other F} (h : Separate w p) (x : WVar → F) :
    Balance (joined w p) x ↔ Balance w x ∧ Balance (just w p) x := by
  have h1 : ∀ t, ∀ b ∈ w.buses, (Nodal.supplied (nodal (joined w p) t) (w.tangents != 0) (fun v => x (nodalVar t v)) b =
      Nodal.demanded (nodal (joined w p) t) b ↔ Nodal.supplied (nodal w t) (w.tangents != 0) (fun v => x (nodalVar t v)) b =
      Nodal.demanded (nodal w t) b) := by
    intro t b hb
    have hn := supply_nothing h.right (h.buses b hb) (fun e => h.left.noEmpty (e ▸ hb)) t (w.tangents != 0) (fun v => x (nodalVar t v))
    rw [supply_joined, demand_joined, hn.1, hn.2, add_zero, add_zero]
  have h2 : ∀ t, ∀ b ∈ p.buses, (Nodal.supplied (nodal (joined w p) t) (w.tangents != 0) (fun v => x (nodalVar t v)) b =
      Nodal.demanded (nodal (joined w p) t) b ↔
      Nodal.supplied (nodal (just w p) t) (w.tangents != 0) (fun v => x (nodalVar t v)) b = Nodal.demanded (nodal (just w p) t) b) := by
    intro t b hb
    have hn := supply_nothing h.left (b := b) (fun g => h.buses b g hb) (fun e => h.right.noEmpty (e ▸ hb)) t (w.tangents != 0)
      (fun v => x (nodalVar t v))
    rw [supply_joined, demand_joined, hn.1, hn.2, zero_add, zero_add]
  constructor
  · intro g
    exact ⟨fun t ht b hb => (h1 t b hb).mp (g t ht b (List.mem_append_left _ hb)),
      fun t ht b hb => (h2 t b hb).mp (g t ht b (List.mem_append_right _ hb))⟩
  · rintro ⟨g1, g2⟩ t ht b hb
    rcases List.mem_append.mp hb with hb | hb
    · exact (h1 t b hb).mpr (g1 t ht b hb)
    · exact (h2 t b hb).mpr (g2 t ht b hb)

theorem cost_joined (w : WNet F) (p : Other F) (x : WVar → F) :
    totalCost (joined w p) x = totalCost w x + totalCost (just w p) x := by
  have e : totalCost (joined w p) x =
    ((w.gens ++ p.gens).map (fun g => genCost w g x)).sum + ((w.links ++ p.links).map (fun g => linkCost w g x)).sum +
    ((w.stores ++ p.stores).map (fun g => storeCost w g x)).sum + ((w.units ++ p.units).map (fun g => unitCost w g x)).sum +
    ((w.lines ++ p.lines).map (fun g => branchCost w "Line" g x)).sum +
    ((w.trafos ++ p.trafos).map (fun g => branchCost w "Transformer" g x)).sum := rfl
  have e2 : totalCost (just w p) x =
    (p.gens.map (fun g => genCost w g x)).sum + (p.links.map (fun g => linkCost w g x)).sum +
    (p.stores.map (fun g => storeCost w g x)).sum + (p.units.map (fun g => unitCost w g x)).sum +
    (p.lines.map (fun g => branchCost w "Line" g x)).sum +
    (p.trafos.map (fun g => branchCost w "Transformer" g x)).sum := rfl
  rw [e, e2]
  unfold totalCost
  simp only [List.map_append, List.sum_append]
  ring

/-! ## Points -/

/-- The point with another value of the constant. -/
def constSet (c : F) (x : WVar → F) (v : WVar) : F := if v = .const then c else x v

/-- Variables of the second network from `y`, all others from `x`. -/
def glue (p : Other F) (x y : WVar → F) (v : WVar) : F := if p.toMore.has v then y v else x v

theorem agree_const (w : WNet F) (c : F) (x : WVar → F) : Agree w x (constSet c x) := by
  constructor <;> intros <;> simp [constSet]

theorem agree_glue_left {w : WNet F} {p : Other F} (h : Separate w p) (x y : WVar → F) : Agree w x (glue p x y) := by
  have key : ∀ {α : Type} (f : α → Name) (l : List α) (a : Name), a ∉ l.map f → (l.map f).contains a = false := by
    intro α f l a ha
    rw [← Bool.not_eq_true, List.contains_iff_mem]
    exact ha
  constructor <;> intro g hg v <;> unfold glue <;> rw [has_of, if_neg]
  · rw [key _ _ _ (h.gens g hg)]; simp
  · rw [key _ _ _ (h.links g hg)]; simp
  · rw [key _ _ _ (h.stores g hg)]; simp
  · rw [key _ _ _ (h.units g hg)]; simp
  · rw [key _ _ _ (h.lines g hg)]; simp
  · rw [key _ _ _ (h.trafos g hg)]; simp

theorem agree_glue_right (w : WNet F) (p : Other F) (x y : WVar → F) : Agree (just w p) y (glue p x y) := by
  constructor <;> intro g hg v <;> unfold glue <;> rw [has_of, if_pos]
  all_goals
    simp [List.contains_iff_mem]
    exact ⟨g, hg, rfl⟩

/-- Further rows, such as limits on emissions or the voltage law, are about one of the two networks. -/
structure OthersApart (p : Other F) (o1 o2 : List (Con WVar F)) : Prop where
  left : ∀ r ∈ o1, ∀ e ∈ r.terms, e.2 ≠ .const ∧ p.toMore.has e.2 = false
  right : ∀ r ∈ o2, ∀ e ∈ r.terms, e.2 ≠ .const ∧ p.toMore.has e.2 = true

theorem feasible_agree {o : List (Con WVar F)} {x y : WVar → F} (h : ∀ r ∈ o, ∀ e ∈ r.terms, x e.2 = y e.2) :
    Feasible x o ↔ Feasible y o := by
  have : ∀ r ∈ o, lin x r.terms = lin y r.terms := by
    intro r hr
    unfold lin
    congr 1
    exact List.map_congr_left fun e he => by rw [h r hr e he]
  refine forall₂_congr fun r hr => ?_
  unfold Con.holds
  rw [this r hr]

theorem agree_symm {w : WNet F} {x y : WVar → F} (h : Agree w x y) : Agree w y x :=
  ⟨fun g hg v => (h.gens g hg v).symm, fun g hg v => (h.links g hg v).symm, fun g hg v => (h.stores g hg v).symm,
   fun g hg v => (h.units g hg v).symm, fun g hg v => (h.lines g hg v).symm, fun g hg v => (h.trafos g hg v).symm⟩

theorem hold_agree {w : WNet F} {x y : WVar → F} (h : Agree w y x) : AssetsHold w x ↔ AssetsHold w y :=
  ⟨assets_agree (agree_symm h), assets_agree h⟩

theorem bal_agree {w : WNet F} {x y : WVar → F} (h : Agree w y x) : Balance w x ↔ Balance w y := by
  unfold Balance
  simp only [supply_agree h]

theorem linear_left {w : WNet F} {p : Other F} (h : LinearCosts (joined w p)) : LinearCosts w where
  gens := fun g hg => h.gens g (List.mem_append_left _ hg)
  links := fun g hg => h.links g (List.mem_append_left _ hg)
  stores := fun g hg => h.stores g (List.mem_append_left _ hg)
  units := fun g hg => h.units g (List.mem_append_left _ hg)
  genEvents := fun g hg => h.genEvents g (List.mem_append_left _ hg)
  linkEvents := fun g hg => h.linkEvents g (List.mem_append_left _ hg)

theorem linear_right {w : WNet F} {p : Other F} (h : LinearCosts (joined w p)) : LinearCosts (just w p) where
  gens := fun g hg => h.gens g (List.mem_append_right _ hg)
  links := fun g hg => h.links g (List.mem_append_right _ hg)
  stores := fun g hg => h.stores g (List.mem_append_right _ hg)
  units := fun g hg => h.units g (List.mem_append_right _ hg)
  genEvents := fun g hg => h.genEvents g (List.mem_append_right _ hg)
  linkEvents := fun g hg => h.linkEvents g (List.mem_append_right _ hg)

/-- C124: a point is feasible for two networks that are not connected exactly if it is for each of them, and costs add up.  Missing:
ramp limits that are left out in one of the networks, see `joined_infeasible`. -/
theorem joined_feasible_partial [IsStrictOrderedRing F] {w : WNet F} {p : Other F} (h : Separate w p) (hr : RampsBoth w p)
    (hl : LinearCosts (joined w p)) {o1 o2 : List (Con WVar F)} (ho : OthersApart p o1 o2) {P P1 P2 : Program F}
    (hP : createModel (joined w p) (o1 ++ o2) = some P) (hP1 : createModel w o1 = some P1) (hP2 : createModel (just w p) o2 = some P2)
    (x : WVar → F) (hc : x .const = Objective.constant (objNet (joined w p))) :
    (FeasibleIn P x ↔ FeasibleIn P1 (constSet (Objective.constant (objNet w)) x) ∧
      FeasibleIn P2 (constSet (Objective.constant (objNet (just w p))) x)) ∧
    (FeasibleIn P x → costOf (joined w p) P x =
      costOf w P1 (constSet (Objective.constant (objNet w)) x) + costOf (just w p) P2 (constSet (Objective.constant (objNet (just w p))) x)) := by
  have hc1 : ∀ o : List (Con WVar F), (∀ r ∈ o, ∀ e ∈ r.terms, e.2 ≠ .const) → ∀ c, Feasible (constSet c x) o ↔ Feasible x o :=
    fun o g c => feasible_agree (fun r hr e he => by simp [constSet, g r hr e he])
  have hiff : FeasibleIn P x ↔ FeasibleIn P1 (constSet (Objective.constant (objNet w)) x) ∧
      FeasibleIn P2 (constSet (Objective.constant (objNet (just w p))) x) := by
    rw [feasible_iff (sound_joined h) hP, feasible_iff h.left hP1, feasible_iff h.right hP2, assets_joined hr, balance_joined h,
      feasible_append, hc1 o1 (fun r g e k => (ho.left r g e k).1), hc1 o2 (fun r g e k => (ho.right r g e k).1),
      hold_agree (agree_const w _ x), hold_agree (agree_const (just w p) _ x), bal_agree (agree_const w _ x),
      bal_agree (agree_const (just w p) _ x)]
    have e1 : constSet (Objective.constant (objNet w)) x .const = Objective.constant (objNet w) := by simp [constSet]
    have e2 : constSet (Objective.constant (objNet (just w p))) x .const = Objective.constant (objNet (just w p)) := by simp [constSet]
    simp only [hc, e1, e2, true_and]
    tauto
  refine ⟨hiff, fun hx => ?_⟩
  obtain ⟨h1, h2⟩ := hiff.mp hx
  rw [cost_total hl hP x hx, cost_total (linear_left hl) hP1 _ h1, cost_total (linear_right hl) hP2 _ h2, cost_joined,
    ← cost_agree (agree_const w _ x), ← cost_agree (agree_const (just w p) _ x)]

/-- So optima of the whole are optima of both parts. -/
theorem joined_cheapest_partial [IsStrictOrderedRing F] {w : WNet F} {p : Other F} (h : Separate w p) (hr : RampsBoth w p)
    (hl : LinearCosts (joined w p)) {o1 o2 : List (Con WVar F)} (ho : OthersApart p o1 o2) {P P1 P2 : Program F}
    (hP : createModel (joined w p) (o1 ++ o2) = some P) (hP1 : createModel w o1 = some P1) (hP2 : createModel (just w p) o2 = some P2)
    (x : WVar → F) (hc : x .const = Objective.constant (objNet (joined w p))) :
    Cheapest (joined w p) P x ↔ Cheapest w P1 (constSet (Objective.constant (objNet w)) x) ∧
      Cheapest (just w p) P2 (constSet (Objective.constant (objNet (just w p))) x) := by
  have main := fun z hz => joined_feasible_partial h hr hl ho hP hP1 hP2 z hz
  -- any two feasible points make a feasible point
  have both : ∀ z1 z2, FeasibleIn P1 z1 → FeasibleIn P2 z2 → ∃ z, FeasibleIn P z ∧
      costOf (joined w p) P z = costOf w P1 z1 + costOf (just w p) P2 z2 := by
    intro z1 z2 g1 g2
    have a1 := agree_glue_left h z1 z2
    have a2 := agree_glue_right w p z1 z2
    obtain ⟨k1, k2, -, k4⟩ := (feasible_iff h.left hP1 z1).mp g1
    obtain ⟨m1, m2, -, m4⟩ := (feasible_iff h.right hP2 z2).mp g2
    have hz : FeasibleIn P (constSet (Objective.constant (objNet (joined w p))) (glue p z1 z2)) := by
      rw [feasible_iff (sound_joined h) hP, assets_joined hr, balance_joined h, feasible_append]
      refine ⟨⟨?_, ?_⟩, ⟨?_, ?_⟩, by simp [constSet], ?_, ?_⟩
      · exact (hold_agree (agree_const w _ _)).mpr ((hold_agree a1).mpr k1)
      · exact (hold_agree (agree_const (just w p) _ _)).mpr ((hold_agree a2).mpr m1)
      · exact (bal_agree (agree_const w _ _)).mpr ((bal_agree a1).mpr k2)
      · exact (bal_agree (agree_const (just w p) _ _)).mpr ((bal_agree a2).mpr m2)
      · exact (feasible_agree (fun r hr e he => by simp [constSet, glue, ho.left r hr e he])).mp k4
      · exact (feasible_agree (fun r hr e he => by simp [constSet, glue, ho.right r hr e he])).mp m4
    refine ⟨_, hz, ?_⟩
    rw [cost_total hl hP _ hz, cost_total (linear_left hl) hP1 _ g1, cost_total (linear_right hl) hP2 _ g2, cost_joined,
      ← cost_agree (agree_const w _ _), ← cost_agree (agree_const (just w p) _ _), ← cost_agree a1, ← cost_agree a2]
  constructor
  · rintro ⟨hx, hmin⟩
    obtain ⟨h1, h2⟩ := (main x hc).1.mp hx
    have e := (main x hc).2 hx
    refine ⟨⟨h1, fun z hz => ?_⟩, ⟨h2, fun z hz => ?_⟩⟩
    · obtain ⟨y, hy, ey⟩ := both z _ hz h2
      have := hmin y hy
      rw [e, ey] at this
      exact le_of_add_le_add_right this
    · obtain ⟨y, hy, ey⟩ := both _ z h1 hz
      have := hmin y hy
      rw [e, ey] at this
      exact le_of_add_le_add_left this
  · rintro ⟨⟨h1, m1⟩, h2, m2⟩
    have hx := (main x hc).1.mpr ⟨h1, h2⟩
    refine ⟨hx, fun z hz => ?_⟩
    have hzc := ((feasible_iff (sound_joined h) hP z).mp hz).2.2.1
    obtain ⟨g1, g2⟩ := (main z hzc).1.mp hz
    rw [(main x hc).2 hx, (main z hzc).2 hz]
    exact add_le_add (m1 _ g1) (m2 _ g2)

/-- Costs of the optimum are the sum of both. -/
theorem joined_optimum_partial [IsStrictOrderedRing F] {w : WNet F} {p : Other F} (h : Separate w p) (hr : RampsBoth w p)
    (hl : LinearCosts (joined w p)) {o1 o2 : List (Con WVar F)} (ho : OthersApart p o1 o2) {P P1 P2 : Program F}
    (hP : createModel (joined w p) (o1 ++ o2) = some P) (hP1 : createModel w o1 = some P1) (hP2 : createModel (just w p) o2 = some P2)
    (x x1 x2 : WVar → F) (hx : Cheapest (joined w p) P x) (h1 : Cheapest w P1 x1) (h2 : Cheapest (just w p) P2 x2) :
    costOf (joined w p) P x = costOf w P1 x1 + costOf (just w p) P2 x2 := by
  have hc := ((feasible_iff (sound_joined h) hP x).mp hx.1).2.2.1
  obtain ⟨g1, g2⟩ := (joined_cheapest_partial h hr hl ho hP hP1 hP2 x hc).mp hx
  rw [(joined_feasible_partial h hr hl ho hP hP1 hP2 x hc).2 hx.1]
  exact congrArg₂ _ (le_antisymm (g1.2 _ h1.1) (h1.2 _ g1.1)) (le_antisymm (g2.2 _ h2.1) (h2.2 _ g2.1))

/-! ## Setting up the problem -/

section setup
open Nodal

theorem places_joined (w : WNet F) (p : Other F) (t : Nat) (l : Bool) (q : Name × Bool) :
    q ∈ places (nodal (joined w p) t) l ↔ q ∈ places (nodal w t) l ∨ q ∈ places (nodal (just w p) t) l := by
  unfold places entries nodal
  cases l <;> simp only [joined, just, List.map_append, List.flatMap_append, List.mem_append, Bool.false_eq_true, if_false, if_true,
    List.append_nil] <;> tauto

theorem refs_joined (w : WNet F) (p : Other F) (t : Nat) (b : Name) :
    (busRefs (nodal (joined w p) t)).count b = (busRefs (nodal w t)).count b + (busRefs (nodal (just w p) t)).count b := by
  unfold busRefs nodal
  simp only [joined, just, List.map_append, List.flatMap_append, List.filter_append, List.count_append]
  omega

/-- When the balance can be set up. -/
structure BalanceOk (n : Nodal.Net F) (l : Bool) (k : Nat) : Prop where
  loads : ∀ b ∈ n.buses, (b, true) ∉ places n l → loadAt n b = 0
  weak : (∃ b ∈ n.buses, b ∉ meshed n k) → ∃ q ∈ places n l, q.1 ∈ n.buses ∧ q.1 ∉ meshed n k
  strong : (∃ b, b ∈ meshed n k) → ∃ q ∈ places n l, q.1 ∈ meshed n k
  some : ∃ q ∈ places n l, q.1 ∈ n.buses

theorem balanceOk_iff (n : Nodal.Net F) (l : Bool) (k : Nat) (hm : ∀ b ∈ busRefs n, b ∈ n.buses) :
    (createBalance n l k).toOption.isSome = true ↔ BalanceOk n l k := by
  have hmb : ∀ b ∈ meshed n k, b ∈ n.buses := fun b hb => hm b ((mem_meshed n k b).mp hb).1
  rw [createBalance_some, balance_ok, balance_ok, balance_ok]
  simp only [List.mem_filter, List.contains_eq_mem, Bool.not_eq_true', decide_eq_false_iff_not]
  by_cases hb : (∃ b, b ∈ meshed n k) ∧ ∃ b ∈ n.buses, b ∉ meshed n k
  · rw [imp_iff_right hb, and_iff_left (fun g => absurd hb g)]
    constructor
    · rintro ⟨⟨⟨q, h1, h2⟩, h3⟩, ⟨r, h4, h5⟩, h6⟩
      refine ⟨fun b hb' hp => ?_, fun _ => ⟨q, h1, h2⟩, fun _ => ⟨r, h4, h5⟩, ⟨q, h1, h2.1⟩⟩
      by_cases hbm : b ∈ meshed n k
      · exact h6 b hbm hp
      · exact h3 b ⟨hb', hbm⟩ hp
    · intro h
      exact ⟨⟨h.weak hb.2, fun b hb' => h.loads b hb'.1⟩, h.strong hb.1, fun b hb' => h.loads b (hmb b hb')⟩
  · rw [and_iff_right (fun g => absurd g hb), imp_iff_right hb]
    constructor
    · rintro ⟨⟨q, h1, h2⟩, h3⟩
      refine ⟨h3, fun hw => ⟨q, h1, h2, fun hq => hb ⟨⟨_, hq⟩, hw⟩⟩, fun hs => ⟨q, h1, ?_⟩, ⟨q, h1, h2⟩⟩
      by_contra hq
      exact hb ⟨hs, _, h2, hq⟩
    · exact fun h => ⟨h.some, h.loads⟩

theorem count_zero {w : WNet F} (hw : Sound w) {b : Name} (hb : b ∉ w.buses) (t : Nat) : (busRefs (nodal w t)).count b = 0 :=
  List.count_eq_zero.mpr fun h => hb (refs_known hw t b h)

theorem mesh_iff (n : Nodal.Net F) (k : Nat) (b : Name) : b ∈ meshed n k ↔ 0 < (busRefs n).count b ∧ k < (busRefs n).count b := by
  rw [mem_meshed, List.count_pos_iff]

theorem mesh_joined {w : WNet F} {p : Other F} (h : Separate w p) (t k : Nat) (b : Name) :
    (b ∈ w.buses → (b ∈ meshed (nodal (joined w p) t) k ↔ b ∈ meshed (nodal w t) k)) ∧
    (b ∈ p.buses → (b ∈ meshed (nodal (joined w p) t) k ↔ b ∈ meshed (nodal (just w p) t) k)) := by
  constructor <;> intro hb <;> rw [mesh_iff, mesh_iff, refs_joined]
  · rw [count_zero h.right (h.buses b hb), add_zero]
  · rw [count_zero h.left (fun g => h.buses b g hb), zero_add]

theorem balance_set_up {w : WNet F} {p : Other F} (h : Separate w p) (t : Nat) {l : Bool} {k : Nat}
    (h1 : (createBalance (nodal w t) l k).toOption.isSome = true) (h2 : (createBalance (nodal (just w p) t) l k).toOption.isSome = true) :
    (createBalance (nodal (joined w p) t) l k).toOption.isSome = true := by
  rw [balanceOk_iff _ _ _ (refs_known h.left t)] at h1
  rw [balanceOk_iff _ _ _ (refs_known h.right t)] at h2
  rw [balanceOk_iff _ _ _ (refs_known (sound_joined h) t)]
  have hp1 : ∀ q, q ∈ places (nodal w t) l → q ∈ places (nodal (joined w p) t) l := fun q hq => (places_joined w p t l q).mpr (.inl hq)
  have hp2 : ∀ q, q ∈ places (nodal (just w p) t) l → q ∈ places (nodal (joined w p) t) l :=
    fun q hq => (places_joined w p t l q).mpr (.inr hq)
  refine ⟨?_, ?_, ?_, ?_⟩
  · intro b hb hn
    rw [loadAt_eq, demand_joined]
    rcases List.mem_append.mp hb with hb | hb
    · rw [← loadAt_eq, h1.loads b hb (fun g => hn (hp1 _ g)),
        (supply_nothing h.right (h.buses b hb) (fun e => h.left.noEmpty (e ▸ hb)) t l (fun _ => 0)).2, add_zero]
    · rw [← loadAt_eq (nodal (just w p) t), h2.loads b hb (fun g => hn (hp2 _ g)),
        (supply_nothing h.left (b := b) (fun g => h.buses b g hb) (fun e => h.right.noEmpty (e ▸ hb)) t l (fun _ => 0)).2, zero_add]
  · rintro ⟨b, hb, hn⟩
    rcases List.mem_append.mp hb with hb | hb
    · obtain ⟨q, g1, g2, g3⟩ := h1.weak ⟨b, hb, fun g => hn (((mesh_joined h t k b).1 hb).mpr g)⟩
      exact ⟨q, hp1 q g1, List.mem_append_left _ g2, fun g => g3 (((mesh_joined h t k _).1 g2).mp g)⟩
    · obtain ⟨q, g1, g2, g3⟩ := h2.weak ⟨b, hb, fun g => hn (((mesh_joined h t k b).2 hb).mpr g)⟩
      exact ⟨q, hp2 q g1, List.mem_append_right _ g2, fun g => g3 (((mesh_joined h t k _).2 g2).mp g)⟩
  · rintro ⟨b, hm⟩
    have hb : b ∈ (nodal (joined w p) t).buses := refs_known (sound_joined h) t b ((mem_meshed _ _ _).mp hm).1
    rcases List.mem_append.mp hb with hb | hb
    · obtain ⟨q, g1, g2⟩ := h1.strong ⟨b, ((mesh_joined h t k b).1 hb).mp hm⟩
      have hq : q.1 ∈ w.buses := refs_known h.left t _ ((mem_meshed _ _ _).mp g2).1
      exact ⟨q, hp1 q g1, ((mesh_joined h t k _).1 hq).mpr g2⟩
    · obtain ⟨q, g1, g2⟩ := h2.strong ⟨b, ((mesh_joined h t k b).2 hb).mp hm⟩
      have hq : q.1 ∈ p.buses := refs_known h.right t _ ((mem_meshed _ _ _).mp g2).1
      exact ⟨q, hp2 q g1, ((mesh_joined h t k _).2 hq).mpr g2⟩
  · obtain ⟨q, g1, g2⟩ := h1.some
    exact ⟨q, hp1 q g1, List.mem_append_left _ g2⟩

end setup

section objective
open Objective

theorem assets_both (w : WNet F) (p : Other F) (c : Name) (a : Objective.Asset F) :
    a ∈ (objNet (joined w p)).assets c ↔ a ∈ (objNet w).assets c ∨ a ∈ (objNet (just w p)).assets c := by
  unfold objNet objAssets
  simp only [joined, just]
  split_ifs <;> simp [or_and_right, exists_or]

theorem costType_nil (n : Objective.Net F) (flag : Row → Bool) (cost : Objective.Asset F → Nat → F) :
    (costType n flag cost).isEmpty = true ↔ ∀ r ∈ table, flag r = true → ∀ a ∈ n.assets r.comp, ∀ t ∈ n.sns, cost a t = 0 := by
  unfold costType costly
  simp only [List.isEmpty_iff, List.map_eq_nil_iff, List.filter_eq_nil_iff, List.mem_filter, Bool.not_eq_true', and_imp]
  refine forall₃_congr fun r _ _ => ?_
  simp [List.isEmpty_iff, List.filter_eq_nil_iff]

theorem standBy_nil (n : Objective.Net F) : (standByTerms n).isEmpty = true ↔
    ∀ c, c = "Generator" ∨ c = "Link" → ∀ a ∈ n.assets c, a.com = false := by
  unfold standByTerms
  simp [List.isEmpty_iff, List.filter_eq_nil_iff]

theorem invest_nil (n : Objective.Net F) : (investTerms n).isEmpty = true ↔ ∀ c ∈ nominalAttrs, ∀ a ∈ n.assets c.1, a.ext = false := by
  unfold investTerms
  simp [List.isEmpty_iff, List.filter_eq_nil_iff]

/-- There are no costs at all. -/
structure NoCosts (n : Objective.Net F) : Prop where
  marginal : ∀ r ∈ table, r.marginal = true → ∀ a ∈ n.assets r.comp, ∀ t ∈ n.sns, a.marginal t = 0
  storage : ∀ r ∈ table, r.storage = true → ∀ a ∈ n.assets r.comp, ∀ t ∈ n.sns, a.marginalStorage t = 0
  spill : ∀ r ∈ table, r.spill = true → ∀ a ∈ n.assets r.comp, ∀ t ∈ n.sns, a.spillCost t = 0
  quadratic : ∀ r ∈ table, r.quadratic = true → ∀ a ∈ n.assets r.comp, ∀ t ∈ n.sns, a.quadratic t = 0
  com : ∀ c, c = "Generator" ∨ c = "Link" → ∀ a ∈ n.assets c, a.com = false
  ext : ∀ c ∈ nominalAttrs, ∀ a ∈ n.assets c.1, a.ext = false

theorem empty_both {α : Type} (l k : List α) : (l ++ k).isEmpty = true ↔ l.isEmpty = true ∧ k.isEmpty = true := by
  simp [List.isEmpty_iff]

theorem noCosts_iff (n : Objective.Net F) : ((constTerms n ++ costType n (·.marginal) Asset.marginal ++
      costType n (·.storage) Asset.marginalStorage ++ costType n (·.spill) Asset.spillCost ++
      standByTerms n ++ investTerms n ++ eventTerms n).isEmpty && (costType n (·.quadratic) Asset.quadratic).isEmpty) = true ↔ NoCosts n := by
  simp only [Bool.and_eq_true, empty_both, costType_nil, standBy_nil, invest_nil]
  constructor
  · rintro ⟨⟨⟨⟨⟨⟨⟨-, h1⟩, h2⟩, h3⟩, h4⟩, h5⟩, -⟩, h6⟩
    exact ⟨h1, h2, h3, h6, h4, h5⟩
  · intro h
    refine ⟨⟨⟨⟨⟨⟨⟨?_, h.marginal⟩, h.storage⟩, h.spill⟩, h.com⟩, h.ext⟩, ?_⟩, h.quadratic⟩
    · have : constant n = 0 := by
        unfold constant
        refine List.sum_eq_zero fun y hy => ?_
        obtain ⟨c, hc, rfl⟩ := List.mem_map.mp hy
        rw [List.filter_eq_nil_iff.mpr fun a ha => by simp [h.ext c hc a ha]]
        rfl
      simp [constTerms, this]
    · unfold eventTerms
      rw [List.isEmpty_iff, List.map_eq_nil_iff, List.filter_eq_nil_iff]
      intro r hr
      have hc : r.comp = "Generator" ∨ r.comp = "Link" := by
        obtain ⟨hr, hv⟩ := List.mem_filter.mp hr
        have key : ∀ r ∈ table, (r.var == "start_up" || r.var == "shut_down") = true → r.comp = "Generator" ∨ r.comp = "Link" := by
          decide +kernel
        exact key r hr hv
      rw [List.filter_eq_nil_iff.mpr fun a ha => by simp [h.com _ hc a ha]]
      simp

theorem objective_some (n : Objective.Net F) : (objective n).toOption.isSome = true ↔
    ((∀ r ∈ table, r.spill = true → ∀ a ∈ n.assets r.comp, ∀ t ∈ n.sns, a.spillCost t = 0) ∨
      ∃ a ∈ n.assets "StorageUnit", ∃ t ∈ n.sns, 0 < a.inflow t) ∧ ¬ NoCosts n := by
  have h1 : ((costType n (·.spill) Asset.spillCost).isEmpty || spillDefined n) = true ↔
      ((∀ r ∈ table, r.spill = true → ∀ a ∈ n.assets r.comp, ∀ t ∈ n.sns, a.spillCost t = 0) ∨
      ∃ a ∈ n.assets "StorageUnit", ∃ t ∈ n.sns, 0 < a.inflow t) := by
    rw [Bool.or_eq_true, costType_nil]
    simp [spillDefined]
  rw [← h1, ← noCosts_iff]
  unfold objective
  by_cases g1 : ((costType n (·.spill) Asset.spillCost).isEmpty || spillDefined n) = true
  · rw [if_pos g1]
    simp only [g1, true_and]
    split
    · rename_i g; simp only [g]; simp [Except.toOption]
    · rename_i g; simp only [g]; simp [Except.toOption]
  · rw [if_neg g1]
    simp only [g1]
    simp [Except.toOption]

theorem objective_set_up (w : WNet F) (p : Other F) (h1 : (objective (objNet w)).toOption.isSome = true)
    (h2 : (objective (objNet (just w p))).toOption.isSome = true) : (objective (objNet (joined w p))).toOption.isSome = true := by
  rw [objective_some] at h1 h2 ⊢
  constructor
  · rcases h1.1 with g1 | ⟨a, g1, t, ht, g2⟩
    · rcases h2.1 with g2 | ⟨a, g2, t, ht, g3⟩
      · left
        intro r hr hs a ha t ht
        rcases (assets_both w p _ a).mp ha with ha | ha
        · exact g1 r hr hs a ha t ht
        · exact g2 r hr hs a ha t ht
      · exact .inr ⟨a, (assets_both w p _ a).mpr (.inr g2), t, ht, g3⟩
    · exact .inr ⟨a, (assets_both w p _ a).mpr (.inl g1), t, ht, g2⟩
  · intro g
    refine h1.2 ⟨?_, ?_, ?_, ?_, ?_, ?_⟩
    · exact fun r hr hs a ha => g.marginal r hr hs a ((assets_both w p _ a).mpr (.inl ha))
    · exact fun r hr hs a ha => g.storage r hr hs a ((assets_both w p _ a).mpr (.inl ha))
    · exact fun r hr hs a ha => g.spill r hr hs a ((assets_both w p _ a).mpr (.inl ha))
    · exact fun r hr hs a ha => g.quadratic r hr hs a ((assets_both w p _ a).mpr (.inl ha))
    · exact fun c hc a ha => g.com c hc a ((assets_both w p _ a).mpr (.inl ha))
    · exact fun c hc a ha => g.ext c hc a ((assets_both w p _ a).mpr (.inl ha))

end objective

/-- C124: if both problems can be set up, the problem of both networks can. -/
theorem joined_set_up {w : WNet F} {p : Other F} (h : Separate w p) (hr : RampsBoth w p) (o1 o2 o : List (Con WVar F))
    (h1 : (createModel w o1).isSome = true) (h2 : (createModel (just w p) o2).isSome = true) :
    (createModel (joined w p) o).isSome = true := by
  have parts : ∀ (v : WNet F) (o : List (Con WVar F)), (createModel v o).isSome = true ↔
      (ownRows v).isSome = true ∧ (balanceRows v).isSome = true ∧ (Objective.objective (objNet v)).toOption.isSome = true := by
    intro v o
    unfold createModel
    cases ownRows v <;> cases balanceRows v <;> simp
  rw [parts] at h1 h2 ⊢
  refine ⟨?_, ?_, objective_set_up w p h1.2.2 h2.2.2⟩
  · obtain ⟨g1, -⟩ := h1
    obtain ⟨g2, -⟩ := h2
    rw [ownRows_some] at g1 g2 ⊢
    refine ⟨?_, ?_, ?_, ?_, ?_, ?_⟩ <;> intro a ha <;> rcases List.mem_append.mp ha with hm | hm
    · rw [(genRows_joined hr a).1 hm]; exact g1.1 a hm
    · rw [(genRows_joined hr a).2 hm]; exact g2.1 a hm
    · rw [(linkRows_joined hr a).1 hm]; exact g1.2.1 a hm
    · rw [(linkRows_joined hr a).2 hm]; exact g2.2.1 a hm
    · exact g1.2.2.1 a hm
    · exact g2.2.2.1 a hm
    · exact g1.2.2.2.1 a hm
    · exact g2.2.2.2.1 a hm
    · exact g1.2.2.2.2.1 a hm
    · exact g2.2.2.2.2.1 a hm
    · exact g1.2.2.2.2.2 a hm
    · exact g2.2.2.2.2.2 a hm
  · obtain ⟨-, g1, -⟩ := h1
    obtain ⟨-, g2, -⟩ := h2
    unfold balanceRows at g1 g2 ⊢
    rw [Option.isSome_map, mapM_isSome, List.all_eq_true] at g1 g2 ⊢
    intro t ht
    have k1 := g1 t ht
    have k2 := g2 t ht
    rw [Option.isSome_map] at k1 k2 ⊢
    exact balance_set_up h t k1 k2

/-! ## Examples -/

/-- An island with wind and a heat pump. -/
def exIsland : Other ℚ where
  gens := [⟨"turbine", "I", 1, exUnit' true 1, exInvest 4, exCosts (1 / 2) 0, fun _ => none, none, some 40⟩]
  links := [⟨"heat pump", "I", "H", fun _ => 3, [], exUnit' false 5, exInvest 3, exCosts 1 0, fun _ => none⟩]
  stores := [⟨"heat tank", "H", 1, exStorage, true, 0, fun _ => 0, fun _ => 1, exInvest 2, exCosts 0 0, fun _ => none⟩]
  units := []
  lines := []
  trafos := []
  buses := ["I", "H"]
  loads := [⟨"H", -1, fun t => if t = 0 then 6 else 3, fun _ => true⟩]

def exIslandRow : Con WVar ℚ := ⟨[(1, .of "Generator" "turbine" (.op "p" 0))], .le, 10⟩

theorem exIsland_separate : Separate exNet exIsland := by
  constructor
  case left => constructor <;> decide +kernel
  case right => constructor <;> decide +kernel
  all_goals decide +kernel

theorem exIsland_ramps : RampsBoth exNet exIsland :=
  ⟨⟨Or.inl (by simp [exNet, exGen, exPeaker, exUnit']), Or.inl (by simp [exIsland, exUnit'])⟩,
   ⟨Or.inl (by simp [exNet, exLink, exUnit']), Or.inl (by simp [exIsland, exUnit'])⟩⟩

theorem exIsland_linear : LinearCosts (joined exNet exIsland) := by
  constructor
  · intro g hg t; simp [exNet, joined, exIsland] at hg; rcases hg with rfl | rfl | rfl <;> rfl
  · intro g hg t; simp [exNet, joined, exIsland] at hg; rcases hg with rfl | rfl <;> rfl
  · intro g hg t; simp [exNet, joined, exIsland] at hg; rcases hg with rfl | rfl <;> rfl
  · intro g hg t; simp [exNet, joined, exIsland] at hg; rcases hg with rfl <;> rfl
  · decide +kernel
  · decide +kernel

theorem exIsland_apart : OthersApart exIsland exOther [exIslandRow] := by
  constructor <;> decide +kernel

theorem exIsland_some : (createModel (just exNet exIsland) [exIslandRow]).isSome = true := by decide +kernel

/-- The network of `WholeExample.lean` and the island: both together can be set up, and costs of the optima add up. -/
example : ∃ P, createModel (joined exNet exIsland) (exOther ++ [exIslandRow]) = some P ∧
    ∀ x x1 x2, Cheapest (joined exNet exIsland) P x → Cheapest exNet exModel x1 →
      Cheapest (just exNet exIsland) ((createModel (just exNet exIsland) [exIslandRow]).get exIsland_some) x2 →
      costOf (joined exNet exIsland) P x = costOf exNet exModel x1 +
        costOf (just exNet exIsland) ((createModel (just exNet exIsland) [exIslandRow]).get exIsland_some) x2 := by
  have h : (createModel (joined exNet exIsland) (exOther ++ [exIslandRow])).isSome = true :=
    joined_set_up exIsland_separate exIsland_ramps exOther [exIslandRow] _ (by rw [exModel_eq]; rfl) exIsland_some
  refine ⟨_, (Option.some_get h).symm, fun x x1 x2 hx h1 h2 => ?_⟩
  exact joined_optimum_partial exIsland_separate exIsland_ramps exIsland_linear exIsland_apart (Option.some_get h).symm exModel_eq
    (Option.some_get exIsland_some).symm x x1 x2 hx h1 h2

/-- Another network, whose link has no ramp limits. -/
def faraway : Other ℚ where
  gens := [⟨"c", "C", 1, swingUnit 10 (fun _ => 0) (fun _ => 1) none, exInvest 0, exCosts 1 0, fun _ => none, none, none⟩]
  links := [⟨"cable", "C", "E", fun _ => 1, [], swingUnit 10 (fun _ => 0) (fun _ => 1) none, exInvest 0, exCosts 0 0, fun _ => none⟩]
  stores := []
  units := []
  lines := []
  trafos := []
  buses := ["C", "E"]
  loads := [⟨"E", -1, fun _ => 1, fun _ => true⟩]

def farVal : WVar → ℚ
  | .of "Generator" "c" (.op "p" _) => 1
  | .of "Link" "cable" (.op "p" _) => 1
  | _ => 0

theorem far_some : (createModel (just swing faraway) []).isSome = true := by decide +kernel
theorem swing_far_some : (createModel (joined swing faraway) []).isSome = true := by decide +kernel

/-- Finding (C124): each of two networks can be run alone, but not both in one network though nothing connects them: with the links of
the second network, which have no ramp limits, the limits of the first one begin to count. -/
theorem joined_infeasible : Separate swing faraway ∧ FeasibleIn ((createModel swing []).get swing_some) swingVal ∧
    FeasibleIn ((createModel (just swing faraway) []).get far_some) farVal ∧
    ∀ y, ¬ FeasibleIn ((createModel (joined swing faraway) []).get swing_far_some) y := by
  refine ⟨?_, ⟨by decide +kernel, by decide +kernel⟩, ⟨by decide +kernel, by decide +kernel⟩, ?_⟩
  · constructor
    case left => constructor <;> decide +kernel
    case right => constructor <;> decide +kernel
    all_goals decide +kernel
  · rintro y ⟨hr, hb⟩
    have b0 := hb ⟨[(1, .of "Generator" "b" (.op "p" 0)), (1, .of "Link" "link" (.op "p" 0))], .eq, 10⟩ (by decide +kernel)
    have a1 := hb ⟨[(1, .of "Generator" "a" (.op "p" 1)), (-1, .of "Link" "link" (.op "p" 1))], .eq, 10⟩ (by decide +kernel)
    have ga := hr ⟨[(1, .of "Generator" "a" (.op "p" 1))], .le, 0⟩ (by decide +kernel)
    have gb := hr ⟨[(1, .of "Generator" "b" (.op "p" 0))], .le, 0⟩ (by decide +kernel)
    have r := hr ⟨[(1, .of "Link" "link" (.op "p" 1)), (-1, .of "Link" "link" (.op "p" 0))], .ge, -10⟩ (by decide +kernel)
    simp [Con.holds, lin] at b0 a1 ga gb r
    linarith

end Verif.Opt.Whole
