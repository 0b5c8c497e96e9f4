import Verif.Opt.OffProps

/-!
# C122: a storage unit is the same as a store behind two links

About the whole problem of `Whole.lean`.  The documentation (`doc/user-guide/components.rst` 191-229) says that stores, buses
and links are the components of which storage units can be built.
-/

namespace Verif.Opt.Whole

variable {F : Type} [Field F] [LinearOrder F]

/-! ## A network and assets added to it -/

/-- Two points agree on the variables of all assets of a network. -/
structure Agree (w : WNet F) (x y : WVar → F) : Prop where
  gens : ∀ g ∈ w.gens, ∀ v, x (.of "Generator" g.name v) = y (.of "Generator" g.name v)
  links : ∀ g ∈ w.links, ∀ v, x (.of "Link" g.name v) = y (.of "Link" g.name v)
  stores : ∀ g ∈ w.stores, ∀ v, x (.of "Store" g.name v) = y (.of "Store" g.name v)
  units : ∀ g ∈ w.units, ∀ v, x (.of "StorageUnit" g.name v) = y (.of "StorageUnit" g.name v)
  lines : ∀ g ∈ w.lines, ∀ v, x (.of "Line" g.name v) = y (.of "Line" g.name v)
  trafos : ∀ g ∈ w.trafos, ∀ v, x (.of "Transformer" g.name v) = y (.of "Transformer" g.name v)

theorem assets_agree {w : WNet F} {x y : WVar → F} (h : Agree w x y) (hx : AssetsHold w x) : AssetsHold w y :=
  ⟨fun g hg rs hrs q hq => holds_congr (h.gens g hg) q (hx.gens g hg rs hrs q hq),
   fun g hg rs hrs q hq => holds_congr (h.links g hg) q (hx.links g hg rs hrs q hq),
   fun g hg rs hrs q hq => holds_congr (h.stores g hg) q (hx.stores g hg rs hrs q hq),
   fun g hg rs hrs q hq => holds_congr (h.units g hg) q (hx.units g hg rs hrs q hq),
   fun g hg rs hrs q hq => holds_congr (h.lines g hg) q (hx.lines g hg rs hrs q hq),
   fun g hg rs hrs q hq => holds_congr (h.trafos g hg) q (hx.trafos g hg rs hrs q hq)⟩

theorem supply_agree {w : WNet F} {x y : WVar → F} (h : Agree w x y) (t : Nat) (l : Bool) (b : Name) :
    Nodal.supplied (nodal w t) l (fun v => x (nodalVar t v)) b = Nodal.supplied (nodal w t) l (fun v => y (nodalVar t v)) b := by
  unfold Nodal.supplied nodal
  simp only [List.map_map, Function.comp_def, nodalVar]
  congr 1; congr 1; congr 1; congr 1; congr 1
  all_goals
    congr 1
    apply List.map_congr_left
    intro g hg
  all_goals first
    | (simp only [h.gens g hg]; done)
    | (simp only [h.stores g hg]; done)
    | (simp only [h.units g hg]; done)
    | (simp only [h.lines g hg]; done)
    | (simp only [h.trafos g hg]; done)
    | (simp only [h.links g hg]; done)

theorem cost_agree {w : WNet F} {x y : WVar → F} (h : Agree w x y) : totalCost w x = totalCost w y := by
  unfold totalCost
  congr 1; congr 1; congr 1; congr 1; congr 1
  all_goals
    congr 1
    apply List.map_congr_left
    intro g hg
  · simp only [genCost, h.gens g hg]
  · simp only [linkCost, h.links g hg]
  · simp only [storeCost, h.stores g hg]
  · simp only [unitCost, h.units g hg]
  · simp only [branchCost, h.lines g hg]
  · simp only [branchCost, h.trafos g hg]

/-- The added assets alone. -/
def alone (w : WNet F) (m : More F) : WNet F :=
  { w with gens := m.gens, links := m.links, stores := m.stores, units := m.units, lines := m.lines, trafos := m.trafos, loads := [] }

theorem supply_split (w : WNet F) (m : More F) (t : Nat) (l : Bool) (val : Nodal.NVar → F) (b : Name) :
    Nodal.supplied (nodal (withMore w m) t) l val b =
      Nodal.supplied (nodal w t) l val b + Nodal.supplied (nodal (alone w m) t) l val b := by
  unfold Nodal.supplied nodal
  simp only [withMore, alone, List.map_append, List.sum_append]
  ring

theorem cost_split (w : WNet F) (m : More F) (x : WVar → F) :
    totalCost (withMore w m) x = totalCost w x + totalCost (alone w m) x := by
  have e : totalCost (withMore w m) x =
    ((w.gens ++ m.gens).map (fun g => genCost w g x)).sum + ((w.links ++ m.links).map (fun g => linkCost w g x)).sum +
    ((w.stores ++ m.stores).map (fun g => storeCost w g x)).sum + ((w.units ++ m.units).map (fun g => unitCost w g x)).sum +
    ((w.lines ++ m.lines).map (fun g => branchCost w "Line" g x)).sum +
    ((w.trafos ++ m.trafos).map (fun g => branchCost w "Transformer" g x)).sum := rfl
  have e2 : totalCost (alone w m) x =
    (m.gens.map (fun g => genCost w g x)).sum + (m.links.map (fun g => linkCost w g x)).sum +
    (m.stores.map (fun g => storeCost w g x)).sum + (m.units.map (fun g => unitCost w g x)).sum +
    (m.lines.map (fun g => branchCost w "Line" g x)).sum +
    (m.trafos.map (fun g => branchCost w "Transformer" g x)).sum := rfl
  rw [e, e2]
  unfold totalCost
  simp only [List.map_append, List.sum_append]
  ring

/-- The rows of the added assets hold. -/
structure MoreHold (w : WNet F) (m : More F) (x : WVar → F) : Prop where
  gens : ∀ g ∈ m.gens, ∀ rs, genRows (withMore w m) g = some rs → ∀ q ∈ rs, q.holds (fun v => x (.of "Generator" g.name v))
  links : ∀ g ∈ m.links, ∀ rs, linkRows (withMore w m) g = some rs → ∀ q ∈ rs, q.holds (fun v => x (.of "Link" g.name v))
  stores : ∀ g ∈ m.stores, ∀ rs, storeRows w g = some rs → ∀ q ∈ rs, q.holds (fun v => x (.of "Store" g.name v))
  units : ∀ g ∈ m.units, ∀ rs, sunitRows w g = some rs → ∀ q ∈ rs, q.holds (fun v => x (.of "StorageUnit" g.name v))
  lines : ∀ g ∈ m.lines, ∀ rs, branchRows w .line g = some rs → ∀ q ∈ rs, q.holds (fun v => x (.of "Line" g.name v))
  trafos : ∀ g ∈ m.trafos, ∀ rs, branchRows w .transformer g = some rs → ∀ q ∈ rs,
    q.holds (fun v => x (.of "Transformer" g.name v))

theorem assets_split {w : WNet F} {m : More F} (hg : RampsStay (w.gens.map (·.unit)) w.len)
    (hk : RampsStay (w.links.map (·.unit)) w.len) (x : WVar → F) :
    AssetsHold (withMore w m) x ↔ AssetsHold w x ∧ MoreHold w m x := by
  constructor
  · intro h
    refine ⟨⟨?_, ?_, ?_, ?_, ?_, ?_⟩, ⟨?_, ?_, ?_, ?_, ?_, ?_⟩⟩
    · intro g hm rs hrs
      exact h.gens g (List.mem_append_left _ hm) rs (by rw [genRows_more hg hm, hrs])
    · intro g hm rs hrs
      exact h.links g (List.mem_append_left _ hm) rs (by rw [linkRows_more hk hm, hrs])
    · exact fun g hm => h.stores g (List.mem_append_left _ hm)
    · exact fun g hm => h.units g (List.mem_append_left _ hm)
    · exact fun g hm => h.lines g (List.mem_append_left _ hm)
    · exact fun g hm => h.trafos g (List.mem_append_left _ hm)
    · exact fun g hm => h.gens g (List.mem_append_right _ hm)
    · exact fun g hm => h.links g (List.mem_append_right _ hm)
    · exact fun g hm => h.stores g (List.mem_append_right _ hm)
    · exact fun g hm => h.units g (List.mem_append_right _ hm)
    · exact fun g hm => h.lines g (List.mem_append_right _ hm)
    · exact fun g hm => h.trafos g (List.mem_append_right _ hm)
  · rintro ⟨h, hc⟩
    refine ⟨?_, ?_, ?_, ?_, ?_, ?_⟩ <;> intro g hgm rs hrs q hq <;> rcases List.mem_append.mp hgm with hm | hm
    · rw [genRows_more hg hm] at hrs
      exact h.gens g hm rs hrs q hq
    · exact hc.gens g hm rs hrs q hq
    · rw [linkRows_more hk hm] at hrs
      exact h.links g hm rs hrs q hq
    · exact hc.links g hm rs hrs q hq
    · exact h.stores g hm rs hrs q hq
    · exact hc.stores g hm rs hrs q hq
    · exact h.units g hm rs hrs q hq
    · exact hc.units g hm rs hrs q hq
    · exact h.lines g hm rs hrs q hq
    · exact hc.lines g hm rs hrs q hq
    · exact h.trafos g hm rs hrs q hq
    · exact hc.trafos g hm rs hrs q hq

/-- A bus without anything attached. -/
theorem supply_nothing {w : WNet F} (hw : Sound w) {b : Name} (hb : b ∉ w.buses) (hne : b ≠ "") (t : Nat) (l : Bool)
    (val : Nodal.NVar → F) : Nodal.supplied (nodal w t) l val b = 0 ∧ Nodal.demanded (nodal w t) b = 0 := by
  have key : ∀ c ∈ w.buses, ∀ (a : Bool) (x : F), Nodal.contrib b c a x = 0 := by
    intro c hc a x
    unfold Nodal.contrib
    rw [if_neg]
    rintro ⟨rfl, -⟩
    exact hb hc
  have key' : ∀ c : Name, c = "" ∨ c ∈ w.buses → ∀ (a : Bool) (x : F), Nodal.contrib b c a x = 0 := by
    rintro c (rfl | hc) a x
    · unfold Nodal.contrib
      rw [if_neg]
      rintro ⟨rfl, -⟩
      exact hne rfl
    · exact key c hc a x
  constructor
  · unfold Nodal.supplied nodal
    simp only [List.map_map, Function.comp_def]
    rw [sum_zero w.gens _ (fun g hg => key _ (hw.genBus g hg) _ _), sum_zero w.stores _ (fun g hg => key _ (hw.storeBus g hg) _ _),
      sum_zero w.units _ (fun g hg => key _ (hw.unitBus g hg) _ _),
      sum_zero w.lines _ (fun g hg => by rw [key _ (hw.lineBus g hg).1, key _ (hw.lineBus g hg).2, add_zero]),
      sum_zero w.trafos _ (fun g hg => by rw [key _ (hw.trafoBus g hg).1, key _ (hw.trafoBus g hg).2, add_zero]),
      sum_zero w.links _ (fun g hg => by
        rw [key _ (hw.linkBus g hg).1, key _ (hw.linkBus g hg).2.1,
          sum_zero g.extra _ (fun e he => key' _ ((hw.linkBus g hg).2.2 e he) _ _)]
        simp)]
    simp
  · unfold Nodal.demanded nodal
    simp only [List.map_map, Function.comp_def]
    exact sum_zero w.loads _ (fun g hg => key _ (hw.loadBus g hg) _ _)

/-! ## Rows of simple assets -/

/-- A unit without commitment and ramp limits. -/
def plainUnit (ext : Bool) (nom : F) (active : Nat → Bool) (lo hi : Nat → F) : Unit' F :=
  ⟨nom, ext, false, active, lo, hi, 0, 0, 0, 0, fun _ => none, fun _ => none, none, none, 1, 1, 0, 0, [], 0⟩

/-- Capacity of an asset: a variable if extendable. -/
def capOf (ext : Bool) (nom : F) (y : Loc → F) : F := if ext then y .cap else nom

theorem all_moved {V W : Type} (f : V → W) (x : W → F) (rs : List (Con V F)) :
    (∀ q ∈ rs.map (remap f), q.holds x) ↔ Feasible (fun v => x (f v)) rs := by
  simp only [List.mem_map, forall_exists_index, and_imp, forall_apply_eq_imp_iff₂, holds_remap, Feasible]

theorem plain_iff [IsStrictOrderedRing F] {cls : List (Unit' F)} {ext : Bool} {nom : F} {active : Nat → Bool} {lo hi : Nat → F}
    {T : Nat} {r l : Bool} (y : Loc → F) :
    (∀ q ∈ (unitCons cls (plainUnit ext nom active lo hi) T r l).map (remap unitLoc), q.holds y) ↔
      ∀ t < T, active t = true → lo t * capOf ext nom y ≤ y (.op "p" t) ∧ y (.op "p" t) ≤ hi t * capOf ext nom y := by
  have hr : rampCons cls (plainUnit ext nom active lo hi) T r = [] := by
    have : ∀ t, rampRows (plainUnit ext nom active lo hi) r t = [] := by
      intro t; simp [rampRows, plainUnit]
    unfold rampCons rowsAt
    simp [this]
  have hc : comCons (plainUnit ext nom active lo hi) T r = [] := by simp [comCons, plainUnit]
  have hl : linearizedCons (plainUnit ext nom active lo hi) T = [] := by simp [linearizedCons, plainUnit]
  rw [all_moved]
  unfold unitCons
  rw [hr, hc, hl]
  cases ext with
  | false =>
    simp only [nonExtCons, extCons, plainUnit, rowsAt, Bool.or_self, Bool.false_eq_true, if_false, Bool.not_false, if_true,
      List.append_nil, ite_self, feasible_flatMap, List.mem_range]
    refine forall₂_congr (fun t _ => ?_)
    by_cases ha : active t = true <;> simp [ha, capOf, feasible_cons, Con.holds, orZero, present, unitLoc]
  | true =>
    simp only [nonExtCons, extCons, plainUnit, rowsAt, Bool.true_or, Bool.false_eq_true, if_false, Bool.not_true, if_true,
      List.append_nil, List.nil_append, ite_self, feasible_flatMap, List.mem_range]
    refine forall₂_congr (fun t _ => ?_)
    by_cases ha : active t = true <;> simp [ha, capOf, feasible_cons, Con.holds, orZero, present, unitLoc]

theorem bound_iff [IsStrictOrderedRing F] {len : Nat} {c : Accessor.Cls} {attr : Accessor.Attr'} {var : Name} {a : Nat → Accessor.Asset F}
    (y : Loc → F) : (∀ q ∈ boundRows len c attr var false a, q.holds y) ↔ ∀ t < len, (a t).active = true →
      (Accessor.boundsPu c attr (a t)).1 * capOf (a t).ext (a t).nom y ≤ y (.op var t) ∧
      y (.op var t) ≤ (Accessor.boundsPu c attr (a t)).2 * capOf (a t).ext (a t).nom y := by
  change Feasible y _ ↔ _
  unfold boundRows
  simp only [feasible_flatMap, List.mem_range]
  refine forall₂_congr (fun t _ => ?_)
  rw [show Feasible y _ ↔ _ from all_moved (boundLoc var t) y (Accessor.opRows c attr false (a t))]
  unfold Accessor.opRows Accessor.fixRows Accessor.extRows
  cases ha : (a t).active <;> cases he : (a t).ext <;>
    simp [capOf, feasible_cons, Con.holds, Accessor.lossTm, boundLoc, lin]

theorem set_iff {len : Nat} {var : Name} {active : Nat → Bool} {value : Nat → Option F} (y : Loc → F) :
    (∀ q ∈ setRows len var active value, q.holds y) ↔ ∀ t < len, active t = true → ∀ s, value t = some s → y (.op var t) = s := by
  unfold setRows
  rw [all_moved]
  unfold Capacity.fixedOperationCons
  simp only [List.flatMap_cons, List.flatMap_nil, List.append_nil, feasible_flatMap, List.mem_range]
  refine forall₂_congr (fun t _ => ?_)
  cases hv : value t with
  | none => simp
  | some s =>
    cases ha : active t <;> simp [ha, feasible_cons, Con.holds, lin]

/-- What is kept of the level before, for given levels. -/
def kept (a : Storage F) (win : Window) (lev : Nat → F) (t : Nat) : F :=
  match previous a win t with
  | some s => a.keep t * lev s
  | none => 0

/-- The balance of a storage whose level changes by `gain`. -/
def Levels (a : Storage F) (win : Window) (lev gain : Nat → F) : Prop := ∀ t < win.len, a.active t = true →
  lev t = kept a win lev t + gain t + if included a win t then 0 else a.initial

theorem store_iff [IsStrictOrderedRing F] {w : WNet F} {s : StoreW F} {rs : List (Con Loc F)} (h : storeRows w s = some rs)
    (y : Loc → F) : (∀ q ∈ rs, q.holds y) ↔ CapOk s.ext s.invest (y .cap) (y .mod) ∧
      (∀ t < w.len, s.storage.active t = true →
        s.minPu t * capOf s.ext s.nom y ≤ y (.op "e" t) ∧ y (.op "e" t) ≤ s.maxPu t * capOf s.ext s.nom y) ∧
      (∀ t < w.len, s.storage.active t = true → ∀ v, s.eSet t = some v → y (.op "e" t) = v) ∧
      Levels s.storage ⟨w.len, w.multi, w.period⟩ (fun t => y (.op "e" t)) (fun t => - s.storage.eh t * y (.op "p" t)) := by
  unfold storeRows at h
  obtain ⟨cap, hc, rfl⟩ := Option.map_eq_some_iff.mp h
  change Feasible y _ ↔ _
  rw [feasible_append, feasible_append, feasible_append]
  rw [show Feasible y cap ↔ _ from capRows_iff hc y, show Feasible y (boundRows _ _ _ _ _ _) ↔ _ from bound_iff y,
    show Feasible y (setRows _ _ _ _) ↔ _ from set_iff y, show Feasible y (List.map (remap storeLoc) _) ↔ _ from all_moved _ _ _]
  rw [and_assoc, and_assoc]
  refine and_congr Iff.rfl (and_congr ?_ (and_congr Iff.rfl ?_))
  · exact Iff.rfl
  · unfold storeCons Levels
    rw [feasible_flatMap]
    simp only [List.mem_range]
    refine forall₂_congr (fun t _ => ?_)
    by_cases ha : s.storage.active t = true
    · simp only [ha, if_true, feasible_cons, feasible_nil, and_true, true_imp_iff, Con.holds, lin_append, lin_cons, lin_nil, storeLoc]
      unfold kept
      cases previous s.storage ⟨w.len, w.multi, w.period⟩ t with
      | none =>
        simp only [lin_nil]
        split <;> constructor <;> intro h <;> linarith
      | some k =>
        simp only [lin_cons, lin_nil, storeLoc]
        split <;> constructor <;> intro h <;> linarith
    · simp [ha]

theorem sunit_iff [IsStrictOrderedRing F] {w : WNet F} {s : UnitW F} {rs : List (Con Loc F)} (h : sunitRows w s = some rs)
    (y : Loc → F) : (∀ q ∈ rs, q.holds y) ↔ CapOk s.ext s.invest (y .cap) (y .mod) ∧
      (∀ t < w.len, s.storage.active t = true →
        (0 ≤ y (.op "p_dispatch" t) ∧ y (.op "p_dispatch" t) ≤ s.maxPu t * capOf s.ext s.nom y) ∧
        (0 ≤ y (.op "p_store" t) ∧ y (.op "p_store" t) ≤ - s.minPu t * capOf s.ext s.nom y) ∧
        (0 ≤ y (.op "state_of_charge" t) ∧ y (.op "state_of_charge" t) ≤ s.maxHours * capOf s.ext s.nom y)) ∧
      (∀ t < w.len, s.storage.active t = true → ∀ v, s.socSet t = some v → y (.op "state_of_charge" t) = v) ∧
      (∀ t < w.len, s.storage.active t = true → 0 < s.storage.inflow t →
        0 ≤ y (.op "spill" t) ∧ y (.op "spill" t) ≤ s.storage.inflow t) ∧
      Levels s.storage.toStorage ⟨w.len, w.multi, w.period⟩ (fun t => y (.op "state_of_charge" t)) (fun t =>
        s.storage.eh t * (s.storage.effStore t * y (.op "p_store" t) - y (.op "p_dispatch" t) / s.storage.effDispatch t +
          s.storage.inflow t - if 0 < s.storage.inflow t then y (.op "spill" t) else 0)) := by
  unfold sunitRows at h
  obtain ⟨cap, hc, rfl⟩ := Option.map_eq_some_iff.mp h
  change Feasible y _ ↔ _
  simp only [feasible_append]
  rw [show Feasible y cap ↔ _ from capRows_iff hc y, show Feasible y (boundRows _ _ .pDispatch _ _ _) ↔ _ from bound_iff y,
    show Feasible y (boundRows _ _ .pStore _ _ _) ↔ _ from bound_iff y,
    show Feasible y (boundRows _ _ .soc _ _ _) ↔ _ from bound_iff y,
    show Feasible y (setRows _ _ _ _) ↔ _ from set_iff y, show Feasible y (List.map (remap sunitLoc) _) ↔ _ from all_moved _ _ _]
  have hb : Feasible (fun v => y (sunitLoc v)) (storageUnitCons s.storage ⟨w.len, w.multi, w.period⟩) ↔
      Levels s.storage.toStorage ⟨w.len, w.multi, w.period⟩ (fun t => y (.op "state_of_charge" t)) (fun t =>
        s.storage.eh t * (s.storage.effStore t * y (.op "p_store" t) - y (.op "p_dispatch" t) / s.storage.effDispatch t +
          s.storage.inflow t - if 0 < s.storage.inflow t then y (.op "spill" t) else 0)) := by
    unfold storageUnitCons Levels
    rw [feasible_flatMap]
    simp only [List.mem_range]
    refine forall₂_congr (fun t _ => ?_)
    by_cases ha : s.storage.active t = true
    · have e : - 1 / s.storage.effDispatch t * s.storage.eh t * y (.op "p_dispatch" t) =
          - (s.storage.eh t * (y (.op "p_dispatch" t) / s.storage.effDispatch t)) := by ring
      simp only [ha, if_true, feasible_cons, feasible_nil, and_true, true_imp_iff, Con.holds, lin_append, lin_cons, lin_nil, sunitLoc,
        hasSpill, Bool.true_and, decide_eq_true_eq, e]
      unfold kept
      cases previous s.storage.toStorage ⟨w.len, w.multi, w.period⟩ t with
      | none =>
        simp only [lin_nil]
        split <;> split <;> simp only [lin_nil, lin_cons, sunitLoc] <;> constructor <;> intro h <;> linarith
      | some k =>
        simp only [lin_cons, lin_nil, sunitLoc]
        split <;> split <;> simp only [lin_nil, lin_cons, sunitLoc] <;> constructor <;> intro h <;> linarith
    · simp [ha]
  have hs : Feasible y ((List.range w.len).flatMap (fun t => if hasSpill s.storage t then
      [⟨[(1, .op "spill" t)], .ge, 0⟩, ⟨[(1, .op "spill" t)], .le, s.storage.inflow t⟩] else [])) ↔
      ∀ t < w.len, s.storage.active t = true → 0 < s.storage.inflow t →
        0 ≤ y (.op "spill" t) ∧ y (.op "spill" t) ≤ s.storage.inflow t := by
    rw [feasible_flatMap]
    simp only [List.mem_range]
    refine forall₂_congr (fun t _ => ?_)
    by_cases ha : s.storage.active t = true <;> by_cases hi : 0 < s.storage.inflow t <;>
      simp [hasSpill, ha, hi, feasible_cons, Con.holds, lin]
  rw [hb, hs]
  simp only [Accessor.boundsPu, unitBound, zero_mul]
  constructor
  · rintro ⟨⟨⟨⟨⟨⟨h1, h2⟩, h3⟩, h4⟩, h5⟩, h6⟩, h7⟩
    exact ⟨h1, fun t ht ha => ⟨h2 t ht ha, h3 t ht ha, h4 t ht ha⟩, h5, h7, h6⟩
  · rintro ⟨h1, h2, h5, h7, h6⟩
    exact ⟨⟨⟨⟨⟨⟨h1, fun t ht ha => (h2 t ht ha).1⟩, fun t ht ha => (h2 t ht ha).2.1⟩, fun t ht ha => (h2 t ht ha).2.2⟩, h5⟩, h6⟩, h7⟩

theorem link_plain_iff [IsStrictOrderedRing F] {w : WNet F} {g : LinkW F} {ext : Bool} {nom : F} {active : Nat → Bool}
    {lo hi : Nat → F} (hu : g.unit = plainUnit ext nom active lo hi) (hset : ∀ t, g.pSet t = none) {rs : List (Con Loc F)}
    (h : linkRows w g = some rs) (y : Loc → F) : (∀ q ∈ rs, q.holds y) ↔ CapOk ext g.invest (y .cap) (y .mod) ∧
      ∀ t < w.len, active t = true → lo t * capOf ext nom y ≤ y (.op "p" t) ∧ y (.op "p" t) ≤ hi t * capOf ext nom y := by
  unfold linkRows at h
  obtain ⟨cap, hc, rfl⟩ := Option.map_eq_some_iff.mp h
  change Feasible y _ ↔ _
  simp only [feasible_append]
  have e1 : commitRows w.len g.unit = [] := by simp [commitRows, hu, plainUnit]
  have e2 : Feasible y (setRows w.len "p" g.unit.active g.pSet) := (set_iff y).mpr (fun t _ _ s hs => by simp [hset] at hs)
  rw [e1, hu]
  rw [hu] at e2 hc
  rw [show Feasible y cap ↔ _ from capRows_iff hc y, show Feasible y (List.map (remap unitLoc) _) ↔ _ from plain_iff y]
  simp only [feasible_nil, e2, and_true]
  rfl

theorem gen_plain_iff [IsStrictOrderedRing F] {w : WNet F} {g : GenW F} {ext : Bool} {nom : F} {active : Nat → Bool}
    {lo hi : Nat → F} (hu : g.unit = plainUnit ext nom active lo hi) (hset : ∀ t, g.pSet t = none) (hmin : g.eSumMin = none)
    (hmax : g.eSumMax = none) {rs : List (Con Loc F)}
    (h : genRows w g = some rs) (y : Loc → F) : (∀ q ∈ rs, q.holds y) ↔ CapOk ext g.invest (y .cap) (y .mod) ∧
      ∀ t < w.len, active t = true → lo t * capOf ext nom y ≤ y (.op "p" t) ∧ y (.op "p" t) ≤ hi t * capOf ext nom y := by
  unfold genRows at h
  obtain ⟨cap, hc, rfl⟩ := Option.map_eq_some_iff.mp h
  change Feasible y _ ↔ _
  simp only [feasible_append]
  have e1 : commitRows w.len g.unit = [] := by simp [commitRows, hu, plainUnit]
  have e2 : Feasible y (setRows w.len "p" g.unit.active g.pSet) := (set_iff y).mpr (fun t _ _ s hs => by simp [hset] at hs)
  have e3 : Capacity.totalSupplyCons (List.range w.len) w.gw [⟨g.name, g.unit.active, g.eSumMin, g.eSumMax⟩] = [] := by
    simp [Capacity.totalSupplyCons, hmin, hmax]
  rw [e1, e3, hu]
  rw [hu] at e2 hc
  rw [show Feasible y cap ↔ _ from capRows_iff hc y, show Feasible y (List.map (remap unitLoc) _) ↔ _ from plain_iff y]
  simp only [feasible_nil, e2, and_true, List.map_nil]
  rfl

/-! ## Spec: a storage unit built from a store and links -/

/-- Names of the new components. -/
structure Parts where
  bus : Name
  gen : Name
  charge : Name
  discharge : Name
  store : Name

/-- No limits and no costs of the capacity. -/
def freeInvest (i : Invest F) : Invest F := ⟨0, none, 0, none, 0, i.activeIn, i.activeFlag⟩

/-- A generator for the inflow, which may be curtailed (spilled); a link for charging, with the costs and limits of the
capacity; a link for discharging, whose power is measured on the side of the store; the store. -/
def parts (s : UnitW F) (n : Parts) : More F where
  gens := [⟨n.gen, n.bus, 1, plainUnit false 1 s.storage.active (fun t => min 0 (s.storage.inflow t)) s.storage.inflow,
    freeInvest s.invest, noCosts, fun _ => none, none, none⟩]
  links := [
    ⟨n.charge, s.bus, n.bus, s.storage.effStore, [],
      plainUnit s.ext s.nom s.storage.active (fun _ => 0) (fun t => - s.minPu t), s.invest, noCosts, fun _ => none⟩,
    ⟨n.discharge, n.bus, s.bus, s.storage.effDispatch, [],
      plainUnit s.ext s.nom s.storage.active (fun _ => 0) (fun t => s.maxPu t / s.storage.effDispatch t), freeInvest s.invest,
      { noCosts with marginal := fun t => s.costs.marginal t * s.storage.effDispatch t }, fun _ => none⟩]
  stores := [⟨n.store, n.bus, 1, s.storage.toStorage, s.ext, s.maxHours * s.nom, fun _ => 0, fun _ => 1, freeInvest s.invest,
    { noCosts with marginalStorage := s.costs.marginalStorage }, s.socSet⟩]
  units := []
  lines := []
  trafos := []

/-- Only this storage unit. -/
def justUnit (s : UnitW F) : More F := ⟨[], [], [], [s], [], []⟩

def withBus (w : WNet F) (b : Name) : WNet F := { w with buses := w.buses ++ [b] }

/-- The network with the parts of a storage unit. -/
def withParts (w : WNet F) (s : UnitW F) (n : Parts) : WNet F := withMore (withBus w n.bus) (parts s n)

/-- What is asked of the storage unit: power counts with sign 1, efficiencies are positive, spilling is free. -/
structure Replaceable (s : UnitW F) : Prop where
  sign : s.sign = 1
  eff : ∀ t, 0 < s.storage.effDispatch t
  spill : ∀ t, s.costs.spillCost t = 0

/-- What the parts do, compared with the storage unit. -/
structure SameUse (w : WNet F) (s : UnitW F) (n : Parts) (x y : WVar → F) : Prop where
  level : ∀ t < w.len, s.storage.active t = true → y (.of "Store" n.store (.op "e" t)) = x (.of "StorageUnit" s.name (.op "state_of_charge" t))
  charge : ∀ t < w.len, s.storage.active t = true → y (.of "Link" n.charge (.op "p" t)) = x (.of "StorageUnit" s.name (.op "p_store" t))
  discharge : ∀ t < w.len, s.storage.active t = true →
    s.storage.effDispatch t * y (.of "Link" n.discharge (.op "p" t)) = x (.of "StorageUnit" s.name (.op "p_dispatch" t))
  inflow : ∀ t < w.len, s.storage.active t = true → 0 < s.storage.inflow t →
    y (.of "Generator" n.gen (.op "p" t)) = s.storage.inflow t - x (.of "StorageUnit" s.name (.op "spill" t))

/-! ## Points -/

/-- Other values for one asset. -/
def put (c a : Name) (z : Loc → F) (x : WVar → F) : WVar → F
  | .of c' a' v => if c' = c ∧ a' = a then z v else x (.of c' a' v)
  | .const => x .const

def setConst (k : F) (x : WVar → F) : WVar → F
  | .const => k
  | v => x v

def spilled (s : UnitW F) (z : Loc → F) (t : Nat) : F := if 0 < s.storage.inflow t then z (.op "spill" t) else 0

def genPart (s : UnitW F) (z : Loc → F) : Loc → F
  | .op _ t => s.storage.inflow t - spilled s z t
  | _ => 0

def chargePart (z : Loc → F) : Loc → F
  | .op _ t => z (.op "p_store" t)
  | v => z v

def dischargePart (s : UnitW F) (z : Loc → F) : Loc → F
  | .op _ t => z (.op "p_dispatch" t) / s.storage.effDispatch t
  | v => z v

def storePart (s : UnitW F) (z : Loc → F) : Loc → F
  | .op v t => if v = "e" then z (.op "state_of_charge" t) else
      z (.op "p_dispatch" t) / s.storage.effDispatch t - s.storage.effStore t * z (.op "p_store" t) - s.storage.inflow t +
        spilled s z t
  | .cap => s.maxHours * z .cap
  | .mod => 0

/-- The point with the parts in place of the storage unit. -/
def asParts (w : WNet F) (s : UnitW F) (n : Parts) (x : WVar → F) : WVar → F :=
  let z := fun v => x (.of "StorageUnit" s.name v)
  setConst (Objective.constant (objNet (withParts w s n)))
    (put "Generator" n.gen (genPart s z) (put "Link" n.charge (chargePart z) (put "Link" n.discharge (dischargePart s z)
      (put "Store" n.store (storePart s z) x))))

def unitPart (s : UnitW F) (n : Parts) (y : WVar → F) : Loc → F
  | .op v t =>
    if v = "p_dispatch" then s.storage.effDispatch t * y (.of "Link" n.discharge (.op "p" t))
    else if v = "p_store" then y (.of "Link" n.charge (.op "p" t))
    else if v = "state_of_charge" then y (.of "Store" n.store (.op "e" t))
    else s.storage.inflow t - y (.of "Generator" n.gen (.op "p" t))
  | v => y (.of "Link" n.charge v)

/-- The point with the storage unit in place of the parts. -/
def asUnit (w : WNet F) (s : UnitW F) (n : Parts) (y : WVar → F) : WVar → F :=
  setConst (Objective.constant (objNet (withMore w (justUnit s)))) (put "StorageUnit" s.name (unitPart s n y) y)

omit [Field F] [LinearOrder F] in
theorem put_same (c a : Name) (z : Loc → F) (x : WVar → F) (v : Loc) : put c a z x (.of c a v) = z v := by simp [put]

omit [Field F] [LinearOrder F] in
theorem put_other {c a c' a' : Name} (h : ¬ (c' = c ∧ a' = a)) (z : Loc → F) (x : WVar → F) (v : Loc) :
    put c a z x (.of c' a' v) = x (.of c' a' v) := by simp [put, h]

/-! ## Supply and costs of the parts -/

theorem supply_unit (w : WNet F) (s : UnitW F) (hs : s.sign = 1) (x : WVar → F) (t : Nat) (l : Bool) (b : Name) :
    Nodal.supplied (nodal (alone w (justUnit s)) t) l (fun v => x (nodalVar t v)) b =
      Nodal.contrib b s.bus (s.storage.active t)
        (x (.of "StorageUnit" s.name (.op "p_dispatch" t)) - x (.of "StorageUnit" s.name (.op "p_store" t))) := by
  simp [Nodal.supplied, nodal, alone, justUnit, nodalVar, hs]

theorem supply_parts (w : WNet F) (s : UnitW F) (n : Parts) (y : WVar → F) (t : Nat) (l : Bool) (b : Name) :
    Nodal.supplied (nodal (alone w (parts s n)) t) l (fun v => y (nodalVar t v)) b =
      Nodal.contrib b s.bus (s.storage.active t)
        (s.storage.effDispatch t * y (.of "Link" n.discharge (.op "p" t)) - y (.of "Link" n.charge (.op "p" t))) +
      Nodal.contrib b n.bus (s.storage.active t)
        (y (.of "Generator" n.gen (.op "p" t)) + y (.of "Store" n.store (.op "p" t)) - y (.of "Link" n.discharge (.op "p" t)) +
          s.storage.effStore t * y (.of "Link" n.charge (.op "p" t))) := by
  simp only [Nodal.supplied, nodal, alone, parts, nodalVar, Nodal.contrib, plainUnit, List.map_cons, List.map_nil, List.sum_cons,
    List.sum_nil]
  by_cases h1 : s.bus = b <;> by_cases h2 : n.bus = b <;> cases s.storage.active t <;> simp [h1, h2] <;> ring

theorem cost_parts (w : WNet F) (s : UnitW F) (n : Parts) (y : WVar → F) :
    totalCost (alone (withBus w n.bus) (parts s n)) y =
      ((List.range w.len).map (fun t => if s.storage.active t then
        weight w t * s.costs.marginal t * (s.storage.effDispatch t * y (.of "Link" n.discharge (.op "p" t))) +
          weight w t * s.costs.marginalStorage t * y (.of "Store" n.store (.op "e" t)) else 0)).sum +
      if s.ext then lifeWeight w s.invest * s.invest.capitalCost * y (.of "Link" n.charge .cap) else 0 := by
  have hw : ∀ t, weight (alone (withBus w n.bus) (parts s n)) t = weight w t := fun _ => rfl
  have hlf : ∀ i, lifeWeight (alone (withBus w n.bus) (parts s n)) i = lifeWeight w i := fun _ => rfl
  unfold totalCost genCost linkCost storeCost
  simp only [hw, hlf]
  simp only [alone, withBus, parts, plainUnit, noCosts, freeInvest, List.map_cons, List.map_nil, List.sum_cons, List.sum_nil]
  simp only [mul_zero, zero_mul, add_zero, zero_add, Bool.false_eq_true, ite_self, List.map_const', List.sum_replicate,
    smul_zero]
  have hs : ((List.range w.len).map (fun t => if s.storage.active t then
        weight w t * s.costs.marginal t * (s.storage.effDispatch t * y (.of "Link" n.discharge (.op "p" t))) +
          weight w t * s.costs.marginalStorage t * y (.of "Store" n.store (.op "e" t)) else 0)).sum =
      ((List.range w.len).map (fun t => if s.storage.active t then
        weight w t * (s.costs.marginal t * s.storage.effDispatch t) * y (.of "Link" n.discharge (.op "p" t)) else 0)).sum +
      ((List.range w.len).map (fun t => if s.storage.active t then
        weight w t * s.costs.marginalStorage t * y (.of "Store" n.store (.op "e" t)) else 0)).sum := by
    rw [← List.sum_map_add]
    congr 1
    apply List.map_congr_left
    intro t _
    split
    · ring
    · simp
  rw [hs]
  ring

/-! ## C122 -/

theorem fresh_one {α : Type} {name : α → Name} {l k : List α} (h : ((l ++ k).map name).Nodup) {g a : α} (hg : g ∈ l) (ha : a ∈ k) :
    name g ≠ name a := by
  rw [List.map_append, List.nodup_append] at h
  exact h.2.2 _ (List.mem_map_of_mem hg) _ (List.mem_map_of_mem ha)

theorem linear_parts {w : WNet F} {s : UnitW F} (n : Parts) (h : LinearCosts (withMore w (justUnit s))) :
    LinearCosts (withParts w s n) := by
  have h' := linear_less h
  constructor
  · intro g hg t
    rcases List.mem_append.mp hg with hg | hg
    · exact h'.gens g hg t
    · simp only [parts, List.mem_singleton] at hg; subst hg; rfl
  · intro g hg t
    rcases List.mem_append.mp hg with hg | hg
    · exact h'.links g hg t
    · simp only [parts, List.mem_cons, List.not_mem_nil, or_false] at hg
      rcases hg with rfl | rfl <;> rfl
  · intro g hg t
    rcases List.mem_append.mp hg with hg | hg
    · exact h'.stores g hg t
    · simp only [parts, List.mem_singleton] at hg; subst hg; rfl
  · intro g hg t
    rcases List.mem_append.mp hg with hg | hg
    · exact h'.units g hg t
    · simp [parts] at hg
  · intro g hg
    rcases List.mem_append.mp hg with hg | hg
    · exact h'.genEvents g hg
    · simp only [parts, List.mem_singleton] at hg; subst hg; exact ⟨le_refl _, le_refl _⟩
  · intro g hg
    rcases List.mem_append.mp hg with hg | hg
    · exact h'.linkEvents g hg
    · simp only [parts, List.mem_cons, List.not_mem_nil, or_false] at hg
      rcases hg with rfl | rfl <;> exact ⟨le_refl _, le_refl _⟩

/-- Further rows do not mention the storage unit or its parts. -/
def Apart (s : UnitW F) (n : Parts) (other : List (Con WVar F)) : Prop :=
  ∀ r ∈ other, ∀ e ∈ r.terms, e.2 ≠ .const ∧ (justUnit s).has e.2 = false ∧ (parts s n).has e.2 = false

theorem apart_feasible {other : List (Con WVar F)} {x y : WVar → F} (h : ∀ r ∈ other, ∀ e ∈ r.terms, x e.2 = y e.2)
    (hx : Feasible x other) : Feasible y other := by
  intro r hr
  have e : lin y r.terms = lin x r.terms := by
    unfold lin
    congr 1
    apply List.map_congr_left
    intro e he
    rw [h r hr e he]
  have := hx r hr
  unfold Con.holds at this ⊢
  rwa [e]

theorem asParts_keeps (w : WNet F) (s : UnitW F) (n : Parts) (x : WVar → F) (v : WVar) (hc : v ≠ .const)
    (hv : (parts s n).has v = false) : asParts w s n x v = x v := by
  cases v with
  | const => exact absurd rfl hc
  | of c a l =>
    rw [has_of] at hv
    simp only [parts, List.map_cons, List.map_nil, List.contains_cons, List.contains_nil, Bool.or_false, Bool.and_false,
      Bool.or_eq_false_iff, Bool.and_eq_false_iff, beq_eq_false_iff_ne] at hv
    obtain ⟨⟨h1, h2⟩, h3⟩ := hv
    simp only [asParts, setConst]
    rw [put_other (by rintro ⟨ha, hb⟩; rcases h1 with h | h <;> contradiction),
      put_other (by rintro ⟨ha, hb⟩; rcases h2 with h | h; · contradiction
                    · exact h.1 hb),
      put_other (by rintro ⟨ha, hb⟩; rcases h2 with h | h; · contradiction
                    · exact h.2 hb),
      put_other (by rintro ⟨ha, hb⟩; rcases h3 with h | h <;> contradiction)]

theorem asUnit_keeps (w : WNet F) (s : UnitW F) (n : Parts) (x : WVar → F) (v : WVar) (hc : v ≠ .const)
    (hv : (justUnit s).has v = false) : asUnit w s n x v = x v := by
  cases v with
  | const => exact absurd rfl hc
  | of c a l =>
    rw [has_of] at hv
    simp only [justUnit, List.map_cons, List.map_nil, List.contains_cons, List.contains_nil, Bool.or_false, Bool.and_false,
      Bool.false_or, Bool.and_eq_false_iff, beq_eq_false_iff_ne] at hv
    simp only [asUnit, setConst]
    rw [put_other (by rintro ⟨ha, hb⟩; rcases hv with h | h <;> contradiction)]

/-- Variables of a network are not those of assets added under new names. -/
theorem agree_of {w : WNet F} {m : More F} (hw : Sound (withMore w m)) {x y : WVar → F}
    (h : ∀ v, v ≠ .const → m.has v = false → x v = y v) : Agree w x y := by
  refine ⟨?_, ?_, ?_, ?_, ?_, ?_⟩ <;> intro g hg v <;> refine h _ (by simp) ?_ <;> rw [has_of]
  · rw [fresh_name hw.gens hg]; simp
  · rw [fresh_name hw.links hg]; simp
  · rw [fresh_name hw.stores hg]; simp
  · rw [fresh_name hw.units hg]; simp
  · rw [fresh_name hw.lines hg]; simp
  · rw [fresh_name hw.trafos hg]; simp

theorem sound_bus {w : WNet F} {s : UnitW F} {n : Parts} (hw : Sound (withParts w s n)) : n.bus ∉ w.buses ∧ n.bus ≠ "" := by
  have h1 := hw.buses
  have h2 := hw.noEmpty
  simp only [withParts, withMore, withBus, List.nodup_append, List.mem_singleton] at h1
  simp only [withParts, withMore, withBus, List.mem_append, List.mem_singleton, not_or] at h2
  exact ⟨fun h => h1.2.2 _ h _ rfl rfl, fun h => h2.2 h.symm⟩

theorem links_differ {w : WNet F} {s : UnitW F} {n : Parts} (hw : Sound (withParts w s n)) : n.discharge ≠ n.charge := by
  have h := hw.links
  simp only [withParts, withMore, List.map_append, parts, List.map_cons, List.map_nil, List.nodup_append, List.nodup_cons,
    List.mem_singleton] at h
  exact fun h' => h.2.1.1 h'.symm

/-- The unit's rows, in terms of the parts. -/
theorem parts_hold [IsStrictOrderedRing F] {w : WNet F} {s : UnitW F} (hr : Replaceable s) {n : Parts}
    (hcap : s.ext = true → 0 ≤ s.invest.nomMin ∧ 0 ≤ s.maxHours) {own : List (Con WVar F)}
    (ho : ownRows (withMore w (justUnit s)) = some own) {x y : WVar → F} (hx : MoreHold w (justUnit s) x)
    (hg : ∀ v, y (.of "Generator" n.gen v) = genPart s (fun v => x (.of "StorageUnit" s.name v)) v)
    (hc : ∀ v, y (.of "Link" n.charge v) = chargePart (fun v => x (.of "StorageUnit" s.name v)) v)
    (hd : ∀ v, y (.of "Link" n.discharge v) = dischargePart s (fun v => x (.of "StorageUnit" s.name v)) v)
    (he : ∀ v, y (.of "Store" n.store v) = storePart s (fun v => x (.of "StorageUnit" s.name v)) v) :
    MoreHold (withBus w n.bus) (parts s n) y := by
  obtain ⟨rs, hrs, -⟩ := (ownRows_mem ho).2.2.2.1 s (by simp [withMore, justUnit])
  obtain ⟨h1, h2, h3, h4, h5⟩ := (sunit_iff (w := w) hrs _).mp (hx.units s (by simp [justUnit]) rs hrs)
  have hce : capOf s.ext s.nom (fun v => y (.of "Link" n.charge v)) = capOf s.ext s.nom (fun v => x (.of "StorageUnit" s.name v)) := by
    simp only [capOf, hc, chargePart]
  have hde : capOf s.ext s.nom (fun v => y (.of "Link" n.discharge v)) = capOf s.ext s.nom (fun v => x (.of "StorageUnit" s.name v)) := by
    simp only [capOf, hd, dischargePart]
  have hee : capOf s.ext (s.maxHours * s.nom) (fun v => y (.of "Store" n.store v)) =
      s.maxHours * capOf s.ext s.nom (fun v => x (.of "StorageUnit" s.name v)) := by
    simp only [capOf, he, storePart]
    split <;> rfl
  refine ⟨?_, ?_, ?_, ?_, ?_, ?_⟩
  · intro g hgm rs' hrs'
    simp only [parts, List.mem_singleton] at hgm
    subst hgm
    refine (gen_plain_iff rfl (fun _ => rfl) rfl rfl hrs' _).mpr ⟨by simp [CapOk], fun t ht ha => ?_⟩
    simp only [capOf, Bool.false_eq_true, if_false, mul_one, hg, genPart, spilled]
    have h4 := h4 t ht ha
    by_cases hi : 0 < s.storage.inflow t
    · have h4 := h4 hi
      simp only [hi, if_true, min_eq_left (le_of_lt hi)]
      constructor <;> linarith
    · simp [hi]
  · intro g hgm rs' hrs'
    simp only [parts, List.mem_cons, List.not_mem_nil, or_false] at hgm
    rcases hgm with rfl | rfl
    · refine (link_plain_iff rfl (fun _ => rfl) hrs' _).mpr ⟨?_, fun t ht ha => ?_⟩
      · simp only [hc, chargePart]; exact h1
      · simp only [hce]
        simp only [hc, chargePart, zero_mul]
        exact (h2 t ht ha).2.1
    · refine (link_plain_iff rfl (fun _ => rfl) hrs' _).mpr ⟨?_, fun t ht ha => ?_⟩
      · intro hext
        simp only [hd, dischargePart, freeInvest]
        exact ⟨le_trans (hcap hext).1 (h1 hext).1, by simp, by simp, by simp⟩
      · simp only [hde]
        simp only [hd, dischargePart, zero_mul]
        have he := hr.eff t
        obtain ⟨ha1, ha2⟩ := (h2 t ht ha).1
        refine ⟨div_nonneg ha1 (le_of_lt he), ?_⟩
        rw [div_mul_eq_mul_div]
        exact div_le_div_of_nonneg_right ha2 (le_of_lt he)
  · intro g hgm rs' hrs'
    simp only [parts, List.mem_singleton] at hgm
    subst hgm
    refine (store_iff hrs' _).mpr ⟨?_, fun t ht ha => ?_, fun t ht ha v hv => ?_, ?_⟩
    · intro hext
      simp only [he, storePart, freeInvest]
      exact ⟨mul_nonneg (hcap hext).2 (le_trans (hcap hext).1 (h1 hext).1), by simp, by simp, by simp⟩
    · simp only [hee]
      simp only [he, storePart, if_true, zero_mul, one_mul]
      exact (h2 t ht ha).2.2
    · simp only [he, storePart, if_true]
      exact h3 t ht ha v hv
    · change Levels s.storage.toStorage ⟨w.len, w.multi, w.period⟩ (fun t => y (.of "Store" n.store (.op "e" t)))
        (fun t => - s.storage.eh t * y (.of "Store" n.store (.op "p" t)))
      intro t ht ha
      have := h5 t ht ha
      simp only [he, storePart, if_true, if_neg (show ¬ "p" = "e" by decide), spilled]
      refine this.trans ?_
      ring
  · intro g hgm; simp [parts] at hgm
  · intro g hgm; simp [parts] at hgm
  · intro g hgm; simp [parts] at hgm

/-- C122: whatever a network with a storage unit may do, the network with the parts of the storage unit in its place may do:
all other assets behave alike, level, charging, discharging and spillage are the same, and so are the costs.  This also
holds for extendable storage units, whose parts can be sized independently. -/
theorem unit_to_parts [IsStrictOrderedRing F] {w : WNet F} {s : UnitW F} (hr : Replaceable s) {n : Parts}
    (hw : Sound (withMore w (justUnit s))) (hw' : Sound (withParts w s n)) (hl : LinearCosts (withMore w (justUnit s)))
    (hg : RampsStay (w.gens.map (·.unit)) w.len) (hk : RampsStay (w.links.map (·.unit)) w.len)
    (hcap : s.ext = true → 0 ≤ s.invest.nomMin ∧ 0 ≤ s.maxHours)
    {other : List (Con WVar F)} (ho : Apart s n other) {P P' : Program F}
    (hP : createModel (withMore w (justUnit s)) other = some P) (hP' : createModel (withParts w s n) other = some P')
    (x : WVar → F) (hx : FeasibleIn P x) :
    ∃ y, FeasibleIn P' y ∧ costOf (withParts w s n) P' y = costOf (withMore w (justUnit s)) P x ∧
      (∀ v, v ≠ .const → (parts s n).has v = false → y v = x v) ∧ SameUse w s n x y := by
  obtain ⟨h1, h2, h3, h4⟩ := (feasible_iff hw hP x).mp hx
  obtain ⟨own, -, -, hown, -⟩ := createModel_parts hP
  obtain ⟨h1w, h1s⟩ := (assets_split hg hk x).mp h1
  set y := asParts w s n x with hy
  have hkeep : ∀ v, v ≠ .const → (parts s n).has v = false → y v = x v := asParts_keeps w s n x
  have hag : Agree w y x := by
    have := agree_of (w := withBus w n.bus) hw' hkeep
    exact ⟨this.gens, this.links, this.stores, this.units, this.lines, this.trafos⟩
  have hag' : Agree w x y := ⟨fun g h v => (hag.gens g h v).symm, fun g h v => (hag.links g h v).symm,
    fun g h v => (hag.stores g h v).symm, fun g h v => (hag.units g h v).symm, fun g h v => (hag.lines g h v).symm,
    fun g h v => (hag.trafos g h v).symm⟩
  have hne := links_differ hw'
  have vg : ∀ v, y (.of "Generator" n.gen v) = genPart s (fun v => x (.of "StorageUnit" s.name v)) v := by
    intro v; simp only [hy, asParts, setConst, put_same]
  have vc : ∀ v, y (.of "Link" n.charge v) = chargePart (fun v => x (.of "StorageUnit" s.name v)) v := by
    intro v
    simp only [hy, asParts, setConst]
    rw [put_other (by simp), put_same]
  have vd : ∀ v, y (.of "Link" n.discharge v) = dischargePart s (fun v => x (.of "StorageUnit" s.name v)) v := by
    intro v
    simp only [hy, asParts, setConst]
    rw [put_other (by simp), put_other (by simp [hne]), put_same]
  have ve : ∀ v, y (.of "Store" n.store v) = storePart s (fun v => x (.of "StorageUnit" s.name v)) v := by
    intro v
    simp only [hy, asParts, setConst]
    rw [put_other (by simp), put_other (by simp), put_other (by simp), put_same]
  have hpos : ∀ t, s.storage.effDispatch t ≠ 0 := fun t => ne_of_gt (hr.eff t)
  have hyf : FeasibleIn P' y := by
    refine (feasible_iff hw' hP' y).mpr ⟨(assets_split (w := withBus w n.bus) hg hk y).mpr ⟨?_, ?_⟩, ?_, ?_, ?_⟩
    · have := assets_agree hag' h1w
      exact ⟨this.gens, this.links, this.stores, this.units, this.lines, this.trafos⟩
    · exact parts_hold hr hcap hown h1s vg vc vd ve
    · intro t ht b hb
      have e1 := supply_split (withBus w n.bus) (parts s n) t ((withParts w s n).tangents != 0) (fun v => y (nodalVar t v)) b
      have e2 : Nodal.supplied (nodal (alone (withBus w n.bus) (parts s n)) t) ((withParts w s n).tangents != 0)
          (fun v => y (nodalVar t v)) b = _ := supply_parts (withBus w n.bus) s n y t ((withParts w s n).tangents != 0) b
      have e3 : Nodal.supplied (nodal (withBus w n.bus) t) ((withParts w s n).tangents != 0) (fun v => y (nodalVar t v)) b =
          Nodal.supplied (nodal w t) (w.tangents != 0) (fun v => y (nodalVar t v)) b := rfl
      have e4 : Nodal.demanded (nodal (withParts w s n) t) b = Nodal.demanded (nodal w t) b := rfl
      change Nodal.supplied (nodal (withMore (withBus w n.bus) (parts s n)) t) _ _ b = _
      rw [e1, e2, e3, e4, vg, vc, vd, ve]
      simp only [genPart, chargePart, dischargePart, storePart, if_neg (show ¬ "p" = "e" by decide)]
      have hb' : b ∈ w.buses ∨ b = n.bus := by
        simpa [withParts, withMore, withBus] using hb
      have hnb := sound_bus hw'
      have hsb : s.bus ∈ w.buses := hw.unitBus s (by simp [withMore, justUnit])
      have z2 : ∀ z : F, z = 0 → Nodal.contrib b n.bus (s.storage.active t) z = 0 := by
        intro z hz; subst hz; exact contrib_zero _ _ _
      rw [z2 _ (by ring), add_zero, mul_div_cancel₀ _ (hpos t)]
      rcases hb' with hb' | rfl
      · have := h2 t ht b hb'
        have e5 := supply_split w (justUnit s) t ((withMore w (justUnit s)).tangents != 0) (fun v => x (nodalVar t v)) b
        rw [e5, supply_unit w s hr.sign] at this
        rw [supply_agree hag]
        exact this
      · rw [(supply_nothing (sound_less hw) hnb.1 hnb.2 t _ _).1, (supply_nothing (sound_less hw) hnb.1 hnb.2 t false (fun _ => (0 : F))).2]
        unfold Nodal.contrib
        rw [if_neg (by rintro ⟨h, -⟩; exact hnb.1 (h ▸ hsb)), add_zero]
    · simp [hy, asParts, setConst]
    · exact apart_feasible (fun r hr' e he => (hkeep _ (ho r hr' e he).1 (ho r hr' e he).2.2).symm) h4
  refine ⟨y, hyf, ?_, hkeep, ⟨?_, ?_, ?_, ?_⟩⟩
  · rw [cost_total (linear_parts n hl) hP' y hyf, cost_total hl hP x hx]
    change totalCost (withMore (withBus w n.bus) (parts s n)) y = _
    rw [cost_split, cost_split, cost_parts]
    have e1 : totalCost (withBus w n.bus) y = totalCost w y := rfl
    rw [e1, cost_agree hag]
    congr 1
    simp only [vd, vc, ve, dischargePart, chargePart, storePart, if_true]
    simp only [totalCost, alone, justUnit, List.map_nil, List.sum_nil, List.map_cons, List.sum_cons, zero_add, add_zero]
    unfold unitCost
    have hsw : ∀ t, weight { w with gens := [], links := [], stores := [], units := [s], lines := [], trafos := [], loads := [] } t = weight w t :=
      fun _ => rfl
    have hlf : ∀ i, lifeWeight { w with gens := [], links := [], stores := [], units := [s], lines := [], trafos := [], loads := [] } i =
      lifeWeight w i := fun _ => rfl
    simp only [hsw, hlf]
    congr 2
    apply List.map_congr_left
    intro t _
    rw [mul_div_cancel₀ _ (hpos t), hr.spill t]
    simp
  · intro t _ _; rw [ve]; simp [storePart]
  · intro t _ _; rw [vc]; rfl
  · intro t _ _; rw [vd]; exact mul_div_cancel₀ _ (hpos t)
  · intro t _ _ hi; rw [vg]; simp [genPart, spilled, hi]

theorem unit_hold [IsStrictOrderedRing F] {w : WNet F} {s : UnitW F} (hr : Replaceable s) (hext : s.ext = false) {n : Parts}
    {own : List (Con WVar F)} (ho : ownRows (withParts w s n) = some own) {x y : WVar → F}
    (hy : MoreHold (withBus w n.bus) (parts s n) y)
    (hbal : ∀ t < w.len, s.storage.active t = true → y (.of "Generator" n.gen (.op "p" t)) + y (.of "Store" n.store (.op "p" t)) -
      y (.of "Link" n.discharge (.op "p" t)) + s.storage.effStore t * y (.of "Link" n.charge (.op "p" t)) = 0)
    (hx : ∀ v, x (.of "StorageUnit" s.name v) = unitPart s n y v) :
    MoreHold w (justUnit s) x := by
  obtain ⟨m1, m2, m3, -⟩ := ownRows_mem ho
  obtain ⟨r1, e1, -⟩ := m1 _ (List.mem_append_right _ (by simp only [parts]; exact List.mem_cons_self))
  obtain ⟨r2, e2, -⟩ := m2 _ (List.mem_append_right _ (by simp only [parts]; exact List.mem_cons_self))
  obtain ⟨r3, e3, -⟩ := m2 _ (List.mem_append_right _ (by simp only [parts]; exact List.mem_cons_of_mem _ List.mem_cons_self))
  obtain ⟨r4, e4, -⟩ := m3 _ (List.mem_append_right _ (by simp only [parts]; exact List.mem_cons_self))
  obtain ⟨-, b1⟩ := (gen_plain_iff rfl (fun _ => rfl) rfl rfl e1 _).mp
    (hy.gens _ (by simp only [parts]; exact List.mem_cons_self) r1 e1)
  obtain ⟨c2, b2⟩ := (link_plain_iff rfl (fun _ => rfl) e2 _).mp
    (hy.links _ (by simp only [parts]; exact List.mem_cons_self) r2 e2)
  obtain ⟨-, b3⟩ := (link_plain_iff rfl (fun _ => rfl) e3 _).mp
    (hy.links _ (by simp only [parts]; exact List.mem_cons_of_mem _ List.mem_cons_self) r3 e3)
  obtain ⟨-, b4, s4, l4⟩ := (store_iff e4 _).mp (hy.stores _ (by simp only [parts]; exact List.mem_cons_self) r4 e4)
  simp only [capOf, hext, Bool.false_eq_true, if_false, mul_one, zero_mul, one_mul] at b1 b2 b3 b4
  refine ⟨?_, ?_, ?_, ?_, ?_, ?_⟩
  · intro g hgm; simp [justUnit] at hgm
  · intro g hgm; simp [justUnit] at hgm
  · intro g hgm; simp [justUnit] at hgm
  · intro g hgm rs hrs
    simp only [justUnit, List.mem_singleton] at hgm
    subst hgm
    have u1 : ∀ t, x (.of "StorageUnit" g.name (.op "p_dispatch" t)) =
        g.storage.effDispatch t * y (.of "Link" n.discharge (.op "p" t)) := fun t => by rw [hx]; rfl
    have u2 : ∀ t, x (.of "StorageUnit" g.name (.op "p_store" t)) = y (.of "Link" n.charge (.op "p" t)) := fun t => by
      rw [hx]; rfl
    have u3 : ∀ t, x (.of "StorageUnit" g.name (.op "state_of_charge" t)) = y (.of "Store" n.store (.op "e" t)) := fun t => by
      rw [hx]; rfl
    have u4 : ∀ t, x (.of "StorageUnit" g.name (.op "spill" t)) = g.storage.inflow t - y (.of "Generator" n.gen (.op "p" t)) :=
      fun t => by rw [hx]; rfl
    refine (sunit_iff hrs _).mpr ⟨by simp [CapOk, hext], fun t ht ha => ⟨?_, ?_, ?_⟩, fun t ht ha v hv => ?_, fun t ht ha hi => ?_, ?_⟩
    · simp only [capOf, hext, Bool.false_eq_true, if_false, u1]
      have he := hr.eff t
      obtain ⟨q1, q2⟩ := b3 t ht ha
      refine ⟨mul_nonneg (le_of_lt he) q1, ?_⟩
      have := mul_le_mul_of_nonneg_left q2 (le_of_lt he)
      calc _ ≤ _ := this
        _ = _ := by field_simp
    · simp only [capOf, hext, Bool.false_eq_true, if_false, u2]
      exact b2 t ht ha
    · simp only [capOf, hext, Bool.false_eq_true, if_false, u3]
      exact b4 t ht ha
    · simp only [u3]
      exact s4 t ht ha v hv
    · simp only [u4]
      obtain ⟨q1, q2⟩ := b1 t ht ha
      rw [min_eq_left (le_of_lt hi)] at q1
      constructor <;> linarith
    · intro t ht ha
      simp only [u1, u2, u3, u4]
      have h1 : y (.of "Store" n.store (.op "e" t)) = kept g.storage.toStorage ⟨w.len, w.multi, w.period⟩
          (fun t => y (.of "Store" n.store (.op "e" t))) t + - g.storage.eh t * y (.of "Store" n.store (.op "p" t)) +
          if included g.storage.toStorage ⟨w.len, w.multi, w.period⟩ t then 0 else g.storage.initial := l4 t ht ha
      refine h1.trans ?_
      have h2 := hbal t ht ha
      have h3 : y (.of "Store" n.store (.op "p" t)) = y (.of "Link" n.discharge (.op "p" t)) -
          g.storage.effStore t * y (.of "Link" n.charge (.op "p" t)) - y (.of "Generator" n.gen (.op "p" t)) := by linarith
      have h4 : g.storage.effDispatch t * y (.of "Link" n.discharge (.op "p" t)) / g.storage.effDispatch t =
          y (.of "Link" n.discharge (.op "p" t)) := mul_div_cancel_left₀ _ (ne_of_gt (hr.eff t))
      rw [h3, h4]
      by_cases hi : 0 < g.storage.inflow t
      · simp only [hi, if_true]; ring
      · obtain ⟨q1, q2⟩ := b1 t ht ha
        rw [min_eq_right (not_lt.mp hi)] at q1
        have : y (.of "Generator" n.gen (.op "p" t)) = g.storage.inflow t := le_antisymm q2 q1
        rw [this]
        simp only [hi, if_false]; ring
  · intro g hgm; simp [justUnit] at hgm
  · intro g hgm; simp [justUnit] at hgm

/-- C122, the other way round: if the capacity of the storage unit is fixed, whatever the parts may do the storage unit may do. -/
theorem parts_to_unit [IsStrictOrderedRing F] {w : WNet F} {s : UnitW F} (hr : Replaceable s) (hext : s.ext = false) {n : Parts}
    (hw : Sound (withMore w (justUnit s))) (hw' : Sound (withParts w s n)) (hl : LinearCosts (withMore w (justUnit s)))
    (hg : RampsStay (w.gens.map (·.unit)) w.len) (hk : RampsStay (w.links.map (·.unit)) w.len)
    {other : List (Con WVar F)} (ho : Apart s n other) {P P' : Program F}
    (hP : createModel (withMore w (justUnit s)) other = some P) (hP' : createModel (withParts w s n) other = some P')
    (y : WVar → F) (hy : FeasibleIn P' y) :
    ∃ x, FeasibleIn P x ∧ costOf (withMore w (justUnit s)) P x = costOf (withParts w s n) P' y ∧
      (∀ v, v ≠ .const → (justUnit s).has v = false → x v = y v) ∧ SameUse w s n x y := by
  obtain ⟨h1, h2, h3, h4⟩ := (feasible_iff hw' hP' y).mp hy
  obtain ⟨own, -, -, hown, -⟩ := createModel_parts hP'
  obtain ⟨h1w, h1s⟩ := (assets_split (w := withBus w n.bus) hg hk y).mp h1
  set x := asUnit w s n y with hx
  have hkeep : ∀ v, v ≠ .const → (justUnit s).has v = false → x v = y v := asUnit_keeps w s n y
  have hag : Agree w x y := agree_of hw hkeep
  have hag' : Agree w y x := ⟨fun g h v => (hag.gens g h v).symm, fun g h v => (hag.links g h v).symm,
    fun g h v => (hag.stores g h v).symm, fun g h v => (hag.units g h v).symm, fun g h v => (hag.lines g h v).symm,
    fun g h v => (hag.trafos g h v).symm⟩
  have vu : ∀ v, x (.of "StorageUnit" s.name v) = unitPart s n y v := by
    intro v; simp only [hx, asUnit, setConst, put_same]
  have hnb := sound_bus hw'
  have hsb : s.bus ∈ w.buses := hw.unitBus s (by simp [withMore, justUnit])
  have bal : ∀ t < w.len, ∀ b, b ∈ w.buses ∨ b = n.bus →
      Nodal.supplied (nodal w t) (w.tangents != 0) (fun v => y (nodalVar t v)) b +
        (Nodal.contrib b s.bus (s.storage.active t)
          (s.storage.effDispatch t * y (.of "Link" n.discharge (.op "p" t)) - y (.of "Link" n.charge (.op "p" t))) +
        Nodal.contrib b n.bus (s.storage.active t)
          (y (.of "Generator" n.gen (.op "p" t)) + y (.of "Store" n.store (.op "p" t)) - y (.of "Link" n.discharge (.op "p" t)) +
            s.storage.effStore t * y (.of "Link" n.charge (.op "p" t)))) = Nodal.demanded (nodal w t) b := by
    intro t ht b hb
    have e1 := supply_split (withBus w n.bus) (parts s n) t (w.tangents != 0) (fun v => y (nodalVar t v)) b
    rw [supply_parts (withBus w n.bus) s n y t (w.tangents != 0) b] at e1
    refine e1.symm.trans ?_
    exact h2 t ht b (by simpa [withParts, withMore, withBus] using hb)
  have hbal : ∀ t < w.len, s.storage.active t = true → y (.of "Generator" n.gen (.op "p" t)) + y (.of "Store" n.store (.op "p" t)) -
      y (.of "Link" n.discharge (.op "p" t)) + s.storage.effStore t * y (.of "Link" n.charge (.op "p" t)) = 0 := by
    intro t ht ha
    have := bal t ht n.bus (Or.inr rfl)
    rw [(supply_nothing (sound_less hw) hnb.1 hnb.2 t _ _).1, (supply_nothing (sound_less hw) hnb.1 hnb.2 t false (fun _ => (0 : F))).2] at this
    unfold Nodal.contrib at this
    rw [if_neg (by rintro ⟨h, -⟩; exact hnb.1 (h ▸ hsb)), if_pos ⟨rfl, ha⟩] at this
    simpa using this
  have hxf : FeasibleIn P x := by
    refine (feasible_iff hw hP x).mpr ⟨(assets_split hg hk x).mpr ⟨?_, ?_⟩, ?_, ?_, ?_⟩
    · exact assets_agree hag' ⟨h1w.gens, h1w.links, h1w.stores, h1w.units, h1w.lines, h1w.trafos⟩
    · exact unit_hold hr hext hown h1s hbal vu
    · intro t ht b hb
      have e5 := supply_split w (justUnit s) t ((withMore w (justUnit s)).tangents != 0) (fun v => x (nodalVar t v)) b
      rw [e5, supply_unit w s hr.sign, supply_agree hag]
      have := bal t ht b (Or.inl hb)
      have hbn : ¬ (n.bus = b ∧ s.storage.active t = true) := by rintro ⟨h, -⟩; exact hnb.1 (h ▸ hb)
      rw [show Nodal.contrib b n.bus (s.storage.active t) (y (.of "Generator" n.gen (.op "p" t)) + y (.of "Store" n.store (.op "p" t)) -
          y (.of "Link" n.discharge (.op "p" t)) + s.storage.effStore t * y (.of "Link" n.charge (.op "p" t))) = 0 from if_neg hbn,
        add_zero] at this
      rw [vu, vu]
      exact this
    · simp [hx, asUnit, setConst]
    · exact apart_feasible (fun r hr' e he => (hkeep _ (ho r hr' e he).1 (ho r hr' e he).2.1).symm) h4
  refine ⟨x, hxf, ?_, hkeep, ⟨?_, ?_, ?_, ?_⟩⟩
  · rw [cost_total (linear_parts n hl) hP' y hy, cost_total hl hP x hxf]
    change _ = totalCost (withMore (withBus w n.bus) (parts s n)) y
    rw [cost_split, cost_split, cost_parts]
    have e1 : totalCost (withBus w n.bus) y = totalCost w y := rfl
    rw [e1, cost_agree hag]
    congr 1
    simp only [totalCost, alone, justUnit, List.map_nil, List.sum_nil, List.map_cons, List.sum_cons, zero_add, add_zero]
    unfold unitCost
    have hsw : ∀ t, weight { w with gens := [], links := [], stores := [], units := [s], lines := [], trafos := [], loads := [] } t = weight w t :=
      fun _ => rfl
    simp only [hsw, hext, Bool.false_eq_true, if_false, add_zero]
    congr 1
    apply List.map_congr_left
    intro t _
    rw [hr.spill t, vu, vu]
    simp [unitPart]
  · intro t _ _; rw [vu]; rfl
  · intro t _ _; rw [vu]; rfl
  · intro t _ _; rw [vu]; rfl
  · intro t _ _ hi; rw [vu]; simp [unitPart]

/-- So both networks have the same optimum. -/
theorem replaced_optimum [IsStrictOrderedRing F] {w : WNet F} {s : UnitW F} (hr : Replaceable s) (hext : s.ext = false) {n : Parts}
    (hw : Sound (withMore w (justUnit s))) (hw' : Sound (withParts w s n)) (hl : LinearCosts (withMore w (justUnit s)))
    (hg : RampsStay (w.gens.map (·.unit)) w.len) (hk : RampsStay (w.links.map (·.unit)) w.len)
    {other : List (Con WVar F)} (ho : Apart s n other) {P P' : Program F}
    (hP : createModel (withMore w (justUnit s)) other = some P) (hP' : createModel (withParts w s n) other = some P')
    (x y : WVar → F) (hx : Cheapest (withMore w (justUnit s)) P x) (hy : Cheapest (withParts w s n) P' y) :
    costOf (withParts w s n) P' y = costOf (withMore w (justUnit s)) P x := by
  obtain ⟨y', h1, h2, -⟩ := unit_to_parts hr hw hw' hl hg hk (by simp [hext]) ho hP hP' x hx.1
  obtain ⟨x', h3, h4, -⟩ := parts_to_unit hr hext hw hw' hl hg hk ho hP hP' y hy.1
  refine le_antisymm ?_ ?_
  · rw [← h2]; exact hy.2 y' h1
  · rw [← h4]; exact hx.2 x' h3

/-! ## Examples -/

/-- A reservoir with inflow, which may also pump. -/
def exReservoir (ext : Bool) : UnitW ℚ :=
  ⟨"reservoir", "D", 1, ⟨⟨fun _ => true, false, false, false, 2, fun _ => 1, fun _ => 1 / 2⟩, fun _ => 1 / 2, fun _ => 4 / 5,
    fun t => if t = 0 then 3 else 0⟩, ext, 4, fun _ => -1, fun _ => 1, 3, exInvest 1, exCosts 2 (1 / 8), fun _ => none⟩

def exParts : Parts := ⟨"water", "river", "pump up", "turbine", "lake"⟩

theorem reservoir_some : (createModel (withMore exNet (justUnit (exReservoir false))) exOther).isSome = true := by decide +kernel

theorem lake_some : (createModel (withParts exNet (exReservoir false) exParts) exOther).isSome = true := by decide +kernel

/-- `replaced_optimum` for the network of `WholeExample.lean` with a reservoir. -/
example (x y : WVar → ℚ)
    (hx : Cheapest (withMore exNet (justUnit (exReservoir false))) ((createModel _ exOther).get reservoir_some) x)
    (hy : Cheapest (withParts exNet (exReservoir false) exParts) ((createModel _ exOther).get lake_some) y) :
    costOf (withParts exNet (exReservoir false) exParts) ((createModel _ exOther).get lake_some) y =
      costOf (withMore exNet (justUnit (exReservoir false))) ((createModel _ exOther).get reservoir_some) x := by
  refine replaced_optimum ⟨rfl, fun t => ?_, fun t => rfl⟩ rfl (by constructor <;> decide +kernel) (by constructor <;> decide +kernel)
    ⟨?_, ?_, ?_, ?_, by decide +kernel, by decide +kernel⟩
    (Or.inl (by simp [exNet, exGen, exPeaker, exUnit'])) (Or.inl (by simp [exNet, exLink, exUnit'])) ?_
    (Option.some_get reservoir_some).symm (Option.some_get lake_some).symm x y hx hy
  · show (0 : ℚ) < 4 / 5
    norm_num
  · intro g hg t; simp [exNet, withMore, justUnit] at hg; rcases hg with rfl | rfl <;> rfl
  · intro g hg t; simp [exNet, withMore, justUnit] at hg; rcases hg with rfl <;> rfl
  · intro g hg t; simp [exNet, withMore, justUnit] at hg; rcases hg with rfl <;> rfl
  · intro g hg t; simp [exNet, withMore, justUnit] at hg; rcases hg with rfl | rfl <;> rfl
  · unfold Apart; decide +kernel

end Verif.Opt.Whole
