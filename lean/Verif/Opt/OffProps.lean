import Verif.Opt.ExtendProps
import Verif.Opt.Global

/-!
# C121: an asset that is switched off counts as if it were not there

About the whole problem of `Whole.lean` and the global constraints of `Global.lean`: assets whose column `active` is false,
so that they are active at no snapshot and in no investment period (`Activity.lean`).
-/

namespace Verif.Opt.Whole

variable {F : Type} [Field F] [LinearOrder F]

/-! ## Spec -/

/-- Investment columns of an asset that is switched off. -/
def OffInvest (i : Invest F) : Prop := i.activeFlag = false ∧ ∀ p, i.activeIn p = false

/-- All these assets are switched off. -/
structure More.Off (m : More F) : Prop where
  gens : ∀ g ∈ m.gens, (∀ t, g.unit.active t = false) ∧ OffInvest g.invest
  links : ∀ g ∈ m.links, (∀ t, g.unit.active t = false) ∧ OffInvest g.invest
  stores : ∀ g ∈ m.stores, (∀ t, g.storage.active t = false) ∧ OffInvest g.invest
  units : ∀ g ∈ m.units, (∀ t, g.storage.active t = false) ∧ OffInvest g.invest
  lines : ∀ g ∈ m.lines, (∀ t, g.active t = false) ∧ OffInvest g.invest
  trafos : ∀ g ∈ m.trafos, (∀ t, g.active t = false) ∧ OffInvest g.invest

/-- What is asked of capacity and number of modules of an extendable asset. -/
def CapOk (ext : Bool) (i : Invest F) (cap mods : F) : Prop :=
  ext = true → i.nomMin ≤ cap ∧ (∀ u, i.nomMax = some u → cap ≤ u) ∧ (∀ s, i.nomSet = some s → cap = s) ∧
    (0 < i.nomMod → cap = i.nomMod * mods ∧ 0 ≤ mods)

/-- What is asked of the capacities of these assets. -/
structure More.CapsOk (m : More F) (x : WVar → F) : Prop where
  gens : ∀ g ∈ m.gens, CapOk g.unit.extendable g.invest (x (.of "Generator" g.name .cap)) (x (.of "Generator" g.name .mod))
  links : ∀ g ∈ m.links, CapOk g.unit.extendable g.invest (x (.of "Link" g.name .cap)) (x (.of "Link" g.name .mod))
  stores : ∀ g ∈ m.stores, CapOk g.ext g.invest (x (.of "Store" g.name .cap)) (x (.of "Store" g.name .mod))
  units : ∀ g ∈ m.units, CapOk g.ext g.invest (x (.of "StorageUnit" g.name .cap)) (x (.of "StorageUnit" g.name .mod))
  lines : ∀ g ∈ m.lines, CapOk g.ext g.invest (x (.of "Line" g.name .cap)) (x (.of "Line" g.name .mod))
  trafos : ∀ g ∈ m.trafos, CapOk g.ext g.invest (x (.of "Transformer" g.name .cap)) (x (.of "Transformer" g.name .mod))

/-! ## Rows of assets that are switched off -/

theorem capRows_iff {name : Name} {ext : Bool} {i : Invest F} {rs : List (Con Loc F)} (h : capRows name ext i = some rs)
    (y : Loc → F) : (∀ q ∈ rs, q.holds y) ↔ CapOk ext i (y .cap) (y .mod) := by
  unfold capRows at h
  obtain ⟨r, hr, rfl⟩ := Option.map_eq_some_iff.mp h
  cases ext with
  | false =>
    simp [Capacity.capacityCons, Capacity.fixedNominalCons, Capacity.nominalCons, Capacity.modularCons, Capacity.modular, capAsset,
      Capacity.setRow] at hr ⊢
    cases hs : i.nomSet with
    | some s => simp [hs, Except.toOption] at hr
    | none =>
      simp [hs, Except.toOption] at hr
      subst hr
      simp [CapOk]
  | true =>
    have e : r = Capacity.nominalCons [capAsset name true i] ++ [capAsset name true i].flatMap Capacity.setRow ++
        Capacity.modularCons [capAsset name true i] := by
      simp [Capacity.capacityCons, Capacity.fixedNominalCons, capAsset, Except.toOption] at hr
      rw [← hr]; simp [capAsset]
    subst e
    unfold CapOk
    cases hm : i.nomMax <;> cases hs : i.nomSet <;> by_cases h0 : 0 < i.nomMod <;>
      simp [Capacity.nominalCons, Capacity.modularCons, Capacity.modular, capAsset, Capacity.setRow, remap, capLoc, Con.holds, lin,
        hm, hs, h0, add_neg_eq_zero]

theorem rowsAt_off {u : Unit' F} (h : ∀ t, u.active t = false) (ts : List Nat) (f : Nat → List (Con UVar F)) :
    rowsAt u ts f = [] := by
  simp [rowsAt, h]

theorem unitCons_off {cls : List (Unit' F)} {u : Unit' F} (h : ∀ t, u.active t = false) {T : Nat} {rolling lin' : Bool} :
    unitCons cls u T rolling lin' = [] := by
  simp [unitCons, nonExtCons, extCons, comCons, linearizedCons, rampCons, rowsAt_off h]

theorem setRows_off {len : Nat} {var : Name} {active : Nat → Bool} {value : Nat → Option F} (h : ∀ t, active t = false) :
    setRows len var active value = [] := by
  simp only [setRows, Capacity.fixedOperationCons, h]
  simp
  intro t _
  cases value t <;> simp [h]

theorem boundRows_off {len : Nat} {c : Accessor.Cls} {attr : Accessor.Attr'} {var : Name} {losses : Bool}
    {a : Nat → Accessor.Asset F} (h : ∀ t, (a t).active = false) : boundRows len c attr var losses a = [] := by
  simp [boundRows, Accessor.opRows, Accessor.fixRows, Accessor.extRows, h]

theorem genRows_off {w : WNet F} {g : GenW F} (h : ∀ t, g.unit.active t = false) :
    genRows w g = capRows g.name g.unit.extendable g.invest := by
  unfold genRows
  rw [unitCons_off h, setRows_off h]
  have e1 : commitRows w.len g.unit = [] := by simp [commitRows, h]
  have e2 : Capacity.totalSupplyCons (List.range w.len) w.gw [⟨g.name, g.unit.active, g.eSumMin, g.eSumMax⟩] = [] := by
    have : Capacity.sumTerms (List.range w.len) w.gw ⟨g.name, g.unit.active, g.eSumMin, g.eSumMax⟩ = [] := by
      simp [Capacity.sumTerms, h]
    simp only [Capacity.totalSupplyCons, List.flatMap_cons, List.flatMap_nil, this]
    cases g.eSumMin <;> cases g.eSumMax <;> simp [Capacity.rowOf]
  rw [e1, e2]
  simp

theorem linkRows_off {w : WNet F} {g : LinkW F} (h : ∀ t, g.unit.active t = false) :
    linkRows w g = capRows g.name g.unit.extendable g.invest := by
  unfold linkRows
  rw [unitCons_off h, setRows_off h]
  have e1 : commitRows w.len g.unit = [] := by simp [commitRows, h]
  rw [e1]
  simp

theorem storeRows_off {w : WNet F} {g : StoreW F} (h : ∀ t, g.storage.active t = false) :
    storeRows w g = capRows g.name g.ext g.invest := by
  unfold storeRows
  rw [boundRows_off h, setRows_off h]
  have e1 : storeCons g.storage ⟨w.len, w.multi, w.period⟩ = [] := by simp [storeCons, h]
  rw [e1]
  simp

theorem sunitRows_off {w : WNet F} {g : UnitW F} (h : ∀ t, g.storage.active t = false) :
    sunitRows w g = capRows g.name g.ext g.invest := by
  unfold sunitRows
  rw [boundRows_off h, boundRows_off h, boundRows_off h, setRows_off h]
  have e1 : storageUnitCons g.storage ⟨w.len, w.multi, w.period⟩ = [] := by simp [storageUnitCons, h]
  have e2 : (List.range w.len).flatMap (fun t => if hasSpill g.storage t then
      [(⟨[(1, .op "spill" t)], .ge, 0⟩ : Con Loc F), ⟨[(1, .op "spill" t)], .le, g.storage.inflow t⟩] else []) = [] := by
    simp [hasSpill, h]
  rw [e1, e2]
  simp

theorem lossRows_off {w : WNet F} {g : BranchW F} (h : ∀ t, g.active t = false) {rs : List (Con Loc F)}
    (hr : lossRows w g = some rs) : rs = [] := by
  unfold lossRows at hr
  split at hr
  · simpa using hr.symm
  · obtain ⟨ls, hl, rfl⟩ := Option.map_eq_some_iff.mp hr
    have hm := mapM_some_eq _ _ ls hl
    have : ∀ l ∈ ls, l = [] := by
      intro l hl'
      have : some l ∈ (List.range w.len).map (fun t => (lossCons (branchLoss g t) w.tangents).toOption.map
          (fun r => r.map (remap (lossLoc t)))) := by
        rw [hm]; exact List.mem_map_of_mem hl'
      obtain ⟨t, -, ht⟩ := List.mem_map.mp this
      obtain ⟨r, hr', rfl⟩ := Option.map_eq_some_iff.mp ht
      unfold lossCons at hr'
      cases hn : lossRating (branchLoss g t) with
      | none => simp [hn, Except.toOption] at hr'
      | some u =>
        rw [hn] at hr'
        have ha : (branchLoss g t).active = false := h t
        simp [ha, Except.toOption] at hr'
        subst hr'
        rfl
    simpa using this

theorem branchRows_off {w : WNet F} {c : Accessor.Cls} {g : BranchW F} (h : ∀ t, g.active t = false) {rs : List (Con Loc F)}
    (hr : branchRows w c g = some rs) : capRows g.name g.ext g.invest = some rs := by
  unfold branchRows at hr
  obtain ⟨cap, hc, hr⟩ := Option.bind_eq_some_iff.mp hr
  obtain ⟨loss, hl, rfl⟩ := Option.map_eq_some_iff.mp hr
  rw [hc, lossRows_off h hl, boundRows_off h, setRows_off h]
  simp

theorem assets_off {w : WNet F} {m : More F} (ho : m.Off)
    (hg : RampsStay (w.gens.map (·.unit)) w.len) (hk : RampsStay (w.links.map (·.unit)) w.len) {own : List (Con WVar F)}
    (hown : ownRows (withMore w m) = some own) (x : WVar → F) :
    AssetsHold (withMore w m) x ↔ AssetsHold w x ∧ m.CapsOk x := by
  obtain ⟨m1, m2, m3, m4, m5, m6⟩ := ownRows_mem hown
  constructor
  · intro h
    refine ⟨⟨?_, ?_, ?_, ?_, ?_, ?_⟩, ⟨?_, ?_, ?_, ?_, ?_, ?_⟩⟩
    · intro g hm rs hrs
      exact h.gens g (List.mem_append_left _ hm) rs (by rw [genRows_more hg hm, hrs])
    · intro g hm rs hrs
      exact h.links g (List.mem_append_left _ hm) rs (by rw [linkRows_more hk hm, hrs])
    · exact fun g hm => h.stores g (List.mem_append_left _ hm)
    · exact fun g hm => h.units g (List.mem_append_left _ hm)
    · exact fun g hm => h.lines g (List.mem_append_left _ hm)
    · exact fun g hm => h.trafos g (List.mem_append_left _ hm)
    · intro g hm
      obtain ⟨rs, e, -⟩ := m1 g (List.mem_append_right _ hm)
      exact (capRows_iff (by rw [← genRows_off (ho.gens g hm).1]; exact e) _).mp (h.gens g (List.mem_append_right _ hm) rs e)
    · intro g hm
      obtain ⟨rs, e, -⟩ := m2 g (List.mem_append_right _ hm)
      exact (capRows_iff (by rw [← linkRows_off (ho.links g hm).1]; exact e) _).mp (h.links g (List.mem_append_right _ hm) rs e)
    · intro g hm
      obtain ⟨rs, e, -⟩ := m3 g (List.mem_append_right _ hm)
      exact (capRows_iff (by rw [← storeRows_off (ho.stores g hm).1]; exact e) _).mp (h.stores g (List.mem_append_right _ hm) rs e)
    · intro g hm
      obtain ⟨rs, e, -⟩ := m4 g (List.mem_append_right _ hm)
      exact (capRows_iff (by rw [← sunitRows_off (ho.units g hm).1]; exact e) _).mp (h.units g (List.mem_append_right _ hm) rs e)
    · intro g hm
      obtain ⟨rs, e, -⟩ := m5 g (List.mem_append_right _ hm)
      exact (capRows_iff (branchRows_off (ho.lines g hm).1 e) _).mp (h.lines g (List.mem_append_right _ hm) rs e)
    · intro g hm
      obtain ⟨rs, e, -⟩ := m6 g (List.mem_append_right _ hm)
      exact (capRows_iff (branchRows_off (ho.trafos g hm).1 e) _).mp (h.trafos g (List.mem_append_right _ hm) rs e)
  · rintro ⟨h, hc⟩
    refine ⟨?_, ?_, ?_, ?_, ?_, ?_⟩ <;> intro g hgm rs hrs q hq <;> rcases List.mem_append.mp hgm with hm | hm
    · rw [genRows_more hg hm] at hrs
      exact h.gens g hm rs hrs q hq
    · rw [genRows_off (ho.gens g hm).1] at hrs
      exact (capRows_iff hrs _).mpr (hc.gens g hm) q hq
    · rw [linkRows_more hk hm] at hrs
      exact h.links g hm rs hrs q hq
    · rw [linkRows_off (ho.links g hm).1] at hrs
      exact (capRows_iff hrs _).mpr (hc.links g hm) q hq
    · exact h.stores g hm rs hrs q hq
    · rw [storeRows_off (ho.stores g hm).1] at hrs
      exact (capRows_iff hrs _).mpr (hc.stores g hm) q hq
    · exact h.units g hm rs hrs q hq
    · rw [sunitRows_off (ho.units g hm).1] at hrs
      exact (capRows_iff hrs _).mpr (hc.units g hm) q hq
    · exact h.lines g hm rs hrs q hq
    · exact (capRows_iff (branchRows_off (ho.lines g hm).1 hrs) _).mpr (hc.lines g hm) q hq
    · exact h.trafos g hm rs hrs q hq
    · exact (capRows_iff (branchRows_off (ho.trafos g hm).1 hrs) _).mpr (hc.trafos g hm) q hq

/-! ## Balance and costs -/

theorem contrib_off (b c : Name) (x : F) : Nodal.contrib b c false x = 0 := by simp [Nodal.contrib]

theorem balance_off {w : WNet F} {m : More F} (ho : m.Off) (x : WVar → F) : Balance (withMore w m) x ↔ Balance w x := by
  have key : ∀ t b, Nodal.supplied (nodal (withMore w m) t) ((withMore w m).tangents != 0) (fun v => x (nodalVar t v)) b =
      Nodal.supplied (nodal w t) (w.tangents != 0) (fun v => x (nodalVar t v)) b := by
    intro t b
    unfold Nodal.supplied nodal
    simp only [List.map_map, withMore, Function.comp_def, nodalVar]
    rw [sum_more w.gens m.gens _ _ (fun _ _ => rfl), sum_more w.stores m.stores _ _ (fun _ _ => rfl),
      sum_more w.units m.units _ _ (fun _ _ => rfl), sum_more w.lines m.lines _ _ (fun _ _ => rfl),
      sum_more w.trafos m.trafos _ _ (fun _ _ => rfl), sum_more w.links m.links _ _ (fun _ _ => rfl)]
    all_goals first
      | rfl
      | (intro g hg; simp [(ho.gens g hg).1 t, contrib_off]; done)
      | (intro g hg; simp [(ho.stores g hg).1 t, contrib_off]; done)
      | (intro g hg; simp [(ho.units g hg).1 t, contrib_off]; done)
      | (intro g hg; simp [(ho.lines g hg).1 t, contrib_off]; done)
      | (intro g hg; simp [(ho.trafos g hg).1 t, contrib_off]; done)
      | (intro g hg; simp [(ho.links g hg).1 t, contrib_off]; done)
  unfold Balance
  simp only [key]
  exact Iff.rfl

theorem life_off {w : WNet F} {i : Invest F} (h : OffInvest i) : lifeWeight w i = 0 := by
  unfold lifeWeight
  cases w.periods with
  | none => simp [h.1]
  | some p => simp [h.2]

theorem cost_off {w : WNet F} {m : More F} (ho : m.Off) (x : WVar → F) : totalCost (withMore w m) x = totalCost w x := by
  unfold totalCost
  have h1 := sum_more w.gens m.gens (fun g => genCost w g x) (fun g => genCost (withMore w m) g x)
    (fun g _ => rfl) (fun g hg => by simp [genCost, (ho.gens g hg).1, life_off (ho.gens g hg).2])
  have h2 := sum_more w.links m.links (fun g => linkCost w g x) (fun g => linkCost (withMore w m) g x)
    (fun g _ => rfl) (fun g hg => by simp [linkCost, (ho.links g hg).1, life_off (ho.links g hg).2])
  have h3 := sum_more w.stores m.stores (fun g => storeCost w g x) (fun g => storeCost (withMore w m) g x)
    (fun g _ => rfl) (fun g hg => by simp [storeCost, (ho.stores g hg).1, life_off (ho.stores g hg).2])
  have h4 := sum_more w.units m.units (fun g => unitCost w g x) (fun g => unitCost (withMore w m) g x)
    (fun g _ => rfl) (fun g hg => by simp [unitCost, (ho.units g hg).1, life_off (ho.units g hg).2])
  have h5 := sum_more w.lines m.lines (fun g => branchCost w "Line" g x) (fun g => branchCost (withMore w m) "Line" g x)
    (fun g _ => rfl) (fun g hg => by simp [branchCost, life_off (ho.lines g hg).2])
  have h6 := sum_more w.trafos m.trafos (fun g => branchCost w "Transformer" g x)
    (fun g => branchCost (withMore w m) "Transformer" g x)
    (fun g _ => rfl) (fun g hg => by simp [branchCost, life_off (ho.trafos g hg).2])
  exact congr (congrArg _ (congr (congrArg _ (congr (congrArg _ (congr (congrArg _ (congr (congrArg _ h1) h2)) h3)) h4)) h5)) h6

theorem constant_class {w : WNet F} {m : More F} {α : Type} (l k : List α) (mk : α → Objective.Asset F)
    (h : ∀ g ∈ k, (mk g).activeFlag = false ∧ ∀ p, (mk g).activeIn p = false) :
    ((((l ++ k).map mk).filter (·.ext)).map (fun a => Objective.capitalWeight (objNet (withMore w m)) a * a.capitalCost * a.nom)).sum =
      (((l.map mk).filter (·.ext)).map (fun a => Objective.capitalWeight (objNet w) a * a.capitalCost * a.nom)).sum := by
  have hp : ∀ a : Objective.Asset F, Objective.capitalWeight (objNet (withMore w m)) a = Objective.capitalWeight (objNet w) a := fun _ => rfl
  simp only [hp]
  rw [List.map_append, List.filter_append, List.map_append, List.sum_append, add_eq_left]
  apply sum_zero
  intro a ha
  obtain ⟨g, hg, rfl⟩ := List.mem_map.mp (List.mem_filter.mp ha).1
  have : Objective.capitalWeight (objNet w) (mk g) = 0 := by
    unfold Objective.capitalWeight
    cases (objNet w).periods with
    | none => simp [(h g hg).1]
    | some p => simp [(h g hg).2]
  rw [this, zero_mul, zero_mul]

theorem constant_off {w : WNet F} {m : More F} (ho : m.Off) :
    Objective.constant (objNet (withMore w m)) = Objective.constant (objNet w) := by
  unfold Objective.constant
  congr 1
  apply List.map_congr_left
  intro c hc
  simp only [Objective.nominalAttrs, List.mem_cons, List.not_mem_nil, or_false] at hc
  rcases hc with rfl | rfl | rfl | rfl | rfl | rfl
  all_goals simp only [assets_gen, assets_link, assets_store, assets_unit, assets_line, assets_trafo]
  · exact constant_class (w := w) (m := m) w.gens m.gens genAsset (fun g hg => (ho.gens g hg).2)
  · exact constant_class (w := w) (m := m) w.lines m.lines branchAsset (fun g hg => (ho.lines g hg).2)
  · exact constant_class (w := w) (m := m) w.trafos m.trafos branchAsset (fun g hg => (ho.trafos g hg).2)
  · exact constant_class (w := w) (m := m) w.links m.links linkAsset (fun g hg => (ho.links g hg).2)
  · exact constant_class (w := w) (m := m) w.stores m.stores storeAsset (fun g hg => (ho.stores g hg).2)
  · exact constant_class (w := w) (m := m) w.units m.units sunitAsset (fun g hg => (ho.units g hg).2)

/-! ## C121 -/

/-- C121: let some assets of a network be switched off.  A point is feasible exactly if it is feasible for the network without
them and their capacities, if extendable, keep their own limits; its costs are the same.  Missing: what a class or the whole
network is asked for, see `off_link_infeasible`, `off_store_uses_budget` and `off_meets_minimum`. -/
theorem off_partial [IsStrictOrderedRing F] {w : WNet F} {m : More F} (hw : Sound (withMore w m)) (ho : m.Off)
    (hg : RampsStay (w.gens.map (·.unit)) w.len) (hk : RampsStay (w.links.map (·.unit)) w.len)
    {other other' : List (Con WVar F)} (hoth : ∀ x, Feasible x other' ↔ Feasible x other) {P P' : Program F}
    (hP : createModel w other = some P) (hP' : createModel (withMore w m) other' = some P') (x : WVar → F) :
    (FeasibleIn P' x ↔ FeasibleIn P x ∧ m.CapsOk x) ∧
      (LinearCosts (withMore w m) → FeasibleIn P' x → costOf (withMore w m) P' x = costOf w P x) := by
  obtain ⟨own, -, -, hown, -⟩ := createModel_parts hP'
  have key : FeasibleIn P' x ↔ FeasibleIn P x ∧ m.CapsOk x := by
    rw [feasible_iff hw hP', feasible_iff (sound_less hw) hP, assets_off ho hg hk hown, balance_off ho, constant_off ho, hoth]
    tauto
  refine ⟨key, fun hl hx => ?_⟩
  rw [cost_total hl hP' x hx, cost_total (linear_less hl) hP x (key.mp hx).1, cost_off ho]

/-- The point with other values for these assets. -/
def mix (m : More F) (x z : WVar → F) (v : WVar) : F := if m.has v then z v else x v

structure MixKeeps (w : WNet F) (m : More F) (x z : WVar → F) : Prop where
  gens : ∀ g ∈ w.gens, ∀ v, mix m x z (.of "Generator" g.name v) = x (.of "Generator" g.name v)
  links : ∀ g ∈ w.links, ∀ v, mix m x z (.of "Link" g.name v) = x (.of "Link" g.name v)
  stores : ∀ g ∈ w.stores, ∀ v, mix m x z (.of "Store" g.name v) = x (.of "Store" g.name v)
  units : ∀ g ∈ w.units, ∀ v, mix m x z (.of "StorageUnit" g.name v) = x (.of "StorageUnit" g.name v)
  lines : ∀ g ∈ w.lines, ∀ v, mix m x z (.of "Line" g.name v) = x (.of "Line" g.name v)
  trafos : ∀ g ∈ w.trafos, ∀ v, mix m x z (.of "Transformer" g.name v) = x (.of "Transformer" g.name v)

theorem mix_keeps {w : WNet F} {m : More F} (hw : Sound (withMore w m)) (x z : WVar → F) : MixKeeps w m x z := by
  refine ⟨?_, ?_, ?_, ?_, ?_, ?_⟩ <;> intro g hg v <;> unfold mix <;> rw [has_of]
  · rw [fresh_name hw.gens hg]; simp
  · rw [fresh_name hw.links hg]; simp
  · rw [fresh_name hw.stores hg]; simp
  · rw [fresh_name hw.units hg]; simp
  · rw [fresh_name hw.lines hg]; simp
  · rw [fresh_name hw.trafos hg]; simp

theorem mix_caps {m : More F} {x z : WVar → F} (h : m.CapsOk z) : m.CapsOk (mix m x z) := by
  refine ⟨?_, ?_, ?_, ?_, ?_, ?_⟩
  · intro g hg
    have : ∀ v, mix m x z (.of "Generator" g.name v) = z (.of "Generator" g.name v) := by
      intro v; unfold mix; rw [has_of, if_pos]; simp; exact ⟨g, hg, rfl⟩
    rw [this, this]; exact h.gens g hg
  · intro g hg
    have : ∀ v, mix m x z (.of "Link" g.name v) = z (.of "Link" g.name v) := by
      intro v; unfold mix; rw [has_of, if_pos]; simp; exact ⟨g, hg, rfl⟩
    rw [this, this]; exact h.links g hg
  · intro g hg
    have : ∀ v, mix m x z (.of "Store" g.name v) = z (.of "Store" g.name v) := by
      intro v; unfold mix; rw [has_of, if_pos]; simp; exact ⟨g, hg, rfl⟩
    rw [this, this]; exact h.stores g hg
  · intro g hg
    have : ∀ v, mix m x z (.of "StorageUnit" g.name v) = z (.of "StorageUnit" g.name v) := by
      intro v; unfold mix; rw [has_of, if_pos]; simp; exact ⟨g, hg, rfl⟩
    rw [this, this]; exact h.units g hg
  · intro g hg
    have : ∀ v, mix m x z (.of "Line" g.name v) = z (.of "Line" g.name v) := by
      intro v; unfold mix; rw [has_of, if_pos]; simp; exact ⟨g, hg, rfl⟩
    rw [this, this]; exact h.lines g hg
  · intro g hg
    have : ∀ v, mix m x z (.of "Transformer" g.name v) = z (.of "Transformer" g.name v) := by
      intro v; unfold mix; rw [has_of, if_pos]; simp; exact ⟨g, hg, rfl⟩
    rw [this, this]; exact h.trafos g hg

theorem mix_feasible [IsStrictOrderedRing F] {w : WNet F} {m : More F} (hw : Sound (withMore w m))
    {other : List (Con WVar F)} (hno : ∀ r ∈ other, ∀ e ∈ r.terms, m.has e.2 = false) {P : Program F}
    (hP : createModel w other = some P) {x z : WVar → F} (hx : FeasibleIn P x) :
    FeasibleIn P (mix m x z) ∧ totalCost w (mix m x z) = totalCost w x := by
  have hk := mix_keeps hw x z
  obtain ⟨h1, h2, h3, h4⟩ := (feasible_iff (sound_less hw) hP x).mp hx
  refine ⟨(feasible_iff (sound_less hw) hP _).mpr ⟨⟨?_, ?_, ?_, ?_, ?_, ?_⟩, ?_, ?_, ?_⟩, ?_⟩
  · exact fun g hg rs hrs q hq => holds_congr (fun v => (hk.gens g hg v).symm) q (h1.gens g hg rs hrs q hq)
  · exact fun g hg rs hrs q hq => holds_congr (fun v => (hk.links g hg v).symm) q (h1.links g hg rs hrs q hq)
  · exact fun g hg rs hrs q hq => holds_congr (fun v => (hk.stores g hg v).symm) q (h1.stores g hg rs hrs q hq)
  · exact fun g hg rs hrs q hq => holds_congr (fun v => (hk.units g hg v).symm) q (h1.units g hg rs hrs q hq)
  · exact fun g hg rs hrs q hq => holds_congr (fun v => (hk.lines g hg v).symm) q (h1.lines g hg rs hrs q hq)
  · exact fun g hg rs hrs q hq => holds_congr (fun v => (hk.trafos g hg v).symm) q (h1.trafos g hg rs hrs q hq)
  · intro t ht b hb
    rw [← h2 t ht b hb]
    unfold Nodal.supplied nodal
    simp only [List.map_map, Function.comp_def, nodalVar]
    congr 1; congr 1; congr 1; congr 1; congr 1
    all_goals
      congr 1
      apply List.map_congr_left
      intro g hg
    all_goals first
      | (simp only [hk.gens g hg]; done)
      | (simp only [hk.stores g hg]; done)
      | (simp only [hk.units g hg]; done)
      | (simp only [hk.lines g hg]; done)
      | (simp only [hk.trafos g hg]; done)
      | (simp only [hk.links g hg]; done)
  · rw [← h3]; simp [mix, More.has]
  · intro r hr
    have e : lin (mix m x z) r.terms = lin x r.terms := by
      unfold lin
      congr 1
      apply List.map_congr_left
      intro e he
      simp [mix, hno r hr e he]
    have := h4 r hr
    unfold Con.holds at this ⊢
    rwa [e]
  · unfold totalCost
    congr 1; congr 1; congr 1; congr 1; congr 1
    all_goals
      congr 1
      apply List.map_congr_left
      intro g hg
    · simp only [genCost, hk.gens g hg]
    · simp only [linkCost, hk.links g hg]
    · simp only [storeCost, hk.stores g hg]
    · simp only [unitCost, hk.units g hg]
    · simp only [branchCost, hk.lines g hg]
    · simp only [branchCost, hk.trafos g hg]

/-- C121: if the limits of the capacities of the assets that are switched off can be met at all, an optimum of the network is
one of the network without them, and an optimum without them is one of the network with suitable capacities for them. -/
theorem off_optimum_partial [IsStrictOrderedRing F] {w : WNet F} {m : More F} (hw : Sound (withMore w m)) (ho : m.Off)
    (hl : LinearCosts (withMore w m))
    (hg : RampsStay (w.gens.map (·.unit)) w.len) (hk : RampsStay (w.links.map (·.unit)) w.len)
    {other other' : List (Con WVar F)} (hoth : ∀ x, Feasible x other' ↔ Feasible x other)
    (hno : ∀ r ∈ other, ∀ e ∈ r.terms, m.has e.2 = false) {P P' : Program F}
    (hP : createModel w other = some P) (hP' : createModel (withMore w m) other' = some P') (z : WVar → F) (hz : m.CapsOk z) :
    (∀ y, Cheapest (withMore w m) P' y → Cheapest w P y) ∧
      ∀ x, Cheapest w P x → ∃ y, Cheapest (withMore w m) P' y ∧ (∀ v, m.has v = false → y v = x v) ∧
        costOf (withMore w m) P' y = costOf w P x := by
  have key := off_partial hw ho hg hk hoth hP hP'
  have lift : ∀ x, FeasibleIn P x → FeasibleIn P' (mix m x z) ∧ costOf (withMore w m) P' (mix m x z) = costOf w P x := by
    intro x hx
    obtain ⟨h1, h2⟩ := mix_feasible (z := z) hw hno hP hx
    have h3 := (key _).1.mpr ⟨h1, mix_caps hz⟩
    exact ⟨h3, by rw [(key _).2 hl h3, cost_total (linear_less hl) hP _ h1, cost_total (linear_less hl) hP _ hx, h2]⟩
  constructor
  · rintro y ⟨hy, hmin⟩
    refine ⟨((key y).1.mp hy).1, fun v hv => ?_⟩
    obtain ⟨h1, h2⟩ := lift v hv
    rw [← (key y).2 hl hy, ← h2]
    exact hmin _ h1
  · rintro x ⟨hx, hmin⟩
    obtain ⟨h1, h2⟩ := lift x hx
    refine ⟨mix m x z, ⟨h1, fun v hv => ?_⟩, fun v hv => by simp [mix, hv], h2⟩
    rw [h2, (key v).2 hl hv]
    exact hmin v ((key v).1.mp hv).1

/-! ## Examples -/

def offUnit (ext : Bool) (nom : ℚ) : Unit' ℚ := { exUnit' ext nom with active := fun _ => false, minPu := fun _ => 1 }

/-- Limits of the capacity that exclude 0. -/
def offInvest (cost : ℚ) : Invest ℚ := ⟨2, some 9, 3, none, cost, fun _ => false, false⟩

def offStorage : Storage ℚ := ⟨fun _ => false, false, false, false, 5, fun _ => 1, fun _ => 1 / 2⟩

/-- One asset of every class that is switched off; if it were not, none could stand still. -/
def exOff : More ℚ where
  gens := [⟨"must run", "C", 1, offUnit true 1, offInvest 4, exCosts (-1) 0, fun _ => some 1, some 7, some 40⟩]
  links := [⟨"old", "D", "B", fun _ => 9 / 10, [], offUnit true 5, offInvest 3, exCosts (-1) 0, fun _ => some 1⟩]
  stores := [⟨"cavern", "A", 1, offStorage, true, 0, fun _ => 0, fun _ => 1, offInvest 2, exCosts 0 0, fun _ => some 1⟩]
  units := [⟨"dam", "C", 1, ⟨offStorage, fun _ => 1 / 2, fun _ => 1, fun _ => 1⟩, true, 7, fun _ => -1, fun _ => 1, 6,
    offInvest 1, exCosts 0 0, fun _ => some 1⟩]
  lines := [⟨"second", "A", "D", fun _ => false, true, 0, fun _ => 1, 0, offInvest 5, fun _ => some 1⟩]
  trafos := [⟨"spare", "A", "C", fun _ => false, true, 3, fun _ => 1, 0, offInvest 5, fun _ => some 1⟩]

theorem exOff_off : exOff.Off := by
  constructor <;> intro g hg <;> simp only [exOff, List.mem_singleton] at hg <;> subst hg <;>
    exact ⟨fun _ => rfl, rfl, fun _ => rfl⟩

theorem exOff_some : (createModel (withMore exNet exOff) exOther).isSome = true := by decide +kernel

/-- Capacities of 6, of two modules each. -/
def exOffCaps : WVar → ℚ
  | .of _ _ .cap => 6
  | .of _ _ .mod => 2
  | _ => 0

theorem exOff_caps : exOff.CapsOk exOffCaps := by
  constructor <;> intro g hg <;> simp only [exOff, List.mem_singleton] at hg <;> subst hg <;> intro _ <;>
    exact ⟨by decide +kernel, by decide +kernel, by simp [offInvest], fun _ => by decide +kernel⟩

/-- `off_optimum_partial` for this network. -/
example : ∃ P', createModel (withMore exNet exOff) exOther = some P' ∧
    ((∀ y, Cheapest (withMore exNet exOff) P' y → Cheapest exNet exModel y) ∧
      ∀ x, Cheapest exNet exModel x → ∃ y, Cheapest (withMore exNet exOff) P' y ∧ (∀ v, exOff.has v = false → y v = x v) ∧
        costOf (withMore exNet exOff) P' y = costOf exNet exModel x) := by
  refine ⟨(createModel (withMore exNet exOff) exOther).get exOff_some, (Option.some_get exOff_some).symm, ?_⟩
  exact off_optimum_partial (by constructor <;> decide +kernel) exOff_off
    (by
      constructor
      · intro g hg t; simp [exNet, withMore, exOff] at hg; rcases hg with rfl | rfl | rfl <;> rfl
      · intro g hg t; simp [exNet, withMore, exOff] at hg; rcases hg with rfl | rfl <;> rfl
      · intro g hg t; simp [exNet, withMore, exOff] at hg; rcases hg with rfl | rfl <;> rfl
      · intro g hg t; simp [exNet, withMore, exOff] at hg; rcases hg with rfl | rfl <;> rfl
      · decide +kernel
      · decide +kernel)
    (Or.inl (by simp [exNet, exGen, exPeaker, exUnit'])) (Or.inl (by simp [exNet, exLink, exUnit']))
    (fun _ => Iff.rfl) (by decide +kernel) exModel_eq (Option.some_get exOff_some).symm exOffCaps exOff_caps

/-! ## What fails -/

/-- A link that is switched off, without ramp limits. -/
def offSpare : More ℚ :=
  ⟨[], [⟨"spare", "A", "B", fun _ => 1, [], { swingUnit 0 (fun _ => 0) (fun _ => 1) none with active := fun _ => false },
    ⟨0, none, 0, none, 0, fun _ => false, false⟩, exCosts 0 0, fun _ => none⟩], [], [], [], []⟩

theorem offSpare_some : (createModel (withMore swing offSpare) []).isSome = true := by decide +kernel

/-- A network that can be run cannot be run any more with a link that is switched off: whether ramp limits are left out
because all of them are 1 depends on it. -/
theorem off_link_infeasible : offSpare.Off ∧ FeasibleIn ((createModel swing []).get swing_some) swingVal ∧
    ∀ y, ¬ FeasibleIn ((createModel (withMore swing offSpare) []).get offSpare_some) y := by
  refine ⟨?_, ⟨by decide +kernel, by decide +kernel⟩, ?_⟩
  · constructor <;> intro g hg <;> simp only [offSpare, List.mem_singleton, List.not_mem_nil] at hg
    subst hg
    exact ⟨fun _ => rfl, rfl, fun _ => rfl⟩
  · rintro y ⟨hr, hb⟩
    have b0 := hb ⟨[(1, .of "Generator" "b" (.op "p" 0)), (1, .of "Link" "link" (.op "p" 0))], .eq, 10⟩ (by decide +kernel)
    have a1 := hb ⟨[(1, .of "Generator" "a" (.op "p" 1)), (-1, .of "Link" "link" (.op "p" 1))], .eq, 10⟩ (by decide +kernel)
    have ga := hr ⟨[(1, .of "Generator" "a" (.op "p" 1))], .le, 0⟩ (by decide +kernel)
    have gb := hr ⟨[(1, .of "Generator" "b" (.op "p" 0))], .le, 0⟩ (by decide +kernel)
    have r := hr ⟨[(1, .of "Link" "link" (.op "p" 1)), (-1, .of "Link" "link" (.op "p" 0))], .ge, -10⟩ (by decide +kernel)
    simp [Con.holds, lin] at b0 a1 ga gb r
    linarith

/-- A generator that is switched off and has a set capacity though it is not extendable. -/
def offSet : More ℚ :=
  ⟨[⟨"gone", "A", 1, offUnit false 1, ⟨0, none, 0, some 1, 0, fun _ => false, false⟩, exCosts 0 0, fun _ => none, none, none⟩],
    [], [], [], [], []⟩

/-- A line that is switched off, extendable without limit. -/
def offLine : More ℚ :=
  ⟨[], [], [], [], [⟨"gone", "A", "B", fun _ => false, true, 1, fun _ => 1, 0, ⟨0, none, 0, none, 0, fun _ => false, false⟩,
    fun _ => none⟩], []⟩

/-- The model cannot be built with assets that are switched off: a set capacity is looked up, and with losses an extendable
branch needs a greatest capacity. -/
theorem off_raises : offSet.Off ∧ offLine.Off ∧ (createModel swing []).isSome = true ∧
    createModel (withMore swing offSet) [] = none ∧
    (createModel { swing with tangents := 2 } []).isSome = true ∧
    createModel (withMore { swing with tangents := 2 } offLine) [] = none := by
  refine ⟨?_, ?_, by decide +kernel, ?_, by decide +kernel, ?_⟩
  · constructor <;> intro g hg <;> simp only [offSet, List.mem_singleton, List.not_mem_nil] at hg
    subst hg
    exact ⟨fun _ => rfl, rfl, fun _ => rfl⟩
  · constructor <;> intro g hg <;> simp only [offLine, List.mem_singleton, List.not_mem_nil] at hg
    subst hg
    exact ⟨fun _ => rfl, rfl, fun _ => rfl⟩
  · rw [← Option.isNone_iff_eq_none]; decide +kernel
  · rw [← Option.isNone_iff_eq_none]; decide +kernel

end Verif.Opt.Whole

namespace Verif.Opt.Global

variable {F : Type} [Field F] [LinearOrder F]

/-! ## Global constraints -/

/-- The assets of a class which are on. -/
def onOnly (p : Asset F → Bool) (c : Cls F) : Cls F := { c with assets := c.assets.filter p }

/-- `p` separates assets that are switched off in all periods. -/
def Separates (p : Asset F → Bool) (cs : List (Cls F)) : Prop :=
  ∀ c ∈ cs, ∀ a ∈ c.assets, p a = false → ∀ k, a.activeIn k = false

theorem matching_off {p : Asset F → Bool} {c : Cls F} (h : ∀ a ∈ c.assets, p a = false → ∀ k, a.activeIn k = false)
    (carrier : Name) (k : Int) : matching (onOnly p c) carrier (some k) = matching c carrier (some k) := by
  unfold matching onOnly
  rw [List.filter_filter]
  apply List.filter_congr
  intro a ha
  cases hp : p a with
  | true => simp
  | false => simp [inPeriod, h a ha hp k]

theorem techExprs_off {p : Asset F → Bool} {cs : List (Cls F)} (h : Separates p cs) (carrier : Name) (k : Int) :
    techExprs (cs.map (onOnly p)) carrier (some k) = techExprs cs carrier (some k) := by
  induction cs with
  | nil => rfl
  | cons c cs ih =>
    have h1 := ih (fun c hc => h c (List.mem_cons_of_mem _ hc))
    have h2 := matching_off (h c List.mem_cons_self) carrier k
    have e : ∀ (d : Cls F) (l : List (Cls F)), techExprs (d :: l) carrier (some k) =
        (if d.hasCarrier && !(matching d carrier (some k)).isEmpty then
          [groupTerms d.cname (·.bus) (matching d carrier (some k))] else []) ++ techExprs l carrier (some k) := by
      intro d l
      unfold techExprs
      rw [List.filter_cons]
      split <;> simp
    rw [List.map_cons, e, e, h1, h2]
    rfl

/-- C121: limits of the capacity of a carrier (which always belong to a period) do not see what is switched off. -/
theorem tech_off {p : Asset F → Bool} {cs : List (Cls F)} (h : Separates p cs) (g : TechGlc F) :
    techLimit (cs.map (onOnly p)) g = techLimit cs g := by
  unfold techLimit
  cases g.period with
  | none => rfl
  | some k => simp only [techExprs_off h]

/-- C121: so do limits of the capacity at a bus that belong to a period. -/
theorem bus_off {p : Asset F → Bool} {cs : List (Cls F)} (h : Separates p cs) (buses : List Name) (value : Name → Option F)
    (sense : Sense) (carrier : Name) (k : Int) :
    busRows (cs.map (onOnly p)) buses value sense carrier (some k) = busRows cs buses value sense carrier (some k) := by
  unfold busRows
  congr 1
  funext b
  cases value b with
  | none => rfl
  | some v =>
    simp only
    congr 1
    induction cs with
    | nil => rfl
    | cons c cs ih =>
      have h1 := ih (fun c hc => h c (List.mem_cons_of_mem _ hc))
      have h2 := matching_off (h c List.mem_cons_self) carrier k
      rw [List.map_cons, List.filter_cons, List.filter_cons]
      have e : (onOnly p c).onePort = c.onePort ∧ (onOnly p c).hasCarrier = c.hasCarrier ∧ (onOnly p c).cname = c.cname :=
        ⟨rfl, rfl, rfl⟩
      rw [e.1, e.2.1]
      split
      · rw [List.flatMap_cons, List.flatMap_cons, h1, h2, e.2.2]
      · exact h1

theorem trans_off {p : Asset F → Bool} {c : Cls F} (h : ∀ a ∈ c.assets, p a = false → ∀ k, a.activeIn k = false)
    (car : List (List Char)) (periods : Option (List Int)) (period : Option Int) (hp : period ≠ none ∨ periods ≠ none) :
    transAssets (onOnly p c) car periods period = transAssets c car periods period := by
  unfold transAssets onOnly
  rw [List.filter_filter]
  apply List.filter_congr
  intro a ha
  cases hpa : p a with
  | true => simp
  | false =>
    have := h a ha hpa
    cases period with
    | some k => simp [this]
    | none =>
      cases periods with
      | none => simp at hp
      | some ps => simp [this]

/-- C121: and limits of the volume or costs of transmission, if there are investment periods. -/
theorem transmission_off {p : Asset F → Bool} {cs : List (Cls F)} (h : Separates p cs) (text : List Char)
    (periods : Option (List Int)) (pw : Int → F) (period : Option Int) (hp : period ≠ none ∨ periods ≠ none) (sense : Sense)
    (constant : F) :
    volumeCons (cs.map (onOnly p)) text periods period sense constant = volumeCons cs text periods period sense constant ∧
    costCons (cs.map (onOnly p)) text periods pw period sense constant = costCons cs text periods pw period sense constant := by
  have key : ∀ f : Name → Asset F → F × Var,
      (cs.map (onOnly p)).flatMap (fun c => (transAssets c (carriersOf text) periods period).map (f c.cname)) =
      cs.flatMap (fun c => (transAssets c (carriersOf text) periods period).map (f c.cname)) := by
    intro f
    rw [List.flatMap_map]
    clear sense constant
    induction cs with
    | nil => rfl
    | cons c cs ih =>
      rw [List.flatMap_cons, List.flatMap_cons, ih (fun c hc => h c (List.mem_cons_of_mem _ hc)),
        trans_off (h c List.mem_cons_self) _ _ _ hp]
      rfl
  constructor
  · unfold volumeCons
    rw [key (fun n a => (a.length, (n, a.name)))]
  · unfold costCons
    rw [key (fun n a => (a.capitalCost * costWeight periods pw period a, (n, a.name)))]

/-- What is left of the budget of a primary energy limit after the storage whose contents count. -/
def initialShare (coef : Name → F) (ss : List (EStor F)) : F :=
  (ss.map (fun s => if coef s.carrier ≠ 0 ∧ s.cyclic = false then coef s.carrier * s.initial else 0)).sum

theorem stor_off {coef : Name → F} {mk : Name → Nat → EVar} {sel : List Nat} (on off : List (EStor F))
    (h : ∀ s ∈ off, ∀ t, s.active t = false) (q : EStor F → Bool) :
    storTerms coef mk ((on ++ off).filter q) sel = storTerms coef mk (on.filter q) sel := by
  unfold storTerms
  rw [List.filter_append, List.flatMap_append, List.append_right_eq_self]
  simp only [List.flatMap_eq_nil_iff]
  intro s hs
  have : lastVar s.active sel = none := by simp [lastVar, h s (List.mem_filter.mp hs).1]
  rw [this]

theorem rhs_off (coef : Name → F) (on off : List (EStor F)) :
    storRhs coef ((on ++ off).filter (fun s => decide (coef s.carrier ≠ 0) && !s.cyclic)) =
      storRhs coef (on.filter (fun s => decide (coef s.carrier ≠ 0) && !s.cyclic)) + initialShare coef off := by
  unfold storRhs initialShare
  rw [List.filter_append, List.map_append, List.sum_append]
  congr 1
  induction off with
  | nil => rfl
  | cons s l ih =>
    rw [List.filter_cons]
    by_cases h : coef s.carrier ≠ 0 ∧ s.cyclic = false
    · rw [if_pos (by simp [h.1, h.2]), List.map_cons, List.sum_cons, List.map_cons, List.sum_cons, ih, if_pos h]
    · rw [if_neg (by simpa using h), List.map_cons, List.sum_cons, ih, if_neg h, zero_add]

/-- C121: generators, storage units and stores that are switched off do not appear in a primary energy limit.  What is left:
their initial contents are still taken from the budget, see `off_store_uses_budget`. -/
theorem primary_off_partial (gens goff : List (EGen F)) (units uoff stores soff : List (EStor F)) (coef : Name → F) (w : Nat → F)
    (sense : Sense) (constant : F) (sel : List Nat) (hg : ∀ s ∈ goff, ∀ t, s.active t = false)
    (hu : ∀ s ∈ uoff, ∀ t, s.active t = false) (hs : ∀ s ∈ soff, ∀ t, s.active t = false) :
    primaryRows (gens ++ goff) (units ++ uoff) (stores ++ soff) coef w sense constant sel =
      primaryRows gens units stores coef w sense (constant - initialShare coef uoff - initialShare coef soff) sel := by
  unfold primaryRows
  simp only [stor_off units uoff hu, stor_off stores soff hs, rhs_off]
  congr 1
  · congr 2
    rw [List.filter_append, List.flatMap_append, List.append_right_eq_self]
    simp only [List.flatMap_eq_nil_iff]
    intro s hs'
    simp [hg s (List.mem_filter.mp hs').1]
  · ring

namespace OffDemo

/-- A gas store that is switched off, with contents. -/
def gasStore : EStor ℚ := ⟨"cavern", "gas", false, 30, fun _ => false⟩
def gasGen : EGen ℚ := ⟨"ocgt", "gas", fun _ => 1 / 2, fun _ => true⟩

/-- A store that is switched off uses the whole budget: what may be emitted is 10 without it, and less than nothing with it. -/
theorem off_store_uses_budget :
    let coef : Name → ℚ := fun c => if c = "gas" then 1 / 2 else 0
    (∃ r ∈ primaryRows [gasGen] [] [] coef (fun _ => 1) .le 10 [0], r.rhs = 10) ∧
    (∀ r ∈ primaryRows [gasGen] [] [gasStore] coef (fun _ => 1) .le 10 [0], r.rhs = -5) ∧
    (∃ x, Feasible x (primaryRows [gasGen] [] [] coef (fun _ => 1) .le 10 [0])) ∧
    ∀ x, 0 ≤ x (.gen "ocgt" 0) → ¬ Feasible x (primaryRows [gasGen] [] [gasStore] coef (fun _ => 1) .le 10 [0]) := by
  have e : primaryRows [gasGen] [] [gasStore] (fun c => if c = "gas" then 1 / 2 else 0) (fun _ => 1) .le 10 [0] =
      [⟨[(1, .gen "ocgt" 0)], .le, -5⟩] := by decide +kernel
  refine ⟨by decide +kernel, by decide +kernel, ⟨fun _ => 0, by decide +kernel⟩, ?_⟩
  intro x hx h
  rw [e] at h
  have := h _ List.mem_cons_self
  simp [Con.holds, lin] at this
  linarith

/-- A wind park that is switched off. -/
def park : Asset ℚ := ⟨"park", "wind", "north", true, fun _ => false, 0, 0⟩
def cls : Cls ℚ := ⟨"Generator", true, true, [park]⟩

/-- Without investment periods a least capacity at a bus is met by assets that are switched off. -/
theorem off_meets_minimum : (∀ k, park.activeIn k = false) ∧
    ∃ x, Feasible x (busRows [cls] ["north"] (fun _ => some 5) .ge "wind" none) ∧
      busRows [cls] ["north"] (fun _ => some 5) .ge "wind" none = [⟨[(1, ("Generator", "park"))], .ge, 5⟩] :=
  ⟨fun _ => rfl, fun _ => 5, by decide +kernel, by decide +kernel⟩

/-- And assets that are switched off count against a limit of the volume of transmission. -/
theorem off_counts_in_volume :
    volumeCons [⟨"Line", true, false, [⟨"old", "AC", "north", true, fun _ => false, 100, 0⟩]⟩] ['A', 'C'] none none .le (5 : ℚ) =
      [⟨[(100, ("Line", "old"))], .le, 5⟩] := by decide +kernel

/-- The hypothesis of `tech_off`, `bus_off` and `transmission_off`. -/
example : Separates (fun a => decide (a.name ≠ "park")) [cls] := by
  intro c hc a ha _ k
  simp only [List.mem_singleton] at hc
  subst hc
  simp only [cls, List.mem_singleton] at ha
  subst ha
  rfl

/-- Those of `primary_off_partial`. -/
example : ∀ s ∈ [gasStore], ∀ t, s.active t = false := by
  intro s hs t
  simp only [List.mem_singleton] at hs
  subst hs
  rfl

end OffDemo

end Verif.Opt.Global
