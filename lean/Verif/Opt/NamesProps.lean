import Verif.Opt.JoinProps

/-!
# C125: names do not matter for the optimisation

About the whole problem of `Whole.lean`.  Buses and assets get other names; different buses, and different assets of a class, keep
different names.
-/

namespace Verif.Opt.Whole

variable {F : Type} [Field F] [LinearOrder F]

/-- New names of buses and of the assets of each class. -/
structure Names where
  bus : Name → Name
  gen : Name → Name
  link : Name → Name
  store : Name → Name
  unit : Name → Name
  line : Name → Name
  trafo : Name → Name

/-- A port that is not used stays so. -/
def Names.port (ρ : Names) (b : Name) : Name := if b = "" then "" else ρ.bus b

/-- New name of an asset. -/
def Names.asset (ρ : Names) (comp name : Name) : Name :=
  if comp = "Generator" then ρ.gen name
  else if comp = "Link" then ρ.link name
  else if comp = "Store" then ρ.store name
  else if comp = "StorageUnit" then ρ.unit name
  else if comp = "Line" then ρ.line name
  else if comp = "Transformer" then ρ.trafo name
  else name

/-- The variable of the renamed asset. -/
def Names.var (ρ : Names) : WVar → WVar
  | .of c a v => .of c (ρ.asset c a) v
  | .const => .const

/-- The network with other names. -/
def renamed (ρ : Names) (w : WNet F) : WNet F :=
  { w with
    buses := w.buses.map ρ.bus
    gens := w.gens.map (fun g => { g with name := ρ.gen g.name, bus := ρ.bus g.bus })
    links := w.links.map (fun g => { g with name := ρ.link g.name, bus0 := ρ.bus g.bus0, bus1 := ρ.bus g.bus1,
                                            extra := g.extra.map (fun e => (ρ.port e.1, e.2)) })
    stores := w.stores.map (fun g => { g with name := ρ.store g.name, bus := ρ.bus g.bus })
    units := w.units.map (fun g => { g with name := ρ.unit g.name, bus := ρ.bus g.bus })
    lines := w.lines.map (fun g => { g with name := ρ.line g.name, bus0 := ρ.bus g.bus0, bus1 := ρ.bus g.bus1 })
    trafos := w.trafos.map (fun g => { g with name := ρ.trafo g.name, bus0 := ρ.bus g.bus0, bus1 := ρ.bus g.bus1 })
    loads := w.loads.map (fun g => { g with bus := ρ.bus g.bus }) }

/-- The problem with other names of variables and buses, everything else as it is. -/
def Names.program (ρ : Names) (P : Program F) : Program F where
  linear := P.linear.map (fun e => (e.1, ρ.var e.2))
  quadratic := P.quadratic.map (fun e => (e.1, ρ.var e.2))
  balance := P.balance.map (fun r => ((ρ.bus r.1.1, r.1.2), remap ρ.var r.2))
  rows := P.rows.map (remap ρ.var)

/-- Different buses keep different names, and no bus gets the empty one. -/
structure BusesDiffer (ρ : Names) (w : WNet F) : Prop where
  differ : ∀ a ∈ w.buses, ∀ b ∈ w.buses, ρ.bus a = ρ.bus b → a = b
  named : ∀ a ∈ w.buses, ρ.bus a ≠ ""

/-! ## Rows of assets -/

omit [Field F] [LinearOrder F] in
theorem remap_remap {U V W : Type} (f : U → V) (g : V → W) (c : Con U F) : remap g (remap f c) = remap (g ∘ f) c := by
  simp [remap, Function.comp_def]

theorem capRows_name (n n' : Name) (ext : Bool) (i : Invest F) : capRows n ext i = capRows n' ext i := by
  unfold capRows Capacity.capacityCons Capacity.fixedNominalCons Capacity.nominalCons Capacity.modularCons Capacity.setRow capAsset
    Capacity.modular
  cases ext <;> cases i.nomSet <;> cases i.nomMax <;> by_cases h : 0 < i.nomMod <;>
    simp [Except.toOption, remap, capLoc, h]

omit [LinearOrder F] in
theorem sumRow_name (sns : List Nat) (w : Nat → F) (g : Capacity.SumGen F) (n : Name) (s : Sense) (x : F) :
    (Capacity.rowOf (Capacity.sumTerms sns w g) s x).map (remap (fun v => Loc.op "p" v.2)) =
      (Capacity.rowOf (Capacity.sumTerms sns w { g with name := n }) s x).map (remap (fun v => Loc.op "p" v.2)) := by
  unfold Capacity.rowOf Capacity.sumTerms
  cases sns.filter g.active <;> simp [remap]

omit [LinearOrder F] in
theorem supply_name (sns : List Nat) (w : Nat → F) (n n' : Name) (active : Nat → Bool) (lo hi : Option F) :
    (Capacity.totalSupplyCons sns w [⟨n, active, lo, hi⟩]).map (remap (fun v => Loc.op "p" v.2)) =
      (Capacity.totalSupplyCons sns w [⟨n', active, lo, hi⟩]).map (remap (fun v => Loc.op "p" v.2)) := by
  unfold Capacity.totalSupplyCons
  cases lo <;> cases hi <;> simp only [List.flatMap_singleton, List.map_append, List.map_nil, List.append_nil, List.nil_append] <;>
    first | rfl | exact sumRow_name sns w _ n' _ _ | exact congrArg₂ _ (sumRow_name sns w _ n' _ _) (sumRow_name sns w _ n' _ _)

omit [Field F] [LinearOrder F] in
theorem tagged_renamed (ρ : Names) (c n : Name) (r : Option (List (Con Loc F))) :
    tagged c (ρ.asset c n) r = (tagged c n r).map (List.map (remap ρ.var)) := by
  cases r with
  | none => rfl
  | some r =>
    simp only [tagged, Option.map_some, List.map_map, Option.some.injEq]
    apply List.map_congr_left
    intro a _
    simp only [Function.comp, remap_remap]
    rfl

theorem mapM_maps {α β : Type} (f : α → β) (l : List (Option α)) : (l.map (Option.map f)).mapM id = (l.mapM id).map (List.map f) := by
  induction l with
  | nil => rfl
  | cons a t ih =>
    rw [List.map_cons, List.mapM_cons, List.mapM_cons, ih]
    cases a with
    | none => rfl
    | some a => cases t.mapM id <;> rfl

theorem ownRows_renamed (ρ : Names) (w : WNet F) : ownRows (renamed ρ w) = (ownRows w).map (List.map (remap ρ.var)) := by
  have hg : ((renamed ρ w).gens.map (·.unit)) = w.gens.map (·.unit) := by simp [renamed]
  have hl : ((renamed ρ w).links.map (·.unit)) = w.links.map (·.unit) := by simp [renamed]
  have e1 : (renamed ρ w).gens.map (fun g => tagged "Generator" g.name (genRows (renamed ρ w) g)) =
      (w.gens.map (fun g => tagged "Generator" g.name (genRows w g))).map (Option.map (List.map (remap ρ.var))) := by
    simp only [renamed, List.map_map]
    apply List.map_congr_left
    intro g _
    simp only [Function.comp]
    rw [← tagged_renamed]
    congr 1
    simp only [genRows, List.map_map, Function.comp_def]
    rw [capRows_name _ g.name, supply_name _ _ _ g.name]
  have e2 : (renamed ρ w).links.map (fun g => tagged "Link" g.name (linkRows (renamed ρ w) g)) =
      (w.links.map (fun g => tagged "Link" g.name (linkRows w g))).map (Option.map (List.map (remap ρ.var))) := by
    simp only [renamed, List.map_map]
    apply List.map_congr_left
    intro g _
    simp only [Function.comp]
    rw [← tagged_renamed]
    congr 1
    simp only [linkRows, List.map_map, Function.comp_def]
    rw [capRows_name _ g.name]
  have e3 : (renamed ρ w).stores.map (fun g => tagged "Store" g.name (storeRows (renamed ρ w) g)) =
      (w.stores.map (fun g => tagged "Store" g.name (storeRows w g))).map (Option.map (List.map (remap ρ.var))) := by
    simp only [renamed, List.map_map]
    apply List.map_congr_left
    intro g _
    simp only [Function.comp]
    rw [← tagged_renamed]
    congr 1
    simp only [storeRows]
    rw [capRows_name _ g.name]
    rfl
  have e4 : (renamed ρ w).units.map (fun g => tagged "StorageUnit" g.name (sunitRows (renamed ρ w) g)) =
      (w.units.map (fun g => tagged "StorageUnit" g.name (sunitRows w g))).map (Option.map (List.map (remap ρ.var))) := by
    simp only [renamed, List.map_map]
    apply List.map_congr_left
    intro g _
    simp only [Function.comp]
    rw [← tagged_renamed]
    congr 1
    simp only [sunitRows]
    rw [capRows_name _ g.name]
    rfl
  have e5 : (renamed ρ w).lines.map (fun g => tagged "Line" g.name (branchRows (renamed ρ w) .line g)) =
      (w.lines.map (fun g => tagged "Line" g.name (branchRows w .line g))).map (Option.map (List.map (remap ρ.var))) := by
    simp only [renamed, List.map_map]
    apply List.map_congr_left
    intro g _
    simp only [Function.comp]
    rw [← tagged_renamed]
    congr 1
    simp only [branchRows]
    rw [capRows_name _ g.name]
    rfl
  have e6 : (renamed ρ w).trafos.map (fun g => tagged "Transformer" g.name (branchRows (renamed ρ w) .transformer g)) =
      (w.trafos.map (fun g => tagged "Transformer" g.name (branchRows w .transformer g))).map (Option.map (List.map (remap ρ.var))) := by
    simp only [renamed, List.map_map]
    apply List.map_congr_left
    intro g _
    simp only [Function.comp]
    rw [← tagged_renamed]
    congr 1
    simp only [branchRows]
    rw [capRows_name _ g.name]
    rfl
  unfold ownRows
  rw [e1, e2, e3, e4, e5, e6]
  simp only [← List.map_append]
  rw [mapM_maps, Option.map_map, Option.map_map]
  congr 1
  funext r
  simp [Function.comp, List.map_flatten]

/-! ## Nodal balance -/

/-- New names of the variables in the nodal balance. -/
def Names.nvar (ρ : Names) : Nodal.NVar → Nodal.NVar
  | .gen n => .gen (ρ.gen n)
  | .store n => .store (ρ.store n)
  | .dispatch n => .dispatch (ρ.unit n)
  | .charge n => .charge (ρ.unit n)
  | .line n => .line (ρ.line n)
  | .trafo n => .trafo (ρ.trafo n)
  | .link n => .link (ρ.link n)
  | .lineLoss n => .lineLoss (ρ.line n)
  | .trafoLoss n => .trafoLoss (ρ.trafo n)

theorem nodalVar_renamed (ρ : Names) (t : Nat) (v : Nodal.NVar) : nodalVar t (ρ.nvar v) = ρ.var (nodalVar t v) := by
  cases v <;> simp [nodalVar, Names.nvar, Names.var, Names.asset]

def Names.entry (ρ : Names) (e : Nodal.Entry F) : Nodal.Entry F := ⟨ρ.bus e.bus, e.coef, ρ.nvar e.var, e.present⟩

theorem extra_renamed {ρ : Names} {w : WNet F} (hw : Sound w) (h : BusesDiffer ρ w) {g : LinkW F} (hg : g ∈ w.links) (t : Nat) :
    (((g.extra.map (fun e => (ρ.port e.1, e.2))).map (fun e => (e.1, e.2 t))).filter (fun e => e.1 ≠ "")) =
      ((g.extra.map (fun e => (e.1, e.2 t))).filter (fun e => e.1 ≠ "")).map (fun e => (ρ.bus e.1, e.2)) := by
  have hb := (hw.linkBus g hg).2.2
  generalize g.extra = l at hb
  induction l with
  | nil => rfl
  | cons a k ih =>
    have hk := ih (fun e he => hb e (List.mem_cons_of_mem _ he))
    by_cases ha : a.1 = ""
    · simpa [Names.port, ha] using hk
    · have := h.named a.1 ((hb a (List.mem_cons_self ..)).resolve_left ha)
      simpa [Names.port, ha, this] using hk

theorem entries_renamed {ρ : Names} {w : WNet F} (hw : Sound w) (h : BusesDiffer ρ w) (t : Nat) (l : Bool) :
    Nodal.entries (nodal (renamed ρ w) t) l = (Nodal.entries (nodal w t) l).map ρ.entry := by
  have hl : (nodal (renamed ρ w) t).links.flatMap Nodal.linkEntries =
      ((nodal w t).links.flatMap Nodal.linkEntries).map ρ.entry := by
    simp only [nodal, renamed, List.flatMap_map, List.map_flatMap]
    apply List.flatMap_congr
    intro g hg
    simp only [Nodal.linkEntries, List.map_cons]
    rw [extra_renamed hw h hg]
    simp [Names.entry, Names.nvar, Function.comp_def]
  unfold Nodal.entries
  rw [hl]
  cases l <;>
    simp [nodal, renamed, List.map_flatMap, List.flatMap_map, Nodal.branchEntries, Nodal.lossEntries, Names.entry, Names.nvar, Function.comp_def]

theorem entries_known {w : WNet F} (hw : Sound w) (t : Nat) (l : Bool) : ∀ e ∈ Nodal.entries (nodal w t) l, e.bus ∈ w.buses := by
  intro e he
  unfold Nodal.entries nodal at he
  simp only [List.mem_append, List.mem_map, List.mem_flatMap] at he
  rcases he with ((((((⟨_, ⟨g, hg, rfl⟩, rfl⟩ | ⟨_, ⟨g, hg, rfl⟩, rfl⟩) | ⟨_, ⟨g, hg, rfl⟩, rfl⟩) | ⟨_, ⟨g, hg, rfl⟩, rfl⟩) |
    ⟨_, ⟨g, hg, rfl⟩, k⟩) | ⟨_, ⟨g, hg, rfl⟩, k⟩) | ⟨_, ⟨g, hg, rfl⟩, k⟩) | k
  · exact hw.genBus g hg
  · exact hw.storeBus g hg
  · exact hw.unitBus g hg
  · exact hw.unitBus g hg
  · simp only [Nodal.branchEntries, List.mem_cons, List.not_mem_nil, or_false] at k
    rcases k with rfl | rfl
    · exact (hw.lineBus g hg).1
    · exact (hw.lineBus g hg).2
  · simp only [Nodal.branchEntries, List.mem_cons, List.not_mem_nil, or_false] at k
    rcases k with rfl | rfl
    · exact (hw.trafoBus g hg).1
    · exact (hw.trafoBus g hg).2
  · simp only [Nodal.linkEntries, List.mem_cons, List.mem_map, List.mem_filter, decide_eq_true_eq] at k
    rcases k with rfl | rfl | ⟨_, ⟨⟨e, he, rfl⟩, hne⟩, rfl⟩
    · exact (hw.linkBus g hg).1
    · exact (hw.linkBus g hg).2.1
    · exact ((hw.linkBus g hg).2.2 e he).resolve_left hne
  · cases l
    · simp at k
    · simp only [if_true, List.mem_append, List.mem_flatMap, List.mem_map] at k
      rcases k with ⟨_, ⟨g, hg, rfl⟩, k⟩ | ⟨_, ⟨g, hg, rfl⟩, k⟩ <;>
        simp only [Nodal.lossEntries, List.mem_cons, List.not_mem_nil, or_false] at k <;> rcases k with rfl | rfl
      · exact (hw.lineBus g hg).1
      · exact (hw.lineBus g hg).2
      · exact (hw.trafoBus g hg).1
      · exact (hw.trafoBus g hg).2

theorem termsAt_renamed {ρ : Names} {w : WNet F} (hw : Sound w) (h : BusesDiffer ρ w) (t : Nat) (l : Bool) {b : Name} (hb : b ∈ w.buses) :
    Nodal.termsAt (nodal (renamed ρ w) t) l (ρ.bus b) = (Nodal.termsAt (nodal w t) l b).map (fun e => (e.1, ρ.nvar e.2)) := by
  unfold Nodal.termsAt
  rw [entries_renamed hw h, List.filter_map, List.map_map, List.map_map]
  have : (Nodal.entries (nodal w t) l).filter ((fun e => decide (e.bus = ρ.bus b) && e.present) ∘ ρ.entry) =
      (Nodal.entries (nodal w t) l).filter (fun e => decide (e.bus = b) && e.present) := by
    apply List.filter_congr
    intro e he
    have hk := entries_known hw t l e he
    simp only [Function.comp, Names.entry]
    congr 1
    exact decide_eq_decide.mpr ⟨h.differ _ hk _ hb, fun g => by rw [g]⟩
  rw [this]
  rfl

theorem loadAt_renamed {ρ : Names} {w : WNet F} (hw : Sound w) (h : BusesDiffer ρ w) (t : Nat) {b : Name} (hb : b ∈ w.buses) :
    Nodal.loadAt (nodal (renamed ρ w) t) (ρ.bus b) = Nodal.loadAt (nodal w t) b := by
  unfold Nodal.loadAt nodal renamed
  simp only [List.map_map, List.filter_map]
  have : w.loads.filter (((fun l : Nodal.LoadC F => l.active && decide (l.bus = ρ.bus b)) ∘
      (fun l : LoadW F => (⟨l.bus, l.sign, l.pSet t, l.active t⟩ : Nodal.LoadC F))) ∘ (fun g => { g with bus := ρ.bus g.bus })) =
      w.loads.filter ((fun l : Nodal.LoadC F => l.active && decide (l.bus = b)) ∘
      (fun l : LoadW F => (⟨l.bus, l.sign, l.pSet t, l.active t⟩ : Nodal.LoadC F))) := by
    apply List.filter_congr
    intro e he
    have hk := hw.loadBus e he
    simp only [Function.comp]
    congr 1
    exact decide_eq_decide.mpr ⟨h.differ _ hk _ hb, fun g => by rw [g]⟩
  rw [Function.comp_assoc] at this
  rw [this]
  rfl

theorem balance_renamed {ρ : Names} {w : WNet F} (hw : Sound w) (h : BusesDiffer ρ w) (t : Nat) (l : Bool) (bs : List Name)
    (hbs : ∀ b ∈ bs, b ∈ w.buses) :
    Nodal.balance (nodal (renamed ρ w) t) l (bs.map ρ.bus) =
      (Nodal.balance (nodal w t) l bs).map (List.map (fun r => (ρ.bus r.1, remap ρ.nvar r.2))) := by
  unfold Nodal.balance
  have c1 : ((Nodal.entries (nodal (renamed ρ w) t) l).all fun e => !(bs.map ρ.bus).contains e.bus) =
      ((Nodal.entries (nodal w t) l).all fun e => !bs.contains e.bus) := by
    rw [entries_renamed hw h, List.all_map, Bool.eq_iff_iff, List.all_eq_true, List.all_eq_true]
    refine forall₂_congr fun e he => ?_
    have hk := entries_known hw t l e he
    simp only [Function.comp, Names.entry, Bool.not_eq_true', List.contains_eq_mem, decide_eq_false_iff_not, List.mem_map, not_exists, not_and]
    refine ⟨fun g k => g e.bus k rfl, fun g b hb k => g ?_⟩
    rw [← h.differ b (hbs b hb) _ hk k]
    exact hb
  have c2 : ((bs.map ρ.bus).any fun b => (Nodal.termsAt (nodal (renamed ρ w) t) l b).isEmpty && decide (Nodal.loadAt (nodal (renamed ρ w) t) b ≠ 0)) =
      (bs.any fun b => (Nodal.termsAt (nodal w t) l b).isEmpty && decide (Nodal.loadAt (nodal w t) b ≠ 0)) := by
    rw [List.any_map, Bool.eq_iff_iff, List.any_eq_true, List.any_eq_true]
    refine exists_congr fun b => and_congr_right fun hb => ?_
    simp only [Function.comp]
    rw [termsAt_renamed hw h t l (hbs b hb), loadAt_renamed hw h t (hbs b hb)]
    simp
  rw [c1, c2]
  split
  · rfl
  · split
    · rfl
    · simp only [Except.map]
      congr 1
      rw [List.filter_map, List.map_map, List.map_map]
      have : bs.filter ((fun b => !(Nodal.termsAt (nodal (renamed ρ w) t) l b).isEmpty) ∘ ρ.bus) =
          bs.filter (fun b => !(Nodal.termsAt (nodal w t) l b).isEmpty) := by
        apply List.filter_congr
        intro b hb
        simp only [Function.comp]
        rw [termsAt_renamed hw h t l (hbs b hb)]
        simp
      rw [this]
      apply List.map_congr_left
      intro b hb
      have hb' := hbs b (List.mem_of_mem_filter hb)
      simp only [Function.comp]
      rw [termsAt_renamed hw h t l hb', loadAt_renamed hw h t hb']
      rfl

theorem count_renamed {ρ : Name → Name} {S : List Name} (l : List Name) (hl : ∀ a ∈ l, a ∈ S)
    (h : ∀ a ∈ S, ∀ b ∈ S, ρ a = ρ b → a = b) {b : Name} (hb : b ∈ S) : (l.map ρ).count (ρ b) = l.count b := by
  induction l with
  | nil => rfl
  | cons a k ih =>
    rw [List.map_cons, List.count_cons, List.count_cons, ih (fun c hc => hl c (List.mem_cons_of_mem _ hc))]
    have := hl a (List.mem_cons_self ..)
    by_cases e : a = b
    · simp [e]
    · have : ρ a ≠ ρ b := fun g => e (h a this b hb g)
      simp [e, this]

theorem mem_renamed {ρ : Name → Name} {S : List Name} (l : List Name) (hl : ∀ a ∈ l, a ∈ S)
    (h : ∀ a ∈ S, ∀ b ∈ S, ρ a = ρ b → a = b) {b : Name} (hb : b ∈ S) : ρ b ∈ l.map ρ ↔ b ∈ l := by
  rw [List.mem_map]
  exact ⟨fun ⟨a, ha, e⟩ => h a (hl a ha) b hb e ▸ ha, fun g => ⟨b, g, rfl⟩⟩

theorem dedup_renamed {ρ : Name → Name} {S : List Name} (l : List Name) (hl : ∀ a ∈ l, a ∈ S)
    (h : ∀ a ∈ S, ∀ b ∈ S, ρ a = ρ b → a = b) : (l.map ρ).dedup = l.dedup.map ρ := by
  induction l with
  | nil => rfl
  | cons a k ih =>
    have hk := fun c hc => hl c (List.mem_cons_of_mem a hc)
    have ha := hl a (List.mem_cons_self ..)
    rw [List.map_cons]
    by_cases g : a ∈ k
    · rw [List.dedup_cons_of_mem g, List.dedup_cons_of_mem ((mem_renamed k hk h ha).mpr g), ih hk]
    · rw [List.dedup_cons_of_notMem g, List.dedup_cons_of_notMem (fun e => g ((mem_renamed k hk h ha).mp e)), ih hk, List.map_cons]

theorem refs_renamed {ρ : Names} {w : WNet F} (hw : Sound w) (h : BusesDiffer ρ w) (t : Nat) :
    Nodal.busRefs (nodal (renamed ρ w) t) = (Nodal.busRefs (nodal w t)).map ρ.bus := by
  have key : ∀ l : List Name, (∀ b ∈ l, b = "" ∨ b ∈ w.buses) →
      (l.map ρ.port).filter (· ≠ "") = (l.filter (· ≠ "")).map ρ.bus := by
    intro l hl
    induction l with
    | nil => rfl
    | cons a k ih =>
      have hk := ih (fun e he => hl e (List.mem_cons_of_mem _ he))
      by_cases ha : a = ""
      · simpa [Names.port, ha] using hk
      · have := h.named a ((hl a (List.mem_cons_self ..)).resolve_left ha)
        simpa [Names.port, ha, this] using hk
  have pb : ∀ b ∈ w.buses, ρ.port b = ρ.bus b := fun b hb => by
    have : b ≠ "" := fun e => hw.noEmpty (e ▸ hb)
    simp [Names.port, this]
  unfold Nodal.busRefs
  rw [← key]
  · congr 1
    simp only [nodal, renamed, List.map_append, List.map_map, List.map_flatMap, List.flatMap_map, Function.comp_def, List.map_cons, List.map_nil]
    congr 1; congr 1; congr 1; congr 1; congr 1; congr 1
    · exact List.map_congr_left fun g hg => (pb _ (hw.genBus g hg)).symm
    · exact List.map_congr_left fun g hg => (pb _ (hw.storeBus g hg)).symm
    · exact List.map_congr_left fun g hg => (pb _ (hw.unitBus g hg)).symm
    · exact List.flatMap_congr fun g hg => by rw [pb _ (hw.lineBus g hg).1, pb _ (hw.lineBus g hg).2]
    · exact List.flatMap_congr fun g hg => by rw [pb _ (hw.trafoBus g hg).1, pb _ (hw.trafoBus g hg).2]
    · exact List.flatMap_congr fun g hg => by rw [pb _ (hw.linkBus g hg).1, pb _ (hw.linkBus g hg).2.1]
    · exact List.map_congr_left fun g hg => (pb _ (hw.loadBus g hg)).symm
  · intro b hb
    by_cases e : b = ""
    · exact .inl e
    · exact .inr (refs_known hw t b (List.mem_filter.mpr ⟨hb, by simpa using e⟩))

theorem createBalance_renamed {ρ : Names} {w : WNet F} (hw : Sound w) (h : BusesDiffer ρ w) (t : Nat) (l : Bool) (th : Nat) :
    Nodal.createBalance (nodal (renamed ρ w) t) l th =
      (Nodal.createBalance (nodal w t) l th).map (List.map (fun r => (ρ.bus r.1, remap ρ.nvar r.2))) := by
  have hr := refs_known hw t
  have hm : Nodal.meshed (nodal (renamed ρ w) t) th = (Nodal.meshed (nodal w t) th).map ρ.bus := by
    unfold Nodal.meshed
    rw [refs_renamed hw h, dedup_renamed _ hr h.differ, List.filter_map]
    congr 1
    apply List.filter_congr
    intro b hb
    simp only [Function.comp]
    rw [count_renamed _ hr h.differ (hr b (List.mem_dedup.mp hb))]
  have hmk : ∀ b ∈ Nodal.meshed (nodal w t) th, b ∈ w.buses := fun b hb =>
    hr b (List.mem_dedup.mp (List.mem_of_mem_filter hb))
  have hwk : (nodal (renamed ρ w) t).buses.filter (fun b => !((Nodal.meshed (nodal w t) th).map ρ.bus).contains b) =
      ((nodal w t).buses.filter (fun b => !(Nodal.meshed (nodal w t) th).contains b)).map ρ.bus := by
    show (w.buses.map ρ.bus).filter _ = (w.buses.filter _).map _
    rw [List.filter_map]
    congr 1
    apply List.filter_congr
    intro b hb
    simp only [Function.comp, List.contains_eq_mem]
    congr 1
    exact decide_eq_decide.mpr (mem_renamed _ hmk h.differ hb)
  unfold Nodal.createBalance
  simp only [hm, hwk, List.isEmpty_map]
  split
  · rw [balance_renamed hw h t l ((nodal w t).buses.filter _) (fun b hb => List.mem_of_mem_filter hb), balance_renamed hw h t l _ hmk]
    cases Nodal.balance (nodal w t) l _ with
    | error e => rfl
    | ok r1 =>
      cases Nodal.balance (nodal w t) l (Nodal.meshed (nodal w t) th) with
      | error e => rfl
      | ok r2 => simp [Except.map]
  · exact balance_renamed hw h t l _ (fun b hb => hb)

theorem balanceRows_renamed {ρ : Names} {w : WNet F} (hw : Sound w) (h : BusesDiffer ρ w) :
    balanceRows (renamed ρ w) = (balanceRows w).map (List.map (fun r => ((ρ.bus r.1.1, r.1.2), remap ρ.var r.2))) := by
  have mm : ∀ (l : List Nat) (f : Nat → Option (List ((Name × Nat) × Con WVar F))) (g : (Name × Nat) × Con WVar F → (Name × Nat) × Con WVar F),
      l.mapM (fun t => (f t).map (List.map g)) = (l.mapM f).map (List.map (List.map g)) := by
    intro l f g
    induction l with
    | nil => rfl
    | cons a k ih =>
      rw [List.mapM_cons, List.mapM_cons, ih]
      cases f a with
      | none => rfl
      | some a => cases k.mapM f <;> rfl
  unfold balanceRows
  have : (fun t => (Nodal.createBalance (nodal (renamed ρ w) t) ((renamed ρ w).tangents != 0) (renamed ρ w).threshold).toOption.map
      (fun rows => rows.map (fun r => ((r.1, t), remap (nodalVar t) r.2)))) =
      (fun t => ((Nodal.createBalance (nodal w t) (w.tangents != 0) w.threshold).toOption.map
        (fun rows => rows.map (fun r => ((r.1, t), remap (nodalVar t) r.2)))).map
        (List.map (fun r => ((ρ.bus r.1.1, r.1.2), remap ρ.var r.2)))) := by
    funext t
    show (Nodal.createBalance (nodal (renamed ρ w) t) (w.tangents != 0) w.threshold).toOption.map _ = _
    rw [createBalance_renamed hw h]
    cases Nodal.createBalance (nodal w t) (w.tangents != 0) w.threshold with
    | error e => rfl
    | ok r =>
      simp only [Except.map, Except.toOption, Option.map_some, List.map_map]
      congr 1
      apply List.map_congr_left
      intro a _
      simp only [Function.comp, remap_remap]
      congr 2
      funext v
      exact nodalVar_renamed ρ t v
  rw [this, mm, Option.map_map, Option.map_map]
  show Option.map _ ((List.range w.len).mapM _) = _
  congr 1
  funext r
  simp [Function.comp, List.map_flatten]

/-! ## Objective -/

namespace Named

open Objective

/-- Other names of assets by class. -/
def asset (f : Name → Name → Name) (c : Name) (a : Asset F) : Asset F := { a with name := f c a.name }

def ovar (f : Name → Name → Name) : OVar → OVar
  | .op c v a t => .op c v (f c a) t
  | .nom c v a => .nom c v (f c a)
  | .const => .const

variable {n n' : Objective.Net F} {f : Name → Name → Name}

/-- The same network but for the names of assets. -/
structure SameNet (f : Name → Name → Name) (n n' : Objective.Net F) : Prop where
  assets : ∀ c, n'.assets c = (n.assets c).map (asset f c)
  sns : n'.sns = n.sns
  sw : n'.sw = n.sw
  periods : n'.periods = n.periods

theorem weighting_named (h : SameNet f n n') (t : Nat) : weighting n' t = weighting n t := by
  unfold weighting
  rw [h.periods, h.sw]

theorem capital_named (h : SameNet f n n') (c : Name) (a : Asset F) : capitalWeight n' (asset f c a) = capitalWeight n a := by
  unfold capitalWeight
  rw [h.periods]
  rfl

theorem constant_named (h : SameNet f n n') : constant n' = constant n := by
  unfold constant
  congr 1
  apply List.map_congr_left
  intro c _
  rw [h.assets, List.filter_map, List.map_map]
  congr 1
  apply List.map_congr_left
  intro a _
  simp only [Function.comp, capital_named h]
  rfl

/-- A cost that does not depend on the name. -/
def Blind (cost : Asset F → Nat → F) : Prop := ∀ a f c t, cost (asset f c a) t = cost a t

theorem costly_named (h : SameNet f n n') {cost : Asset F → Nat → F} (hc : Blind cost) (c : Name) (as : List (Asset F)) :
    costly n' cost (as.map (asset f c)) = (costly n cost as).map (asset f c) := by
  unfold costly
  rw [List.filter_map, h.sns]
  congr 1
  apply List.filter_congr
  intro a _
  have := hc a f c
  simp only [Function.comp, this]

theorem opTerms_named (h : SameNet f n n') {cost : Asset F → Nat → F} (hc : Blind cost) (c v : Name) (as : List (Asset F)) :
    opTerms n' c v cost (as.map (asset f c)) = (opTerms n c v cost as).map (fun e => (e.1, ovar f e.2)) := by
  unfold opTerms
  rw [List.flatMap_map, List.map_flatMap, h.sns]
  apply List.flatMap_congr
  intro a _
  rw [List.map_map]
  have : Objective.present (asset f c a) v = Objective.present a v := rfl
  rw [this]
  apply List.map_congr_left
  intro t _
  have := hc a f c
  simp only [Function.comp, this, weighting_named h]
  rfl

theorem spill_named (h : SameNet f n n') : spillDefined n' = spillDefined n := by
  unfold spillDefined
  rw [h.assets, List.any_map, h.sns]
  rfl

abbrev names (f : Name → Name → Name) : List (List (F × OVar)) → List (List (F × OVar)) := List.map (List.map (fun e => (e.1, ovar f e.2)))

theorem costType_named (h : SameNet f n n') {cost : Asset F → Nat → F} (hc : Blind cost) (flag : Row → Bool) :
    costType n' flag cost = names f (costType n flag cost) := by
  unfold costType names
  simp only [h.assets, costly_named h hc, List.isEmpty_map, opTerms_named h hc, List.map_map, Function.comp_def]

theorem standBy_named (h : SameNet f n n') : standByTerms n' = names f (standByTerms n) := by
  unfold standByTerms names
  have hf : ∀ c, (n'.assets c).filter (·.com) = ((n.assets c).filter (·.com)).map (asset f c) := by
    intro c
    rw [h.assets, List.filter_map]
    rfl
  have hc : Blind (F := F) Asset.standBy := fun _ _ _ _ => rfl
  simp only [hf, List.isEmpty_map, costly_named h hc, opTerms_named h hc, List.map_map, Function.comp_def]

theorem invest_named (h : SameNet f n n') : investTerms n' = names f (investTerms n) := by
  unfold investTerms names
  have hf : ∀ c, (n'.assets c).filter (·.ext) = ((n.assets c).filter (·.ext)).map (asset f c) := by
    intro c
    rw [h.assets, List.filter_map]
    rfl
  simp only [hf, List.isEmpty_map, List.map_map, Function.comp_def, capital_named h]
  rfl

theorem event_named (h : SameNet f n n') : eventTerms n' = names f (eventTerms n) := by
  unfold eventTerms names
  have hf : ∀ c, (n'.assets c).filter (·.com) = ((n.assets c).filter (·.com)).map (asset f c) := by
    intro c
    rw [h.assets, List.filter_map]
    rfl
  have he : ∀ v c (a : Asset F), eventCost v (asset f c a) = eventCost v a := fun _ _ _ => rfl
  simp only [hf, List.map_map, List.flatMap_map, List.map_flatMap, Function.comp_def, h.sns, he]
  rfl

theorem objective_named (h : SameNet f n n') :
    objective n' = (objective n).map (fun o => ⟨o.linear.map (fun e => (e.1, ovar f e.2)), o.quadratic.map (fun e => (e.1, ovar f e.2))⟩) := by
  have hk : constTerms n' = names f (constTerms n) := by
    unfold constTerms
    rw [constant_named h]
    split <;> rfl
  unfold objective
  rw [spill_named h, costType_named h (fun _ _ _ _ => rfl) (·.spill), costType_named h (cost := Asset.quadratic) (fun _ _ _ _ => rfl),
    costType_named h (cost := Asset.marginal) (fun _ _ _ _ => rfl), costType_named h (cost := Asset.marginalStorage) (fun _ _ _ _ => rfl),
    standBy_named h, invest_named h, event_named h, hk]
  simp only [names, ← List.map_append, List.isEmpty_map]
  split
  · split
    · rfl
    · simp [Except.map, List.map_flatten]
  · rfl

end Named

theorem objNet_renamed (ρ : Names) (w : WNet F) : Named.SameNet ρ.asset (objNet w) (objNet (renamed ρ w)) where
  assets := by
    intro c
    show objAssets (renamed ρ w) c = (objAssets w c).map _
    unfold objAssets
    split_ifs with h1 h2 h3 h4 h5 h6
    all_goals first
      | rfl
      | (subst_vars
         simp only [renamed, List.map_map]
         apply List.map_congr_left
         intro g _
         simp [Function.comp, Named.asset, Names.asset, genAsset, linkAsset, storeAsset, sunitAsset, branchAsset, objAsset])
  sns := rfl
  sw := rfl
  periods := rfl

theorem objVar_renamed (ρ : Names) (v : Objective.OVar) : objVar (Named.ovar ρ.asset v) = ρ.var (objVar v) := by cases v <;> rfl

/-! ## The whole problem -/

/-- C125: the problem of the network with other names is the problem of the network, with other names. -/
theorem renamed_program {ρ : Names} {w : WNet F} (hw : Sound w) (h : BusesDiffer ρ w) (other : List (Con WVar F)) :
    createModel (renamed ρ w) (other.map (remap ρ.var)) = (createModel w other).map ρ.program := by
  unfold createModel
  rw [ownRows_renamed, balanceRows_renamed hw h, Named.objective_named (objNet_renamed ρ w)]
  cases ownRows w with
  | none => rfl
  | some own =>
    cases balanceRows w with
    | none => rfl
    | some bal =>
      cases Objective.objective (objNet w) with
      | error e => rfl
      | ok o =>
        simp only [Option.map_some, Option.bind_some, Except.map, Except.toOption, Names.program, List.map_map, List.map_append, List.map_cons,
          Function.comp_def, objVar_renamed, constRow, Named.constant_named (objNet_renamed ρ w)]
        rfl

/-- Costs of a point, with quadratic ones. -/
def fullCost (w : WNet F) (P : Program F) (x : WVar → F) : F :=
  lin x P.linear + (P.quadratic.map (fun e => e.1 * (x e.2 * x e.2))).sum + Objective.constant (objNet w)

/-- No feasible point costs less. -/
def Optimal (w : WNet F) (P : Program F) (x : WVar → F) : Prop :=
  FeasibleIn P x ∧ ∀ z, FeasibleIn P z → fullCost w P x ≤ fullCost w P z

/-- The variable belongs to an asset of the network, or is the constant. -/
def Known (w : WNet F) : WVar → Prop
  | .of c a _ => (c = "Generator" ∧ a ∈ w.gens.map (·.name)) ∨ (c = "Link" ∧ a ∈ w.links.map (·.name)) ∨
      (c = "Store" ∧ a ∈ w.stores.map (·.name)) ∨ (c = "StorageUnit" ∧ a ∈ w.units.map (·.name)) ∨
      (c = "Line" ∧ a ∈ w.lines.map (·.name)) ∨ (c = "Transformer" ∧ a ∈ w.trafos.map (·.name))
  | .const => True

/-- Different assets of a class keep different names. -/
structure AssetsDiffer (ρ : Names) (w : WNet F) : Prop where
  gens : ∀ a ∈ w.gens.map (·.name), ∀ b ∈ w.gens.map (·.name), ρ.gen a = ρ.gen b → a = b
  links : ∀ a ∈ w.links.map (·.name), ∀ b ∈ w.links.map (·.name), ρ.link a = ρ.link b → a = b
  stores : ∀ a ∈ w.stores.map (·.name), ∀ b ∈ w.stores.map (·.name), ρ.store a = ρ.store b → a = b
  units : ∀ a ∈ w.units.map (·.name), ∀ b ∈ w.units.map (·.name), ρ.unit a = ρ.unit b → a = b
  lines : ∀ a ∈ w.lines.map (·.name), ∀ b ∈ w.lines.map (·.name), ρ.line a = ρ.line b → a = b
  trafos : ∀ a ∈ w.trafos.map (·.name), ∀ b ∈ w.trafos.map (·.name), ρ.trafo a = ρ.trafo b → a = b

theorem var_differ {ρ : Names} {w : WNet F} (h : AssetsDiffer ρ w) {u v : WVar} (hu : Known w u) (hv : Known w v)
    (e : ρ.var u = ρ.var v) : u = v := by
  cases u with
  | const => cases v with
    | const => rfl
    | of c a l => simp [Names.var] at e
  | of c a l => cases v with
    | const => simp [Names.var] at e
    | of c' a' l' =>
      simp only [Names.var, WVar.of.injEq] at e
      obtain ⟨rfl, e, rfl⟩ := e
      rcases hu with ⟨rfl, hu⟩ | ⟨rfl, hu⟩ | ⟨rfl, hu⟩ | ⟨rfl, hu⟩ | ⟨rfl, hu⟩ | ⟨rfl, hu⟩ <;>
        simp only [Known, Names.asset] at hv e <;> simp at hv e
      · rw [h.gens a hu a' (by simpa using hv) e]
      · rw [h.links a hu a' (by simpa using hv) e]
      · rw [h.stores a hu a' (by simpa using hv) e]
      · rw [h.units a hu a' (by simpa using hv) e]
      · rw [h.lines a hu a' (by simpa using hv) e]
      · rw [h.trafos a hu a' (by simpa using hv) e]

theorem entry_known (w : WNet F) (t : Nat) (l : Bool) : ∀ e ∈ Nodal.entries (nodal w t) l, Known w (nodalVar t e.var) := by
  intro e he
  unfold Nodal.entries nodal at he
  simp only [List.mem_append, List.mem_map, List.mem_flatMap] at he
  rcases he with ((((((⟨_, ⟨g, hg, rfl⟩, rfl⟩ | ⟨_, ⟨g, hg, rfl⟩, rfl⟩) | ⟨_, ⟨g, hg, rfl⟩, rfl⟩) | ⟨_, ⟨g, hg, rfl⟩, rfl⟩) |
    ⟨_, ⟨g, hg, rfl⟩, k⟩) | ⟨_, ⟨g, hg, rfl⟩, k⟩) | ⟨_, ⟨g, hg, rfl⟩, k⟩) | k
  · have := List.mem_map_of_mem (f := (·.name)) hg; simp_all [Known, nodalVar]
  · have := List.mem_map_of_mem (f := (·.name)) hg; simp_all [Known, nodalVar]
  · have := List.mem_map_of_mem (f := (·.name)) hg; simp_all [Known, nodalVar]
  · have := List.mem_map_of_mem (f := (·.name)) hg; simp_all [Known, nodalVar]
  · simp only [Nodal.branchEntries, List.mem_cons, List.not_mem_nil, or_false] at k
    have := List.mem_map_of_mem (f := (·.name)) hg
    rcases k with rfl | rfl <;> simp_all [Known, nodalVar]
  · simp only [Nodal.branchEntries, List.mem_cons, List.not_mem_nil, or_false] at k
    have := List.mem_map_of_mem (f := (·.name)) hg
    rcases k with rfl | rfl <;> simp_all [Known, nodalVar]
  · simp only [Nodal.linkEntries, List.mem_cons, List.mem_map, List.mem_filter, decide_eq_true_eq] at k
    have := List.mem_map_of_mem (f := (·.name)) hg
    rcases k with rfl | rfl | ⟨_, -, rfl⟩ <;> simp_all [Known, nodalVar]
  · cases l
    · simp at k
    · simp only [if_true, List.mem_append, List.mem_flatMap, List.mem_map] at k
      rcases k with ⟨_, ⟨g, hg, rfl⟩, k⟩ | ⟨_, ⟨g, hg, rfl⟩, k⟩ <;>
        simp only [Nodal.lossEntries, List.mem_cons, List.not_mem_nil, or_false] at k <;>
        have := List.mem_map_of_mem (f := (·.name)) hg <;> rcases k with rfl | rfl <;> simp_all [Known, nodalVar]

section known

open Objective

/-- The variable belongs to an asset of its class. -/
def OKnown (n : Objective.Net F) : OVar → Prop
  | .op c _ a _ => a ∈ (n.assets c).map (·.name)
  | .nom c _ a => a ∈ (n.assets c).map (·.name)
  | .const => True

theorem opTerms_known (n : Objective.Net F) (c v : Name) (cost : Asset F → Nat → F) (as : List (Asset F)) (h : ∀ a ∈ as, a ∈ n.assets c) :
    ∀ e ∈ opTerms n c v cost as, OKnown n e.2 := by
  intro e he
  simp only [opTerms, List.mem_flatMap, List.mem_map] at he
  obtain ⟨a, ha, t, -, rfl⟩ := he
  exact List.mem_map_of_mem (h a ha)

theorem costType_known (n : Objective.Net F) (flag : Row → Bool) (cost : Asset F → Nat → F) :
    ∀ ts ∈ costType n flag cost, ∀ e ∈ ts, OKnown n e.2 := by
  intro ts hts
  simp only [costType, List.mem_map] at hts
  obtain ⟨r, -, rfl⟩ := hts
  exact opTerms_known n _ _ _ _ (fun a ha => List.mem_of_mem_filter ha)

theorem objective_known {n : Objective.Net F} {o : Obj F} (h : objective n = .ok o) :
    (∀ e ∈ o.linear, OKnown n e.2) ∧ ∀ e ∈ o.quadratic, OKnown n e.2 := by
  unfold objective at h
  simp only at h
  split at h
  · split at h
    · cases h
    · simp only [Except.ok.injEq] at h
      subst h
      constructor
      · intro e he
        obtain ⟨ts, hts, he⟩ := List.mem_flatten.mp he
        simp only [List.mem_append] at hts
        rcases hts with (((((hts | hts) | hts) | hts) | hts) | hts) | hts
        · unfold constTerms at hts
          split at hts
          · simp at hts
          · simp only [List.mem_singleton] at hts
            subst hts
            simp only [List.mem_singleton] at he
            subst he
            trivial
        · exact costType_known n _ _ ts hts e he
        · exact costType_known n _ _ ts hts e he
        · exact costType_known n _ _ ts hts e he
        · simp only [standByTerms, List.mem_map] at hts
          obtain ⟨c, -, rfl⟩ := hts
          exact opTerms_known n _ _ _ _ (fun a ha => List.mem_of_mem_filter (List.mem_of_mem_filter ha)) e he
        · simp only [investTerms, List.mem_map] at hts
          obtain ⟨c, -, rfl⟩ := hts
          obtain ⟨a, ha, rfl⟩ := List.mem_map.mp he
          exact List.mem_map_of_mem (List.mem_of_mem_filter ha)
        · simp only [eventTerms, List.mem_map] at hts
          obtain ⟨r, -, rfl⟩ := hts
          simp only [List.mem_flatMap, List.mem_map] at he
          obtain ⟨a, ha, t, -, rfl⟩ := he
          exact List.mem_map_of_mem (List.mem_of_mem_filter ha)
      · intro e he
        obtain ⟨ts, hts, he⟩ := List.mem_flatten.mp he
        exact costType_known n _ _ ts hts e he
  · cases h

end known

theorem objAssets_known {w : WNet F} {c a : Name} (h : a ∈ (objAssets w c).map (·.name)) (v : Loc) : Known w (.of c a v) := by
  unfold objAssets at h
  simp only [Known]
  split_ifs at h with h1 h2 h3 h4 h5 h6
  all_goals
    simp only [List.map_map, List.map_nil, List.not_mem_nil] at h
  · exact .inl ⟨h1, h⟩
  · exact .inr (.inl ⟨h2, h⟩)
  · exact .inr (.inr (.inl ⟨h3, h⟩))
  · exact .inr (.inr (.inr (.inl ⟨h4, h⟩)))
  · exact .inr (.inr (.inr (.inr (.inl ⟨h5, h⟩))))
  · exact .inr (.inr (.inr (.inr (.inr ⟨h6, h⟩))))

theorem objVar_known {w : WNet F} {v : Objective.OVar} (h : OKnown (objNet w) v) : Known w (objVar v) := by
  cases v with
  | op c v a t => exact objAssets_known h _
  | nom c v a => exact objAssets_known h _
  | const => trivial

theorem remap_terms {V W : Type} (f : V → W) (c : Con V F) {e : F × W} (he : e ∈ (remap f c).terms) : ∃ v, e.2 = f v := by
  simp only [remap, List.mem_map] at he
  obtain ⟨a, -, rfl⟩ := he
  exact ⟨_, rfl⟩

theorem balance_terms {n : Nodal.Net F} {l : Bool} {bs : List Name} {rows : List (Name × Con Nodal.NVar F)}
    (h : Nodal.balance n l bs = .ok rows) : ∀ r ∈ rows, ∀ e ∈ r.2.terms, ∃ k ∈ Nodal.entries n l, e.2 = k.var := by
  unfold Nodal.balance at h
  split at h
  · cases h
  · split at h
    · cases h
    · simp only [Except.ok.injEq] at h
      subst h
      intro r hr e he
      obtain ⟨b, -, rfl⟩ := List.mem_map.mp hr
      simp only [Nodal.termsAt, List.mem_map] at he
      obtain ⟨k, hk, rfl⟩ := he
      exact ⟨k, List.mem_of_mem_filter hk, rfl⟩

theorem createBalance_terms {n : Nodal.Net F} {l : Bool} {th : Nat} {rows : List (Name × Con Nodal.NVar F)}
    (h : Nodal.createBalance n l th = .ok rows) : ∀ r ∈ rows, ∀ e ∈ r.2.terms, ∃ k ∈ Nodal.entries n l, e.2 = k.var := by
  unfold Nodal.createBalance at h
  simp only at h
  split at h
  · split at h
    · cases h
    · rename_i r1 h1
      split at h
      · cases h
      · rename_i r2 h2
        simp only [Except.ok.injEq] at h
        subst h
        intro r hr
        rcases List.mem_append.mp hr with g | g
        · exact balance_terms h1 r g
        · exact balance_terms h2 r g
  · exact balance_terms h

/-- All variables of a problem belong to assets of the network. -/
structure AllKnown (w : WNet F) (P : Program F) : Prop where
  linear : ∀ e ∈ P.linear, Known w e.2
  quadratic : ∀ e ∈ P.quadratic, Known w e.2
  balance : ∀ r ∈ P.balance, ∀ e ∈ r.2.terms, Known w e.2
  rows : ∀ r ∈ P.rows, ∀ e ∈ r.terms, Known w e.2

theorem all_known {w : WNet F} {other : List (Con WVar F)} (ho : ∀ r ∈ other, ∀ e ∈ r.terms, Known w e.2) {P : Program F}
    (hP : createModel w other = some P) : AllKnown w P := by
  obtain ⟨own, bal, o, h1, h2, h3, h4, h5, h6, h7⟩ := createModel_parts hP
  refine ⟨?_, ?_, ?_, ?_⟩
  · rw [h4]
    intro e he
    obtain ⟨k, hk, rfl⟩ := List.mem_map.mp he
    exact objVar_known ((objective_known h3).1 k hk)
  · rw [h5]
    intro e he
    obtain ⟨k, hk, rfl⟩ := List.mem_map.mp he
    exact objVar_known ((objective_known h3).2 k hk)
  · rw [h6]
    unfold balanceRows at h2
    obtain ⟨ls, hls, rfl⟩ := Option.map_eq_some_iff.mp h2
    intro r hr e he
    obtain ⟨l, hl, hr⟩ := List.mem_flatten.mp hr
    have hl' : some l ∈ ls.map some := List.mem_map_of_mem hl
    rw [← mapM_some_eq _ _ _ hls] at hl'
    obtain ⟨t, -, ht⟩ := List.mem_map.mp hl'
    obtain ⟨rows, hrows, rfl⟩ := Option.map_eq_some_iff.mp ht
    obtain ⟨q, hq, rfl⟩ := List.mem_map.mp hr
    simp only [remap, List.mem_map] at he
    obtain ⟨a, ha, rfl⟩ := he
    cases hb : Nodal.createBalance (nodal w t) (w.tangents != 0) w.threshold with
    | error e => rw [hb] at hrows; cases hrows
    | ok rs =>
      rw [hb] at hrows
      cases hrows
      obtain ⟨k, hk, e⟩ := createBalance_terms hb q hq a ha
      show Known w (nodalVar t a.2)
      rw [e]
      exact entry_known w t _ k hk
  · rw [h7]
    intro r hr e he
    rcases List.mem_append.mp hr with g | g
    · unfold ownRows at h1
      obtain ⟨ls, hls, rfl⟩ := Option.map_eq_some_iff.mp h1
      obtain ⟨l, hl, g⟩ := List.mem_flatten.mp g
      have hm := mapM_id_mem _ ls hls
      have hl' : some l ∈ ls.map some := List.mem_map_of_mem hl
      rw [← hm] at hl'
      have key : ∀ (c n : Name) (rows : Option (List (Con Loc F))), tagged c n rows = some l → ∃ v, e.2 = .of c n v := by
        intro c n rows ht
        obtain ⟨rs, -, rfl⟩ := Option.map_eq_some_iff.mp ht
        obtain ⟨q, -, rfl⟩ := List.mem_map.mp g
        exact remap_terms _ _ he
      simp only [List.mem_append, List.mem_map] at hl'
      rcases hl' with ((((⟨g, hg, ht⟩ | ⟨g, hg, ht⟩) | ⟨g, hg, ht⟩) | ⟨g, hg, ht⟩) | ⟨g, hg, ht⟩) | ⟨g, hg, ht⟩ <;>
        obtain ⟨v, hv⟩ := key _ _ _ ht <;> rw [hv] <;> have := List.mem_map_of_mem (f := (·.name)) hg <;> simp only [Known]
      · exact .inl ⟨trivial, this⟩
      · exact .inr (.inl ⟨trivial, this⟩)
      · exact .inr (.inr (.inl ⟨trivial, this⟩))
      · exact .inr (.inr (.inr (.inl ⟨trivial, this⟩)))
      · exact .inr (.inr (.inr (.inr (.inl ⟨trivial, this⟩))))
      · exact .inr (.inr (.inr (.inr (.inr ⟨trivial, this⟩))))
    · rcases List.mem_cons.mp g with rfl | g
      · simp only [constRow, List.mem_singleton] at he
        subst he
        trivial
      · exact ho r g e he

/-! ## Optima -/

theorem lin_renamed (ρ : Names) (y : WVar → F) (ts : List (F × WVar)) : lin y (ts.map (fun e => (e.1, ρ.var e.2))) = lin (y ∘ ρ.var) ts := by
  simp [lin, Function.comp_def]

theorem feasible_renamed (ρ : Names) (P : Program F) (y : WVar → F) : FeasibleIn (ρ.program P) y ↔ FeasibleIn P (y ∘ ρ.var) := by
  have h : ∀ c : Con WVar F, (remap ρ.var c).holds y ↔ c.holds (y ∘ ρ.var) := by
    intro c
    unfold Con.holds
    rw [← lin_renamed]
    rfl
  unfold FeasibleIn Feasible Names.program
  simp only [List.mem_map, forall_exists_index, and_imp, forall_apply_eq_imp_iff₂, h]

theorem fullCost_renamed (ρ : Names) (w : WNet F) (P : Program F) (y : WVar → F) :
    fullCost (renamed ρ w) (ρ.program P) y = fullCost w P (y ∘ ρ.var) := by
  unfold fullCost
  rw [Named.constant_named (objNet_renamed ρ w)]
  congr 2
  · exact lin_renamed ρ y P.linear
  · simp [Names.program, Function.comp_def]

/-- C125: points are feasible, cost as much and are optimal with other names exactly if they are with the old names. -/
theorem names_irrelevant {ρ : Names} {w : WNet F} (hw : Sound w) (h : BusesDiffer ρ w) (ha : AssetsDiffer ρ w)
    {other : List (Con WVar F)} (ho : ∀ r ∈ other, ∀ e ∈ r.terms, Known w e.2) {P P' : Program F}
    (hP : createModel w other = some P) (hP' : createModel (renamed ρ w) (other.map (remap ρ.var)) = some P') (y : WVar → F) :
    (FeasibleIn P' y ↔ FeasibleIn P (y ∘ ρ.var)) ∧ fullCost (renamed ρ w) P' y = fullCost w P (y ∘ ρ.var) ∧
      (Optimal (renamed ρ w) P' y ↔ Optimal w P (y ∘ ρ.var)) ∧
      ∀ x, Optimal w P x → ∃ y, Optimal (renamed ρ w) P' y ∧ ∀ v, Known w v → y (ρ.var v) = x v := by
  rw [renamed_program hw h, hP] at hP'
  cases hP'
  have hk := all_known ho hP
  -- any point with the old names comes from one with the new names
  have lift : ∀ x : WVar → F, ∃ y : WVar → F, ∀ v, Known w v → y (ρ.var v) = x v := by
    intro x
    classical
    refine ⟨fun u => if k : ∃ v, Known w v ∧ ρ.var v = u then x k.choose else 0, fun v hv => ?_⟩
    have k : ∃ v', Known w v' ∧ ρ.var v' = ρ.var v := ⟨v, hv, rfl⟩
    simp only [k, dite_true]
    rw [var_differ ha k.choose_spec.1 hv k.choose_spec.2]
  have feas : ∀ x z : WVar → F, (∀ v, Known w v → z v = x v) → (FeasibleIn P z ↔ FeasibleIn P x) := by
    intro x z hz
    unfold FeasibleIn
    rw [feasible_agree (fun r hr e he => hz e.2 (hk.rows r hr e he)), feasible_agree (o := P.balance.map (·.2))]
    intro r hr e he
    obtain ⟨q, hq, rfl⟩ := List.mem_map.mp hr
    exact hz e.2 (hk.balance q hq e he)
  have cost : ∀ x z : WVar → F, (∀ v, Known w v → z v = x v) → fullCost w P z = fullCost w P x := by
    intro x z hz
    unfold fullCost lin
    congr 2
    · exact congrArg _ (List.map_congr_left fun e he => by rw [hz e.2 (hk.linear e he)])
    · exact congrArg _ (List.map_congr_left fun e he => by rw [hz e.2 (hk.quadratic e he)])
  have opt : ∀ y, Optimal (renamed ρ w) (ρ.program P) y ↔ Optimal w P (y ∘ ρ.var) := by
    intro y
    unfold Optimal
    rw [feasible_renamed, fullCost_renamed]
    refine and_congr_right fun _ => ⟨fun g x hx => ?_, fun g z hz => ?_⟩
    · obtain ⟨z, hz⟩ := lift x
      rw [← cost x (z ∘ ρ.var) hz, ← fullCost_renamed ρ w P z]
      exact g z ((feasible_renamed ρ P z).mpr ((feas x _ hz).mpr hx))
    · rw [fullCost_renamed]
      exact g _ ((feasible_renamed ρ P z).mp hz)
  refine ⟨feasible_renamed ρ P y, fullCost_renamed ρ w P y, opt y, fun x hx => ?_⟩
  obtain ⟨z, hz⟩ := lift x
  refine ⟨z, (opt z).mpr ⟨(feas x _ hz).mpr hx.1, fun u hu => ?_⟩, hz⟩
  rw [cost x (z ∘ ρ.var) hz]
  exact hx.2 u hu

/-! ## Example -/

/-- Numbers for the buses, generators exchange their names, everything else is written out in capitals. -/
def exNames : Names where
  bus := fun b => if b = "A" then "1" else if b = "B" then "2" else if b = "C" then "3" else "4"
  gen := fun g => if g = "wind" then "peaker" else "wind"
  link := String.toUpper
  store := String.toUpper
  unit := String.toUpper
  line := String.toUpper
  trafo := String.toUpper

theorem exNames_buses : BusesDiffer exNames exNet := ⟨by decide +kernel, by decide +kernel⟩

theorem exNames_assets : AssetsDiffer exNames exNet := by constructor <;> decide +kernel

instance (v : WVar) : Decidable (Known exNet v) := by
  cases v <;> unfold Known <;> infer_instance

/-- The network of `WholeExample.lean` with its further rows. -/
example : ∃ P, createModel (renamed exNames exNet) (exOther.map (remap exNames.var)) = some P ∧
    ∀ x, Optimal exNet exModel x → ∃ y, Optimal (renamed exNames exNet) P y ∧
      y (.of "Generator" "peaker" .cap) = x (.of "Generator" "wind" .cap) := by
  refine ⟨exNames.program exModel, by rw [renamed_program exSound exNames_buses, exModel_eq]; rfl, fun x hx => ?_⟩
  obtain ⟨y, hy, e⟩ := (names_irrelevant exSound exNames_buses exNames_assets (by decide +kernel) exModel_eq
    (by rw [renamed_program exSound exNames_buses, exModel_eq]; rfl) x).2.2.2 x hx
  exact ⟨y, hy, e (.of "Generator" "wind" .cap) (by decide +kernel)⟩

end Verif.Opt.Whole
