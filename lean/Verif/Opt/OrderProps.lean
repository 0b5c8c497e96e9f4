import Verif.Opt.ExtendProps

/-!
# C115: the order of components does not matter

About the whole problem of `Whole.lean`: buses and components in another order.
-/

namespace Verif.Opt.Whole

variable {F : Type} [Field F] [LinearOrder F]

/-- The same network with buses and components in another order. -/
structure Reordered (w w' : WNet F) : Prop where
  len : w'.len = w.len
  multi : w'.multi = w.multi
  period : w'.period = w.period
  rolling : w'.rolling = w.rolling
  linearized : w'.linearized = w.linearized
  tangents : w'.tangents = w.tangents
  threshold : w'.threshold = w.threshold
  sw : w'.sw = w.sw
  gw : w'.gw = w.gw
  periods : w'.periods = w.periods
  buses : w.buses.Perm w'.buses
  gens : w.gens.Perm w'.gens
  links : w.links.Perm w'.links
  stores : w.stores.Perm w'.stores
  units : w.units.Perm w'.units
  lines : w.lines.Perm w'.lines
  trafos : w.trafos.Perm w'.trafos
  loads : w.loads.Perm w'.loads

/-- Value of the objective at a point. -/
def Program.value (P : Program F) (x : WVar → F) : F :=
  lin x P.linear + (P.quadratic.map (fun e => e.1 * (x e.2 * x e.2))).sum

omit [Field F] [LinearOrder F] in
theorem Reordered.symm {w w' : WNet F} (h : Reordered w w') : Reordered w' w :=
  ⟨h.len.symm, h.multi.symm, h.period.symm, h.rolling.symm, h.linearized.symm, h.tangents.symm, h.threshold.symm, h.sw.symm,
    h.gw.symm, h.periods.symm, h.buses.symm, h.gens.symm, h.links.symm, h.stores.symm, h.units.symm, h.lines.symm,
    h.trafos.symm, h.loads.symm⟩

/-! ## Rows of assets -/

theorem all_perm {α : Type} {l l' : List α} (h : l.Perm l') (p : α → Bool) : l'.all p = l.all p := by
  rw [Bool.eq_iff_iff, List.all_eq_true, List.all_eq_true]
  exact ⟨fun k a ha => k a (h.mem_iff.mp ha), fun k a ha => k a (h.mem_iff.mpr ha)⟩

theorem any_perm {α : Type} {l l' : List α} (h : l.Perm l') (p : α → Bool) : l'.any p = l.any p := by
  rw [Bool.eq_iff_iff, List.any_eq_true, List.any_eq_true]
  exact ⟨fun ⟨a, ha, k⟩ => ⟨a, h.mem_iff.mpr ha, k⟩, fun ⟨a, ha, k⟩ => ⟨a, h.mem_iff.mp ha, k⟩⟩

theorem isEmpty_perm {α : Type} {l l' : List α} (h : l.Perm l') : l'.isEmpty = l.isEmpty := by
  have := h.length_eq
  cases l <;> cases l' <;> simp_all

theorem unitCons_perm {us vs : List (Unit' F)} (h : us.Perm vs) (u : Unit' F) (T : Nat) (r l : Bool) :
    unitCons vs u T r l = unitCons us u T r l := by
  unfold unitCons rampCons rampSkip
  rw [all_perm h, all_perm h]

theorem genRows_perm {w w' : WNet F} (h : Reordered w w') (g : GenW F) : genRows w' g = genRows w g := by
  unfold genRows
  rw [unitCons_perm (h.gens.map _), h.len, h.rolling, h.linearized, h.gw]

theorem linkRows_perm {w w' : WNet F} (h : Reordered w w') (g : LinkW F) : linkRows w' g = linkRows w g := by
  unfold linkRows
  rw [unitCons_perm (h.links.map _), h.len, h.rolling, h.linearized]

theorem storeRows_perm {w w' : WNet F} (h : Reordered w w') (g : StoreW F) : storeRows w' g = storeRows w g := by
  unfold storeRows
  rw [h.len, h.multi, h.period]

theorem sunitRows_perm {w w' : WNet F} (h : Reordered w w') (g : UnitW F) : sunitRows w' g = sunitRows w g := by
  unfold sunitRows
  rw [h.len, h.multi, h.period]

theorem branchRows_perm {w w' : WNet F} (h : Reordered w w') (c : Accessor.Cls) (g : BranchW F) :
    branchRows w' c g = branchRows w c g := by
  unfold branchRows lossRows
  rw [h.len, h.tangents]

theorem mapM_perm {α : Type} {l l' : List (Option (List α))} (h : l.Perm l') {r : List (List α)} (hr : l.mapM id = some r) :
    ∃ r', l'.mapM id = some r' ∧ r.Perm r' := by
  induction h generalizing r with
  | nil => exact ⟨r, hr, .refl _⟩
  | @cons a s s' _ ih =>
    simp only [List.mapM_cons, id_eq, Option.bind_eq_bind, Option.pure_def, Option.bind_eq_some_iff, Option.some.injEq] at hr ⊢
    obtain ⟨x, rfl, y, hy, rfl⟩ := hr
    obtain ⟨y', h1, h2⟩ := ih hy
    exact ⟨x :: y', ⟨x, rfl, y', h1, rfl⟩, h2.cons x⟩
  | swap a b s =>
    simp only [List.mapM_cons, id_eq, Option.bind_eq_bind, Option.pure_def, Option.bind_eq_some_iff, Option.some.injEq] at hr ⊢
    obtain ⟨x, rfl, y, ⟨z, rfl, u, hu, rfl⟩, rfl⟩ := hr
    exact ⟨z :: x :: u, ⟨z, rfl, x :: u, ⟨x, rfl, u, hu, rfl⟩, rfl⟩, List.Perm.swap z x u⟩
  | trans _ _ ih1 ih2 =>
    obtain ⟨r1, h1, h2⟩ := ih1 hr
    obtain ⟨r2, h3, h4⟩ := ih2 h1
    exact ⟨r2, h3, h2.trans h4⟩

theorem ownRows_perm {w w' : WNet F} (h : Reordered w w') {own : List (Con WVar F)} (ho : ownRows w = some own) :
    ∃ own', ownRows w' = some own' ∧ own.Perm own' := by
  unfold ownRows at ho ⊢
  obtain ⟨r, hr, rfl⟩ := Option.map_eq_some_iff.mp ho
  simp only [genRows_perm h, linkRows_perm h, storeRows_perm h, sunitRows_perm h, branchRows_perm h]
  obtain ⟨r', h1, h2⟩ := mapM_perm ((((((h.gens.map _).append (h.links.map _)).append (h.stores.map _)).append (h.units.map _)).append
    (h.lines.map _)).append (h.trafos.map _)) hr
  rw [h1]
  exact ⟨r'.flatten, rfl, h2.flatten⟩

/-! ## Nodal balance -/

/-- The same components at one snapshot. -/
structure NodalPerm (n n' : Nodal.Net F) : Prop where
  buses : n.buses.Perm n'.buses
  gens : n.gens.Perm n'.gens
  links : n.links.Perm n'.links
  stores : n.stores.Perm n'.stores
  units : n.units.Perm n'.units
  lines : n.lines.Perm n'.lines
  trafos : n.trafos.Perm n'.trafos
  loads : n.loads.Perm n'.loads

theorem nodal_perm {w w' : WNet F} (h : Reordered w w') (t : Nat) : NodalPerm (nodal w t) (nodal w' t) :=
  ⟨h.buses, h.gens.map _, h.links.map _, h.stores.map _, h.units.map _, h.lines.map _, h.trafos.map _, h.loads.map _⟩

theorem entries_perm {n n' : Nodal.Net F} (h : NodalPerm n n') (l : Bool) : (Nodal.entries n l).Perm (Nodal.entries n' l) := by
  unfold Nodal.entries
  refine (((((((h.gens.map _).append (h.stores.map _)).append (h.units.map _)).append (h.units.map _)).append
    (h.lines.flatMap_right _)).append (h.trafos.flatMap_right _)).append (h.links.flatMap_right _)).append ?_
  split
  · exact (h.lines.flatMap_right _).append (h.trafos.flatMap_right _)
  · exact .refl _

/-- The rows of the first list are among those of the second, up to the order of terms. -/
def Among {V L : Type} (r r' : List (L × Con V F)) : Prop :=
  ∀ e ∈ r, ∃ e' ∈ r', e'.1 = e.1 ∧ e.2.terms.Perm e'.2.terms ∧ e'.2.sense = e.2.sense ∧ e'.2.rhs = e.2.rhs

theorem termsAt_perm {n n' : Nodal.Net F} (h : NodalPerm n n') (l : Bool) (b : Name) :
    (Nodal.termsAt n l b).Perm (Nodal.termsAt n' l b) :=
  ((entries_perm h l).filter _).map _

theorem loadAt_perm {n n' : Nodal.Net F} (h : NodalPerm n n') (b : Name) : Nodal.loadAt n' b = Nodal.loadAt n b :=
  ((h.loads.filter _).map _).sum_eq.symm

theorem contains_perm {l l' : List Name} (h : l.Perm l') (b : Name) : l'.contains b = l.contains b := by
  rw [Bool.eq_iff_iff, List.contains_iff_mem, List.contains_iff_mem]
  exact h.mem_iff.symm

theorem balance_perm {n n' : Nodal.Net F} (h : NodalPerm n n') (l : Bool) {bs bs' : List Name} (hb : bs.Perm bs')
    {r : List (Name × Con Nodal.NVar F)} (hr : Nodal.balance n l bs = .ok r) :
    ∃ r', Nodal.balance n' l bs' = .ok r' ∧ Among r r' := by
  unfold Nodal.balance at hr ⊢
  have e1 : (Nodal.entries n' l).all (fun e => !bs'.contains e.bus) = (Nodal.entries n l).all (fun e => !bs.contains e.bus) := by
    rw [all_perm (entries_perm h l)]
    simp only [contains_perm hb]
  have e2 : bs'.any (fun b => (Nodal.termsAt n' l b).isEmpty && decide (Nodal.loadAt n' b ≠ 0)) =
      bs.any (fun b => (Nodal.termsAt n l b).isEmpty && decide (Nodal.loadAt n b ≠ 0)) := by
    rw [any_perm hb]
    simp only [isEmpty_perm (termsAt_perm h l _), loadAt_perm h]
  rw [e1, e2]
  split at hr
  · cases hr
  split at hr
  · cases hr
  cases hr
  refine ⟨_, by rw [if_neg ‹_›, if_neg ‹_›], ?_⟩
  intro e he
  obtain ⟨b, hb', rfl⟩ := List.mem_map.mp he
  refine ⟨(b, ⟨Nodal.termsAt n' l b, .eq, Nodal.loadAt n' b⟩), List.mem_map.mpr ⟨b, ?_, rfl⟩, rfl, termsAt_perm h l b, rfl, loadAt_perm h b⟩
  rw [List.mem_filter] at hb' ⊢
  exact ⟨hb.mem_iff.mp hb'.1, by rw [isEmpty_perm (termsAt_perm h l b)]; exact hb'.2⟩

theorem busRefs_perm {n n' : Nodal.Net F} (h : NodalPerm n n') : (Nodal.busRefs n).Perm (Nodal.busRefs n') := by
  unfold Nodal.busRefs
  exact ((((((((h.gens.map _).append (h.stores.map _)).append (h.units.map _)).append (h.lines.flatMap_right _)).append
    (h.trafos.flatMap_right _)).append (h.links.flatMap_right _)).append (h.loads.map _)).filter _)

theorem meshed_perm {n n' : Nodal.Net F} (h : NodalPerm n n') (k : Nat) : (Nodal.meshed n k).Perm (Nodal.meshed n' k) := by
  unfold Nodal.meshed
  have e : ∀ b, (Nodal.busRefs n').count b = (Nodal.busRefs n).count b := fun b => ((busRefs_perm h).count_eq b).symm
  simp only [e]
  exact (busRefs_perm h).dedup.filter _

theorem createBalance_perm {n n' : Nodal.Net F} (h : NodalPerm n n') (l : Bool) (k : Nat)
    {r : List (Name × Con Nodal.NVar F)} (hr : Nodal.createBalance n l k = .ok r) :
    ∃ r', Nodal.createBalance n' l k = .ok r' ∧ Among r r' := by
  unfold Nodal.createBalance at hr ⊢
  have hm := meshed_perm h k
  have hw : (n.buses.filter (fun b => !(Nodal.meshed n k).contains b)).Perm
      (n'.buses.filter (fun b => !(Nodal.meshed n' k).contains b)) := by
    simp only [contains_perm hm]
    exact h.buses.filter _
  simp only [isEmpty_perm hm, isEmpty_perm hw] at hr ⊢
  split at hr
  · rw [if_pos ‹_›]
    split at hr
    · cases hr
    · rename_i r1 h1
      split at hr
      · cases hr
      · rename_i r2 h2
        cases hr
        obtain ⟨r1', e1, a1⟩ := balance_perm h l hw h1
        obtain ⟨r2', e2, a2⟩ := balance_perm h l hm h2
        refine ⟨r1' ++ r2', by rw [e1]; simp only; rw [e2], ?_⟩
        intro e he
        rcases List.mem_append.mp he with he | he
        · obtain ⟨e', he', k⟩ := a1 e he
          exact ⟨e', List.mem_append_left _ he', k⟩
        · obtain ⟨e', he', k⟩ := a2 e he
          exact ⟨e', List.mem_append_right _ he', k⟩
  · rw [if_neg ‹_›]
    exact balance_perm h l h.buses hr

theorem mapM_among {L V : Type} (l : List Nat) (f f' : Nat → Option (List (L × Con V F)))
    (h : ∀ t ∈ l, ∀ r, f t = some r → ∃ r', f' t = some r' ∧ Among r r') {r : List (List (L × Con V F))} (hr : l.mapM f = some r) :
    ∃ r', l.mapM f' = some r' ∧ Among r.flatten r'.flatten := by
  induction l generalizing r with
  | nil =>
    simp at hr
    subst hr
    exact ⟨[], rfl, by intro e he; simp at he⟩
  | cons t l ih =>
    simp only [List.mapM_cons, Option.bind_eq_bind, Option.pure_def, Option.bind_eq_some_iff, Option.some.injEq] at hr ⊢
    obtain ⟨x, hx, y, hy, rfl⟩ := hr
    obtain ⟨x', h1, h2⟩ := h t List.mem_cons_self x hx
    obtain ⟨y', h3, h4⟩ := ih (fun t ht => h t (List.mem_cons_of_mem _ ht)) hy
    refine ⟨x' :: y', ⟨x', h1, y', h3, rfl⟩, ?_⟩
    intro e he
    rw [List.flatten_cons, List.mem_append] at he
    rcases he with he | he
    · obtain ⟨e', he', k⟩ := h2 e he
      exact ⟨e', by rw [List.flatten_cons]; exact List.mem_append_left _ he', k⟩
    · obtain ⟨e', he', k⟩ := h4 e he
      exact ⟨e', by rw [List.flatten_cons]; exact List.mem_append_right _ he', k⟩

theorem balanceRows_perm {w w' : WNet F} (h : Reordered w w') {bal : List ((Name × Nat) × Con WVar F)} (hb : balanceRows w = some bal) :
    ∃ bal', balanceRows w' = some bal' ∧ Among bal bal' := by
  unfold balanceRows at hb ⊢
  rw [h.len, h.tangents, h.threshold]
  obtain ⟨r, hr, rfl⟩ := Option.map_eq_some_iff.mp hb
  obtain ⟨r', h1, h2⟩ := mapM_among _ _ (fun t => (Nodal.createBalance (nodal w' t) (w.tangents != 0) w.threshold).toOption.map
    (fun rows => rows.map (fun r => ((r.1, t), remap (nodalVar t) r.2)))) (by
      intro t _ r hr
      obtain ⟨q, hq, rfl⟩ := Option.map_eq_some_iff.mp hr
      have hq' : Nodal.createBalance (nodal w t) (w.tangents != 0) w.threshold = .ok q := by
        revert hq
        cases Nodal.createBalance (nodal w t) (w.tangents != 0) w.threshold <;> simp [Except.toOption]
      obtain ⟨q', e, a⟩ := createBalance_perm (nodal_perm h t) _ _ hq'
      refine ⟨_, by rw [e]; rfl, ?_⟩
      intro e he
      obtain ⟨c, hc, rfl⟩ := List.mem_map.mp he
      obtain ⟨c', hc', k1, k2, k3, k4⟩ := a c hc
      refine ⟨_, List.mem_map_of_mem hc', ?_, ?_, k3, k4⟩
      · simp only [k1]
      · exact k2.map _) hr
  rw [h1]
  exact ⟨_, rfl, h2⟩

omit [LinearOrder F] in
theorem lin_perm {V : Type} (x : V → F) {ts ts' : List (F × V)} (h : ts.Perm ts') : lin x ts' = lin x ts := by
  unfold lin
  exact ((h.map _).sum_eq).symm

theorem among_feasible {L V : Type} {r r' : List (L × Con V F)} (h : Among r r') (x : V → F) (hx : Feasible x (r'.map (·.2))) :
    Feasible x (r.map (·.2)) := by
  intro c hc
  obtain ⟨e, he, rfl⟩ := List.mem_map.mp hc
  obtain ⟨e', he', -, h1, h2, h3⟩ := h e he
  have := hx e'.2 (List.mem_map_of_mem he')
  unfold Con.holds at this ⊢
  rw [lin_perm x h1, h2, h3] at this
  exact this

/-! ## Objective -/

/-- The same assets for the objective. -/
structure ObjPerm (n n' : Objective.Net F) : Prop where
  sns : n'.sns = n.sns
  weight : Objective.weighting n' = Objective.weighting n
  life : Objective.capitalWeight n' = Objective.capitalWeight n
  assets : ∀ c, (n.assets c).Perm (n'.assets c)

theorem objNet_perm {w w' : WNet F} (h : Reordered w w') : ObjPerm (objNet w) (objNet w') := by
  refine ⟨by simp [objNet, h.len], ?_, ?_, ?_⟩
  · funext t; unfold Objective.weighting objNet; simp only [h.periods, h.sw]
  · funext t; unfold Objective.capitalWeight objNet; simp only [h.periods]
  · intro c
    simp only [objNet, objAssets]
    split
    · exact h.gens.map _
    split
    · exact h.links.map _
    split
    · exact h.stores.map _
    split
    · exact h.units.map _
    split
    · exact h.lines.map _
    split
    · exact h.trafos.map _
    exact .refl _

/-- Lists of terms that agree one by one up to order. -/
def Alike {α : Type} (l l' : List (List α)) : Prop := List.Forall₂ List.Perm l l'

theorem alike_flatten {α : Type} {l l' : List (List α)} (h : Alike l l') : l.flatten.Perm l'.flatten := by
  unfold Alike at h
  induction h with
  | nil => exact .refl _
  | cons h1 _ ih => exact h1.append ih

theorem alike_isEmpty {α : Type} {l l' : List (List α)} (h : Alike l l') : l'.isEmpty = l.isEmpty := by
  unfold Alike at h
  cases h <;> rfl

theorem alike_map {α β : Type} (l : List α) (f f' : α → List β) (h : ∀ a ∈ l, (f a).Perm (f' a)) : Alike (l.map f) (l.map f') := by
  unfold Alike
  induction l with
  | nil => exact .nil
  | cons a l ih => exact .cons (h a List.mem_cons_self) (ih (fun b hb => h b (List.mem_cons_of_mem _ hb)))

theorem alike_append {α : Type} {a a' b b' : List (List α)} (h : Alike a a') (k : Alike b b') : Alike (a ++ b) (a' ++ b') :=
  List.rel_append h k

theorem constant_perm {n n' : Objective.Net F} (h : ObjPerm n n') : Objective.constant n' = Objective.constant n := by
  unfold Objective.constant
  rw [h.life]
  congr 1
  apply List.map_congr_left
  intro c _
  exact (((h.assets c.1).filter _).map _).sum_eq.symm

theorem costly_perm {n n' : Objective.Net F} (h : ObjPerm n n') (cost : Objective.Asset F → Nat → F) {l l' : List (Objective.Asset F)}
    (hl : l.Perm l') : (Objective.costly n cost l).Perm (Objective.costly n' cost l') := by
  unfold Objective.costly
  rw [h.sns]
  exact hl.filter _

theorem opTerms_perm {n n' : Objective.Net F} (h : ObjPerm n n') (c v : Name) (cost : Objective.Asset F → Nat → F)
    {l l' : List (Objective.Asset F)} (hl : l.Perm l') : (Objective.opTerms n c v cost l).Perm (Objective.opTerms n' c v cost l') := by
  unfold Objective.opTerms
  rw [h.sns, h.weight]
  exact hl.flatMap_right _

theorem costType_perm {n n' : Objective.Net F} (h : ObjPerm n n') (flag : Objective.Row → Bool) (cost : Objective.Asset F → Nat → F) :
    Alike (Objective.costType n flag cost) (Objective.costType n' flag cost) := by
  unfold Objective.costType
  simp only [isEmpty_perm (costly_perm h cost (h.assets _))]
  exact alike_map _ _ _ (fun r _ => opTerms_perm h _ _ _ (costly_perm h cost (h.assets _)))

theorem standBy_perm {n n' : Objective.Net F} (h : ObjPerm n n') : Alike (Objective.standByTerms n) (Objective.standByTerms n') := by
  unfold Objective.standByTerms
  simp only [isEmpty_perm ((h.assets _).filter (·.com))]
  exact alike_map _ _ _ (fun r _ => opTerms_perm h _ _ _ (costly_perm h _ ((h.assets _).filter _)))

theorem invest_perm {n n' : Objective.Net F} (h : ObjPerm n n') : Alike (Objective.investTerms n) (Objective.investTerms n') := by
  unfold Objective.investTerms
  simp only [isEmpty_perm ((h.assets _).filter (·.ext)), h.life]
  exact alike_map _ _ _ (fun r _ => ((h.assets _).filter _).map _)

theorem event_perm {n n' : Objective.Net F} (h : ObjPerm n n') : Alike (Objective.eventTerms n) (Objective.eventTerms n') := by
  unfold Objective.eventTerms
  have e : ∀ r : Objective.Row, (((n'.assets r.comp).filter (·.com)).map (Objective.eventCost r.var)).sum =
      (((n.assets r.comp).filter (·.com)).map (Objective.eventCost r.var)).sum :=
    fun r => (((h.assets r.comp).filter _).map _).sum_eq.symm
  simp only [e, h.sns]
  exact alike_map _ _ _ (fun r _ => ((h.assets _).filter _).flatMap_right _)

theorem const_perm {n n' : Objective.Net F} (h : ObjPerm n n') : Alike (Objective.constTerms n) (Objective.constTerms n') := by
  unfold Objective.constTerms
  rw [constant_perm h]
  split
  · exact .nil
  · exact .cons (.refl _) .nil

theorem objective_perm {n n' : Objective.Net F} (h : ObjPerm n n') {o : Objective.Obj F} (ho : Objective.objective n = .ok o) :
    ∃ o', Objective.objective n' = .ok o' ∧ o.linear.Perm o'.linear ∧ o.quadratic.Perm o'.quadratic := by
  unfold Objective.objective at ho ⊢
  have hs : Objective.spillDefined n' = Objective.spillDefined n := by
    unfold Objective.spillDefined
    rw [h.sns, any_perm (h.assets "StorageUnit")]
  have hl := alike_append (alike_append (alike_append (alike_append (alike_append (alike_append (const_perm h)
    (costType_perm h (·.marginal) Objective.Asset.marginal)) (costType_perm h (·.storage) Objective.Asset.marginalStorage))
    (costType_perm h (·.spill) Objective.Asset.spillCost)) (standBy_perm h)) (invest_perm h)) (event_perm h)
  have hq := costType_perm h (·.quadratic) Objective.Asset.quadratic
  rw [alike_isEmpty (costType_perm h (·.spill) Objective.Asset.spillCost), hs]
  split at ho
  · rw [if_pos ‹_›]
    simp only at ho ⊢
    rw [alike_isEmpty hl, alike_isEmpty hq]
    split at ho
    · cases ho
    · cases ho
      rw [if_neg ‹_›]
      exact ⟨_, rfl, alike_flatten hl, alike_flatten hq⟩
  · cases ho

/-! ## The whole problem -/

/-- C115: if the problem can be built, it can be built with buses and components in any other order.  Both have the same
variables, feasible points and values of the objective, so the same optima, and every row of the nodal balance belongs to the same bus
and snapshot.  Rows handed over from outside (voltage law, global constraints) are taken to be equivalent. -/
theorem order_irrelevant {w w' : WNet F} (h : Reordered w w') {other other' : List (Con WVar F)} {P : Program F}
    (hP : createModel w other = some P) (ho : ∀ x, Feasible x other ↔ Feasible x other') :
    ∃ P', createModel w' other' = some P' ∧ (∀ x, FeasibleIn P x ↔ FeasibleIn P' x) ∧ (∀ x, P'.value x = P.value x) ∧
      Objective.constant (objNet w') = Objective.constant (objNet w) ∧ Among P.balance P'.balance ∧ Among P'.balance P.balance := by
  obtain ⟨own, bal, o, h1, h2, h3, h4, h5, h6, h7⟩ := createModel_parts hP
  obtain ⟨own', k1, p1⟩ := ownRows_perm h h1
  obtain ⟨bal', k2, p2⟩ := balanceRows_perm h h2
  obtain ⟨bal'', k2', p2'⟩ := balanceRows_perm h.symm k2
  rw [h2] at k2'
  cases k2'
  obtain ⟨o', k3, p3, p4⟩ := objective_perm (objNet_perm h) h3
  have hc := constant_perm (objNet_perm h)
  refine ⟨⟨o'.linear.map (fun e => (e.1, objVar e.2)), o'.quadratic.map (fun e => (e.1, objVar e.2)), bal',
      own' ++ constRow w' :: other'⟩, ?_, ?_, ?_, hc, ?_, ?_⟩
  · unfold createModel
    rw [k1, k2, k3]
    rfl
  · intro x
    unfold FeasibleIn
    rw [h6, h7]
    simp only [feasible_append, feasible_cons]
    have e : constRow w' = constRow w := by unfold constRow; rw [hc]
    have f1 : Feasible x own ↔ Feasible x own' :=
      ⟨fun k r hr => k r (p1.mem_iff.mpr hr), fun k r hr => k r (p1.mem_iff.mp hr)⟩
    have f2 : Feasible x (bal.map (·.2)) ↔ Feasible x (bal'.map (·.2)) := ⟨among_feasible p2' x, among_feasible p2 x⟩
    rw [e, f1, f2, ho x]
  · intro x
    unfold Program.value
    rw [h4, h5]
    simp only
    rw [lin_perm x (p3.map _), ((p4.map (fun e => (e.1, objVar e.2))).map (fun e => e.1 * (x e.2 * x e.2))).sum_eq]
  · rw [h6]; exact p2
  · rw [h6]; exact p2'

/-! ## Example -/

def exReversed : WNet ℚ :=
  { exNet with buses := exNet.buses.reverse, gens := exNet.gens.reverse, links := exNet.links.reverse,
               stores := exNet.stores.reverse, units := exNet.units.reverse, lines := exNet.lines.reverse,
               trafos := exNet.trafos.reverse, loads := exNet.loads.reverse }

theorem exReversed_same : Reordered exNet exReversed :=
  ⟨rfl, rfl, rfl, rfl, rfl, rfl, rfl, rfl, rfl, rfl, (List.reverse_perm _).symm, (List.reverse_perm _).symm,
    (List.reverse_perm _).symm, (List.reverse_perm _).symm, (List.reverse_perm _).symm, (List.reverse_perm _).symm,
    (List.reverse_perm _).symm, (List.reverse_perm _).symm⟩

example : ∃ P', createModel exReversed exOther = some P' ∧ FeasibleIn P' exVal ∧ P'.value exVal = exModel.value exVal ∧
    P'.rows ≠ exModel.rows := by
  obtain ⟨P', h1, h2, h3, -⟩ := order_irrelevant exReversed_same exModel_eq (fun _ => Iff.rfl)
  refine ⟨P', h1, (h2 exVal).mp ⟨by decide +kernel, by decide +kernel⟩, h3 exVal, ?_⟩
  have : (createModel exReversed exOther).map (·.rows) ≠ some exModel.rows := by decide +kernel
  rw [h1] at this
  exact fun h => this (congrArg some h)

end Verif.Opt.Whole
