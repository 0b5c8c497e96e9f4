import Verif.Opt.Whole
import Verif.Opt.Duality
import Verif.Opt.ObjectiveProps
import Verif.Opt.NodalProps

/-!
# Lemmas about the whole problem
-/

namespace Verif.Opt.Whole

variable {F : Type} [Field F] [LinearOrder F]

/-- A variable of the asset. -/
def ofAsset (c a : Name) : WVar → Bool
  | .of c' a' _ => decide (c' = c) && decide (a' = a)
  | .const => false

/-- The point with all other variables set to zero. -/
def only (S : WVar → Bool) (x : WVar → F) (v : WVar) : F := if S v then x v else 0

omit [LinearOrder F] in
theorem lin_congr {V : Type} (x y : V → F) (ts : List (F × V)) (h : ∀ e ∈ ts, x e.2 = y e.2) : lin x ts = lin y ts := by
  unfold lin
  congr 1
  apply List.map_congr_left
  intro e he
  rw [h e he]

omit [LinearOrder F] in
theorem lin_zero {V : Type} (x : V → F) (ts : List (F × V)) (h : ∀ e ∈ ts, x e.2 = 0) : lin x ts = 0 := by
  rw [lin_congr x (fun _ => 0) ts h]
  unfold lin
  simp

omit [LinearOrder F] in
theorem lin_remap {V W : Type} (f : V → W) (x : W → F) (c : Con V F) :
    lin x (remap f c).terms = lin (fun v => x (f v)) c.terms := by
  unfold lin remap
  simp [List.map_map, Function.comp_def]

omit [LinearOrder F] in
theorem lin_map_var {V W : Type} (f : V → W) (x : W → F) (ts : List (F × V)) :
    lin x (ts.map (fun e => (e.1, f e.2))) = lin (fun v => x (f v)) ts := by
  unfold lin
  simp [List.map_map, Function.comp_def]

omit [LinearOrder F] in
theorem sum_single {α β : Type} [DecidableEq β] (l : List α) (key : α → β) (f : α → F) (hnd : (l.map key).Nodup)
    (a : α) (ha : a ∈ l) (h : ∀ b ∈ l, key b ≠ key a → f b = 0) : (l.map f).sum = f a := by
  induction l with
  | nil => cases ha
  | cons b t ih =>
    simp only [List.map_cons, List.nodup_cons] at hnd
    rcases List.mem_cons.mp ha with rfl | ha'
    · have : (t.map f).sum = 0 := by
        apply List.sum_eq_zero
        intro x hx
        obtain ⟨c, hc, rfl⟩ := List.mem_map.mp hx
        exact h c (List.mem_cons_of_mem _ hc) (fun e => hnd.1 (e ▸ List.mem_map_of_mem hc))
      simp [this]
    · have hb : f b = 0 := h b (List.mem_cons_self ..) (fun e => hnd.1 (e ▸ List.mem_map_of_mem ha'))
      simp only [List.map_cons, List.sum_cons, hb, zero_add]
      exact ih hnd.2 ha' (fun c hc => h c (List.mem_cons_of_mem _ hc))

omit [LinearOrder F] in
theorem sum_zero {α : Type} (l : List α) (f : α → F) (h : ∀ a ∈ l, f a = 0) : (l.map f).sum = 0 := by
  apply List.sum_eq_zero
  intro x hx
  obtain ⟨a, ha, rfl⟩ := List.mem_map.mp hx
  exact h a ha

/-! ## The parts of a program -/

theorem createModel_parts {w : WNet F} {other : List (Con WVar F)} {P : Program F} (h : createModel w other = some P) :
    ∃ own bal o, ownRows w = some own ∧ balanceRows w = some bal ∧ Objective.objective (objNet w) = .ok o ∧
      P.linear = o.linear.map (fun e => (e.1, objVar e.2)) ∧ P.quadratic = o.quadratic.map (fun e => (e.1, objVar e.2)) ∧
      P.balance = bal ∧ P.rows = own ++ constRow w :: other := by
  unfold createModel at h
  cases h1 : ownRows w with
  | none => rw [h1] at h; cases h
  | some own =>
    cases h2 : balanceRows w with
    | none => rw [h1, h2] at h; cases h
    | some bal =>
      cases h3 : Objective.objective (objNet w) with
      | error e => rw [h1, h2, h3] at h; cases h
      | ok o =>
        rw [h1, h2, h3] at h
        simp only [Option.bind_some, Except.toOption, Option.map_some, Option.some.injEq] at h
        subst h
        exact ⟨own, bal, o, rfl, rfl, rfl, rfl, rfl, rfl, rfl⟩

theorem mapM_id_mem {α : Type} (l : List (Option (List α))) (r : List (List α)) (h : l.mapM id = some r) :
    l = r.map some := by
  induction l generalizing r with
  | nil => simp at h; subst h; rfl
  | cons a t ih =>
    simp only [List.mapM_cons, id_eq, Option.bind_eq_bind, Option.pure_def] at h
    cases a with
    | none => cases h
    | some x =>
      cases ht : t.mapM id with
      | none => rw [ht] at h; cases h
      | some y =>
        rw [ht] at h
        simp only [Option.bind_some, Option.some.injEq] at h
        subst h
        simp [ih y ht]

theorem mapM_some_eq {α β : Type} (l : List α) (f : α → Option β) (r : List β) (h : l.mapM f = some r) :
    l.map f = r.map some := by
  induction l generalizing r with
  | nil => simp at h; subst h; rfl
  | cons a t ih =>
    simp only [List.mapM_cons, Option.bind_eq_bind, Option.pure_def] at h
    cases hx : f a with
    | none => rw [hx] at h; cases h
    | some x =>
      cases ht : t.mapM f with
      | none => rw [hx, ht] at h; cases h
      | some y =>
        rw [hx, ht] at h
        simp only [Option.bind_some, Option.some.injEq] at h
        subst h
        simp [ih y ht, hx]

/-- Every row belongs to one asset. -/
theorem mem_ownRows {w : WNet F} {own : List (Con WVar F)} (h : ownRows w = some own) (r : Con WVar F) (hr : r ∈ own) :
    (∃ g ∈ w.gens, ∃ rs, genRows w g = some rs ∧ ∃ c ∈ rs, r = remap (WVar.of "Generator" g.name) c) ∨
    (∃ g ∈ w.links, ∃ rs, linkRows w g = some rs ∧ ∃ c ∈ rs, r = remap (WVar.of "Link" g.name) c) ∨
    (∃ g ∈ w.stores, ∃ rs, storeRows w g = some rs ∧ ∃ c ∈ rs, r = remap (WVar.of "Store" g.name) c) ∨
    (∃ g ∈ w.units, ∃ rs, sunitRows w g = some rs ∧ ∃ c ∈ rs, r = remap (WVar.of "StorageUnit" g.name) c) ∨
    (∃ g ∈ w.lines, ∃ rs, branchRows w .line g = some rs ∧ ∃ c ∈ rs, r = remap (WVar.of "Line" g.name) c) ∨
    (∃ g ∈ w.trafos, ∃ rs, branchRows w .transformer g = some rs ∧
      ∃ c ∈ rs, r = remap (WVar.of "Transformer" g.name) c) := by
  unfold ownRows at h
  obtain ⟨ls, hls, rfl⟩ := Option.map_eq_some_iff.mp h
  have hm := mapM_id_mem _ ls hls
  obtain ⟨l, hl, hrl⟩ := List.mem_flatten.mp hr
  have hmem : some l ∈ ls.map some := List.mem_map_of_mem hl
  rw [← hm] at hmem
  have key : ∀ (comp name : Name) (rows : Option (List (Con Loc F))), tagged comp name rows = some l →
      ∃ rs, rows = some rs ∧ ∃ c ∈ rs, r = remap (WVar.of comp name) c := by
    intro comp name rows ht
    unfold tagged at ht
    obtain ⟨rs, h1, h2⟩ := Option.map_eq_some_iff.mp ht
    subst h2
    obtain ⟨c, hc, rfl⟩ := List.mem_map.mp hrl
    exact ⟨rs, h1, c, hc, rfl⟩
  simp only [List.mem_append, List.mem_map] at hmem
  rcases hmem with ((((⟨g, hg, ht⟩ | ⟨g, hg, ht⟩) | ⟨g, hg, ht⟩) | ⟨g, hg, ht⟩) | ⟨g, hg, ht⟩) | ⟨g, hg, ht⟩
  · exact Or.inl ⟨g, hg, key _ _ _ ht⟩
  · exact Or.inr (Or.inl ⟨g, hg, key _ _ _ ht⟩)
  · exact Or.inr (Or.inr (Or.inl ⟨g, hg, key _ _ _ ht⟩))
  · exact Or.inr (Or.inr (Or.inr (Or.inl ⟨g, hg, key _ _ _ ht⟩)))
  · exact Or.inr (Or.inr (Or.inr (Or.inr (Or.inl ⟨g, hg, key _ _ _ ht⟩))))
  · exact Or.inr (Or.inr (Or.inr (Or.inr (Or.inr ⟨g, hg, key _ _ _ ht⟩))))

/-- And conversely. -/
theorem ownRows_mem {w : WNet F} {own : List (Con WVar F)} (h : ownRows w = some own) :
    (∀ g ∈ w.gens, ∃ rs, genRows w g = some rs ∧ ∀ c ∈ rs, remap (WVar.of "Generator" g.name) c ∈ own) ∧
    (∀ g ∈ w.links, ∃ rs, linkRows w g = some rs ∧ ∀ c ∈ rs, remap (WVar.of "Link" g.name) c ∈ own) ∧
    (∀ g ∈ w.stores, ∃ rs, storeRows w g = some rs ∧ ∀ c ∈ rs, remap (WVar.of "Store" g.name) c ∈ own) ∧
    (∀ g ∈ w.units, ∃ rs, sunitRows w g = some rs ∧ ∀ c ∈ rs, remap (WVar.of "StorageUnit" g.name) c ∈ own) ∧
    (∀ g ∈ w.lines, ∃ rs, branchRows w .line g = some rs ∧ ∀ c ∈ rs, remap (WVar.of "Line" g.name) c ∈ own) ∧
    (∀ g ∈ w.trafos, ∃ rs, branchRows w .transformer g = some rs ∧
      ∀ c ∈ rs, remap (WVar.of "Transformer" g.name) c ∈ own) := by
  unfold ownRows at h
  obtain ⟨ls, hls, rfl⟩ := Option.map_eq_some_iff.mp h
  have hm := mapM_id_mem _ ls hls
  have key : ∀ (comp name : Name) (rows : Option (List (Con Loc F))), tagged comp name rows ∈ ls.map some →
      ∃ rs, rows = some rs ∧ ∀ c ∈ rs, remap (WVar.of comp name) c ∈ ls.flatten := by
    intro comp name rows ht
    obtain ⟨l, hl, he⟩ := List.mem_map.mp ht
    unfold tagged at he
    obtain ⟨rs, h1, h2⟩ := Option.map_eq_some_iff.mp he.symm
    refine ⟨rs, h1, fun c hc => List.mem_flatten.mpr ⟨l, hl, ?_⟩⟩
    rw [← h2]
    exact List.mem_map_of_mem hc
  rw [← hm] at key
  refine ⟨fun g hg => key _ _ _ ?_, fun g hg => key _ _ _ ?_, fun g hg => key _ _ _ ?_, fun g hg => key _ _ _ ?_,
    fun g hg => key _ _ _ ?_, fun g hg => key _ _ _ ?_⟩ <;>
    simp only [List.mem_append, List.mem_map]
  · exact Or.inl (Or.inl (Or.inl (Or.inl (Or.inl ⟨g, hg, rfl⟩))))
  · exact Or.inl (Or.inl (Or.inl (Or.inl (Or.inr ⟨g, hg, rfl⟩))))
  · exact Or.inl (Or.inl (Or.inl (Or.inr ⟨g, hg, rfl⟩)))
  · exact Or.inl (Or.inl (Or.inr ⟨g, hg, rfl⟩))
  · exact Or.inl (Or.inr ⟨g, hg, rfl⟩)
  · exact Or.inr ⟨g, hg, rfl⟩

/-! ## Nodal balance -/

/-- All buses are known and names are unique. -/
structure Sound (w : WNet F) : Prop where
  noEmpty : "" ∉ w.buses
  buses : w.buses.Nodup
  genBus : ∀ g ∈ w.gens, g.bus ∈ w.buses
  storeBus : ∀ g ∈ w.stores, g.bus ∈ w.buses
  unitBus : ∀ g ∈ w.units, g.bus ∈ w.buses
  loadBus : ∀ g ∈ w.loads, g.bus ∈ w.buses
  lineBus : ∀ g ∈ w.lines, g.bus0 ∈ w.buses ∧ g.bus1 ∈ w.buses
  trafoBus : ∀ g ∈ w.trafos, g.bus0 ∈ w.buses ∧ g.bus1 ∈ w.buses
  linkBus : ∀ g ∈ w.links, g.bus0 ∈ w.buses ∧ g.bus1 ∈ w.buses ∧ ∀ e ∈ g.extra, e.1 = "" ∨ e.1 ∈ w.buses
  gens : (w.gens.map (·.name)).Nodup
  links : (w.links.map (·.name)).Nodup
  stores : (w.stores.map (·.name)).Nodup
  units : (w.units.map (·.name)).Nodup
  lines : (w.lines.map (·.name)).Nodup
  trafos : (w.trafos.map (·.name)).Nodup

omit [LinearOrder F] in
theorem refs_known {w : WNet F} (hw : Sound w) (t : Nat) : ∀ b ∈ Nodal.busRefs (nodal w t), b ∈ (nodal w t).buses := by
  intro b hb
  unfold Nodal.busRefs nodal at hb
  simp only [List.mem_filter, List.mem_append, List.mem_map, List.mem_flatMap, List.mem_cons, List.not_mem_nil, or_false,
    decide_eq_true_eq] at hb
  obtain ⟨hb, hne⟩ := hb
  show b ∈ w.buses
  rcases hb with (((((⟨_, ⟨g, hg, rfl⟩, rfl⟩ | ⟨_, ⟨g, hg, rfl⟩, rfl⟩) | ⟨_, ⟨g, hg, rfl⟩, rfl⟩) |
    ⟨_, ⟨g, hg, rfl⟩, h⟩) | ⟨_, ⟨g, hg, rfl⟩, h⟩) | ⟨_, ⟨g, hg, rfl⟩, h⟩) | ⟨_, ⟨g, hg, rfl⟩, rfl⟩
  · exact hw.genBus g hg
  · exact hw.storeBus g hg
  · exact hw.unitBus g hg
  · rcases h with rfl | rfl
    · exact (hw.lineBus g hg).1
    · exact (hw.lineBus g hg).2
  · rcases h with rfl | rfl
    · exact (hw.trafoBus g hg).1
    · exact (hw.trafoBus g hg).2
  · rcases h with rfl | rfl | h
    · exact (hw.linkBus g hg).1
    · exact (hw.linkBus g hg).2.1
    · obtain ⟨a, ha, rfl⟩ := h
      obtain ⟨e, he, rfl⟩ := List.mem_map.mp ha
      exact ((hw.linkBus g hg).2.2 e he).resolve_left hne
  · exact hw.loadBus g hg

/-- Sum over the rows of one snapshot. -/
theorem balance_sum_one {n : Nodal.Net F} {losses : Bool} {threshold : Nat} {rows : List (Name × Con Nodal.NVar F)}
    (hne : "" ∉ n.buses) (hnd : n.buses.Nodup) (href : ∀ b ∈ Nodal.busRefs n, b ∈ n.buses)
    (h : Nodal.createBalance n losses threshold = .ok rows) (f : Name → F → F → F) (hf : ∀ b d, f b 0 d = 0)
    (x : Nodal.NVar → F) :
    (rows.map (fun r => f r.1 (lin x r.2.terms) r.2.rhs)).sum =
      (n.buses.map (fun b => f b (Nodal.supplied n losses x b) (Nodal.demanded n b))).sum := by
  obtain ⟨hk, rows', h', hiff, -⟩ := (Nodal.split_same_partial n losses threshold hne hnd href).1 rows h
  unfold Nodal.balance at h'
  split at h'
  · cases h'
  split at h'
  · cases h'
  injection h' with h'
  subst h'
  have hk' : (((n.buses.filter (fun b => !(Nodal.termsAt n losses b).isEmpty)).map
      (fun b => (b, (⟨Nodal.termsAt n losses b, .eq, Nodal.loadAt n b⟩ : Con Nodal.NVar F))))).Nodup := by
    apply List.Nodup.map _ (hnd.filter _)
    intro a b hab
    exact (Prod.mk.inj hab).1
  have hperm := (List.perm_ext_iff_of_nodup (List.Nodup.of_map _ hk) hk').mpr hiff
  rw [(hperm.map _).sum_eq, List.map_map]
  rw [Objective.sum_filter_eq]
  · congr 1
    apply List.map_congr_left
    intro b hb
    have hb' : b ≠ "" := fun e => hne (e ▸ hb)
    simp only [Function.comp]
    rw [Nodal.lin_termsAt n losses x b hb', Nodal.loadAt_eq]
  · intro b _ hb
    simp only [Bool.not_eq_false', List.isEmpty_iff] at hb
    simp [hb, hf]

/-- Sum over all rows of the balance. -/
theorem balance_sum {w : WNet F} (hw : Sound w) {bal : List ((Name × Nat) × Con WVar F)} (h : balanceRows w = some bal)
    (f : Name → Nat → F → F → F) (hf : ∀ b t d, f b t 0 d = 0) (x : WVar → F) :
    (bal.map (fun r => f r.1.1 r.1.2 (lin x r.2.terms) r.2.rhs)).sum =
      ((List.range w.len).map (fun t => (w.buses.map (fun b =>
        f b t (Nodal.supplied (nodal w t) (w.tangents != 0) (fun v => x (nodalVar t v)) b)
          (Nodal.demanded (nodal w t) b))).sum)).sum := by
  unfold balanceRows at h
  obtain ⟨ls, hls, rfl⟩ := Option.map_eq_some_iff.mp h
  have hm := mapM_some_eq _ _ ls hls
  generalize List.range w.len = ts at hm hls ⊢
  clear hls h
  induction ts generalizing ls with
  | nil =>
    cases ls with
    | nil => rfl
    | cons a b => simp at hm
  | cons t ts ih =>
    cases ls with
    | nil => simp at hm
    | cons l ls =>
      simp only [List.map_cons, List.cons.injEq] at hm
      obtain ⟨h1, h2⟩ := hm
      obtain ⟨rows, h3, h4⟩ := Option.map_eq_some_iff.mp h1
      have h5 : Nodal.createBalance (nodal w t) (w.tangents != 0) w.threshold = .ok rows := by
        cases hc : Nodal.createBalance (nodal w t) (w.tangents != 0) w.threshold with
        | error e => rw [hc] at h3; cases h3
        | ok r => rw [hc] at h3; injection h3 with h3; rw [h3]
      subst h4
      simp only [List.flatten_cons, List.map_append, List.sum_append, List.map_cons, List.sum_cons]
      rw [ih ls h2, List.map_map]
      congr 1
      have := balance_sum_one (n := nodal w t) hw.noEmpty hw.buses (refs_known hw t) h5 (fun b s d => f b t s d)
        (fun b d => hf b t d) (fun v => x (nodalVar t v))
      rw [show (nodal w t).buses = w.buses from rfl] at this
      rw [← this]
      congr 1
      apply List.map_congr_left
      intro r _
      simp only [Function.comp]
      rw [lin_remap]
      rfl

/-! ## Objective -/

/-- Weight of a snapshot in the objective. -/
def weight (w : WNet F) (t : Nat) : F :=
  match w.periods with
  | none => w.sw t
  | some (_, pw, per) => w.sw t * pw (per t)

/-- How often the capital cost counts: once, or for each period in which the asset is in service. -/
def lifeWeight (w : WNet F) (i : Invest F) : F :=
  match w.periods with
  | none => if i.activeFlag then 1 else 0
  | some (ps, pw, _) => (ps.map (fun p => if i.activeIn p then pw p else 0)).sum

/-- No quadratic costs, so that the problem is linear; costs of start-ups and shut-downs are not negative. -/
structure LinearCosts (w : WNet F) : Prop where
  gens : ∀ g ∈ w.gens, ∀ t, g.costs.quadratic t = 0
  links : ∀ g ∈ w.links, ∀ t, g.costs.quadratic t = 0
  stores : ∀ g ∈ w.stores, ∀ t, g.costs.quadratic t = 0
  units : ∀ g ∈ w.units, ∀ t, g.costs.quadratic t = 0
  genEvents : ∀ g ∈ w.gens, 0 ≤ g.unit.startUpCost ∧ 0 ≤ g.unit.shutDownCost
  linkEvents : ∀ g ∈ w.links, 0 ≤ g.unit.startUpCost ∧ 0 ≤ g.unit.shutDownCost

theorem assets_gen (w : WNet F) : (objNet w).assets "Generator" = w.gens.map genAsset := by simp [objNet, objAssets]
theorem assets_link (w : WNet F) : (objNet w).assets "Link" = w.links.map linkAsset := by simp [objNet, objAssets]
theorem assets_store (w : WNet F) : (objNet w).assets "Store" = w.stores.map storeAsset := by simp [objNet, objAssets]
theorem assets_unit (w : WNet F) : (objNet w).assets "StorageUnit" = w.units.map sunitAsset := by simp [objNet, objAssets]
theorem assets_line (w : WNet F) : (objNet w).assets "Line" = w.lines.map branchAsset := by simp [objNet, objAssets]
theorem assets_trafo (w : WNet F) : (objNet w).assets "Transformer" = w.trafos.map branchAsset := by
  simp [objNet, objAssets]

theorem weight_eq (w : WNet F) (t : Nat) : Objective.weighting (objNet w) t = weight w t := by
  unfold Objective.weighting weight objNet
  cases w.periods <;> rfl

theorem weight_spec (w : WNet F) : Objective.Weight (objNet w) (weight w) := by
  intro t _
  unfold weight objNet
  cases w.periods <;> rfl

theorem quadratic_nil {w : WNet F} (hl : LinearCosts w) :
    Objective.costType (objNet w) (·.quadratic) Objective.Asset.quadratic = [] := by
  unfold Objective.costType
  have key : ∀ r ∈ Objective.table.filter (·.quadratic),
      Objective.costly (objNet w) Objective.Asset.quadratic ((objNet w).assets r.comp) = [] := by
    intro r hr
    unfold Objective.costly
    rw [List.filter_eq_nil_iff]
    intro a ha
    have hz : ∀ t, a.quadratic t = 0 := by
      have hc : r.comp = "Generator" ∨ r.comp = "Link" ∨ r.comp = "Store" ∨ r.comp = "StorageUnit" := by
        simp [Objective.table, List.filter] at hr
        rcases hr with rfl | rfl | rfl | rfl <;> simp
      rcases hc with hc | hc | hc | hc <;> rw [hc] at ha
      · rw [assets_gen] at ha
        obtain ⟨g, hg, rfl⟩ := List.mem_map.mp ha
        exact hl.gens g hg
      · rw [assets_link] at ha
        obtain ⟨g, hg, rfl⟩ := List.mem_map.mp ha
        exact hl.links g hg
      · rw [assets_store] at ha
        obtain ⟨g, hg, rfl⟩ := List.mem_map.mp ha
        exact hl.stores g hg
      · rw [assets_unit] at ha
        obtain ⟨g, hg, rfl⟩ := List.mem_map.mp ha
        exact hl.units g hg
    simp [hz]
  have : (Objective.table.filter (·.quadratic)).filter (fun r =>
      !(Objective.costly (objNet w) Objective.Asset.quadratic ((objNet w).assets r.comp)).isEmpty) = [] := by
    rw [List.filter_eq_nil_iff]
    intro r hr
    simp [key r hr]
  rw [this]
  rfl

theorem systemCost_congr (n : Objective.Net F) (x y : Objective.OVar → F) (wt : Nat → F)
    (h : ∀ v, v ≠ .const → x v = y v) : Objective.systemCost n x wt = Objective.systemCost n y wt := by
  have h1 : ∀ c v a t, x (.op c v a t) = y (.op c v a t) := fun c v a t => h _ (by simp)
  have h2 : ∀ c v a, x (.nom c v a) = y (.nom c v a) := fun c v a => h _ (by simp)
  simp only [Objective.systemCost, Objective.running, Objective.commitment, Objective.capital, h1, h2]

theorem total_zero (n : Objective.Net F) (c : Name) (f : Objective.Asset F → Nat → F)
    (h : ∀ a ∈ n.assets c, ∀ t, f a t = 0) : Objective.total n c f = 0 := by
  unfold Objective.total
  refine sum_zero _ _ (fun a ha => sum_zero _ _ (fun t _ => ?_))
  rw [h a ha t]; simp

theorem capital_zero (n : Objective.Net F) (x : Objective.OVar → F) (c v : Name)
    (h : ∀ a ∈ n.assets c, x (.nom c v a.name) = 0) : Objective.capital n x c v = 0 := by
  unfold Objective.capital
  refine sum_zero _ _ (fun a ha => ?_)
  rw [h a ha]
  split
  · cases n.periods with
    | none => simp
    | some q => simp
  · rfl

theorem total_single (n : Objective.Net F) (c : Name) (f : Objective.Asset F → Nat → F) {α : Type} (l : List α)
    (mk : α → Objective.Asset F) (nm : α → Name) (hl : n.assets c = l.map mk) (hnd : (l.map nm).Nodup) (g : α) (hg : g ∈ l)
    (h : ∀ b ∈ l, nm b ≠ nm g → ∀ t, f (mk b) t = 0) :
    Objective.total n c f = (n.sns.map (fun t => if (mk g).active t then f (mk g) t else 0)).sum := by
  unfold Objective.total
  rw [hl, List.map_map]
  rw [sum_single l nm _ hnd g hg]
  · rfl
  · intro b hb hne
    simp only [Function.comp]
    refine sum_zero _ _ (fun t _ => ?_)
    rw [h b hb hne t]; simp

theorem capital_single (n : Objective.Net F) (x : Objective.OVar → F) (c v : Name) {α : Type} (l : List α)
    (mk : α → Objective.Asset F) (nm : α → Name) (hl : n.assets c = l.map mk) (hnd : (l.map nm).Nodup) (g : α) (hg : g ∈ l)
    (h : ∀ b ∈ l, nm b ≠ nm g → x (.nom c v (mk b).name) = 0) :
    Objective.capital n x c v = if (mk g).ext then
      (match n.periods with
        | none => if (mk g).activeFlag then 1 else 0
        | some (ps, pw, _) => (ps.map (fun p => if (mk g).activeIn p then pw p else 0)).sum) *
        (mk g).capitalCost * x (.nom c v (mk g).name) else 0 := by
  unfold Objective.capital
  rw [hl, List.map_map]
  rw [sum_single l nm _ hnd g hg]
  · simp only [Function.comp]
    split
    · cases n.periods with
      | none =>
        simp only
        split <;> simp
      | some q =>
        simp only
        rw [mul_assoc, ← List.sum_map_mul_right]
        congr 1
        apply List.map_congr_left
        intro p _
        split
        · ring
        · simp
    · rfl
  · intro b hb hne
    simp only [Function.comp]
    rw [h b hb hne]
    split
    · cases n.periods with
      | none => simp
      | some q => simp
    · rfl

section ordered
variable [IsStrictOrderedRing F]

theorem events_zero (n : Objective.Net F) (c : Name) (f : Objective.Asset F → F) (h0 : ∀ a ∈ n.assets c, 0 ≤ f a)
    (h : (((n.assets c).filter (·.com)).map f).sum = 0) : ∀ a ∈ n.assets c, a.com = true → f a = 0 := by
  intro a ha hc
  exact eq_zero_of_sum _ f (fun b hb => h0 b (List.mem_filter.mp hb).1) h a (List.mem_filter.mpr ⟨ha, by simpa using hc⟩)

/-- The objective at a point at which the constant is zero. -/
theorem objective_lin {w : WNet F} (hl : LinearCosts w) {o : Objective.Obj F}
    (ho : Objective.objective (objNet w) = .ok o) (x : WVar → F) (hx : x .const = 0) :
    lin x (o.linear.map (fun e => (e.1, objVar e.2))) =
      Objective.systemCost (objNet w) (fun v => x (objVar v)) (weight w) := by
  have hq : o.quadratic = [] := by
    unfold Objective.objective at ho
    simp only at ho
    split at ho
    swap
    · cases ho
    split at ho
    · cases ho
    injection ho with ho
    subst ho
    simp [quadratic_nil hl]
  have hv : ∀ y : Objective.OVar → F, o.value y = lin y o.linear := by
    intro y; unfold Objective.Obj.value; rw [hq]; simp
  have hev : ∀ c ∈ ["Generator", "Link"], ∀ a ∈ (objNet w).assets c, 0 ≤ a.startUp ∧ 0 ≤ a.shutDown := by
    intro c hc a ha
    rcases List.mem_cons.mp hc with rfl | hc
    · rw [assets_gen] at ha
      obtain ⟨g, hg, rfl⟩ := List.mem_map.mp ha
      exact hl.genEvents g hg
    · rw [List.mem_singleton.mp hc, assets_link] at ha
      obtain ⟨g, hg, rfl⟩ := List.mem_map.mp ha
      exact hl.linkEvents g hg
  let K := Objective.constant (objNet w)
  let y : Objective.OVar → F := fun v => if v = .const then K else x (objVar v)
  let z : Objective.OVar → F := fun v => if v = .const then K else 0
  have base : ∀ u : Objective.OVar → F, u .const = K →
      o.value u + K = Objective.systemCost (objNet w) u (weight w) := by
    intro u hu
    exact Objective.objective_is_cost_partial (objNet w) o ho u hu (weight w) (weight_spec w)
      (fun c hc h => events_zero _ c _ (fun a ha => (hev c hc a ha).1) h)
      (fun c hc h => events_zero _ c _ (fun a ha => (hev c hc a ha).2) h)
  have hy := base y (by simp [y])
  have hz := base z (by simp [z])
  have hz0 : Objective.systemCost (objNet w) z (weight w) = 0 := by
    rw [systemCost_congr _ z (fun _ => 0) _ (fun v hv => by simp [z, hv])]
    unfold Objective.systemCost
    simp only [Objective.running, Objective.commitment, mul_zero, ite_self, add_zero, ne_eq, OfNat.ofNat_ne_zero,
      not_false_eq_true, zero_pow]
    rw [total_zero _ _ _ (fun _ _ _ => rfl), total_zero _ _ _ (fun _ _ _ => rfl), total_zero _ _ _ (fun _ _ _ => rfl),
      total_zero _ _ _ (fun _ _ _ => rfl), capital_zero _ _ _ _ (fun _ _ => rfl), capital_zero _ _ _ _ (fun _ _ => rfl),
      capital_zero _ _ _ _ (fun _ _ => rfl), capital_zero _ _ _ _ (fun _ _ => rfl), capital_zero _ _ _ _ (fun _ _ => rfl),
      capital_zero _ _ _ _ (fun _ _ => rfl)]
    simp
  have hxy : Objective.systemCost (objNet w) y (weight w) =
      Objective.systemCost (objNet w) (fun v => x (objVar v)) (weight w) :=
    systemCost_congr _ _ _ _ (fun v hv => by simp [y, hv])
  rw [lin_map_var]
  have hsplit : lin (fun v => x (objVar v)) o.linear = lin y o.linear - lin z o.linear := by
    unfold lin
    rw [← sum_sub_map]
    congr 1
    apply List.map_congr_left
    intro e _
    by_cases he : e.2 = .const
    · simp [y, z, he, objVar, hx]
    · simp [y, z, he]
  rw [hsplit, ← hv, ← hv]
  rw [hz0] at hz
  rw [← hxy, ← hy]
  linear_combination -hz

/-- Operational and capital cost of one asset in the objective. -/
def genCost (w : WNet F) (g : GenW F) (val : WVar → F) : F :=
  ((List.range w.len).map (fun t => if g.unit.active t then
    weight w t * g.costs.marginal t * val (.of "Generator" g.name (.op "p" t)) +
      if g.unit.committable then weight w t * g.costs.standBy t * val (.of "Generator" g.name (.op "status" t)) +
        g.unit.startUpCost * val (.of "Generator" g.name (.op "start_up" t)) +
        g.unit.shutDownCost * val (.of "Generator" g.name (.op "shut_down" t)) else 0
    else 0)).sum +
  if g.unit.extendable then lifeWeight w g.invest * g.invest.capitalCost * val (.of "Generator" g.name .cap) else 0

theorem cost_gen {w : WNet F} (hw : Sound w) (hl : LinearCosts w) (g : GenW F) (hg : g ∈ w.gens) (val : WVar → F) :
    Objective.systemCost (objNet w) (fun v => only (ofAsset "Generator" g.name) val (objVar v)) (weight w) = genCost w g val := by
  unfold Objective.systemCost genCost
  rw [total_single _ _ _ w.gens genAsset (·.name) (assets_gen w) hw.gens g hg (fun b _ hb t => by simp [Objective.running, Objective.commitment, objVar, only, ofAsset, genAsset, objAsset, hb]),
    total_zero _ _ _ (fun a _ t => by simp [Objective.running, Objective.commitment, objVar, only, ofAsset]),
    total_zero _ _ _ (fun a _ t => by simp [Objective.running, Objective.commitment, objVar, only, ofAsset]),
    total_zero _ _ _ (fun a _ t => by simp [Objective.running, Objective.commitment, objVar, only, ofAsset]),
    capital_single _ _ _ _ w.gens genAsset (·.name) (assets_gen w) hw.gens g hg (fun b _ hb => by simp [objVar, only, ofAsset, genAsset, objAsset, hb]),
    capital_zero _ _ _ _ (fun a _ => by simp [objVar, only, ofAsset]),
    capital_zero _ _ _ _ (fun a _ => by simp [objVar, only, ofAsset]),
    capital_zero _ _ _ _ (fun a _ => by simp [objVar, only, ofAsset]),
    capital_zero _ _ _ _ (fun a _ => by simp [objVar, only, ofAsset]),
    capital_zero _ _ _ _ (fun a _ => by simp [objVar, only, ofAsset])]
  have hq := hl.gens g hg
  simp only [add_zero, zero_add]
  congr 1
  · show ((List.range w.len).map _).sum = _
    congr 1
    apply List.map_congr_left
    intro t _
    simp [Objective.running, Objective.commitment, objVar, only, ofAsset, genAsset, objAsset, hq, mul_assoc]
  · simp only [objVar, only, ofAsset, genAsset, objAsset, lifeWeight, objNet]
    simp only [decide_true, Bool.and_self, if_true]
    cases w.periods <;> rfl

/-- Operational and capital cost of one asset in the objective. -/
def linkCost (w : WNet F) (g : LinkW F) (val : WVar → F) : F :=
  ((List.range w.len).map (fun t => if g.unit.active t then
    weight w t * g.costs.marginal t * val (.of "Link" g.name (.op "p" t)) +
      if g.unit.committable then weight w t * g.costs.standBy t * val (.of "Link" g.name (.op "status" t)) +
        g.unit.startUpCost * val (.of "Link" g.name (.op "start_up" t)) +
        g.unit.shutDownCost * val (.of "Link" g.name (.op "shut_down" t)) else 0
    else 0)).sum +
  if g.unit.extendable then lifeWeight w g.invest * g.invest.capitalCost * val (.of "Link" g.name .cap) else 0

theorem cost_link {w : WNet F} (hw : Sound w) (hl : LinearCosts w) (g : LinkW F) (hg : g ∈ w.links) (val : WVar → F) :
    Objective.systemCost (objNet w) (fun v => only (ofAsset "Link" g.name) val (objVar v)) (weight w) = linkCost w g val := by
  unfold Objective.systemCost linkCost
  rw [total_zero _ _ _ (fun a _ t => by simp [Objective.running, Objective.commitment, objVar, only, ofAsset]),
    total_single _ _ _ w.links linkAsset (·.name) (assets_link w) hw.links g hg (fun b _ hb t => by simp [Objective.running, Objective.commitment, objVar, only, ofAsset, linkAsset, objAsset, hb]),
    total_zero _ _ _ (fun a _ t => by simp [Objective.running, Objective.commitment, objVar, only, ofAsset]),
    total_zero _ _ _ (fun a _ t => by simp [Objective.running, Objective.commitment, objVar, only, ofAsset]),
    capital_zero _ _ _ _ (fun a _ => by simp [objVar, only, ofAsset]),
    capital_single _ _ _ _ w.links linkAsset (·.name) (assets_link w) hw.links g hg (fun b _ hb => by simp [objVar, only, ofAsset, linkAsset, objAsset, hb]),
    capital_zero _ _ _ _ (fun a _ => by simp [objVar, only, ofAsset]),
    capital_zero _ _ _ _ (fun a _ => by simp [objVar, only, ofAsset]),
    capital_zero _ _ _ _ (fun a _ => by simp [objVar, only, ofAsset]),
    capital_zero _ _ _ _ (fun a _ => by simp [objVar, only, ofAsset])]
  have hq := hl.links g hg
  simp only [add_zero, zero_add]
  congr 1
  · show ((List.range w.len).map _).sum = _
    congr 1
    apply List.map_congr_left
    intro t _
    simp [Objective.running, Objective.commitment, objVar, only, ofAsset, linkAsset, objAsset, hq, mul_assoc]
  · simp only [objVar, only, ofAsset, linkAsset, objAsset, lifeWeight, objNet]
    simp only [decide_true, Bool.and_self, if_true]
    cases w.periods <;> rfl

/-- Operational and capital cost of one asset in the objective. -/
def storeCost (w : WNet F) (g : StoreW F) (val : WVar → F) : F :=
  ((List.range w.len).map (fun t => if g.storage.active t then
    weight w t * g.costs.marginal t * val (.of "Store" g.name (.op "p" t)) +
      weight w t * g.costs.marginalStorage t * val (.of "Store" g.name (.op "e" t))
    else 0)).sum +
  if g.ext then lifeWeight w g.invest * g.invest.capitalCost * val (.of "Store" g.name .cap) else 0

theorem cost_store {w : WNet F} (hw : Sound w) (hl : LinearCosts w) (g : StoreW F) (hg : g ∈ w.stores) (val : WVar → F) :
    Objective.systemCost (objNet w) (fun v => only (ofAsset "Store" g.name) val (objVar v)) (weight w) = storeCost w g val := by
  unfold Objective.systemCost storeCost
  rw [total_zero _ _ _ (fun a _ t => by simp [Objective.running, Objective.commitment, objVar, only, ofAsset]),
    total_zero _ _ _ (fun a _ t => by simp [Objective.running, Objective.commitment, objVar, only, ofAsset]),
    total_single _ _ _ w.stores storeAsset (·.name) (assets_store w) hw.stores g hg (fun b _ hb t => by simp [Objective.running, Objective.commitment, objVar, only, ofAsset, storeAsset, objAsset, hb]),
    total_zero _ _ _ (fun a _ t => by simp [Objective.running, Objective.commitment, objVar, only, ofAsset]),
    capital_zero _ _ _ _ (fun a _ => by simp [objVar, only, ofAsset]),
    capital_zero _ _ _ _ (fun a _ => by simp [objVar, only, ofAsset]),
    capital_zero _ _ _ _ (fun a _ => by simp [objVar, only, ofAsset]),
    capital_zero _ _ _ _ (fun a _ => by simp [objVar, only, ofAsset]),
    capital_single _ _ _ _ w.stores storeAsset (·.name) (assets_store w) hw.stores g hg (fun b _ hb => by simp [objVar, only, ofAsset, storeAsset, objAsset, hb]),
    capital_zero _ _ _ _ (fun a _ => by simp [objVar, only, ofAsset])]
  have hq := hl.stores g hg
  simp only [add_zero, zero_add]
  congr 1
  · show ((List.range w.len).map _).sum = _
    congr 1
    apply List.map_congr_left
    intro t _
    simp [Objective.running, Objective.commitment, objVar, only, ofAsset, storeAsset, objAsset, hq, mul_assoc]
  · simp only [objVar, only, ofAsset, storeAsset, objAsset, lifeWeight, objNet]
    simp only [decide_true, Bool.and_self, if_true]
    cases w.periods <;> rfl

/-- Operational and capital cost of one asset in the objective. -/
def unitCost (w : WNet F) (g : UnitW F) (val : WVar → F) : F :=
  ((List.range w.len).map (fun t => if g.storage.active t then
    weight w t * g.costs.marginal t * val (.of "StorageUnit" g.name (.op "p_dispatch" t)) +
      weight w t * g.costs.marginalStorage t * val (.of "StorageUnit" g.name (.op "state_of_charge" t)) +
      if 0 < g.storage.inflow t then
        weight w t * g.costs.spillCost t * val (.of "StorageUnit" g.name (.op "spill" t)) else 0
    else 0)).sum +
  if g.ext then lifeWeight w g.invest * g.invest.capitalCost * val (.of "StorageUnit" g.name .cap) else 0

theorem cost_unit {w : WNet F} (hw : Sound w) (hl : LinearCosts w) (g : UnitW F) (hg : g ∈ w.units) (val : WVar → F) :
    Objective.systemCost (objNet w) (fun v => only (ofAsset "StorageUnit" g.name) val (objVar v)) (weight w) = unitCost w g val := by
  unfold Objective.systemCost unitCost
  rw [total_zero _ _ _ (fun a _ t => by simp [Objective.running, Objective.commitment, objVar, only, ofAsset]),
    total_zero _ _ _ (fun a _ t => by simp [Objective.running, Objective.commitment, objVar, only, ofAsset]),
    total_zero _ _ _ (fun a _ t => by simp [Objective.running, Objective.commitment, objVar, only, ofAsset]),
    total_single _ _ _ w.units sunitAsset (·.name) (assets_unit w) hw.units g hg (fun b _ hb t => by simp [Objective.running, Objective.commitment, objVar, only, ofAsset, sunitAsset, objAsset, hb]),
    capital_zero _ _ _ _ (fun a _ => by simp [objVar, only, ofAsset]),
    capital_zero _ _ _ _ (fun a _ => by simp [objVar, only, ofAsset]),
    capital_zero _ _ _ _ (fun a _ => by simp [objVar, only, ofAsset]),
    capital_zero _ _ _ _ (fun a _ => by simp [objVar, only, ofAsset]),
    capital_zero _ _ _ _ (fun a _ => by simp [objVar, only, ofAsset]),
    capital_single _ _ _ _ w.units sunitAsset (·.name) (assets_unit w) hw.units g hg (fun b _ hb => by simp [objVar, only, ofAsset, sunitAsset, objAsset, hb])]
  have hq := hl.units g hg
  simp only [add_zero, zero_add]
  congr 1
  · show ((List.range w.len).map _).sum = _
    congr 1
    apply List.map_congr_left
    intro t _
    simp [Objective.running, Objective.commitment, objVar, only, ofAsset, sunitAsset, objAsset, hq, mul_assoc]
  · simp only [objVar, only, ofAsset, sunitAsset, objAsset, lifeWeight, objNet]
    simp only [decide_true, Bool.and_self, if_true]
    cases w.periods <;> rfl

/-- Capital cost of a passive branch. -/
def branchCost (w : WNet F) (comp : Name) (g : BranchW F) (val : WVar → F) : F :=
  if g.ext then lifeWeight w g.invest * g.invest.capitalCost * val (.of comp g.name .cap) else 0

theorem cost_line {w : WNet F} (hw : Sound w) (g : BranchW F) (hg : g ∈ w.lines) (val : WVar → F) :
    Objective.systemCost (objNet w) (fun v => only (ofAsset "Line" g.name) val (objVar v)) (weight w) = branchCost w "Line" g val := by
  unfold Objective.systemCost branchCost
  rw [total_zero _ _ _ (fun a _ t => by simp [Objective.running, Objective.commitment, objVar, only, ofAsset]),
    total_zero _ _ _ (fun a _ t => by simp [Objective.running, Objective.commitment, objVar, only, ofAsset]),
    total_zero _ _ _ (fun a _ t => by simp [Objective.running, Objective.commitment, objVar, only, ofAsset]),
    total_zero _ _ _ (fun a _ t => by simp [Objective.running, Objective.commitment, objVar, only, ofAsset]),
    capital_zero _ _ _ _ (fun a _ => by simp [objVar, only, ofAsset]),
    capital_zero _ _ _ _ (fun a _ => by simp [objVar, only, ofAsset]),
    capital_single _ _ _ _ w.lines branchAsset (·.name) (assets_line w) hw.lines g hg (fun b _ hb => by simp [objVar, only, ofAsset, branchAsset, objAsset, hb]),
    capital_zero _ _ _ _ (fun a _ => by simp [objVar, only, ofAsset]),
    capital_zero _ _ _ _ (fun a _ => by simp [objVar, only, ofAsset]),
    capital_zero _ _ _ _ (fun a _ => by simp [objVar, only, ofAsset])]
  simp only [add_zero, zero_add]
  simp only [objVar, only, ofAsset, branchAsset, objAsset, lifeWeight, objNet]
  simp only [decide_true, Bool.and_self, if_true]
  cases w.periods <;> rfl

theorem cost_trafo {w : WNet F} (hw : Sound w) (g : BranchW F) (hg : g ∈ w.trafos) (val : WVar → F) :
    Objective.systemCost (objNet w) (fun v => only (ofAsset "Transformer" g.name) val (objVar v)) (weight w) = branchCost w "Transformer" g val := by
  unfold Objective.systemCost branchCost
  rw [total_zero _ _ _ (fun a _ t => by simp [Objective.running, Objective.commitment, objVar, only, ofAsset]),
    total_zero _ _ _ (fun a _ t => by simp [Objective.running, Objective.commitment, objVar, only, ofAsset]),
    total_zero _ _ _ (fun a _ t => by simp [Objective.running, Objective.commitment, objVar, only, ofAsset]),
    total_zero _ _ _ (fun a _ t => by simp [Objective.running, Objective.commitment, objVar, only, ofAsset]),
    capital_zero _ _ _ _ (fun a _ => by simp [objVar, only, ofAsset]),
    capital_zero _ _ _ _ (fun a _ => by simp [objVar, only, ofAsset]),
    capital_zero _ _ _ _ (fun a _ => by simp [objVar, only, ofAsset]),
    capital_single _ _ _ _ w.trafos branchAsset (·.name) (assets_trafo w) hw.trafos g hg (fun b _ hb => by simp [objVar, only, ofAsset, branchAsset, objAsset, hb]),
    capital_zero _ _ _ _ (fun a _ => by simp [objVar, only, ofAsset]),
    capital_zero _ _ _ _ (fun a _ => by simp [objVar, only, ofAsset])]
  simp only [add_zero, zero_add]
  simp only [objVar, only, ofAsset, branchAsset, objAsset, lifeWeight, objNet]
  simp only [decide_true, Bool.and_self, if_true]
  cases w.periods <;> rfl

end ordered

/-! ## Revenue -/

section revenue
variable {F : Type} [Field F]

theorem sum_at (l : List Name) (hnd : l.Nodup) (lam : Name → F) (b : Name) (hb : b ∈ l) (act : Bool) (x : F) :
    (l.map (fun c => lam c * Nodal.contrib c b act x)).sum = if act then lam b * x else 0 := by
  rw [sum_single l id _ (by simpa using hnd) b hb]
  · unfold Nodal.contrib
    cases act <;> simp
  · intro c _ hc
    unfold Nodal.contrib
    rw [if_neg (fun h => hc h.1.symm), mul_zero]

theorem sum_at_none (l : List Name) (lam : Name → F) (b : Name) (hb : b ∉ l) (act : Bool) (x : F) :
    (l.map (fun c => lam c * Nodal.contrib c b act x)).sum = 0 := by
  refine sum_zero _ _ (fun c hc => ?_)
  unfold Nodal.contrib
  rw [if_neg (fun h : b = c ∧ act = true => hb (h.1.symm ▸ hc)), mul_zero]

theorem contrib_zero (b c : Name) (act : Bool) : Nodal.contrib b c act (0 : F) = 0 := by
  unfold Nodal.contrib; simp

/-- What the asset is paid at its bus; `lam` is the dual of the nodal balance. -/
def genRevenue (w : WNet F) (g : GenW F) (lam : Name → Nat → F) (val : WVar → F) : F :=
  ((List.range w.len).map (fun t => if g.unit.active t then
    lam g.bus t * (g.sign * val (.of "Generator" g.name (.op "p" t))) else 0)).sum

def storeRevenue (w : WNet F) (g : StoreW F) (lam : Name → Nat → F) (val : WVar → F) : F :=
  ((List.range w.len).map (fun t => if g.storage.active t then
    lam g.bus t * (g.sign * val (.of "Store" g.name (.op "p" t))) else 0)).sum

def unitRevenue (w : WNet F) (g : UnitW F) (lam : Name → Nat → F) (val : WVar → F) : F :=
  ((List.range w.len).map (fun t => if g.storage.active t then
    lam g.bus t * (g.sign * (val (.of "StorageUnit" g.name (.op "p_dispatch" t)) -
      val (.of "StorageUnit" g.name (.op "p_store" t)))) else 0)).sum

/-- What a link is paid at its further ports and pays at the first. -/
def linkRevenue (w : WNet F) (g : LinkW F) (lam : Name → Nat → F) (val : WVar → F) : F :=
  ((List.range w.len).map (fun t => if g.unit.active t then
    (g.eff t * lam g.bus1 t - lam g.bus0 t +
      (g.extra.map (fun e => if e.1 = "" then 0 else e.2 t * lam e.1 t)).sum) *
      val (.of "Link" g.name (.op "p" t)) else 0)).sum

/-- What a passive branch is paid: the difference of prices, without what is lost on the way. -/
def branchRevenue (w : WNet F) (comp : Name) (g : BranchW F) (lam : Name → Nat → F) (val : WVar → F) : F :=
  ((List.range w.len).map (fun t => if g.active t then
    (lam g.bus1 t - lam g.bus0 t) * val (.of comp g.name (.op "s" t)) -
      (if w.tangents = 0 then 0 else (lam g.bus0 t + lam g.bus1 t) / 2 * val (.of comp g.name (.op "loss" t))) else 0)).sum

theorem supplied_gen {w : WNet F} (hw : Sound w) (g : GenW F) (hg : g ∈ w.gens) (val : WVar → F) (t : Nat) (b : Name) :
    Nodal.supplied (nodal w t) (w.tangents != 0) (fun v => only (ofAsset "Generator" g.name) val (nodalVar t v)) b =
      Nodal.contrib b g.bus (g.unit.active t) (g.sign * val (.of "Generator" g.name (.op "p" t))) := by
  unfold Nodal.supplied nodal
  simp only [List.map_map, Function.comp_def]
  rw [sum_single w.gens (·.name) _ hw.gens g hg (fun b _ hb => by simp [nodalVar, only, ofAsset, contrib_zero, hb]),
    sum_zero _ _ (fun b _ => by simp [nodalVar, only, ofAsset, contrib_zero]),
    sum_zero _ _ (fun b _ => by simp [nodalVar, only, ofAsset, contrib_zero]),
    sum_zero _ _ (fun b _ => by simp [nodalVar, only, ofAsset, contrib_zero]),
    sum_zero _ _ (fun b _ => by simp [nodalVar, only, ofAsset, contrib_zero]),
    sum_zero _ _ (fun b _ => by simp [nodalVar, only, ofAsset, contrib_zero])]
  simp [nodalVar, only, ofAsset]

theorem revenue_gen {w : WNet F} (hw : Sound w) (g : GenW F) (hg : g ∈ w.gens) (val : WVar → F) (lam : Name → Nat → F) :
    ((List.range w.len).map (fun t => (w.buses.map (fun b => lam b t *
      Nodal.supplied (nodal w t) (w.tangents != 0) (fun v => only (ofAsset "Generator" g.name) val (nodalVar t v)) b)).sum)).sum =
      genRevenue w g lam val := by
  unfold genRevenue
  congr 1
  apply List.map_congr_left
  intro t _
  simp only [supplied_gen hw g hg]
  exact sum_at w.buses hw.buses (fun b => lam b t) g.bus (hw.genBus g hg) _ _

theorem supplied_store {w : WNet F} (hw : Sound w) (g : StoreW F) (hg : g ∈ w.stores) (val : WVar → F) (t : Nat) (b : Name) :
    Nodal.supplied (nodal w t) (w.tangents != 0) (fun v => only (ofAsset "Store" g.name) val (nodalVar t v)) b =
      Nodal.contrib b g.bus (g.storage.active t) (g.sign * val (.of "Store" g.name (.op "p" t))) := by
  unfold Nodal.supplied nodal
  simp only [List.map_map, Function.comp_def]
  rw [sum_zero _ _ (fun b _ => by simp [nodalVar, only, ofAsset, contrib_zero]),
    sum_single w.stores (·.name) _ hw.stores g hg (fun b _ hb => by simp [nodalVar, only, ofAsset, contrib_zero, hb]),
    sum_zero _ _ (fun b _ => by simp [nodalVar, only, ofAsset, contrib_zero]),
    sum_zero _ _ (fun b _ => by simp [nodalVar, only, ofAsset, contrib_zero]),
    sum_zero _ _ (fun b _ => by simp [nodalVar, only, ofAsset, contrib_zero]),
    sum_zero _ _ (fun b _ => by simp [nodalVar, only, ofAsset, contrib_zero])]
  simp [nodalVar, only, ofAsset]

theorem revenue_store {w : WNet F} (hw : Sound w) (g : StoreW F) (hg : g ∈ w.stores) (val : WVar → F) (lam : Name → Nat → F) :
    ((List.range w.len).map (fun t => (w.buses.map (fun b => lam b t *
      Nodal.supplied (nodal w t) (w.tangents != 0) (fun v => only (ofAsset "Store" g.name) val (nodalVar t v)) b)).sum)).sum =
      storeRevenue w g lam val := by
  unfold storeRevenue
  congr 1
  apply List.map_congr_left
  intro t _
  simp only [supplied_store hw g hg]
  exact sum_at w.buses hw.buses (fun b => lam b t) g.bus (hw.storeBus g hg) _ _

theorem supplied_unit {w : WNet F} (hw : Sound w) (g : UnitW F) (hg : g ∈ w.units) (val : WVar → F) (t : Nat) (b : Name) :
    Nodal.supplied (nodal w t) (w.tangents != 0) (fun v => only (ofAsset "StorageUnit" g.name) val (nodalVar t v)) b =
      Nodal.contrib b g.bus (g.storage.active t) (g.sign * (val (.of "StorageUnit" g.name (.op "p_dispatch" t)) - val (.of "StorageUnit" g.name (.op "p_store" t)))) := by
  unfold Nodal.supplied nodal
  simp only [List.map_map, Function.comp_def]
  rw [sum_zero _ _ (fun b _ => by simp [nodalVar, only, ofAsset, contrib_zero]),
    sum_zero _ _ (fun b _ => by simp [nodalVar, only, ofAsset, contrib_zero]),
    sum_single w.units (·.name) _ hw.units g hg (fun b _ hb => by simp [nodalVar, only, ofAsset, contrib_zero, hb]),
    sum_zero _ _ (fun b _ => by simp [nodalVar, only, ofAsset, contrib_zero]),
    sum_zero _ _ (fun b _ => by simp [nodalVar, only, ofAsset, contrib_zero]),
    sum_zero _ _ (fun b _ => by simp [nodalVar, only, ofAsset, contrib_zero])]
  simp [nodalVar, only, ofAsset]

theorem revenue_unit {w : WNet F} (hw : Sound w) (g : UnitW F) (hg : g ∈ w.units) (val : WVar → F) (lam : Name → Nat → F) :
    ((List.range w.len).map (fun t => (w.buses.map (fun b => lam b t *
      Nodal.supplied (nodal w t) (w.tangents != 0) (fun v => only (ofAsset "StorageUnit" g.name) val (nodalVar t v)) b)).sum)).sum =
      unitRevenue w g lam val := by
  unfold unitRevenue
  congr 1
  apply List.map_congr_left
  intro t _
  simp only [supplied_unit hw g hg]
  exact sum_at w.buses hw.buses (fun b => lam b t) g.bus (hw.unitBus g hg) _ _

theorem supplied_link {w : WNet F} (hw : Sound w) (g : LinkW F) (hg : g ∈ w.links) (val : WVar → F) (t : Nat) (b : Name) :
    Nodal.supplied (nodal w t) (w.tangents != 0) (fun v => only (ofAsset "Link" g.name) val (nodalVar t v)) b =
      Nodal.contrib b g.bus0 (g.unit.active t) (- val (.of "Link" g.name (.op "p" t))) +
      Nodal.contrib b g.bus1 (g.unit.active t) (g.eff t * val (.of "Link" g.name (.op "p" t))) +
      (g.extra.map (fun e => Nodal.contrib b e.1 (g.unit.active t) (e.2 t * val (.of "Link" g.name (.op "p" t))))).sum := by
  unfold Nodal.supplied nodal
  simp only [List.map_map, Function.comp_def]
  rw [sum_zero _ _ (fun b _ => by simp [nodalVar, only, ofAsset, contrib_zero]),
    sum_zero _ _ (fun b _ => by simp [nodalVar, only, ofAsset, contrib_zero]),
    sum_zero _ _ (fun b _ => by simp [nodalVar, only, ofAsset, contrib_zero]),
    sum_zero _ _ (fun b _ => by simp [nodalVar, only, ofAsset, contrib_zero]),
    sum_zero _ _ (fun b _ => by simp [nodalVar, only, ofAsset, contrib_zero]),
    sum_single w.links (·.name) _ hw.links g hg (fun b _ hb => by simp [nodalVar, only, ofAsset, contrib_zero, hb])]
  simp [nodalVar, only, ofAsset]

theorem sum_swap {α β : Type} (l : List α) (m : List β) (f : α → β → F) :
    (l.map (fun a => (m.map (f a)).sum)).sum = (m.map (fun b => (l.map (fun a => f a b)).sum)).sum := by
  induction l with
  | nil => simp
  | cons a t ih => simp only [List.map_cons, List.sum_cons, ih]; rw [← List.sum_map_add]

theorem revenue_link {w : WNet F} (hw : Sound w) (g : LinkW F) (hg : g ∈ w.links) (val : WVar → F) (lam : Name → Nat → F) :
    ((List.range w.len).map (fun t => (w.buses.map (fun b => lam b t *
      Nodal.supplied (nodal w t) (w.tangents != 0) (fun v => only (ofAsset "Link" g.name) val (nodalVar t v)) b)).sum)).sum =
      linkRevenue w g lam val := by
  unfold linkRevenue
  congr 1
  apply List.map_congr_left
  intro t _
  simp only [supplied_link hw g hg, mul_add, List.sum_map_add]
  obtain ⟨h0, h1, h2⟩ := hw.linkBus g hg
  rw [sum_at w.buses hw.buses (fun b => lam b t) g.bus0 h0, sum_at w.buses hw.buses (fun b => lam b t) g.bus1 h1]
  simp only [← List.sum_map_mul_left]
  rw [sum_swap]
  have h3 : (g.extra.map (fun e => (w.buses.map (fun b => lam b t *
      Nodal.contrib b e.1 (g.unit.active t) (e.2 t * val (.of "Link" g.name (.op "p" t))))).sum)) =
      g.extra.map (fun e => if g.unit.active t then
        (if e.1 = "" then 0 else e.2 t * lam e.1 t) * val (.of "Link" g.name (.op "p" t)) else 0) := by
    apply List.map_congr_left
    intro e he
    rcases h2 e he with h | h
    · rw [sum_at_none w.buses (fun b => lam b t) e.1 (h ▸ hw.noEmpty)]
      simp [h]
    · rw [sum_at w.buses hw.buses (fun b => lam b t) e.1 h]
      rw [if_neg (fun h' : e.1 = "" => hw.noEmpty (h' ▸ h))]
      split
      · ring
      · rfl
  rw [h3]
  cases g.unit.active t with
  | false => simp
  | true =>
    simp only [if_true]
    rw [List.sum_map_mul_right]
    ring

theorem supplied_line {w : WNet F} (hw : Sound w) (g : BranchW F) (hg : g ∈ w.lines) (val : WVar → F) (t : Nat) (b : Name) :
    Nodal.supplied (nodal w t) (w.tangents != 0) (fun v => only (ofAsset "Line" g.name) val (nodalVar t v)) b =
      Nodal.contrib b g.bus0 (g.active t) (- val (.of "Line" g.name (.op "s" t)) -
        if w.tangents != 0 then val (.of "Line" g.name (.op "loss" t)) / 2 else 0) +
      Nodal.contrib b g.bus1 (g.active t) (val (.of "Line" g.name (.op "s" t)) -
        if w.tangents != 0 then val (.of "Line" g.name (.op "loss" t)) / 2 else 0) := by
  unfold Nodal.supplied nodal
  simp only [List.map_map, Function.comp_def]
  rw [sum_zero _ _ (fun b _ => by simp [nodalVar, only, ofAsset, contrib_zero]),
    sum_zero _ _ (fun b _ => by simp [nodalVar, only, ofAsset, contrib_zero]),
    sum_zero _ _ (fun b _ => by simp [nodalVar, only, ofAsset, contrib_zero]),
    sum_single w.lines (·.name) _ hw.lines g hg (fun b _ hb => by simp [nodalVar, only, ofAsset, contrib_zero, hb]),
    sum_zero _ _ (fun b _ => by simp [nodalVar, only, ofAsset, contrib_zero]),
    sum_zero _ _ (fun b _ => by simp [nodalVar, only, ofAsset, contrib_zero])]
  simp [nodalVar, only, ofAsset]

theorem revenue_line {w : WNet F} (hw : Sound w) (g : BranchW F) (hg : g ∈ w.lines) (val : WVar → F) (lam : Name → Nat → F) :
    ((List.range w.len).map (fun t => (w.buses.map (fun b => lam b t *
      Nodal.supplied (nodal w t) (w.tangents != 0) (fun v => only (ofAsset "Line" g.name) val (nodalVar t v)) b)).sum)).sum =
      branchRevenue w "Line" g lam val := by
  unfold branchRevenue
  congr 1
  apply List.map_congr_left
  intro t _
  simp only [supplied_line hw g hg, mul_add, List.sum_map_add]
  obtain ⟨h0, h1⟩ := hw.lineBus g hg
  rw [sum_at w.buses hw.buses (fun b => lam b t) g.bus0 h0, sum_at w.buses hw.buses (fun b => lam b t) g.bus1 h1]
  cases g.active t with
  | false => simp
  | true =>
    by_cases h : w.tangents = 0
    · simp [h]; ring
    · simp [h]; ring

theorem supplied_trafo {w : WNet F} (hw : Sound w) (g : BranchW F) (hg : g ∈ w.trafos) (val : WVar → F) (t : Nat) (b : Name) :
    Nodal.supplied (nodal w t) (w.tangents != 0) (fun v => only (ofAsset "Transformer" g.name) val (nodalVar t v)) b =
      Nodal.contrib b g.bus0 (g.active t) (- val (.of "Transformer" g.name (.op "s" t)) -
        if w.tangents != 0 then val (.of "Transformer" g.name (.op "loss" t)) / 2 else 0) +
      Nodal.contrib b g.bus1 (g.active t) (val (.of "Transformer" g.name (.op "s" t)) -
        if w.tangents != 0 then val (.of "Transformer" g.name (.op "loss" t)) / 2 else 0) := by
  unfold Nodal.supplied nodal
  simp only [List.map_map, Function.comp_def]
  rw [sum_zero _ _ (fun b _ => by simp [nodalVar, only, ofAsset, contrib_zero]),
    sum_zero _ _ (fun b _ => by simp [nodalVar, only, ofAsset, contrib_zero]),
    sum_zero _ _ (fun b _ => by simp [nodalVar, only, ofAsset, contrib_zero]),
    sum_zero _ _ (fun b _ => by simp [nodalVar, only, ofAsset, contrib_zero]),
    sum_single w.trafos (·.name) _ hw.trafos g hg (fun b _ hb => by simp [nodalVar, only, ofAsset, contrib_zero, hb]),
    sum_zero _ _ (fun b _ => by simp [nodalVar, only, ofAsset, contrib_zero])]
  simp [nodalVar, only, ofAsset]

theorem revenue_trafo {w : WNet F} (hw : Sound w) (g : BranchW F) (hg : g ∈ w.trafos) (val : WVar → F) (lam : Name → Nat → F) :
    ((List.range w.len).map (fun t => (w.buses.map (fun b => lam b t *
      Nodal.supplied (nodal w t) (w.tangents != 0) (fun v => only (ofAsset "Transformer" g.name) val (nodalVar t v)) b)).sum)).sum =
      branchRevenue w "Transformer" g lam val := by
  unfold branchRevenue
  congr 1
  apply List.map_congr_left
  intro t _
  simp only [supplied_trafo hw g hg, mul_add, List.sum_map_add]
  obtain ⟨h0, h1⟩ := hw.trafoBus g hg
  rw [sum_at w.buses hw.buses (fun b => lam b t) g.bus0 h0, sum_at w.buses hw.buses (fun b => lam b t) g.bus1 h1]
  cases g.active t with
  | false => simp
  | true =>
    by_cases h : w.tangents = 0
    · simp [h]; ring
    · simp [h]; ring

end revenue

section whole

/-- Cost of all assets. -/
def totalCost (w : WNet F) (val : WVar → F) : F :=
  (w.gens.map (fun g => genCost w g val)).sum + (w.links.map (fun g => linkCost w g val)).sum +
  (w.stores.map (fun g => storeCost w g val)).sum + (w.units.map (fun g => unitCost w g val)).sum +
  (w.lines.map (fun g => branchCost w "Line" g val)).sum + (w.trafos.map (fun g => branchCost w "Transformer" g val)).sum

theorem capital_all (w : WNet F) (x : Objective.OVar → F) (c v : Name) {α : Type} (l : List α)
    (mk : α → Objective.Asset F) (inv : α → Invest F) (hl : (objNet w).assets c = l.map mk)
    (hi : ∀ g, (mk g).activeFlag = (inv g).activeFlag ∧ (mk g).activeIn = (inv g).activeIn ∧ (mk g).capitalCost = (inv g).capitalCost) :
    Objective.capital (objNet w) x c v = (l.map (fun g => if (mk g).ext then
      lifeWeight w (inv g) * (inv g).capitalCost * x (.nom c v (mk g).name) else 0)).sum := by
  unfold Objective.capital
  rw [hl, List.map_map]
  congr 1
  apply List.map_congr_left
  intro g _
  obtain ⟨h1, h2, h3⟩ := hi g
  simp only [Function.comp, h1, h2, h3, lifeWeight, objNet]
  split
  · cases w.periods with
    | none =>
      simp only
      split <;> simp
    | some q =>
      simp only
      rw [mul_assoc, ← List.sum_map_mul_right]
      congr 1
      apply List.map_congr_left
      intro p _
      split
      · ring
      · simp
  · rfl

theorem sum_add_map {α : Type} (l : List α) (f g : α → F) : (l.map (fun a => f a + g a)).sum = (l.map f).sum + (l.map g).sum :=
  List.sum_map_add

/-- The cost of the system is the cost of the assets. -/
theorem system_total {w : WNet F} (hl : LinearCosts w) (x : WVar → F) :
    Objective.systemCost (objNet w) (fun v => x (objVar v)) (weight w) = totalCost w x := by
  unfold Objective.systemCost totalCost
  rw [capital_all w _ _ _ w.gens genAsset (·.invest) (assets_gen w) (fun g => ⟨rfl, rfl, rfl⟩),
    capital_all w _ _ _ w.links linkAsset (·.invest) (assets_link w) (fun g => ⟨rfl, rfl, rfl⟩),
    capital_all w _ _ _ w.stores storeAsset (·.invest) (assets_store w) (fun g => ⟨rfl, rfl, rfl⟩),
    capital_all w _ _ _ w.units sunitAsset (·.invest) (assets_unit w) (fun g => ⟨rfl, rfl, rfl⟩),
    capital_all w _ _ _ w.lines branchAsset (·.invest) (assets_line w) (fun g => ⟨rfl, rfl, rfl⟩),
    capital_all w _ _ _ w.trafos branchAsset (·.invest) (assets_trafo w) (fun g => ⟨rfl, rfl, rfl⟩)]
  have hsns : (objNet w).sns = List.range w.len := rfl
  have e1 : Objective.total (objNet w) "Generator" (fun a t => Objective.running (fun v => x (objVar v)) (weight w) "Generator" "p" a t +
        Objective.commitment (fun v => x (objVar v)) (weight w) "Generator" a t) +
      (w.gens.map (fun g => if (genAsset g).ext then lifeWeight w g.invest * g.invest.capitalCost *
        x (objVar (.nom "Generator" "p_nom" (genAsset g).name)) else 0)).sum = (w.gens.map (fun g => genCost w g x)).sum := by
    unfold Objective.total
    rw [assets_gen, List.map_map, hsns, ← sum_add_map]
    congr 1
    apply List.map_congr_left
    intro g hg
    have hq := hl.gens g hg
    unfold genCost
    simp only [Function.comp, Objective.running, Objective.commitment, objVar, genAsset, objAsset, hq, mul_assoc, zero_mul, add_zero]
  have e2 : Objective.total (objNet w) "Link" (fun a t => Objective.running (fun v => x (objVar v)) (weight w) "Link" "p" a t +
        Objective.commitment (fun v => x (objVar v)) (weight w) "Link" a t) +
      (w.links.map (fun g => if (linkAsset g).ext then lifeWeight w g.invest * g.invest.capitalCost *
        x (objVar (.nom "Link" "p_nom" (linkAsset g).name)) else 0)).sum = (w.links.map (fun g => linkCost w g x)).sum := by
    unfold Objective.total
    rw [assets_link, List.map_map, hsns, ← sum_add_map]
    congr 1
    apply List.map_congr_left
    intro g hg
    have hq := hl.links g hg
    unfold linkCost
    simp only [Function.comp, Objective.running, Objective.commitment, objVar, linkAsset, objAsset, hq, mul_assoc, zero_mul, add_zero]
  have e3 : Objective.total (objNet w) "Store" (fun a t => Objective.running (fun v => x (objVar v)) (weight w) "Store" "p" a t +
        weight w t * a.marginalStorage t * x (objVar (.op "Store" "e" a.name t))) +
      (w.stores.map (fun g => if (storeAsset g).ext then lifeWeight w g.invest * g.invest.capitalCost *
        x (objVar (.nom "Store" "e_nom" (storeAsset g).name)) else 0)).sum = (w.stores.map (fun g => storeCost w g x)).sum := by
    unfold Objective.total
    rw [assets_store, List.map_map, hsns, ← sum_add_map]
    congr 1
    apply List.map_congr_left
    intro g hg
    have hq := hl.stores g hg
    unfold storeCost
    simp only [Function.comp, Objective.running, objVar, storeAsset, objAsset, hq, mul_assoc, zero_mul, add_zero]
  have e4 : Objective.total (objNet w) "StorageUnit" (fun a t => Objective.running (fun v => x (objVar v)) (weight w) "StorageUnit" "p_dispatch" a t +
        weight w t * a.marginalStorage t * x (objVar (.op "StorageUnit" "state_of_charge" a.name t)) +
        (if 0 < a.inflow t then weight w t * a.spillCost t * x (objVar (.op "StorageUnit" "spill" a.name t)) else 0)) +
      (w.units.map (fun g => if (sunitAsset g).ext then lifeWeight w g.invest * g.invest.capitalCost *
        x (objVar (.nom "StorageUnit" "p_nom" (sunitAsset g).name)) else 0)).sum = (w.units.map (fun g => unitCost w g x)).sum := by
    unfold Objective.total
    rw [assets_unit, List.map_map, hsns, ← sum_add_map]
    congr 1
    apply List.map_congr_left
    intro g hg
    have hq := hl.units g hg
    unfold unitCost
    simp only [Function.comp, Objective.running, objVar, sunitAsset, objAsset, hq, mul_assoc, zero_mul, add_zero]
  have e5 : (w.lines.map (fun g => branchCost w "Line" g x)).sum = (w.lines.map (fun g => if (branchAsset g).ext then
      lifeWeight w g.invest * g.invest.capitalCost * x (objVar (.nom "Line" "s_nom" (branchAsset g).name)) else 0)).sum := rfl
  have e6 : (w.trafos.map (fun g => branchCost w "Transformer" g x)).sum = (w.trafos.map (fun g => if (branchAsset g).ext then
      lifeWeight w g.invest * g.invest.capitalCost * x (objVar (.nom "Transformer" "s_nom" (branchAsset g).name)) else 0)).sum :=
    rfl
  rw [← e1, ← e2, ← e3, ← e4, e5, e6]
  ring

/-- Power that the active loads at a bus draw. -/
def drawn (loads : List (LoadW F)) (b : Name) (t : Nat) : F :=
  (loads.map (fun l => if l.bus = b ∧ l.active t = true then - (l.sign * l.pSet t) else 0)).sum

theorem demanded_drawn (w : WNet F) (b : Name) (t : Nat) : Nodal.demanded (nodal w t) b = drawn w.loads b t := by
  unfold Nodal.demanded drawn nodal
  rw [List.map_map]
  rfl

end whole
end Verif.Opt.Whole
