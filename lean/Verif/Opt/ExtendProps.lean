import Verif.Opt.WholeProps
import Verif.Opt.WholeExample
import Mathlib.Tactic.Linarith

/-!
# C114: more options never make the optimum worse

About the whole problem of `Whole.lean`: a network is extended by assets that may stand still.
-/

namespace Verif.Opt.Whole

variable {F : Type} [Field F] [LinearOrder F]

/-! ## When a point is feasible -/

/-- Rows and nodal balance hold. -/
def FeasibleIn (P : Program F) (x : WVar → F) : Prop := Feasible x P.rows ∧ Feasible x (P.balance.map (·.2))

/-- Costs of a point: the objective and the constant that is left out of it. -/
def costOf (w : WNet F) (P : Program F) (x : WVar → F) : F := lin x P.linear + Objective.constant (objNet w)

/-- The rows of all assets hold. -/
structure AssetsHold (w : WNet F) (x : WVar → F) : Prop where
  gens : ∀ g ∈ w.gens, ∀ rs, genRows w g = some rs → ∀ q ∈ rs, q.holds (fun v => x (.of "Generator" g.name v))
  links : ∀ g ∈ w.links, ∀ rs, linkRows w g = some rs → ∀ q ∈ rs, q.holds (fun v => x (.of "Link" g.name v))
  stores : ∀ g ∈ w.stores, ∀ rs, storeRows w g = some rs → ∀ q ∈ rs, q.holds (fun v => x (.of "Store" g.name v))
  units : ∀ g ∈ w.units, ∀ rs, sunitRows w g = some rs → ∀ q ∈ rs, q.holds (fun v => x (.of "StorageUnit" g.name v))
  lines : ∀ g ∈ w.lines, ∀ rs, branchRows w .line g = some rs → ∀ q ∈ rs, q.holds (fun v => x (.of "Line" g.name v))
  trafos : ∀ g ∈ w.trafos, ∀ rs, branchRows w .transformer g = some rs → ∀ q ∈ rs,
    q.holds (fun v => x (.of "Transformer" g.name v))

/-- Power is balanced at all buses. -/
def Balance (w : WNet F) (x : WVar → F) : Prop := ∀ t < w.len, ∀ b ∈ w.buses,
  Nodal.supplied (nodal w t) (w.tangents != 0) (fun v => x (nodalVar t v)) b = Nodal.demanded (nodal w t) b

theorem feasible_iff [IsStrictOrderedRing F] {w : WNet F} (hw : Sound w) {other : List (Con WVar F)} {P : Program F} (hP : createModel w other = some P)
    (x : WVar → F) : FeasibleIn P x ↔ AssetsHold w x ∧ Balance w x ∧ x .const = Objective.constant (objNet w) ∧ Feasible x other := by
  obtain ⟨own, bal, o, h1, h2, -, -, -, h5, h6⟩ := createModel_parts hP
  unfold FeasibleIn
  rw [h5, h6, balance_iff hw h2, feasible_append, feasible_cons]
  have hc : (constRow w).holds x ↔ x .const = Objective.constant (objNet w) := by simp [constRow, Con.holds, lin]
  have ho : Feasible x own ↔ AssetsHold w x := by
    obtain ⟨m1, m2, m3, m4, m5, m6⟩ := ownRows_mem h1
    constructor
    · intro h
      refine ⟨?_, ?_, ?_, ?_, ?_, ?_⟩
      · intro g hg rs hrs q hq
        obtain ⟨rs', e, hm⟩ := m1 g hg
        rw [e] at hrs; cases hrs
        exact (holds_remap _ _ _).mp (h _ (hm q hq))
      · intro g hg rs hrs q hq
        obtain ⟨rs', e, hm⟩ := m2 g hg
        rw [e] at hrs; cases hrs
        exact (holds_remap _ _ _).mp (h _ (hm q hq))
      · intro g hg rs hrs q hq
        obtain ⟨rs', e, hm⟩ := m3 g hg
        rw [e] at hrs; cases hrs
        exact (holds_remap _ _ _).mp (h _ (hm q hq))
      · intro g hg rs hrs q hq
        obtain ⟨rs', e, hm⟩ := m4 g hg
        rw [e] at hrs; cases hrs
        exact (holds_remap _ _ _).mp (h _ (hm q hq))
      · intro g hg rs hrs q hq
        obtain ⟨rs', e, hm⟩ := m5 g hg
        rw [e] at hrs; cases hrs
        exact (holds_remap _ _ _).mp (h _ (hm q hq))
      · intro g hg rs hrs q hq
        obtain ⟨rs', e, hm⟩ := m6 g hg
        rw [e] at hrs; cases hrs
        exact (holds_remap _ _ _).mp (h _ (hm q hq))
    · intro h r hr
      rcases mem_ownRows h1 r hr with ⟨g, hg, rs, e, c, hc, rfl⟩ | ⟨g, hg, rs, e, c, hc, rfl⟩ | ⟨g, hg, rs, e, c, hc, rfl⟩ |
        ⟨g, hg, rs, e, c, hc, rfl⟩ | ⟨g, hg, rs, e, c, hc, rfl⟩ | ⟨g, hg, rs, e, c, hc, rfl⟩
      · exact (holds_remap _ _ _).mpr (h.gens g hg rs e c hc)
      · exact (holds_remap _ _ _).mpr (h.links g hg rs e c hc)
      · exact (holds_remap _ _ _).mpr (h.stores g hg rs e c hc)
      · exact (holds_remap _ _ _).mpr (h.units g hg rs e c hc)
      · exact (holds_remap _ _ _).mpr (h.lines g hg rs e c hc)
      · exact (holds_remap _ _ _).mpr (h.trafos g hg rs e c hc)
  rw [hc, ho]
  tauto

theorem cost_total [IsStrictOrderedRing F] {w : WNet F} (hl : LinearCosts w) {other : List (Con WVar F)} {P : Program F}
    (hP : createModel w other = some P) (x : WVar → F) (hx : FeasibleIn P x) : costOf w P x = totalCost w x := by
  unfold costOf
  rw [objective_cost hl hP x hx.1, system_total hl]

/-! ## Additional assets -/

/-- Assets to add. -/
structure More (F : Type) where
  gens : List (GenW F)
  links : List (LinkW F)
  stores : List (StoreW F)
  units : List (UnitW F)
  lines : List (BranchW F)
  trafos : List (BranchW F)

/-- The network with these assets. -/
def withMore (w : WNet F) (m : More F) : WNet F :=
  { w with gens := w.gens ++ m.gens, links := w.links ++ m.links, stores := w.stores ++ m.stores, units := w.units ++ m.units,
           lines := w.lines ++ m.lines, trafos := w.trafos ++ m.trafos }

/-- A variable of one of the added assets. -/
def More.has (m : More F) : WVar → Bool
  | .of c a _ =>
    (c == "Generator" && (m.gens.map (·.name)).contains a) || (c == "Link" && (m.links.map (·.name)).contains a) ||
    (c == "Store" && (m.stores.map (·.name)).contains a) || (c == "StorageUnit" && (m.units.map (·.name)).contains a) ||
    (c == "Line" && (m.lines.map (·.name)).contains a) || (c == "Transformer" && (m.trafos.map (·.name)).contains a)
  | .const => false

/-- All added assets may stand still. -/
structure More.Idle (w : WNet F) (m : More F) : Prop where
  gens : ∀ g ∈ m.gens, IdleGen w g
  links : ∀ g ∈ m.links, IdleLink w g
  stores : ∀ g ∈ m.stores, IdleStore w g
  units : ∀ g ∈ m.units, IdleUnit w g
  lines : ∀ g ∈ m.lines, IdleBranch w g
  trafos : ∀ g ∈ m.trafos, IdleBranch w g

/-- Whether ramp limits count does not change when units are added: there are none, or there is one, and not all are 1. -/
def RampsStay (us : List (Unit' F)) (T : Nat) : Prop :=
  (∀ u ∈ us, (∀ t, u.rampUp t = none ∧ u.rampDown t = none) ∧ u.rampUpStatic = none ∧ u.rampDownStatic = none) ∨
  ((∃ u ∈ us, ∃ t < T, u.rampUp t ≠ none ∨ u.rampDown t ≠ none) ∧
    ∃ u ∈ us, ∃ t < T, u.rampUp t ≠ some 1 ∨ u.rampDown t ≠ some 1)

theorem not_skip {us : List (Unit' F)} {T : Nat} (h : (∃ u ∈ us, ∃ t < T, u.rampUp t ≠ none ∨ u.rampDown t ≠ none) ∧
    ∃ u ∈ us, ∃ t < T, u.rampUp t ≠ some 1 ∨ u.rampDown t ≠ some 1) : rampSkip us T = false := by
  obtain ⟨⟨u, hu, t, ht, h1⟩, v, hv, s, hs, h2⟩ := h
  unfold rampSkip
  rw [Bool.or_eq_false_iff]
  constructor
  · rw [List.all_eq_false]
    refine ⟨u, hu, ?_⟩
    rw [Bool.not_eq_true, List.all_eq_false]
    refine ⟨t, List.mem_range.mpr ht, ?_⟩
    simp only [decide_eq_true_eq]
    rintro ⟨ha, hb⟩
    rcases h1 with h1 | h1 <;> contradiction
  · rw [List.all_eq_false]
    refine ⟨v, hv, ?_⟩
    rw [Bool.not_eq_true, List.all_eq_false]
    refine ⟨s, List.mem_range.mpr hs, ?_⟩
    simp only [decide_eq_true_eq]
    rintro ⟨ha, hb⟩
    rcases h2 with h2 | h2 <;> contradiction

/-- Rows of a unit in the larger class are those in the smaller one. -/
theorem unitCons_more {us vs : List (Unit' F)} {T : Nat} (h : RampsStay us T) {u : Unit' F} (hu : u ∈ us) {rolling lin' : Bool} :
    unitCons (us ++ vs) u T rolling lin' = unitCons us u T rolling lin' := by
  unfold unitCons
  congr 1
  unfold rampCons
  rcases h with h | h
  · obtain ⟨h1, h2, h3⟩ := h u hu
    have : ∀ ts, rowsAt u ts (rampRows u rolling) = [] := by
      intro ts
      unfold rowsAt
      simp [rampRows, h1, h2, h3]
    simp [this]
  · rw [not_skip h, not_skip (us := us ++ vs)]
    obtain ⟨⟨u, hu, t, ht, h1⟩, v, hv, s, hs, h2⟩ := h
    exact ⟨⟨u, List.mem_append_left _ hu, t, ht, h1⟩, v, List.mem_append_left _ hv, s, hs, h2⟩

/-- The point with the added assets at rest. -/
def rest (w : WNet F) (m : More F) (x : WVar → F) (v : WVar) : F :=
  if m.has v then 0 else if v = .const then Objective.constant (objNet (withMore w m)) else x v

omit [LinearOrder F] in
theorem has_of {m : More F} (c a : Name) (v : Loc) : m.has (.of c a v) =
    ((c == "Generator" && (m.gens.map (·.name)).contains a) || (c == "Link" && (m.links.map (·.name)).contains a) ||
    (c == "Store" && (m.stores.map (·.name)).contains a) || (c == "StorageUnit" && (m.units.map (·.name)).contains a) ||
    (c == "Line" && (m.lines.map (·.name)).contains a) || (c == "Transformer" && (m.trafos.map (·.name)).contains a)) := rfl

/-- Variables of the old assets keep their values. -/
structure Keeps (w : WNet F) (m : More F) (x : WVar → F) : Prop where
  gens : ∀ g ∈ w.gens, ∀ v, rest w m x (.of "Generator" g.name v) = x (.of "Generator" g.name v)
  links : ∀ g ∈ w.links, ∀ v, rest w m x (.of "Link" g.name v) = x (.of "Link" g.name v)
  stores : ∀ g ∈ w.stores, ∀ v, rest w m x (.of "Store" g.name v) = x (.of "Store" g.name v)
  units : ∀ g ∈ w.units, ∀ v, rest w m x (.of "StorageUnit" g.name v) = x (.of "StorageUnit" g.name v)
  lines : ∀ g ∈ w.lines, ∀ v, rest w m x (.of "Line" g.name v) = x (.of "Line" g.name v)
  trafos : ∀ g ∈ w.trafos, ∀ v, rest w m x (.of "Transformer" g.name v) = x (.of "Transformer" g.name v)

structure Rests (w : WNet F) (m : More F) (x : WVar → F) : Prop where
  gens : ∀ g ∈ m.gens, ∀ v, rest w m x (.of "Generator" g.name v) = 0
  links : ∀ g ∈ m.links, ∀ v, rest w m x (.of "Link" g.name v) = 0
  stores : ∀ g ∈ m.stores, ∀ v, rest w m x (.of "Store" g.name v) = 0
  units : ∀ g ∈ m.units, ∀ v, rest w m x (.of "StorageUnit" g.name v) = 0
  lines : ∀ g ∈ m.lines, ∀ v, rest w m x (.of "Line" g.name v) = 0
  trafos : ∀ g ∈ m.trafos, ∀ v, rest w m x (.of "Transformer" g.name v) = 0

omit [Field F] [LinearOrder F] in
theorem fresh_name {α : Type} {name : α → Name} {l k : List α} (h : ((l ++ k).map name).Nodup) {g : α} (hg : g ∈ l) :
    (k.map name).contains (name g) = false := by
  rw [List.map_append, List.nodup_append] at h
  rw [← Bool.not_eq_true, List.contains_iff_mem]
  intro hc
  exact h.2.2 (name g) (List.mem_map_of_mem hg) (name g) hc rfl

theorem keeps {w : WNet F} {m : More F} (hw : Sound (withMore w m)) (x : WVar → F) : Keeps w m x := by
  refine ⟨?_, ?_, ?_, ?_, ?_, ?_⟩ <;> intro g hg v <;> unfold rest <;> rw [has_of]
  · rw [fresh_name hw.gens hg]; simp
  · rw [fresh_name hw.links hg]; simp
  · rw [fresh_name hw.stores hg]; simp
  · rw [fresh_name hw.units hg]; simp
  · rw [fresh_name hw.lines hg]; simp
  · rw [fresh_name hw.trafos hg]; simp

theorem rests (w : WNet F) (m : More F) (x : WVar → F) : Rests w m x := by
  refine ⟨?_, ?_, ?_, ?_, ?_, ?_⟩ <;> intro g hg v <;> unfold rest <;> rw [has_of, if_pos]
  all_goals
    have := List.mem_map_of_mem (f := fun g => g.name) hg
    simp [List.contains_iff_mem]
    exact ⟨g, hg, rfl⟩

theorem genRows_more {w : WNet F} {m : More F} (h : RampsStay (w.gens.map (·.unit)) w.len) {g : GenW F} (hg : g ∈ w.gens) :
    genRows (withMore w m) g = genRows w g := by
  unfold genRows
  have : ((withMore w m).gens.map (·.unit)) = w.gens.map (·.unit) ++ m.gens.map (·.unit) := by simp [withMore]
  rw [this]
  change Option.map (fun cap => cap ++ (unitCons (w.gens.map (·.unit) ++ m.gens.map (·.unit)) g.unit w.len w.rolling w.linearized).map _ ++ _ ++ _ ++ _) _ = _
  rw [unitCons_more h (List.mem_map_of_mem hg)]
  rfl

theorem linkRows_more {w : WNet F} {m : More F} (h : RampsStay (w.links.map (·.unit)) w.len) {g : LinkW F} (hg : g ∈ w.links) :
    linkRows (withMore w m) g = linkRows w g := by
  unfold linkRows
  have : ((withMore w m).links.map (·.unit)) = w.links.map (·.unit) ++ m.links.map (·.unit) := by simp [withMore]
  rw [this]
  change Option.map (fun cap => cap ++ (unitCons (w.links.map (·.unit) ++ m.links.map (·.unit)) g.unit w.len w.rolling w.linearized).map _ ++ _ ++ _) _ = _
  rw [unitCons_more h (List.mem_map_of_mem hg)]
  rfl

theorem holds_congr {x y : Loc → F} (h : ∀ v, x v = y v) (q : Con Loc F) (hq : q.holds x) : q.holds y := by
  rw [← funext h]; exact hq

theorem assets_more [IsStrictOrderedRing F] {w : WNet F} {m : More F} (hw : Sound (withMore w m)) (hi : m.Idle w)
    (hg : RampsStay (w.gens.map (·.unit)) w.len) (hk : RampsStay (w.links.map (·.unit)) w.len) {x : WVar → F}
    (hx : AssetsHold w x) : AssetsHold (withMore w m) (rest w m x) := by
  have hkeep := keeps hw x
  have hrest := rests w m x
  refine ⟨?_, ?_, ?_, ?_, ?_, ?_⟩ <;> intro g hgm rs hrs q hq <;> rcases List.mem_append.mp hgm with hm | hm
  · rw [genRows_more hg hm] at hrs
    exact holds_congr (fun v => (hkeep.gens g hm v).symm) q (hx.gens g hm rs hrs q hq)
  · exact holds_congr (fun v => (hrest.gens g hm v).symm) q (gen_still hrs ⟨(hi.gens g hm).1, (hi.gens g hm).2,
      (hi.gens g hm).3, (hi.gens g hm).4, (hi.gens g hm).5, (hi.gens g hm).6⟩ q hq)
  · rw [linkRows_more hk hm] at hrs
    exact holds_congr (fun v => (hkeep.links g hm v).symm) q (hx.links g hm rs hrs q hq)
  · exact holds_congr (fun v => (hrest.links g hm v).symm) q (link_still hrs ⟨(hi.links g hm).1, (hi.links g hm).2,
      (hi.links g hm).3, (hi.links g hm).4⟩ q hq)
  · exact holds_congr (fun v => (hkeep.stores g hm v).symm) q (hx.stores g hm rs hrs q hq)
  · exact holds_congr (fun v => (hrest.stores g hm v).symm) q (store_still hrs ⟨(hi.stores g hm).1, (hi.stores g hm).2,
      (hi.stores g hm).3, (hi.stores g hm).4, (hi.stores g hm).5⟩ q hq)
  · exact holds_congr (fun v => (hkeep.units g hm v).symm) q (hx.units g hm rs hrs q hq)
  · exact holds_congr (fun v => (hrest.units g hm v).symm) q (unit_rows_still hrs ⟨(hi.units g hm).1, (hi.units g hm).2,
      (hi.units g hm).3, (hi.units g hm).4, (hi.units g hm).5, (hi.units g hm).6, (hi.units g hm).7⟩ q hq)
  · exact holds_congr (fun v => (hkeep.lines g hm v).symm) q (hx.lines g hm rs hrs q hq)
  · exact holds_congr (fun v => (hrest.lines g hm v).symm) q (branch_still (Or.inl rfl) hrs ⟨(hi.lines g hm).1, (hi.lines g hm).2,
      (hi.lines g hm).3, (hi.lines g hm).4⟩ q hq)
  · exact holds_congr (fun v => (hkeep.trafos g hm v).symm) q (hx.trafos g hm rs hrs q hq)
  · exact holds_congr (fun v => (hrest.trafos g hm v).symm) q (branch_still (Or.inr rfl) hrs ⟨(hi.trafos g hm).1, (hi.trafos g hm).2,
      (hi.trafos g hm).3, (hi.trafos g hm).4⟩ q hq)

theorem sum_more {α : Type} (l k : List α) (f f' : α → F) (h1 : ∀ a ∈ l, f' a = f a) (h2 : ∀ a ∈ k, f' a = 0) :
    ((l ++ k).map f').sum = (l.map f).sum := by
  rw [List.map_append, List.sum_append, List.map_congr_left h1, sum_zero k f' h2, add_zero]

theorem balance_more {w : WNet F} {m : More F} (hw : Sound (withMore w m)) {x : WVar → F} (hx : Balance w x) :
    Balance (withMore w m) (rest w m x) := by
  have hk := keeps hw x
  have hr := rests w m x
  intro t ht b hb
  have := hx t ht b hb
  have hd : Nodal.demanded (nodal (withMore w m) t) b = Nodal.demanded (nodal w t) b := rfl
  rw [hd, ← this]
  unfold Nodal.supplied nodal
  simp only [List.map_map, withMore, Function.comp_def, nodalVar]
  rw [sum_more w.gens m.gens (fun g => Nodal.contrib b g.bus (g.unit.active t) (g.sign * x (.of "Generator" g.name (.op "p" t)))),
    sum_more w.stores m.stores (fun g => Nodal.contrib b g.bus (g.storage.active t) (g.sign * x (.of "Store" g.name (.op "p" t)))),
    sum_more w.units m.units (fun g => Nodal.contrib b g.bus (g.storage.active t) (g.sign *
      (x (.of "StorageUnit" g.name (.op "p_dispatch" t)) - x (.of "StorageUnit" g.name (.op "p_store" t))))),
    sum_more w.lines m.lines (fun g => Nodal.contrib b g.bus0 (g.active t) (- x (.of "Line" g.name (.op "s" t)) -
        if w.tangents != 0 then x (.of "Line" g.name (.op "loss" t)) / 2 else 0) +
      Nodal.contrib b g.bus1 (g.active t) (x (.of "Line" g.name (.op "s" t)) -
        if w.tangents != 0 then x (.of "Line" g.name (.op "loss" t)) / 2 else 0)),
    sum_more w.trafos m.trafos (fun g => Nodal.contrib b g.bus0 (g.active t) (- x (.of "Transformer" g.name (.op "s" t)) -
        if w.tangents != 0 then x (.of "Transformer" g.name (.op "loss" t)) / 2 else 0) +
      Nodal.contrib b g.bus1 (g.active t) (x (.of "Transformer" g.name (.op "s" t)) -
        if w.tangents != 0 then x (.of "Transformer" g.name (.op "loss" t)) / 2 else 0)),
    sum_more w.links m.links (fun g => Nodal.contrib b g.bus0 (g.unit.active t) (- x (.of "Link" g.name (.op "p" t))) +
      Nodal.contrib b g.bus1 (g.unit.active t) (g.eff t * x (.of "Link" g.name (.op "p" t))) +
      (g.extra.map (fun e => Nodal.contrib b e.1 (g.unit.active t) (e.2 t * x (.of "Link" g.name (.op "p" t))))).sum)]
  all_goals first
    | (intro g hg
       simp only [hk.gens g hg]; done)
    | (intro g hg
       simp only [hk.stores g hg]; done)
    | (intro g hg
       simp only [hk.units g hg]; done)
    | (intro g hg
       simp only [hk.lines g hg]; done)
    | (intro g hg
       simp only [hk.trafos g hg]; done)
    | (intro g hg
       simp only [hk.links g hg]; done)
    | (intro g hg
       simp [hr.gens g hg, contrib_zero]; done)
    | (intro g hg
       simp [hr.stores g hg, contrib_zero]; done)
    | (intro g hg
       simp [hr.units g hg, contrib_zero]; done)
    | (intro g hg
       simp [hr.lines g hg, contrib_zero]; done)
    | (intro g hg
       simp [hr.trafos g hg, contrib_zero]; done)
    | (intro g hg
       simp [hr.links g hg, contrib_zero]; done)

theorem cost_more {w : WNet F} {m : More F} (hw : Sound (withMore w m)) (x : WVar → F) :
    totalCost (withMore w m) (rest w m x) = totalCost w x := by
  have hk := keeps hw x
  have hr := rests w m x
  unfold totalCost
  have h1 := sum_more w.gens m.gens (fun g => genCost w g x) (fun g => genCost (withMore w m) g (rest w m x))
    (fun g hg => by simp only [genCost, hk.gens g hg]; rfl) (fun g hg => by simp [genCost, hr.gens g hg])
  have h2 := sum_more w.links m.links (fun g => linkCost w g x) (fun g => linkCost (withMore w m) g (rest w m x))
    (fun g hg => by simp only [linkCost, hk.links g hg]; rfl) (fun g hg => by simp [linkCost, hr.links g hg])
  have h3 := sum_more w.stores m.stores (fun g => storeCost w g x) (fun g => storeCost (withMore w m) g (rest w m x))
    (fun g hg => by simp only [storeCost, hk.stores g hg]; rfl) (fun g hg => by simp [storeCost, hr.stores g hg])
  have h4 := sum_more w.units m.units (fun g => unitCost w g x) (fun g => unitCost (withMore w m) g (rest w m x))
    (fun g hg => by simp only [unitCost, hk.units g hg]; rfl) (fun g hg => by simp [unitCost, hr.units g hg])
  have h5 := sum_more w.lines m.lines (fun g => branchCost w "Line" g x) (fun g => branchCost (withMore w m) "Line" g (rest w m x))
    (fun g hg => by simp only [branchCost, hk.lines g hg]; rfl) (fun g hg => by simp [branchCost, hr.lines g hg])
  have h6 := sum_more w.trafos m.trafos (fun g => branchCost w "Transformer" g x)
    (fun g => branchCost (withMore w m) "Transformer" g (rest w m x))
    (fun g hg => by simp only [branchCost, hk.trafos g hg]; rfl) (fun g hg => by simp [branchCost, hr.trafos g hg])
  exact congr (congrArg _ (congr (congrArg _ (congr (congrArg _ (congr (congrArg _ (congr (congrArg _ h1) h2)) h3)) h4)) h5)) h6

/-- Further rows of the extended network are those of the old one, possibly with terms of the added assets. -/
def OtherMore (m : More F) (other other' : List (Con WVar F)) : Prop :=
  ∀ r ∈ other', (∀ e ∈ r.terms, e.2 ≠ .const) ∧ ⟨r.terms.filter (fun e => !m.has e.2), r.sense, r.rhs⟩ ∈ other

theorem other_more {w : WNet F} {m : More F} {other other' : List (Con WVar F)} (ho : OtherMore m other other') {x : WVar → F}
    (hx : Feasible x other) : Feasible (rest w m x) other' := by
  intro r hr
  obtain ⟨hc, hm⟩ := ho r hr
  have h := hx _ hm
  have e : lin (rest w m x) r.terms = lin x (r.terms.filter (fun e => !m.has e.2)) := by
    clear h hm
    generalize r.terms = ts at hc
    induction ts with
    | nil => rfl
    | cons a ts ih =>
      have := ih (fun e he => hc e (List.mem_cons_of_mem _ he))
      have hca := hc a List.mem_cons_self
      cases hh : m.has a.2 with
      | true => simp [hh, this, rest]
      | false => simp [hh, this, rest, hca]
  unfold Con.holds at h ⊢
  simp only at h
  rw [e]
  exact h

theorem sound_less {w : WNet F} {m : More F} (h : Sound (withMore w m)) : Sound w where
  noEmpty := h.noEmpty
  buses := h.buses
  genBus := fun g hg => h.genBus g (List.mem_append_left _ hg)
  storeBus := fun g hg => h.storeBus g (List.mem_append_left _ hg)
  unitBus := fun g hg => h.unitBus g (List.mem_append_left _ hg)
  loadBus := h.loadBus
  lineBus := fun g hg => h.lineBus g (List.mem_append_left _ hg)
  trafoBus := fun g hg => h.trafoBus g (List.mem_append_left _ hg)
  linkBus := fun g hg => h.linkBus g (List.mem_append_left _ hg)
  gens := (List.Sublist.map _ (List.sublist_append_left _ _)).nodup h.gens
  links := (List.Sublist.map _ (List.sublist_append_left _ _)).nodup h.links
  stores := (List.Sublist.map _ (List.sublist_append_left _ _)).nodup h.stores
  units := (List.Sublist.map _ (List.sublist_append_left _ _)).nodup h.units
  lines := (List.Sublist.map _ (List.sublist_append_left _ _)).nodup h.lines
  trafos := (List.Sublist.map _ (List.sublist_append_left _ _)).nodup h.trafos

theorem linear_less {w : WNet F} {m : More F} (h : LinearCosts (withMore w m)) : LinearCosts w where
  gens := fun g hg => h.gens g (List.mem_append_left _ hg)
  links := fun g hg => h.links g (List.mem_append_left _ hg)
  stores := fun g hg => h.stores g (List.mem_append_left _ hg)
  units := fun g hg => h.units g (List.mem_append_left _ hg)
  genEvents := fun g hg => h.genEvents g (List.mem_append_left _ hg)
  linkEvents := fun g hg => h.linkEvents g (List.mem_append_left _ hg)

/-- C114: let a network be extended by generators, links, stores, storage units, lines and transformers that may stand still
(and need not be built).  Whatever was feasible stays feasible with the added assets at rest, at the same costs.  Missing:
rows that apply to a class as a whole.  If all ramp limits of a class are 1 they are left out, and come back with the first
unit that has another limit, see `spare_link_infeasible`. -/
theorem more_options_partial [IsStrictOrderedRing F] {w : WNet F} {m : More F} (hw : Sound (withMore w m))
    (hl : LinearCosts (withMore w m)) (hi : m.Idle w)
    (hg : RampsStay (w.gens.map (·.unit)) w.len) (hk : RampsStay (w.links.map (·.unit)) w.len)
    {other other' : List (Con WVar F)} (ho : OtherMore m other other') {P P' : Program F}
    (hP : createModel w other = some P) (hP' : createModel (withMore w m) other' = some P')
    (x : WVar → F) (hx : FeasibleIn P x) :
    ∃ y, FeasibleIn P' y ∧ costOf (withMore w m) P' y = costOf w P x ∧
      ∀ v, v ≠ .const → y v = if m.has v then 0 else x v := by
  obtain ⟨h1, h2, h3, h4⟩ := (feasible_iff (sound_less hw) hP x).mp hx
  have hy : FeasibleIn P' (rest w m x) :=
    (feasible_iff hw hP' _).mpr ⟨assets_more hw hi hg hk h1, balance_more hw h2, by simp [rest, More.has], other_more ho h4⟩
  refine ⟨rest w m x, hy, ?_, ?_⟩
  · rw [cost_total hl hP' _ hy, cost_total (linear_less hl) hP x hx, cost_more hw]
  · intro v hv
    simp [rest, hv]

/-- No feasible point costs less. -/
def Cheapest (w : WNet F) (P : Program F) (x : WVar → F) : Prop :=
  FeasibleIn P x ∧ ∀ z, FeasibleIn P z → costOf w P x ≤ costOf w P z

/-- So the optimum with more options is at most the old one. -/
theorem optimum_not_worse_partial [IsStrictOrderedRing F] {w : WNet F} {m : More F} (hw : Sound (withMore w m))
    (hl : LinearCosts (withMore w m)) (hi : m.Idle w)
    (hg : RampsStay (w.gens.map (·.unit)) w.len) (hk : RampsStay (w.links.map (·.unit)) w.len)
    {other other' : List (Con WVar F)} (ho : OtherMore m other other') {P P' : Program F}
    (hP : createModel w other = some P) (hP' : createModel (withMore w m) other' = some P')
    (x y : WVar → F) (hx : FeasibleIn P x) (hy : Cheapest (withMore w m) P' y) : costOf (withMore w m) P' y ≤ costOf w P x := by
  obtain ⟨z, hz, hc, -⟩ := more_options_partial hw hl hi hg hk ho hP hP' x hx
  rw [← hc]
  exact hy.2 z hz

/-! ## Examples -/

/-- One more asset of every class. -/
def exAdded : More ℚ where
  gens := [⟨"solar", "C", 1, exUnit' true 1, exInvest 4, exCosts (1 / 2) 0, fun _ => none, none, some 40⟩]
  links := [⟨"boiler", "D", "B", fun _ => 9 / 10, [], exUnit' false 5, exInvest 3, exCosts 1 0, fun _ => none⟩]
  stores := [⟨"cavern", "A", 1, exStorage, true, 0, fun _ => 0, fun _ => 1, exInvest 2, exCosts 0 0, fun _ => none⟩]
  units := [⟨"dam", "C", 1, ⟨exStorage, fun _ => 1 / 2, fun _ => 1, fun _ => 0⟩, false, 7, fun _ => -1,
    fun _ => 1, 3, exInvest 1, exCosts 2 0, fun _ => none⟩]
  lines := [⟨"line2", "A", "D", fun _ => true, true, 0, fun _ => 1, 0, exInvest 9, fun _ => none⟩]
  trafos := [⟨"trafo2", "C", "D", fun _ => true, false, 3, fun _ => 1, 0, exInvest 1, fun _ => none⟩]

/-- The limit on emissions also counts the solar generator. -/
def exOther' : List (Con WVar ℚ) :=
  [⟨[(2, .of "Generator" "peaker" (.op "p" 0)), (1, .of "Generator" "peaker" (.op "p" 1)),
     (3, .of "Generator" "solar" (.op "p" 0))], .le, 6⟩]

theorem exAdded_some : (createModel (withMore exNet exAdded) exOther').isSome = true := by decide +kernel

example : ∃ P', createModel (withMore exNet exAdded) exOther' = some P' ∧ ∃ y, FeasibleIn P' y ∧
    costOf (withMore exNet exAdded) P' y = costOf exNet exModel exVal ∧ y (.of "Generator" "solar" (.op "p" 1)) = 0 ∧
    y (.of "Generator" "wind" .cap) = 104 / 5 := by
  refine ⟨(createModel (withMore exNet exAdded) exOther').get exAdded_some, (Option.some_get exAdded_some).symm, ?_⟩
  obtain ⟨y, h1, h2, h3⟩ := more_options_partial (w := exNet) (m := exAdded) (other := exOther) (other' := exOther')
    (by constructor <;> decide +kernel)
    (by
      constructor
      · intro g hg t; simp [exNet, withMore, exAdded] at hg; rcases hg with rfl | rfl | rfl <;> rfl
      · intro g hg t; simp [exNet, withMore, exAdded] at hg; rcases hg with rfl | rfl <;> rfl
      · intro g hg t; simp [exNet, withMore, exAdded] at hg; rcases hg with rfl | rfl <;> rfl
      · intro g hg t; simp [exNet, withMore, exAdded] at hg; rcases hg with rfl | rfl <;> rfl
      · decide +kernel
      · decide +kernel)
    (by
      constructor <;> intro g hg <;> simp only [exAdded, List.mem_singleton] at hg <;> subst hg
      · exact ⟨by constructor <;> simp [exUnit'], rfl, by constructor <;> simp [exInvest], by simp, by simp, by simp⟩
      · refine ⟨?_, rfl, by constructor <;> simp [exInvest], by simp⟩
        constructor <;> simp [exUnit']
        intro t ht; split <;> norm_num
      · exact ⟨by simp, by simp, by simp [exStorage], by constructor <;> simp [exInvest], by simp⟩
      · exact ⟨by simp, by simp, by simp, by simp [exStorage], by simp, by constructor <;> simp [exInvest], by simp⟩
      · exact ⟨rfl, by simp, by constructor <;> simp [exInvest], by simp⟩
      · exact ⟨rfl, by simp, by constructor <;> simp [exInvest], by simp⟩)
    (Or.inl (by simp [exNet, exGen, exPeaker, exUnit'])) (Or.inl (by simp [exNet, exLink, exUnit']))
    (by unfold OtherMore; decide +kernel) exModel_eq (Option.some_get exAdded_some).symm exVal
    ⟨by decide +kernel, by decide +kernel⟩
  refine ⟨y, h1, h2, ?_, ?_⟩
  · rw [h3 _ (by simp)]; decide +kernel
  · rw [h3 _ (by simp)]; decide +kernel

/-- Two regions that help each other out through a link with ramp limits of 1: `link` swings from full import to full export. -/
def swingUnit (nom : ℚ) (lo hi : Nat → ℚ) (ramp : Option ℚ) : Unit' ℚ :=
  { exUnit' false nom with minPu := lo, maxPu := hi, rampUp := fun _ => ramp, rampDown := fun _ => ramp, rampUpStatic := ramp,
                           rampDownStatic := ramp }

def swing : WNet ℚ :=
  { exNet with
    buses := ["A", "B"]
    gens := [⟨"a", "A", 1, swingUnit 10 (fun _ => 0) (fun t => if t = 0 then 1 else 0) none, exInvest 0, exCosts 1 0,
        fun _ => none, none, none⟩,
      ⟨"b", "B", 1, swingUnit 10 (fun _ => 0) (fun t => if t = 0 then 0 else 1) none, exInvest 0, exCosts 1 0,
        fun _ => none, none, none⟩]
    links := [⟨"link", "A", "B", fun _ => 1, [], swingUnit 10 (fun _ => -1) (fun _ => 1) (some 1), exInvest 0, exCosts 0 0,
      fun _ => none⟩]
    stores := [], units := [], lines := [], trafos := []
    loads := [⟨"B", -1, fun t => if t = 0 then 10 else 0, fun _ => true⟩, ⟨"A", -1, fun t => if t = 0 then 0 else 10, fun _ => true⟩] }

/-- A link of no capacity and without ramp limits. -/
def spare : More ℚ :=
  ⟨[], [⟨"spare", "A", "B", fun _ => 1, [], swingUnit 0 (fun _ => 0) (fun _ => 1) none, exInvest 0, exCosts 0 0, fun _ => none⟩],
    [], [], [], []⟩

def swingVal : WVar → ℚ
  | .of "Generator" "a" (.op "p" 0) => 10
  | .of "Generator" "b" (.op "p" 1) => 10
  | .of "Link" "link" (.op "p" 0) => 10
  | .of "Link" "link" (.op "p" 1) => -10
  | _ => 0

theorem swing_some : (createModel swing []).isSome = true := by decide +kernel
theorem spare_some : (createModel (withMore swing spare) []).isSome = true := by decide +kernel

/-- The network can be run, but not any more once the spare link has been added, though it may stand still: with the first
link without limits the ramp limits of the other link count. -/
theorem spare_link_infeasible : spare.Idle swing ∧ FeasibleIn ((createModel swing []).get swing_some) swingVal ∧
    ∀ y, ¬ FeasibleIn ((createModel (withMore swing spare) []).get spare_some) y := by
  refine ⟨?_, ⟨by decide +kernel, by decide +kernel⟩, ?_⟩
  · constructor <;> intro g hg <;> simp only [spare, List.mem_singleton, List.not_mem_nil] at hg
    subst hg
    exact ⟨by constructor <;> simp [swingUnit, exUnit'], rfl, by constructor <;> simp [exInvest], by simp⟩
  · rintro y ⟨hr, hb⟩
    have b0 := hb ⟨[(1, .of "Generator" "b" (.op "p" 0)), (1, .of "Link" "link" (.op "p" 0)), (1, .of "Link" "spare" (.op "p" 0))],
      .eq, 10⟩ (by decide +kernel)
    have a1 := hb ⟨[(1, .of "Generator" "a" (.op "p" 1)), (-1, .of "Link" "link" (.op "p" 1)), (-1, .of "Link" "spare" (.op "p" 1))],
      .eq, 10⟩ (by decide +kernel)
    have ga := hr ⟨[(1, .of "Generator" "a" (.op "p" 1))], .le, 0⟩ (by decide +kernel)
    have gb := hr ⟨[(1, .of "Generator" "b" (.op "p" 0))], .le, 0⟩ (by decide +kernel)
    have s0 := hr ⟨[(1, .of "Link" "spare" (.op "p" 0))], .le, 0⟩ (by decide +kernel)
    have s1 := hr ⟨[(1, .of "Link" "spare" (.op "p" 1))], .ge, 0⟩ (by decide +kernel)
    have r := hr ⟨[(1, .of "Link" "link" (.op "p" 1)), (-1, .of "Link" "link" (.op "p" 0))], .ge, -10⟩ (by decide +kernel)
    simp [Con.holds, lin] at b0 a1 ga gb s0 s1 r
    linarith

end Verif.Opt.Whole
