import Verif.Opt.RulesProps
import Mathlib.Tactic.LinearCombination

/-!
# C137: an asset and its shares

About the whole problem of `Whole.lean`, with the rules of C126.  Generators, links, stores and storage units without commitment, modules and quadratic
costs are split into shares: capacities, set points, inflows, initial levels and sums are divided, all else is the same.
-/

namespace Verif.Opt.Whole.Shares

open Doc

variable {F : Type} [Field F] [LinearOrder F]

/-! ## Shares -/

/-- A share: how much of the asset, and under which name. -/
structure Share (F : Type) where
  part : F
  rename : Name → Name

def shareInvest (k : F) (i : Invest F) : Invest F :=
  { i with nomMin := k * i.nomMin, nomMax := i.nomMax.map (k * ·), nomSet := i.nomSet.map (k * ·) }

def shareSet (k : F) (set : Nat → Option F) : Nat → Option F := fun t => (set t).map (k * ·)

def shareUnit (k : F) (u : Unit' F) : Unit' F := { u with nom := k * u.nom, histP := k * u.histP }

def shareGen (s : Share F) (g : GenW F) : GenW F :=
  { g with name := s.rename g.name, unit := shareUnit s.part g.unit, invest := shareInvest s.part g.invest, pSet := shareSet s.part g.pSet,
           eSumMin := g.eSumMin.map (s.part * ·), eSumMax := g.eSumMax.map (s.part * ·) }

def shareLink (s : Share F) (g : LinkW F) : LinkW F :=
  { g with name := s.rename g.name, unit := shareUnit s.part g.unit, invest := shareInvest s.part g.invest, pSet := shareSet s.part g.pSet }

def shareStore (s : Share F) (g : StoreW F) : StoreW F :=
  { g with name := s.rename g.name, storage := { g.storage with initial := s.part * g.storage.initial }, nom := s.part * g.nom,
           invest := shareInvest s.part g.invest, eSet := shareSet s.part g.eSet }

def shareSunit (s : Share F) (g : UnitW F) : UnitW F :=
  { g with name := s.rename g.name,
           storage := { g.storage with initial := s.part * g.storage.initial, inflow := fun t => s.part * g.storage.inflow t },
           nom := s.part * g.nom, invest := shareInvest s.part g.invest, socSet := shareSet s.part g.socSet }

/-- All shares of all these assets. -/
def shares (ss : List (Share F)) (m : More F) : More F where
  gens := ss.flatMap (fun s => m.gens.map (shareGen s))
  links := ss.flatMap (fun s => m.links.map (shareLink s))
  stores := ss.flatMap (fun s => m.stores.map (shareStore s))
  units := ss.flatMap (fun s => m.units.map (shareSunit s))
  lines := []
  trafos := []

/-- Assets that can be divided. -/
structure Divisible (m : More F) : Prop where
  gens : ∀ g ∈ m.gens, g.unit.committable = false ∧ (g.unit.extendable = true → g.invest.nomMod ≤ 0)
  links : ∀ g ∈ m.links, g.unit.committable = false ∧ (g.unit.extendable = true → g.invest.nomMod ≤ 0)
  stores : ∀ g ∈ m.stores, g.ext = true → g.invest.nomMod ≤ 0
  units : ∀ g ∈ m.units, g.ext = true → g.invest.nomMod ≤ 0
  lines : m.lines = []
  trafos : m.trafos = []

/-- The shares make up the whole. -/
structure MakeUp (ss : List (Share F)) : Prop where
  pos : ∀ s ∈ ss, 0 < s.part
  sum : (ss.map (·.part)).sum = 1

/-- Names of the assets of a class. -/
def names (m : More F) (c : Name) : List Name :=
  if c = "Generator" then m.gens.map (·.name) else if c = "Link" then m.links.map (·.name) else if c = "Store" then m.stores.map (·.name)
  else if c = "StorageUnit" then m.units.map (·.name) else []

/-- The whole does what its shares do together. -/
def whole (m : More F) (ss : List (Share F)) (y : WVar → F) : WVar → F
  | .of c a v => if a ∈ names m c then (ss.map (fun s => y (.of c (s.rename a) v))).sum else y (.of c a v)
  | .const => y .const

/-- Each share does its part of what the whole does. -/
def shared (m : More F) (ss : List (Share F)) (x : WVar → F) : WVar → F
  | .of c a v => match (ss.flatMap (fun s => (names m c).map (fun b => (s.rename b, s.part, b)))).find? (fun e => e.1 = a) with
    | some e => e.2.1 * x (.of c e.2.2 v)
    | none => x (.of c a v)
  | .const => x .const

/-- Rows of the problem with the shares: in place of a variable of the whole stands the sum over the shares. -/
def spreadTerm (m : More F) (ss : List (Share F)) (e : F × WVar) : List (F × WVar) :=
  match e.2 with
  | .of c a v => if a ∈ names m c then ss.map (fun s => (e.1, .of c (s.rename a) v)) else [e]
  | .const => [e]

def spread (m : More F) (ss : List (Share F)) (r : Con WVar F) : Con WVar F := { r with terms := r.terms.flatMap (spreadTerm m ss) }

/-! ## Rules -/

section rules

variable [IsStrictOrderedRing F]

theorem cap_scale {ext : Bool} {i : Invest F} {cap mods k : F} (hk : 0 < k) (hm : ext = true → i.nomMod ≤ 0) (h : CapRule ext i cap mods) (mods' : F) :
    CapRule ext (shareInvest k i) (k * cap) mods' := by
  refine ⟨fun e => mul_le_mul_of_nonneg_left (h.least e) hk.le, ?_, ?_, fun e hp => absurd hp (not_lt.mpr (hm e))⟩
  · intro e u hu
    simp only [shareInvest, Option.map_eq_some_iff] at hu
    obtain ⟨a, ha, rfl⟩ := hu
    exact mul_le_mul_of_nonneg_left (h.most e a ha) hk.le
  · intro e u hu
    simp only [shareInvest, Option.map_eq_some_iff] at hu
    obtain ⟨a, ha, rfl⟩ := hu
    rw [h.set e a ha]

theorem cap_add {ext : Bool} {i : Invest F} {c1 c2 m1 m2 a b : F} (hm : ext = true → i.nomMod ≤ 0) (h1 : CapRule ext (shareInvest a i) c1 m1)
    (h2 : CapRule ext (shareInvest b i) c2 m2) (m3 : F) : CapRule ext (shareInvest (a + b) i) (c1 + c2) m3 := by
  refine ⟨?_, ?_, ?_, fun e hp => absurd hp (not_lt.mpr (hm e))⟩
  · intro e
    have e1 := h1.least e
    have e2 := h2.least e
    simp only [shareInvest] at e1 e2 ⊢
    linarith
  · intro e u hu
    simp only [shareInvest, Option.map_eq_some_iff] at hu
    obtain ⟨q, hq, rfl⟩ := hu
    have e1 := h1.most e (a * q) (by simp [shareInvest, hq])
    have e2 := h2.most e (b * q) (by simp [shareInvest, hq])
    linarith
  · intro e u hu
    simp only [shareInvest, Option.map_eq_some_iff] at hu
    obtain ⟨q, hq, rfl⟩ := hu
    rw [h1.set e (a * q) (by simp [shareInvest, hq]), h2.set e (b * q) (by simp [shareInvest, hq])]
    ring

theorem set_scale {n : Nat} {active : Nat → Bool} {set : Nat → Option F} {x : Nat → F} (k : F) (h : SetRule n active set x) :
    SetRule n active (shareSet k set) (fun t => k * x t) := by
  intro t ht ha s hs
  simp only [shareSet, Option.map_eq_some_iff] at hs
  obtain ⟨q, hq, rfl⟩ := hs
  show k * x t = k * q
  rw [h t ht ha q hq]

theorem set_add {n : Nat} {active : Nat → Bool} {set : Nat → Option F} {x y : Nat → F} {a b : F} (h1 : SetRule n active (shareSet a set) x)
    (h2 : SetRule n active (shareSet b set) y) : SetRule n active (shareSet (a + b) set) (fun t => x t + y t) := by
  intro t ht ha s hs
  simp only [shareSet, Option.map_eq_some_iff] at hs
  obtain ⟨q, hq, rfl⟩ := hs
  show x t + y t = (a + b) * q
  rw [h1 t ht ha (a * q) (by simp [shareSet, hq]), h2 t ht ha (b * q) (by simp [shareSet, hq])]
  ring

theorem past_ramp {r : Bool} {u : Unit' F} {q s : F} : (pastOf r u).ramp = some (q, s) ↔ r = true ∧ q = u.histP ∧ s = u.histStatus.getLastD 0 := by
  unfold pastOf
  cases r <;> simp [eq_comm]

theorem unit_scale {u : Unit' F} {r : Bool} {linear ramps : Prop} {n : Nat} {p st up dn : Nat → F} {cap k : F} (hc : u.committable = false) (hk : 0 < k)
    (h : UnitRule u (pastOf r u) linear ramps n p st up dn cap) (st' up' dn' : Nat → F) :
    UnitRule (shareUnit k u) (pastOf r (shareUnit k u)) linear ramps n (fun t => k * p t) st' up' dn' (k * cap) := by
  have hc' : (shareUnit k u).committable = false := hc
  have mul : ∀ {a b : F}, a ≤ b → k * a ≤ k * b := fun h => mul_le_mul_of_nonneg_left h hk.le
  have hin : ∀ t, inService u.active (fun t => k * p t) t = k * inService u.active p t := by
    intro t; unfold inService; split <;> simp
  refine ⟨?_, ?_, ?_, ?_, ?_, ?_, ?_, ?_, ?_, ?_, ?_, ?_, ?_, ?_, ?_, ?_, ?_⟩
  case refine_3 | refine_4 | refine_5 | refine_6 | refine_7 | refine_8 | refine_9 | refine_10 => intro e; rw [hc'] at e; cases e
  case refine_13 | refine_14 | refine_17 => intro _ e; rw [hc'] at e; cases e
  · intro e1 e2 t ht ha
    obtain ⟨h1, h2⟩ := h.fixed e1 e2 t ht ha
    have := mul h1
    have := mul h2
    simp only [shareUnit]
    constructor <;> linarith
  · intro e t ht ha
    obtain ⟨h1, h2⟩ := h.extendable e t ht ha
    have := mul h1
    have := mul h2
    simp only [shareUnit]
    constructor <;> linarith
  · intro hr t ht ha q hq
    obtain ⟨h1, h2⟩ := h.rampUp hr t ht ha q hq
    have hin := hin t
    simp only [shareUnit] at hin ⊢
    refine ⟨fun e1 e2 => ?_, fun e => ?_⟩
    · have := mul (h1 e1 e2); rw [hin]; linarith
    · have := mul (h2 e); rw [hin]; linarith
  · intro hr t ht ha q hq
    obtain ⟨h1, h2⟩ := h.rampDown hr t ht ha q hq
    have hin := hin t
    simp only [shareUnit] at hin ⊢
    refine ⟨fun e1 e2 => ?_, fun e => ?_⟩
    · have := mul (h1 e1 e2); rw [hin]; linarith
    · have := mul (h2 e); rw [hin]; linarith
  · intro hr hn ha q s hq
    obtain ⟨hroll, rfl, rfl⟩ := past_ramp.mp hq
    obtain ⟨h1, -⟩ := h.rampUpFirst hr hn ha u.histP _ (past_ramp.mpr ⟨hroll, rfl, rfl⟩)
    refine ⟨fun l hl => ⟨fun e1 e2 => ?_, fun e => ?_⟩, fun e => by rw [hc'] at e; cases e⟩
    · have := mul ((h1 l hl).1 e1 e2); simp only [shareUnit]; linarith
    · have := mul ((h1 l hl).2 e); simp only [shareUnit]; linarith
  · intro hr hn ha q s hq
    obtain ⟨hroll, rfl, rfl⟩ := past_ramp.mp hq
    obtain ⟨h1, -⟩ := h.rampDownFirst hr hn ha u.histP _ (past_ramp.mpr ⟨hroll, rfl, rfl⟩)
    refine ⟨fun l hl => ⟨fun e1 e2 => ?_, fun e => ?_⟩, fun e => by rw [hc'] at e; cases e⟩
    · have := mul ((h1 l hl).1 e1 e2); simp only [shareUnit]; linarith
    · have := mul ((h1 l hl).2 e); simp only [shareUnit]; linarith

theorem unit_add {u : Unit' F} {r : Bool} {linear ramps : Prop} {n : Nat} {p st up dn p' st' up' dn' : Nat → F} {cap cap' a b : F} (hc : u.committable = false)
    (h : UnitRule (shareUnit a u) (pastOf r (shareUnit a u)) linear ramps n p st up dn cap)
    (h' : UnitRule (shareUnit b u) (pastOf r (shareUnit b u)) linear ramps n p' st' up' dn' cap') (st'' up'' dn'' : Nat → F) :
    UnitRule (shareUnit (a + b) u) (pastOf r (shareUnit (a + b) u)) linear ramps n (fun t => p t + p' t) st'' up'' dn'' (cap + cap') := by
  have hc' : (shareUnit (a + b) u).committable = false := hc
  have hin : ∀ t, inService u.active (fun t => p t + p' t) t = inService u.active p t + inService u.active p' t := by
    intro t; unfold inService; split <;> simp
  refine ⟨?_, ?_, ?_, ?_, ?_, ?_, ?_, ?_, ?_, ?_, ?_, ?_, ?_, ?_, ?_, ?_, ?_⟩
  case refine_3 | refine_4 | refine_5 | refine_6 | refine_7 | refine_8 | refine_9 | refine_10 => intro e; rw [hc'] at e; cases e
  case refine_13 | refine_14 | refine_17 => intro _ e; rw [hc'] at e; cases e
  · intro e1 e2 t ht ha
    obtain ⟨h1, h2⟩ := h.fixed e1 e2 t ht ha
    obtain ⟨h3, h4⟩ := h'.fixed e1 e2 t ht ha
    simp only [shareUnit] at *
    constructor <;> linarith
  · intro e t ht ha
    obtain ⟨h1, h2⟩ := h.extendable e t ht ha
    obtain ⟨h3, h4⟩ := h'.extendable e t ht ha
    simp only [shareUnit] at *
    constructor <;> linarith
  · intro hr t ht ha q hq
    obtain ⟨h1, h2⟩ := h.rampUp hr t ht ha q hq
    obtain ⟨h3, h4⟩ := h'.rampUp hr t ht ha q hq
    have hin := hin t
    simp only [shareUnit] at *
    refine ⟨fun e1 e2 => ?_, fun e => ?_⟩
    · have := h1 e1 e2; have := h3 e1 e2; rw [hin]; linarith
    · have := h2 e; have := h4 e; rw [hin]; linarith
  · intro hr t ht ha q hq
    obtain ⟨h1, h2⟩ := h.rampDown hr t ht ha q hq
    obtain ⟨h3, h4⟩ := h'.rampDown hr t ht ha q hq
    have hin := hin t
    simp only [shareUnit] at *
    refine ⟨fun e1 e2 => ?_, fun e => ?_⟩
    · have := h1 e1 e2; have := h3 e1 e2; rw [hin]; linarith
    · have := h2 e; have := h4 e; rw [hin]; linarith
  · intro hr hn ha q s hq
    obtain ⟨hroll, rfl, rfl⟩ := past_ramp.mp hq
    obtain ⟨h1, -⟩ := h.rampUpFirst hr hn ha _ _ (past_ramp.mpr ⟨hroll, rfl, rfl⟩)
    obtain ⟨h2, -⟩ := h'.rampUpFirst hr hn ha _ _ (past_ramp.mpr ⟨hroll, rfl, rfl⟩)
    refine ⟨fun l hl => ⟨fun e1 e2 => ?_, fun e => ?_⟩, fun e => by rw [hc'] at e; cases e⟩
    · have := (h1 l hl).1 e1 e2; have := (h2 l hl).1 e1 e2; simp only [shareUnit] at *; linarith
    · have := (h1 l hl).2 e; have := (h2 l hl).2 e; simp only [shareUnit] at *; linarith
  · intro hr hn ha q s hq
    obtain ⟨hroll, rfl, rfl⟩ := past_ramp.mp hq
    obtain ⟨h1, -⟩ := h.rampDownFirst hr hn ha _ _ (past_ramp.mpr ⟨hroll, rfl, rfl⟩)
    obtain ⟨h2, -⟩ := h'.rampDownFirst hr hn ha _ _ (past_ramp.mpr ⟨hroll, rfl, rfl⟩)
    refine ⟨fun l hl => ⟨fun e1 e2 => ?_, fun e => ?_⟩, fun e => by rw [hc'] at e; cases e⟩
    · have := (h1 l hl).1 e1 e2; have := (h2 l hl).1 e1 e2; simp only [shareUnit] at *; linarith
    · have := (h1 l hl).2 e; have := (h2 l hl).2 e; simp only [shareUnit] at *; linarith

theorem level_scale {n : Nat} {active : Nat → Bool} {cyclic : Bool} {initial : F} {keep level gain gain' : Nat → F} (k : F)
    (hg : ∀ t, gain' t = k * gain t) (h : LevelRule n active cyclic initial keep level gain) :
    LevelRule n active cyclic (k * initial) keep (fun t => k * level t) gain' := by
  refine ⟨?_, ?_, ?_⟩
  · intro s t h1 h2 h3 h4 h5
    show k * level t = keep t * (k * level s) + gain' t
    rw [h.next s t h1 h2 h3 h4 h5, hg]; ring
  · intro e s t h1 h2 h3 h4 h5 h6
    show k * level t = keep t * (k * level s) + gain' t
    rw [h.around e s t h1 h2 h3 h4 h5 h6, hg]; ring
  · intro e t h1 h2 h3
    show k * level t = k * initial + gain' t
    rw [h.first e t h1 h2 h3, hg]; ring

theorem level_add {n : Nat} {active : Nat → Bool} {cyclic : Bool} {i1 i2 i3 : F} {keep l1 l2 g1 g2 g3 : Nat → F} (hi : i3 = i1 + i2)
    (hg : ∀ t, g3 t = g1 t + g2 t) (h1 : LevelRule n active cyclic i1 keep l1 g1) (h2 : LevelRule n active cyclic i2 keep l2 g2) :
    LevelRule n active cyclic i3 keep (fun t => l1 t + l2 t) g3 := by
  refine ⟨?_, ?_, ?_⟩
  · intro s t a1 a2 a3 a4 a5
    show l1 t + l2 t = keep t * (l1 s + l2 s) + g3 t
    rw [h1.next s t a1 a2 a3 a4 a5, h2.next s t a1 a2 a3 a4 a5, hg]; ring
  · intro e s t a1 a2 a3 a4 a5 a6
    show l1 t + l2 t = keep t * (l1 s + l2 s) + g3 t
    rw [h1.around e s t a1 a2 a3 a4 a5 a6, h2.around e s t a1 a2 a3 a4 a5 a6, hg]; ring
  · intro e t a1 a2 a3
    show l1 t + l2 t = i3 + g3 t
    rw [h1.first e t a1 a2 a3, h2.first e t a1 a2 a3, hg, hi]; ring

theorem period_scale {w : WNet F} {s : Storage F} {level gain gain' : Nat → F} (k : F) (hg : ∀ t, gain' t = k * gain t)
    (h : PeriodRule w s level gain) : PeriodRule w { s with initial := k * s.initial } (fun t => k * level t) gain' := by
  unfold PeriodRule at h ⊢
  simp only
  split
  · rename_i hm
    rw [if_pos hm] at h
    exact fun q => level_scale k hg (h q)
  · rename_i hm
    rw [if_neg hm] at h
    exact level_scale k hg h

theorem period_add {w : WNet F} {s : Storage F} {l1 l2 g1 g2 g3 : Nat → F} {a b : F} (hg : ∀ t, g3 t = g1 t + g2 t)
    (h1 : PeriodRule w { s with initial := a * s.initial } l1 g1) (h2 : PeriodRule w { s with initial := b * s.initial } l2 g2) :
    PeriodRule w { s with initial := (a + b) * s.initial } (fun t => l1 t + l2 t) g3 := by
  unfold PeriodRule at h1 h2 ⊢
  simp only at h1 h2 ⊢
  split
  · rename_i hm
    rw [if_pos hm] at h1 h2
    exact fun q => level_add (by ring) hg (h1 q) (h2 q)
  · rename_i hm
    rw [if_neg hm] at h1 h2
    exact level_add (by ring) hg h1 h2

omit [IsStrictOrderedRing F] [LinearOrder F] in
theorem total_scale (n : Nat) (weight : Nat → F) (active : Nat → Bool) (x : Nat → F) (k : F) :
    total n weight active (fun t => k * x t) = k * total n weight active x := by
  unfold total
  rw [← List.sum_map_mul_left]
  congr 1
  apply List.map_congr_left
  intro t _
  split <;> ring

omit [IsStrictOrderedRing F] [LinearOrder F] in
theorem total_add (n : Nat) (weight : Nat → F) (active : Nat → Bool) (x y : Nat → F) :
    total n weight active (fun t => x t + y t) = total n weight active x + total n weight active y := by
  unfold total
  rw [← List.sum_map_add]
  congr 1
  apply List.map_congr_left
  intro t _
  split <;> ring

/-! Rules of whole assets: what a share may do, and what two shares do together. -/

variable {w : WNet F} {m m' : More F}

theorem gen_scale {g : GenW F} {y : Loc → F} (s : Share F) (hr : RampsCount ((withMore w m).gens.map (·.unit)) w.len ↔
    RampsCount ((withMore w m').gens.map (·.unit)) w.len) (hk : 0 < s.part) (hc : g.unit.committable = false)
    (hm : g.unit.extendable = true → g.invest.nomMod ≤ 0) (h : GenRule (withMore w m) g y) :
    GenRule (withMore w m') (shareGen s g) (fun v => s.part * y v) := by
  have hu := h.unit
  rw [show RampsCount ((withMore w m).gens.map (·.unit)) (withMore w m).len = RampsCount ((withMore w m').gens.map (·.unit)) (withMore w m').len from
    propext hr] at hu
  refine ⟨cap_scale hk hm h.cap _, unit_scale hc hk hu _ _ _, set_scale s.part h.set, ?_, ?_⟩
  · intro he e hq
    simp only [shareGen, Option.map_eq_some_iff] at hq
    obtain ⟨q, hq, rfl⟩ := hq
    have := h.sumMin he q hq
    have e2 := total_scale w.len w.gw g.unit.active (fun t => y (.op "p" t)) s.part
    exact (mul_le_mul_of_nonneg_left this hk.le).trans (le_of_eq e2.symm)
  · intro he e hq
    simp only [shareGen, Option.map_eq_some_iff] at hq
    obtain ⟨q, hq, rfl⟩ := hq
    have := h.sumMax he q hq
    have e2 := total_scale w.len w.gw g.unit.active (fun t => y (.op "p" t)) s.part
    exact (le_of_eq e2).trans (mul_le_mul_of_nonneg_left this hk.le)

theorem gen_add {g : GenW F} {y z : Loc → F} (s1 s2 s3 : Share F) (h3 : s3.part = s1.part + s2.part) (hc : g.unit.committable = false)
    (hm : g.unit.extendable = true → g.invest.nomMod ≤ 0) (h1 : GenRule w (shareGen s1 g) y) (h2 : GenRule w (shareGen s2 g) z) :
    GenRule w (shareGen s3 g) (fun v => y v + z v) := by
  obtain ⟨k3, r3⟩ := s3
  subst h3
  refine ⟨cap_add hm h1.cap h2.cap _, unit_add hc h1.unit h2.unit _ _ _, set_add h1.set h2.set, ?_, ?_⟩
  · intro he e hq
    simp only [shareGen, Option.map_eq_some_iff] at hq
    obtain ⟨q, hq, rfl⟩ := hq
    have e1 := h1.sumMin he (s1.part * q) (by simp [shareGen, hq])
    have e2 := h2.sumMin he (s2.part * q) (by simp [shareGen, hq])
    have e3 := total_add w.len w.gw g.unit.active (fun t => y (.op "p" t)) (fun t => z (.op "p" t))
    refine le_trans ?_ (le_of_eq e3.symm)
    rw [add_mul]
    exact add_le_add e1 e2
  · intro he e hq
    simp only [shareGen, Option.map_eq_some_iff] at hq
    obtain ⟨q, hq, rfl⟩ := hq
    have e1 := h1.sumMax he (s1.part * q) (by simp [shareGen, hq])
    have e2 := h2.sumMax he (s2.part * q) (by simp [shareGen, hq])
    have e3 := total_add w.len w.gw g.unit.active (fun t => y (.op "p" t)) (fun t => z (.op "p" t))
    refine le_trans (le_of_eq e3) ?_
    rw [add_mul]
    exact add_le_add e1 e2

theorem link_scale {g : LinkW F} {y : Loc → F} (s : Share F) (hr : RampsCount ((withMore w m).links.map (·.unit)) w.len ↔
    RampsCount ((withMore w m').links.map (·.unit)) w.len) (hk : 0 < s.part) (hc : g.unit.committable = false)
    (hm : g.unit.extendable = true → g.invest.nomMod ≤ 0) (h : LinkRule (withMore w m) g y) :
    LinkRule (withMore w m') (shareLink s g) (fun v => s.part * y v) := by
  have hu := h.unit
  rw [show RampsCount ((withMore w m).links.map (·.unit)) (withMore w m).len = RampsCount ((withMore w m').links.map (·.unit)) (withMore w m').len from
    propext hr] at hu
  exact ⟨cap_scale hk hm h.cap _, unit_scale hc hk hu _ _ _, set_scale s.part h.set⟩

theorem link_add {g : LinkW F} {y z : Loc → F} (s1 s2 s3 : Share F) (h3 : s3.part = s1.part + s2.part) (hc : g.unit.committable = false)
    (hm : g.unit.extendable = true → g.invest.nomMod ≤ 0) (h1 : LinkRule w (shareLink s1 g) y) (h2 : LinkRule w (shareLink s2 g) z) :
    LinkRule w (shareLink s3 g) (fun v => y v + z v) := by
  obtain ⟨k3, r3⟩ := s3
  subst h3
  exact ⟨cap_add hm h1.cap h2.cap _, unit_add hc h1.unit h2.unit _ _ _, set_add h1.set h2.set⟩

theorem store_scale {g : StoreW F} {y : Loc → F} (s : Share F) (hk : 0 < s.part) (hm : g.ext = true → g.invest.nomMod ≤ 0)
    (h : StoreRule (withMore w m) g y) : StoreRule (withMore w m') (shareStore s g) (fun v => s.part * y v) := by
  refine ⟨cap_scale hk hm h.cap _, ?_, set_scale s.part h.set, period_scale (w := withMore w m') s.part ?_ h.level⟩
  · intro t ht ha
    obtain ⟨h1, h2⟩ := h.limits t ht ha
    have e : (if (shareStore s g).ext then s.part * y .cap else (shareStore s g).nom) = s.part * (if g.ext then y .cap else g.nom) := by
      cases h : g.ext <;> simp [shareStore, h]
    rw [e]
    have h1 := mul_le_mul_of_nonneg_left h1 hk.le
    have h2 := mul_le_mul_of_nonneg_left h2 hk.le
    simp only [shareStore]
    constructor <;> linarith
  · intro t
    simp only [shareStore]
    ring

theorem store_add {g : StoreW F} {y z : Loc → F} (s1 s2 s3 : Share F) (h3 : s3.part = s1.part + s2.part) (hm : g.ext = true → g.invest.nomMod ≤ 0)
    (h1 : StoreRule w (shareStore s1 g) y) (h2 : StoreRule w (shareStore s2 g) z) : StoreRule w (shareStore s3 g) (fun v => y v + z v) := by
  obtain ⟨k3, r3⟩ := s3
  subst h3
  refine ⟨cap_add hm h1.cap h2.cap _, ?_, set_add h1.set h2.set, period_add ?_ h1.level h2.level⟩
  · intro t ht ha
    obtain ⟨a1, a2⟩ := h1.limits t ht ha
    obtain ⟨b1, b2⟩ := h2.limits t ht ha
    by_cases he : g.ext = true <;> simp only [shareStore, he, if_true, if_false, Bool.false_eq_true] at a1 a2 b1 b2 ⊢ <;> constructor <;> linarith
  · intro t
    simp only [shareStore]
    ring

theorem sunit_scale {g : UnitW F} {y : Loc → F} (s : Share F) (hk : 0 < s.part) (hm : g.ext = true → g.invest.nomMod ≤ 0)
    (h : StorageRule (withMore w m) g y) : StorageRule (withMore w m') (shareSunit s g) (fun v => s.part * y v) := by
  have e : (if (shareSunit s g).ext then s.part * y .cap else (shareSunit s g).nom) = s.part * (if g.ext then y .cap else g.nom) := by
    cases h : g.ext <;> simp [shareSunit, h]
  have hpos : ∀ t, 0 < s.part * g.storage.inflow t ↔ 0 < g.storage.inflow t := fun t => mul_pos_iff_of_pos_left hk
  refine ⟨cap_scale hk hm h.cap _, ?_, ?_, ?_, ?_, set_scale s.part h.set, period_scale (w := withMore w m') s.part ?_ h.level⟩
  · intro t ht ha
    obtain ⟨h1, h2⟩ := h.dispatch t ht ha
    rw [e]
    have h1 := mul_le_mul_of_nonneg_left h1 hk.le
    have h2 := mul_le_mul_of_nonneg_left h2 hk.le
    simp only [shareSunit]
    constructor <;> linarith
  · intro t ht ha
    obtain ⟨h1, h2⟩ := h.store t ht ha
    rw [e]
    have h1 := mul_le_mul_of_nonneg_left h1 hk.le
    have h2 := mul_le_mul_of_nonneg_left h2 hk.le
    simp only [shareSunit]
    constructor <;> linarith
  · intro t ht ha
    obtain ⟨h1, h2⟩ := h.charge t ht ha
    rw [e]
    have h1 := mul_le_mul_of_nonneg_left h1 hk.le
    have h2 := mul_le_mul_of_nonneg_left h2 hk.le
    simp only [shareSunit]
    constructor <;> linarith
  · intro t ht ha hi
    obtain ⟨h1, h2⟩ := h.spill t ht ha ((hpos t).mp hi)
    have h1 := mul_le_mul_of_nonneg_left h1 hk.le
    have h2 := mul_le_mul_of_nonneg_left h2 hk.le
    simp only [shareSunit]
    constructor <;> linarith
  · intro t
    simp only [shareSunit, hpos]
    split <;> ring

theorem sunit_add {g : UnitW F} {y z : Loc → F} (s1 s2 s3 : Share F) (h3 : s3.part = s1.part + s2.part) (p1 : 0 < s1.part) (p2 : 0 < s2.part)
    (hm : g.ext = true → g.invest.nomMod ≤ 0) (h1 : StorageRule w (shareSunit s1 g) y) (h2 : StorageRule w (shareSunit s2 g) z) :
    StorageRule w (shareSunit s3 g) (fun v => y v + z v) := by
  obtain ⟨k3, r3⟩ := s3
  subst h3
  have hpos : ∀ k : F, 0 < k → ∀ t, 0 < k * g.storage.inflow t ↔ 0 < g.storage.inflow t := fun k hk t => mul_pos_iff_of_pos_left hk
  have q1 := hpos _ p1
  have q2 := hpos _ p2
  have q3 := hpos _ (add_pos p1 p2)
  refine ⟨cap_add hm h1.cap h2.cap _, ?_, ?_, ?_, ?_, set_add h1.set h2.set, period_add ?_ h1.level h2.level⟩
  · intro t ht ha
    obtain ⟨a1, a2⟩ := h1.dispatch t ht ha
    obtain ⟨b1, b2⟩ := h2.dispatch t ht ha
    by_cases he : g.ext = true <;> simp only [shareSunit, he, if_true, if_false, Bool.false_eq_true] at a1 a2 b1 b2 ⊢ <;> constructor <;> linarith
  · intro t ht ha
    obtain ⟨a1, a2⟩ := h1.store t ht ha
    obtain ⟨b1, b2⟩ := h2.store t ht ha
    by_cases he : g.ext = true <;> simp only [shareSunit, he, if_true, if_false, Bool.false_eq_true] at a1 a2 b1 b2 ⊢ <;> constructor <;> linarith
  · intro t ht ha
    obtain ⟨a1, a2⟩ := h1.charge t ht ha
    obtain ⟨b1, b2⟩ := h2.charge t ht ha
    by_cases he : g.ext = true <;> simp only [shareSunit, he, if_true, if_false, Bool.false_eq_true] at a1 a2 b1 b2 ⊢ <;> constructor <;> linarith
  · intro t ht ha hi
    have hi' := (q3 t).mp hi
    obtain ⟨a1, a2⟩ := h1.spill t ht ha ((q1 t).mpr hi')
    obtain ⟨b1, b2⟩ := h2.spill t ht ha ((q2 t).mpr hi')
    simp only [shareSunit] at *
    constructor <;> linarith
  · intro t
    simp only [shareSunit, q1, q2, q3]
    split <;> ring

omit [LinearOrder F] [IsStrictOrderedRing F] in
/-- What holds for two shares together holds for all. -/
theorem all_shares (P : Share F → (Loc → F) → Prop) (r : Name → Name)
    (hadd : ∀ s1 s2 s3 y z, s3.part = s1.part + s2.part → P s1 y → P s2 z → P s3 (fun v => y v + z v))
    (hname : ∀ s s' y, s.part = s'.part → P s y → P s' y)
    (ss : List (Share F)) (hne : ss ≠ []) (y : Share F → Loc → F) (h : ∀ s ∈ ss, P s (y s)) :
    P ⟨(ss.map (·.part)).sum, r⟩ (fun v => (ss.map (fun s => y s v)).sum) := by
  induction ss with
  | nil => exact absurd rfl hne
  | cons s rest ih =>
    by_cases hr : rest = []
    · subst hr
      have := hname s ⟨([s].map (·.part)).sum, r⟩ (y s) (by simp) (h s (by simp))
      simpa using this
    · have h1 := ih hr (fun s' hs' => h s' (List.mem_cons_of_mem _ hs'))
      have h2 := hadd s _ ⟨((s :: rest).map (·.part)).sum, r⟩ _ _ (by simp) (h s (by simp)) h1
      simpa using h2

end rules

/-! ## Sums -/

omit [LinearOrder F] in
/-- What is linear in what the asset does is the same for the whole and for all shares together. -/
theorem sum_shares {α : Type} (l : List α) (ss : List (Share F)) (share : Share F → α → α) (name : α → Name) (f : α → (Loc → F) → F)
    (hname : ∀ s a, name (share s a) = s.rename (name a)) (hsame : ∀ s ∈ ss, ∀ a, f (share s a) = f a) (hzero : ∀ a, f a (fun _ => 0) = 0)
    (hadd : ∀ a y z, f a (fun v => y v + z v) = f a y + f a z) (val : Name → Loc → F) :
    ((ss.flatMap (fun s => l.map (share s))).map (fun a => f a (val (name a)))).sum =
      (l.map (fun a => f a (fun v => (ss.map (fun s => val (s.rename (name a)) v)).sum))).sum := by
  induction ss with
  | nil =>
    simp only [List.flatMap_nil, List.map_nil, List.sum_nil, hzero]
    induction l with
    | nil => rfl
    | cons a r ih => simpa using ih
  | cons s rest ih =>
    rw [List.flatMap_cons, List.map_append, List.sum_append, ih (fun s' hs' => hsame s' (List.mem_cons_of_mem _ hs')), List.map_map, ← List.sum_map_add]
    congr 1
    apply List.map_congr_left
    intro a _
    simp only [Function.comp, hname, hsame s (by simp) a, List.map_cons, List.sum_cons]
    rw [hadd]

omit [Field F] [LinearOrder F] in
theorem mem_names {m : More F} {c a : Name} : a ∈ names m c ↔
    (c = "Generator" ∧ ∃ g ∈ m.gens, g.name = a) ∨ (c = "Link" ∧ ∃ g ∈ m.links, g.name = a) ∨ (c = "Store" ∧ ∃ g ∈ m.stores, g.name = a) ∨
    (c = "StorageUnit" ∧ ∃ g ∈ m.units, g.name = a) := by
  unfold names
  split
  · subst_vars; simp
  · split
    · subst_vars; simp
    · split
      · subst_vars; simp
      · split
        · subst_vars; simp
        · simp_all

/-- Supply of single assets, by what they do. -/
def genSupply (t : Nat) (b : Name) (g : GenW F) (y : Loc → F) : F := atBus b g.bus (g.unit.active t) (g.sign * y (.op "p" t))

def storeSupply (t : Nat) (b : Name) (g : StoreW F) (y : Loc → F) : F := atBus b g.bus (g.storage.active t) (g.sign * y (.op "p" t))

def sunitSupply (t : Nat) (b : Name) (g : UnitW F) (y : Loc → F) : F :=
  atBus b g.bus (g.storage.active t) (g.sign * (y (.op "p_dispatch" t) - y (.op "p_store" t)))

def linkSupply (t : Nat) (b : Name) (l : LinkW F) (y : Loc → F) : F :=
  atBus b l.bus0 (l.unit.active t) (- y (.op "p" t)) + atBus b l.bus1 (l.unit.active t) (l.eff t * y (.op "p" t)) +
    (l.extra.map (fun e => atBus b e.1 (l.unit.active t) (e.2 t * y (.op "p" t)))).sum

omit [LinearOrder F] in
theorem atBus_zero (b bus : Name) (a : Bool) : atBus b bus a (0 : F) = 0 := by unfold atBus; split <;> rfl

omit [LinearOrder F] in
theorem atBus_add (b bus : Name) (a : Bool) (x y : F) : atBus b bus a (x + y) = atBus b bus a x + atBus b bus a y := by unfold atBus; split <;> simp

omit [LinearOrder F] in
theorem linkSupply_add (t : Nat) (b : Name) (l : LinkW F) (y z : Loc → F) :
    linkSupply t b l (fun v => y v + z v) = linkSupply t b l y + linkSupply t b l z := by
  unfold linkSupply
  simp only [neg_add, mul_add, atBus_add, List.sum_map_add]
  ring

/-- Costs of single assets, by what they do. -/
def genCostOf (w : WNet F) (g : GenW F) (y : Loc → F) : F := genCost w g (fun | .of _ _ v => y v | .const => 0)
def linkCostOf (w : WNet F) (g : LinkW F) (y : Loc → F) : F := linkCost w g (fun | .of _ _ v => y v | .const => 0)
def storeCostOf (w : WNet F) (g : StoreW F) (y : Loc → F) : F := storeCost w g (fun | .of _ _ v => y v | .const => 0)
def sunitCostOf (w : WNet F) (g : UnitW F) (y : Loc → F) : F := unitCost w g (fun | .of _ _ v => y v | .const => 0)

omit [LinearOrder F] in
theorem sum_zero' {α : Type} (l : List α) (f : α → F) (h : ∀ a, f a = 0) : (l.map f).sum = 0 := by
  induction l with
  | nil => rfl
  | cons a r ih => simp [h, ih]

omit [LinearOrder F] in
theorem genCostOf_zero (w : WNet F) (g : GenW F) : genCostOf w g (fun _ => 0) = 0 := by
  unfold genCostOf genCost
  rw [sum_zero' _ _ (fun t => by simp)]
  simp

omit [LinearOrder F] in
theorem genCostOf_add (w : WNet F) (g : GenW F) (y z : Loc → F) : genCostOf w g (fun v => y v + z v) = genCostOf w g y + genCostOf w g z := by
  unfold genCostOf genCost
  rw [add_add_add_comm, ← List.sum_map_add]
  congr 1
  · congr 1
    apply List.map_congr_left
    intro t _
    by_cases h1 : g.unit.active t = true <;> by_cases h2 : g.unit.committable = true <;> simp only [h1, h2, if_true, if_false, Bool.false_eq_true] <;> ring
  · split <;> ring

omit [LinearOrder F] in
theorem linkCostOf_zero (w : WNet F) (g : LinkW F) : linkCostOf w g (fun _ => 0) = 0 := by
  unfold linkCostOf linkCost
  rw [sum_zero' _ _ (fun t => by simp)]
  simp

omit [LinearOrder F] in
theorem linkCostOf_add (w : WNet F) (g : LinkW F) (y z : Loc → F) : linkCostOf w g (fun v => y v + z v) = linkCostOf w g y + linkCostOf w g z := by
  unfold linkCostOf linkCost
  rw [add_add_add_comm, ← List.sum_map_add]
  congr 1
  · congr 1
    apply List.map_congr_left
    intro t _
    by_cases h1 : g.unit.active t = true <;> by_cases h2 : g.unit.committable = true <;> simp only [h1, h2, if_true, if_false, Bool.false_eq_true] <;> ring
  · split <;> ring

omit [LinearOrder F] in
theorem storeCostOf_zero (w : WNet F) (g : StoreW F) : storeCostOf w g (fun _ => 0) = 0 := by
  unfold storeCostOf storeCost
  rw [sum_zero' _ _ (fun t => by simp)]
  simp

omit [LinearOrder F] in
theorem storeCostOf_add (w : WNet F) (g : StoreW F) (y z : Loc → F) : storeCostOf w g (fun v => y v + z v) = storeCostOf w g y + storeCostOf w g z := by
  unfold storeCostOf storeCost
  rw [add_add_add_comm, ← List.sum_map_add]
  congr 1
  · congr 1
    apply List.map_congr_left
    intro t _
    by_cases h1 : g.storage.active t = true <;> simp only [h1, if_true, if_false, Bool.false_eq_true] <;> ring
  · split <;> ring

theorem sunitCostOf_zero (w : WNet F) (g : UnitW F) : sunitCostOf w g (fun _ => 0) = 0 := by
  unfold sunitCostOf unitCost
  rw [sum_zero' _ _ (fun t => by simp)]
  simp

theorem sunitCostOf_add (w : WNet F) (g : UnitW F) (y z : Loc → F) : sunitCostOf w g (fun v => y v + z v) = sunitCostOf w g y + sunitCostOf w g z := by
  unfold sunitCostOf unitCost
  rw [add_add_add_comm, ← List.sum_map_add]
  congr 1
  · congr 1
    apply List.map_congr_left
    intro t _
    by_cases h1 : g.storage.active t = true <;> by_cases h2 : 0 < g.storage.inflow t <;>
      simp only [h1, h2, if_true, if_false, Bool.false_eq_true] <;> ring
  · split <;> ring

theorem sunitCostOf_share [IsStrictOrderedRing F] (w : WNet F) (s : Share F) (hs : 0 < s.part) (g : UnitW F) :
    sunitCostOf w (shareSunit s g) = sunitCostOf w g := by
  funext y
  unfold sunitCostOf unitCost
  have hpos : ∀ t, 0 < s.part * g.storage.inflow t ↔ 0 < g.storage.inflow t := fun t => mul_pos_iff_of_pos_left hs
  simp only [shareSunit, shareInvest, hpos]
  rfl

section main

variable {w : WNet F} {m : More F} {ss : List (Share F)}

omit [LinearOrder F] in
/-- Assets that are not divided do the same. -/
theorem whole_rest (y : WVar → F) (c a : Name) (h : a ∉ names m c) (v : Loc) : whole m ss y (.of c a v) = y (.of c a v) := by
  simp only [whole, if_neg h]

omit [LinearOrder F] in
theorem whole_of (y : WVar → F) (c a : Name) (h : a ∈ names m c) (v : Loc) :
    whole m ss y (.of c a v) = (ss.map (fun s => y (.of c (s.rename a) v))).sum := by
  simp only [whole, if_pos h]

omit [Field F] [LinearOrder F] in
theorem apart_of_nodup {α : Type} {f : α → Name} {l k : List α} (h : ((l ++ k).map f).Nodup) {a : α} (ha : a ∈ l) : f a ∉ k.map f := by
  rw [List.map_append, List.nodup_append] at h
  intro hk
  exact h.2.2 (f a) (List.mem_map_of_mem ha) (f a) hk rfl

/-- The assets of the network have other names than those that are divided. -/
structure Fresh (w : WNet F) (m : More F) : Prop where
  gens : ∀ g ∈ w.gens, g.name ∉ names m "Generator"
  links : ∀ g ∈ w.links, g.name ∉ names m "Link"
  stores : ∀ g ∈ w.stores, g.name ∉ names m "Store"
  units : ∀ g ∈ w.units, g.name ∉ names m "StorageUnit"

omit [LinearOrder F] in
theorem fresh_of (hw : Sound (withMore w m)) : Fresh w m where
  gens := fun g hg => by simpa [names] using apart_of_nodup hw.gens hg
  links := fun g hg => by simpa [names] using apart_of_nodup hw.links hg
  stores := fun g hg => by simpa [names] using apart_of_nodup hw.stores hg
  units := fun g hg => by simpa [names] using apart_of_nodup hw.units hg

omit [LinearOrder F] in
theorem names_line (a : Name) : a ∉ names m "Line" ∧ a ∉ names m "Transformer" := by
  constructor <;> simp [names]

omit [LinearOrder F] in
theorem supply_more (w : WNet F) (m : More F) (hd : m.lines = [] ∧ m.trafos = []) (x : WVar → F) (t : Nat) (b : Name) :
    supply (withMore w m) x t b = supply w x t b +
      ((m.gens.map (fun g => genSupply t b g (fun v => x (.of "Generator" g.name v)))).sum +
       (m.stores.map (fun g => storeSupply t b g (fun v => x (.of "Store" g.name v)))).sum +
       (m.units.map (fun g => sunitSupply t b g (fun v => x (.of "StorageUnit" g.name v)))).sum +
       (m.links.map (fun g => linkSupply t b g (fun v => x (.of "Link" g.name v)))).sum) := by
  unfold supply withMore
  simp only [hd.1, hd.2, List.append_nil, List.map_append, List.sum_append, genSupply, storeSupply, sunitSupply, linkSupply]
  unfold halfLoss
  ring

omit [LinearOrder F] in
theorem supply_base (hf : Fresh w m) (y : WVar → F) (t : Nat) (b : Name) : supply w (whole m ss y) t b = supply w y t b := by
  unfold supply
  congr 1; congr 1; congr 1; congr 1; congr 1
  all_goals
    congr 1
    apply List.map_congr_left
    intro g hg
  · simp only [whole_rest _ _ _ (hf.gens g hg)]
  · simp only [whole_rest _ _ _ (hf.stores g hg)]
  · simp only [whole_rest _ _ _ (hf.units g hg)]
  · simp only [whole_rest _ _ _ (hf.links g hg)]

/-- The same goes into every bus. -/
theorem supply_whole [IsStrictOrderedRing F] (hd : Divisible m) (hf : Fresh w m) (y : WVar → F) (t : Nat) (b : Name) :
    supply (withMore w (shares ss m)) y t b = supply (withMore w m) (whole m ss y) t b := by
  rw [supply_more w (shares ss m) ⟨rfl, rfl⟩, supply_more w m ⟨hd.lines, hd.trafos⟩, supply_base hf]
  congr 1
  unfold shares
  simp only
  rw [sum_shares m.gens ss shareGen (·.name) (genSupply t b) (fun _ _ => rfl) (fun _ _ _ => rfl) (fun a => by simp [genSupply, atBus_zero])
      (fun a y z => by simp [genSupply, mul_add, atBus_add]) (fun n v => y (.of "Generator" n v)),
    sum_shares m.stores ss shareStore (·.name) (storeSupply t b) (fun _ _ => rfl) (fun _ _ _ => rfl) (fun a => by simp [storeSupply, atBus_zero])
      (fun a y z => by simp [storeSupply, mul_add, atBus_add]) (fun n v => y (.of "Store" n v)),
    sum_shares m.units ss shareSunit (·.name) (sunitSupply t b) (fun _ _ => rfl) (fun _ _ _ => rfl) (fun a => by simp [sunitSupply, atBus_zero])
      (fun a y z => by simp only [sunitSupply]; rw [← atBus_add]; congr 1; ring) (fun n v => y (.of "StorageUnit" n v)),
    sum_shares m.links ss shareLink (·.name) (linkSupply t b) (fun _ _ => rfl) (fun _ _ _ => rfl)
      (fun a => by simp [linkSupply, atBus_zero]) (fun a y z => linkSupply_add t b a y z)
      (fun n v => y (.of "Link" n v))]
  congr 1; congr 1; congr 1
  all_goals
    congr 1
    apply List.map_congr_left
    intro g hg
    congr 1
    funext v
  · rw [whole_of _ _ _ (mem_names.mpr (Or.inl ⟨rfl, g, hg, rfl⟩))]
  · rw [whole_of _ _ _ (mem_names.mpr (Or.inr (Or.inr (Or.inl ⟨rfl, g, hg, rfl⟩))))]
  · rw [whole_of _ _ _ (mem_names.mpr (Or.inr (Or.inr (Or.inr ⟨rfl, g, hg, rfl⟩))))]
  · rw [whole_of _ _ _ (mem_names.mpr (Or.inr (Or.inl ⟨rfl, g, hg, rfl⟩)))]

theorem cost_base (hf : Fresh w m) (y : WVar → F) : totalCost w (whole m ss y) = totalCost w y := by
  apply cost_agree
  constructor
  · intro g hg v; exact whole_rest _ _ _ (hf.gens g hg) v
  · intro g hg v; exact whole_rest _ _ _ (hf.links g hg) v
  · intro g hg v; exact whole_rest _ _ _ (hf.stores g hg) v
  · intro g hg v; exact whole_rest _ _ _ (hf.units g hg) v
  · intro g hg v; exact whole_rest _ _ _ (names_line g.name).1 v
  · intro g hg v; exact whole_rest _ _ _ (names_line g.name).2 v

theorem cost_more (w : WNet F) (m : More F) (hd : m.lines = [] ∧ m.trafos = []) (x : WVar → F) : totalCost (withMore w m) x = totalCost w x +
      ((m.gens.map (fun g => genCostOf w g (fun v => x (.of "Generator" g.name v)))).sum +
       (m.links.map (fun g => linkCostOf w g (fun v => x (.of "Link" g.name v)))).sum +
       (m.stores.map (fun g => storeCostOf w g (fun v => x (.of "Store" g.name v)))).sum +
       (m.units.map (fun g => sunitCostOf w g (fun v => x (.of "StorageUnit" g.name v)))).sum) := by
  rw [cost_split]
  unfold totalCost alone
  simp only [hd.1, hd.2, List.map_nil, List.sum_nil, add_zero]
  rfl

/-- The same is paid. -/
theorem cost_whole [IsStrictOrderedRing F] (hs : MakeUp ss) (hd : Divisible m) (hf : Fresh w m) (y : WVar → F) :
    totalCost (withMore w (shares ss m)) y = totalCost (withMore w m) (whole m ss y) := by
  rw [cost_more w (shares ss m) ⟨rfl, rfl⟩, cost_more w m ⟨hd.lines, hd.trafos⟩, cost_base hf]
  congr 1
  unfold shares
  simp only
  rw [sum_shares m.gens ss shareGen (·.name) (genCostOf w) (fun _ _ => rfl) (fun _ _ _ => rfl) (genCostOf_zero w) (genCostOf_add w)
      (fun n v => y (.of "Generator" n v)),
    sum_shares m.links ss shareLink (·.name) (linkCostOf w) (fun _ _ => rfl) (fun _ _ _ => rfl) (linkCostOf_zero w) (linkCostOf_add w)
      (fun n v => y (.of "Link" n v)),
    sum_shares m.stores ss shareStore (·.name) (storeCostOf w) (fun _ _ => rfl) (fun _ _ _ => rfl) (storeCostOf_zero w) (storeCostOf_add w)
      (fun n v => y (.of "Store" n v)),
    sum_shares m.units ss shareSunit (·.name) (sunitCostOf w) (fun _ _ => rfl) (fun s h g => sunitCostOf_share w s (hs.pos s h) g)
      (sunitCostOf_zero w) (sunitCostOf_add w) (fun n v => y (.of "StorageUnit" n v))]
  congr 1; congr 1; congr 1
  all_goals
    congr 1
    apply List.map_congr_left
    intro g hg
    congr 1
    funext v
  · rw [whole_of _ _ _ (mem_names.mpr (Or.inl ⟨rfl, g, hg, rfl⟩))]
  · rw [whole_of _ _ _ (mem_names.mpr (Or.inr (Or.inl ⟨rfl, g, hg, rfl⟩)))]
  · rw [whole_of _ _ _ (mem_names.mpr (Or.inr (Or.inr (Or.inl ⟨rfl, g, hg, rfl⟩))))]
  · rw [whole_of _ _ _ (mem_names.mpr (Or.inr (Or.inr (Or.inr ⟨rfl, g, hg, rfl⟩))))]

omit [LinearOrder F] in
/-- Names of the shares. -/
theorem copy_names (ss : List (Share F)) (m : More F) (c : Name) : names (shares ss m) c = ss.flatMap (fun s => (names m c).map s.rename) := by
  unfold names shares
  simp only
  split
  · simp [List.map_flatMap, Function.comp_def, shareGen]
  · split
    · simp [List.map_flatMap, Function.comp_def, shareLink]
    · split
      · simp [List.map_flatMap, Function.comp_def, shareStore]
      · split
        · simp [List.map_flatMap, Function.comp_def, shareSunit]
        · simp

omit [LinearOrder F] in
theorem names_nodup (hw : Sound (withMore w m)) (c : Name) : (names m c).Nodup := by
  have key : ∀ {α : Type} {f : α → Name} {l k : List α}, ((l ++ k).map f).Nodup → (k.map f).Nodup := by
    intro α f l k h
    rw [List.map_append, List.nodup_append] at h
    exact h.2.1
  unfold names
  split
  · exact key hw.gens
  · split
    · exact key hw.links
    · split
      · exact key hw.stores
      · split
        · exact key hw.units
        · exact List.nodup_nil

omit [Field F] [LinearOrder F] in
theorem find_key {α : Type} {l : List (Name × α)} (h : (l.map (·.1)).Nodup) {e : Name × α} (he : e ∈ l) : l.find? (fun q => q.1 = e.1) = some e := by
  induction l with
  | nil => cases he
  | cons q r ih =>
    rw [List.map_cons, List.nodup_cons] at h
    rw [List.find?_cons]
    rcases List.mem_cons.mp he with rfl | hr
    · simp
    · have : q.1 ≠ e.1 := fun hq => h.1 (hq ▸ List.mem_map_of_mem hr)
      simp only [this, decide_false]
      exact ih h.2 hr

omit [LinearOrder F] in
theorem shared_of (hw : Sound (withMore w (shares ss m))) (x : WVar → F) {c a : Name} (ha : a ∈ names m c) {s : Share F} (hs : s ∈ ss) (v : Loc) :
    shared m ss x (.of c (s.rename a) v) = s.part * x (.of c a v) := by
  have hn := names_nodup hw c
  rw [copy_names] at hn
  have hl : ((ss.flatMap (fun s => (names m c).map (fun b => (s.rename b, s.part, b)))).map (·.1)).Nodup := by
    simpa [List.map_flatMap, Function.comp_def] using hn
  have := find_key hl (e := (s.rename a, s.part, a)) (List.mem_flatMap.mpr ⟨s, hs, List.mem_map.mpr ⟨a, ha, rfl⟩⟩)
  simp only [shared, this]

omit [LinearOrder F] in
theorem shared_rest (x : WVar → F) {c a : Name} (ha : a ∉ names (shares ss m) c) (v : Loc) : shared m ss x (.of c a v) = x (.of c a v) := by
  rw [copy_names] at ha
  have : (ss.flatMap (fun s => (names m c).map (fun b => (s.rename b, s.part, b)))).find? (fun e => e.1 = a) = none := by
    rw [List.find?_eq_none]
    intro e he
    simp only [decide_eq_true_eq]
    rintro rfl
    obtain ⟨s, hs, h⟩ := List.mem_flatMap.mp he
    obtain ⟨b, hb, rfl⟩ := List.mem_map.mp h
    exact ha (List.mem_flatMap.mpr ⟨s, hs, List.mem_map_of_mem hb⟩)
  simp only [shared, this]

/-- Dividing and putting together again changes nothing. -/
theorem whole_shared (hs : MakeUp ss) (hw : Sound (withMore w (shares ss m))) (x : WVar → F) {c a : Name}
    (h : a ∈ names m c ∨ a ∉ names (shares ss m) c) (v : Loc) : whole m ss (shared m ss x) (.of c a v) = x (.of c a v) := by
  by_cases ha : a ∈ names m c
  · rw [whole_of _ _ _ ha]
    have : ss.map (fun s => shared m ss x (.of c (s.rename a) v)) = ss.map (fun s => s.part * x (.of c a v)) :=
      List.map_congr_left (fun s h => shared_of hw x ha h v)
    rw [this, List.sum_map_mul_right, hs.sum, one_mul]
  · rw [whole_rest _ _ _ ha, shared_rest x (h.resolve_left ha)]

theorem ramps_shares {α : Type} (base l : List α) (unit : α → Unit' F) (share : Share F → α → α) (hne : ss ≠ [])
    (hu : ∀ s a, (unit (share s a)).rampUp = (unit a).rampUp ∧ (unit (share s a)).rampDown = (unit a).rampDown) (n : Nat) :
    RampsCount ((base ++ l).map unit) n ↔ RampsCount ((base ++ ss.flatMap (fun s => l.map (share s))).map unit) n := by
  have key : ∀ P : (Nat → Option F) → (Nat → Option F) → Prop, (∃ u ∈ (base ++ l).map unit, P u.rampUp u.rampDown) ↔
      (∃ u ∈ (base ++ ss.flatMap (fun s => l.map (share s))).map unit, P u.rampUp u.rampDown) := by
    intro P
    constructor
    · rintro ⟨u, hu', hP⟩
      obtain ⟨a, ha, rfl⟩ := List.mem_map.mp hu'
      rcases List.mem_append.mp ha with ha | ha
      · exact ⟨unit a, List.mem_map_of_mem (List.mem_append_left _ ha), hP⟩
      · obtain ⟨s, hs⟩ := List.exists_mem_of_ne_nil ss hne
        refine ⟨unit (share s a), List.mem_map_of_mem (List.mem_append_right _ (List.mem_flatMap.mpr ⟨s, hs, List.mem_map_of_mem ha⟩)), ?_⟩
        rw [(hu s a).1, (hu s a).2]
        exact hP
    · rintro ⟨u, hu', hP⟩
      obtain ⟨a, ha, rfl⟩ := List.mem_map.mp hu'
      rcases List.mem_append.mp ha with ha | ha
      · exact ⟨unit a, List.mem_map_of_mem (List.mem_append_left _ ha), hP⟩
      · obtain ⟨s, hs, h⟩ := List.mem_flatMap.mp ha
        obtain ⟨b, hb, rfl⟩ := List.mem_map.mp h
        rw [(hu s b).1, (hu s b).2] at hP
        exact ⟨unit b, List.mem_map_of_mem (List.mem_append_right _ hb), hP⟩
  unfold RampsCount
  rw [key (fun a b => ∃ t < n, a t ≠ none ∨ b t ≠ none), key (fun a b => ∃ t < n, a t ≠ some 1 ∨ b t ≠ some 1)]

theorem ne_nil (hs : MakeUp ss) : ss ≠ [] := by
  rintro rfl
  have := hs.sum
  simp at this

theorem gens_ramps (w : WNet F) (m : More F) (hs : MakeUp ss) : RampsCount ((withMore w m).gens.map (·.unit)) w.len ↔
    RampsCount ((withMore w (shares ss m)).gens.map (·.unit)) w.len :=
  ramps_shares w.gens m.gens (·.unit) shareGen (ne_nil hs) (fun _ _ => ⟨rfl, rfl⟩) w.len

theorem links_ramps (w : WNet F) (m : More F) (hs : MakeUp ss) : RampsCount ((withMore w m).links.map (·.unit)) w.len ↔
    RampsCount ((withMore w (shares ss m)).links.map (·.unit)) w.len :=
  ramps_shares w.links m.links (·.unit) shareLink (ne_nil hs) (fun _ _ => ⟨rfl, rfl⟩) w.len

theorem gen_same {m m' : More F} (hr : RampsCount ((withMore w m).gens.map (·.unit)) w.len ↔ RampsCount ((withMore w m').gens.map (·.unit)) w.len)
    {g : GenW F} {y z : Loc → F} (hyz : y = z) (h : GenRule (withMore w m) g y) : GenRule (withMore w m') g z := by
  subst hyz
  have hu := h.unit
  rw [show RampsCount ((withMore w m).gens.map (·.unit)) (withMore w m).len = RampsCount ((withMore w m').gens.map (·.unit)) (withMore w m').len from
    propext hr] at hu
  exact ⟨h.cap, hu, h.set, h.sumMin, h.sumMax⟩

theorem link_same {m m' : More F} (hr : RampsCount ((withMore w m).links.map (·.unit)) w.len ↔ RampsCount ((withMore w m').links.map (·.unit)) w.len)
    {g : LinkW F} {y z : Loc → F} (hyz : y = z) (h : LinkRule (withMore w m) g y) : LinkRule (withMore w m') g z := by
  subst hyz
  have hu := h.unit
  rw [show RampsCount ((withMore w m).links.map (·.unit)) (withMore w m).len = RampsCount ((withMore w m').links.map (·.unit)) (withMore w m').len from
    propext hr] at hu
  exact ⟨h.cap, hu, h.set⟩

theorem store_same {m m' : More F} {g : StoreW F} {y z : Loc → F} (hyz : y = z) (h : StoreRule (withMore w m) g y) : StoreRule (withMore w m') g z := by
  subst hyz
  exact ⟨h.cap, h.limits, h.set, h.level⟩

theorem sunit_same {m m' : More F} {g : UnitW F} {y z : Loc → F} (hyz : y = z) (h : StorageRule (withMore w m) g y) :
    StorageRule (withMore w m') g z := by
  subst hyz
  exact ⟨h.cap, h.dispatch, h.store, h.charge, h.spill, h.set, h.level⟩

theorem branch_same {m m' : More F} {g : BranchW F} {y z : Loc → F} (hyz : y = z) (h : BranchRule (withMore w m) g y) :
    BranchRule (withMore w m') g z := by
  subst hyz
  exact ⟨h.cap, h.limits, h.set, h.loss⟩

/-- **C137.** What the whole may do, its shares may do together, each its part. -/
theorem rules_shared [IsStrictOrderedRing F] (hs : MakeUp ss) (hd : Divisible m) (hw : Sound (withMore w m)) (hw' : Sound (withMore w (shares ss m)))
    (x : WVar → F) (h : Rules (withMore w m) x) : Rules (withMore w (shares ss m)) (shared m ss x) := by
  have hf := fresh_of hw
  have hf' := fresh_of hw'
  refine ⟨?_, ?_, ?_, ?_, ?_, ?_, ?_⟩
  · intro g hg
    rcases List.mem_append.mp hg with hg | hg
    · exact gen_same (gens_ramps w m hs) (funext fun v => (shared_rest x (hf'.gens g hg) v).symm) (h.gens g (List.mem_append_left _ hg))
    · obtain ⟨s, hm, hg⟩ := List.mem_flatMap.mp hg
      obtain ⟨a, ha, rfl⟩ := List.mem_map.mp hg
      have := gen_scale s (gens_ramps w m hs) (hs.pos s hm) (hd.gens a ha).1 (hd.gens a ha).2 (h.gens a (List.mem_append_right _ ha))
      rw [show (fun v => s.part * x (.of "Generator" a.name v)) = (fun v => shared m ss x (.of "Generator" (shareGen s a).name v)) from
        funext fun v => (shared_of hw' x (mem_names.mpr (Or.inl ⟨rfl, a, ha, rfl⟩)) hm v).symm] at this
      exact this
  · intro g hg
    rcases List.mem_append.mp hg with hg | hg
    · exact link_same (links_ramps w m hs) (funext fun v => (shared_rest x (hf'.links g hg) v).symm) (h.links g (List.mem_append_left _ hg))
    · obtain ⟨s, hm, hg⟩ := List.mem_flatMap.mp hg
      obtain ⟨a, ha, rfl⟩ := List.mem_map.mp hg
      have := link_scale s (links_ramps w m hs) (hs.pos s hm) (hd.links a ha).1 (hd.links a ha).2 (h.links a (List.mem_append_right _ ha))
      rw [show (fun v => s.part * x (.of "Link" a.name v)) = (fun v => shared m ss x (.of "Link" (shareLink s a).name v)) from
        funext fun v => (shared_of hw' x (mem_names.mpr (Or.inr (Or.inl ⟨rfl, a, ha, rfl⟩))) hm v).symm] at this
      exact this
  · intro g hg
    rcases List.mem_append.mp hg with hg | hg
    · exact store_same (funext fun v => (shared_rest x (hf'.stores g hg) v).symm) (h.stores g (List.mem_append_left _ hg))
    · obtain ⟨s, hm, hg⟩ := List.mem_flatMap.mp hg
      obtain ⟨a, ha, rfl⟩ := List.mem_map.mp hg
      have := store_scale (m' := shares ss m) s (hs.pos s hm) (hd.stores a ha) (h.stores a (List.mem_append_right _ ha))
      rw [show (fun v => s.part * x (.of "Store" a.name v)) = (fun v => shared m ss x (.of "Store" (shareStore s a).name v)) from
        funext fun v => (shared_of hw' x (mem_names.mpr (Or.inr (Or.inr (Or.inl ⟨rfl, a, ha, rfl⟩)))) hm v).symm] at this
      exact this
  · intro g hg
    rcases List.mem_append.mp hg with hg | hg
    · exact sunit_same (funext fun v => (shared_rest x (hf'.units g hg) v).symm) (h.units g (List.mem_append_left _ hg))
    · obtain ⟨s, hm, hg⟩ := List.mem_flatMap.mp hg
      obtain ⟨a, ha, rfl⟩ := List.mem_map.mp hg
      have := sunit_scale (m' := shares ss m) s (hs.pos s hm) (hd.units a ha) (h.units a (List.mem_append_right _ ha))
      rw [show (fun v => s.part * x (.of "StorageUnit" a.name v)) = (fun v => shared m ss x (.of "StorageUnit" (shareSunit s a).name v)) from
        funext fun v => (shared_of hw' x (mem_names.mpr (Or.inr (Or.inr (Or.inr ⟨rfl, a, ha, rfl⟩)))) hm v).symm] at this
      exact this
  · intro g hg
    have hg' : g ∈ w.lines := by simpa [withMore, shares] using hg
    exact branch_same (funext fun v => (shared_rest x (names_line g.name).1 v).symm) (h.lines g (List.mem_append_left _ hg'))
  · intro g hg
    have hg' : g ∈ w.trafos := by simpa [withMore, shares] using hg
    exact branch_same (funext fun v => (shared_rest x (names_line g.name).2 v).symm) (h.trafos g (List.mem_append_left _ hg'))
  · intro t ht b hb
    rw [supply_whole hd hf]
    have he : supply (withMore w m) (whole m ss (shared m ss x)) t b = supply (withMore w m) x t b := by
      have key : ∀ c a, (a ∈ names m c ∨ a ∉ names (shares ss m) c) → ∀ v, whole m ss (shared m ss x) (.of c a v) = x (.of c a v) :=
        fun c a h v => whole_shared hs hw' x h v
      rw [supply_more w m ⟨hd.lines, hd.trafos⟩, supply_more w m ⟨hd.lines, hd.trafos⟩, supply_base hf]
      congr 1
      · unfold supply
        congr 1; congr 1; congr 1; congr 1; congr 1
        all_goals
          congr 1
          apply List.map_congr_left
          intro g hg
        · simp only [shared_rest _ (hf'.gens g hg)]
        · simp only [shared_rest _ (hf'.stores g hg)]
        · simp only [shared_rest _ (hf'.units g hg)]
        · simp only [shared_rest _ (names_line g.name).1]
        · simp only [shared_rest _ (names_line g.name).2]
        · simp only [shared_rest _ (hf'.links g hg)]
      · congr 1; congr 1; congr 1
        all_goals
          congr 1
          apply List.map_congr_left
          intro g hg
          congr 1
          funext v
        · exact key _ _ (Or.inl (mem_names.mpr (Or.inl ⟨rfl, g, hg, rfl⟩))) v
        · exact key _ _ (Or.inl (mem_names.mpr (Or.inr (Or.inr (Or.inl ⟨rfl, g, hg, rfl⟩))))) v
        · exact key _ _ (Or.inl (mem_names.mpr (Or.inr (Or.inr (Or.inr ⟨rfl, g, hg, rfl⟩))))) v
        · exact key _ _ (Or.inl (mem_names.mpr (Or.inr (Or.inl ⟨rfl, g, hg, rfl⟩)))) v
    rw [he]
    exact h.balance t ht b hb

omit [LinearOrder F] in
theorem set_one (f : Nat → Option F) : shareSet 1 f = f := by
  funext t
  simp [shareSet]

/-- **C137.** What the shares may do, the whole may do. -/
theorem rules_whole [IsStrictOrderedRing F] (hs : MakeUp ss) (hd : Divisible m) (hw : Sound (withMore w m)) (hw' : Sound (withMore w (shares ss m)))
    (y : WVar → F) (h : Rules (withMore w (shares ss m)) y) : Rules (withMore w m) (whole m ss y) := by
  have hf := fresh_of hw
  have hne := ne_nil hs
  refine ⟨?_, ?_, ?_, ?_, ?_, ?_, ?_⟩
  · intro g hg
    rcases List.mem_append.mp hg with hm | hm
    · exact gen_same (gens_ramps w m hs).symm (funext fun v => (whole_rest y _ _ (hf.gens g hm) v).symm) (h.gens g (List.mem_append_left _ hm))
    · have := all_shares (fun s z => GenRule (withMore w (shares ss m)) (shareGen s g) z) id
        (fun s1 s2 s3 y z h3 h1 h2 => gen_add s1 s2 s3 h3 (hd.gens g hm).1 (hd.gens g hm).2 h1 h2)
        (fun s s' y hp hr => by obtain ⟨k, r⟩ := s; obtain ⟨k', r'⟩ := s'; subst hp; exact ⟨hr.cap, hr.unit, hr.set, hr.sumMin, hr.sumMax⟩)
        ss hne (fun s v => y (.of "Generator" (s.rename g.name) v))
        (fun s hss => h.gens (shareGen s g) (List.mem_append_right _ (List.mem_flatMap.mpr ⟨s, hss, List.mem_map_of_mem hm⟩)))
      rw [hs.sum, show shareGen (F := F) ⟨1, id⟩ g = g by
        simp [shareGen, shareUnit, shareInvest, set_one]] at this
      exact gen_same (gens_ramps w m hs).symm (funext fun v => (whole_of y _ _ (mem_names.mpr (Or.inl ⟨rfl, g, hm, rfl⟩)) v).symm) this
  · intro g hg
    rcases List.mem_append.mp hg with hm | hm
    · exact link_same (links_ramps w m hs).symm (funext fun v => (whole_rest y _ _ (hf.links g hm) v).symm) (h.links g (List.mem_append_left _ hm))
    · have := all_shares (fun s z => LinkRule (withMore w (shares ss m)) (shareLink s g) z) id
        (fun s1 s2 s3 y z h3 h1 h2 => link_add s1 s2 s3 h3 (hd.links g hm).1 (hd.links g hm).2 h1 h2)
        (fun s s' y hp hr => by obtain ⟨k, r⟩ := s; obtain ⟨k', r'⟩ := s'; subst hp; exact ⟨hr.cap, hr.unit, hr.set⟩)
        ss hne (fun s v => y (.of "Link" (s.rename g.name) v))
        (fun s hss => h.links (shareLink s g) (List.mem_append_right _ (List.mem_flatMap.mpr ⟨s, hss, List.mem_map_of_mem hm⟩)))
      rw [hs.sum, show shareLink (F := F) ⟨1, id⟩ g = g by
        simp [shareLink, shareUnit, shareInvest, set_one]] at this
      exact link_same (links_ramps w m hs).symm (funext fun v => (whole_of y _ _ (mem_names.mpr (Or.inr (Or.inl ⟨rfl, g, hm, rfl⟩))) v).symm) this
  · intro g hg
    rcases List.mem_append.mp hg with hm | hm
    · exact store_same (funext fun v => (whole_rest y _ _ (hf.stores g hm) v).symm) (h.stores g (List.mem_append_left _ hm))
    · have := all_shares (fun s z => StoreRule (withMore w (shares ss m)) (shareStore s g) z) id
        (fun s1 s2 s3 y z h3 h1 h2 => store_add s1 s2 s3 h3 (hd.stores g hm) h1 h2)
        (fun s s' y hp hr => by obtain ⟨k, r⟩ := s; obtain ⟨k', r'⟩ := s'; subst hp; exact ⟨hr.cap, hr.limits, hr.set, hr.level⟩)
        ss hne (fun s v => y (.of "Store" (s.rename g.name) v))
        (fun s hss => h.stores (shareStore s g) (List.mem_append_right _ (List.mem_flatMap.mpr ⟨s, hss, List.mem_map_of_mem hm⟩)))
      rw [hs.sum, show shareStore (F := F) ⟨1, id⟩ g = g by
        simp [shareStore, shareInvest, set_one]] at this
      exact store_same (funext fun v => (whole_of y _ _ (mem_names.mpr (Or.inr (Or.inr (Or.inl ⟨rfl, g, hm, rfl⟩)))) v).symm) this
  · intro g hg
    rcases List.mem_append.mp hg with hm | hm
    · exact sunit_same (funext fun v => (whole_rest y _ _ (hf.units g hm) v).symm) (h.units g (List.mem_append_left _ hm))
    · have := all_shares (fun s z => 0 < s.part ∧ StorageRule (withMore w (shares ss m)) (shareSunit s g) z) id
        (fun s1 s2 s3 y z h3 h1 h2 => ⟨by rw [h3]; exact add_pos h1.1 h2.1, sunit_add s1 s2 s3 h3 h1.1 h2.1 (hd.units g hm) h1.2 h2.2⟩)
        (fun s s' y hp hr => by
          obtain ⟨k, r⟩ := s; obtain ⟨k', r'⟩ := s'; subst hp
          exact ⟨hr.1, hr.2.cap, hr.2.dispatch, hr.2.store, hr.2.charge, hr.2.spill, hr.2.set, hr.2.level⟩)
        ss hne (fun s v => y (.of "StorageUnit" (s.rename g.name) v))
        (fun s hss => ⟨hs.pos s hss, h.units (shareSunit s g) (List.mem_append_right _ (List.mem_flatMap.mpr ⟨s, hss, List.mem_map_of_mem hm⟩))⟩)
      rw [hs.sum, show shareSunit (F := F) ⟨1, id⟩ g = g by
        simp [shareSunit, shareInvest, set_one]] at this
      exact sunit_same (funext fun v => (whole_of y _ _ (mem_names.mpr (Or.inr (Or.inr (Or.inr ⟨rfl, g, hm, rfl⟩)))) v).symm) this.2
  · intro g hg
    have hg' : g ∈ w.lines := by simpa [withMore, hd.lines] using hg
    exact branch_same (funext fun v => (whole_rest y _ _ (names_line g.name).1 v).symm) (h.lines g (List.mem_append_left _ hg'))
  · intro g hg
    have hg' : g ∈ w.trafos := by simpa [withMore, hd.trafos] using hg
    exact branch_same (funext fun v => (whole_rest y _ _ (names_line g.name).2 v).symm) (h.trafos g (List.mem_append_left _ hg'))
  · intro t ht b hb
    rw [← supply_whole hd hf]
    exact h.balance t ht b hb

/-! ## Rows of the user -/

omit [LinearOrder F] in
theorem lin_spread (y : WVar → F) (ts : List (F × WVar)) : lin y (ts.flatMap (spreadTerm m ss)) = lin (whole m ss y) ts := by
  induction ts with
  | nil => rfl
  | cons e r ih =>
    rw [List.flatMap_cons, lin_append, lin_cons, ih]
    congr 1
    obtain ⟨k, v⟩ := e
    cases v with
    | const => simp [spreadTerm, whole]
    | of c a v =>
      unfold spreadTerm whole
      simp only
      split
      · rw [← List.sum_map_mul_left]
        simp [lin, Function.comp_def]
      · simp

/-- A row says of the shares what it said of the whole. -/
theorem spread_iff (y : WVar → F) (r : Con WVar F) : (spread m ss r).holds y ↔ r.holds (whole m ss y) := by
  unfold Con.holds spread
  simp only [lin_spread]

/-- Neither an asset that is divided nor a share. -/
def Untouched (m : More F) (ss : List (Share F)) : WVar → Prop
  | .of c a _ => a ∉ names m c ∧ a ∉ names (shares ss m) c
  | .const => False

/-- Rows that do not speak of a share by name, unless it has the name of the whole, nor of the constant of the objective. -/
def Plain (m : More F) (ss : List (Share F)) : WVar → Prop
  | .of c a _ => a ∈ names m c ∨ a ∉ names (shares ss m) c
  | .const => False

theorem row_shared (hs : MakeUp ss) (hw' : Sound (withMore w (shares ss m))) {r : Con WVar F} (hr : ∀ e ∈ r.terms, Plain m ss e.2) {x : WVar → F} :
    (spread m ss r).holds (shared m ss x) ↔ r.holds x := by
  rw [spread_iff]
  have : lin (whole m ss (shared m ss x)) r.terms = lin x r.terms := by
    unfold lin
    congr 1
    apply List.map_congr_left
    intro e he
    have := hr e he
    obtain ⟨k, v⟩ := e
    cases v with
    | const => exact this.elim
    | of c a v => rw [whole_shared hs hw' x this v]
  unfold Con.holds
  rw [this]

theorem cost_shared [IsStrictOrderedRing F] (hs : MakeUp ss) (hd : Divisible m) (hw : Sound (withMore w m)) (hw' : Sound (withMore w (shares ss m)))
    (x : WVar → F) : totalCost (withMore w (shares ss m)) (shared m ss x) = totalCost (withMore w m) x := by
  have hf := fresh_of hw
  have hf' := fresh_of hw'
  rw [cost_whole hs hd hf]
  apply cost_agree
  refine ⟨?_, ?_, ?_, ?_, ?_, ?_⟩ <;> intro g hg v <;> apply whole_shared hs hw' <;> rcases List.mem_append.mp hg with hg | hg
  · exact Or.inr (hf'.gens g hg)
  · exact Or.inl (mem_names.mpr (Or.inl ⟨rfl, g, hg, rfl⟩))
  · exact Or.inr (hf'.links g hg)
  · exact Or.inl (mem_names.mpr (Or.inr (Or.inl ⟨rfl, g, hg, rfl⟩)))
  · exact Or.inr (hf'.stores g hg)
  · exact Or.inl (mem_names.mpr (Or.inr (Or.inr (Or.inl ⟨rfl, g, hg, rfl⟩))))
  · exact Or.inr (hf'.units g hg)
  · exact Or.inl (mem_names.mpr (Or.inr (Or.inr (Or.inr ⟨rfl, g, hg, rfl⟩))))
  · exact Or.inr (names_line g.name).1
  · exact Or.inr (names_line g.name).1
  · exact Or.inr (names_line g.name).2
  · exact Or.inr (names_line g.name).2

theorem linear_shares (h : LinearCosts (withMore w m)) : LinearCosts (withMore w (shares ss m)) := by
  have key : ∀ {α : Type} {b l : List α} {f : Share F → α → α} {P : α → Prop}, (∀ a ∈ b ++ l, P a) → (∀ s a, P a → P (f s a)) →
      ∀ a ∈ b ++ ss.flatMap (fun s => l.map (f s)), P a := by
    intro α b l f P h hf a ha
    rcases List.mem_append.mp ha with ha | ha
    · exact h a (List.mem_append_left _ ha)
    · obtain ⟨s, -, ha⟩ := List.mem_flatMap.mp ha
      obtain ⟨c, hc, rfl⟩ := List.mem_map.mp ha
      exact hf s c (h c (List.mem_append_right _ hc))
  exact ⟨key (P := fun g : GenW F => ∀ t, g.costs.quadratic t = 0) h.gens (fun _ _ h => h),
    key (P := fun g : LinkW F => ∀ t, g.costs.quadratic t = 0) h.links (fun _ _ h => h),
    key (P := fun g : StoreW F => ∀ t, g.costs.quadratic t = 0) h.stores (fun _ _ h => h),
    key (P := fun g : UnitW F => ∀ t, g.costs.quadratic t = 0) h.units (fun _ _ h => h),
    key (P := fun g : GenW F => 0 ≤ g.unit.startUpCost ∧ 0 ≤ g.unit.shutDownCost) h.genEvents (fun _ _ h => h),
    key (P := fun g : LinkW F => 0 ≤ g.unit.startUpCost ∧ 0 ≤ g.unit.shutDownCost) h.linkEvents (fun _ _ h => h)⟩

theorem orderly_shares (h : Orderly (withMore w m)) : Orderly (withMore w (shares ss m)) := by
  have key : ∀ {α : Type} {b l : List α} {f : Share F → α → α} {P : α → Prop}, (∀ a ∈ b ++ l, P a) → (∀ s a, P a → P (f s a)) →
      ∀ a ∈ b ++ ss.flatMap (fun s => l.map (f s)), P a := by
    intro α b l f P h hf a ha
    rcases List.mem_append.mp ha with ha | ha
    · exact h a (List.mem_append_left _ ha)
    · obtain ⟨s, -, ha⟩ := List.mem_flatMap.mp ha
      obtain ⟨c, hc, rfl⟩ := List.mem_map.mp ha
      exact hf s c (h c (List.mem_append_right _ hc))
  exact ⟨key (P := fun g : GenW F => Recorded w.rolling g.unit) h.gens (fun _ _ h => h), key (P := fun g : LinkW F => Recorded w.rolling g.unit) h.links (fun _ _ h => h),
    key (P := fun g : StoreW F => InPeriods w g.storage) h.stores (fun _ _ h => h),
    key (P := fun g : UnitW F => InPeriods w g.storage.toStorage) h.units (fun _ _ h => h)⟩

/-- **C137.** An asset, or its shares: the cheapest systems are the same and cost the same. From an optimum with the
whole asset one gets an optimum with the shares in which each share does its part; from an optimum with the shares, however
they divide the work, one gets an optimum with the whole asset, which does what they do together. `D` restricts the
other variables, e.g. to whole numbers. -/
theorem shares_optimum [IsStrictOrderedRing F] (hs : MakeUp ss) (hd : Divisible m) (hw : Sound (withMore w m)) (hw' : Sound (withMore w (shares ss m)))
    (hlin : LinearCosts (withMore w m)) (ho : Orderly (withMore w m)) {other : List (Con WVar F)} (hother : ∀ r ∈ other, ∀ e ∈ r.terms, Plain m ss e.2)
    {P Q : Program F} (hP : createModel (withMore w m) other = some P) (hQ : createModel (withMore w (shares ss m)) (other.map (spread m ss)) = some Q)
    (D : (WVar → F) → Prop) (hD : ∀ x z, (∀ v, Untouched m ss v → x v = z v) → D x → D z) :
    (∀ x, SolverBest (withMore w m) P D x → ∃ k, SolverBest (withMore w (shares ss m)) Q D (setConst k (shared m ss x)) ∧
      costOf (withMore w (shares ss m)) Q (setConst k (shared m ss x)) = costOf (withMore w m) P x) ∧
    (∀ y, SolverBest (withMore w (shares ss m)) Q D y → ∃ k, SolverBest (withMore w m) P D (setConst k (whole m ss y)) ∧
      costOf (withMore w m) P (setConst k (whole m ss y)) = costOf (withMore w (shares ss m)) Q y) := by
  have hlin' := linear_shares (ss := ss) hlin
  have ho' := orderly_shares (ss := ss) ho
  have hconst : ∀ k z, D z → D (setConst k z) := fun k z => hD z _ (fun v hv => by cases v with | const => exact hv.elim | of c a v => rfl)
  have hwhole : ∀ y, D y → D (whole m ss y) := fun y => hD y _ (fun v hv => by
    cases v with
    | const => exact hv.elim
    | of c a v => exact (whole_rest y _ _ hv.1 v).symm)
  have hshared : ∀ y, D y → D (shared m ss y) := fun y => hD y _ (fun v hv => by
    cases v with
    | const => exact hv.elim
    | of c a v => exact (shared_rest y hv.2 v).symm)
  have hrow : ∀ r ∈ other, ∀ e ∈ r.terms, e.2 ≠ .const := fun r hr e he h => by
    have := hother r hr e he
    rw [h] at this
    exact this
  have hrow' : ∀ r ∈ other.map (spread m ss), ∀ e ∈ r.terms, e.2 ≠ .const := by
    intro r hr e he h
    obtain ⟨r, hr', rfl⟩ := List.mem_map.mp hr
    obtain ⟨q, hq, he⟩ := List.mem_flatMap.mp he
    have := hrow r hr' q hq
    obtain ⟨k, v⟩ := q
    cases v with
    | const => exact this rfl
    | of c a v =>
      unfold spreadTerm at he
      simp only at he
      split at he
      · obtain ⟨s, -, rfl⟩ := List.mem_map.mp he
        cases h
      · rw [List.mem_singleton] at he
        subst he
        cases h
  have b := best_iff hw hlin ho hrow hP D hconst
  have b' := best_iff hw' hlin' ho' hrow' hQ D hconst
  have down : ∀ z, Rules (withMore w (shares ss m)) z ∧ Feasible z (other.map (spread m ss)) ∧ D z →
      Rules (withMore w m) (whole m ss z) ∧ Feasible (whole m ss z) other ∧ D (whole m ss z) := by
    rintro z ⟨z1, z2, z3⟩
    exact ⟨rules_whole hs hd hw hw' z z1, fun r hr => (spread_iff z r).mp (z2 _ (List.mem_map_of_mem hr)), hwhole z z3⟩
  have up : ∀ z, Rules (withMore w m) z ∧ Feasible z other ∧ D z →
      Rules (withMore w (shares ss m)) (shared m ss z) ∧ Feasible (shared m ss z) (other.map (spread m ss)) ∧ D (shared m ss z) := by
    rintro z ⟨z1, z2, z3⟩
    refine ⟨rules_shared hs hd hw hw' z z1, fun r hr => ?_, hshared z z3⟩
    obtain ⟨r, hr', rfl⟩ := List.mem_map.mp hr
    exact (row_shared hs hw' (hother r hr')).mpr (z2 r hr')
  have cw := fun y => cost_whole (ss := ss) hs hd (fresh_of hw) y
  have cs := fun x => cost_shared hs hd hw hw' x
  constructor
  · intro x hx
    obtain ⟨⟨x1, x2, x3, x4⟩, hc⟩ := (b x).1 hx
    obtain ⟨u1, u2, u3⟩ := up x ⟨x1, x2, x3⟩
    have hbest := (b' (shared m ss x)).2 ⟨u1, u2, u3, fun z z1 z2 z3 => by
      obtain ⟨d1, d2, d3⟩ := down z ⟨z1, z2, z3⟩
      rw [cs, cw]
      exact x4 _ d1 d2 d3⟩
    refine ⟨_, hbest, ?_⟩
    rw [((b' _).1 hbest).2, hc]
    exact cs x
  · intro y hy
    obtain ⟨⟨y1, y2, y3, y4⟩, hc⟩ := (b' y).1 hy
    obtain ⟨u1, u2, u3⟩ := down y ⟨y1, y2, y3⟩
    have hbest := (b (whole m ss y)).2 ⟨u1, u2, u3, fun z z1 z2 z3 => by
      obtain ⟨d1, d2, d3⟩ := up z ⟨z1, z2, z3⟩
      rw [← cw, ← cs]
      exact y4 _ d1 d2 d3⟩
    refine ⟨_, hbest, ?_⟩
    rw [((b _).1 hbest).2, hc]
    exact (cw y).symm

end main

/-! ## Example -/

/-- The example of `WholeExample.lean` without the assets to divide. -/
def exBase : WNet ℚ := { exNet with gens := [exGen], links := [], stores := [], units := [] }
def exWhole : More ℚ := { gens := [exPeaker], links := [exLink], stores := [exStore], units := [exBattery], lines := [], trafos := [] }
def exShares : List (Share ℚ) := [⟨1 / 4, id⟩, ⟨3 / 4, fun n => "rest of " ++ n⟩]

theorem exShares_some : (createModel (withMore exBase (shares exShares exWhole)) (exOther.map (spread exWhole exShares))).isSome = true := by
  decide +kernel

theorem exBest : SolverBest exNet exModel (fun _ => True) exVal := by
  refine ⟨by unfold FeasibleIn; decide +kernel, trivial, fun z hz _ => ?_⟩
  unfold costOf
  have := cost_bound exSolved.answer (fun r => r.1.rhs) z (fun r hr => by
    rcases List.mem_append.mp hr with hr | hr
    · obtain ⟨q, hq, rfl⟩ := List.mem_map.mp hr
      exact hz.2 _ (List.mem_map_of_mem hq)
    · exact hz.1 _ (mem_zip_left hr))
  simp only [sub_self, mul_zero, List.map_const', List.sum_replicate, smul_zero, add_zero] at this
  linarith

theorem exSharesSound : Sound (withMore exBase (shares exShares exWhole)) := by
  constructor <;> decide +kernel

/-- A quarter and three quarters of every asset but the wind turbines: an optimum with the shares, at the same cost. -/
example : ∃ y, SolverBest (withMore exBase (shares exShares exWhole)) ((createModel _ (exOther.map (spread exWhole exShares))).get exShares_some)
      (fun _ => True) y ∧
    costOf (withMore exBase (shares exShares exWhole)) ((createModel _ (exOther.map (spread exWhole exShares))).get exShares_some) y =
      costOf exNet exModel exVal ∧
    y (.of "Generator" "peaker" (.op "p" 1)) = 3 / 2 ∧ y (.of "Generator" "rest of peaker" (.op "p" 1)) = 9 / 2 := by
  obtain ⟨k, h1, h2⟩ := (shares_optimum (w := exBase) (m := exWhole) (ss := exShares) (other := exOther)
    ⟨by decide +kernel, by decide +kernel⟩ ⟨by decide +kernel, by decide +kernel, by decide +kernel, by decide +kernel, rfl, rfl⟩ exSound exSharesSound exLinear
    (orderly_single rfl rfl) (by
      intro r hr e he
      simp only [exOther, List.mem_singleton] at hr
      subst hr
      simp only [List.mem_cons, List.not_mem_nil, or_false] at he
      rcases he with rfl | rfl <;> exact Or.inl (by decide +kernel)) exModel_eq (Option.some_get exShares_some).symm (fun _ => True)
    (fun _ _ _ _ => trivial)).1 exVal exBest
  refine ⟨_, h1, h2, ?_, ?_⟩
  · show shared exWhole exShares exVal (.of "Generator" "peaker" (.op "p" 1)) = 3 / 2
    decide +kernel
  · show shared exWhole exShares exVal (.of "Generator" "rest of peaker" (.op "p" 1)) = 9 / 2
    decide +kernel

/-- Two halves need not do the same: however they divide the work, together they do what the whole may do. -/
example : whole exWhole exShares (fun v => if v = .of "Generator" "peaker" (.op "p" 1) then 5 else if v = .of "Generator" "rest of peaker" (.op "p" 1) then 1 else 0)
    (.of "Generator" "peaker" (.op "p" 1)) = 6 := by
  decide +kernel

end Verif.Opt.Whole.Shares
