import Verif.Opt.PeriodProps
import Verif.Opt.WeightingProps
import Mathlib.Logic.Equiv.Defs
import Mathlib.Data.Nat.ModEq
import Mathlib.Logic.Equiv.Basic
import Mathlib.Algebra.Group.End
import Mathlib.Tactic.IntervalCases

/-!
# C144: the order of the snapshots, and where the year begins

Over the whole problem of `Whole.lean` and the rules of `RulesProps.lean`.
-/

namespace Verif.Opt.Whole.Turn

open Doc Snap Weights

variable {F : Type} [Field F] [LinearOrder F]

/-! ## A network with its snapshots in another order -/

def storageTurn (σ : Nat → Nat) (s : Storage F) : Storage F :=
  { s with active := fun t => s.active (σ t), eh := fun t => s.eh (σ t), keep := fun t => s.keep (σ t) }

def storeTurn (σ : Nat → Nat) (s : StoreW F) : StoreW F :=
  { s with storage := storageTurn σ s.storage, minPu := fun t => s.minPu (σ t), maxPu := fun t => s.maxPu (σ t), costs := costsRep σ s.costs,
           eSet := fun t => s.eSet (σ t) }

def sunitTurn (σ : Nat → Nat) (s : UnitW F) : UnitW F :=
  { s with storage := ⟨storageTurn σ s.storage.toStorage, fun t => s.storage.effStore (σ t), fun t => s.storage.effDispatch (σ t), fun t => s.storage.inflow (σ t)⟩,
           minPu := fun t => s.minPu (σ t), maxPu := fun t => s.maxPu (σ t), costs := costsRep σ s.costs, socSet := fun t => s.socSet (σ t) }

/-- All series and weightings have at snapshot `t` the value they had at `σ t`. -/
def turn (σ : Nat → Nat) (w : WNet F) : WNet F :=
  { repeatNet w σ w.len (fun t => w.sw (σ t)) (fun t => w.gw (σ t)) with stores := w.stores.map (storeTurn σ), units := w.units.map (sunitTurn σ) }

/-- A variable of another snapshot. -/
def moved (σ : Nat → Nat) : WVar → WVar
  | .of c a (.op v t) => .of c a (.op v (σ t))
  | v => v

/-- Rows of the same snapshots, in the new order. -/
def turnRows (σ : Equiv.Perm Nat) (other : List (Con WVar F)) : List (Con WVar F) := other.map (remap (moved σ.symm))

/-- The order of the `n` snapshots is changed. -/
def Order (n : Nat) (σ : Equiv.Perm Nat) : Prop := ∀ t, σ t < n ↔ t < n

/-- The snapshots start `k` later, and those left out come last. -/
def Rotation (n k : Nat) (σ : Equiv.Perm Nat) : Prop := ∀ t < n, σ t = (t + k) % n

/-- The snapshot before, which is the last one for the first. -/
def before (n t : Nat) : Nat := if t = 0 then n - 1 else t - 1

/-- The storage is cyclic, and in service at all snapshots or at none. -/
def Round (s : Storage F) : Prop := s.cyclic = true ∧ ∀ r t, s.active r = s.active t

/-- Neither commitment nor ramp limits; storages, if any, are cyclic and the snapshots keep their cyclic order. -/
structure Turnable (σ : Equiv.Perm Nat) (w : WNet F) : Prop where
  order : Order w.len σ
  gens : ∀ g ∈ w.gens, Weights.Plain g.unit
  links : ∀ g ∈ w.links, Weights.Plain g.unit
  storage : (w.stores = [] ∧ w.units = []) ∨ (w.multi = false ∧ (∀ t < w.len, σ (before w.len t) = before w.len (σ t)) ∧
    (∀ s ∈ w.stores, Round s.storage) ∧ ∀ s ∈ w.units, Round s.storage.toStorage)

/-! ## Rotations -/

theorem rotation_order {n k : Nat} {σ : Equiv.Perm Nat} (h : Rotation n k σ) (hrest : ∀ t, n ≤ t → σ t = t) : Order n σ := by
  intro t
  by_cases ht : t < n
  · rw [h t ht]
    exact ⟨fun _ => ht, fun _ => Nat.mod_lt _ (by omega)⟩
  · rw [hrest t (by omega)]

theorem rotation_before {n k : Nat} {σ : Equiv.Perm Nat} (h : Rotation n k σ) {t : Nat} (ht : t < n) : σ (before n t) = before n (σ t) := by
  have hb : before n t < n := by
    unfold before
    split <;> omega
  rw [h _ hb, h t ht]
  have e : (before n t + 1) % n = t % n := by
    unfold before
    split
    · rename_i h0
      subst h0
      rw [Nat.sub_add_cancel ht]
      simp
    · rw [Nat.sub_add_cancel (by omega)]
  have e2 : ((before n t + k) % n + 1) % n = (t + k) % n := by
    rw [Nat.mod_add_mod]
    have : before n t + k + 1 = before n t + 1 + k := by omega
    rw [this, Nat.add_mod, e, ← Nat.add_mod]
  have h1 : (before n t + k) % n < n := Nat.mod_lt _ (by omega)
  generalize (before n t + k) % n = a at e2 h1
  unfold before
  by_cases ha : a + 1 = n
  · rw [ha, Nat.mod_self] at e2
    rw [if_pos e2.symm]
    omega
  · rw [Nat.mod_eq_of_lt (by omega)] at e2
    rw [if_neg (by omega), ← e2]
    omega

/-- There is a rotation for every start. -/
theorem rotation_exists (n k : Nat) : ∃ σ : Equiv.Perm Nat, Rotation n k σ ∧ ∀ t, n ≤ t → σ t = t := by
  let f : Nat → Nat := fun t => if t < n then (t + k) % n else t
  have hf : ∀ t, f t < n ↔ t < n := by
    intro t
    show (if t < n then (t + k) % n else t) < n ↔ _
    split
    · rename_i ht
      exact ⟨fun _ => ht, fun _ => Nat.mod_lt _ (by omega)⟩
    · rfl
  have inj : Function.Injective f := by
    intro a b hab
    by_cases ha : a < n
    · have hb : b < n := by rwa [← hf b, ← hab, hf a]
      have e : (a + k) % n = (b + k) % n := by simpa [f, ha, hb] using hab
      have := Nat.ModEq.add_right_cancel' k e
      rwa [Nat.ModEq, Nat.mod_eq_of_lt ha, Nat.mod_eq_of_lt hb] at this
    · have hb : ¬ b < n := by rwa [← hf b, ← hab, hf a]
      simpa [f, ha, hb] using hab
  have surj : Function.Surjective f := by
    intro b
    by_cases hb : b < n
    · refine ⟨(b + (n - k % n)) % n, ?_⟩
      have hn : 0 < n := by omega
      have hk := Nat.mod_lt k hn
      have hl : (b + (n - k % n)) % n < n := Nat.mod_lt _ hn
      simp only [f, if_pos hl]
      rw [Nat.mod_add_mod]
      have e : (b + (n - k % n) + k) % n = (b + (n - k % n) + k % n) % n := by rw [Nat.add_mod_mod]
      rw [e, show b + (n - k % n) + k % n = b + n by omega, Nat.add_mod_right, Nat.mod_eq_of_lt hb]
    · exact ⟨b, by simp [f, hb]⟩
  refine ⟨Equiv.ofBijective f ⟨inj, surj⟩, fun t ht => ?_, fun t ht => ?_⟩
  · show f t = _
    simp [f, ht]
  · show f t = _
    simp [f, Nat.not_lt.mpr ht]

/-! ## Turning back -/

theorem order_symm {n : Nat} {σ : Equiv.Perm Nat} (h : Order n σ) : Order n σ.symm := by
  intro t
  rw [← h (σ.symm t), Equiv.apply_symm_apply]

omit [Field F] [LinearOrder F] in
theorem turn_back (σ : Equiv.Perm Nat) (w : WNet F) : turn σ.symm (turn σ w) = w := by
  have e : ∀ {α : Type} (l : List α) (f : α → α), (∀ a, f a = a) → l.map f = l := by
    intro α l f h
    rw [funext h, List.map_id']
  have hp : Option.map (fun p : List Int × (Int → F) × (Nat → Int) => (p.1, p.2.1, fun t => p.2.2 t)) w.periods = w.periods := by
    cases w.periods <;> rfl
  have hlink : ∀ g : LinkW F, linkRep σ.symm (linkRep σ g) = g := by
    intro g
    simp only [linkRep, unitRep, costsRep, List.map_map, Function.comp_def, Equiv.apply_symm_apply]
    rw [show (fun e : Name × (Nat → F) => (e.1, fun t => e.2 t)) = id from rfl, List.map_id]
  have h1 : (w.gens.map (genRep σ)).map (genRep σ.symm) = w.gens := by
    rw [List.map_map]
    exact e _ _ (fun g => by simp [genRep, unitRep, costsRep])
  have h2 : (w.links.map (linkRep σ)).map (linkRep σ.symm) = w.links := by
    rw [List.map_map]
    exact e _ _ hlink
  have h3 : (w.stores.map (storeTurn σ)).map (storeTurn σ.symm) = w.stores := by
    rw [List.map_map]
    exact e _ _ (fun g => by simp [storeTurn, storageTurn, costsRep])
  have h4 : (w.units.map (sunitTurn σ)).map (sunitTurn σ.symm) = w.units := by
    rw [List.map_map]
    exact e _ _ (fun g => by simp [sunitTurn, storageTurn, costsRep])
  have h5 : ∀ l : List (BranchW F), (l.map (branchRep σ)).map (branchRep σ.symm) = l := by
    intro l
    rw [List.map_map]
    exact e _ _ (fun g => by simp [branchRep])
  have h6 : (w.loads.map (loadRep σ)).map (loadRep σ.symm) = w.loads := by
    rw [List.map_map]
    exact e _ _ (fun g => by simp [loadRep])
  simp only [turn, repeatNet, h1, h2, h3, h4, h5, h6, Option.map_map, Function.comp_def, Equiv.apply_symm_apply, hp]

omit [Field F] [LinearOrder F] in
theorem expand_back (σ : Equiv.Perm Nat) (x : WVar → F) : expand σ.symm (expand σ x) = x := by
  funext v
  cases v with
  | const => rfl
  | of c a v => cases v <;> simp [expand]

omit [Field F] [LinearOrder F] in
theorem turnable_back {σ : Equiv.Perm Nat} {w : WNet F} (h : Turnable σ w) : Turnable σ.symm (turn σ w) := by
  refine ⟨order_symm h.order, ?_, ?_, ?_⟩
  · intro g hg
    obtain ⟨g, hm, rfl⟩ := List.mem_map.mp hg
    exact ⟨(h.gens g hm).com, fun t => (h.gens g hm).ramps (σ t)⟩
  · intro g hg
    obtain ⟨g, hm, rfl⟩ := List.mem_map.mp hg
    exact ⟨(h.links g hm).com, fun t => (h.links g hm).ramps (σ t)⟩
  · rcases h.storage with ⟨h1, h2⟩ | ⟨h1, h2, h3, h4⟩
    · exact .inl ⟨by simp [turn, h1], by simp [turn, h2]⟩
    · refine .inr ⟨h1, fun t ht => ?_, ?_, ?_⟩
      · have ht' : t < w.len := ht
        have := h2 (σ.symm t) ((order_symm h.order t).mpr ht')
        rw [Equiv.apply_symm_apply] at this
        show σ.symm (before w.len t) = before w.len (σ.symm t)
        rw [← this, Equiv.symm_apply_apply]
      · intro s hs
        obtain ⟨s, hm, rfl⟩ := List.mem_map.mp hs
        exact ⟨(h3 s hm).1, fun r t => (h3 s hm).2 (σ r) (σ t)⟩
      · intro s hs
        obtain ⟨s, hm, rfl⟩ := List.mem_map.mp hs
        exact ⟨(h4 s hm).1, fun r t => (h4 s hm).2 (σ r) (σ t)⟩

/-! ## Rules -/

/-- Sums over all snapshots do not depend on their order. -/
theorem sum_turn {M : Type} [AddCommMonoid M] {n : Nat} {σ : Equiv.Perm Nat} (h : Order n σ) (f : Nat → M) :
    ((List.range n).map (fun t => f (σ t))).sum = ((List.range n).map f).sum := by
  have hp : ((List.range n).map σ).Perm (List.range n) := by
    refine (List.perm_ext_iff_of_nodup (List.nodup_range.map σ.injective) List.nodup_range).mpr (fun t => ?_)
    rw [List.mem_map, List.mem_range]
    constructor
    · rintro ⟨s, hs, rfl⟩
      exact (h s).mpr (List.mem_range.mp hs)
    · intro ht
      exact ⟨σ.symm t, List.mem_range.mpr ((order_symm h t).mpr ht), Equiv.apply_symm_apply σ t⟩
  have := (hp.map f).sum_eq
  rwa [List.map_map] at this

theorem unit_turn {u : Unit' F} (h : Weights.Plain u) {n : Nat} {σ : Equiv.Perm Nat} (ho : Order n σ) {past past' : Past F} {l r l' r' : Prop} {p st up dn st' up' dn' : Nat → F}
    {cap : F} (hu : UnitRule u past l r n p st up dn cap) : UnitRule (unitRep σ u) past' l' r' n (fun t => p (σ t)) st' up' dn' cap := by
  have hc : ∀ {A : Prop}, (unitRep σ u).committable = true → A := fun hc => by
    have : u.committable = true := hc
    rw [h.com] at this
    cases this
  have hru : ∀ t q {A : Prop}, (unitRep σ u).rampUp t = some q → A := fun t q {A} hq => by
    have : u.rampUp (σ t) = some q := hq
    rw [(h.ramps _).1] at this
    cases this
  have hrd : ∀ t q {A : Prop}, (unitRep σ u).rampDown t = some q → A := fun t q {A} hq => by
    have : u.rampDown (σ t) = some q := hq
    rw [(h.ramps _).2] at this
    cases this
  exact ⟨fun h1 h2 t ht ha => hu.fixed h1 h2 (σ t) ((ho t).mpr ht) ha, fun h1 t ht ha => hu.extendable h1 (σ t) ((ho t).mpr ht) ha, hc, hc, hc, hc, hc, hc, hc, hc,
    fun _ t _ _ q hq => hru _ q hq, fun _ t _ _ q hq => hrd _ q hq, fun _ => hc, fun _ => hc,
    fun _ _ _ _ _ _ => ⟨fun q hq => hru _ q hq, hc⟩, fun _ _ _ _ _ _ => ⟨fun q hq => hrd _ q hq, hc⟩, fun _ => hc⟩

omit [LinearOrder F] in
/-- The account of a cyclic storage. -/
theorem level_round {n : Nat} {active : Nat → Bool} (ha : ∀ r t, active r = active t) {init : F} {keep level gain : Nat → F} :
    LevelRule n active true init keep level gain ↔ (∀ t < n, active t = true → level t = keep t * level (before n t) + gain t) := by
  constructor
  · intro h t ht hat
    unfold before
    split
    · rename_i h0
      subst h0
      exact h.around rfl (n - 1) 0 (by omega) (by omega) (by rw [ha _ 0]; exact hat) hat (fun r hr => by omega) (fun r h1 h2 => by omega)
    · exact h.next (t - 1) t (by omega) ht (by rw [ha _ t]; exact hat) hat (fun r h1 h2 => by omega)
  · intro h
    refine ⟨fun s t h1 h2 h3 h4 h5 => ?_, fun _ s t h1 h2 h3 h4 h5 h6 => ?_, fun hc => (by cases hc)⟩
    · have hst : s = t - 1 := by
        by_contra hne
        have := h5 (s + 1) (by omega) (by omega)
        rw [ha _ t, h4] at this
        cases this
      have := h t h2 h4
      rwa [before, if_neg (by omega), ← hst] at this
    · have ht : t = 0 := by
        by_contra hne
        have := h5 0 (by omega)
        rw [ha _ t, h4] at this
        cases this
      have hs : s = n - 1 := by
        by_contra hne
        have := h6 (s + 1) (by omega) (by omega)
        rw [ha _ t, h4] at this
        cases this
      subst ht
      have := h 0 (by omega) h4
      rwa [before, if_pos rfl, ← hs] at this

omit [LinearOrder F] in
theorem period_turn {σ : Equiv.Perm Nat} {w : WNet F} (ho : Order w.len σ) (hm : w.multi = false)
    (hb : ∀ t < w.len, σ (before w.len t) = before w.len (σ t)) {s : Storage F} (hs : Round s) {level gain : Nat → F} (h : PeriodRule w s level gain) :
    PeriodRule (turn σ w) (storageTurn σ s) (fun t => level (σ t)) (fun t => gain (σ t)) := by
  unfold PeriodRule at h ⊢
  rw [if_neg (by simp [hm])] at h
  rw [if_neg (by simp [turn, repeatNet, hm])]
  rw [show (storageTurn σ s).cyclic = true from hs.1]
  rw [hs.1] at h
  refine (level_round (fun r t => hs.2 (σ r) (σ t))).mpr (fun t ht ha => ?_)
  have ht' : t < w.len := ht
  have := (level_round hs.2).mp h (σ t) ((ho t).mpr ht') ha
  rw [← hb t ht'] at this
  exact this

omit [LinearOrder F] in
theorem supply_turn (σ : Nat → Nat) (w : WNet F) (x : WVar → F) (t : Nat) (b : Name) : supply (turn σ w) (expand σ x) t b = supply w x (σ t) b := by
  unfold supply
  simp only [turn, repeatNet, List.map_map, Function.comp_def, genRep, linkRep, branchRep, unitRep, storeTurn, sunitTurn, storageTurn, expand]
  rfl

omit [LinearOrder F] in
theorem demand_turn (σ : Nat → Nat) (w : WNet F) (t : Nat) (b : Name) : demand (turn σ w) t b = demand w (σ t) b := by
  unfold demand
  simp only [turn, repeatNet, List.map_map, Function.comp_def, loadRep]

omit [LinearOrder F] in
theorem branch_turn {σ : Equiv.Perm Nat} {w : WNet F} (ho : Order w.len σ) {b : BranchW F} {y : Loc → F} {y' : Loc → F} [LinearOrder F]
    (hc : y' .cap = y .cap ∧ y' .mod = y .mod) (hy : ∀ v t, y' (.op v t) = y (.op v (σ t))) (h : BranchRule w b y) : BranchRule (turn σ w) (branchRep σ b) y' := by
  refine ⟨?_, fun t ht ha => ?_, fun t ht ha s hs => ?_, fun h0 t ht ha rating hr => ?_⟩
  · rw [hc.1, hc.2]
    exact h.cap
  · have := h.limits (σ t) ((ho t).mpr ht) ha
    rw [hc.1, hy, hy]
    exact this
  · show y' (.op "s" t) = s
    rw [hy]
    exact h.set (σ t) ((ho t).mpr ht) ha s hs
  · rw [hy, hy]
    exact h.loss h0 (σ t) ((ho t).mpr ht) ha rating hr

theorem rules_turn {σ : Equiv.Perm Nat} {w : WNet F} (h : Turnable σ w) {x : WVar → F} (hx : Rules w x) : Rules (turn σ w) (expand σ x) := by
  have ho := h.order
  have hex : ∀ active : Nat → Bool, (∃ t < w.len, active (σ t) = true) → ∃ t < w.len, active t = true := fun active ⟨t, ht, ha⟩ => ⟨σ t, (ho t).mpr ht, ha⟩
  have hsum : ∀ (gw : Nat → F) (active : Nat → Bool) (y : Nat → F), total w.len (fun t => gw (σ t)) (fun t => active (σ t)) (fun t => y (σ t)) = total w.len gw active y :=
    fun gw active y => sum_turn ho (fun t => if active t then gw t * y t else 0)
  refine ⟨fun g hg => ?_, fun g hg => ?_, fun s hs => ?_, fun s hs => ?_, fun b hb => ?_, fun b hb => ?_, fun t ht b hb => ?_⟩
  · obtain ⟨g, hm, rfl⟩ := List.mem_map.mp hg
    have r := hx.gens g hm
    refine ⟨r.cap, unit_turn (h.gens g hm) ho r.unit, fun t ht ha => r.set (σ t) ((ho t).mpr ht) ha, fun he e h1 => ?_, fun he e h1 => ?_⟩
    · exact (r.sumMin (hex g.unit.active he) e h1).trans_eq (hsum w.gw g.unit.active (fun t => x (.of "Generator" g.name (.op "p" t)))).symm
    · exact (hsum w.gw g.unit.active (fun t => x (.of "Generator" g.name (.op "p" t)))).trans_le (r.sumMax (hex g.unit.active he) e h1)
  · obtain ⟨g, hm, rfl⟩ := List.mem_map.mp hg
    have r := hx.links g hm
    exact ⟨r.cap, unit_turn (h.links g hm) ho r.unit, fun t ht ha => r.set (σ t) ((ho t).mpr ht) ha⟩
  · obtain ⟨s, hm, rfl⟩ := List.mem_map.mp hs
    have r := hx.stores s hm
    rcases h.storage with ⟨h1, -⟩ | ⟨h1, h2, h3, -⟩
    · rw [h1] at hm
      cases hm
    · exact ⟨r.cap, fun t ht ha => r.limits (σ t) ((ho t).mpr ht) ha, fun t ht ha => r.set (σ t) ((ho t).mpr ht) ha, period_turn ho h1 h2 (h3 s hm) r.level⟩
  · obtain ⟨s, hm, rfl⟩ := List.mem_map.mp hs
    have r := hx.units s hm
    rcases h.storage with ⟨-, h1⟩ | ⟨h1, h2, -, h3⟩
    · rw [h1] at hm
      cases hm
    · exact ⟨r.cap, fun t ht ha => r.dispatch (σ t) ((ho t).mpr ht) ha, fun t ht ha => r.store (σ t) ((ho t).mpr ht) ha,
        fun t ht ha => r.charge (σ t) ((ho t).mpr ht) ha, fun t ht ha => r.spill (σ t) ((ho t).mpr ht) ha, fun t ht ha => r.set (σ t) ((ho t).mpr ht) ha,
        period_turn ho h1 h2 (h3 s hm) r.level⟩
  · obtain ⟨b, hm, rfl⟩ := List.mem_map.mp hb
    exact branch_turn ho ⟨rfl, rfl⟩ (fun _ _ => rfl) (hx.lines b hm)
  · obtain ⟨b, hm, rfl⟩ := List.mem_map.mp hb
    exact branch_turn ho ⟨rfl, rfl⟩ (fun _ _ => rfl) (hx.trafos b hm)
  · rw [supply_turn, demand_turn]
    exact hx.balance (σ t) ((ho t).mpr ht) b hb

theorem other_turn {σ : Equiv.Perm Nat} {other : List (Con WVar F)} {x : WVar → F} : Feasible (expand σ x) (turnRows σ other) ↔ Feasible x other := by
  have e : (fun v => expand σ x (moved σ.symm v)) = x := by
    funext v
    cases v with
    | const => rfl
    | of c a v => cases v <;> simp [expand, moved]
  unfold Feasible turnRows
  constructor
  · intro h r hr
    have := h _ (List.mem_map_of_mem hr)
    rwa [holds_remap, e] at this
  · intro h r hr
    obtain ⟨r, hm, rfl⟩ := List.mem_map.mp hr
    rw [holds_remap, e]
    exact h r hm

/-! ## Costs and optima -/

theorem cost_turn {σ : Equiv.Perm Nat} {w : WNet F} (ho : Order w.len σ) (x : WVar → F) : totalCost (turn σ w) (expand σ x) = totalCost w x := by
  have hw : ∀ t, weight (turn σ w) t = weight w (σ t) := by
    intro t
    unfold weight turn repeatNet
    cases w.periods <;> rfl
  have hl : ∀ i, lifeWeight (turn σ w) i = lifeWeight w i := by
    intro i
    unfold lifeWeight turn repeatNet
    cases w.periods <;> rfl
  have e : ∀ {α : Type} (l : List α) (f : α → α) (c : α → F) (c' : α → F), (∀ a, c' (f a) = c a) → ((l.map f).map c').sum = (l.map c).sum := by
    intro α l f c c' h
    rw [List.map_map]
    exact congrArg List.sum (List.map_congr_left (fun a _ => h a))
  unfold totalCost
  congr 1
  · congr 1
    · congr 1
      · congr 1
        · congr 1
          · refine e w.gens (genRep σ) _ _ (fun g => ?_)
            unfold genCost
            simp only [hw, hl]
            congr 1
            exact sum_turn ho (fun t => if g.unit.active t then
              weight w t * g.costs.marginal t * x (.of "Generator" g.name (.op "p" t)) +
                if g.unit.committable then weight w t * g.costs.standBy t * x (.of "Generator" g.name (.op "status" t)) +
                  g.unit.startUpCost * x (.of "Generator" g.name (.op "start_up" t)) + g.unit.shutDownCost * x (.of "Generator" g.name (.op "shut_down" t)) else 0
              else 0)
          · refine e w.links (linkRep σ) _ _ (fun g => ?_)
            unfold linkCost
            simp only [hw, hl]
            congr 1
            exact sum_turn ho (fun t => if g.unit.active t then
              weight w t * g.costs.marginal t * x (.of "Link" g.name (.op "p" t)) +
                if g.unit.committable then weight w t * g.costs.standBy t * x (.of "Link" g.name (.op "status" t)) +
                  g.unit.startUpCost * x (.of "Link" g.name (.op "start_up" t)) + g.unit.shutDownCost * x (.of "Link" g.name (.op "shut_down" t)) else 0
              else 0)
        · refine e w.stores (storeTurn σ) _ _ (fun g => ?_)
          unfold storeCost
          simp only [hw, hl]
          congr 1
          exact sum_turn ho (fun t => if g.storage.active t then
              weight w t * g.costs.marginal t * x (.of "Store" g.name (.op "p" t)) + weight w t * g.costs.marginalStorage t * x (.of "Store" g.name (.op "e" t))
              else 0)
      · refine e w.units (sunitTurn σ) _ _ (fun g => ?_)
        unfold unitCost
        simp only [hw, hl]
        congr 1
        exact sum_turn ho (fun t => if g.storage.active t then
              weight w t * g.costs.marginal t * x (.of "StorageUnit" g.name (.op "p_dispatch" t)) +
                weight w t * g.costs.marginalStorage t * x (.of "StorageUnit" g.name (.op "state_of_charge" t)) +
                if 0 < g.storage.inflow t then weight w t * g.costs.spillCost t * x (.of "StorageUnit" g.name (.op "spill" t)) else 0
              else 0)
    · refine e w.lines (branchRep σ) _ _ (fun g => ?_)
      unfold branchCost
      simp only [hl]
      rfl
  · refine e w.trafos (branchRep σ) _ _ (fun g => ?_)
    unfold branchCost
    simp only [hl]
    rfl

theorem sound_turn (σ : Nat → Nat) {w : WNet F} (hw : Sound w) : Sound (turn σ w) := by
  have h := rep_sound hw σ w.len (fun t => w.sw (σ t)) (fun t => w.gw (σ t))
  refine ⟨h.noEmpty, h.buses, h.genBus, ?_, ?_, h.loadBus, h.lineBus, h.trafoBus, h.linkBus, h.gens, h.links, ?_, ?_, h.lines, h.trafos⟩
  · intro g hg
    obtain ⟨g, hm, rfl⟩ := List.mem_map.mp hg
    exact hw.storeBus g hm
  · intro g hg
    obtain ⟨g, hm, rfl⟩ := List.mem_map.mp hg
    exact hw.unitBus g hm
  · change ((w.stores.map _).map _).Nodup; rw [List.map_map]; exact hw.stores
  · change ((w.units.map _).map _).Nodup; rw [List.map_map]; exact hw.units

theorem linear_turn (σ : Nat → Nat) {w : WNet F} (hl : LinearCosts w) : LinearCosts (turn σ w) := by
  refine ⟨?_, ?_, ?_, ?_, ?_, ?_⟩ <;> intro g hg <;> obtain ⟨g, hm, rfl⟩ := List.mem_map.mp hg
  · exact fun t => hl.gens g hm (σ t)
  · exact fun t => hl.links g hm (σ t)
  · exact fun t => hl.stores g hm (σ t)
  · exact fun t => hl.units g hm (σ t)
  · exact hl.genEvents g hm
  · exact hl.linkEvents g hm

omit [LinearOrder F] in
theorem orderly_turn {σ : Equiv.Perm Nat} {w : WNet F} (h : Turnable σ w) : Orderly w := by
  have hc : ∀ {A : Prop} {u : Unit' F}, Weights.Plain u → u.committable = true → A := fun h hc => by
    rw [h.com] at hc
    cases hc
  refine ⟨fun g hg _ h1 => hc (h.gens g hg) h1, fun g hg _ h1 => hc (h.links g hg) h1, fun s hs hm => ?_, fun s hs hm => ?_⟩
  · rcases h.storage with ⟨h1, -⟩ | ⟨h1, -⟩
    · rw [h1] at hs
      cases hs
    · rw [h1] at hm
      cases hm
  · rcases h.storage with ⟨-, h1⟩ | ⟨h1, -⟩
    · rw [h1] at hs
      cases hs
    · rw [h1] at hm
      cases hm

theorem best_turn {σ : Equiv.Perm Nat} {w : WNet F} (h : Turnable σ w) {other : List (Con WVar F)} {D : (WVar → F) → Prop} (hD : AboutCapacity D) {x : WVar → F}
    (hx : Best w other D x) : Best (turn σ w) (turnRows σ other) D (expand σ x) := by
  obtain ⟨h1, h2, h3, h4⟩ := hx
  refine ⟨rules_turn h h1, other_turn.mpr h2, hD x _ (fun _ _ => ⟨rfl, rfl⟩) h3, fun z z1 z2 z3 => ?_⟩
  have e : expand σ (expand σ.symm z) = z := expand_back σ.symm z
  have r := rules_turn (turnable_back h) z1
  rw [turn_back] at r
  rw [cost_turn h.order, ← e, cost_turn h.order]
  rw [← e] at z2
  exact h4 _ r (other_turn.mp z2) (hD z _ (fun _ _ => ⟨rfl, rfl⟩) z3)

/-- **C144.** Without commitment and ramp limits, the snapshots may be put in another order: the optimum of the reordered problem is the
reordered optimum, at the same costs.  If there are storages, this holds for cyclic ones and for starts at another snapshot. -/
theorem order_free [IsStrictOrderedRing F] {σ : Equiv.Perm Nat} {w : WNet F} (hw : Sound w) (hl : LinearCosts w) (h : Turnable σ w)
    {other : List (Con WVar F)} (ho : ∀ r ∈ other, ∀ e ∈ r.terms, e.2 ≠ .const) {P Q : Program F} (hP : createModel w other = some P)
    (hQ : createModel (turn σ w) (turnRows σ other) = some Q) {D : (WVar → F) → Prop} (hD : AboutCapacity D) {x : WVar → F} (hx : SolverBest w P D x) :
    SolverBest (turn σ w) Q D (setConst (Objective.constant (objNet (turn σ w))) (expand σ x)) ∧
      ∀ z, SolverBest (turn σ w) Q D z → costOf (turn σ w) Q z = costOf w P x := by
  have hk : ∀ k y, D y → D (setConst k y) := fun k y hy => hD y _ (fun _ _ => ⟨rfl, rfl⟩) hy
  have ho' : ∀ r ∈ turnRows σ other, ∀ e ∈ r.terms, e.2 ≠ .const := by
    intro r hr e he
    obtain ⟨r, hm, rfl⟩ := List.mem_map.mp hr
    obtain ⟨e, hem, rfl⟩ := List.mem_map.mp he
    have := ho r hm e hem
    cases hv : e.2 with
    | const => exact absurd hv this
    | of c a v => cases v <;> simp [moved]
  have b := best_iff (sound_turn σ hw) (linear_turn σ hl) (orderly_turn (turnable_back h)) ho' hQ D hk
  obtain ⟨h1, h2⟩ := (best_iff hw hl (orderly_turn h) ho hP D hk x).1 hx
  have h3 := best_turn h hD h1
  refine ⟨(b _).2 h3, fun z hz => ?_⟩
  obtain ⟨h4, h5⟩ := (b z).1 hz
  rw [h5, h2, ← cost_turn h.order x]
  exact le_antisymm (h4.2.2.2 _ h3.1 h3.2.1 h3.2.2.1) (h3.2.2.2 _ h4.1 h4.2.1 h4.2.2.1)

/-- **C144.** With cyclic storages it does not matter where the year begins. -/
theorem year_begins_anywhere [IsStrictOrderedRing F] {w : WNet F} (hw : Sound w) (hl : LinearCosts w) (hm : w.multi = false) (hg : ∀ g ∈ w.gens, Weights.Plain g.unit)
    (hk : ∀ g ∈ w.links, Weights.Plain g.unit) (hs : ∀ s ∈ w.stores, Round s.storage) (hu : ∀ s ∈ w.units, Round s.storage.toStorage) (k : Nat) :
    ∃ σ : Equiv.Perm Nat, Rotation w.len k σ ∧ ∀ (other : List (Con WVar F)), (∀ r ∈ other, ∀ e ∈ r.terms, e.2 ≠ .const) → ∀ P Q : Program F,
      createModel w other = some P → createModel (turn σ w) (turnRows σ other) = some Q → ∀ D : (WVar → F) → Prop, AboutCapacity D → ∀ x, SolverBest w P D x →
        SolverBest (turn σ w) Q D (setConst (Objective.constant (objNet (turn σ w))) (expand σ x)) ∧
          ∀ z, SolverBest (turn σ w) Q D z → costOf (turn σ w) Q z = costOf w P x := by
  obtain ⟨σ, h1, h2⟩ := rotation_exists w.len k
  exact ⟨σ, h1, fun other ho P Q hP hQ D hD x hx => order_free hw hl ⟨rotation_order h1 h2, hg, hk, .inr ⟨hm, fun t ht => rotation_before h1 ht, hs, hu⟩⟩ ho hP hQ hD hx⟩

/-! ## Examples -/

open Eras

/-- Three snapshots of different loads, costs and weightings, and a cyclic store with losses. -/
def yearNet : WNet ℚ :=
  { eraNet [eraGen "coal" (fun t => t + 1) (eraUnit 10 (fun _ => none)), { eraGen "gas" (fun _ => 5) (eraUnit 20 (fun _ => none)) with eSumMax := some 30 }]
      [{ eraStore with storage := ⟨fun _ => true, true, false, false, 0, fun t => t + 1, fun t => if t = 1 then 1 / 2 else 1⟩ }] 3 (fun _ => 1) (fun _ => 2030) 0 with
    multi := false, periods := none, sw := fun t => t + 1, gw := fun t => t + 1, loads := [⟨"A", -1, fun t => 8 + 3 * t, fun _ => true⟩] }

/-- The year begins at the second snapshot. -/
def later : Equiv.Perm Nat := Equiv.swap 0 1 * Equiv.swap 1 2

theorem later_eq : later 0 = 1 ∧ later 1 = 2 ∧ later 2 = 0 ∧ ∀ t, 3 ≤ t → later t = t := by
  refine ⟨by decide, by decide, by decide, fun t ht => ?_⟩
  simp only [later, Equiv.Perm.coe_mul, Function.comp_apply]
  have e : Equiv.swap 1 2 t = t := Equiv.swap_apply_of_ne_of_ne (by omega) (by omega)
  rw [e, Equiv.swap_apply_of_ne_of_ne (by omega) (by omega)]

theorem later_rotation : Rotation 3 1 later := by
  intro t ht
  obtain ⟨h0, h1, h2, -⟩ := later_eq
  interval_cases t
  · exact h0
  · exact h1
  · exact h2

theorem yearNet_turnable : Turnable later yearNet where
  order := rotation_order later_rotation later_eq.2.2.2
  gens := by
    intro g hg
    simp only [yearNet, eraNet, List.mem_cons, List.not_mem_nil, or_false] at hg
    rcases hg with rfl | rfl <;> exact ⟨rfl, fun _ => ⟨rfl, rfl⟩⟩
  links := by intro g hg; cases hg
  storage := by
    refine .inr ⟨rfl, fun t ht => rotation_before later_rotation ht, fun s hs => ?_, fun s hs => (by cases hs)⟩
    simp only [yearNet, eraNet, List.mem_cons, List.not_mem_nil, or_false] at hs
    subst hs
    exact ⟨rfl, fun _ _ => rfl⟩

theorem yearModel_some : (createModel yearNet []).isSome = true := by decide +kernel
theorem yearModel_some' : (createModel (turn later yearNet) (turnRows later [])).isSome = true := by decide +kernel

theorem yearLinear : LinearCosts yearNet := by
  refine ⟨fun g hg => ?_, fun g hg => (by cases hg), fun g hg => ?_, fun g hg => (by cases hg), fun g hg => ?_, fun g hg => (by cases hg)⟩
  · simp only [yearNet, eraNet, List.mem_cons, List.not_mem_nil, or_false] at hg
    rcases hg with rfl | rfl <;> exact fun _ => rfl
  · simp only [yearNet, eraNet, List.mem_cons, List.not_mem_nil, or_false] at hg
    subst hg
    exact fun _ => rfl
  · simp only [yearNet, eraNet, List.mem_cons, List.not_mem_nil, or_false] at hg
    rcases hg with rfl | rfl <;> exact ⟨by decide +kernel, by decide +kernel⟩

/-- All hypotheses hold for the example. -/
example (x : WVar → ℚ) (hx : SolverBest yearNet ((createModel yearNet []).get yearModel_some) (fun _ => True) x) :
    SolverBest (turn later yearNet) ((createModel (turn later yearNet) (turnRows later [])).get yearModel_some') (fun _ => True)
      (setConst (Objective.constant (objNet (turn later yearNet))) (expand later x)) :=
  (order_free (by constructor <;> decide +kernel) yearLinear yearNet_turnable (fun r hr => by cases hr) (Option.some_get yearModel_some).symm
    (Option.some_get yearModel_some').symm (fun _ _ _ _ => trivial) hx).1

/-- Those of the second theorem too. -/
example : ∃ σ : Equiv.Perm Nat, Rotation yearNet.len 2 σ := by
  obtain ⟨σ, h, -⟩ := year_begins_anywhere (w := yearNet) (by constructor <;> decide +kernel) yearLinear rfl yearNet_turnable.gens yearNet_turnable.links (by
    intro s hs
    simp only [yearNet, eraNet, List.mem_cons, List.not_mem_nil, or_false] at hs
    subst hs
    exact ⟨rfl, fun _ _ => rfl⟩) (by intro s hs; cases hs) 2
  exact ⟨σ, h⟩

/-- The example has plans: the store is filled in the first snapshot, half is lost, and the rest is used in the last one. -/
def yearVal : WVar → ℚ
  | .of _ a (.op v t) => if a = "coal" ∧ v = "p" then 10 else
      if a = "gas" ∧ v = "p" then (if t = 2 then 4 - 1 / 3 else if t = 1 then 1 else 0) else
      if a = "tank" ∧ v = "p" then (if t = 0 then -2 else if t = 2 then 1 / 3 else 0) else
      if a = "tank" ∧ v = "e" then (if t = 0 then 2 else if t = 1 then 1 else 0) else 0
  | _ => 0

example : Rules yearNet yearVal := by
  refine ((rules_iff (w := yearNet) (by constructor <;> decide +kernel) (orderly_turn yearNet_turnable) (Option.some_get yearModel_some).symm yearVal).mp ?_).1
  unfold FeasibleIn
  decide +kernel

/-! ## Findings -/

/-- Two snapshots; coal may not rise by more than half of its capacity, but fall as it likes. -/
def fallNet : WNet ℚ :=
  { eraNet [eraGen "coal" (fun _ => 1) { eraUnit 10 (fun _ => some (1 / 2)) with rampDown := fun _ => some 1 }, eraGen "gas" (fun _ => 5) (eraUnit 20 (fun _ => none))]
      [] 2 (fun _ => 1) (fun _ => 2030) 10 with multi := false, periods := none }

theorem fallModel : (createModel fallNet []).isSome = true := by decide +kernel

/-- **C144, negation.** Ramp limits do not hold from the last snapshot to the first one, though storages may be cyclic: a plan that is allowed
is no longer allowed if the year begins at its second snapshot. -/
theorem ramps_not_cyclic : Rules fallNet (rampVal 10 0) ∧ ¬ Rules (turn (Equiv.swap 0 1) fallNet) (expand (Equiv.swap 0 1) (rampVal 10 0)) := by
  constructor
  · refine ((rules_iff (w := fallNet) (by constructor <;> decide +kernel)
      ⟨fun g _ h => (by cases h), fun g _ h => (by cases h), fun g h => (by cases h), fun g h => (by cases h)⟩ (Option.some_get fallModel).symm (rampVal 10 0)).mp ?_).1
    unfold FeasibleIn
    decide +kernel
  · intro h
    have hr : RampsCount ((turn (Equiv.swap 0 1) fallNet).gens.map (·.unit)) fallNet.len :=
      ⟨⟨_, List.mem_cons_self, 0, by decide, by decide +kernel⟩, ⟨_, List.mem_cons_self, 0, by decide, by decide +kernel⟩⟩
    have := ((h.gens _ List.mem_cons_self).unit.rampUp hr 0 (by decide) rfl (1 / 2) rfl).1 rfl rfl
    revert this
    decide +kernel

end Verif.Opt.Whole.Turn
