import Mathlib.Tactic.Linarith
import Verif.Opt.SharesProps

/-!
# C140: what it means to make units committable

About the whole problem of `Whole.lean`, one run over all snapshots (`rolling` is false). Generators and links that were not committable
become so, all other data stay.
-/

namespace Verif.Opt.Whole.Commit

open Doc

variable {F : Type} [Field F] [LinearOrder F]

/-- The unit with `committable` set. -/
def commitUnit (u : Unit' F) : Unit' F := { u with committable := true }

def commitGen (sel : Name → Name → Bool) (g : GenW F) : GenW F :=
  if sel "Generator" g.name then { g with unit := commitUnit g.unit } else g

def commitLink (sel : Name → Name → Bool) (g : LinkW F) : LinkW F :=
  if sel "Link" g.name then { g with unit := commitUnit g.unit } else g

/-- The network in which the selected generators and links are committable. -/
def commit (sel : Name → Name → Bool) (w : WNet F) : WNet F :=
  { w with gens := w.gens.map (commitGen sel), links := w.links.map (commitLink sel) }

/-! ## What the user means -/

/-- The unit can stay on: it is a unit of fixed capacity, in service throughout, need not stand still at first, and its ramp limits do not change
with time (those of committable units are not looked up in series, C84). -/
structure Free (n : Nat) (u : Unit' F) : Prop where
  fixed : u.extendable = false
  plain : u.committable = false
  active : ∀ t < n, u.active t = true
  ready : u.downBefore = 0 ∨ u.minDown ≤ u.downBefore
  rampUp : ∀ t < n, u.rampUp t = u.rampUpStatic
  rampDown : ∀ t < n, u.rampDown t = u.rampDownStatic

/-- The unit may stand still anyway, and does not ramp faster when it starts or stops. -/
structure Harmless (n : Nat) (u : Unit' F) : Prop where
  nom : 0 ≤ u.nom
  least : ∀ t < n, u.minPu t ≤ 0
  most : ∀ t < n, 0 ≤ u.maxPu t
  start : ∀ r, u.rampUpStatic = some r → 0 ≤ u.rampStart ∧ u.rampStart ≤ r
  shut : ∀ r, u.rampDownStatic = some r → 0 ≤ u.rampShut ∧ u.rampShut ≤ r

/-- Statuses, start-ups and shut-downs are whole. -/
def OnOff (w : WNet F) (x : WVar → F) : Prop :=
  (∀ g ∈ w.gens, g.unit.committable = true → ∀ t < w.len, g.unit.active t = true → ∀ v ∈ ["status", "start_up", "shut_down"],
    x (.of "Generator" g.name (.op v t)) = 0 ∨ x (.of "Generator" g.name (.op v t)) = 1) ∧
  (∀ g ∈ w.links, g.unit.committable = true → ∀ t < w.len, g.unit.active t = true → ∀ v ∈ ["status", "start_up", "shut_down"],
    x (.of "Link" g.name (.op v t)) = 0 ∨ x (.of "Link" g.name (.op v t)) = 1)

/-- What it costs to have a unit on all the time: stand-by costs, and one start-up if it was off before. -/
def keepOn (w : WNet F) (u : Unit' F) (c : Costs F) : F :=
  ((List.range w.len).map (fun t => weight w t * c.standBy t)).sum + if 0 < w.len ∧ u.upBefore = 0 then u.startUpCost else 0

/-- That of all selected units. -/
def surcharge (w : WNet F) (sel : Name → Name → Bool) : F :=
  (w.gens.map (fun g => if sel "Generator" g.name then keepOn w g.unit g.costs else 0)).sum +
  (w.links.map (fun g => if sel "Link" g.name then keepOn w g.unit g.costs else 0)).sum

/-- The variables of commitment of selected units. -/
def OfCommitment (sel : Name → Name → Bool) (v : WVar) : Prop :=
  ∃ c a n t, v = .of c a (.op n t) ∧ sel c a = true ∧ (c = "Generator" ∨ c = "Link") ∧ n ∈ ["status", "start_up", "shut_down"]

/-- The same values but for those. -/
def SameBut (sel : Name → Name → Bool) (x y : WVar → F) : Prop := ∀ v, ¬ OfCommitment sel v → x v = y v

/-! ## All units on -/

/-- Values of a unit that is on all the time. -/
def onLoc (cold : Bool) (y : Loc → F) : Loc → F
  | .op v t => if v = "status" then 1 else if v = "start_up" then (if cold = true ∧ t = 0 then 1 else 0)
    else if v = "shut_down" then 0 else y (.op v t)
  | .cap => y .cap
  | .mod => y .mod

def coldStart (w : WNet F) (c a : Name) : Bool :=
  (c == "Generator" && w.gens.any (fun g => g.name == a && g.unit.upBefore == 0)) ||
  (c == "Link" && w.links.any (fun g => g.name == a && g.unit.upBefore == 0))

def alwaysOn (w : WNet F) (sel : Name → Name → Bool) (x : WVar → F) : WVar → F
  | .of c a v => if sel c a = true ∧ (c = "Generator" ∨ c = "Link") then onLoc (coldStart w c a) (fun v => x (.of c a v)) v else x (.of c a v)
  | .const => x .const

theorem any_unique {α : Type} {l : List α} (nm : α → Name) (hnd : (l.map nm).Nodup) (p : α → Bool) {a : α} (ha : a ∈ l) :
    l.any (fun b => nm b == nm a && p b) = p a := by
  rw [Bool.eq_iff_iff, List.any_eq_true]
  constructor
  · rintro ⟨b, hb, h⟩
    simp only [Bool.and_eq_true, beq_iff_eq] at h
    rw [← List.inj_on_of_nodup_map hnd hb ha h.1]
    exact h.2
  · exact fun h => ⟨a, ha, by simp [h]⟩

omit [Field F] [LinearOrder F] in
theorem cold_gen {w : WNet F} (hw : Sound w) {g : GenW F} (hg : g ∈ w.gens) : coldStart w "Generator" g.name = (g.unit.upBefore == 0) := by
  unfold coldStart
  rw [any_unique (·.name) hw.gens (fun g : GenW F => g.unit.upBefore == 0) hg]
  simp

omit [Field F] [LinearOrder F] in
theorem cold_link {w : WNet F} (hw : Sound w) {g : LinkW F} (hg : g ∈ w.links) : coldStart w "Link" g.name = (g.unit.upBefore == 0) := by
  unfold coldStart
  rw [any_unique (·.name) hw.links (fun g : LinkW F => g.unit.upBefore == 0) hg]
  simp

omit [LinearOrder F] in
theorem alwaysOn_same (w : WNet F) (sel : Name → Name → Bool) (x : WVar → F) : SameBut sel (alwaysOn w sel x) x := by
  intro v hv
  cases v with
  | const => rfl
  | of c a l =>
    unfold alwaysOn
    simp only
    split
    · rename_i h
      cases l with
      | cap => rfl
      | mod => rfl
      | op n t =>
        have hn : n ∉ ["status", "start_up", "shut_down"] := fun hn => hv ⟨c, a, n, t, rfl, h.1, h.2, hn⟩
        simp only [List.mem_cons, List.not_mem_nil, or_false, not_or] at hn
        simp [onLoc, hn.1, hn.2.1, hn.2.2]
    · rfl

/-! ## Rules of one unit -/

/-- A unit that is on all the time obeys the rules of commitment. -/
theorem unit_on [IsStrictOrderedRing F] {u : Unit' F} {n : Nat} (hf : Free n u) {linear ramps : Prop} (hl : ¬ linear) {p st up dn : Nat → F} {cap : F}
    (h : UnitRule u (pastOf false u) linear ramps n p st up dn cap) :
    UnitRule (commitUnit u) (pastOf false (commitUnit u)) linear ramps n p (fun _ => 1)
      (fun t => if (u.upBefore == 0) = true ∧ t = 0 then 1 else 0) (fun _ => 0) cap := by
  have hlim := h.fixed hf.fixed hf.plain
  have hon : ∀ (x : Nat → F) (t : Nat), t < n → inService u.active x t = x t := fun x t ht => by simp [inService, hf.active t ht]
  refine
    { fixed := fun _ hc => by cases hc
      extendable := fun he => by rw [show (commitUnit u).extendable = false from hf.fixed] at he; cases he
      committed := fun _ t ht ha => by simpa [commitUnit] using hlim t ht ha
      unitInterval := ?_, firstSwitch := ?_, switch := ?_, minUp := ?_, minDown := ?_
      stayUp := fun _ _ _ _ _ _ => rfl
      stayDown := ?_, rampUp := ?_, rampDown := ?_, rampUpCommitted := ?_, rampDownCommitted := ?_
      rampUpFirst := fun _ _ _ q s hp => by simp [pastOf] at hp
      rampDownFirst := fun _ _ _ q s hp => by simp [pastOf] at hp
      linearised := fun hx => absurd hx hl }
  · intro _ t _ _
    refine ⟨⟨zero_le_one, le_rfl⟩, ?_, ⟨le_rfl, zero_le_one⟩⟩
    split
    · exact ⟨zero_le_one, le_rfl⟩
    · exact ⟨le_rfl, zero_le_one⟩
  · intro _ _ _
    simp only [pastOf, Bool.false_eq_true, if_false, commitUnit]
    by_cases hu : u.upBefore = 0
    · simp [hu]
    · simp [hu, Nat.pos_of_ne_zero hu]
  · intro _ t ht _
    simp only [commitUnit]
    rw [hon _ t (by omega)]
    simp
  · intro _ _ t ht h1 _
    simp only [commitUnit]
    have : ∀ l : List Nat, l.Nodup → (∀ s ∈ l, s < n) →
        (l.map (inService u.active (fun t => if (u.upBefore == 0) = true ∧ t = 0 then (1 : F) else 0))).sum ≤ 1 := by
      intro l hnd hl
      induction l with
      | nil => simp
      | cons a l ih =>
        rw [List.nodup_cons] at hnd
        rw [List.map_cons, List.sum_cons, hon _ a (hl a List.mem_cons_self)]
        by_cases ha : a = 0
        · have : (l.map (inService u.active (fun t => if (u.upBefore == 0) = true ∧ t = 0 then (1 : F) else 0))).sum = 0 := by
            apply List.sum_eq_zero
            intro z hz
            obtain ⟨s, hs, rfl⟩ := List.mem_map.mp hz
            rw [hon _ s (hl s (List.mem_cons_of_mem _ hs)), if_neg]
            rintro ⟨-, rfl⟩
            exact hnd.1 (ha ▸ hs)
          rw [this, add_zero]
          split
          · exact le_rfl
          · exact zero_le_one
        · rw [if_neg (fun hh => ha hh.2), zero_add]
          exact ih hnd.2 (fun s hs => hl s (List.mem_cons_of_mem _ hs))
    exact this _ (List.nodup_range.filter _) (fun s hs => List.mem_range.mp (List.mem_of_mem_filter hs))
  · intro _ _ t _ _ _
    simp only [sub_self]
    apply le_of_eq
    apply List.sum_eq_zero
    intro z hz
    obtain ⟨s, _, rfl⟩ := List.mem_map.mp hz
    simp [inService]
  · intro _ hd t _ _ hlt
    exfalso
    simp only [pastOf, Bool.false_eq_true, if_false, commitUnit] at hd hlt
    rcases hf.ready with h | h <;> omega
  · intro hr t ht ha r hru
    exact ⟨fun _ hc => (by cases hc), fun he => by rw [show (commitUnit u).extendable = false from hf.fixed] at he; cases he⟩
  · intro hr t ht ha r hru
    exact ⟨fun _ hc => (by cases hc), fun he => by rw [show (commitUnit u).extendable = false from hf.fixed] at he; cases he⟩
  · intro hr _ t ht ha r hrs
    have := (h.rampUp hr t ht ha r ((hf.rampUp _ ht).trans hrs)).1 hf.fixed hf.plain
    simp only [commitUnit]
    rw [hon _ t (by omega)] at this ⊢
    rw [hon _ t (by omega)]
    linarith
  · intro hr _ t ht ha r hrs
    have := (h.rampDown hr t ht ha r ((hf.rampDown _ ht).trans hrs)).1 hf.fixed hf.plain
    simp only [commitUnit]
    rw [hon _ t (by omega)] at this ⊢
    rw [hon _ t (by omega)]
    linarith

/-- What a committed unit may do, one that need not be committed may do. -/
theorem unit_off [IsStrictOrderedRing F] {u : Unit' F} {n : Nat} (hf : Free n u) (hh : Harmless n u) {linear ramps : Prop} {p st up dn : Nat → F} {cap : F}
    (h : UnitRule (commitUnit u) (pastOf false (commitUnit u)) linear ramps n p st up dn cap) :
    UnitRule u (pastOf false u) linear ramps n p st up dn cap := by
  have hon : ∀ (x : Nat → F) (t : Nat), t < n → inService u.active x t = x t := fun x t ht => by simp [inService, hf.active t ht]
  have hst : ∀ t < n, 0 ≤ st t ∧ st t ≤ 1 := fun t ht => (h.unitInterval rfl t ht (hf.active t ht)).1
  have nocom : ∀ {P : Prop}, u.committable = true → P := fun hc => by rw [hf.plain] at hc; cases hc
  have noext : ∀ {P : Prop}, u.extendable = true → P := fun hc => by rw [hf.fixed] at hc; cases hc
  refine
    { fixed := ?_
      extendable := fun he => noext he
      committed := fun hc => nocom hc
      unitInterval := fun hc => nocom hc
      firstSwitch := fun hc => nocom hc
      switch := fun hc => nocom hc
      minUp := fun hc => nocom hc
      minDown := fun hc => nocom hc
      stayUp := fun hc => nocom hc
      stayDown := fun hc => nocom hc
      rampUp := ?_, rampDown := ?_
      rampUpCommitted := fun _ hc => nocom hc
      rampDownCommitted := fun _ hc => nocom hc
      rampUpFirst := fun _ _ _ q s hp => by simp [pastOf] at hp
      rampDownFirst := fun _ _ _ q s hp => by simp [pastOf] at hp
      linearised := fun _ hc => nocom hc }
  · intro _ _ t ht ha
    obtain ⟨h1, h2⟩ := h.committed rfl t ht ha
    simp only [commitUnit] at h1 h2
    obtain ⟨s0, s1⟩ := hst t ht
    have a : u.minPu t * u.nom ≤ 0 := mul_nonpos_of_nonpos_of_nonneg (hh.least t ht) hh.nom
    have b : 0 ≤ u.maxPu t * u.nom := mul_nonneg (hh.most t ht) hh.nom
    constructor
    · nlinarith
    · nlinarith
  · intro hr t ht ha r hru
    refine ⟨fun _ _ => ?_, fun he => noext he⟩
    have hrs : u.rampUpStatic = some r := (hf.rampUp _ ht).symm.trans hru
    have := h.rampUpCommitted hr rfl t ht ha r hrs
    simp only [commitUnit] at this
    rw [hon _ t (by omega), hon _ t (by omega)] at this
    rw [hon _ t (by omega)]
    obtain ⟨z0, z1⟩ := hh.start r hrs
    obtain ⟨a0, a1⟩ := hst t (by omega)
    obtain ⟨b0, b1⟩ := hst (t + 1) ht
    have e1 : (r - u.rampStart) * st t + u.rampStart * st (t + 1) ≤ r := by nlinarith
    have := mul_le_mul_of_nonneg_right e1 hh.nom
    nlinarith
  · intro hr t ht ha r hru
    refine ⟨fun _ _ => ?_, fun he => noext he⟩
    have hrs : u.rampDownStatic = some r := (hf.rampDown _ ht).symm.trans hru
    have := h.rampDownCommitted hr rfl t ht ha r hrs
    simp only [commitUnit] at this
    rw [hon _ t (by omega), hon _ t (by omega)] at this
    rw [hon _ t (by omega)]
    obtain ⟨z0, z1⟩ := hh.shut r hrs
    obtain ⟨a0, a1⟩ := hst t (by omega)
    obtain ⟨b0, b1⟩ := hst (t + 1) ht
    have e1 : (r - u.rampShut) * st (t + 1) + u.rampShut * st t ≤ r := by nlinarith
    have := mul_le_mul_of_nonneg_right e1 hh.nom
    nlinarith

/-! ## Rules of the network -/

omit [LinearOrder F] in
theorem ramps_same {α : Type} (l : List α) (unit : α → Unit' F) (f : α → α)
    (h : ∀ a, (unit (f a)).rampUp = (unit a).rampUp ∧ (unit (f a)).rampDown = (unit a).rampDown) (n : Nat) :
    RampsCount ((l.map f).map unit) n ↔ RampsCount (l.map unit) n := by
  unfold RampsCount
  simp only [List.mem_map, exists_exists_and_eq_and, (h _).1, (h _).2]

omit [LinearOrder F] in
theorem gens_ramps (w : WNet F) (sel : Name → Name → Bool) :
    RampsCount ((commit sel w).gens.map (·.unit)) w.len ↔ RampsCount (w.gens.map (·.unit)) w.len :=
  ramps_same w.gens (·.unit) (commitGen sel) (fun g => by unfold commitGen commitUnit; split <;> exact ⟨rfl, rfl⟩) w.len

omit [LinearOrder F] in
theorem links_ramps (w : WNet F) (sel : Name → Name → Bool) :
    RampsCount ((commit sel w).links.map (·.unit)) w.len ↔ RampsCount (w.links.map (·.unit)) w.len :=
  ramps_same w.links (·.unit) (commitLink sel) (fun g => by unfold commitLink commitUnit; split <;> exact ⟨rfl, rfl⟩) w.len

/-- The selected units can stay on. -/
structure AllFree (w : WNet F) (sel : Name → Name → Bool) : Prop where
  gens : ∀ g ∈ w.gens, sel "Generator" g.name = true → Free w.len g.unit
  links : ∀ g ∈ w.links, sel "Link" g.name = true → Free w.len g.unit

/-- The selected units may stand still anyway. -/
structure AllHarmless (w : WNet F) (sel : Name → Name → Bool) : Prop where
  gens : ∀ g ∈ w.gens, sel "Generator" g.name = true → Harmless w.len g.unit
  links : ∀ g ∈ w.links, sel "Link" g.name = true → Harmless w.len g.unit

omit [LinearOrder F] in
/-- The balance looks at none of the variables of commitment. -/
theorem supply_same {w : WNet F} {sel : Name → Name → Bool} {x y : WVar → F} (h : SameBut sel x y) (t : Nat) (b : Name) :
    supply (commit sel w) x t b = supply w y t b := by
  have hv : ∀ c a n t, n ∉ ["status", "start_up", "shut_down"] → x (.of c a (.op n t)) = y (.of c a (.op n t)) := by
    intro c a n t hn
    apply h
    rintro ⟨c', a', n', t', he, -, -, hm⟩
    cases he
    exact hn hm
  have hg : ∀ g : GenW F, (commitGen sel g).name = g.name ∧ (commitGen sel g).bus = g.bus ∧ (commitGen sel g).sign = g.sign ∧
      (commitGen sel g).unit.active = g.unit.active := fun g => by unfold commitGen commitUnit; split <;> exact ⟨rfl, rfl, rfl, rfl⟩
  have hl : ∀ g : LinkW F, (commitLink sel g).name = g.name ∧ (commitLink sel g).bus0 = g.bus0 ∧ (commitLink sel g).bus1 = g.bus1 ∧
      (commitLink sel g).eff = g.eff ∧ (commitLink sel g).extra = g.extra ∧ (commitLink sel g).unit.active = g.unit.active :=
    fun g => by unfold commitLink commitUnit; split <;> exact ⟨rfl, rfl, rfl, rfl, rfl, rfl⟩
  have hh : ∀ z : F, halfLoss (commit sel w) z = halfLoss w z := fun _ => rfl
  unfold supply
  simp only [commit, List.map_map, Function.comp_def, (hg _).1, (hg _).2.1, (hg _).2.2.1, (hg _).2.2.2, (hl _).1, (hl _).2.1, (hl _).2.2.1,
    (hl _).2.2.2.1, (hl _).2.2.2.2.1, (hl _).2.2.2.2.2]
  have hh' : ∀ z : F, halfLoss { w with gens := w.gens.map (commitGen sel), links := w.links.map (commitLink sel) } z = halfLoss w z := fun _ => rfl
  simp only [hh', hv _ _ "p" _ (by decide), hv _ _ "p_dispatch" _ (by decide), hv _ _ "p_store" _ (by decide), hv _ _ "s" _ (by decide),
    hv _ _ "loss" _ (by decide)]

omit [LinearOrder F] in
theorem alwaysOn_of (w : WNet F) (sel : Name → Name → Bool) (x : WVar → F) (c a : Name) (h : ¬ (sel c a = true ∧ (c = "Generator" ∨ c = "Link"))) :
    (fun v => alwaysOn w sel x (.of c a v)) = fun v => x (.of c a v) := by
  funext v
  simp [alwaysOn, h]

/-- **C140.** Whatever is allowed is allowed with the selected units committed and on all the time. -/
theorem rules_on [IsStrictOrderedRing F] {w : WNet F} {sel : Name → Name → Bool} (hw : Sound w) (hr : w.rolling = false) (hl : w.linearized = false)
    (hf : AllFree w sel) {x : WVar → F} (h : Rules w x) : Rules (commit sel w) (alwaysOn w sel x) := by
  refine ⟨?_, ?_, ?_, ?_, ?_, ?_, ?_⟩
  · intro g' hg'
    obtain ⟨g, hg, rfl⟩ := List.mem_map.mp hg'
    have hx := h.gens g hg
    by_cases hs : sel "Generator" g.name = true
    · have e : commitGen sel g = { g with unit := commitUnit g.unit } := by simp [commitGen, hs]
      have hloc : ∀ v, alwaysOn w sel x (.of "Generator" g.name v) =
          onLoc (g.unit.upBefore == 0) (fun v => x (.of "Generator" g.name v)) v := by
        intro v
        simp [alwaysOn, hs, cold_gen hw hg]
      rw [e]
      have hu := hx.unit
      rw [hr] at hu
      refine ⟨?_, ?_, ?_, ?_, ?_⟩
      · simp only [hloc]
        exact hx.cap
      · have := unit_on (hf.gens g hg hs) (by rw [hl]; decide) hu
        rw [← gens_ramps w sel] at this
        simp only [hloc]
        simpa [onLoc, commit, hr] using this
      · simp only [hloc]
        simpa [onLoc, commit, commitUnit] using hx.set
      · simp only [hloc]
        simpa [onLoc, commit, commitUnit] using hx.sumMin
      · simp only [hloc]
        simpa [onLoc, commit, commitUnit] using hx.sumMax
    · have e : commitGen sel g = g := by simp [commitGen, hs]
      rw [e, alwaysOn_of w sel x _ _ (fun h => hs h.1)]
      refine ⟨hx.cap, ?_, hx.set, hx.sumMin, hx.sumMax⟩
      have := hx.unit
      rw [← gens_ramps w sel] at this
      exact this
  · intro g' hg'
    obtain ⟨g, hg, rfl⟩ := List.mem_map.mp hg'
    have hx := h.links g hg
    by_cases hs : sel "Link" g.name = true
    · have e : commitLink sel g = { g with unit := commitUnit g.unit } := by simp [commitLink, hs]
      have hloc : ∀ v, alwaysOn w sel x (.of "Link" g.name v) =
          onLoc (g.unit.upBefore == 0) (fun v => x (.of "Link" g.name v)) v := by
        intro v
        simp [alwaysOn, hs, cold_link hw hg]
      rw [e]
      have hu := hx.unit
      rw [hr] at hu
      refine ⟨?_, ?_, ?_⟩
      · simp only [hloc]
        exact hx.cap
      · have := unit_on (hf.links g hg hs) (by rw [hl]; decide) hu
        rw [← links_ramps w sel] at this
        simp only [hloc]
        simpa [onLoc, commit, hr] using this
      · simp only [hloc]
        simpa [onLoc, commit, commitUnit] using hx.set
    · have e : commitLink sel g = g := by simp [commitLink, hs]
      rw [e, alwaysOn_of w sel x _ _ (fun h => hs h.1)]
      refine ⟨hx.cap, ?_, hx.set⟩
      have := hx.unit
      rw [← links_ramps w sel] at this
      exact this
  · intro g hg
    rw [alwaysOn_of w sel x "Store" _ (fun h => by rcases h.2 with h | h <;> revert h <;> decide)]
    exact ⟨(h.stores g hg).cap, (h.stores g hg).limits, (h.stores g hg).set, (h.stores g hg).level⟩
  · intro g hg
    rw [alwaysOn_of w sel x "StorageUnit" _ (fun h => by rcases h.2 with h | h <;> revert h <;> decide)]
    have := h.units g hg
    exact ⟨this.cap, this.dispatch, this.store, this.charge, this.spill, this.set, this.level⟩
  · intro g hg
    rw [alwaysOn_of w sel x "Line" _ (fun h => by rcases h.2 with h | h <;> revert h <;> decide)]
    have := h.lines g hg
    exact ⟨this.cap, this.limits, this.set, this.loss⟩
  · intro g hg
    rw [alwaysOn_of w sel x "Transformer" _ (fun h => by rcases h.2 with h | h <;> revert h <;> decide)]
    have := h.trafos g hg
    exact ⟨this.cap, this.limits, this.set, this.loss⟩
  · intro t ht b hb
    rw [supply_same (alwaysOn_same w sel x)]
    exact h.balance t ht b hb

/-- **C140.** What is allowed with harmless commitment is allowed without. -/
theorem rules_off [IsStrictOrderedRing F] {w : WNet F} {sel : Name → Name → Bool} (hr : w.rolling = false) (hf : AllFree w sel)
    (hh : AllHarmless w sel) {x : WVar → F} (h : Rules (commit sel w) x) : Rules w x := by
  refine ⟨?_, ?_, ?_, ?_, ?_, ?_, ?_⟩
  · intro g hg
    have hx := h.gens _ (List.mem_map_of_mem (f := commitGen sel) hg)
    by_cases hs : sel "Generator" g.name = true
    · have e : commitGen sel g = { g with unit := commitUnit g.unit } := by simp [commitGen, hs]
      rw [e] at hx
      refine ⟨hx.cap, ?_, hx.set, hx.sumMin, hx.sumMax⟩
      have hu := hx.unit
      rw [show (commit sel w).len = w.len from rfl, gens_ramps w sel, show (commit sel w).rolling = false from hr] at hu
      rw [hr]
      exact unit_off (hf.gens g hg hs) (hh.gens g hg hs) hu
    · have e : commitGen sel g = g := by simp [commitGen, hs]
      rw [e] at hx
      refine ⟨hx.cap, ?_, hx.set, hx.sumMin, hx.sumMax⟩
      have hu := hx.unit
      rw [show (commit sel w).len = w.len from rfl, gens_ramps w sel] at hu
      exact hu
  · intro g hg
    have hx := h.links _ (List.mem_map_of_mem (f := commitLink sel) hg)
    by_cases hs : sel "Link" g.name = true
    · have e : commitLink sel g = { g with unit := commitUnit g.unit } := by simp [commitLink, hs]
      rw [e] at hx
      refine ⟨hx.cap, ?_, hx.set⟩
      have hu := hx.unit
      rw [show (commit sel w).len = w.len from rfl, links_ramps w sel, show (commit sel w).rolling = false from hr] at hu
      rw [hr]
      exact unit_off (hf.links g hg hs) (hh.links g hg hs) hu
    · have e : commitLink sel g = g := by simp [commitLink, hs]
      rw [e] at hx
      refine ⟨hx.cap, ?_, hx.set⟩
      have hu := hx.unit
      rw [show (commit sel w).len = w.len from rfl, links_ramps w sel] at hu
      exact hu
  · intro g hg
    have := h.stores g hg
    exact ⟨this.cap, this.limits, this.set, this.level⟩
  · intro g hg
    have := h.units g hg
    exact ⟨this.cap, this.dispatch, this.store, this.charge, this.spill, this.set, this.level⟩
  · intro g hg
    have := h.lines g hg
    exact ⟨this.cap, this.limits, this.set, this.loss⟩
  · intro g hg
    have := h.trafos g hg
    exact ⟨this.cap, this.limits, this.set, this.loss⟩
  · intro t ht b hb
    rw [← supply_same (sel := sel) (x := x) (fun _ _ => rfl)]
    exact h.balance t ht b hb

/-! ## Costs -/

omit [LinearOrder F] in
theorem weight_commit (w : WNet F) (sel : Name → Name → Bool) (t : Nat) : weight (commit sel w) t = weight w t := rfl

omit [LinearOrder F] in
theorem sum_first (n : Nat) (a : F) : ((List.range n).map (fun t => if t = 0 then a else 0)).sum = if 0 < n then a else 0 := by
  cases n with
  | zero => simp
  | succ n =>
    rw [List.range_succ_eq_map, List.map_cons, List.sum_cons, List.map_map]
    simp [Function.comp_def]

omit [LinearOrder F] in
/-- Costs of a unit that is on all the time. -/
theorem keepOn_sum (w : WNet F) (u : Unit' F) (c : Costs F) (f : Nat → F) :
    ((List.range w.len).map (fun t => f t + (weight w t * c.standBy t * 1 +
      u.startUpCost * (if (u.upBefore == 0) = true ∧ t = 0 then 1 else 0) + u.shutDownCost * 0))).sum =
    ((List.range w.len).map f).sum + keepOn w u c := by
  have h : ∀ t, f t + (weight w t * c.standBy t * 1 + u.startUpCost * (if (u.upBefore == 0) = true ∧ t = 0 then 1 else 0) + u.shutDownCost * 0) =
      f t + (weight w t * c.standBy t + if t = 0 then (if u.upBefore = 0 then u.startUpCost else 0) else 0) := by
    intro t
    by_cases h1 : u.upBefore = 0 <;> by_cases h2 : t = 0 <;> simp [h1, h2]
  simp only [h]
  rw [List.sum_map_add, List.sum_map_add, sum_first]
  unfold keepOn
  by_cases h1 : u.upBefore = 0 <;> by_cases h2 : 0 < w.len <;> simp [h1, h2]

omit [LinearOrder F] in
theorem gen_cost_on {w : WNet F} (hw : Sound w) {sel : Name → Name → Bool} (hf : AllFree w sel) (x : WVar → F) {g : GenW F} (hg : g ∈ w.gens) :
    genCost (commit sel w) (commitGen sel g) (alwaysOn w sel x) = genCost w g x + if sel "Generator" g.name then keepOn w g.unit g.costs else 0 := by
  by_cases hs : sel "Generator" g.name = true
  · have e : commitGen sel g = { g with unit := commitUnit g.unit } := by simp [commitGen, hs]
    have hloc : ∀ v, alwaysOn w sel x (.of "Generator" g.name v) =
        onLoc (g.unit.upBefore == 0) (fun v => x (.of "Generator" g.name v)) v := by
      intro v
      simp [alwaysOn, hs, cold_gen hw hg]
    obtain ⟨hfix, hpl, hact, -, -, -⟩ := hf.gens g hg hs
    rw [e, if_pos hs]
    unfold genCost
    simp only [hloc, commitUnit, onLoc, hfix, hpl, Bool.false_eq_true, if_false, if_true, add_zero, String.reduceEq]
    rw [← keepOn_sum w g.unit g.costs (fun t => if g.unit.active t then weight w t * g.costs.marginal t * x (.of "Generator" g.name (.op "p" t)) else 0)]
    congr 1
    apply List.map_congr_left
    intro t ht
    rw [hact t (List.mem_range.mp ht)]
    rfl
  · have e : commitGen sel g = g := by simp [commitGen, hs]
    have := congrFun (alwaysOn_of w sel x "Generator" g.name (fun h => hs h.1))
    unfold genCost
    simp only [e, if_neg hs, add_zero, this]
    rfl

omit [LinearOrder F] in
theorem link_cost_on {w : WNet F} (hw : Sound w) {sel : Name → Name → Bool} (hf : AllFree w sel) (x : WVar → F) {g : LinkW F} (hg : g ∈ w.links) :
    linkCost (commit sel w) (commitLink sel g) (alwaysOn w sel x) = linkCost w g x + if sel "Link" g.name then keepOn w g.unit g.costs else 0 := by
  by_cases hs : sel "Link" g.name = true
  · have e : commitLink sel g = { g with unit := commitUnit g.unit } := by simp [commitLink, hs]
    have hloc : ∀ v, alwaysOn w sel x (.of "Link" g.name v) =
        onLoc (g.unit.upBefore == 0) (fun v => x (.of "Link" g.name v)) v := by
      intro v
      simp [alwaysOn, hs, cold_link hw hg]
    obtain ⟨hfix, hpl, hact, -, -, -⟩ := hf.links g hg hs
    rw [e, if_pos hs]
    unfold linkCost
    simp only [hloc, commitUnit, onLoc, hfix, hpl, Bool.false_eq_true, if_false, if_true, add_zero, String.reduceEq]
    rw [← keepOn_sum w g.unit g.costs (fun t => if g.unit.active t then weight w t * g.costs.marginal t * x (.of "Link" g.name (.op "p" t)) else 0)]
    congr 1
    apply List.map_congr_left
    intro t ht
    rw [hact t (List.mem_range.mp ht)]
    rfl
  · have e : commitLink sel g = g := by simp [commitLink, hs]
    have := congrFun (alwaysOn_of w sel x "Link" g.name (fun h => hs h.1))
    unfold linkCost
    simp only [e, if_neg hs, add_zero, this]
    rfl

/-- **C140.** Costs with all selected units on. -/
theorem cost_on {w : WNet F} (hw : Sound w) {sel : Name → Name → Bool} (hf : AllFree w sel) (x : WVar → F) :
    totalCost (commit sel w) (alwaysOn w sel x) = totalCost w x + surcharge w sel := by
  have h1 : (w.gens.map (fun g => genCost (commit sel w) (commitGen sel g) (alwaysOn w sel x))).sum =
      (w.gens.map (fun g => genCost w g x)).sum + (w.gens.map (fun g => if sel "Generator" g.name then keepOn w g.unit g.costs else 0)).sum := by
    rw [← List.sum_map_add]
    exact congrArg List.sum (List.map_congr_left (fun g hg => gen_cost_on hw hf x hg))
  have h2 : (w.links.map (fun g => linkCost (commit sel w) (commitLink sel g) (alwaysOn w sel x))).sum =
      (w.links.map (fun g => linkCost w g x)).sum + (w.links.map (fun g => if sel "Link" g.name then keepOn w g.unit g.costs else 0)).sum := by
    rw [← List.sum_map_add]
    exact congrArg List.sum (List.map_congr_left (fun g hg => link_cost_on hw hf x hg))
  have h3 : ∀ g : StoreW F, storeCost (commit sel w) g (alwaysOn w sel x) = storeCost w g x := by
    intro g
    have := congrFun (alwaysOn_of w sel x "Store" g.name (fun h => by rcases h.2 with h | h <;> revert h <;> decide))
    unfold storeCost
    simp only [this]
    rfl
  have h4 : ∀ g : UnitW F, unitCost (commit sel w) g (alwaysOn w sel x) = unitCost w g x := by
    intro g
    have := congrFun (alwaysOn_of w sel x "StorageUnit" g.name (fun h => by rcases h.2 with h | h <;> revert h <;> decide))
    unfold unitCost
    simp only [this]
    rfl
  have h5 : ∀ (c : Name) (_ : c = "Line" ∨ c = "Transformer") (g : BranchW F), branchCost (commit sel w) c g (alwaysOn w sel x) = branchCost w c g x := by
    intro c hc g
    have := congrFun (alwaysOn_of w sel x c g.name (fun h => by rcases hc with rfl | rfl <;> rcases h.2 with h | h <;> revert h <;> decide))
    unfold branchCost
    simp only [this]
    rfl
  unfold totalCost surcharge
  rw [show (commit sel w).gens = w.gens.map (commitGen sel) from rfl, show (commit sel w).links = w.links.map (commitLink sel) from rfl,
    List.map_map, List.map_map, show (commit sel w).stores = w.stores from rfl, show (commit sel w).units = w.units from rfl,
    show (commit sel w).lines = w.lines from rfl, show (commit sel w).trafos = w.trafos from rfl]
  simp only [Function.comp_def, h3, h4, h5 _ (Or.inl rfl), h5 _ (Or.inr rfl), h1, h2]
  ring

/-- Being on, starting and stopping earn nothing. -/
structure NoReward (w : WNet F) (sel : Name → Name → Bool) : Prop where
  gens : ∀ g ∈ w.gens, sel "Generator" g.name = true → (∀ t < w.len, 0 ≤ weight w t * g.costs.standBy t) ∧ 0 ≤ g.unit.startUpCost ∧ 0 ≤ g.unit.shutDownCost
  links : ∀ g ∈ w.links, sel "Link" g.name = true → (∀ t < w.len, 0 ≤ weight w t * g.costs.standBy t) ∧ 0 ≤ g.unit.startUpCost ∧ 0 ≤ g.unit.shutDownCost

theorem whole_nonneg [IsStrictOrderedRing F] {a : F} (h : a = 0 ∨ a = 1) : 0 ≤ a := by
  rcases h with rfl | rfl
  · exact le_rfl
  · exact zero_le_one

/-- **C140.** Commitment adds costs, it takes none away. -/
theorem cost_off [IsStrictOrderedRing F] {w : WNet F} {sel : Name → Name → Bool} (hf : AllFree w sel) (hn : NoReward w sel) {x : WVar → F}
    (hx : OnOff (commit sel w) x) : totalCost w x ≤ totalCost (commit sel w) x := by
  have h1 : (w.gens.map (fun g => genCost w g x)).sum ≤ (w.gens.map (fun g => genCost (commit sel w) (commitGen sel g) x)).sum := by
    apply List.sum_le_sum
    intro g hg
    by_cases hs : sel "Generator" g.name = true
    · have e : commitGen sel g = { g with unit := commitUnit g.unit } := by simp [commitGen, hs]
      obtain ⟨hfix, hpl, hact, -, -, -⟩ := hf.gens g hg hs
      obtain ⟨n1, n2, n3⟩ := hn.gens g hg hs
      have hb := hx.1 _ (List.mem_map_of_mem (f := commitGen sel) hg)
      rw [e] at hb ⊢
      unfold genCost
      simp only [commitUnit, hfix, hpl, Bool.false_eq_true, if_false, if_true, add_zero]
      apply List.sum_le_sum
      intro t ht
      have ht := List.mem_range.mp ht
      rw [hact t ht]
      have hv := fun v hv => whole_nonneg (hb rfl t ht (hact t ht) v hv)
      simp only [if_true]
      have a1 := mul_nonneg (n1 t ht) (hv "status" (by decide))
      have a2 := mul_nonneg n2 (hv "start_up" (by decide))
      have a3 := mul_nonneg n3 (hv "shut_down" (by decide))
      exact le_add_of_nonneg_right (add_nonneg (add_nonneg a1 a2) a3)
    · have e : commitGen sel g = g := by simp [commitGen, hs]
      rw [e]
      exact le_rfl
  have h2 : (w.links.map (fun g => linkCost w g x)).sum ≤ (w.links.map (fun g => linkCost (commit sel w) (commitLink sel g) x)).sum := by
    apply List.sum_le_sum
    intro g hg
    by_cases hs : sel "Link" g.name = true
    · have e : commitLink sel g = { g with unit := commitUnit g.unit } := by simp [commitLink, hs]
      obtain ⟨hfix, hpl, hact, -, -, -⟩ := hf.links g hg hs
      obtain ⟨n1, n2, n3⟩ := hn.links g hg hs
      have hb := hx.2 _ (List.mem_map_of_mem (f := commitLink sel) hg)
      rw [e] at hb ⊢
      unfold linkCost
      simp only [commitUnit, hfix, hpl, Bool.false_eq_true, if_false, if_true, add_zero]
      apply List.sum_le_sum
      intro t ht
      have ht := List.mem_range.mp ht
      rw [hact t ht]
      have hv := fun v hv => whole_nonneg (hb rfl t ht (hact t ht) v hv)
      simp only [if_true]
      have a1 := mul_nonneg (n1 t ht) (hv "status" (by decide))
      have a2 := mul_nonneg n2 (hv "start_up" (by decide))
      have a3 := mul_nonneg n3 (hv "shut_down" (by decide))
      exact le_add_of_nonneg_right (add_nonneg (add_nonneg a1 a2) a3)
    · have e : commitLink sel g = g := by simp [commitLink, hs]
      rw [e]
      exact le_rfl
  have e3 : (w.stores.map (fun g => storeCost (commit sel w) g x)) = w.stores.map (fun g => storeCost w g x) := rfl
  have e4 : (w.units.map (fun g => unitCost (commit sel w) g x)) = w.units.map (fun g => unitCost w g x) := rfl
  have e5 : (w.lines.map (fun g => branchCost (commit sel w) "Line" g x)) = w.lines.map (fun g => branchCost w "Line" g x) := rfl
  have e6 : (w.trafos.map (fun g => branchCost (commit sel w) "Transformer" g x)) = w.trafos.map (fun g => branchCost w "Transformer" g x) := rfl
  unfold totalCost
  rw [show (commit sel w).gens = w.gens.map (commitGen sel) from rfl, show (commit sel w).links = w.links.map (commitLink sel) from rfl,
    List.map_map, List.map_map, show (commit sel w).stores = w.stores from rfl, show (commit sel w).units = w.units from rfl,
    show (commit sel w).lines = w.lines from rfl, show (commit sel w).trafos = w.trafos from rfl, e3, e4, e5, e6]
  simp only [Function.comp_def]
  linarith

/-! ## The data asked for -/

omit [Field F] [LinearOrder F] in
theorem gen_data (sel : Name → Name → Bool) (g : GenW F) : (commitGen sel g).name = g.name ∧ (commitGen sel g).bus = g.bus ∧
    (commitGen sel g).costs = g.costs ∧ (commitGen sel g).unit.startUpCost = g.unit.startUpCost ∧
    (commitGen sel g).unit.shutDownCost = g.unit.shutDownCost ∧ (commitGen sel g).unit.active = g.unit.active := by
  unfold commitGen commitUnit
  split <;> exact ⟨rfl, rfl, rfl, rfl, rfl, rfl⟩

omit [Field F] [LinearOrder F] in
theorem link_data (sel : Name → Name → Bool) (g : LinkW F) : (commitLink sel g).name = g.name ∧ (commitLink sel g).bus0 = g.bus0 ∧
    (commitLink sel g).bus1 = g.bus1 ∧ (commitLink sel g).extra = g.extra ∧
    (commitLink sel g).costs = g.costs ∧ (commitLink sel g).unit.startUpCost = g.unit.startUpCost ∧
    (commitLink sel g).unit.shutDownCost = g.unit.shutDownCost ∧ (commitLink sel g).unit.active = g.unit.active := by
  unfold commitLink commitUnit
  split <;> exact ⟨rfl, rfl, rfl, rfl, rfl, rfl, rfl, rfl⟩

omit [Field F] [LinearOrder F] in
theorem sound_commit {w : WNet F} (h : Sound w) (sel : Name → Name → Bool) : Sound (commit sel w) where
  noEmpty := h.noEmpty
  buses := h.buses
  genBus := by
    intro g hg
    obtain ⟨g, hm, rfl⟩ := List.mem_map.mp hg
    rw [(gen_data sel g).2.1]
    exact h.genBus g hm
  storeBus := h.storeBus
  unitBus := h.unitBus
  loadBus := h.loadBus
  lineBus := h.lineBus
  trafoBus := h.trafoBus
  linkBus := by
    intro g hg
    obtain ⟨g, hm, rfl⟩ := List.mem_map.mp hg
    rw [(link_data sel g).2.1, (link_data sel g).2.2.1, (link_data sel g).2.2.2.1]
    exact h.linkBus g hm
  gens := by
    show ((w.gens.map (commitGen sel)).map (·.name)).Nodup
    rw [List.map_map, show (fun g : GenW F => g.name) ∘ commitGen sel = fun g => g.name from funext (fun g => (gen_data sel g).1)]
    exact h.gens
  links := by
    show ((w.links.map (commitLink sel)).map (·.name)).Nodup
    rw [List.map_map, show (fun g : LinkW F => g.name) ∘ commitLink sel = fun g => g.name from funext (fun g => (link_data sel g).1)]
    exact h.links
  stores := h.stores
  units := h.units
  lines := h.lines
  trafos := h.trafos

theorem linear_commit {w : WNet F} (h : LinearCosts w) (sel : Name → Name → Bool) : LinearCosts (commit sel w) where
  gens := by
    intro g hg t
    obtain ⟨g, hm, rfl⟩ := List.mem_map.mp hg
    rw [(gen_data sel g).2.2.1]
    exact h.gens g hm t
  links := by
    intro g hg t
    obtain ⟨g, hm, rfl⟩ := List.mem_map.mp hg
    rw [(link_data sel g).2.2.2.2.1]
    exact h.links g hm t
  stores := h.stores
  units := h.units
  genEvents := by
    intro g hg
    obtain ⟨g, hm, rfl⟩ := List.mem_map.mp hg
    rw [(gen_data sel g).2.2.2.1, (gen_data sel g).2.2.2.2.1]
    exact h.genEvents g hm
  linkEvents := by
    intro g hg
    obtain ⟨g, hm, rfl⟩ := List.mem_map.mp hg
    rw [(link_data sel g).2.2.2.2.2.1, (link_data sel g).2.2.2.2.2.2.1]
    exact h.linkEvents g hm

omit [LinearOrder F] in
theorem orderly_commit {w : WNet F} (hr : w.rolling = false) (h : Orderly w) (sel : Name → Name → Bool) : Orderly (commit sel w) where
  gens := fun g _ hc => by
    rw [show (commit sel w).rolling = false from hr] at hc
    cases hc
  links := fun g _ hc => by
    rw [show (commit sel w).rolling = false from hr] at hc
    cases hc
  stores := h.stores
  units := h.units

/-! ## The optimum -/

/-- The condition looks neither at the commitment of selected units nor at the constant. -/
def Blind (sel : Name → Name → Bool) (D : (WVar → F) → Prop) : Prop :=
  ∀ x y : WVar → F, (∀ v, v ≠ .const → ¬ OfCommitment sel v → x v = y v) → D x → D y

/-- The same of rows. -/
def BlindRows (sel : Name → Name → Bool) (other : List (Con WVar F)) : Prop := ∀ r ∈ other, ∀ e ∈ r.terms, e.2 ≠ .const ∧ ¬ OfCommitment sel e.2

omit [LinearOrder F] in
theorem onOff_on {w : WNet F} (hw : Sound w) {sel : Name → Name → Bool} {x : WVar → F} (h : OnOff w x) :
    OnOff (commit sel w) (alwaysOn w sel x) := by
  have on : ∀ (b : Bool) (y : Loc → F) (v : Name) (t : Nat), v ∈ ["status", "start_up", "shut_down"] → onLoc b y (.op v t) = 0 ∨ onLoc b y (.op v t) = 1 := by
    intro b y v t hv
    simp only [List.mem_cons, List.not_mem_nil, or_false] at hv
    rcases hv with rfl | rfl | rfl
    · right
      simp [onLoc]
    · simp only [onLoc, String.reduceEq, if_false, if_true]
      split
      · exact Or.inr rfl
      · exact Or.inl rfl
    · left
      simp [onLoc]
  constructor
  · intro g hg hc t ht ha v hv
    obtain ⟨g, hm, rfl⟩ := List.mem_map.mp hg
    rw [(gen_data sel g).1]
    by_cases hs : sel "Generator" g.name = true
    · have : alwaysOn w sel x (.of "Generator" g.name (.op v t)) = onLoc (g.unit.upBefore == 0) (fun v => x (.of "Generator" g.name v)) (.op v t) := by
        simp [alwaysOn, hs, cold_gen hw hm]
      rw [this]
      exact on _ _ v t hv
    · rw [congrFun (alwaysOn_of w sel x "Generator" g.name (fun h => hs h.1)) (.op v t)]
      rw [show commitGen sel g = g by simp [commitGen, hs]] at hc ha
      exact h.1 g hm hc t ht ha v hv
  · intro g hg hc t ht ha v hv
    obtain ⟨g, hm, rfl⟩ := List.mem_map.mp hg
    rw [(link_data sel g).1]
    by_cases hs : sel "Link" g.name = true
    · have : alwaysOn w sel x (.of "Link" g.name (.op v t)) = onLoc (g.unit.upBefore == 0) (fun v => x (.of "Link" g.name v)) (.op v t) := by
        simp [alwaysOn, hs, cold_link hw hm]
      rw [this]
      exact on _ _ v t hv
    · rw [congrFun (alwaysOn_of w sel x "Link" g.name (fun h => hs h.1)) (.op v t)]
      rw [show commitLink sel g = g by simp [commitLink, hs]] at hc ha
      exact h.2 g hm hc t ht ha v hv

omit [LinearOrder F] in
theorem onOff_off {w : WNet F} {sel : Name → Name → Bool} {x : WVar → F} (h : OnOff (commit sel w) x) : OnOff w x := by
  constructor
  · intro g hg hc t ht ha v hv
    have := h.1 _ (List.mem_map_of_mem (f := commitGen sel) hg) (by unfold commitGen commitUnit; split <;> first | rfl | exact hc) t ht
      (by rw [(gen_data sel g).2.2.2.2.2]; exact ha) v hv
    rw [(gen_data sel g).1] at this
    exact this
  · intro g hg hc t ht ha v hv
    have := h.2 _ (List.mem_map_of_mem (f := commitLink sel) hg) (by unfold commitLink commitUnit; split <;> first | rfl | exact hc) t ht
      (by rw [(link_data sel g).2.2.2.2.2.2.2]; exact ha) v hv
    rw [(link_data sel g).1] at this
    exact this

theorem rows_on {w : WNet F} {sel : Name → Name → Bool} {other : List (Con WVar F)} (ho : BlindRows sel other) {x : WVar → F}
    (h : Feasible x other) : Feasible (alwaysOn w sel x) other := by
  intro r hr
  have e : lin (alwaysOn w sel x) r.terms = lin x r.terms := by
    unfold lin
    congr 1
    apply List.map_congr_left
    intro e he
    rw [alwaysOn_same w sel x e.2 (ho r hr e he).2]
  have := h r hr
  unfold Con.holds at this ⊢
  rw [e]
  exact this

section optimum

variable [IsStrictOrderedRing F] {w : WNet F} {sel : Name → Name → Bool} (hw : Sound w) (hlin : LinearCosts w) (hd : Orderly w)
  (hr : w.rolling = false) (hl : w.linearized = false) (hf : AllFree w sel)
  {other : List (Con WVar F)} (ho : BlindRows sel other) {P Q : Program F} (hP : createModel w other = some P)
  (hQ : createModel (commit sel w) other = some Q) {D : (WVar → F) → Prop} (hD : Blind sel D)
include hw hlin hd hr hl hf ho hP hQ hD

omit hr hl hf hQ in
theorem best_plain (x : WVar → F) : (SolverBest w P (fun x => D x ∧ OnOff w x) x → Best w other (fun x => D x ∧ OnOff w x) x ∧ costOf w P x = totalCost w x) ∧
    (Best w other (fun x => D x ∧ OnOff w x) x → SolverBest w P (fun x => D x ∧ OnOff w x) (setConst (Objective.constant (objNet w)) x)) :=
  best_iff hw hlin hd (fun r hr e he => (ho r hr e he).1) hP _ (fun k x h => ⟨hD x _ (fun v hv _ => by cases v with | const => exact absurd rfl hv | of => rfl) h.1, h.2⟩) x

omit hl hf hP in
theorem best_committed (x : WVar → F) : (SolverBest (commit sel w) Q (fun x => D x ∧ OnOff (commit sel w) x) x →
      Best (commit sel w) other (fun x => D x ∧ OnOff (commit sel w) x) x ∧ costOf (commit sel w) Q x = totalCost (commit sel w) x) ∧
    (Best (commit sel w) other (fun x => D x ∧ OnOff (commit sel w) x) x →
      SolverBest (commit sel w) Q (fun x => D x ∧ OnOff (commit sel w) x) (setConst (Objective.constant (objNet (commit sel w))) x)) :=
  best_iff (sound_commit hw sel) (linear_commit hlin sel) (orderly_commit hr hd sel) (fun r hr e he => (ho r hr e he).1) hQ _
    (fun k x h => ⟨hD x _ (fun v hv _ => by cases v with | const => exact absurd rfl hv | of => rfl) h.1, h.2⟩) x

/-- **C140.** Freedom to switch units off costs at most what it takes to keep them on. -/
theorem freedom {x y : WVar → F} (hx : SolverBest w P (fun x => D x ∧ OnOff w x) x)
    (hy : SolverBest (commit sel w) Q (fun x => D x ∧ OnOff (commit sel w) x) y) :
    costOf (commit sel w) Q y ≤ costOf w P x + surcharge w sel := by
  obtain ⟨⟨x1, x2, x3, -⟩, ex⟩ := (best_plain hw hlin hd ho hP hD x).1 hx
  obtain ⟨⟨-, -, -, y4⟩, ey⟩ := (best_committed hw hlin hd hr ho hQ hD y).1 hy
  rw [ex, ey, ← cost_on hw hf x]
  exact y4 _ (rules_on hw hr hl hf x1) (rows_on ho x2) ⟨hD x _ (fun v _ hv => (alwaysOn_same w sel x v hv).symm) x3.1, onOff_on hw x3.2⟩

omit hl in
/-- **C140.** It gains nothing where units may stand still anyway. -/
theorem no_gain (hh : AllHarmless w sel) (hn : NoReward w sel) {x y : WVar → F} (hx : SolverBest w P (fun x => D x ∧ OnOff w x) x)
    (hy : SolverBest (commit sel w) Q (fun x => D x ∧ OnOff (commit sel w) x) y) :
    costOf w P x ≤ costOf (commit sel w) Q y := by
  obtain ⟨⟨-, -, -, x4⟩, ex⟩ := (best_plain hw hlin hd ho hP hD x).1 hx
  obtain ⟨⟨y1, y2, y3, -⟩, ey⟩ := (best_committed hw hlin hd hr ho hQ hD y).1 hy
  rw [ex, ey]
  exact le_trans (x4 y (rules_off hr hf hh y1) y2 ⟨y3.1, onOff_off y3.2⟩) (cost_off hf hn y3.2)

/-- **C140.** If it costs nothing to keep units on, commitment without technical limits changes nothing: an optimum of one problem is one of
the other, with the same dispatch and costs. -/
theorem nothing_changes (hh : AllHarmless w sel) (hn : NoReward w sel) (h0 : surcharge w sel = 0) :
    (∀ x, SolverBest w P (fun x => D x ∧ OnOff w x) x → ∃ y, SolverBest (commit sel w) Q (fun x => D x ∧ OnOff (commit sel w) x) y ∧
      (∀ v, v ≠ .const → ¬ OfCommitment sel v → y v = x v) ∧ costOf (commit sel w) Q y = costOf w P x) ∧
    (∀ y, SolverBest (commit sel w) Q (fun x => D x ∧ OnOff (commit sel w) x) y → ∃ x, SolverBest w P (fun x => D x ∧ OnOff w x) x ∧
      (∀ v, v ≠ .const → x v = y v) ∧ costOf (commit sel w) Q y = costOf w P x) := by
  have bp := best_plain hw hlin hd ho hP hD
  have bc := best_committed hw hlin hd hr ho hQ hD
  have con := cost_on hw hf
  simp only [h0, add_zero] at con
  have up : ∀ z, Rules w z → Feasible z other → D z ∧ OnOff w z → Rules (commit sel w) (alwaysOn w sel z) ∧ Feasible (alwaysOn w sel z) other ∧
      D (alwaysOn w sel z) ∧ OnOff (commit sel w) (alwaysOn w sel z) := fun z z1 z2 z3 =>
    ⟨rules_on hw hr hl hf z1, rows_on ho z2, hD z _ (fun v _ hv => (alwaysOn_same w sel z v hv).symm) z3.1, onOff_on hw z3.2⟩
  constructor
  · intro x hx
    obtain ⟨⟨x1, x2, x3, x4⟩, ex⟩ := (bp x).1 hx
    obtain ⟨u1, u2, u3⟩ := up x x1 x2 x3
    have hb := (bc (alwaysOn w sel x)).2 ⟨u1, u2, u3, fun z z1 z2 z3 => by
      rw [con]
      exact le_trans (x4 z (rules_off hr hf hh z1) z2 ⟨z3.1, onOff_off z3.2⟩) (cost_off hf hn z3.2)⟩
    refine ⟨_, hb, fun v hv hc => ?_, ?_⟩
    · cases v with
      | const => exact absurd rfl hv
      | of c a v => exact alwaysOn_same w sel x _ hc
    · rw [((bc _).1 hb).2, ex]
      exact con x
  · intro y hy
    obtain ⟨⟨y1, y2, y3, y4⟩, ey⟩ := (bc y).1 hy
    have y5 := cost_off hf hn y3.2
    have hb := (bp y).2 ⟨rules_off hr hf hh y1, y2, ⟨y3.1, onOff_off y3.2⟩, fun z z1 z2 z3 => by
      obtain ⟨u1, u2, u3⟩ := up z z1 z2 z3
      have := y4 _ u1 u2 u3
      rw [con] at this
      exact le_trans y5 this⟩
    refine ⟨_, hb, fun v hv => ?_, le_antisymm ?_ ?_⟩
    · cases v with
      | const => exact absurd rfl hv
      | of c a v => rfl
    · obtain ⟨⟨z1, z2, z3, -⟩, ez⟩ := (bp _).1 hb
      obtain ⟨u1, u2, u3⟩ := up _ z1 z2 z3
      have := y4 _ u1 u2 u3
      rw [con] at this
      rw [ey, ez]
      exact this
    · rw [((bp _).1 hb).2, ey]
      exact y5

end optimum

/-! ## Examples -/

/-- The peaker of `WholeExample.lean`. -/
def exSel (c a : Name) : Bool := c == "Generator" && a == "peaker"

theorem exCommit_some : (createModel (commit exSel exNet) exOther).isSome = true := by decide +kernel

theorem exFree : AllFree exNet exSel where
  gens := by
    intro g hg hs
    simp only [exNet, List.mem_cons, List.not_mem_nil, or_false] at hg
    rcases hg with rfl | rfl
    · exact absurd hs (by decide)
    · exact ⟨rfl, rfl, fun _ _ => rfl, Or.inl rfl, fun _ _ => rfl, fun _ _ => rfl⟩
  links := by
    intro g hg hs
    revert hs
    simp [exSel]

theorem exHarmless : AllHarmless exNet exSel where
  gens := by
    intro g hg hs
    simp only [exNet, List.mem_cons, List.not_mem_nil, or_false] at hg
    rcases hg with rfl | rfl
    · exact absurd hs (by decide)
    · exact ⟨by decide +kernel, by decide +kernel, by decide +kernel, fun r hr => (by cases hr), fun r hr => (by cases hr)⟩
  links := by
    intro g hg hs
    revert hs
    simp [exSel]

theorem exNoReward : NoReward exNet exSel where
  gens := by decide +kernel
  links := by decide +kernel

theorem exBlind : BlindRows exSel exOther := by
  intro r hr e he
  simp only [exOther, List.mem_singleton] at hr
  subst hr
  simp only [List.mem_cons, List.not_mem_nil, or_false] at he
  rcases he with rfl | rfl <;> refine ⟨by simp, ?_⟩ <;> rintro ⟨c, a, n, t, h, -, -, hn⟩ <;> cases h <;> revert hn <;> decide

/-- All hypotheses hold: with a committable peaker there is an optimum with the dispatch of the one without. -/
example : ∃ y, SolverBest (commit exSel exNet) ((createModel _ exOther).get exCommit_some) (fun x => True ∧ OnOff (commit exSel exNet) x) y ∧
    y (.of "Generator" "peaker" (.op "p" 1)) = 6 ∧
    costOf (commit exSel exNet) ((createModel _ exOther).get exCommit_some) y = costOf exNet exModel exVal := by
  have hon : ∀ x, OnOff exNet x := fun x => by
    constructor
    · intro g hg hc
      simp only [exNet, List.mem_cons, List.not_mem_nil, or_false] at hg
      rcases hg with rfl | rfl <;> cases hc
    · intro g hg hc
      simp only [exNet, List.mem_cons, List.not_mem_nil, or_false] at hg
      subst hg
      cases hc
  obtain ⟨h1, h2, h3⟩ := Shares.exBest
  obtain ⟨y, y1, y2, y3⟩ := (nothing_changes exSound exLinear (orderly_single rfl rfl) rfl rfl exFree exBlind exModel_eq (Option.some_get exCommit_some).symm
    (D := fun _ => True) (fun _ _ _ _ => trivial) exHarmless exNoReward (by decide +kernel)).1 exVal ⟨h1, ⟨trivial, hon _⟩, fun z z1 _ => h3 z z1 trivial⟩
  refine ⟨y, y1, ?_, y3⟩
  rw [y2 _ (by simp) (by rintro ⟨c, a, n, t, h, -, -, hn⟩; cases h; revert hn; decide)]
  decide +kernel

/-- Coal and gas for one load, two snapshots. -/
def twoUnit : Unit' ℚ := { exUnit' false 10 with maxPu := fun _ => 1, upBefore := 1 }

def twoCoal (u : Unit' ℚ) (marginal : ℚ) : GenW ℚ := ⟨"coal", "A", 1, u, exInvest 0, exCosts marginal 0, fun _ => none, none, none⟩
def twoGas : GenW ℚ := ⟨"gas", "A", 1, twoUnit, exInvest 0, exCosts 3 0, fun _ => none, none, none⟩

def twoNet (u : Unit' ℚ) (marginal first second : ℚ) : WNet ℚ := { exNet with
  sw := fun _ => 1, gw := fun _ => 1, buses := ["A"], gens := [twoCoal u marginal, twoGas], links := [], stores := [], units := [], lines := [],
  trafos := [], loads := [⟨"A", -1, fun t => if t = 0 then first else second, fun _ => true⟩] }

def coalSel (_ a : Name) : Bool := a == "coal"

def twoVal (l : List (Name × Name × Nat × ℚ)) : WVar → ℚ
  | .of "Generator" a (.op v t) => ((l.find? (fun e => e.1 == a && e.2.1 == v && e.2.2.1 == t)).map (·.2.2.2)).getD 0
  | _ => 0

theorem two_balance {u : Unit' ℚ} (hu : ∀ t, u.active t = true) {marginal first second : ℚ} {x : WVar → ℚ} (h : Rules (twoNet u marginal first second) x) :
    x (.of "Generator" "coal" (.op "p" 0)) + x (.of "Generator" "gas" (.op "p" 0)) = first ∧
    x (.of "Generator" "coal" (.op "p" 1)) + x (.of "Generator" "gas" (.op "p" 1)) = second := by
  have h0 := h.balance 0 (by simp [twoNet, exNet]) "A" (by simp [twoNet])
  have h1 := h.balance 1 (by simp [twoNet, exNet]) "A" (by simp [twoNet])
  simp [supply, demand, twoNet, exNet, twoCoal, twoGas, twoUnit, exUnit', atBus, hu] at h0 h1
  exact ⟨h0, h1⟩

theorem two_cost {u : Unit' ℚ} (hu : ∀ t, u.active t = true) (hc : u.committable = false) (he : u.extendable = false) {marginal first second : ℚ} (x : WVar → ℚ) :
    totalCost (twoNet u marginal first second) x =
      marginal * (x (.of "Generator" "coal" (.op "p" 0)) + x (.of "Generator" "coal" (.op "p" 1))) +
      3 * (x (.of "Generator" "gas" (.op "p" 0)) + x (.of "Generator" "gas" (.op "p" 1))) := by
  simp [totalCost, genCost, twoNet, exNet, twoCoal, twoGas, twoUnit, exUnit', hu, hc, he, exCosts, weight, List.range_succ]
  ring

/-- A unit that must run at half of its capacity is cheaper committed: it may be off. -/
def mustRun : Unit' ℚ := { twoUnit with minPu := fun _ => 1 / 2 }

theorem mustRun_some : (createModel (commit coalSel (twoNet mustRun 5 8 8)) []).isSome = true := by decide +kernel

theorem must_run : AllFree (twoNet mustRun 5 8 8) coalSel ∧ surcharge (twoNet mustRun 5 8 8) coalSel = 0 ∧
    (∀ x, Rules (twoNet mustRun 5 8 8) x → 68 ≤ totalCost (twoNet mustRun 5 8 8) x) ∧
    ∃ y, Rules (commit coalSel (twoNet mustRun 5 8 8)) y ∧ OnOff (commit coalSel (twoNet mustRun 5 8 8)) y ∧
      totalCost (commit coalSel (twoNet mustRun 5 8 8)) y = 48 := by
  refine ⟨⟨?_, ?_⟩, by decide +kernel, ?_, twoVal [("gas", "p", 0, 8), ("gas", "p", 1, 8), ("coal", "shut_down", 0, 1)], ?_, ?_, by decide +kernel⟩
  · intro g hg hs
    simp only [twoNet, List.mem_cons, List.not_mem_nil, or_false] at hg
    rcases hg with rfl | rfl
    · exact ⟨rfl, rfl, fun _ _ => rfl, Or.inl rfl, fun _ _ => rfl, fun _ _ => rfl⟩
    · exact absurd hs (by decide)
  · intro g hg
    simp [twoNet] at hg
  · intro x hx
    obtain ⟨b0, b1⟩ := two_balance (u := mustRun) (fun _ => rfl) hx
    have hu := (hx.gens (twoCoal mustRun 5) (by simp [twoNet])).unit.fixed rfl rfl
    have h0 := (hu 0 (by decide) rfl).1
    have h1 := (hu 1 (by decide) rfl).1
    simp [twoCoal, mustRun, twoUnit, exUnit'] at h0 h1
    rw [two_cost (fun _ => rfl) rfl rfl]
    linarith
  · refine ((rules_iff (w := commit coalSel (twoNet mustRun 5 8 8)) ?_ (orderly_single rfl rfl) (Option.some_get mustRun_some).symm _).mp ?_).1
    · constructor <;> decide +kernel
    · unfold FeasibleIn
      decide +kernel
  · constructor <;> decide +kernel

/-- A unit with a tight ramp limit is cheaper committed: it starts faster than it ramps. -/
def slow : Unit' ℚ := { twoUnit with
  rampUp := fun _ => some (1 / 10), rampUpStatic := some (1 / 10), upBefore := 0, startUpCost := 1 }

theorem slow_some : (createModel (commit coalSel (twoNet slow 1 0 10)) []).isSome = true := by decide +kernel

theorem starts_faster : AllFree (twoNet slow 1 0 10) coalSel ∧ (∀ t < 2, slow.minPu t = 0) ∧
    (∀ x, Rules (twoNet slow 1 0 10) x → 28 ≤ totalCost (twoNet slow 1 0 10) x) ∧
    ∃ y, Rules (commit coalSel (twoNet slow 1 0 10)) y ∧ OnOff (commit coalSel (twoNet slow 1 0 10)) y ∧
      totalCost (commit coalSel (twoNet slow 1 0 10)) y = 11 := by
  refine ⟨⟨?_, ?_⟩, by decide +kernel, ?_, twoVal [("coal", "p", 1, 10), ("coal", "status", 1, 1), ("coal", "start_up", 1, 1)], ?_, ?_, by decide +kernel⟩
  · intro g hg hs
    simp only [twoNet, List.mem_cons, List.not_mem_nil, or_false] at hg
    rcases hg with rfl | rfl
    · exact ⟨rfl, rfl, fun _ _ => rfl, Or.inl rfl, fun _ _ => rfl, fun _ _ => rfl⟩
    · exact absurd hs (by decide)
  · intro g hg
    simp [twoNet] at hg
  · intro x hx
    obtain ⟨b0, b1⟩ := two_balance (u := slow) (fun _ => rfl) hx
    have hr : RampsCount ((twoNet slow 1 0 10).gens.map (·.unit)) (twoNet slow 1 0 10).len :=
      ⟨⟨slow, by simp [twoNet, twoCoal], 0, by decide, by decide⟩, ⟨slow, by simp [twoNet, twoCoal], 0, by decide, by decide +kernel⟩⟩
    have hu := (hx.gens (twoCoal slow 1) (by simp [twoNet])).unit
    have h1 := (hu.rampUp hr 0 (by decide) rfl (1 / 10) rfl).1 rfl rfl
    have hg := (hx.gens twoGas (by simp [twoNet])).unit.fixed rfl rfl
    have g0 := (hg 0 (by decide) rfl).1
    simp [inService, twoCoal, twoGas, slow, twoUnit, exUnit'] at h1 g0
    rw [two_cost (fun _ => rfl) rfl rfl]
    linarith
  · refine ((rules_iff (w := commit coalSel (twoNet slow 1 0 10)) ?_ (orderly_single rfl rfl) (Option.some_get slow_some).symm _).mp ?_).1
    · constructor <;> decide +kernel
    · unfold FeasibleIn
      decide +kernel
  · constructor <;> decide +kernel

/-- A unit that has been down for one of three snapshots must stay down, so that making it committable may leave no solution: the condition
`ready` is needed. -/
def resting : Unit' ℚ := { twoUnit with minDown := 3, upBefore := 0, downBefore := 1 }

theorem resting_some : (createModel (twoNet resting 1 20 20) []).isSome = true := by decide +kernel

theorem must_rest : (∃ x, Rules (twoNet resting 1 20 20) x) ∧ ∀ y, ¬ Rules (commit coalSel (twoNet resting 1 20 20)) y := by
  constructor
  · refine ⟨twoVal [("coal", "p", 0, 10), ("coal", "p", 1, 10), ("gas", "p", 0, 10), ("gas", "p", 1, 10)], ?_⟩
    refine ((rules_iff (w := twoNet resting 1 20 20) ?_ (orderly_single rfl rfl) (Option.some_get resting_some).symm _).mp ?_).1
    · constructor <;> decide +kernel
    · unfold FeasibleIn
      decide +kernel
  · intro y hy
    obtain ⟨b0, -⟩ := two_balance (u := commitUnit resting) (marginal := 1) (first := 20) (second := 20) (fun _ => rfl) hy
    have hu := (hy.gens (twoCoal (commitUnit resting) 1) (by simp [twoNet, commit, commitGen, twoCoal, coalSel])).unit
    have s0 := hu.stayDown rfl (by decide) 0 (by decide) rfl (by decide)
    have l0 := (hu.committed rfl 0 (by decide) rfl).2
    have g0 := ((hy.gens twoGas (by simp [twoNet, commit, commitGen, twoGas, coalSel])).unit.fixed rfl rfl 0 (by decide) rfl).2
    simp only [s0, zero_mul] at l0
    simp [twoGas, twoUnit, exUnit'] at g0
    simp [twoCoal] at l0
    linarith

end Verif.Opt.Whole.Commit
