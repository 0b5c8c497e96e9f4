import Verif.Opt.UnitsProps

/-!
# C120: looser limits never make the optimum worse

About the whole problem of `Whole.lean`: capacities, limits per unit, ramp limits, bounds of capacities and of energy sums of
existing assets are replaced by looser ones.
-/

namespace Verif.Opt.Whole

variable {F : Type} [Field F] [LinearOrder F]

/-! ## Networks with other limits -/

structure UnitLimits (F : Type) where
  nom : F
  minPu : Nat → F
  maxPu : Nat → F
  rampUp : Nat → Option F
  rampDown : Nat → Option F
  rampUpStatic : Option F
  rampDownStatic : Option F

structure CapLimits (F : Type) where
  nomMin : F
  nomMax : Option F

structure GenLimits (F : Type) where
  unit : UnitLimits F
  cap : CapLimits F
  eSumMin : Option F
  eSumMax : Option F

structure LinkLimits (F : Type) where
  unit : UnitLimits F
  cap : CapLimits F

structure StoreLimits (F : Type) where
  nom : F
  minPu : Nat → F
  maxPu : Nat → F
  cap : CapLimits F

structure SUnitLimits (F : Type) extends StoreLimits F where
  maxHours : F

structure BranchLimits (F : Type) where
  nom : F
  maxPu : Nat → F
  cap : CapLimits F

/-- New limits of every asset. -/
structure Limits (F : Type) where
  gen : GenW F → GenLimits F
  link : LinkW F → LinkLimits F
  store : StoreW F → StoreLimits F
  sunit : UnitW F → SUnitLimits F
  line : BranchW F → BranchLimits F
  trafo : BranchW F → BranchLimits F

def UnitLimits.set (l : UnitLimits F) (u : Unit' F) : Unit' F :=
  { u with nom := l.nom, minPu := l.minPu, maxPu := l.maxPu, rampUp := l.rampUp, rampDown := l.rampDown,
           rampUpStatic := l.rampUpStatic, rampDownStatic := l.rampDownStatic }

def CapLimits.set (l : CapLimits F) (i : Invest F) : Invest F := { i with nomMin := l.nomMin, nomMax := l.nomMax }

def GenLimits.set (l : GenLimits F) (g : GenW F) : GenW F :=
  { g with unit := l.unit.set g.unit, invest := l.cap.set g.invest, eSumMin := l.eSumMin, eSumMax := l.eSumMax }

def LinkLimits.set (l : LinkLimits F) (g : LinkW F) : LinkW F := { g with unit := l.unit.set g.unit, invest := l.cap.set g.invest }

def StoreLimits.set (l : StoreLimits F) (s : StoreW F) : StoreW F :=
  { s with nom := l.nom, minPu := l.minPu, maxPu := l.maxPu, invest := l.cap.set s.invest }

def SUnitLimits.set (l : SUnitLimits F) (s : UnitW F) : UnitW F :=
  { s with nom := l.nom, minPu := l.minPu, maxPu := l.maxPu, maxHours := l.maxHours, invest := l.cap.set s.invest }

def BranchLimits.set (l : BranchLimits F) (b : BranchW F) : BranchW F :=
  { b with nom := l.nom, maxPu := l.maxPu, invest := l.cap.set b.invest }

def Limits.net (L : Limits F) (w : WNet F) : WNet F :=
  { w with
    gens := w.gens.map (fun g => (L.gen g).set g)
    links := w.links.map (fun g => (L.link g).set g)
    stores := w.stores.map (fun s => (L.store s).set s)
    units := w.units.map (fun s => (L.sunit s).set s)
    lines := w.lines.map (fun b => (L.line b).set b)
    trafos := w.trafos.map (fun b => (L.trafo b).set b) }

/-! ## Looser limits -/

/-- A missing upper limit is the loosest one. -/
def MaxLooser (old new : Option F) : Prop := ∀ b', new = some b' → ∃ b, old = some b ∧ b ≤ b'

def MinLooser (old new : Option F) : Prop := ∀ b', new = some b' → ∃ b, old = some b ∧ b' ≤ b

/-- A ramp limit, per unit and in units of power. -/
def RampLooser (nom nom' : F) (old new : Option F) : Prop :=
  ∀ b', new = some b' → ∃ b, old = some b ∧ b ≤ b' ∧ b * nom ≤ b' * nom'

/-- Limits of generators and links.  Units with commitment keep their capacity, and all their limits if the commitment is
linearised. -/
structure UnitLooser (linearized : Bool) (u : Unit' F) (l : UnitLimits F) : Prop where
  lo : ∀ t, l.minPu t * l.nom ≤ u.minPu t * u.nom
  up : ∀ t, u.maxPu t * u.nom ≤ l.maxPu t * l.nom
  rampUp : ∀ t, RampLooser u.nom l.nom (u.rampUp t) (l.rampUp t)
  rampDown : ∀ t, RampLooser u.nom l.nom (u.rampDown t) (l.rampDown t)
  ext : u.extendable = true → l.nom = u.nom ∧ ∀ t, l.minPu t ≤ u.minPu t ∧ u.maxPu t ≤ l.maxPu t
  com : u.committable = true → l.nom = u.nom ∧ 0 ≤ u.nom ∧ 0 ≤ u.histStatus.getLastD 0 ∧
    RampLooser u.nom l.nom u.rampUpStatic l.rampUpStatic ∧ RampLooser u.nom l.nom u.rampDownStatic l.rampDownStatic
  same : linearized = true → u.committable = true → l.set u = u

/-- Bounds of capacities; capacities are not negative. -/
structure CapLooser (ext : Bool) (i : Invest F) (l : CapLimits F) : Prop where
  min : l.nomMin ≤ i.nomMin
  max : MaxLooser i.nomMax l.nomMax
  nonneg : ext = true → 0 ≤ i.nomMin

structure GenLooser (linearized : Bool) (g : GenW F) (l : GenLimits F) : Prop where
  unit : UnitLooser linearized g.unit l.unit
  cap : CapLooser g.unit.extendable g.invest l.cap
  sumMin : MinLooser g.eSumMin l.eSumMin
  sumMax : MaxLooser g.eSumMax l.eSumMax

structure LinkLooser (linearized : Bool) (g : LinkW F) (l : LinkLimits F) : Prop where
  unit : UnitLooser linearized g.unit l.unit
  cap : CapLooser g.unit.extendable g.invest l.cap

structure StoreLooser (s : StoreW F) (l : StoreLimits F) : Prop where
  lo : ∀ t, l.minPu t * l.nom ≤ s.minPu t * s.nom
  up : ∀ t, s.maxPu t * s.nom ≤ l.maxPu t * l.nom
  ext : s.ext = true → l.nom = s.nom ∧ ∀ t, l.minPu t ≤ s.minPu t ∧ s.maxPu t ≤ l.maxPu t
  cap : CapLooser s.ext s.invest l.cap

structure SUnitLooser (s : UnitW F) (l : SUnitLimits F) : Prop where
  lo : ∀ t, l.minPu t * l.nom ≤ s.minPu t * s.nom
  up : ∀ t, s.maxPu t * s.nom ≤ l.maxPu t * l.nom
  energy : s.maxHours * s.nom ≤ l.maxHours * l.nom
  ext : s.ext = true → l.nom = s.nom ∧ s.maxHours ≤ l.maxHours ∧ ∀ t, l.minPu t ≤ s.minPu t ∧ s.maxPu t ≤ l.maxPu t
  cap : CapLooser s.ext s.invest l.cap

/-- With losses, passive branches keep their limits. -/
structure BranchLooser (tangents : Nat) (b : BranchW F) (l : BranchLimits F) : Prop where
  up : ∀ t, b.maxPu t * b.nom ≤ l.maxPu t * l.nom
  ext : b.ext = true → l.nom = b.nom ∧ ∀ t, b.maxPu t ≤ l.maxPu t
  cap : CapLooser b.ext b.invest l.cap
  same : tangents ≠ 0 → l.set b = b

/-- All limits are looser. -/
structure Looser (w : WNet F) (L : Limits F) : Prop where
  gens : ∀ g ∈ w.gens, GenLooser w.linearized g (L.gen g)
  links : ∀ g ∈ w.links, LinkLooser w.linearized g (L.link g)
  stores : ∀ s ∈ w.stores, StoreLooser s (L.store s)
  units : ∀ s ∈ w.units, SUnitLooser s (L.sunit s)
  lines : ∀ b ∈ w.lines, BranchLooser w.tangents b (L.line b)
  trafos : ∀ b ∈ w.trafos, BranchLooser w.tangents b (L.trafo b)

section Rows

variable [IsStrictOrderedRing F]

/-! ## Units -/

/-- Rows that follow from others. -/
def Implies {V : Type} (new old : List (Con V F)) : Prop := ∀ y, Feasible y old → Feasible y new

theorem rowsAt_feasible (u : Unit' F) (ts : List Nat) (f : Nat → List (Con UVar F)) (y : UVar → F) :
    Feasible y (rowsAt u ts f) ↔ ∀ t ∈ ts, u.active t = true → Feasible y (f t) := by
  unfold rowsAt
  rw [feasible_flatMap]
  refine forall_congr' fun t => forall_congr' fun _ => ?_
  split <;> simp_all

theorem present_set (l : UnitLimits F) (u : Unit' F) : present (l.set u) = present u := by
  funext v; cases v <;> rfl

theorem prevTm_set (l : UnitLimits F) (u : Unit' F) (a : F) (mk : Nat → UVar) (t : Nat) : prevTm (l.set u) a mk t = prevTm u a mk t := by
  cases t <;> simp [prevTm, present_set]

theorem lin_prevTm (u : Unit' F) (a : F) (mk : Nat → UVar) (t : Nat) (y : UVar → F) :
    lin y (prevTm u a mk t) = a * lin y (prevTm u 1 mk t) := by
  cases t <;> simp [prevTm]

theorem pDiff_set (l : UnitLimits F) (u : Unit' F) (t : Nat) : pDiff (l.set u) t = pDiff u t := by
  simp [pDiff, present_set, prevTm_set]

variable {lz : Bool} {u : Unit' F} {l : UnitLimits F} (h : UnitLooser lz u l) (y : UVar → F)

include h

theorem nonExt_loosen (T : Nat) (hy : Feasible y (nonExtCons u T)) : Feasible y (nonExtCons (l.set u) T) := by
  unfold nonExtCons at *
  by_cases hc : (u.extendable || u.committable) = true
  · rw [if_pos (show ((l.set u).extendable || (l.set u).committable) = true from hc)]; simp
  · rw [if_neg hc] at hy
    rw [if_neg (show ¬ ((l.set u).extendable || (l.set u).committable) = true from hc)]
    rw [rowsAt_feasible] at *
    intro t ht ha
    have := hy t ht ha
    simp only [feasible_cons, feasible_nil, and_true, Con.holds, present_set, lin_tm] at *
    exact ⟨le_trans (h.lo t) this.1, le_trans this.2 (h.up t)⟩

theorem ext_loosen (hcap : u.extendable = true → 0 ≤ y .cap) (T : Nat) (hy : Feasible y (extCons u T)) :
    Feasible y (extCons (l.set u) T) := by
  unfold extCons at *
  by_cases hc : u.extendable = true
  · rw [if_neg (by simp [hc])] at hy
    rw [if_neg (show ¬ (!(l.set u).extendable) = true by simp [UnitLimits.set, hc])]
    rw [rowsAt_feasible] at *
    intro t ht ha
    have := hy t ht ha
    have h0 := hcap hc
    obtain ⟨h1, h2⟩ := (h.ext hc).2 t
    simp only [feasible_cons, feasible_nil, and_true, Con.holds, present_set, lin_append, lin_tm] at *
    simp only [UnitLimits.set]
    have e : orZero (present u) y .cap = y .cap := by simp [orZero, present]
    rw [e] at this ⊢
    have a := mul_le_mul_of_nonneg_right h1 h0
    have b := mul_le_mul_of_nonneg_right h2 h0
    constructor <;> linarith
  · rw [if_pos (show (!(l.set u).extendable) = true by simpa [UnitLimits.set] using hc)]; simp

theorem com_loosen (T : Nat) (rolling : Bool) (hst : u.committable = true → ∀ t < T, u.active t = true → 0 ≤ y (.status t))
    (hy : Feasible y (comCons u T rolling)) : Feasible y (comCons (l.set u) T rolling) := by
  unfold comCons at *
  by_cases hc : u.committable = true
  · rw [if_neg (by simp [hc])] at hy
    rw [if_neg (show ¬ (!(l.set u).committable) = true by simp [UnitLimits.set, hc])]
    simp only [feasible_append] at hy ⊢
    obtain ⟨⟨⟨h1, h2⟩, h3⟩, h4⟩ := hy
    refine ⟨⟨⟨?_, ?_⟩, ?_⟩, ?_⟩
    · rw [rowsAt_feasible] at *
      intro t ht ha
      have := h1 t ht ha
      have h0 := hst hc t (List.mem_range.mp ht) ha
      have e : orZero (present u) y (.status t) = y (.status t) := by
        simp only [orZero, present]; exact if_pos ha
      simp only [feasible_cons, feasible_nil, and_true, Con.holds, present_set, lin_append, lin_tm] at *
      rw [e] at this ⊢
      have a := mul_le_mul_of_nonneg_right (h.lo t) h0
      have b := mul_le_mul_of_nonneg_right (h.up t) h0
      show 0 ≤ _ + -(l.minPu t * l.nom) * _ ∧ _ + -(l.maxPu t * l.nom) * _ ≤ 0
      constructor <;> nlinarith
    · simp only [statusDiff, present_set, prevTm_set]
      simp only [statusDiff] at h2
      exact h2
    · simp only [windowTm, present_set]
      simp only [windowTm] at h3
      exact h3
    · simp only [present_set]
      exact h4
  · rw [if_pos (show (!(l.set u).committable) = true by simpa [UnitLimits.set] using hc)]; simp

theorem rampRows_loosen (rolling : Bool) (t : Nat) (ha : u.active t = true) (hcap : u.extendable = true → 0 ≤ y .cap)
    (hst : u.committable = true → ∀ s ≤ t, u.active s = true → 0 ≤ y (.status s)) (hy : Feasible y (rampRows u rolling t)) :
    Feasible y (rampRows (l.set u) rolling t) := by
  have e : orZero (present u) y .cap = y .cap := by simp [orZero, present]
  have es : orZero (present u) y (.status t) = y (.status t) := by
    simp only [orZero, present]; exact if_pos ha
  unfold rampRows at *
  simp only [feasible_append] at hy ⊢
  obtain ⟨⟨h1, h2⟩, h3⟩ := hy
  refine ⟨⟨?_, ?_⟩, ?_⟩
  · show Feasible y (if (!u.extendable && !u.committable) = true then _ else _)
    by_cases hc : (!u.extendable && !u.committable) = true
    · rw [if_pos hc] at h1 ⊢
      rw [feasible_append] at *
      refine ⟨?_, ?_⟩
      · show Feasible y (match l.rampUp t with | some r => _ | none => _)
        cases hr : l.rampUp t with
        | none => simp
        | some b' =>
          obtain ⟨b, hb, -, hle⟩ := h.rampUp t b' hr
          have := h1.1
          rw [hb] at this
          simp only [feasible_cons, feasible_nil, and_true, Con.holds, pDiff_set] at this ⊢
          exact le_trans this (add_le_add_left hle _)
      · show Feasible y (match l.rampDown t with | some r => _ | none => _)
        cases hr : l.rampDown t with
        | none => simp
        | some b' =>
          obtain ⟨b, hb, -, hle⟩ := h.rampDown t b' hr
          have := h1.2
          rw [hb] at this
          simp only [feasible_cons, feasible_nil, and_true, Con.holds, pDiff_set] at this ⊢
          refine le_trans ?_ this
          show - b' * l.nom + rampStartRhs u rolling t ≤ _
          linarith
    · rw [if_neg hc]; simp
  · show Feasible y (if u.extendable = true then _ else _)
    by_cases hc : u.extendable = true
    · rw [if_pos hc] at h2 ⊢
      rw [feasible_append] at *
      have h0 := hcap hc
      refine ⟨?_, ?_⟩
      · show Feasible y (match l.rampUp t with | some r => _ | none => _)
        cases hr : l.rampUp t with
        | none => simp
        | some b' =>
          obtain ⟨b, hb, hle, -⟩ := h.rampUp t b' hr
          have := h2.1
          rw [hb] at this
          simp only [feasible_cons, feasible_nil, and_true, Con.holds, pDiff_set, lin_append, lin_tm, present_set, e] at this ⊢
          have := mul_le_mul_of_nonneg_right hle h0
          show _ ≤ rampStartRhs u rolling t
          linarith
      · show Feasible y (match l.rampDown t with | some r => _ | none => _)
        cases hr : l.rampDown t with
        | none => simp
        | some b' =>
          obtain ⟨b, hb, hle, -⟩ := h.rampDown t b' hr
          have := h2.2
          rw [hb] at this
          simp only [feasible_cons, feasible_nil, and_true, Con.holds, pDiff_set, lin_append, lin_tm, present_set, e] at this ⊢
          have := mul_le_mul_of_nonneg_right hle h0
          show rampStartRhs u rolling t ≤ _
          linarith
    · rw [if_neg hc]; simp
  · show Feasible y (if u.committable = true then _ else _)
    by_cases hc : u.committable = true
    · rw [if_pos hc] at h3 ⊢
      rw [feasible_append] at *
      obtain ⟨hn, n0, hl, hu, hd⟩ := h.com hc
      have hprev : 0 ≤ lin y (prevTm u 1 .status t) := by
        cases t with
        | zero => simp [prevTm]
        | succ s =>
          simp only [prevTm, lin_tm, one_mul]
          unfold orZero
          split
          · rename_i hs; exact hst hc s (by omega) hs
          · exact le_refl _
      refine ⟨?_, ?_⟩
      · show Feasible y (match l.rampUpStatic with | some r => _ | none => _)
        cases hr : l.rampUpStatic with
        | none => simp
        | some b' =>
          obtain ⟨b, hb, -, hle⟩ := hu b' hr
          have := h3.1
          rw [hb] at this
          simp only [feasible_cons, feasible_nil, and_true, Con.holds, pDiff_set, lin_append, lin_tm, present_set, prevTm_set, es] at this ⊢
          rw [lin_prevTm] at this ⊢
          show _ + (u.rampStart * l.nom - b' * l.nom) * _ + -(u.rampStart * l.nom) * _ ≤ rampStartRhs u rolling t +
            (if rolling = true ∧ t = 0 then (b' * l.nom - u.rampStart * l.nom) * lastStatus u else 0)
          have a := mul_le_mul_of_nonneg_right hle hprev
          have c : b * u.nom * lastStatus u ≤ b' * l.nom * lastStatus u := mul_le_mul_of_nonneg_right hle hl
          rw [hn] at *
          split
          · rename_i ht; rw [if_pos ht] at this; nlinarith
          · rename_i ht; rw [if_neg ht] at this; nlinarith
      · show Feasible y (match l.rampDownStatic with | some r => _ | none => _)
        cases hr : l.rampDownStatic with
        | none => simp
        | some b' =>
          obtain ⟨b, hb, -, hle⟩ := hd b' hr
          have := h3.2
          rw [hb] at this
          simp only [feasible_cons, feasible_nil, and_true, Con.holds, pDiff_set, lin_append, lin_tm, present_set, prevTm_set, es] at this ⊢
          show rampStartRhs u rolling t + (if rolling = true ∧ t = 0 then - (u.rampShut * l.nom) * lastStatus u else 0) ≤
            _ + (b' * l.nom - u.rampShut * l.nom) * _ + lin y (prevTm u (u.rampShut * l.nom) .status t)
          have a := mul_le_mul_of_nonneg_right hle (hst hc t (le_refl _) ha)
          rw [hn] at *
          refine le_trans this ?_
          nlinarith
    · rw [if_neg hc]; simp

theorem unitCons_loosen {cls cls' : List (Unit' F)} (T : Nat) (hcls : RampsStay cls T) (hu : u ∈ cls) (rolling : Bool)
    (hcap : u.extendable = true → 0 ≤ y .cap) (hst : u.committable = true → ∀ t < T, u.active t = true → 0 ≤ y (.status t))
    (hy : Feasible y (unitCons cls u T rolling lz)) : Feasible y (unitCons cls' (l.set u) T rolling lz) := by
  unfold unitCons at *
  simp only [feasible_append] at hy ⊢
  obtain ⟨⟨⟨⟨h1, h2⟩, h3⟩, h4⟩, h5⟩ := hy
  refine ⟨⟨⟨⟨nonExt_loosen h y T h1, ext_loosen h y hcap T h2⟩, com_loosen h y T rolling hst h3⟩, ?_⟩, ?_⟩
  · split
    · rename_i hl
      rw [if_pos hl] at h4
      by_cases hc : u.committable = true
      · rw [h.same hl hc]; exact h4
      · unfold linearizedCons
        rw [if_pos (show (!(l.set u).committable || decide ((l.set u).startUpCost ≠ (l.set u).shutDownCost)) = true by
          have : (l.set u).committable = false := by simpa [UnitLimits.set] using hc
          simp [this])]
        simp
    · simp
  · unfold rampCons at *
    by_cases hs : rampSkip cls' T = true
    · rw [if_pos hs]; simp
    · rw [if_neg hs]
      rw [rowsAt_feasible]
      intro t ht ha
      have h6 : Feasible y (rampRows u rolling t) := by
        rcases hcls with hcls | hcls
        · obtain ⟨h1, h2, h3⟩ := hcls u hu
          simp [rampRows, h1, h2, h3]
        · rw [not_skip hcls, if_neg (by simp), rowsAt_feasible] at h5
          exact h5 t ht ha
      have hT : t < T := by
        cases rolling
        · simp [List.mem_range'_1] at ht; omega
        · simpa using ht
      exact rampRows_loosen h y rolling t ha hcap (fun hc s hs ha' => hst hc s (by omega) ha') h6

end Rows

/-! ## Assets -/

section Assets

variable [IsStrictOrderedRing F]

/-- Both sets of rows exist, and one follows from the other. -/
def OptImplies {V : Type} (new old : Option (List (Con V F))) : Prop := Option.Rel Implies new old

theorem feasible_remap {V W : Type} (f : V → W) (x : W → F) (r : List (Con V F)) :
    Feasible x (r.map (remap f)) ↔ Feasible (fun v => x (f v)) r := by
  simp only [Feasible, List.forall_mem_map, holds_remap]

theorem sumRows_loosen (T : Nat) (gw : Nat → F) (name : Name) (active : Nat → Bool) {lo hi lo' hi' : Option F} (h1 : MinLooser lo lo')
    (h2 : MaxLooser hi hi') (y : Name × Nat → F)
    (hy : Feasible y (Capacity.totalSupplyCons (List.range T) gw [⟨name, active, lo, hi⟩])) :
    Feasible y (Capacity.totalSupplyCons (List.range T) gw [⟨name, active, lo', hi'⟩]) := by
  unfold Capacity.totalSupplyCons at *
  simp only [List.flatMap_cons, List.flatMap_nil, List.append_nil, feasible_append] at hy ⊢
  have e : ∀ a b c d : Option F, Capacity.sumTerms (List.range T) gw ⟨name, active, a, b⟩ =
    Capacity.sumTerms (List.range T) gw ⟨name, active, c, d⟩ := fun _ _ _ _ => rfl
  refine ⟨?_, ?_⟩
  · cases hb : lo' with
    | none => simp
    | some b' =>
      obtain ⟨b, hb', hle⟩ := h1 b' hb
      subst hb'
      have := hy.1
      simp only [Capacity.rowOf, feasible_ite, feasible_nil, implies_true, true_and, feasible_cons, and_true, Con.holds] at this ⊢
      exact fun hn => le_trans hle (this hn)
  · cases hb : hi' with
    | none => simp
    | some b' =>
      obtain ⟨b, hb', hle⟩ := h2 b' hb
      subst hb'
      have := hy.2
      simp only [Capacity.rowOf, feasible_ite, feasible_nil, implies_true, true_and, feasible_cons, and_true, Con.holds] at this ⊢
      exact fun hn => le_trans (this hn) hle

theorem capRows_loosen (name : Name) {ext : Bool} {i : Invest F} {l : CapLimits F} (h : CapLooser ext i l) :
    Option.Rel (fun new old => ∀ y, Feasible y old → Feasible y new ∧ (ext = true → 0 ≤ y .cap)) (capRows name ext (l.set i))
      (capRows name ext i) := by
  unfold capRows Capacity.capacityCons Capacity.fixedNominalCons
  simp only [List.any_cons, List.any_nil, Bool.or_false]
  have e : ((capAsset name ext (l.set i)).nomSet.isSome && !(capAsset name ext (l.set i)).ext) =
      ((capAsset name ext i).nomSet.isSome && !(capAsset name ext i).ext) := rfl
  rw [e]
  by_cases hc : ((capAsset name ext i).nomSet.isSome && !(capAsset name ext i).ext) = true
  · rw [if_pos hc, if_pos hc]
    exact .none
  · rw [if_neg hc, if_neg hc]
    refine .some (fun y hy => ?_)
    simp only [feasible_append, List.map_append] at hy ⊢
    obtain ⟨⟨⟨h1, h2⟩, h3⟩, h4⟩ := hy
    rw [feasible_remap] at h1
    have key : Feasible (fun v => y (capLoc v)) (Capacity.nominalCons [capAsset name ext (l.set i)]) ∧ (ext = true → 0 ≤ y .cap) := by
      unfold Capacity.nominalCons at *
      cases ext
      · exact ⟨by simp [capAsset], by simp⟩
      · simp only [capAsset, List.filter_cons, List.filter_nil, if_true, List.flatMap_cons, List.flatMap_nil, List.append_nil,
          feasible_cons, Con.holds, lin_cons, lin_nil, add_zero, one_mul, capLoc] at h1 ⊢
        obtain ⟨h5, h6⟩ := h1
        refine ⟨⟨le_trans h.min h5, ?_⟩, fun _ => le_trans (h.nonneg rfl) h5⟩
        show Feasible _ (match l.nomMax with | some u => _ | none => _)
        cases hb : l.nomMax with
        | none => simp
        | some b' =>
          obtain ⟨b, hb', hle⟩ := h.max b' hb
          rw [hb'] at h6
          simp only [feasible_cons, feasible_nil, and_true, Con.holds, lin_cons, lin_nil, add_zero, one_mul] at h6 ⊢
          exact le_trans h6 hle
    have em : Capacity.modularCons [capAsset name ext (l.set i)] = Capacity.modularCons [capAsset name ext i] := by
      have e2 : Capacity.modular (capAsset name ext (l.set i)) = Capacity.modular (capAsset name ext i) := rfl
      simp only [Capacity.modularCons, List.filter_cons, List.filter_nil, e2]
      split <;> rfl
    rw [em]
    exact ⟨⟨⟨⟨(feasible_remap _ _ _).mpr key.1, h2⟩, h3⟩, h4⟩, key.2⟩

theorem boundRows_loosen (len : Nat) (c : Accessor.Cls) (attr : Accessor.Attr') (var : Name) (losses : Bool)
    {a' a : Nat → Accessor.Asset F} {ext : Bool} (h1 : ∀ t, (a' t).active = (a t).active ∧ (a' t).ext = ext ∧ (a t).ext = ext)
    (hlo : ∀ t, (Accessor.boundsPu c attr (a' t)).1 * (a' t).nom ≤ (Accessor.boundsPu c attr (a t)).1 * (a t).nom)
    (hup : ∀ t, (Accessor.boundsPu c attr (a t)).2 * (a t).nom ≤ (Accessor.boundsPu c attr (a' t)).2 * (a' t).nom)
    (hext : ext = true → ∀ t, (Accessor.boundsPu c attr (a' t)).1 ≤ (Accessor.boundsPu c attr (a t)).1 ∧
      (Accessor.boundsPu c attr (a t)).2 ≤ (Accessor.boundsPu c attr (a' t)).2) (y : Loc → F) (hcap : ext = true → 0 ≤ y .cap)
    (hy : Feasible y (boundRows len c attr var losses a)) : Feasible y (boundRows len c attr var losses a') := by
  unfold boundRows at *
  rw [feasible_flatMap] at *
  intro t ht
  have := hy t ht
  rw [feasible_remap] at *
  obtain ⟨e1, e2, e3⟩ := h1 t
  unfold Accessor.opRows Accessor.fixRows Accessor.extRows at *
  simp only [e1, e2, e3] at this ⊢
  simp only [feasible_append] at this ⊢
  refine ⟨?_, ?_⟩
  · split
    · simp
    · rename_i hc
      have := this.1
      rw [if_neg hc] at this
      simp only [feasible_cons, feasible_nil, and_true, Con.holds] at this ⊢
      exact ⟨le_trans (hlo t) this.1, le_trans this.2 (hup t)⟩
  · split
    · simp
    · rename_i hc
      have := this.2
      rw [if_neg hc] at this
      have he : ext = true := by simp at hc; exact hc.1
      obtain ⟨h3, h4⟩ := hext he t
      have a := mul_le_mul_of_nonneg_right h3 (hcap he)
      have b := mul_le_mul_of_nonneg_right h4 (hcap he)
      simp only [feasible_cons, feasible_nil, and_true, Con.holds, lin_cons, boundLoc] at this ⊢
      constructor <;> linarith

theorem status_nonneg {len : Nat} {u : Unit' F} {y : Loc → F} (hy : Feasible y (commitRows len u)) (hc : u.committable = true)
    (t : Nat) (ht : t < len) (ha : u.active t = true) : 0 ≤ y (.op "status" t) := by
  unfold commitRows at hy
  rw [if_pos hc, feasible_flatMap] at hy
  have := hy t (List.mem_range.mpr ht)
  rw [if_pos ha, feasible_flatMap] at this
  have := this "status" (by simp)
  simpa [Con.holds, lin] using ((feasible_cons _ _ _).mp this).1

theorem genRows_loosen {w : WNet F} {L : Limits F} (hr : RampsStay (w.gens.map (·.unit)) w.len) {g : GenW F} (hg : g ∈ w.gens)
    (h : GenLooser w.linearized g (L.gen g)) : OptImplies (genRows (L.net w) ((L.gen g).set g)) (genRows w g) := by
  unfold genRows
  refine optRel_map (capRows_loosen g.name h.cap) (fun new old hcap y hy => ?_)
  simp only [feasible_append] at hy ⊢
  obtain ⟨⟨⟨⟨h1, h2⟩, h3⟩, h4⟩, h5⟩ := hy
  obtain ⟨k1, k2⟩ := hcap y h1
  rw [feasible_remap] at h2 h5
  exact ⟨⟨⟨⟨k1, (feasible_remap _ _ _).mpr (unitCons_loosen h.unit _ w.len hr (List.mem_map_of_mem hg) w.rolling k2
    (fun hc t ht ha => status_nonneg h3 hc t ht ha) h2)⟩, h3⟩, h4⟩,
    (feasible_remap _ _ _).mpr (sumRows_loosen w.len w.gw g.name g.unit.active h.sumMin h.sumMax _ h5)⟩

theorem linkRows_loosen {w : WNet F} {L : Limits F} (hr : RampsStay (w.links.map (·.unit)) w.len) {g : LinkW F} (hg : g ∈ w.links)
    (h : LinkLooser w.linearized g (L.link g)) : OptImplies (linkRows (L.net w) ((L.link g).set g)) (linkRows w g) := by
  unfold linkRows
  refine optRel_map (capRows_loosen g.name h.cap) (fun new old hcap y hy => ?_)
  simp only [feasible_append] at hy ⊢
  obtain ⟨⟨⟨h1, h2⟩, h3⟩, h4⟩ := hy
  obtain ⟨k1, k2⟩ := hcap y h1
  rw [feasible_remap] at h2
  exact ⟨⟨⟨k1, (feasible_remap _ _ _).mpr (unitCons_loosen h.unit _ w.len hr (List.mem_map_of_mem hg) w.rolling k2
    (fun hc t ht ha => status_nonneg h3 hc t ht ha) h2)⟩, h3⟩, h4⟩

theorem storeRows_loosen {w : WNet F} {L : Limits F} {s : StoreW F} (h : StoreLooser s (L.store s)) :
    OptImplies (storeRows (L.net w) ((L.store s).set s)) (storeRows w s) := by
  unfold storeRows
  refine optRel_map (capRows_loosen s.name h.cap) (fun new old hcap y hy => ?_)
  simp only [feasible_append] at hy ⊢
  obtain ⟨⟨⟨h1, h2⟩, h3⟩, h4⟩ := hy
  obtain ⟨k1, k2⟩ := hcap y h1
  exact ⟨⟨⟨k1, boundRows_loosen w.len .store .e "e" false (a := storeBound s) (a' := storeBound ((L.store s).set s)) (ext := s.ext) (fun _ => ⟨rfl, rfl, rfl⟩) h.lo h.up (fun he => (h.ext he).2) y k2 h2⟩, h3⟩, h4⟩

theorem sunitRows_loosen {w : WNet F} {L : Limits F} {s : UnitW F} (h : SUnitLooser s (L.sunit s)) :
    OptImplies (sunitRows (L.net w) ((L.sunit s).set s)) (sunitRows w s) := by
  unfold sunitRows
  refine optRel_map (capRows_loosen s.name h.cap) (fun new old hcap y hy => ?_)
  simp only [feasible_append] at hy ⊢
  obtain ⟨⟨⟨⟨⟨⟨h1, h2⟩, h3⟩, h4⟩, h5⟩, h6⟩, h7⟩ := hy
  obtain ⟨k1, k2⟩ := hcap y h1
  refine ⟨⟨⟨⟨⟨⟨k1, ?_⟩, ?_⟩, ?_⟩, h5⟩, h6⟩, h7⟩
  · refine boundRows_loosen w.len .storageUnit .pDispatch "p_dispatch" false (a := unitBound s) (a' := unitBound ((L.sunit s).set s)) (ext := s.ext) (fun _ => ⟨rfl, rfl, rfl⟩) ?_ h.up
      (fun he t => ⟨le_refl _, ((h.ext he).2.2 t).2⟩) y k2 h2
    intro t; simp [Accessor.boundsPu]
  · refine boundRows_loosen w.len .storageUnit .pStore "p_store" false (a := unitBound s) (a' := unitBound ((L.sunit s).set s)) (ext := s.ext) (fun _ => ⟨rfl, rfl, rfl⟩) ?_ ?_
      (fun he t => ⟨le_refl _, neg_le_neg ((h.ext he).2.2 t).1⟩) y k2 h3
    · intro t; simp [Accessor.boundsPu]
    · intro t
      show - s.minPu t * s.nom ≤ - (L.sunit s).minPu t * (L.sunit s).nom
      linarith [h.lo t]
  · refine boundRows_loosen w.len .storageUnit .soc "state_of_charge" false (a := unitBound s) (a' := unitBound ((L.sunit s).set s)) (ext := s.ext) (fun _ => ⟨rfl, rfl, rfl⟩) ?_ (fun _ => h.energy)
      (fun he t => ⟨le_refl _, (h.ext he).2.1⟩) y k2 h4
    intro t; simp [Accessor.boundsPu]

theorem branchRows_loosen {w : WNet F} {L : Limits F} {c : Accessor.Cls} (hc : c = .line ∨ c = .transformer) {b : BranchW F}
    {l : BranchLimits F} (h : BranchLooser w.tangents b l) : OptImplies (branchRows (L.net w) c (l.set b)) (branchRows w c b) := by
  by_cases ht : w.tangents = 0
  · unfold branchRows
    have e1 : lossRows (L.net w) (l.set b) = some [] := if_pos ht
    have e2 : lossRows w b = some [] := if_pos ht
    rw [e1, e2]
    have h1 := capRows_loosen b.name h.cap
    show OptImplies ((capRows b.name b.ext (l.cap.set b.invest)).bind _) _
    revert h1
    generalize capRows b.name b.ext (l.cap.set b.invest) = q'
    generalize capRows b.name b.ext b.invest = q
    intro h1
    cases h1 with
    | none => exact .none
    | some h1 =>
      refine .some (fun y hy => ?_)
      simp only [feasible_append] at hy ⊢
      obtain ⟨⟨⟨k1, k2⟩, k3⟩, k4⟩ := hy
      obtain ⟨m1, m2⟩ := h1 y k1
      refine ⟨⟨⟨m1, ?_⟩, k3⟩, k4⟩
      refine boundRows_loosen w.len c .s "s" _ (a := branchBound b) (a' := branchBound (l.set b)) (ext := b.ext) (fun _ => ⟨rfl, rfl, rfl⟩) ?_ ?_ ?_ y m2 k2
      · intro t
        have := h.up t
        rcases hc with rfl | rfl <;> show - l.maxPu t * l.nom ≤ - b.maxPu t * b.nom <;> linarith
      · intro t
        have := h.up t
        rcases hc with rfl | rfl <;> exact this
      · intro he t
        have := (h.ext he).2 t
        rcases hc with rfl | rfl <;> exact ⟨neg_le_neg this, this⟩
  · rw [h.same ht]
    have : branchRows (L.net w) c b = branchRows w c b := rfl
    rw [this]
    cases branchRows w c b with
    | none => exact .none
    | some _ => exact .some (fun y hy => hy)

theorem tagged_loosen {comp name : Name} {r' r : Option (List (Con Loc F))} (h : OptImplies r' r) :
    OptImplies (tagged comp name r') (tagged comp name r) := by
  refine optRel_map h (fun new old h y hy => ?_)
  rw [feasible_remap] at *
  exact h _ hy

theorem implies_flatten {V : Type} {l' l : List (List (Con V F))} (h : List.Forall₂ Implies l' l) : Implies l'.flatten l.flatten := by
  induction h with
  | nil => exact fun _ h => h
  | cons h _ ih =>
    intro y hy
    simp only [List.flatten_cons, feasible_append] at hy ⊢
    exact ⟨h y hy.1, ih y hy.2⟩

theorem ownRows_loosen {w : WNet F} {L : Limits F} (h : Looser w L) (hg : RampsStay (w.gens.map (·.unit)) w.len)
    (hk : RampsStay (w.links.map (·.unit)) w.len) : OptImplies (ownRows (L.net w)) (ownRows w) := by
  unfold ownRows
  refine optRel_map (optRel_mapM (R := Implies) ?_) (fun _ _ h => implies_flatten h)
  simp only [Limits.net, List.map_map]
  refine all_append (all_append (all_append (all_append (all_append ?_ ?_) ?_) ?_) ?_) ?_
  · exact all_map _ (fun g m => tagged_loosen (genRows_loosen hg m (h.gens g m)))
  · exact all_map _ (fun g m => tagged_loosen (linkRows_loosen hk m (h.links g m)))
  · exact all_map _ (fun g m => tagged_loosen (storeRows_loosen (h.stores g m)))
  · exact all_map _ (fun g m => tagged_loosen (sunitRows_loosen (h.units g m)))
  · exact all_map _ (fun g m => tagged_loosen (branchRows_loosen (.inl rfl) (h.lines g m)))
  · exact all_map _ (fun g m => tagged_loosen (branchRows_loosen (.inr rfl) (h.trafos g m)))

end Assets

/-! ## Nodal balance and objective -/

theorem nodal_loosen (w : WNet F) (L : Limits F) (t : Nat) : nodal (L.net w) t = nodal w t := by
  simp only [nodal, Limits.net, List.map_map]
  rfl

theorem balanceRows_loosen (w : WNet F) (L : Limits F) : balanceRows (L.net w) = balanceRows w := by
  unfold balanceRows
  simp only [nodal_loosen]
  rfl

/-- Assets that differ at most in their capacity, and only if it is fixed. -/
def SameCosts (a' a : Objective.Asset F) : Prop := ∃ nom', a' = { a with nom := nom' } ∧ (a.ext = true → nom' = a.nom)

theorem map_same {B : Type} {l' l : List (Objective.Asset F)} (h : List.Forall₂ SameCosts l' l) {f g : Objective.Asset F → B}
    (hf : ∀ a' a, SameCosts a' a → f a' = g a) : l'.map f = l.map g := by
  induction h with
  | nil => rfl
  | cons h _ ih => simp [hf _ _ h, ih]

theorem filter_same {l' l : List (Objective.Asset F)} (h : List.Forall₂ SameCosts l' l) {f : Objective.Asset F → Bool}
    (hf : ∀ a' a, SameCosts a' a → f a' = f a) : List.Forall₂ SameCosts (l'.filter f) (l.filter f) := by
  induction h with
  | nil => exact .nil
  | cons h _ ih =>
    simp only [List.filter_cons, hf _ _ h]
    split
    · exact .cons h ih
    · exact ih

theorem isEmpty_same {l' l : List (Objective.Asset F)} (h : List.Forall₂ SameCosts l' l) : l'.isEmpty = l.isEmpty := by
  cases h <;> rfl

section Costs

variable {n' n : Objective.Net F} (h : ∀ c, List.Forall₂ SameCosts (n'.assets c) (n.assets c)) (hsns : n'.sns = n.sns)
  (hsw : n'.sw = n.sw) (hper : n'.periods = n.periods)

include hper in
theorem capitalWeight_same (a' a : Objective.Asset F) (hs : SameCosts a' a) : Objective.capitalWeight n' a' = Objective.capitalWeight n a := by
  obtain ⟨m, rfl, -⟩ := hs
  unfold Objective.capitalWeight
  rw [hper]

include h hper in
theorem constant_same : Objective.constant n' = Objective.constant n := by
  unfold Objective.constant
  congr 1
  refine List.map_congr_left (fun c _ => ?_)
  have hf := filter_same (h c.1) (f := (·.ext)) (by rintro _ _ ⟨m, rfl, -⟩; rfl)
  have hall : ∀ a ∈ (n.assets c.1).filter (·.ext), a.ext = true := fun a ha => (List.mem_filter.mp ha).2
  congr 1
  revert hf hall
  generalize (n'.assets c.1).filter (·.ext) = l'
  generalize (n.assets c.1).filter (·.ext) = l
  intro hf hall
  induction hf with
  | nil => rfl
  | @cons a' a _ _ hs _ ih =>
    have e := capitalWeight_same hper a' a hs
    obtain ⟨m, rfl, hm⟩ := hs
    obtain rfl := hm (hall a (by simp))
    simp only [List.map_cons, e, ih (fun b hb => hall b (by simp [hb]))]

include hsw hper in
theorem weighting_same : Objective.weighting n' = Objective.weighting n := by
  funext t
  unfold Objective.weighting
  rw [hper, hsw]

include hsns hsw hper in
theorem opTerms_same (comp var : Name) {cost : Objective.Asset F → Nat → F} (hc : ∀ a' a, SameCosts a' a → cost a' = cost a)
    {l' l : List (Objective.Asset F)} (hl : List.Forall₂ SameCosts l' l) :
    Objective.opTerms n' comp var cost l' = Objective.opTerms n comp var cost l := by
  unfold Objective.opTerms
  rw [weighting_same hsw hper, hsns, List.flatMap_def, List.flatMap_def, map_same hl]
  rintro a' a hs
  have e := hc a' a hs
  obtain ⟨m, rfl, -⟩ := hs
  rw [e]
  rfl

include hsns in
theorem costly_same {cost : Objective.Asset F → Nat → F} (hc : ∀ a' a, SameCosts a' a → cost a' = cost a)
    {l' l : List (Objective.Asset F)} (hl : List.Forall₂ SameCosts l' l) :
    List.Forall₂ SameCosts (Objective.costly n' cost l') (Objective.costly n cost l) := by
  unfold Objective.costly
  rw [hsns]
  exact filter_same hl (fun a' a hs => by rw [hc a' a hs])

include h hsns hsw hper in
theorem costType_same (flag : Objective.Row → Bool) {cost : Objective.Asset F → Nat → F} (hc : ∀ a' a, SameCosts a' a → cost a' = cost a) :
    Objective.costType n' flag cost = Objective.costType n flag cost := by
  unfold Objective.costType
  have e : ∀ r : Objective.Row, (Objective.costly n' cost (n'.assets r.comp)).isEmpty = (Objective.costly n cost (n.assets r.comp)).isEmpty :=
    fun r => isEmpty_same (costly_same hsns hc (h _))
  simp only [e]
  exact List.map_congr_left (fun r _ => opTerms_same hsns hsw hper _ _ hc (costly_same hsns hc (h _)))

include h hsns hsw hper in
/-- The objective does not depend on fixed capacities. -/
theorem objective_same : Objective.objective n' = Objective.objective n := by
  have k1 : ∀ a' a : Objective.Asset F, SameCosts a' a → a'.spillCost = a.spillCost := by rintro _ _ ⟨m, rfl, -⟩; rfl
  have k2 : ∀ a' a : Objective.Asset F, SameCosts a' a → a'.quadratic = a.quadratic := by rintro _ _ ⟨m, rfl, -⟩; rfl
  have k3 : ∀ a' a : Objective.Asset F, SameCosts a' a → a'.marginal = a.marginal := by rintro _ _ ⟨m, rfl, -⟩; rfl
  have k4 : ∀ a' a : Objective.Asset F, SameCosts a' a → a'.marginalStorage = a.marginalStorage := by rintro _ _ ⟨m, rfl, -⟩; rfl
  have k5 : ∀ a' a : Objective.Asset F, SameCosts a' a → a'.standBy = a.standBy := by rintro _ _ ⟨m, rfl, -⟩; rfl
  have k6 : ∀ a' a : Objective.Asset F, SameCosts a' a → a'.com = a.com := by rintro _ _ ⟨m, rfl, -⟩; rfl
  have k7 : ∀ a' a : Objective.Asset F, SameCosts a' a → a'.ext = a.ext := by rintro _ _ ⟨m, rfl, -⟩; rfl
  have s1 : Objective.spillDefined n' = Objective.spillDefined n := by
    unfold Objective.spillDefined
    rw [hsns]
    have := map_same (h "StorageUnit") (f := fun a => n.sns.any (fun t => decide (0 < a.inflow t)))
      (g := fun a => n.sns.any (fun t => decide (0 < a.inflow t))) (by rintro _ _ ⟨m, rfl, -⟩; rfl)
    have e : ∀ l : List (Objective.Asset F), l.any (fun a => n.sns.any (fun t => decide (0 < a.inflow t))) =
        (l.map (fun a => n.sns.any (fun t => decide (0 < a.inflow t)))).any id := fun l => by rw [List.any_map]; rfl
    rw [e, e, this]
  have s2 : Objective.constTerms n' = Objective.constTerms n := by
    unfold Objective.constTerms
    rw [constant_same h hper]
  have s3 : Objective.standByTerms n' = Objective.standByTerms n := by
    unfold Objective.standByTerms
    have e : ∀ c, ((n'.assets c).filter (·.com)).isEmpty = ((n.assets c).filter (·.com)).isEmpty :=
      fun c => isEmpty_same (filter_same (h c) k6)
    simp only [e]
    exact List.map_congr_left (fun c _ => opTerms_same hsns hsw hper _ _ k5 (costly_same hsns k5 (filter_same (h c) k6)))
  have s4 : Objective.investTerms n' = Objective.investTerms n := by
    unfold Objective.investTerms
    have e : ∀ c : Name × Name, ((n'.assets c.1).filter (·.ext)).isEmpty = ((n.assets c.1).filter (·.ext)).isEmpty :=
      fun c => isEmpty_same (filter_same (h c.1) k7)
    simp only [e]
    refine List.map_congr_left (fun c _ => map_same (filter_same (h c.1) k7) (fun a' a hs => ?_))
    have e := capitalWeight_same hper a' a hs
    obtain ⟨m, rfl, hm⟩ := hs
    rw [e]
  have s5 : Objective.eventTerms n' = Objective.eventTerms n := by
    unfold Objective.eventTerms
    have e : ∀ r : Objective.Row, ((n'.assets r.comp).filter (·.com)).map (Objective.eventCost r.var) =
        ((n.assets r.comp).filter (·.com)).map (Objective.eventCost r.var) := fun r => map_same (filter_same (h _) k6)
          (by rintro _ _ ⟨m, rfl, -⟩; rfl)
    simp only [e]
    refine List.map_congr_left (fun r _ => ?_)
    rw [hsns, List.flatMap_def, List.flatMap_def, map_same (filter_same (h _) k6)]
    rintro a' a ⟨m, rfl, hm⟩
    rfl
  unfold Objective.objective
  rw [costType_same h hsns hsw hper _ k1, costType_same h hsns hsw hper _ k2, costType_same h hsns hsw hper _ k3,
    costType_same h hsns hsw hper _ k4, s1, s2, s3, s4, s5]

end Costs

theorem objAssets_loosen {w : WNet F} {L : Limits F} (h : Looser w L) (c : Name) :
    List.Forall₂ SameCosts (objAssets (L.net w) c) (objAssets w c) := by
  unfold objAssets
  simp only [Limits.net, List.map_map]
  refine all_ite Iff.rfl (fun _ => all_map _ (fun g m => ⟨_, rfl, fun he => ((h.gens g m).unit.ext he).1⟩)) (fun _ => ?_)
  refine all_ite Iff.rfl (fun _ => all_map _ (fun g m => ⟨_, rfl, fun he => ((h.links g m).unit.ext he).1⟩)) (fun _ => ?_)
  refine all_ite Iff.rfl (fun _ => all_map _ (fun g m => ⟨_, rfl, fun he => ((h.stores g m).ext he).1⟩)) (fun _ => ?_)
  refine all_ite Iff.rfl (fun _ => all_map _ (fun g m => ⟨_, rfl, fun he => ((h.units g m).ext he).1⟩)) (fun _ => ?_)
  refine all_ite Iff.rfl (fun _ => all_map _ (fun g m => ⟨_, rfl, fun he => ((h.lines g m).ext he).1⟩)) (fun _ => ?_)
  exact all_ite Iff.rfl (fun _ => all_map _ (fun g m => ⟨_, rfl, fun he => ((h.trafos g m).ext he).1⟩)) (fun _ => .nil)

/-! ## The theorems -/

/-- **Looser limits of existing assets never make the optimum worse**: every plan that is feasible under the old limits is feasible
under the new ones, at the same costs.  Missing: the ramp limits of a class must count before unless there are none, because a class
whose limits are all 1 is left out, see `looser_ramp_infeasible`; passive branches keep their ratings if losses are modelled, because
the losses are approximated at parts of the rating, see `larger_line_costs_more`; units with linearised commitment keep their limits. -/
theorem looser_limits_partial [IsStrictOrderedRing F] {w : WNet F} {L : Limits F} (h : Looser w L)
    (hg : RampsStay (w.gens.map (·.unit)) w.len) (hk : RampsStay (w.links.map (·.unit)) w.len) {other other' : List (Con WVar F)}
    (ho : ∀ x, Feasible x other → Feasible x other') {P : Program F} (hP : createModel w other = some P) :
    ∃ P', createModel (L.net w) other' = some P' ∧ (∀ x, FeasibleIn P x → FeasibleIn P' x) ∧ ∀ x, P'.value x = P.value x := by
  have h1 := ownRows_loosen h hg hk
  have hobj : Objective.objective (objNet (L.net w)) = Objective.objective (objNet w) :=
    objective_same (objAssets_loosen h) rfl rfl rfl
  have hconst : constRow (L.net w) = constRow w := by
    unfold constRow
    rw [constant_same (n' := objNet (L.net w)) (n := objNet w) (objAssets_loosen h) rfl]
  unfold createModel at hP ⊢
  rw [balanceRows_loosen, hobj, hconst]
  revert h1 hP
  generalize ownRows (L.net w) = q'
  generalize ownRows w = q
  intro hP h1
  cases h1 with
  | none => simp at hP
  | @some rows' rows h1 =>
    simp only [Option.bind_some] at hP ⊢
    cases hb : balanceRows w with
    | none => simp [hb] at hP
    | some bal =>
      cases hq : Objective.objective (objNet w) with
      | error e => simp [hb, hq, Except.toOption] at hP
      | ok o =>
        simp only [hb, hq, Except.toOption, Option.bind_some, Option.map_some, Option.some.injEq] at hP ⊢
        subst hP
        refine ⟨_, rfl, ?_, fun x => rfl⟩
        rintro x ⟨hr, hbal⟩
        simp only [feasible_append, feasible_cons] at hr
        refine ⟨?_, hbal⟩
        simp only [feasible_append, feasible_cons]
        exact ⟨h1 x hr.1, hr.2.1, ho x hr.2.2⟩

/-- The new optimum is at least as good, also if some variables must be whole numbers. -/
theorem optimum_no_worse_partial [IsStrictOrderedRing F] {w : WNet F} {L : Limits F} (h : Looser w L)
    (hg : RampsStay (w.gens.map (·.unit)) w.len) (hk : RampsStay (w.links.map (·.unit)) w.len) {other other' : List (Con WVar F)}
    (ho : ∀ x, Feasible x other → Feasible x other') {P P' : Program F} (hP : createModel w other = some P)
    (hP' : createModel (L.net w) other' = some P') (I : WVar → Prop) {x y : WVar → F} (hx : Best I P x) (hy : Best I P' y) :
    P'.value y ≤ P.value x := by
  obtain ⟨Q, hQ, hf, hv⟩ := looser_limits_partial h hg hk ho hP
  rw [hP'] at hQ
  cases hQ
  rw [← hv x]
  exact hy.least x (hf x hx.feasible) hx.whole

/-! ## Examples -/

/-- The limits as they are. -/
def UnitLimits.of (u : Unit' F) : UnitLimits F := ⟨u.nom, u.minPu, u.maxPu, u.rampUp, u.rampDown, u.rampUpStatic, u.rampDownStatic⟩

def CapLimits.of (i : Invest F) : CapLimits F := ⟨i.nomMin, i.nomMax⟩

def Limits.same : Limits F where
  gen := fun g => ⟨.of g.unit, .of g.invest, g.eSumMin, g.eSumMax⟩
  link := fun g => ⟨.of g.unit, .of g.invest⟩
  store := fun s => ⟨s.nom, s.minPu, s.maxPu, .of s.invest⟩
  sunit := fun s => ⟨⟨s.nom, s.minPu, s.maxPu, .of s.invest⟩, s.maxHours⟩
  line := fun b => ⟨b.nom, b.maxPu, .of b.invest⟩
  trafo := fun b => ⟨b.nom, b.maxPu, .of b.invest⟩

theorem UnitLooser.refl {lz : Bool} {u : Unit' F} (h : u.committable = false) : UnitLooser lz u (.of u) where
  lo := fun _ => le_refl _
  up := fun _ => le_refl _
  rampUp := fun _ b hb => ⟨b, hb, le_refl _, le_refl _⟩
  rampDown := fun _ b hb => ⟨b, hb, le_refl _, le_refl _⟩
  ext := fun _ => ⟨rfl, fun _ => ⟨le_refl _, le_refl _⟩⟩
  com := fun hc => by simp [h] at hc
  same := fun _ hc => by simp [h] at hc

theorem CapLooser.refl {ext : Bool} {i : Invest F} (h : ext = true → 0 ≤ i.nomMin) : CapLooser ext i (.of i) :=
  ⟨le_refl _, fun b hb => ⟨b, hb, le_refl _⟩, h⟩

/-- More capacity of the peaker, which may also be run backwards, more wind, a larger battery and a line of any capacity. -/
def exLooser : Limits ℚ :=
  { Limits.same with
    gen := fun g => if g.name = "peaker" then ⟨{ UnitLimits.of g.unit with nom := 30, minPu := fun _ => -1 / 10 }, .of g.invest, none, none⟩
      else ⟨{ UnitLimits.of g.unit with maxPu := fun _ => 1 }, .of g.invest, none, none⟩
    sunit := fun s => ⟨⟨s.nom, fun _ => -2, fun _ => 2, .of s.invest⟩, 10⟩
    line := fun b => ⟨b.nom, b.maxPu, ⟨-1, none⟩⟩ }

theorem exLooser_looser : Looser exNet exLooser := by
  constructor
  · intro g hg
    simp [exNet] at hg
    rcases hg with rfl | rfl
    · refine ⟨⟨?_, ?_, ?_, ?_, ?_, ?_, ?_⟩, CapLooser.refl (by simp [exGen, exInvest]), ?_, ?_⟩ <;>
        simp [exLooser, exGen, exUnit', UnitLimits.of, RampLooser, MinLooser, MaxLooser]
      all_goals intro t; split <;> norm_num
    · refine ⟨⟨?_, ?_, ?_, ?_, ?_, ?_, ?_⟩, CapLooser.refl (by simp [exPeaker, exUnit']), ?_, ?_⟩ <;>
        simp [exLooser, exPeaker, exUnit', UnitLimits.of, RampLooser, MinLooser, MaxLooser]
      · norm_num
      · intro t; split <;> norm_num
  · intro g hg
    simp [exNet] at hg
    subst hg
    exact ⟨UnitLooser.refl rfl, CapLooser.refl (by simp [exLink, exInvest])⟩
  · intro s hs
    exact ⟨fun _ => le_refl _, fun _ => le_refl _, fun _ => ⟨rfl, fun _ => ⟨le_refl _, le_refl _⟩⟩,
      CapLooser.refl (by simp [exNet] at hs; subst hs; simp [exStore, exInvest])⟩
  · intro s hs
    simp [exNet] at hs
    subst hs
    exact ⟨by simp [exLooser, exBattery], by simp [exLooser, exBattery], by simp [exLooser, exBattery],
      fun _ => ⟨rfl, by norm_num [exLooser, exBattery], fun t => by norm_num [exLooser, exBattery]⟩,
      CapLooser.refl (by simp [exBattery, exInvest])⟩
  · intro b hb
    simp [exNet] at hb
    subst hb
    exact ⟨fun _ => le_refl _, fun _ => ⟨rfl, fun _ => le_refl _⟩,
      ⟨by norm_num [exLooser, exLine, exInvest], fun b hb => by simp [exLooser] at hb, by simp [exLine, exInvest]⟩, fun h => absurd rfl h⟩
  · intro b hb
    simp [exNet] at hb
    subst hb
    exact ⟨fun _ => le_refl _, fun _ => ⟨rfl, fun _ => le_refl _⟩, CapLooser.refl (by simp [exTrafo, exInvest]), fun h => absurd rfl h⟩

/-- The optimum of the small network stays feasible at the same costs. -/
example : ∃ P', createModel (exLooser.net exNet) [] = some P' ∧ FeasibleIn P' exVal ∧ P'.value exVal = exModel.value exVal := by
  obtain ⟨P', h1, h2, h3⟩ := looser_limits_partial exLooser_looser (Or.inl (by simp [exNet, exGen, exPeaker, exUnit']))
    (Or.inl (by simp [exNet, exLink, exUnit'])) (other := exOther) (other' := []) (fun _ _ => by simp) exModel_eq
  exact ⟨P', h1, h2 _ ⟨by decide +kernel, by decide +kernel⟩, h3 _⟩

/-! ## Limits that are looser and yet make things worse -/

/-- The two regions of `swing` with a second link, of no capacity; all ramp limits are 1. -/
def swing2 : WNet ℚ := withMore swing
  ⟨[], [⟨"spare", "A", "B", fun _ => 1, [], swingUnit 0 (fun _ => 0) (fun _ => 1) (some 1), exInvest 0, exCosts 0 0, fun _ => none⟩],
    [], [], [], []⟩

/-- The ramp limit of the second link is 2. -/
def swing2Limits : Limits ℚ :=
  { Limits.same with
    link := fun g => if g.name = "spare" then ⟨.of (swingUnit 0 (fun _ => 0) (fun _ => 1) (some 2)), .of g.invest⟩
      else ⟨.of g.unit, .of g.invest⟩ }

theorem swing2_some : (createModel swing2 []).isSome = true := by decide +kernel
theorem swing2Limits_some : (createModel (swing2Limits.net swing2) []).isSome = true := by decide +kernel

/-- The network can be run, but not any more once the ramp limit of a link has been raised from 1 to 2: ramp limits which are all 1
do not count, though a link that can be reversed may swing by twice its capacity. -/
theorem looser_ramp_infeasible : Looser swing2 swing2Limits ∧ FeasibleIn ((createModel swing2 []).get swing2_some) swingVal ∧
    ∀ y, ¬ FeasibleIn ((createModel (swing2Limits.net swing2) []).get swing2Limits_some) y := by
  refine ⟨?_, ⟨by decide +kernel, by decide +kernel⟩, ?_⟩
  · constructor
    · intro g hg
      have hc : g.unit.committable = false := by
        simp [swing2, swing, withMore] at hg
        rcases hg with rfl | rfl <;> rfl
      exact ⟨UnitLooser.refl hc, CapLooser.refl (by
        simp [swing2, swing, withMore] at hg
        rcases hg with rfl | rfl <;> simp [exInvest]), fun b hb => ⟨b, hb, le_refl _⟩, fun b hb => ⟨b, hb, le_refl _⟩⟩
    · intro g hg
      simp [swing2, swing, withMore] at hg
      rcases hg with rfl | rfl
      · exact ⟨UnitLooser.refl rfl, CapLooser.refl (by simp [exInvest])⟩
      · refine ⟨⟨?_, ?_, ?_, ?_, ?_, ?_, ?_⟩, CapLooser.refl (by simp [exInvest])⟩ <;>
          simp [swing2Limits, swingUnit, exUnit', UnitLimits.of, RampLooser]
    all_goals intro s hs; simp [swing2, swing, withMore] at hs
  · rintro y ⟨hr, hb⟩
    have b0 := hb ⟨[(1, .of "Generator" "b" (.op "p" 0)), (1, .of "Link" "link" (.op "p" 0)), (1, .of "Link" "spare" (.op "p" 0))],
      .eq, 10⟩ (by decide +kernel)
    have a1 := hb ⟨[(1, .of "Generator" "a" (.op "p" 1)), (-1, .of "Link" "link" (.op "p" 1)), (-1, .of "Link" "spare" (.op "p" 1))],
      .eq, 10⟩ (by decide +kernel)
    have ga := hr ⟨[(1, .of "Generator" "a" (.op "p" 1))], .le, 0⟩ (by decide +kernel)
    have gb := hr ⟨[(1, .of "Generator" "b" (.op "p" 0))], .le, 0⟩ (by decide +kernel)
    have s0 := hr ⟨[(1, .of "Link" "spare" (.op "p" 0))], .le, 0⟩ (by decide +kernel)
    have s1 := hr ⟨[(1, .of "Link" "spare" (.op "p" 1))], .ge, 0⟩ (by decide +kernel)
    have r := hr ⟨[(1, .of "Link" "link" (.op "p" 1)), (-1, .of "Link" "link" (.op "p" 0))], .ge, -10⟩ (by decide +kernel)
    simp [Con.holds, lin] at b0 a1 ga gb s0 s1 r
    linarith

/-- A load supplied through one line with losses; `rating` is the capacity of the line, two tangents are used. -/
def lossNet (rating : ℚ) : WNet ℚ :=
  { exNet with
    len := 1
    tangents := 2
    sw := fun _ => 1
    buses := ["A", "B"]
    gens := [⟨"gen", "A", 1, exUnit' false 10, exInvest 0, exCosts 1 0, fun _ => none, none, none⟩]
    links := [], stores := [], units := [], trafos := []
    lines := [⟨"line", "A", "B", fun _ => true, false, rating, fun _ => 1, 1 / 10, exInvest 0, fun _ => none⟩]
    loads := [⟨"B", -1, fun _ => 29 / 40, fun _ => true⟩] }

def lossVal : WVar → ℚ
  | .of "Generator" "gen" (.op "p" 0) => 31 / 40
  | .of "Line" "line" (.op "s" 0) => 3 / 4
  | .of "Line" "line" (.op "loss" 0) => 1 / 20
  | _ => 0

theorem lossNet_some : (createModel (lossNet 1) []).isSome = true := by decide +kernel
theorem lossNet_some' : (createModel (lossNet (3 / 2)) []).isSome = true := by decide +kernel

/-- **A larger line costs more**: with a capacity of 1 the load is supplied at costs of 31/40, with a capacity of 3/2 every plan costs
more. -/
theorem larger_line_costs_more : FeasibleIn ((createModel (lossNet 1) []).get lossNet_some) lossVal ∧
    ((createModel (lossNet 1) []).get lossNet_some).value lossVal = 31 / 40 ∧
    ∀ y, FeasibleIn ((createModel (lossNet (3 / 2)) []).get lossNet_some') y →
      31 / 40 < ((createModel (lossNet (3 / 2)) []).get lossNet_some').value y := by
  refine ⟨⟨by decide +kernel, by decide +kernel⟩, by decide +kernel, ?_⟩
  rintro y ⟨hr, hb⟩
  have v : ((createModel (lossNet (3 / 2)) []).get lossNet_some').value y = y (.of "Generator" "gen" (.op "p" 0)) := by
    have e1 : ((createModel (lossNet (3 / 2)) []).get lossNet_some').linear = [(1, .of "Generator" "gen" (.op "p" 0))] := by decide +kernel
    have e2 : ((createModel (lossNet (3 / 2)) []).get lossNet_some').quadratic = [] := by decide +kernel
    simp [Program.value, e1, e2, lin]
  rw [v]
  have t := hr ⟨[(1, .of "Line" "line" (.op "loss" 0)), (-(3 / 20), .of "Line" "line" (.op "s" 0))], .ge, -(9 / 160)⟩ (by decide +kernel)
  have a := hb ⟨[(1, .of "Generator" "gen" (.op "p" 0)), (-1, .of "Line" "line" (.op "s" 0)), (-(1 / 2), .of "Line" "line" (.op "loss" 0))],
    .eq, 0⟩ (by decide +kernel)
  have b := hb ⟨[(1, .of "Line" "line" (.op "s" 0)), (-(1 / 2), .of "Line" "line" (.op "loss" 0))], .eq, 29 / 40⟩ (by decide +kernel)
  simp [Con.holds, lin] at t a b
  linarith

end Verif.Opt.Whole
