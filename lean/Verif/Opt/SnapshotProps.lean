import Verif.Opt.RulesProps

/-!
# C131: where nothing links the snapshots, a rolling horizon finds the optimum

Over the whole problem of `Whole.lean`, the windows of `RollingWhole.lean` and the rules of `RulesProps.lean`.
-/

namespace Verif.Opt.Whole.Snap

open Doc

variable {F : Type} [Field F] [LinearOrder F]

/-! ## Networks without links between the snapshots -/

/-- Capacity is fixed, and there is neither commitment nor a ramp limit. -/
structure FreeUnit (u : Unit' F) : Prop where
  ext : u.extendable = false
  com : u.committable = false
  ramps : ∀ t, u.rampUp t = none ∧ u.rampDown t = none

/-- No storage, no sums over snapshots, no capacities to be optimised. -/
structure Uncoupled (w : WNet F) : Prop where
  gens : ∀ g ∈ w.gens, FreeUnit g.unit ∧ g.eSumMin = none ∧ g.eSumMax = none
  links : ∀ g ∈ w.links, FreeUnit g.unit
  stores : w.stores = []
  units : w.units = []
  lines : ∀ b ∈ w.lines, b.ext = false
  trafos : ∀ b ∈ w.trafos, b.ext = false

/-- All windows of a rolling horizon are solved to their optimum (`optimization/abstract.py` 490-505). -/
inductive RolledBest (w : WNet F) (rows : Nat → List (Con (Name × Name × Name) F)) :
    List (Nat × Nat) → Bool → (WVar → F) → (WVar → F) → Prop
  | nil (first : Bool) (R : WVar → F) : RolledBest w rows [] first R R
  | cons (first : Bool) (R R' : WVar → F) (s e : Nat) (rest : List (Nat × Nat)) (P : Program F) (x : WVar → F)
      (hP : createModel (windowNet w R first s (e - s)) (otherRows rows s (e - s)) = some P)
      (hbest : Cheapest (windowNet w R first s (e - s)) P x)
      (hrest : RolledBest w rows rest false (recordAll s e x R) R') : RolledBest w rows ((s, e) :: rest) first R R'

/-! ## Rules of one snapshot -/

/-- Values at a snapshot by class, asset and variable. -/
def atSnap (x : WVar → F) (t : Nat) (c a v : Name) : F := x (.of c a (.op v t))

/-- The same values at all snapshots. -/
def steady (y : Name → Name → Name → F) : WVar → F
  | .of c a (.op v _) => y c a v
  | _ => 0

structure UnitAt (u : Unit' F) (set : Nat → Option F) (t : Nat) (p : F) : Prop where
  limits : u.active t = true → u.minPu t * u.nom ≤ p ∧ p ≤ u.maxPu t * u.nom
  set : u.active t = true → ∀ s, set t = some s → p = s

structure BranchAt (tangents : Nat) (b : BranchW F) (t : Nat) (s loss : F) : Prop where
  limits : b.active t = true → - (b.maxPu t * b.nom) ≤ s - (if tangents = 0 then 0 else loss) ∧
    s + (if tangents = 0 then 0 else loss) ≤ b.maxPu t * b.nom
  set : b.active t = true → ∀ v, b.sSet t = some v → s = v
  loss : tangents ≠ 0 → b.active t = true →
    0 ≤ loss ∧ loss ≤ b.rPuEff * (b.maxPu t * b.nom) ^ 2 ∧
    ∀ k, 1 ≤ k → k ≤ tangents → ∀ p, p = (k : F) / (tangents : F) * b.maxPu t * b.nom →
      b.rPuEff * p ^ 2 + 2 * b.rPuEff * p * (s - p) ≤ loss ∧ b.rPuEff * p ^ 2 + 2 * b.rPuEff * p * (- s - p) ≤ loss

structure SnapRules (w : WNet F) (t : Nat) (y : Name → Name → Name → F) : Prop where
  gens : ∀ g ∈ w.gens, UnitAt g.unit g.pSet t (y "Generator" g.name "p")
  links : ∀ g ∈ w.links, UnitAt g.unit g.pSet t (y "Link" g.name "p")
  lines : ∀ b ∈ w.lines, BranchAt w.tangents b t (y "Line" b.name "s") (y "Line" b.name "loss")
  trafos : ∀ b ∈ w.trafos, BranchAt w.tangents b t (y "Transformer" b.name "s") (y "Transformer" b.name "loss")
  balance : ∀ b ∈ w.buses, supply w (steady y) t b = demand w t b

theorem capRule_fixed {i : Invest F} {cap mods : F} : CapRule false i cap mods := by
  constructor <;> intro h <;> cases h

theorem unit_snap {u : Unit' F} (h : FreeUnit u) {past : Past F} {l ramps : Prop} {n : Nat} {p status up down : Nat → F} {cap : F} :
    UnitRule u past l ramps n p status up down cap ↔ ∀ t < n, u.active t = true → u.minPu t * u.nom ≤ p t ∧ p t ≤ u.maxPu t * u.nom := by
  constructor
  · exact fun hu => hu.fixed h.ext h.com
  · intro hf
    have hc : ∀ {A : Prop}, u.committable = true → A := fun hc => by rw [h.com] at hc; cases hc
    have he : ∀ {A : Prop}, u.extendable = true → A := fun he => by rw [h.ext] at he; cases he
    have hu : ∀ t r {A : Prop}, u.rampUp t = some r → A := fun t r {A} hr => by rw [(h.ramps t).1] at hr; cases hr
    have hd : ∀ t r {A : Prop}, u.rampDown t = some r → A := fun t r {A} hr => by rw [(h.ramps t).2] at hr; cases hr
    exact ⟨fun _ _ => hf, he, hc, hc, hc, hc, hc, hc, hc, hc, fun _ t _ _ r hr => hu _ r hr, fun _ t _ _ r hr => hd _ r hr, fun _ => hc, fun _ => hc,
      fun _ _ _ _ _ _ => ⟨fun r hr => hu _ r hr, hc⟩, fun _ _ _ _ _ _ => ⟨fun r hr => hd _ r hr, hc⟩, fun _ => hc⟩

theorem branch_snap {w : WNet F} {b : BranchW F} (hb : b.ext = false) {y : Loc → F} :
    BranchRule w b y ↔ ∀ t < w.len, BranchAt w.tangents b t (y (.op "s" t)) (y (.op "loss" t)) := by
  constructor
  · intro h t ht
    refine ⟨fun ha => ?_, fun ha => h.set t ht ha, fun h0 ha => ?_⟩
    · have := h.limits t ht ha
      simpa [hb] using this
    · exact h.loss h0 t ht ha b.nom (by simp [hb])
  · intro h
    refine ⟨by rw [hb]; exact capRule_fixed, fun t ht ha => ?_, fun t ht ha => (h t ht).set ha, ?_⟩
    · have := (h t ht).limits ha
      simpa [hb] using this
    · intro h0 t ht ha rating hr
      simp only [hb, Bool.false_eq_true, if_false, Option.some.injEq] at hr
      subst hr
      exact (h t ht).loss h0 ha

theorem supply_at (w : WNet F) (x : WVar → F) (t : Nat) (b : Name) : supply w x t b = supply w (steady (atSnap x t)) t b := rfl

/-- The rules of an uncoupled network are those of its snapshots. -/
theorem snap_iff {w : WNet F} (hu : Uncoupled w) (x : WVar → F) : Rules w x ↔ ∀ t < w.len, SnapRules w t (atSnap x t) := by
  constructor
  · intro h t ht
    refine ⟨fun g hg => ⟨fun ha => ?_, fun ha => (h.gens g hg).set t ht ha⟩, fun g hg => ⟨fun ha => ?_, fun ha => (h.links g hg).set t ht ha⟩,
      fun b hb => (branch_snap (hu.lines b hb)).mp (h.lines b hb) t ht, fun b hb => (branch_snap (hu.trafos b hb)).mp (h.trafos b hb) t ht,
      fun b hb => ?_⟩
    · exact (unit_snap (hu.gens g hg).1).mp (h.gens g hg).unit t ht ha
    · exact (unit_snap (hu.links g hg)).mp (h.links g hg).unit t ht ha
    · rw [← supply_at]
      exact h.balance t ht b hb
  · intro h
    refine ⟨fun g hg => ?_, fun g hg => ?_, ?_, ?_, fun b hb => (branch_snap (hu.lines b hb)).mpr (fun t ht => (h t ht).lines b hb),
      fun b hb => (branch_snap (hu.trafos b hb)).mpr (fun t ht => (h t ht).trafos b hb), fun t ht b hb => ?_⟩
    · obtain ⟨hf, h1, h2⟩ := hu.gens g hg
      refine ⟨by rw [hf.ext]; exact capRule_fixed, (unit_snap hf).mpr (fun t ht ha => ((h t ht).gens g hg).limits ha),
        fun t ht ha => ((h t ht).gens g hg).set ha, fun _ e he => ?_, fun _ e he => ?_⟩
      · rw [h1] at he
        cases he
      · rw [h2] at he
        cases he
    · have hf := hu.links g hg
      exact ⟨by rw [hf.ext]; exact capRule_fixed, (unit_snap hf).mpr (fun t ht ha => ((h t ht).links g hg).limits ha),
        fun t ht ha => ((h t ht).links g hg).set ha⟩
    · rw [hu.stores]
      intro g hg
      cases hg
    · rw [hu.units]
      intro g hg
      cases hg
    · rw [supply_at]
      exact (h t ht).balance b hb

/-! ## Windows -/

theorem window_uncoupled {w : WNet F} (hu : Uncoupled w) (R : WVar → F) (first : Bool) (s n : Nat) : Uncoupled (windowNet w R first s n) := by
  refine ⟨?_, ?_, ?_, ?_, ?_, ?_⟩
  · intro g hg
    obtain ⟨g, h, rfl⟩ := List.mem_map.mp hg
    obtain ⟨hf, h1, h2⟩ := hu.gens g h
    exact ⟨⟨hf.ext, hf.com, fun t => hf.ramps (s + t)⟩, h1, h2⟩
  · intro g hg
    obtain ⟨g, h, rfl⟩ := List.mem_map.mp hg
    have hf := hu.links g h
    exact ⟨hf.ext, hf.com, fun t => hf.ramps (s + t)⟩
  · simp [windowNet, hu.stores]
  · simp [windowNet, hu.units]
  · intro g hg
    obtain ⟨g, h, rfl⟩ := List.mem_map.mp hg
    exact hu.lines g h
  · intro g hg
    obtain ⟨g, h, rfl⟩ := List.mem_map.mp hg
    exact hu.trafos g h

theorem window_supply [IsStrictOrderedRing F] (w : WNet F) (R : WVar → F) (first : Bool) (s n k : Nat) (y : Name → Name → Name → F) (b : Name) :
    supply (windowNet w R first s n) (steady y) k b = supply w (steady y) (s + k) b ∧
      demand (windowNet w R first s n) k b = demand w (s + k) b := by
  rw [← supply_rule, ← supply_rule, ← demand_rule, ← demand_rule, window_nodal]
  refine ⟨?_, rfl⟩
  have e : (fun v => steady y (nodalVar k v)) = fun v => steady y (nodalVar (s + k) v) := by
    funext v
    cases v <;> rfl
  rw [e]
  rfl

/-- A window has the rules of its snapshots. -/
theorem window_snap [IsStrictOrderedRing F] (w : WNet F) (R : WVar → F) (first : Bool) (s n k : Nat) (y : Name → Name → Name → F) :
    SnapRules (windowNet w R first s n) k y ↔ SnapRules w (s + k) y := by
  constructor
  · intro h
    refine ⟨fun g hg => ?_, fun g hg => ?_, fun b hb => ?_, fun b hb => ?_, fun b hb => ?_⟩
    · have := h.gens _ (List.mem_map_of_mem hg)
      exact ⟨this.limits, this.set⟩
    · have := h.links _ (List.mem_map_of_mem hg)
      exact ⟨this.limits, this.set⟩
    · have := h.lines _ (List.mem_map_of_mem hb)
      exact ⟨this.limits, this.set, this.loss⟩
    · have := h.trafos _ (List.mem_map_of_mem hb)
      exact ⟨this.limits, this.set, this.loss⟩
    · have := h.balance b hb
      rw [(window_supply w R first s n k y b).1, (window_supply w R first s n k y b).2] at this
      exact this
  · intro h
    refine ⟨fun g hg => ?_, fun g hg => ?_, fun b hb => ?_, fun b hb => ?_, fun b hb => ?_⟩
    · obtain ⟨g, hm, rfl⟩ := List.mem_map.mp hg
      exact ⟨(h.gens g hm).limits, (h.gens g hm).set⟩
    · obtain ⟨g, hm, rfl⟩ := List.mem_map.mp hg
      exact ⟨(h.links g hm).limits, (h.links g hm).set⟩
    · obtain ⟨b, hm, rfl⟩ := List.mem_map.mp hb
      exact ⟨(h.lines b hm).limits, (h.lines b hm).set, (h.lines b hm).loss⟩
    · obtain ⟨b, hm, rfl⟩ := List.mem_map.mp hb
      exact ⟨(h.trafos b hm).limits, (h.trafos b hm).set, (h.trafos b hm).loss⟩
    · rw [(window_supply w R first s n k y b).1, (window_supply w R first s n k y b).2]
      exact h.balance b hb

theorem window_linear {w : WNet F} (hl : LinearCosts w) (R : WVar → F) (first : Bool) (s n : Nat) : LinearCosts (windowNet w R first s n) := by
  refine ⟨?_, ?_, ?_, ?_, ?_, ?_⟩
  · intro g hg t
    obtain ⟨g, h, rfl⟩ := List.mem_map.mp hg
    exact hl.gens g h (s + t)
  · intro g hg t
    obtain ⟨g, h, rfl⟩ := List.mem_map.mp hg
    exact hl.links g h (s + t)
  · intro g hg t
    obtain ⟨g, h, rfl⟩ := List.mem_map.mp hg
    exact hl.stores g h (s + t)
  · intro g hg t
    obtain ⟨g, h, rfl⟩ := List.mem_map.mp hg
    exact hl.units g h (s + t)
  · intro g hg
    obtain ⟨g, h, rfl⟩ := List.mem_map.mp hg
    exact hl.genEvents g h
  · intro g hg
    obtain ⟨g, h, rfl⟩ := List.mem_map.mp hg
    exact hl.linkEvents g h

theorem uncoupled_orderly {w : WNet F} (hu : Uncoupled w) : Orderly w := by
  refine ⟨fun g hg _ hc => ?_, fun g hg _ hc => ?_, ?_, ?_⟩
  · rw [(hu.gens g hg).1.com] at hc
    cases hc
  · rw [(hu.links g hg).com] at hc
    cases hc
  · rw [hu.stores]
    intro g hg
    cases hg
  · rw [hu.units]
    intro g hg
    cases hg

/-! ## Costs -/

theorem zero_sum {α : Type} (l : List α) (f : α → F) (h : ∀ a ∈ l, f a = 0) : (l.map f).sum = 0 := by
  induction l with
  | nil => rfl
  | cons a l ih =>
    rw [List.map_cons, List.sum_cons, h a List.mem_cons_self, ih (fun b hb => h b (List.mem_cons_of_mem _ hb)), add_zero]

/-- Without capacities to be optimised, the costs are those of the snapshots. -/
theorem cost_uncoupled {w : WNet F} (hu : Uncoupled w) (hl : LinearCosts w) (x : WVar → F) :
    totalCost w x = ((List.range w.len).map (snapCost w x)).sum := by
  rw [← system_total hl, cost_snapshots]
  have : capitalCosts w x = 0 := by
    unfold capitalCosts
    rw [zero_sum w.gens _ (fun g hg => by rw [(hu.gens g hg).1.ext]; rfl), zero_sum w.links _ (fun g hg => by rw [(hu.links g hg).ext]; rfl),
      zero_sum w.lines _ (fun g hg => by rw [hu.lines g hg]; rfl), zero_sum w.trafos _ (fun g hg => by rw [hu.trafos g hg]; rfl), hu.stores, hu.units]
    simp
  rw [this, add_zero]

theorem snapCost_at (w : WNet F) (x : WVar → F) (t : Nat) : snapCost w x t = snapCost w (steady (atSnap x t)) t := rfl

theorem window_snapCost (w : WNet F) (R : WVar → F) (first : Bool) (s n k : Nat) (y : Name → Name → Name → F) :
    snapCost (windowNet w R first s n) (steady y) k = snapCost w (steady y) (s + k) := by
  have hw : weight (windowNet w R first s n) k = weight w (s + k) := by
    unfold weight windowNet
    cases w.periods <;> rfl
  unfold snapCost
  simp only [hw]
  simp only [windowNet, List.map_map, Function.comp_def, genAt, linkAt, storeAt, sunitAt, unitOf, unitAt, costsAt, Rolling.shiftTo, commits]
  rfl

/-! ## Every snapshot of an optimal window is optimal -/

/-- The plan with other values at one snapshot. -/
def swapAt (k : Nat) (y : Name → Name → Name → F) (x : WVar → F) : WVar → F
  | .of c a (.op v t) => if t = k then y c a v else x (.of c a (.op v t))
  | v => x v

theorem swap_at (k t : Nat) (y : Name → Name → Name → F) (x : WVar → F) : atSnap (swapAt k y x) t = if t = k then y else atSnap x t := by
  funext c a v
  by_cases h : t = k <;> simp [atSnap, swapAt, h]

theorem sum_swap [IsStrictOrderedRing F] (n k : Nat) (hk : k < n) (f g : Nat → F) (h : ∀ t, t ≠ k → f t = g t)
    (hs : ((List.range n).map f).sum ≤ ((List.range n).map g).sum) : f k ≤ g k := by
  have e : ∀ f : Nat → F, ((List.range n).map f).sum = ∑ t ∈ Finset.range n, f t := by
    intro f
    rw [← List.sum_toFinset _ List.nodup_range]
    exact Finset.sum_congr (by ext; simp) (fun _ _ => rfl)
  rw [e, e, ← Finset.add_sum_erase _ _ (Finset.mem_range.mpr hk), ← Finset.add_sum_erase _ g (Finset.mem_range.mpr hk)] at hs
  have hr : ∑ t ∈ (Finset.range n).erase k, f t = ∑ t ∈ (Finset.range n).erase k, g t :=
    Finset.sum_congr rfl (fun t ht => h t (Finset.ne_of_mem_erase ht))
  rw [hr] at hs
  linarith

theorem best_snap [IsStrictOrderedRing F] {w : WNet F} (hw : Sound w) (hu : Uncoupled w) (hl : LinearCosts w)
    {rows : Nat → List (Con (Name × Name × Name) F)} {R : WVar → F} {first : Bool} {s n : Nat} {P : Program F}
    (hP : createModel (windowNet w R first s n) (otherRows rows s n) = some P) {x : WVar → F} (hx : Cheapest (windowNet w R first s n) P x)
    {k : Nat} (hk : k < n) {y : Name → Name → Name → F} (hy : SnapRules w (s + k) y)
    (hr : ∀ r ∈ rows (s + k), r.holds (fun v => y v.1 v.2.1 v.2.2)) :
    snapCost w (steady (atSnap x k)) (s + k) ≤ snapCost w (steady y) (s + k) := by
  have hW := window_sound hw R first s n
  have hU := window_uncoupled hu R first s n
  have hL := window_linear hl R first s n
  obtain ⟨r1, r2, r3⟩ := (rules_iff hW (uncoupled_orderly hU) hP x).mp hx.1
  rw [snap_iff hU] at r1
  have hz : FeasibleIn P (swapAt k y x) := by
    refine (rules_iff hW (uncoupled_orderly hU) hP _).mpr ⟨(snap_iff hU _).mpr (fun t ht => ?_), fun q hq => ?_, r3⟩
    · rw [swap_at]
      split
      · rename_i h
        rw [h, window_snap]
        exact hy
      · exact r1 t ht
    · have hq' := r2 q hq
      obtain ⟨t, ht, r, hr', rfl⟩ := mem_otherRows.mp hq
      rw [holds_remap] at hq' ⊢
      have e := swap_at k t y x
      by_cases h : t = k
      · rw [if_pos h] at e
        rw [h] at hr'
        have := hr r hr'
        rw [show (fun v : Name × Name × Name => swapAt k y x (.of v.1 v.2.1 (.op v.2.2 t))) = fun v => y v.1 v.2.1 v.2.2 from by
          funext v
          exact congrFun (congrFun (congrFun e v.1) v.2.1) v.2.2]
        exact this
      · rw [if_neg h] at e
        rw [show (fun v : Name × Name × Name => swapAt k y x (.of v.1 v.2.1 (.op v.2.2 t))) = fun v => x (.of v.1 v.2.1 (.op v.2.2 t)) from by
          funext v
          exact congrFun (congrFun (congrFun e v.1) v.2.1) v.2.2]
        exact hq'
  have hc := hx.2 _ hz
  rw [cost_total hL hP x hx.1, cost_total hL hP _ hz, cost_uncoupled hU hL, cost_uncoupled hU hL] at hc
  have := sum_swap (F := F) n k hk _ _ (fun t ht => by rw [snapCost_at _ (swapAt k y x), snapCost_at _ x, swap_at, if_neg ht]) hc
  rw [snapCost_at _ x, snapCost_at _ (swapAt k y x), swap_at, if_pos rfl, window_snapCost, window_snapCost] at this
  exact this

/-! ## The record -/

/-- The window whose solution stands for a snapshot in the end. -/
structure BestPart (w : WNet F) (rows : Nat → List (Con (Name × Name × Name) F)) (R' : WVar → F) (t s n : Nat) (first : Bool) (R : WVar → F)
    (P : Program F) (x : WVar → F) : Prop where
  le : s ≤ t
  lt : t < s + n
  model : createModel (windowNet w R first s n) (otherRows rows s n) = some P
  best : Cheapest (windowNet w R first s n) P x
  same : atSnap R' t = atSnap x (t - s)

theorem bestPart_exists {w : WNet F} {rows : Nat → List (Con (Name × Name × Name) F)} {horizon overlap : Nat} (ho : overlap < horizon)
    {ws : List (Nat × Nat)} (hws : Rolling.windows w.len horizon overlap = .ok ws) {R₀ R' : WVar → F}
    (hrun : RolledBest w rows ws true R₀ R') (t : Nat) (ht : t < w.len) :
    ∃ s n first R P x, BestPart w rows R' t s n first R P x := by
  have hstep : ((horizon : Int) - (overlap : Int)).toNat = horizon - overlap := by omega
  have hpos : 0 < horizon - overlap := by omega
  have hws' : ws = (Rolling.starts w.len (horizon - overlap) 0).map (fun s => (s, min w.len (s + horizon))) := by
    unfold Rolling.windows at hws
    rw [if_neg (by omega), hstep] at hws
    injection hws with hws
    exact hws.symm
  have hsh : horizon - overlap ≤ horizon := by omega
  generalize horizon - overlap = step at *
  have key : ∀ n s (first : Bool) (R : WVar → F), w.len - s = n →
      RolledBest w rows ((Rolling.starts w.len step s).map (fun s => (s, min w.len (s + horizon)))) first R R' →
      (∀ k < s, ∀ c a v, R' (.of c a (.op v k)) = R (.of c a (.op v k))) ∧
      (∀ t, s ≤ t → t < w.len → ∃ s n first R P x, BestPart w rows R' t s n first R P x) := by
    intro n
    induction n using Nat.strong_induction_on with
    | _ n ih =>
      intro s first R hn hr
      unfold Rolling.starts at hr
      by_cases hlt : s < w.len
      · rw [if_pos ⟨hlt, hpos⟩, List.map_cons] at hr
        cases hr with
        | cons _ _ _ _ _ _ P x hP hbest hrest =>
          have ihr := ih (w.len - (s + step)) (by omega) (s + step) false _ rfl hrest
          simp only [recordAll] at ihr
          refine ⟨?_, ?_⟩
          · intro k hk c a v
            have := ihr.1 k (by omega) c a v
            rw [if_neg (by omega)] at this
            exact this
          · intro t h1 h2
            by_cases h3 : t < s + step
            · refine ⟨s, min w.len (s + horizon) - s, first, R, P, x, h1, by omega, hP, hbest, ?_⟩
              funext c a v
              have := ihr.1 t (by omega) c a v
              rw [if_pos ⟨h1, by omega⟩] at this
              exact this
            · exact ihr.2 t (by omega) h2
      · rw [if_neg (fun h => hlt h.1), List.map_nil] at hr
        cases hr
        exact ⟨fun k _ c a v => rfl, fun t h1 h2 => absurd h2 (by omega)⟩
  rw [hws'] at hrun
  exact (key _ 0 true R₀ rfl hrun).2 t (by omega) ht

theorem sum_le {n : Nat} [IsStrictOrderedRing F] {f g : Nat → F} (h : ∀ t < n, f t ≤ g t) :
    ((List.range n).map f).sum ≤ ((List.range n).map g).sum := by
  induction n with
  | zero => simp
  | succ n ih =>
    rw [List.range_succ, List.map_append, List.map_append, List.sum_append, List.sum_append]
    simp only [List.map_cons, List.map_nil, List.sum_cons, List.sum_nil, add_zero]
    exact add_le_add (ih (fun t ht => h t (by omega))) (h n (by omega))

/-- C131: what a rolling horizon records, with whatever horizon and overlap, is an optimum of the whole horizon if nothing links the
snapshots. -/
theorem rolling_exact [IsStrictOrderedRing F] {w : WNet F} (hw : Sound w) (hu : Uncoupled w) (hl : LinearCosts w) {horizon overlap : Nat}
    (ho : overlap < horizon) {rows : Nat → List (Con (Name × Name × Name) F)} {ws : List (Nat × Nat)}
    (hws : Rolling.windows w.len horizon overlap = .ok ws) {R₀ R' : WVar → F} (hrun : RolledBest w rows ws true R₀ R') {P : Program F}
    (hP : createModel w (otherRows rows 0 w.len) = some P) :
    Cheapest w P (withConst (Objective.constant (objNet w)) R') ∧ ∀ x, Cheapest w P x → totalCost w x = totalCost w R' := by
  have hpart := fun t ht => bestPart_exists ho hws hrun t ht
  have hsnap : ∀ t < w.len, SnapRules w t (atSnap R' t) ∧ ∀ r ∈ rows t, r.holds (fun v => atSnap R' t v.1 v.2.1 v.2.2) := by
    intro t ht
    obtain ⟨s, n, first, R, Q, x, hb⟩ := hpart t ht
    have hle := hb.le
    have hlt := hb.lt
    have e : s + (t - s) = t := by omega
    obtain ⟨r1, r2, -⟩ := (rules_iff (window_sound hw R first s n) (uncoupled_orderly (window_uncoupled hu R first s n)) hb.model x).mp hb.best.1
    rw [snap_iff (window_uncoupled hu R first s n)] at r1
    have h1 := r1 (t - s) (by change t - s < n; omega)
    rw [window_snap, e] at h1
    rw [hb.same]
    refine ⟨h1, fun r hr => ?_⟩
    have := r2 _ (mem_otherRows.mpr ⟨t - s, by omega, r, by rw [e]; exact hr, rfl⟩)
    rw [holds_remap] at this
    exact this
  have hR : FeasibleIn P (withConst (Objective.constant (objNet w)) R') := by
    refine (rules_iff hw (uncoupled_orderly hu) hP _).mpr ⟨(snap_iff hu _).mpr (fun t ht => (hsnap t ht).1), fun q hq => ?_, rfl⟩
    obtain ⟨t, ht, r, hr, rfl⟩ := mem_otherRows.mp hq
    rw [Nat.zero_add] at hr
    rw [holds_remap]
    exact (hsnap t ht).2 r hr
  have hmin : ∀ z, FeasibleIn P z → totalCost w R' ≤ totalCost w z := by
    intro z hz
    obtain ⟨r1, r2, -⟩ := (rules_iff hw (uncoupled_orderly hu) hP z).mp hz
    rw [snap_iff hu] at r1
    rw [cost_uncoupled hu hl, cost_uncoupled hu hl]
    refine sum_le (fun t ht => ?_)
    obtain ⟨s, n, first, R, Q, x, hb⟩ := hpart t ht
    have hle := hb.le
    have hlt := hb.lt
    have e : s + (t - s) = t := by omega
    have := best_snap hw hu hl hb.model hb.best (k := t - s) (by omega) (y := atSnap z t) (by rw [e]; exact r1 t ht) (by
      rw [e]
      intro r hr
      have := r2 _ (mem_otherRows.mpr ⟨t, ht, r, by rw [Nat.zero_add]; exact hr, rfl⟩)
      rw [holds_remap] at this
      exact this)
    rw [e, ← hb.same, ← snapCost_at, ← snapCost_at] at this
    exact this
  have hconst : totalCost w (withConst (Objective.constant (objNet w)) R') = totalCost w R' := rfl
  refine ⟨⟨hR, fun z hz => ?_⟩, fun x hx => ?_⟩
  · rw [cost_total hl hP _ hR, cost_total hl hP z hz, hconst]
    exact hmin z hz
  · refine le_antisymm ?_ (hmin x hx.1)
    have := hx.2 _ hR
    rw [cost_total hl hP _ hR, cost_total hl hP x hx.1, hconst] at this
    exact this

/-! ## Example -/

def freeGen (name bus : Name) (nom cost : ℚ) : GenW ℚ := ⟨name, bus, 1, rollUnit none nom, exInvest 0, exCosts cost 0, fun _ => none, none, none⟩

/-- A cheap generator at A, a line that carries at most 2, a dear generator and the load at B. -/
def freeNet : WNet ℚ where
  len := 3
  multi := false
  period := fun _ => 0
  rolling := false
  linearized := false
  tangents := 0
  threshold := 45
  sw := fun _ => 1
  gw := fun _ => 1
  periods := none
  buses := ["A", "B"]
  gens := [freeGen "cheap" "A" 3 1, freeGen "dear" "B" 9 2]
  links := []
  stores := []
  units := []
  lines := [⟨"line", "A", "B", fun _ => true, false, 2, fun _ => 1, 0, exInvest 0, fun _ => none⟩]
  trafos := []
  loads := [⟨"B", -1, fun t => if t = 1 then 1 else 4, fun _ => true⟩]

def freeAt (t : Nat) (_ a _ : Name) : ℚ := if a = "dear" then (if t = 1 then 0 else 2) else if t = 1 then 1 else 2

def freeVal : WVar → ℚ
  | .of c a (.op v t) => freeAt t c a v
  | _ => 0

theorem free_uncoupled : Uncoupled freeNet := by
  refine ⟨?_, ?_, rfl, rfl, ?_, ?_⟩
  · intro g hg
    simp only [freeNet, List.mem_cons, List.not_mem_nil, or_false] at hg
    rcases hg with rfl | rfl <;> exact ⟨⟨rfl, rfl, fun _ => ⟨rfl, rfl⟩⟩, rfl, rfl⟩
  · intro g hg
    simp [freeNet] at hg
  · decide
  · decide

theorem free_linear : LinearCosts freeNet := by
  constructor
  · intro g hg t
    simp only [freeNet, List.mem_cons, List.not_mem_nil, or_false] at hg
    rcases hg with rfl | rfl <;> rfl
  · intro g hg; simp [freeNet] at hg
  · intro g hg; simp [freeNet] at hg
  · intro g hg; simp [freeNet] at hg
  · decide +kernel
  · decide

theorem free_sound : Sound freeNet := by constructor <;> decide

theorem free_cost (y : Name → Name → Name → ℚ) (t : Nat) :
    snapCost freeNet (steady y) t = y "Generator" "cheap" "p" + 2 * y "Generator" "dear" "p" := by
  simp [snapCost, freeNet, freeGen, runs, commits, rollUnit, exUnit', exCosts, weight, steady]

theorem free_best (y : Name → Name → Name → ℚ) (t : Nat) (h : SnapRules freeNet t y) :
    snapCost freeNet (steady (freeAt t)) t ≤ snapCost freeNet (steady y) t := by
  rw [free_cost, free_cost]
  have hd := ((h.gens (freeGen "dear" "B" 9 2) (by simp [freeNet])).limits rfl).1
  have hl := ((h.lines _ (List.mem_cons_self)).limits rfl).2
  have ha := h.balance "A" (by simp [freeNet])
  have hb := h.balance "B" (by simp [freeNet])
  simp [supply, demand, freeNet, freeGen, atBus, halfLoss, steady, rollUnit, exUnit'] at hd hl ha hb
  by_cases ht : t = 1 <;> simp [freeAt, ht] at hb ⊢ <;> linarith

/-- Every window of the example has this optimum. -/
theorem free_cheapest {R : WVar → ℚ} {first : Bool} {s n : Nat} {P : Program ℚ}
    (hP : createModel (windowNet freeNet R first s n) (otherRows (fun _ => []) s n) = some P) (hf : FeasibleIn P (seen s freeVal)) :
    Cheapest (windowNet freeNet R first s n) P (seen s freeVal) := by
  refine ⟨hf, fun z hz => ?_⟩
  have hL := window_linear free_linear R first s n
  have hU := window_uncoupled free_uncoupled R first s n
  rw [cost_total hL hP _ hf, cost_total hL hP z hz, cost_uncoupled hU hL, cost_uncoupled hU hL]
  obtain ⟨r, -, -⟩ := (rules_iff (window_sound free_sound R first s n) (uncoupled_orderly hU) hP z).mp hz
  rw [snap_iff hU] at r
  refine sum_le (fun t ht => ?_)
  rw [snapCost_at, snapCost_at _ z, window_snapCost, window_snapCost]
  exact free_best _ _ ((window_snap _ _ _ _ _ _ _).mp (r t ht))

def freeRec1 : WVar → ℚ := recordAll 0 2 (seen 0 freeVal) (fun _ => 0)
def freeRec2 : WVar → ℚ := recordAll 1 3 (seen 1 freeVal) freeRec1
def freeRec3 : WVar → ℚ := recordAll 2 3 (seen 2 freeVal) freeRec2

theorem free_some : (createModel (windowNet freeNet (fun _ => 0) true 0 2) (otherRows (fun _ => []) 0 2)).isSome = true ∧
    (createModel (windowNet freeNet freeRec1 false 1 2) (otherRows (fun _ => []) 1 2)).isSome = true ∧
    (createModel (windowNet freeNet freeRec2 false 2 1) (otherRows (fun _ => []) 2 1)).isSome = true ∧
    (createModel freeNet (otherRows (fun _ => []) 0 3)).isSome = true := by decide +kernel

theorem free_run : RolledBest freeNet (fun _ => []) [(0, 2), (1, 3), (2, 3)] true (fun _ => 0) freeRec3 :=
  .cons _ _ _ _ _ _ _ (seen 0 freeVal) (Option.some_get free_some.1).symm
      (free_cheapest (Option.some_get free_some.1).symm (by unfold FeasibleIn; decide +kernel))
    (.cons _ _ _ _ _ _ _ (seen 1 freeVal) (Option.some_get free_some.2.1).symm
        (free_cheapest (Option.some_get free_some.2.1).symm (by unfold FeasibleIn; decide +kernel))
      (.cons _ _ _ _ _ _ _ (seen 2 freeVal) (Option.some_get free_some.2.2.1).symm
        (free_cheapest (Option.some_get free_some.2.2.1).symm (by unfold FeasibleIn; decide +kernel)) (.nil _ _)))

example : Cheapest freeNet ((createModel freeNet (otherRows (fun _ => []) 0 3)).get free_some.2.2.2)
    (withConst (Objective.constant (objNet freeNet)) freeRec3) :=
  (rolling_exact free_sound free_uncoupled free_linear (horizon := 2) (overlap := 1) (by decide) (by simp [Rolling.windows, freeNet, Rolling.starts])
    free_run (Option.some_get free_some.2.2.2).symm).1

end Verif.Opt.Whole.Snap
