import Verif.Opt.RulesProps

/-!
# C146: the same plant in other words

Different components can stand for the same thing: a line outside of all loops and a lossless link, a load and a generator with a
given course, a generator and a store of fuel with a link (`doc/user-guide/components.rst` 209-229 and 379-391; release notes of
0.6.0).  Over the rules of the whole problem (`RulesProps.lean`).
-/

namespace Verif.Opt.Whole.Recast

open Verif.Opt Verif.Opt.Whole Verif.Opt.Whole.Doc

variable {F : Type} [Field F] [LinearOrder F]

/-! ## Networks that say the same -/

/-- Plans of two networks that stand for each other. -/
structure Exchange (w w' : WNet F) (other : List (Con WVar F)) (D D' : (WVar → F) → Prop) (R : (WVar → F) → (WVar → F) → Prop) : Prop where
  there : ∀ x, Rules w x → ∃ y, R x y
  back : ∀ y, Rules w' y → ∃ x, R x y
  rules : ∀ x y, R x y → (Rules w x ↔ Rules w' y)
  costs : ∀ x y, R x y → Rules w x → totalCost w x = totalCost w' y
  other : ∀ x y, R x y → (Feasible x other ↔ Feasible y other)
  domain : ∀ x y, R x y → (D x ↔ D' y)

theorem exchange_best {w w' : WNet F} {other : List (Con WVar F)} {D D' : (WVar → F) → Prop} {R : (WVar → F) → (WVar → F) → Prop}
    (h : Exchange w w' other D D' R) {x y : WVar → F} (hR : R x y) : Best w other D x ↔ Best w' other D' y := by
  constructor
  · rintro ⟨h1, h2, h3, h4⟩
    refine ⟨(h.rules x y hR).mp h1, (h.other x y hR).mp h2, (h.domain x y hR).mp h3, fun z z1 z2 z3 => ?_⟩
    obtain ⟨u, hu⟩ := h.back z z1
    have u1 := (h.rules u z hu).mpr z1
    rw [← h.costs x y hR h1, ← h.costs u z hu u1]
    exact h4 u u1 ((h.other u z hu).mpr z2) ((h.domain u z hu).mpr z3)
  · rintro ⟨h1, h2, h3, h4⟩
    have hx := (h.rules x y hR).mpr h1
    refine ⟨hx, (h.other x y hR).mpr h2, (h.domain x y hR).mpr h3, fun z z1 z2 z3 => ?_⟩
    obtain ⟨u, hu⟩ := h.there z z1
    rw [h.costs x y hR hx, h.costs z u hu z1]
    exact h4 u ((h.rules z u hu).mp z1) ((h.other z u hu).mp z2) ((h.domain z u hu).mp z3)

/-- What is asked of a network whose problem is handed to the solver. -/
structure Asked (w : WNet F) (other : List (Con WVar F)) (D : (WVar → F) → Prop) (P : Program F) : Prop where
  sound : Sound w
  linear : LinearCosts w
  orderly : Orderly w
  rows : ∀ r ∈ other, ∀ e ∈ r.terms, e.2 ≠ .const
  domain : ∀ k x, D x → D (setConst k x)
  model : createModel w other = some P

/-- The optimum of one network is one of the other, at the same costs. -/
theorem exchange_solver [IsStrictOrderedRing F] {w w' : WNet F} {other : List (Con WVar F)} {D D' : (WVar → F) → Prop}
    {R : (WVar → F) → (WVar → F) → Prop} (h : Exchange w w' other D D' R) {P P' : Program F} (hA : Asked w other D P) (hA' : Asked w' other D' P')
    {x : WVar → F} (hx : SolverBest w P D x) :
    ∃ y, R x y ∧ SolverBest w' P' D' (setConst (Objective.constant (objNet w')) y) ∧
      costOf w' P' (setConst (Objective.constant (objNet w')) y) = costOf w P x := by
  obtain ⟨hb, hc⟩ := (best_iff hA.sound hA.linear hA.orderly hA.rows hA.model D hA.domain x).1 hx
  obtain ⟨y, hy⟩ := h.there x hb.1
  have hs := (best_iff hA'.sound hA'.linear hA'.orderly hA'.rows hA'.model D' hA'.domain y).2 ((exchange_best h hy).mp hb)
  refine ⟨y, hy, hs, ?_⟩
  rw [((best_iff hA'.sound hA'.linear hA'.orderly hA'.rows hA'.model D' hA'.domain _).1 hs).2, hc, h.costs x y hy hb.1]
  rfl

theorem supply_like {w : WNet F} {x y : WVar → F} (h : Agree w x y) (t : Nat) (b : Name) : supply w x t b = supply w y t b := by
  rw [← supply_rule, ← supply_rule]
  exact supply_agree h t _ b

/-- No bus of the network. -/
theorem supply_off {w : WNet F} (hw : Sound w) {b : Name} (hb : b ∉ w.buses) (hne : b ≠ "") (x : WVar → F) (t : Nat) : supply w x t b = 0 ∧ demand w t b = 0 := by
  rw [← supply_rule, ← demand_rule]
  exact supply_nothing hw hb hne t _ _

theorem cost_more_gen (w : WNet F) (g : GenW F) (x : WVar → F) : totalCost { w with gens := w.gens ++ [g] } x = totalCost w x + genCost w g x := by
  have h : ((w.gens ++ [g]).map (fun g => genCost w g x)).sum = (w.gens.map (fun g => genCost w g x)).sum + genCost w g x := by simp
  have k : ∀ a b c d e f i : F, a + i + b + c + d + e + f = a + b + c + d + e + f + i := by intros; ring
  refine Eq.trans ?_ (k _ _ _ _ _ _ _)
  unfold totalCost
  rw [← h]
  rfl

theorem cost_more_link (w : WNet F) (g : LinkW F) (x : WVar → F) : totalCost { w with links := w.links ++ [g] } x = totalCost w x + linkCost w g x := by
  have h : ((w.links ++ [g]).map (fun g => linkCost w g x)).sum = (w.links.map (fun g => linkCost w g x)).sum + linkCost w g x := by simp
  have k : ∀ a b c d e f i : F, a + (b + i) + c + d + e + f = a + b + c + d + e + f + i := by intros; ring
  refine Eq.trans ?_ (k _ _ _ _ _ _ _)
  unfold totalCost
  rw [← h]
  rfl

theorem cost_more_store (w : WNet F) (g : StoreW F) (x : WVar → F) : totalCost { w with stores := w.stores ++ [g] } x = totalCost w x + storeCost w g x := by
  have h : ((w.stores ++ [g]).map (fun g => storeCost w g x)).sum = (w.stores.map (fun g => storeCost w g x)).sum + storeCost w g x := by simp
  have k : ∀ a b c d e f i : F, a + b + (c + i) + d + e + f = a + b + c + d + e + f + i := by intros; ring
  refine Eq.trans ?_ (k _ _ _ _ _ _ _)
  unfold totalCost
  rw [← h]
  rfl

theorem cost_more_line (w : WNet F) (g : BranchW F) (x : WVar → F) : totalCost { w with lines := w.lines ++ [g] } x = totalCost w x + branchCost w "Line" g x := by
  have h : ((w.lines ++ [g]).map (fun g => branchCost w "Line" g x)).sum = (w.lines.map (fun g => branchCost w "Line" g x)).sum + branchCost w "Line" g x := by simp
  have k : ∀ a b c d e f i : F, a + b + c + d + (e + i) + f = a + b + c + d + e + f + i := by intros; ring
  refine Eq.trans ?_ (k _ _ _ _ _ _ _)
  unfold totalCost
  rw [← h]
  rfl

/-- A unit without ramp limits. -/
structure Unramped (u : Unit' F) : Prop where
  up : ∀ t, u.rampUp t = none
  down : ∀ t, u.rampDown t = none
  upStatic : u.rampUpStatic = none
  downStatic : u.rampDownStatic = none

theorem unit_unramped {u : Unit' F} (hu : Unramped u) {past : Past F} {linear ramps ramps' : Prop} {n : Nat} {p status up down : Nat → F} {cap : F}
    (h : UnitRule u past linear ramps n p status up down cap) : UnitRule u past linear ramps' n p status up down cap where
  fixed := h.fixed
  extendable := h.extendable
  committed := h.committed
  unitInterval := h.unitInterval
  firstSwitch := h.firstSwitch
  switch := h.switch
  minUp := h.minUp
  minDown := h.minDown
  stayUp := h.stayUp
  stayDown := h.stayDown
  rampUp _ t _ _ r e := by rw [hu.up] at e; cases e
  rampDown _ t _ _ r e := by rw [hu.down] at e; cases e
  rampUpCommitted _ _ t _ _ r e := by rw [hu.upStatic] at e; cases e
  rampDownCommitted _ _ t _ _ r e := by rw [hu.downStatic] at e; cases e
  rampUpFirst _ _ _ q s _ := ⟨fun r e => (by rw [hu.up] at e; cases e), fun _ r e => (by rw [hu.upStatic] at e; cases e)⟩
  rampDownFirst _ _ _ q s _ := ⟨fun r e => (by rw [hu.down] at e; cases e), fun _ r e => (by rw [hu.downStatic] at e; cases e)⟩
  linearised := h.linearised

/-- With one more unit, the ramp limits of the others count as before, or there are none.  If all ramp limits of a class are 1, they
do not count; they do as soon as there is one more unit without limits (`LoosenProps.lean`, `ExtendProps.lean`). -/
def RampsKept (us : List (Unit' F)) (u : Unit' F) (n : Nat) : Prop := (RampsCount us n ↔ RampsCount (us ++ [u]) n) ∨ ∀ v ∈ us, Unramped v

/-- Limits that count do so with any other unit. -/
theorem kept_of_count {us : List (Unit' F)} {n : Nat} (h : RampsCount us n) (u : Unit' F) : RampsKept us u n := by
  obtain ⟨⟨a, ha, h1⟩, ⟨b, hb, h2⟩⟩ := h
  exact Or.inl ⟨fun _ => ⟨⟨a, List.mem_append_left _ ha, h1⟩, ⟨b, List.mem_append_left _ hb, h2⟩⟩, fun _ => ⟨⟨a, ha, h1⟩, ⟨b, hb, h2⟩⟩⟩

/-- Networks of the same snapshots and settings, in which ramp limits of the common assets count alike. -/
structure Like (b w w' : WNet F) : Prop where
  len : w.len = w'.len
  rolling : w.rolling = w'.rolling
  linearized : w.linearized = w'.linearized
  gw : w.gw = w'.gw
  multi : w.multi = w'.multi
  period : w.period = w'.period
  tangents : w.tangents = w'.tangents
  gens : (RampsCount (w.gens.map (·.unit)) w.len ↔ RampsCount (w'.gens.map (·.unit)) w'.len) ∨ ∀ g ∈ b.gens, Unramped g.unit
  links : (RampsCount (w.links.map (·.unit)) w.len ↔ RampsCount (w'.links.map (·.unit)) w'.len) ∨ ∀ g ∈ b.links, Unramped g.unit

theorem Like.symm {b w w' : WNet F} (h : Like b w w') : Like b w' w :=
  ⟨h.len.symm, h.rolling.symm, h.linearized.symm, h.gw.symm, h.multi.symm, h.period.symm, h.tangents.symm,
    h.gens.imp_left Iff.symm, h.links.imp_left Iff.symm⟩

theorem kept_gens {w : WNet F} {g : GenW F} (h : RampsKept (w.gens.map (·.unit)) g.unit w.len) :
    (RampsCount (w.gens.map (·.unit)) w.len ↔ RampsCount ((w.gens ++ [g]).map (·.unit)) w.len) ∨ ∀ g ∈ w.gens, Unramped g.unit := by
  rcases h with h | h
  · left; rw [List.map_append]; exact h
  · exact Or.inr (fun g hg => h _ (List.mem_map_of_mem hg))

theorem kept_links {w : WNet F} {g : LinkW F} (h : RampsKept (w.links.map (·.unit)) g.unit w.len) :
    (RampsCount (w.links.map (·.unit)) w.len ↔ RampsCount ((w.links ++ [g]).map (·.unit)) w.len) ∨ ∀ g ∈ w.links, Unramped g.unit := by
  rcases h with h | h
  · left; rw [List.map_append]; exact h
  · exact Or.inr (fun g hg => h _ (List.mem_map_of_mem hg))

theorem Like.gen {v w w' : WNet F} (h : Like v w w') {g : GenW F} (hg : g ∈ v.gens) {z : Loc → F} (r : GenRule w g z) : GenRule w' g z := by
  obtain ⟨a, b, c, d, e⟩ := r
  rw [h.len] at c
  rw [h.len, h.gw] at d e
  refine ⟨a, ?_, c, d, e⟩
  rcases h.gens with k | k
  · rwa [propext k, h.rolling, h.linearized, h.len] at b
  · rw [h.rolling, h.linearized, h.len] at b
    exact unit_unramped (k g hg) b

theorem Like.link {v w w' : WNet F} (h : Like v w w') {g : LinkW F} (hg : g ∈ v.links) {z : Loc → F} (r : LinkRule w g z) : LinkRule w' g z := by
  obtain ⟨a, b, c⟩ := r
  rw [h.len] at c
  refine ⟨a, ?_, c⟩
  rcases h.links with k | k
  · rwa [propext k, h.rolling, h.linearized, h.len] at b
  · rw [h.rolling, h.linearized, h.len] at b
    exact unit_unramped (k g hg) b

theorem Like.account {v w w' : WNet F} (h : Like v w w') {s : Storage F} {level gain : Nat → F} (r : PeriodRule w s level gain) : PeriodRule w' s level gain := by
  unfold PeriodRule at r ⊢
  rwa [h.multi, h.period, h.len] at r

theorem Like.store {v w w' : WNet F} (h : Like v w w') {g : StoreW F} {z : Loc → F} (r : StoreRule w g z) : StoreRule w' g z :=
  ⟨r.cap, h.len ▸ r.limits, h.len ▸ r.set, h.account r.level⟩

theorem Like.unit {v w w' : WNet F} (h : Like v w w') {g : UnitW F} {z : Loc → F} (r : StorageRule w g z) : StorageRule w' g z :=
  ⟨r.cap, h.len ▸ r.dispatch, h.len ▸ r.store, h.len ▸ r.charge, h.len ▸ r.spill, h.len ▸ r.set, h.account r.level⟩

theorem Like.branch {v w w' : WNet F} (h : Like v w w') {g : BranchW F} {z : Loc → F} (r : BranchRule w g z) : BranchRule w' g z := by
  obtain ⟨a, b, c, d⟩ := r
  rw [h.len, h.tangents] at b d
  rw [h.len] at c
  exact ⟨a, b, c, d⟩

/-- The rules of all assets. -/
structure Own (w v : WNet F) (x : WVar → F) : Prop where
  gens : ∀ g ∈ w.gens, GenRule v g (fun u => x (.of "Generator" g.name u))
  links : ∀ g ∈ w.links, LinkRule v g (fun u => x (.of "Link" g.name u))
  stores : ∀ g ∈ w.stores, StoreRule v g (fun u => x (.of "Store" g.name u))
  units : ∀ g ∈ w.units, StorageRule v g (fun u => x (.of "StorageUnit" g.name u))
  lines : ∀ g ∈ w.lines, BranchRule v g (fun u => x (.of "Line" g.name u))
  trafos : ∀ g ∈ w.trafos, BranchRule v g (fun u => x (.of "Transformer" g.name u))

theorem own_like {w v v' : WNet F} {x y : WVar → F} (h : Like w v v') (ha : Agree w x y) (r : Own w v x) : Own w v' y := by
  refine ⟨fun g hg => ?_, fun g hg => ?_, fun g hg => ?_, fun g hg => ?_, fun g hg => ?_, fun g hg => ?_⟩
  · rw [← funext (ha.gens g hg)]; exact h.gen hg (r.gens g hg)
  · rw [← funext (ha.links g hg)]; exact h.link hg (r.links g hg)
  · rw [← funext (ha.stores g hg)]; exact h.store (r.stores g hg)
  · rw [← funext (ha.units g hg)]; exact h.unit (r.units g hg)
  · rw [← funext (ha.lines g hg)]; exact h.branch (r.lines g hg)
  · rw [← funext (ha.trafos g hg)]; exact h.branch (r.trafos g hg)

theorem agree_symm {w : WNet F} {x y : WVar → F} (h : Agree w x y) : Agree w y x :=
  ⟨fun g hg v => (h.gens g hg v).symm, fun g hg v => (h.links g hg v).symm, fun g hg v => (h.stores g hg v).symm,
   fun g hg v => (h.units g hg v).symm, fun g hg v => (h.lines g hg v).symm, fun g hg v => (h.trafos g hg v).symm⟩

theorem own_iff {w v v' : WNet F} {x y : WVar → F} (h : Like w v v') (ha : Agree w x y) : Own w v x ↔ Own w v' y :=
  ⟨own_like h ha, own_like h.symm (agree_symm ha)⟩

/-- The rules of a unit without commitment and ramp limits. -/
theorem plain_rule (ext : Bool) (nom : F) (active : Nat → Bool) (lo hi : Nat → F) (past : Past F) (linear ramps : Prop) (n : Nat)
    (p status up down : Nat → F) (cap : F) : UnitRule (plainUnit ext nom active lo hi) past linear ramps n p status up down cap ↔
      ∀ t < n, active t = true → lo t * (if ext then cap else nom) ≤ p t ∧ p t ≤ hi t * (if ext then cap else nom) := by
  constructor
  · intro h t ht ha
    cases he : ext
    · exact h.fixed he rfl t ht ha
    · exact h.extendable he t ht ha
  · intro h
    refine ⟨?_, ?_, ?_, ?_, ?_, ?_, ?_, ?_, ?_, ?_, ?_, ?_, ?_, ?_, ?_, ?_, ?_⟩
    · intro he _ t ht ha
      have he : ext = false := he
      have := h t ht ha
      rw [he] at this
      exact this
    · intro he t ht ha
      have he : ext = true := he
      have := h t ht ha
      rw [he] at this
      exact this
    all_goals first
      | (intro h; cases h; done)
      | (intro _ h; cases h; done)
      | (intro _ _ _ _ _ h; cases h; done)
      | skip
    · intro _ _ _ q s _
      exact ⟨fun r h => (by cases h), fun h => (by cases h)⟩
    · intro _ _ _ q s _
      exact ⟨fun r h => (by cases h), fun h => (by cases h)⟩

def noCosts : Costs F := ⟨fun _ => 0, fun _ => 0, fun _ => 0, fun _ => 0, fun _ => 0⟩

def noInvest : Invest F := ⟨0, none, 0, none, 0, fun _ => true, true⟩

/-- Rows do not speak of the asset. -/
def Unnamed (other : List (Con WVar F)) (c a : Name) : Prop := ∀ r ∈ other, ∀ e ∈ r.terms, ∀ v, e.2 ≠ .of c a v

/-! ## A line and a link -/

/-- The link: no losses, no costs of operation, as much in one direction as in the other. -/
def asLink (l : BranchW F) (n : Name) : LinkW F :=
  ⟨n, l.bus0, l.bus1, fun _ => 1, [], plainUnit l.ext l.nom l.active (fun t => - l.maxPu t) l.maxPu, l.invest, noCosts, l.sSet⟩

def withLine (w : WNet F) (l : BranchW F) : WNet F := { w with lines := w.lines ++ [l] }

def withLink (w : WNet F) (l : BranchW F) (n : Name) : WNet F := { w with links := w.links ++ [asLink l n] }

/-- The link carries what the line carries; all else is the same. -/
structure LineLink (l : BranchW F) (n : Name) (x y : WVar → F) : Prop where
  rest : ∀ c a v, ¬ (c = "Line" ∧ a = l.name) → ¬ (c = "Link" ∧ a = n) → x (.of c a v) = y (.of c a v)
  flow : ∀ t, y (.of "Link" n (.op "p" t)) = x (.of "Line" l.name (.op "s" t))
  cap : y (.of "Link" n .cap) = x (.of "Line" l.name .cap)
  mod : y (.of "Link" n .mod) = x (.of "Line" l.name .mod)

def backLine (n : Name) (y : WVar → F) : Loc → F
  | .op _ t => y (.of "Link" n (.op "p" t))
  | v => y (.of "Link" n v)

theorem lineLink_agree {w : WNet F} {l : BranchW F} {n : Name} (h1 : Sound (withLine w l)) (h2 : Sound (withLink w l n)) {x y : WVar → F}
    (h : LineLink l n x y) : Agree w x y := by
  refine ⟨?_, ?_, ?_, ?_, ?_, ?_⟩ <;> intro g hg v <;> refine h.rest _ _ v ?_ ?_ <;> rintro ⟨hc, hn⟩ <;> try exact absurd hc (by decide)
  · exact fresh_one h2.links hg (List.mem_singleton.mpr rfl) hn
  · exact fresh_one h1.lines hg (List.mem_singleton.mpr rfl) hn

theorem line_rules [IsStrictOrderedRing F] {w : WNet F} {l : BranchW F} {n : Name} (hl : w.tangents = 0) (h1 : Sound (withLine w l)) (h2 : Sound (withLink w l n))
    (hramps : RampsKept (w.links.map (·.unit)) (asLink l n).unit w.len)
    {x y : WVar → F} (h : LineLink l n x y) : Rules (withLine w l) x ↔ Rules (withLink w l n) y := by
  have ha := lineLink_agree h1 h2 h
  have hlike : Like w (withLine w l) (withLink w l n) := ⟨rfl, rfl, rfl, rfl, rfl, rfl, rfl, Or.inl Iff.rfl, kept_links hramps⟩
  have hown : BranchRule (withLine w l) l (fun v => x (.of "Line" l.name v)) ↔ LinkRule (withLink w l n) (asLink l n) (fun v => y (.of "Link" n v)) := by
    have hu : UnitRule (asLink l n).unit (pastOf w.rolling (asLink l n).unit) (w.linearized = true) (RampsCount ((w.links ++ [asLink l n]).map (·.unit)) w.len) w.len
        (fun t => y (.of "Link" n (.op "p" t))) (fun t => y (.of "Link" n (.op "status" t))) (fun t => y (.of "Link" n (.op "start_up" t)))
        (fun t => y (.of "Link" n (.op "shut_down" t))) (y (.of "Link" n .cap)) ↔ _ := plain_rule l.ext l.nom l.active _ _ _ _ _ _ _ _ _ _ _
    constructor
    · intro hb
      refine ⟨?_, hu.mpr (fun t ht hac => ?_), ?_⟩
      · have := hb.cap
        rw [← h.cap, ← h.mod] at this
        exact this
      · obtain ⟨m0, m1⟩ := hb.limits t ht hac
        simp only [show (withLine w l).tangents = 0 from hl, if_true, sub_zero, add_zero] at m0 m1
        rw [h.flow, h.cap, neg_mul]
        exact ⟨m0, m1⟩
      · intro t ht hac s hs
        have := hb.set t ht hac s hs
        change y (.of "Link" n (.op "p" t)) = s
        rw [h.flow]
        exact this
    · intro hk
      refine ⟨?_, fun t ht hac => ?_, ?_, fun h0 => absurd hl h0⟩
      · have := hk.cap
        simp only [asLink] at this
        rw [h.cap, h.mod] at this
        exact this
      · obtain ⟨m0, m1⟩ := hu.mp hk.unit t ht hac
        rw [h.flow, h.cap] at m0 m1
        simp only [show (withLine w l).tangents = 0 from hl, if_true, sub_zero, add_zero]
        rw [neg_mul] at m0
        exact ⟨m0, m1⟩
      · intro t ht hac s hs
        have := hk.set t ht hac s hs
        change y (.of "Link" n (.op "p" t)) = s at this
        rw [h.flow] at this
        exact this
  have hsup : ∀ t b, supply (withLine w l) x t b = supply (withLink w l n) y t b := by
    intro t b
    have e1 : supply (withLine w l) x t b = supply w x t b + (atBus b l.bus0 (l.active t) (- x (.of "Line" l.name (.op "s" t))) +
        atBus b l.bus1 (l.active t) (x (.of "Line" l.name (.op "s" t)))) := by
      unfold supply withLine halfLoss
      simp only [hl, if_true, sub_zero, List.map_append, List.sum_append, List.map_cons, List.map_nil, List.sum_cons, List.sum_nil]
      ring
    have e2 : supply (withLink w l n) y t b = supply w y t b + (atBus b l.bus0 (l.active t) (- y (.of "Link" n (.op "p" t))) +
        atBus b l.bus1 (l.active t) (y (.of "Link" n (.op "p" t)))) := by
      unfold supply withLink halfLoss
      simp only [List.map_append, List.sum_append, List.map_cons, List.map_nil, List.sum_cons, List.sum_nil, asLink, plainUnit, one_mul]
      ring
    rw [e1, e2, supply_like ha, h.flow]
  have split1 : Rules (withLine w l) x ↔ (Own w (withLine w l) x ∧ BranchRule (withLine w l) l (fun v => x (.of "Line" l.name v))) ∧
      ∀ t < w.len, ∀ b ∈ w.buses, supply (withLine w l) x t b = demand w t b := by
    constructor
    · intro r
      exact ⟨⟨⟨r.gens, r.links, r.stores, r.units, fun g hg => r.lines g (List.mem_append_left _ hg), r.trafos⟩,
        r.lines l (List.mem_append_right _ (List.mem_singleton.mpr rfl))⟩, r.balance⟩
    · rintro ⟨⟨r, ro⟩, rb⟩
      refine ⟨r.gens, r.links, r.stores, r.units, fun g hg => ?_, r.trafos, rb⟩
      rcases List.mem_append.mp hg with hg | hg
      · exact r.lines g hg
      · rw [List.mem_singleton] at hg
        subst hg
        exact ro
  have split2 : Rules (withLink w l n) y ↔ (Own w (withLink w l n) y ∧ LinkRule (withLink w l n) (asLink l n) (fun v => y (.of "Link" n v))) ∧
      ∀ t < w.len, ∀ b ∈ w.buses, supply (withLink w l n) y t b = demand w t b := by
    constructor
    · intro r
      exact ⟨⟨⟨r.gens, fun g hg => r.links g (List.mem_append_left _ hg), r.stores, r.units, r.lines, r.trafos⟩,
        r.links (asLink l n) (List.mem_append_right _ (List.mem_singleton.mpr rfl))⟩, r.balance⟩
    · rintro ⟨⟨r, ro⟩, rb⟩
      refine ⟨r.gens, fun g hg => ?_, r.stores, r.units, r.lines, r.trafos, rb⟩
      rcases List.mem_append.mp hg with hg | hg
      · exact r.links g hg
      · rw [List.mem_singleton] at hg
        subst hg
        exact ro
  rw [split1, split2, own_iff hlike ha, hown]
  simp only [hsup]

/-- **C146.** Without losses, a line that no further row is about is the same as a link without losses that can be used both ways. -/
theorem line_as_link [IsStrictOrderedRing F] {w : WNet F} {l : BranchW F} {n : Name} (hl : w.tangents = 0) (h1 : Sound (withLine w l)) (h2 : Sound (withLink w l n))
    (hramps : RampsKept (w.links.map (·.unit)) (asLink l n).unit w.len)
    {other : List (Con WVar F)} (ho : Unnamed other "Line" l.name) (ho' : Unnamed other "Link" n) (hc : ∀ r ∈ other, ∀ e ∈ r.terms, e.2 ≠ .const)
    {D D' : (WVar → F) → Prop} (hD : ∀ x y, LineLink l n x y → (D x ↔ D' y)) : Exchange (withLine w l) (withLink w l n) other D D' (LineLink l n) where
  there x _ := ⟨put "Link" n (fun | .op _ t => x (.of "Line" l.name (.op "s" t)) | v => x (.of "Line" l.name v)) x,
    fun c a v _ h => (put_other h _ _ _).symm, fun t => put_same "Link" n _ x (.op "p" t), put_same "Link" n _ x .cap, put_same "Link" n _ x .mod⟩
  back y _ := ⟨put "Line" l.name (backLine n y) y,
    fun c a v h _ => put_other h _ _ _, fun t => (put_same "Line" l.name (backLine n y) y (.op "s" t)).symm, (put_same "Line" l.name (backLine n y) y .cap).symm, (put_same "Line" l.name (backLine n y) y .mod).symm⟩
  rules x y h := line_rules hl h1 h2 hramps h
  costs x y h _ := by
    have e1 : totalCost (withLine w l) x = totalCost w x + branchCost w "Line" l x := cost_more_line w l x
    have e2 : totalCost (withLink w l n) y = totalCost w y + linkCost w (asLink l n) y := cost_more_link w _ y
    rw [e1, e2, cost_agree (lineLink_agree h1 h2 h)]
    congr 1
    unfold branchCost linkCost
    rw [sum_zero (List.range w.len) _ (fun t _ => by simp [asLink, plainUnit, noCosts]), zero_add]
    have e : y (.of "Link" (asLink l n).name .cap) = x (.of "Line" l.name .cap) := h.cap
    rw [e]
    rfl
  other x y h := by
    have key : ∀ r ∈ other, ∀ e ∈ r.terms, x e.2 = y e.2 := by
      intro r hr e he
      cases hv : e.2 with
      | const => exact absurd hv (hc r hr e he)
      | of c a v => exact h.rest c a v (by rintro ⟨rfl, rfl⟩; exact ho r hr e he v hv) (by rintro ⟨rfl, rfl⟩; exact ho' r hr e he v hv)
    exact ⟨apart_feasible key, apart_feasible (fun r hr e he => (key r hr e he).symm)⟩
  domain := hD

/-! ## A load and a generator -/

/-- The generator: it has the sign of the load and must follow its course. -/
def asGen (l : LoadW F) (n : Name) (nom : F) : GenW F :=
  ⟨n, l.bus, l.sign, plainUnit false nom l.active (fun _ => 0) (fun _ => 1), noInvest, noCosts, fun t => some (l.pSet t), none, none⟩

def withLoad (w : WNet F) (l : LoadW F) : WNet F := { w with loads := w.loads ++ [l] }

def withGen (w : WNet F) (l : LoadW F) (n : Name) (nom : F) : WNet F := { w with gens := w.gens ++ [asGen l n nom] }

structure LoadGen (w : WNet F) (l : LoadW F) (n : Name) (x y : WVar → F) : Prop where
  rest : ∀ c a v, ¬ (c = "Generator" ∧ a = n) → x (.of c a v) = y (.of c a v)
  course : ∀ t < w.len, l.active t = true → y (.of "Generator" n (.op "p" t)) = l.pSet t

theorem loadGen_agree {w : WNet F} {l : LoadW F} {n : Name} {nom : F} (h2 : Sound (withGen w l n nom)) {x y : WVar → F}
    (h : LoadGen w l n x y) : Agree w x y := by
  refine ⟨?_, ?_, ?_, ?_, ?_, ?_⟩ <;> intro g hg v <;> refine h.rest _ _ v ?_ <;> rintro ⟨hc, hn⟩ <;> try exact absurd hc (by decide)
  exact fresh_one h2.gens hg (List.mem_singleton.mpr rfl) hn

theorem load_rules [IsStrictOrderedRing F] {w : WNet F} {l : LoadW F} {n : Name} {nom : F} (h2 : Sound (withGen w l n nom))
    (hlim : ∀ t < w.len, l.active t = true → 0 ≤ l.pSet t ∧ l.pSet t ≤ nom)
    (hramps : RampsKept (w.gens.map (·.unit)) (asGen l n nom).unit w.len)
    {x y : WVar → F} (h : LoadGen w l n x y) : Rules (withLoad w l) x ↔ Rules (withGen w l n nom) y := by
  have ha := loadGen_agree h2 h
  have hlike : Like w (withLoad w l) (withGen w l n nom) := ⟨rfl, rfl, rfl, rfl, rfl, rfl, rfl, kept_gens hramps, Or.inl Iff.rfl⟩
  have hown : GenRule (withGen w l n nom) (asGen l n nom) (fun v => y (.of "Generator" n v)) := by
    refine ⟨⟨fun h => (by cases h), fun h => (by cases h), fun h => (by cases h), fun h => (by cases h)⟩, ?_, ?_, fun _ e he => (by cases he), fun _ e he => (by cases he)⟩
    · refine (plain_rule false nom l.active _ _ _ _ _ _ _ _ _ _ _).mpr (fun t ht hac => ?_)
      change 0 * nom ≤ y (.of "Generator" n (.op "p" t)) ∧ y (.of "Generator" n (.op "p" t)) ≤ 1 * nom
      rw [h.course t ht hac, zero_mul, one_mul]
      exact hlim t ht hac
    · intro t ht hac s hs
      obtain rfl : l.pSet t = s := Option.some.inj hs
      exact h.course t ht hac
  have hbal : ∀ t < w.len, ∀ b, supply (withLoad w l) x t b = demand (withLoad w l) t b ↔ supply (withGen w l n nom) y t b = demand (withGen w l n nom) t b := by
    intro t ht b
    have e1 : supply (withLoad w l) x t b = supply w x t b := rfl
    have e2 : demand (withLoad w l) t b = demand w t b + atBus b l.bus (l.active t) (- (l.sign * l.pSet t)) := by
      unfold demand withLoad
      simp only [List.map_append, List.sum_append, List.map_cons, List.map_nil, List.sum_cons, List.sum_nil, add_zero]
    have e3 : supply (withGen w l n nom) y t b = supply w y t b + atBus b l.bus (l.active t) (l.sign * y (.of "Generator" n (.op "p" t))) := by
      unfold supply withGen halfLoss
      simp only [List.map_append, List.sum_append, List.map_cons, List.map_nil, List.sum_cons, List.sum_nil, asGen, plainUnit]
      ring
    have e4 : demand (withGen w l n nom) t b = demand w t b := rfl
    rw [e1, e2, e3, e4, supply_like ha]
    unfold atBus
    split
    · rename_i hb
      rw [h.course t ht hb.2]
      constructor <;> intro hh <;> linarith
    · simp
  have split1 : Rules (withLoad w l) x ↔ Own w (withLoad w l) x ∧ ∀ t < w.len, ∀ b ∈ w.buses, supply (withLoad w l) x t b = demand (withLoad w l) t b :=
    ⟨fun r => ⟨⟨r.gens, r.links, r.stores, r.units, r.lines, r.trafos⟩, r.balance⟩,
     fun ⟨r, rb⟩ => ⟨r.gens, r.links, r.stores, r.units, r.lines, r.trafos, rb⟩⟩
  have split2 : Rules (withGen w l n nom) y ↔ Own w (withGen w l n nom) y ∧
      ∀ t < w.len, ∀ b ∈ w.buses, supply (withGen w l n nom) y t b = demand (withGen w l n nom) t b := by
    constructor
    · intro r
      exact ⟨⟨fun g hg => r.gens g (List.mem_append_left _ hg), r.links, r.stores, r.units, r.lines, r.trafos⟩, r.balance⟩
    · rintro ⟨r, rb⟩
      refine ⟨fun g hg => ?_, r.links, r.stores, r.units, r.lines, r.trafos, rb⟩
      rcases List.mem_append.mp hg with hg | hg
      · exact r.gens g hg
      · rw [List.mem_singleton] at hg
        subst hg
        exact hown
  rw [split1, split2, own_iff hlike ha]
  refine and_congr_right (fun _ => forall₂_congr (fun t ht => forall₂_congr (fun b _ => hbal t ht b)))

/-- **C146.** A load is the same as a generator of its sign that must follow its course. -/
theorem load_as_generator [IsStrictOrderedRing F] {w : WNet F} {l : LoadW F} {n : Name} {nom : F} (h2 : Sound (withGen w l n nom))
    (hlim : ∀ t < w.len, l.active t = true → 0 ≤ l.pSet t ∧ l.pSet t ≤ nom)
    (hramps : RampsKept (w.gens.map (·.unit)) (asGen l n nom).unit w.len)
    {other : List (Con WVar F)} (ho : Unnamed other "Generator" n) (hc : ∀ r ∈ other, ∀ e ∈ r.terms, e.2 ≠ .const)
    {D D' : (WVar → F) → Prop} (hD : ∀ x y, LoadGen w l n x y → (D x ↔ D' y)) : Exchange (withLoad w l) (withGen w l n nom) other D D' (LoadGen w l n) where
  there x _ := ⟨put "Generator" n (fun | .op _ t => l.pSet t | _ => 0) x, fun c a v h => (put_other h _ _ _).symm, fun t _ _ => put_same _ _ _ _ _⟩
  back y hy := ⟨y, fun _ _ _ _ => rfl, fun t ht hac => (hy.gens (asGen l n nom) (List.mem_append_right _ (List.mem_singleton.mpr rfl))).set t ht hac _ rfl⟩
  rules x y h := load_rules h2 hlim hramps h
  costs x y h _ := by
    have e1 : totalCost (withLoad w l) x = totalCost w x := rfl
    have e2 : totalCost (withGen w l n nom) y = totalCost w y + genCost w (asGen l n nom) y := cost_more_gen w _ y
    rw [e1, e2, cost_agree (loadGen_agree h2 h)]
    unfold genCost
    rw [sum_zero (List.range w.len) _ (fun t _ => by simp [asGen, plainUnit, noCosts])]
    simp [asGen, plainUnit]
  other x y h := by
    have key : ∀ r ∈ other, ∀ e ∈ r.terms, x e.2 = y e.2 := by
      intro r hr e he
      cases hv : e.2 with
      | const => exact absurd hv (hc r hr e he)
      | of c a v => exact h.rest c a v (by rintro ⟨rfl, rfl⟩; exact ho r hr e he v hv)
    exact ⟨apart_feasible key, apart_feasible (fun r hr e he => (key r hr e he).symm)⟩
  domain := hD

end Verif.Opt.Whole.Recast
