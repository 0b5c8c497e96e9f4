import Verif.Opt.WholeExample
import Verif.Opt.StorageProps

/-!
# Prices and profits at an optimum (C107, C108, C109, C110, C111)

`Solved` is the assumption about the solver: a solution and duals of a linear problem with equal values.  Revenue is taken at the prices
recorded at the buses (`busPrice`) times the weight of the snapshot in the objective.
-/

namespace Verif.Opt.Whole

variable {F : Type} [Field F] [LinearOrder F]

/-- Price of a bus times the weight of the snapshot; `old` are the prices recorded before. -/
def atPrice (w : WNet F) (old lam : Name → Nat → F) (b : Name) (t : Nat) : F :=
  weight w t * busPrice w (old b t) (lam b t) t

theorem atPrice_eq {w : WNet F} (old lam : Name → Nat → F) (b : Name) (t : Nat) (h : weight w t ≠ 0) :
    atPrice w old lam b t = lam b t := by
  unfold atPrice busPrice Results.price
  rw [weight_eq]
  field_simp

/-- One more unit of a variable at one snapshot. -/
def oneMore (var : Name) (t : Nat) (v : Loc) : F := if v = .op var t then 1 else 0

section coupling
variable [IsStrictOrderedRing F]

theorem coupled_congr (other : List (Con WVar F)) (mu : List F) (c a : Name) (x y : WVar → F)
    (h : ∀ v, x (.of c a v) = y (.of c a v)) : coupled other mu c a x = coupled other mu c a y := by
  have : only (ofAsset c a) x = only (ofAsset c a) y := by
    funext v
    cases v with
    | const => simp [only, ofAsset]
    | of c' a' l =>
      simp only [only, ofAsset, ← Bool.decide_and, decide_eq_true_eq]
      split
      · rename_i h1; rw [h1.1, h1.2]; exact h l
      · rfl
  unfold coupled
  rw [this]

theorem coupled_neg (other : List (Con WVar F)) (mu : List F) (c a : Name) (x y : WVar → F)
    (h : ∀ v, y (.of c a v) = - x (.of c a v)) : coupled other mu c a y = - coupled other mu c a x := by
  rw [coupled_congr other mu c a y (fun v => - x v) h]
  have : only (ofAsset c a) (fun v => - x v) = fun v => - only (ofAsset c a) x v := by
    funext v
    unfold only
    split <;> simp
  unfold coupled
  rw [this]
  generalize other.zip (mu.drop (mu.length - other.length)) = l
  induction l with
  | nil => simp
  | cons r t ih =>
    simp only [List.map_cons, List.sum_cons]
    rw [ih, lin_neg]
    ring

/-- Rows that do not mention the asset charge nothing. -/
theorem coupled_none (other : List (Con WVar F)) (mu : List F) (c a : Name) (x : WVar → F)
    (h : ∀ r ∈ other, ∀ e ∈ r.terms, ∀ v, e.2 ≠ .of c a v) : coupled other mu c a x = 0 := by
  unfold coupled
  refine sum_zero _ _ (fun r hr => ?_)
  rw [lin_zero, mul_zero]
  intro e he
  cases hv : e.2 with
  | const => simp [only, ofAsset]
  | of c' a' v =>
    simp only [only, ofAsset, ← Bool.decide_and, decide_eq_true_eq]
    rw [if_neg]
    rintro ⟨rfl, rfl⟩
    exact h r.1 (mem_zip_left hr) e he v hv

end coupling

section gain
variable [IsStrictOrderedRing F]

/-- No change of one asset that keeps its own rows is worth more than it costs. -/
theorem gain_gen {w : WNet F} (hw : Sound w) (hl : LinearCosts w) {other : List (Con WVar F)} {P : Program F}
    (hP : createModel w other = some P) {val : WVar → F} {lam : Name → Nat → F} {mu : List F} (hs : Solved P val lam mu)
    (hwt : ∀ t < w.len, weight w t ≠ 0) (old : Name → Nat → F) (g : GenW F) (hg : g ∈ w.gens) (d : Loc → F)
    (hadm : ∀ rs, genRows w g = some rs → ∀ q ∈ rs, Admissible (fun v => val (.of "Generator" g.name v)) d q) :
    genRevenue w g (atPrice w old lam) (spread d) + coupled other mu "Generator" g.name (spread d) ≤ genCost w g (spread d) := by
  have h1 := value_identity hw hl hP hs (only (ofAsset "Generator" g.name) (spread d)) (by simp [only, ofAsset])
  rw [cost_gen hw hl g hg, revenue_gen hw g hg] at h1
  have h2 := rows_gain hP hs "Generator" g.name d (fun own ho r hr hne hall => by
    obtain ⟨g', hg', hn, rs, hrs, q, hq, hr'⟩ := (asset_row ho r hr hne "Generator" g.name hall).1 rfl
    have : g' = g := List.inj_on_of_nodup_map hw.gens hg' hg hn
    subst this
    exact ⟨q, hr', hadm rs hrs q hq⟩)
  have h3 : genRevenue w g (atPrice w old lam) (spread d) = genRevenue w g lam (spread d) := by
    unfold genRevenue
    congr 1
    apply List.map_congr_left
    intro t ht
    simp only [atPrice_eq old lam _ t (hwt t (List.mem_range.mp ht))]
  linarith

/-- No change of one asset that keeps its own rows is worth more than it costs. -/
theorem gain_link {w : WNet F} (hw : Sound w) (hl : LinearCosts w) {other : List (Con WVar F)} {P : Program F}
    (hP : createModel w other = some P) {val : WVar → F} {lam : Name → Nat → F} {mu : List F} (hs : Solved P val lam mu)
    (hwt : ∀ t < w.len, weight w t ≠ 0) (old : Name → Nat → F) (g : LinkW F) (hg : g ∈ w.links) (d : Loc → F)
    (hadm : ∀ rs, linkRows w g = some rs → ∀ q ∈ rs, Admissible (fun v => val (.of "Link" g.name v)) d q) :
    linkRevenue w g (atPrice w old lam) (spread d) + coupled other mu "Link" g.name (spread d) ≤ linkCost w g (spread d) := by
  have h1 := value_identity hw hl hP hs (only (ofAsset "Link" g.name) (spread d)) (by simp [only, ofAsset])
  rw [cost_link hw hl g hg, revenue_link hw g hg] at h1
  have h2 := rows_gain hP hs "Link" g.name d (fun own ho r hr hne hall => by
    obtain ⟨g', hg', hn, rs, hrs, q, hq, hr'⟩ := (asset_row ho r hr hne "Link" g.name hall).2.1 rfl
    have : g' = g := List.inj_on_of_nodup_map hw.links hg' hg hn
    subst this
    exact ⟨q, hr', hadm rs hrs q hq⟩)
  have h3 : linkRevenue w g (atPrice w old lam) (spread d) = linkRevenue w g lam (spread d) := by
    unfold linkRevenue
    congr 1
    apply List.map_congr_left
    intro t ht
    simp only [atPrice_eq old lam _ t (hwt t (List.mem_range.mp ht))]
  linarith

/-- No change of one asset that keeps its own rows is worth more than it costs. -/
theorem gain_store {w : WNet F} (hw : Sound w) (hl : LinearCosts w) {other : List (Con WVar F)} {P : Program F}
    (hP : createModel w other = some P) {val : WVar → F} {lam : Name → Nat → F} {mu : List F} (hs : Solved P val lam mu)
    (hwt : ∀ t < w.len, weight w t ≠ 0) (old : Name → Nat → F) (g : StoreW F) (hg : g ∈ w.stores) (d : Loc → F)
    (hadm : ∀ rs, storeRows w g = some rs → ∀ q ∈ rs, Admissible (fun v => val (.of "Store" g.name v)) d q) :
    storeRevenue w g (atPrice w old lam) (spread d) + coupled other mu "Store" g.name (spread d) ≤ storeCost w g (spread d) := by
  have h1 := value_identity hw hl hP hs (only (ofAsset "Store" g.name) (spread d)) (by simp [only, ofAsset])
  rw [cost_store hw hl g hg, revenue_store hw g hg] at h1
  have h2 := rows_gain hP hs "Store" g.name d (fun own ho r hr hne hall => by
    obtain ⟨g', hg', hn, rs, hrs, q, hq, hr'⟩ := (asset_row ho r hr hne "Store" g.name hall).2.2.1 rfl
    have : g' = g := List.inj_on_of_nodup_map hw.stores hg' hg hn
    subst this
    exact ⟨q, hr', hadm rs hrs q hq⟩)
  have h3 : storeRevenue w g (atPrice w old lam) (spread d) = storeRevenue w g lam (spread d) := by
    unfold storeRevenue
    congr 1
    apply List.map_congr_left
    intro t ht
    simp only [atPrice_eq old lam _ t (hwt t (List.mem_range.mp ht))]
  linarith

/-- No change of one asset that keeps its own rows is worth more than it costs. -/
theorem gain_unit {w : WNet F} (hw : Sound w) (hl : LinearCosts w) {other : List (Con WVar F)} {P : Program F}
    (hP : createModel w other = some P) {val : WVar → F} {lam : Name → Nat → F} {mu : List F} (hs : Solved P val lam mu)
    (hwt : ∀ t < w.len, weight w t ≠ 0) (old : Name → Nat → F) (g : UnitW F) (hg : g ∈ w.units) (d : Loc → F)
    (hadm : ∀ rs, sunitRows w g = some rs → ∀ q ∈ rs, Admissible (fun v => val (.of "StorageUnit" g.name v)) d q) :
    unitRevenue w g (atPrice w old lam) (spread d) + coupled other mu "StorageUnit" g.name (spread d) ≤ unitCost w g (spread d) := by
  have h1 := value_identity hw hl hP hs (only (ofAsset "StorageUnit" g.name) (spread d)) (by simp [only, ofAsset])
  rw [cost_unit hw hl g hg, revenue_unit hw g hg] at h1
  have h2 := rows_gain hP hs "StorageUnit" g.name d (fun own ho r hr hne hall => by
    obtain ⟨g', hg', hn, rs, hrs, q, hq, hr'⟩ := (asset_row ho r hr hne "StorageUnit" g.name hall).2.2.2.1 rfl
    have : g' = g := List.inj_on_of_nodup_map hw.units hg' hg hn
    subst this
    exact ⟨q, hr', hadm rs hrs q hq⟩)
  have h3 : unitRevenue w g (atPrice w old lam) (spread d) = unitRevenue w g lam (spread d) := by
    unfold unitRevenue
    congr 1
    apply List.map_congr_left
    intro t ht
    simp only [atPrice_eq old lam _ t (hwt t (List.mem_range.mp ht))]
  linarith

/-- No change of one asset that keeps its own rows is worth more than it costs. -/
theorem gain_line {w : WNet F} (hw : Sound w) (hl : LinearCosts w) {other : List (Con WVar F)} {P : Program F}
    (hP : createModel w other = some P) {val : WVar → F} {lam : Name → Nat → F} {mu : List F} (hs : Solved P val lam mu)
    (hwt : ∀ t < w.len, weight w t ≠ 0) (old : Name → Nat → F) (g : BranchW F) (hg : g ∈ w.lines) (d : Loc → F)
    (hadm : ∀ rs, branchRows w .line g = some rs → ∀ q ∈ rs, Admissible (fun v => val (.of "Line" g.name v)) d q) :
    branchRevenue w "Line" g (atPrice w old lam) (spread d) + coupled other mu "Line" g.name (spread d) ≤ branchCost w "Line" g (spread d) := by
  have h1 := value_identity hw hl hP hs (only (ofAsset "Line" g.name) (spread d)) (by simp [only, ofAsset])
  rw [cost_line hw g hg, revenue_line hw g hg] at h1
  have h2 := rows_gain hP hs "Line" g.name d (fun own ho r hr hne hall => by
    obtain ⟨g', hg', hn, rs, hrs, q, hq, hr'⟩ := (asset_row ho r hr hne "Line" g.name hall).2.2.2.2.1 rfl
    have : g' = g := List.inj_on_of_nodup_map hw.lines hg' hg hn
    subst this
    exact ⟨q, hr', hadm rs hrs q hq⟩)
  have h3 : branchRevenue w "Line" g (atPrice w old lam) (spread d) = branchRevenue w "Line" g lam (spread d) := by
    unfold branchRevenue
    congr 1
    apply List.map_congr_left
    intro t ht
    simp only [atPrice_eq old lam _ t (hwt t (List.mem_range.mp ht))]
  linarith

/-- No change of one asset that keeps its own rows is worth more than it costs. -/
theorem gain_trafo {w : WNet F} (hw : Sound w) (hl : LinearCosts w) {other : List (Con WVar F)} {P : Program F}
    (hP : createModel w other = some P) {val : WVar → F} {lam : Name → Nat → F} {mu : List F} (hs : Solved P val lam mu)
    (hwt : ∀ t < w.len, weight w t ≠ 0) (old : Name → Nat → F) (g : BranchW F) (hg : g ∈ w.trafos) (d : Loc → F)
    (hadm : ∀ rs, branchRows w .transformer g = some rs → ∀ q ∈ rs, Admissible (fun v => val (.of "Transformer" g.name v)) d q) :
    branchRevenue w "Transformer" g (atPrice w old lam) (spread d) + coupled other mu "Transformer" g.name (spread d) ≤ branchCost w "Transformer" g (spread d) := by
  have h1 := value_identity hw hl hP hs (only (ofAsset "Transformer" g.name) (spread d)) (by simp [only, ofAsset])
  rw [cost_trafo hw g hg, revenue_trafo hw g hg] at h1
  have h2 := rows_gain hP hs "Transformer" g.name d (fun own ho r hr hne hall => by
    obtain ⟨g', hg', hn, rs, hrs, q, hq, hr'⟩ := (asset_row ho r hr hne "Transformer" g.name hall).2.2.2.2.2 rfl
    have : g' = g := List.inj_on_of_nodup_map hw.trafos hg' hg hn
    subst this
    exact ⟨q, hr', hadm rs hrs q hq⟩)
  have h3 : branchRevenue w "Transformer" g (atPrice w old lam) (spread d) = branchRevenue w "Transformer" g lam (spread d) := by
    unfold branchRevenue
    congr 1
    apply List.map_congr_left
    intro t ht
    simp only [atPrice_eq old lam _ t (hwt t (List.mem_range.mp ht))]
  linarith

end gain

/-! ## Reversing a change -/

section reverse

theorem sum_neg_map {α : Type} (l : List α) (f g : α → F) (h : ∀ a ∈ l, g a = - f a) : (l.map g).sum = - (l.map f).sum := by
  induction l with
  | nil => simp
  | cons a t ih =>
    simp only [List.map_cons, List.sum_cons, h a (List.mem_cons_self ..), ih (fun b hb => h b (List.mem_cons_of_mem _ hb))]
    ring

theorem rev_neg_gen (w : WNet F) (g : GenW F) (lam : Name → Nat → F) (d : Loc → F) :
    genRevenue w g lam (spread (fun v => - d v)) = - genRevenue w g lam (spread d) := by
  unfold genRevenue
  refine sum_neg_map _ _ _ (fun t _ => ?_)
  simp only [spread]
  split
  · ring
  · simp

theorem cost_neg_gen (w : WNet F) (g : GenW F) (d : Loc → F) :
    genCost w g (spread (fun v => - d v)) = - genCost w g (spread d) := by
  unfold genCost
  rw [sum_neg_map _ _ _ (fun t _ => ?_)]
  · split <;> simp only [spread] <;> ring
  · simp only [spread]
    split
    · split <;> ring
    · simp

theorem rev_neg_link (w : WNet F) (g : LinkW F) (lam : Name → Nat → F) (d : Loc → F) :
    linkRevenue w g lam (spread (fun v => - d v)) = - linkRevenue w g lam (spread d) := by
  unfold linkRevenue
  refine sum_neg_map _ _ _ (fun t _ => ?_)
  simp only [spread]
  split
  · ring
  · simp

theorem cost_neg_link (w : WNet F) (g : LinkW F) (d : Loc → F) :
    linkCost w g (spread (fun v => - d v)) = - linkCost w g (spread d) := by
  unfold linkCost
  rw [sum_neg_map _ _ _ (fun t _ => ?_)]
  · split <;> simp only [spread] <;> ring
  · simp only [spread]
    split
    · split <;> ring
    · simp

theorem rev_neg_store (w : WNet F) (g : StoreW F) (lam : Name → Nat → F) (d : Loc → F) :
    storeRevenue w g lam (spread (fun v => - d v)) = - storeRevenue w g lam (spread d) := by
  unfold storeRevenue
  refine sum_neg_map _ _ _ (fun t _ => ?_)
  simp only [spread]
  split
  · ring
  · simp

theorem cost_neg_store (w : WNet F) (g : StoreW F) (d : Loc → F) :
    storeCost w g (spread (fun v => - d v)) = - storeCost w g (spread d) := by
  unfold storeCost
  rw [sum_neg_map _ _ _ (fun t _ => ?_)]
  · split <;> simp only [spread] <;> ring
  · simp only [spread]
    split
    · ring
    · simp

theorem rev_neg_unit (w : WNet F) (g : UnitW F) (lam : Name → Nat → F) (d : Loc → F) :
    unitRevenue w g lam (spread (fun v => - d v)) = - unitRevenue w g lam (spread d) := by
  unfold unitRevenue
  refine sum_neg_map _ _ _ (fun t _ => ?_)
  simp only [spread]
  split
  · ring
  · simp

theorem cost_neg_unit (w : WNet F) (g : UnitW F) (d : Loc → F) :
    unitCost w g (spread (fun v => - d v)) = - unitCost w g (spread d) := by
  unfold unitCost
  rw [sum_neg_map _ _ _ (fun t _ => ?_)]
  · split <;> simp only [spread] <;> ring
  · simp only [spread]
    split
    · split <;> ring
    · simp

theorem rev_neg_line (w : WNet F) (g : BranchW F) (lam : Name → Nat → F) (d : Loc → F) :
    branchRevenue w "Line" g lam (spread (fun v => - d v)) = - branchRevenue w "Line" g lam (spread d) := by
  unfold branchRevenue
  refine sum_neg_map _ _ _ (fun t _ => ?_)
  simp only [spread]
  split
  · split <;> ring
  · simp

theorem cost_neg_line (w : WNet F) (g : BranchW F) (d : Loc → F) :
    branchCost w "Line" g (spread (fun v => - d v)) = - branchCost w "Line" g (spread d) := by
  unfold branchCost
  cases g.ext <;> simp [spread]

theorem rev_neg_trafo (w : WNet F) (g : BranchW F) (lam : Name → Nat → F) (d : Loc → F) :
    branchRevenue w "Transformer" g lam (spread (fun v => - d v)) = - branchRevenue w "Transformer" g lam (spread d) := by
  unfold branchRevenue
  refine sum_neg_map _ _ _ (fun t _ => ?_)
  simp only [spread]
  split
  · split <;> ring
  · simp

theorem cost_neg_trafo (w : WNet F) (g : BranchW F) (d : Loc → F) :
    branchCost w "Transformer" g (spread (fun v => - d v)) = - branchCost w "Transformer" g (spread d) := by
  unfold branchCost
  cases g.ext <;> simp [spread]

end reverse

/-! ## Rows which bind with right-hand side zero, rows which allow standing still -/

/-- A generator whose size is free and whose rows are in proportion to it. -/
structure FreeGen (w : WNet F) (g : GenW F) (cap : F) : Prop where
  ext : g.unit.extendable = true
  noCommitment : g.unit.committable = false
  notRolling : w.rolling = false
  free : FreeCap g.invest cap
  set : ∀ t x, g.pSet t = some x → x = 0
  sumMin : ∀ x, g.eSumMin = some x → x = 0
  sumMax : ∀ x, g.eSumMax = some x → x = 0

structure FreeLink (w : WNet F) (g : LinkW F) (cap : F) : Prop where
  ext : g.unit.extendable = true
  noCommitment : g.unit.committable = false
  notRolling : w.rolling = false
  free : FreeCap g.invest cap
  set : ∀ t x, g.pSet t = some x → x = 0

structure FreeStore (_w : WNet F) (g : StoreW F) (cap : F) : Prop where
  ext : g.ext = true
  start : g.storage.cyclic = true ∨ g.storage.initial = 0
  free : FreeCap g.invest cap
  set : ∀ t x, g.eSet t = some x → x = 0

structure FreeUnit (w : WNet F) (g : UnitW F) (cap : F) : Prop where
  ext : g.ext = true
  start : g.storage.cyclic = true ∨ g.storage.initial = 0
  inflow : ∀ t < w.len, g.storage.inflow t = 0
  free : FreeCap g.invest cap
  set : ∀ t x, g.socSet t = some x → x = 0

structure FreeBranch (w : WNet F) (g : BranchW F) (cap : F) : Prop where
  ext : g.ext = true
  noLosses : w.tangents = 0
  free : FreeCap g.invest cap
  set : ∀ t x, g.sSet t = some x → x = 0

/-- A generator which may stand still. -/
structure IdleGen (w : WNet F) (g : GenW F) : Prop where
  idle : Idle g.unit w.len
  notRolling : w.rolling = false
  cap : IdleCap g.unit.extendable g.invest
  set : ∀ t x, g.pSet t = some x → x = 0
  sumMin : ∀ x, g.eSumMin = some x → x ≤ 0
  sumMax : ∀ x, g.eSumMax = some x → 0 ≤ x

structure IdleLink (w : WNet F) (g : LinkW F) : Prop where
  idle : Idle g.unit w.len
  notRolling : w.rolling = false
  cap : IdleCap g.unit.extendable g.invest
  set : ∀ t x, g.pSet t = some x → x = 0

structure IdleStore (w : WNet F) (g : StoreW F) : Prop where
  lower : g.ext = false → ∀ t < w.len, g.minPu t * g.nom ≤ 0
  upper : g.ext = false → ∀ t < w.len, 0 ≤ g.maxPu t * g.nom
  start : g.storage.cyclic = true ∨ g.storage.initial = 0
  cap : IdleCap g.ext g.invest
  set : ∀ t x, g.eSet t = some x → x = 0

structure IdleUnit (w : WNet F) (g : UnitW F) : Prop where
  lower : g.ext = false → ∀ t < w.len, g.minPu t * g.nom ≤ 0
  upper : g.ext = false → ∀ t < w.len, 0 ≤ g.maxPu t * g.nom
  hours : g.ext = false → 0 ≤ g.maxHours * g.nom
  start : g.storage.cyclic = true ∨ g.storage.initial = 0
  inflow : ∀ t < w.len, g.storage.inflow t = 0
  cap : IdleCap g.ext g.invest
  set : ∀ t x, g.socSet t = some x → x = 0

structure IdleBranch (w : WNet F) (g : BranchW F) : Prop where
  noLosses : w.tangents = 0
  upper : g.ext = false → ∀ t < w.len, 0 ≤ g.maxPu t * g.nom
  cap : IdleCap g.ext g.invest
  set : ∀ t x, g.sSet t = some x → x = 0

section scale

theorem set_scale {len : Nat} {var : Name} {active : Nat → Bool} {value : Nat → Option F} (h : ∀ t x, value t = some x → x = 0)
    (q : Con Loc F) (hq : q ∈ setRows len var active value) : q.rhs = 0 := by
  obtain ⟨t, x, -, hv, rfl⟩ := mem_setRows q hq
  exact h t x hv

theorem set_still {len : Nat} {var : Name} {active : Nat → Bool} {value : Nat → Option F} (h : ∀ t x, value t = some x → x = 0)
    (q : Con Loc F) (hq : q ∈ setRows len var active value) : q.holds (fun _ => 0) := by
  obtain ⟨t, x, -, hv, rfl⟩ := mem_setRows q hq
  unfold Con.holds
  rw [lin_zero _ _ (fun _ _ => rfl)]
  exact (h t x hv).symm

theorem eq_still {V : Type} (q : Con V F) (h : q.sense = .eq ∧ q.rhs = 0) : q.holds (fun _ => 0) := by
  unfold Con.holds
  rw [lin_zero _ _ (fun _ _ => rfl), h.1, h.2]

theorem remap_still {V : Type} (f : V → Loc) (q : Con V F) (h : q.holds (fun _ => 0)) : (remap f q).holds (fun _ => 0) :=
  (holds_remap f _ q).mpr h

theorem commit_none {len : Nat} {u : Unit' F} (h : u.committable = false) : commitRows len u = [] := by
  simp [commitRows, h]

theorem gen_scale {w : WNet F} {g : GenW F} {rs : List (Con Loc F)} (h : genRows w g = some rs) (x : Loc → F)
    (hf : FreeGen w g (x .cap)) (q : Con Loc F) (hq : q ∈ rs) : q.rhs = 0 ∨ lin x q.terms ≠ q.rhs := by
  obtain ⟨cap, hc, rfl⟩ := Option.map_eq_some_iff.mp h
  simp only [commit_none hf.noCommitment, List.mem_append, List.not_mem_nil, or_false] at hq
  rcases hq with ((hq | hq) | hq) | hq
  · exact cap_scale hc x hf.free q hq
  · obtain ⟨q', hq', rfl⟩ := List.mem_map.mp hq
    rw [hf.notRolling] at hq'
    exact Or.inl (unit_scale hf.ext hf.noCommitment q' hq')
  · exact Or.inl (set_scale hf.set q hq)
  · rcases mem_sumRows q hq with ⟨-, h⟩ | ⟨-, h⟩
    · exact Or.inl (hf.sumMin _ h)
    · exact Or.inl (hf.sumMax _ h)

theorem gen_still [IsStrictOrderedRing F] {w : WNet F} {g : GenW F} {rs : List (Con Loc F)} (h : genRows w g = some rs)
    (hf : IdleGen w g) (q : Con Loc F) (hq : q ∈ rs) : q.holds (fun _ => 0) := by
  obtain ⟨cap, hc, rfl⟩ := Option.map_eq_some_iff.mp h
  simp only [List.mem_append] at hq
  rcases hq with (((hq | hq) | hq) | hq) | hq
  · exact cap_still hc hf.cap q hq
  · obtain ⟨q', hq', rfl⟩ := List.mem_map.mp hq
    rw [hf.notRolling] at hq'
    exact remap_still _ _ (unit_still hf.idle q' hq')
  · exact commit_still q hq
  · exact set_still hf.set q hq
  · unfold Con.holds
    rw [lin_zero _ _ (fun _ _ => rfl)]
    rcases mem_sumRows q hq with ⟨h1, h⟩ | ⟨h1, h⟩ <;> rw [h1]
    · exact hf.sumMin _ h
    · exact hf.sumMax _ h

theorem link_scale {w : WNet F} {g : LinkW F} {rs : List (Con Loc F)} (h : linkRows w g = some rs) (x : Loc → F)
    (hf : FreeLink w g (x .cap)) (q : Con Loc F) (hq : q ∈ rs) : q.rhs = 0 ∨ lin x q.terms ≠ q.rhs := by
  obtain ⟨cap, hc, rfl⟩ := Option.map_eq_some_iff.mp h
  simp only [commit_none hf.noCommitment, List.mem_append, List.not_mem_nil, or_false] at hq
  rcases hq with (hq | hq) | hq
  · exact cap_scale hc x hf.free q hq
  · obtain ⟨q', hq', rfl⟩ := List.mem_map.mp hq
    rw [hf.notRolling] at hq'
    exact Or.inl (unit_scale hf.ext hf.noCommitment q' hq')
  · exact Or.inl (set_scale hf.set q hq)

theorem link_still [IsStrictOrderedRing F] {w : WNet F} {g : LinkW F} {rs : List (Con Loc F)} (h : linkRows w g = some rs)
    (hf : IdleLink w g) (q : Con Loc F) (hq : q ∈ rs) : q.holds (fun _ => 0) := by
  obtain ⟨cap, hc, rfl⟩ := Option.map_eq_some_iff.mp h
  simp only [List.mem_append] at hq
  rcases hq with ((hq | hq) | hq) | hq
  · exact cap_still hc hf.cap q hq
  · obtain ⟨q', hq', rfl⟩ := List.mem_map.mp hq
    rw [hf.notRolling] at hq'
    exact remap_still _ _ (unit_still hf.idle q' hq')
  · exact commit_still q hq
  · exact set_still hf.set q hq

theorem bounds_scale {len : Nat} {c : Accessor.Cls} {attr : Accessor.Attr'} {var : Name} {losses : Bool}
    {a : Nat → Accessor.Asset F} (h : ∀ t, (a t).ext = true) (q : Con Loc F) (hq : q ∈ boundRows len c attr var losses a) :
    q.rhs = 0 := by
  obtain ⟨t, -, r, hr, rfl⟩ := mem_boundRows q hq
  exact bound_scale (h t) r hr

theorem bounds_still {len : Nat} {c : Accessor.Cls} {attr : Accessor.Attr'} {var : Name} {losses : Bool}
    {a : Nat → Accessor.Asset F} (hlo : ∀ t < len, (a t).ext = false → (Accessor.boundsPu c attr (a t)).1 * (a t).nom ≤ 0)
    (hhi : ∀ t < len, (a t).ext = false → 0 ≤ (Accessor.boundsPu c attr (a t)).2 * (a t).nom)
    (q : Con Loc F) (hq : q ∈ boundRows len c attr var losses a) : q.holds (fun _ => 0) := by
  obtain ⟨t, ht, r, hr, rfl⟩ := mem_boundRows q hq
  exact remap_still _ _ (bound_still (hlo t ht) (hhi t ht) r hr)

theorem store_scale {w : WNet F} {g : StoreW F} {rs : List (Con Loc F)} (h : storeRows w g = some rs) (x : Loc → F)
    (hf : FreeStore w g (x .cap)) (q : Con Loc F) (hq : q ∈ rs) : q.rhs = 0 ∨ lin x q.terms ≠ q.rhs := by
  obtain ⟨cap, hc, rfl⟩ := Option.map_eq_some_iff.mp h
  simp only [List.mem_append] at hq
  rcases hq with ((hq | hq) | hq) | hq
  · exact cap_scale hc x hf.free q hq
  · exact Or.inl (bounds_scale (fun _ => hf.ext) q hq)
  · exact Or.inl (set_scale hf.set q hq)
  · obtain ⟨q', hq', rfl⟩ := List.mem_map.mp hq
    exact Or.inl (mem_storeCons hf.start q' hq').2

theorem store_still [IsStrictOrderedRing F] {w : WNet F} {g : StoreW F} {rs : List (Con Loc F)} (h : storeRows w g = some rs)
    (hf : IdleStore w g) (q : Con Loc F) (hq : q ∈ rs) : q.holds (fun _ => 0) := by
  obtain ⟨cap, hc, rfl⟩ := Option.map_eq_some_iff.mp h
  simp only [List.mem_append] at hq
  rcases hq with ((hq | hq) | hq) | hq
  · exact cap_still hc hf.cap q hq
  · exact bounds_still (fun t ht he => hf.lower he t ht) (fun t ht he => hf.upper he t ht) q hq
  · exact set_still hf.set q hq
  · obtain ⟨q', hq', rfl⟩ := List.mem_map.mp hq
    exact remap_still _ _ (eq_still _ (mem_storeCons hf.start q' hq'))

theorem unit_rows_scale {w : WNet F} {g : UnitW F} {rs : List (Con Loc F)} (h : sunitRows w g = some rs) (x : Loc → F)
    (hf : FreeUnit w g (x .cap)) (q : Con Loc F) (hq : q ∈ rs) : q.rhs = 0 ∨ lin x q.terms ≠ q.rhs := by
  obtain ⟨cap, hc, rfl⟩ := Option.map_eq_some_iff.mp h
  simp only [List.mem_append] at hq
  rcases hq with (((((hq | hq) | hq) | hq) | hq) | hq) | hq
  · exact cap_scale hc x hf.free q hq
  · exact Or.inl (bounds_scale (fun _ => hf.ext) q hq)
  · exact Or.inl (bounds_scale (fun _ => hf.ext) q hq)
  · exact Or.inl (bounds_scale (fun _ => hf.ext) q hq)
  · exact Or.inl (set_scale hf.set q hq)
  · obtain ⟨q', hq', rfl⟩ := List.mem_map.mp hq
    exact Or.inl (mem_storageUnitCons hf.start hf.inflow q' hq').2
  · simp only [List.mem_flatMap, List.mem_range] at hq
    obtain ⟨t, ht, hq⟩ := hq
    simp [hasSpill, hf.inflow t ht] at hq

theorem unit_rows_still [IsStrictOrderedRing F] {w : WNet F} {g : UnitW F} {rs : List (Con Loc F)} (h : sunitRows w g = some rs)
    (hf : IdleUnit w g) (q : Con Loc F) (hq : q ∈ rs) : q.holds (fun _ => 0) := by
  obtain ⟨cap, hc, rfl⟩ := Option.map_eq_some_iff.mp h
  simp only [List.mem_append] at hq
  have hz : (0 : F) * g.nom ≤ 0 := by rw [zero_mul]
  rcases hq with (((((hq | hq) | hq) | hq) | hq) | hq) | hq
  · exact cap_still hc hf.cap q hq
  · exact bounds_still (fun t ht he => hz) (fun t ht he => hf.upper he t ht) q hq
  · refine bounds_still (fun t ht he => hz) (fun t ht he => ?_) q hq
    have := hf.lower he t ht
    simp only [Accessor.boundsPu, unitBound, neg_mul]
    linarith
  · exact bounds_still (fun t ht he => hz) (fun t ht he => hf.hours he) q hq
  · exact set_still hf.set q hq
  · obtain ⟨q', hq', rfl⟩ := List.mem_map.mp hq
    exact remap_still _ _ (eq_still _ (mem_storageUnitCons hf.start hf.inflow q' hq'))
  · simp only [List.mem_flatMap, List.mem_range] at hq
    obtain ⟨t, ht, hq⟩ := hq
    simp [hasSpill, hf.inflow t ht] at hq

theorem branch_parts {w : WNet F} {c : Accessor.Cls} {g : BranchW F} {rs : List (Con Loc F)} (hl : w.tangents = 0)
    (h : branchRows w c g = some rs) : ∃ cap, capRows g.name g.ext g.invest = some cap ∧ rs = cap ++
      boundRows w.len c .s "s" (w.tangents != 0) (branchBound g) ++ setRows w.len "s" g.active g.sSet := by
  unfold branchRows at h
  obtain ⟨cap, hc, h⟩ := Option.bind_eq_some_iff.mp h
  unfold lossRows at h
  rw [if_pos hl] at h
  simp only [Option.map_some, Option.some.injEq, List.append_nil] at h
  exact ⟨cap, hc, h.symm⟩

theorem branch_scale {w : WNet F} {c : Accessor.Cls} {g : BranchW F} {rs : List (Con Loc F)} (h : branchRows w c g = some rs)
    (x : Loc → F) (hf : FreeBranch w g (x .cap)) (q : Con Loc F) (hq : q ∈ rs) : q.rhs = 0 ∨ lin x q.terms ≠ q.rhs := by
  obtain ⟨cap, hc, rfl⟩ := branch_parts hf.noLosses h
  simp only [List.mem_append] at hq
  rcases hq with (hq | hq) | hq
  · exact cap_scale hc x hf.free q hq
  · exact Or.inl (bounds_scale (fun _ => hf.ext) q hq)
  · exact Or.inl (set_scale hf.set q hq)

theorem branch_still [IsStrictOrderedRing F] {w : WNet F} {c : Accessor.Cls} (hcl : c = .line ∨ c = .transformer) {g : BranchW F}
    {rs : List (Con Loc F)} (h : branchRows w c g = some rs) (hf : IdleBranch w g) (q : Con Loc F) (hq : q ∈ rs) :
    q.holds (fun _ => 0) := by
  obtain ⟨cap, hc, rfl⟩ := branch_parts hf.noLosses h
  simp only [List.mem_append] at hq
  rcases hq with (hq | hq) | hq
  · exact cap_still hc hf.cap q hq
  · refine bounds_still (fun t ht he => ?_) (fun t ht he => ?_) q hq
    · have := hf.upper he t ht
      rcases hcl with rfl | rfl <;> simp only [Accessor.boundsPu, branchBound, neg_mul] <;> linarith
    · have := hf.upper he t ht
      rcases hcl with rfl | rfl <;> exact this
  · exact set_still hf.set q hq

end scale

/-- A unit without commitment, ramp limits or set point: at a snapshot only its capacity limits it. -/
structure Plain (u : Unit' F) : Prop where
  noCommitment : u.committable = false
  noRampUp : ∀ t, u.rampUp t = none
  noRampDown : ∀ t, u.rampDown t = none

/-- Limit of the output: per unit of the capacity, which is a variable if it is to be optimised. -/
def limit (u : Unit' F) (pu : F) (cap : F) : F := pu * (if u.extendable then cap else u.nom)

section examples

theorem exFree (cost cap : ℚ) : FreeCap (exInvest cost) cap := ⟨rfl, by simp [exInvest], Or.inl rfl, fun u h => (by cases h)⟩

theorem exIdleCap (cost : ℚ) {ext : Bool} : IdleCap ext (exInvest cost) :=
  ⟨fun _ => le_refl _, fun _ u h => (by cases h), fun x h => (by cases h)⟩

theorem exIdle (ext : Bool) (nom : ℚ) (h : 0 ≤ nom) (T : Nat) : Idle (exUnit' ext nom) T where
  lower := fun _ _ t _ => by simp [exUnit']
  upper := fun _ _ t _ => by
    simp only [exUnit']
    split
    · linarith
    · linarith
  rampUp := fun _ _ t _ r h => by cases h
  rampDown := fun _ _ t _ r h => by cases h
  before := fun h => by cases h

theorem exPlain (ext : Bool) (nom : ℚ) : Plain (exUnit' ext nom) := ⟨rfl, fun _ => rfl, fun _ => rfl⟩

end examples

/-! ## C107: an asset whose size is free earns what it costs -/

section claims
variable [IsStrictOrderedRing F]

/-- C107: a generator whose size is free earns at the prices of its buses, together with what the rows that couple assets
charge for it, exactly its running costs and its capital costs. -/
theorem zero_profit_gen {w : WNet F} (hw : Sound w) (hl : LinearCosts w) {other : List (Con WVar F)} {P : Program F}
    (hP : createModel w other = some P) {val : WVar → F} {lam : Name → Nat → F} {mu : List F} (hs : Solved P val lam mu)
    (hwt : ∀ t < w.len, weight w t ≠ 0) (old : Name → Nat → F) (g : GenW F) (hg : g ∈ w.gens)
    (hf : FreeGen w g (val (.of "Generator" g.name .cap))) :
    genRevenue w g (atPrice w old lam) val + coupled other mu "Generator" g.name val = genCost w g val := by
  have h1 := gain_gen hw hl hP hs hwt old g hg (fun v => val (.of "Generator" g.name v))
    (fun rs hrs q hq => admissible_scale _ q (gen_scale hrs _ hf q hq))
  have h2 := gain_gen hw hl hP hs hwt old g hg (fun v => - val (.of "Generator" g.name v))
    (fun rs hrs q hq => admissible_shrink _ q (gen_scale hrs _ hf q hq))
  rw [rev_neg_gen, cost_neg_gen, coupled_neg other mu "Generator" g.name (spread (fun v => val (.of "Generator" g.name v))) _
    (fun v => rfl)] at h2
  rw [coupled_congr other mu "Generator" g.name val (spread (fun v => val (.of "Generator" g.name v))) (fun v => rfl)]
  exact le_antisymm h1 (by
    have h3 := neg_le_neg h2
    rw [neg_neg, neg_add, neg_neg, neg_neg] at h3
    exact h3)

/-- The exGen of the example network; it costs 1092/5. -/
example : genRevenue exNet exGen (atPrice exNet (fun _ _ => 7) exLam) exVal + coupled exOther exMu "Generator" exGen.name exVal = 1092 / 5 :=
  (zero_profit_gen exSound exLinear exModel_eq exSolved exWeight _ exGen (by simp [exNet]) ⟨rfl, rfl, rfl, exFree 8 _, fun t x h => (by cases h), fun x h => (by cases h), fun x h => (by cases h)⟩).trans
    (by decide +kernel)

/-- C107: a link whose size is free earns at the prices of its buses, together with what the rows that couple assets
charge for it, exactly its running costs and its capital costs. -/
theorem zero_profit_link {w : WNet F} (hw : Sound w) (hl : LinearCosts w) {other : List (Con WVar F)} {P : Program F}
    (hP : createModel w other = some P) {val : WVar → F} {lam : Name → Nat → F} {mu : List F} (hs : Solved P val lam mu)
    (hwt : ∀ t < w.len, weight w t ≠ 0) (old : Name → Nat → F) (g : LinkW F) (hg : g ∈ w.links)
    (hf : FreeLink w g (val (.of "Link" g.name .cap))) :
    linkRevenue w g (atPrice w old lam) val + coupled other mu "Link" g.name val = linkCost w g val := by
  have h1 := gain_link hw hl hP hs hwt old g hg (fun v => val (.of "Link" g.name v))
    (fun rs hrs q hq => admissible_scale _ q (link_scale hrs _ hf q hq))
  have h2 := gain_link hw hl hP hs hwt old g hg (fun v => - val (.of "Link" g.name v))
    (fun rs hrs q hq => admissible_shrink _ q (link_scale hrs _ hf q hq))
  rw [rev_neg_link, cost_neg_link, coupled_neg other mu "Link" g.name (spread (fun v => val (.of "Link" g.name v))) _
    (fun v => rfl)] at h2
  rw [coupled_congr other mu "Link" g.name val (spread (fun v => val (.of "Link" g.name v))) (fun v => rfl)]
  exact le_antisymm h1 (by
    have h3 := neg_le_neg h2
    rw [neg_neg, neg_add, neg_neg, neg_neg] at h3
    exact h3)

/-- The exLink of the example network; it costs 356/5. -/
example : linkRevenue exNet exLink (atPrice exNet (fun _ _ => 7) exLam) exVal + coupled exOther exMu "Link" exLink.name exVal = 356 / 5 :=
  (zero_profit_link exSound exLinear exModel_eq exSolved exWeight _ exLink (by simp [exNet]) ⟨rfl, rfl, rfl, exFree 3 _, fun t x h => (by cases h)⟩).trans
    (by decide +kernel)

/-- C107: a store whose size is free earns at the prices of its buses, together with what the rows that couple assets
charge for it, exactly its running costs and its capital costs. -/
theorem zero_profit_store {w : WNet F} (hw : Sound w) (hl : LinearCosts w) {other : List (Con WVar F)} {P : Program F}
    (hP : createModel w other = some P) {val : WVar → F} {lam : Name → Nat → F} {mu : List F} (hs : Solved P val lam mu)
    (hwt : ∀ t < w.len, weight w t ≠ 0) (old : Name → Nat → F) (g : StoreW F) (hg : g ∈ w.stores)
    (hf : FreeStore w g (val (.of "Store" g.name .cap))) :
    storeRevenue w g (atPrice w old lam) val + coupled other mu "Store" g.name val = storeCost w g val := by
  have h1 := gain_store hw hl hP hs hwt old g hg (fun v => val (.of "Store" g.name v))
    (fun rs hrs q hq => admissible_scale _ q (store_scale hrs _ hf q hq))
  have h2 := gain_store hw hl hP hs hwt old g hg (fun v => - val (.of "Store" g.name v))
    (fun rs hrs q hq => admissible_shrink _ q (store_scale hrs _ hf q hq))
  rw [rev_neg_store, cost_neg_store, coupled_neg other mu "Store" g.name (spread (fun v => val (.of "Store" g.name v))) _
    (fun v => rfl)] at h2
  rw [coupled_congr other mu "Store" g.name val (spread (fun v => val (.of "Store" g.name v))) (fun v => rfl)]
  exact le_antisymm h1 (by
    have h3 := neg_le_neg h2
    rw [neg_neg, neg_add, neg_neg, neg_neg] at h3
    exact h3)

/-- The exStore of the example network; it costs 21/5. -/
example : storeRevenue exNet exStore (atPrice exNet (fun _ _ => 7) exLam) exVal + coupled exOther exMu "Store" exStore.name exVal = 21 / 5 :=
  (zero_profit_store exSound exLinear exModel_eq exSolved exWeight _ exStore (by simp [exNet]) ⟨rfl, Or.inl rfl, exFree 1 _, fun t x h => (by cases h)⟩).trans
    (by decide +kernel)

/-- C107: a storage unit whose size is free earns at the prices of its buses, together with what the rows that couple assets
charge for it, exactly its running costs and its capital costs. -/
theorem zero_profit_unit {w : WNet F} (hw : Sound w) (hl : LinearCosts w) {other : List (Con WVar F)} {P : Program F}
    (hP : createModel w other = some P) {val : WVar → F} {lam : Name → Nat → F} {mu : List F} (hs : Solved P val lam mu)
    (hwt : ∀ t < w.len, weight w t ≠ 0) (old : Name → Nat → F) (g : UnitW F) (hg : g ∈ w.units)
    (hf : FreeUnit w g (val (.of "StorageUnit" g.name .cap))) :
    unitRevenue w g (atPrice w old lam) val + coupled other mu "StorageUnit" g.name val = unitCost w g val := by
  have h1 := gain_unit hw hl hP hs hwt old g hg (fun v => val (.of "StorageUnit" g.name v))
    (fun rs hrs q hq => admissible_scale _ q (unit_rows_scale hrs _ hf q hq))
  have h2 := gain_unit hw hl hP hs hwt old g hg (fun v => - val (.of "StorageUnit" g.name v))
    (fun rs hrs q hq => admissible_shrink _ q (unit_rows_scale hrs _ hf q hq))
  rw [rev_neg_unit, cost_neg_unit, coupled_neg other mu "StorageUnit" g.name (spread (fun v => val (.of "StorageUnit" g.name v))) _
    (fun v => rfl)] at h2
  rw [coupled_congr other mu "StorageUnit" g.name val (spread (fun v => val (.of "StorageUnit" g.name v))) (fun v => rfl)]
  exact le_antisymm h1 (by
    have h3 := neg_le_neg h2
    rw [neg_neg, neg_add, neg_neg, neg_neg] at h3
    exact h3)

/-- The exBattery of the example network; it costs 16/5. -/
example : unitRevenue exNet exBattery (atPrice exNet (fun _ _ => 7) exLam) exVal + coupled exOther exMu "StorageUnit" exBattery.name exVal = 16 / 5 :=
  (zero_profit_unit exSound exLinear exModel_eq exSolved exWeight _ exBattery (by simp [exNet]) ⟨rfl, Or.inl rfl, fun _ _ => rfl, exFree 1 _, fun t x h => (by cases h)⟩).trans
    (by decide +kernel)

/-- C107: a line whose size is free earns at the prices of its buses, together with what the rows that couple assets
charge for it, exactly its running costs and its capital costs. -/
theorem zero_profit_line {w : WNet F} (hw : Sound w) (hl : LinearCosts w) {other : List (Con WVar F)} {P : Program F}
    (hP : createModel w other = some P) {val : WVar → F} {lam : Name → Nat → F} {mu : List F} (hs : Solved P val lam mu)
    (hwt : ∀ t < w.len, weight w t ≠ 0) (old : Name → Nat → F) (g : BranchW F) (hg : g ∈ w.lines)
    (hf : FreeBranch w g (val (.of "Line" g.name .cap))) :
    branchRevenue w "Line" g (atPrice w old lam) val + coupled other mu "Line" g.name val = branchCost w "Line" g val := by
  have h1 := gain_line hw hl hP hs hwt old g hg (fun v => val (.of "Line" g.name v))
    (fun rs hrs q hq => admissible_scale _ q (branch_scale hrs _ hf q hq))
  have h2 := gain_line hw hl hP hs hwt old g hg (fun v => - val (.of "Line" g.name v))
    (fun rs hrs q hq => admissible_shrink _ q (branch_scale hrs _ hf q hq))
  rw [rev_neg_line, cost_neg_line, coupled_neg other mu "Line" g.name (spread (fun v => val (.of "Line" g.name v))) _
    (fun v => rfl)] at h2
  rw [coupled_congr other mu "Line" g.name val (spread (fun v => val (.of "Line" g.name v))) (fun v => rfl)]
  exact le_antisymm h1 (by
    have h3 := neg_le_neg h2
    rw [neg_neg, neg_add, neg_neg, neg_neg] at h3
    exact h3)

/-- The exLine of the example network; it costs 72/5. -/
example : branchRevenue exNet "Line" exLine (atPrice exNet (fun _ _ => 7) exLam) exVal + coupled exOther exMu "Line" exLine.name exVal = 72 / 5 :=
  (zero_profit_line exSound exLinear exModel_eq exSolved exWeight _ exLine (by simp [exNet]) ⟨rfl, rfl, exFree 2 _, fun t x h => (by cases h)⟩).trans
    (by decide +kernel)

/-- C107: a transformer whose size is free earns at the prices of its buses, together with what the rows that couple assets
charge for it, exactly its running costs and its capital costs. -/
theorem zero_profit_trafo {w : WNet F} (hw : Sound w) (hl : LinearCosts w) {other : List (Con WVar F)} {P : Program F}
    (hP : createModel w other = some P) {val : WVar → F} {lam : Name → Nat → F} {mu : List F} (hs : Solved P val lam mu)
    (hwt : ∀ t < w.len, weight w t ≠ 0) (old : Name → Nat → F) (g : BranchW F) (hg : g ∈ w.trafos)
    (hf : FreeBranch w g (val (.of "Transformer" g.name .cap))) :
    branchRevenue w "Transformer" g (atPrice w old lam) val + coupled other mu "Transformer" g.name val = branchCost w "Transformer" g val := by
  have h1 := gain_trafo hw hl hP hs hwt old g hg (fun v => val (.of "Transformer" g.name v))
    (fun rs hrs q hq => admissible_scale _ q (branch_scale hrs _ hf q hq))
  have h2 := gain_trafo hw hl hP hs hwt old g hg (fun v => - val (.of "Transformer" g.name v))
    (fun rs hrs q hq => admissible_shrink _ q (branch_scale hrs _ hf q hq))
  rw [rev_neg_trafo, cost_neg_trafo, coupled_neg other mu "Transformer" g.name (spread (fun v => val (.of "Transformer" g.name v))) _
    (fun v => rfl)] at h2
  rw [coupled_congr other mu "Transformer" g.name val (spread (fun v => val (.of "Transformer" g.name v))) (fun v => rfl)]
  exact le_antisymm h1 (by
    have h3 := neg_le_neg h2
    rw [neg_neg, neg_add, neg_neg, neg_neg] at h3
    exact h3)

/-- The exTrafo of the example network; it costs 36/5. -/
example : branchRevenue exNet "Transformer" exTrafo (atPrice exNet (fun _ _ => 7) exLam) exVal + coupled exOther exMu "Transformer" exTrafo.name exVal = 36 / 5 :=
  (zero_profit_trafo exSound exLinear exModel_eq exSolved exWeight _ exTrafo (by simp [exNet]) ⟨rfl, rfl, exFree 1 _, fun t x h => (by cases h)⟩).trans
    (by decide +kernel)

/-! ## C108: an asset that may stand still makes no loss -/

/-- C108: a generator which may stand still and need not be built makes no loss. -/
theorem no_loss_gen {w : WNet F} (hw : Sound w) (hl : LinearCosts w) {other : List (Con WVar F)} {P : Program F}
    (hP : createModel w other = some P) {val : WVar → F} {lam : Name → Nat → F} {mu : List F} (hs : Solved P val lam mu)
    (hwt : ∀ t < w.len, weight w t ≠ 0) (old : Name → Nat → F) (g : GenW F) (hg : g ∈ w.gens) (hf : IdleGen w g) :
    genCost w g val ≤ genRevenue w g (atPrice w old lam) val + coupled other mu "Generator" g.name val := by
  have h2 := gain_gen hw hl hP hs hwt old g hg (fun v => - val (.of "Generator" g.name v))
    (fun rs hrs q hq => admissible_undo _ q (gen_still hrs hf q hq))
  rw [rev_neg_gen, cost_neg_gen, coupled_neg other mu "Generator" g.name (spread (fun v => val (.of "Generator" g.name v))) _
    (fun v => rfl)] at h2
  rw [coupled_congr other mu "Generator" g.name val (spread (fun v => val (.of "Generator" g.name v))) (fun v => rfl)]
  have h3 := neg_le_neg h2
  rw [neg_neg, neg_add, neg_neg, neg_neg] at h3
  exact h3

example : 1092 / 5 ≤ genRevenue exNet exGen (atPrice exNet (fun _ _ => 7) exLam) exVal +
    coupled exOther exMu "Generator" exGen.name exVal :=
  le_of_eq_of_le (by decide +kernel) (no_loss_gen exSound exLinear exModel_eq exSolved exWeight _ exGen (by simp [exNet])
    ⟨exIdle true 1 (by norm_num) 2, rfl, exIdleCap 8, fun t x h => (by cases h), fun x h => (by cases h), fun x h => (by cases h)⟩)

/-- C108: a link which may stand still and need not be built makes no loss. -/
theorem no_loss_link {w : WNet F} (hw : Sound w) (hl : LinearCosts w) {other : List (Con WVar F)} {P : Program F}
    (hP : createModel w other = some P) {val : WVar → F} {lam : Name → Nat → F} {mu : List F} (hs : Solved P val lam mu)
    (hwt : ∀ t < w.len, weight w t ≠ 0) (old : Name → Nat → F) (g : LinkW F) (hg : g ∈ w.links) (hf : IdleLink w g) :
    linkCost w g val ≤ linkRevenue w g (atPrice w old lam) val + coupled other mu "Link" g.name val := by
  have h2 := gain_link hw hl hP hs hwt old g hg (fun v => - val (.of "Link" g.name v))
    (fun rs hrs q hq => admissible_undo _ q (link_still hrs hf q hq))
  rw [rev_neg_link, cost_neg_link, coupled_neg other mu "Link" g.name (spread (fun v => val (.of "Link" g.name v))) _
    (fun v => rfl)] at h2
  rw [coupled_congr other mu "Link" g.name val (spread (fun v => val (.of "Link" g.name v))) (fun v => rfl)]
  have h3 := neg_le_neg h2
  rw [neg_neg, neg_add, neg_neg, neg_neg] at h3
  exact h3

example : 356 / 5 ≤ linkRevenue exNet exLink (atPrice exNet (fun _ _ => 7) exLam) exVal +
    coupled exOther exMu "Link" exLink.name exVal :=
  le_of_eq_of_le (by decide +kernel) (no_loss_link exSound exLinear exModel_eq exSolved exWeight _ exLink (by simp [exNet])
    ⟨exIdle true 0 (by norm_num) 2, rfl, exIdleCap 3, fun t x h => (by cases h)⟩)

/-- C108: a store which may stand still and need not be built makes no loss. -/
theorem no_loss_store {w : WNet F} (hw : Sound w) (hl : LinearCosts w) {other : List (Con WVar F)} {P : Program F}
    (hP : createModel w other = some P) {val : WVar → F} {lam : Name → Nat → F} {mu : List F} (hs : Solved P val lam mu)
    (hwt : ∀ t < w.len, weight w t ≠ 0) (old : Name → Nat → F) (g : StoreW F) (hg : g ∈ w.stores) (hf : IdleStore w g) :
    storeCost w g val ≤ storeRevenue w g (atPrice w old lam) val + coupled other mu "Store" g.name val := by
  have h2 := gain_store hw hl hP hs hwt old g hg (fun v => - val (.of "Store" g.name v))
    (fun rs hrs q hq => admissible_undo _ q (store_still hrs hf q hq))
  rw [rev_neg_store, cost_neg_store, coupled_neg other mu "Store" g.name (spread (fun v => val (.of "Store" g.name v))) _
    (fun v => rfl)] at h2
  rw [coupled_congr other mu "Store" g.name val (spread (fun v => val (.of "Store" g.name v))) (fun v => rfl)]
  have h3 := neg_le_neg h2
  rw [neg_neg, neg_add, neg_neg, neg_neg] at h3
  exact h3

example : 21 / 5 ≤ storeRevenue exNet exStore (atPrice exNet (fun _ _ => 7) exLam) exVal +
    coupled exOther exMu "Store" exStore.name exVal :=
  le_of_eq_of_le (by decide +kernel) (no_loss_store exSound exLinear exModel_eq exSolved exWeight _ exStore (by simp [exNet])
    ⟨fun h => (by cases h), fun h => (by cases h), Or.inl rfl, exIdleCap 1, fun t x h => (by cases h)⟩)

/-- C108: a storage unit which may stand still and need not be built makes no loss. -/
theorem no_loss_unit {w : WNet F} (hw : Sound w) (hl : LinearCosts w) {other : List (Con WVar F)} {P : Program F}
    (hP : createModel w other = some P) {val : WVar → F} {lam : Name → Nat → F} {mu : List F} (hs : Solved P val lam mu)
    (hwt : ∀ t < w.len, weight w t ≠ 0) (old : Name → Nat → F) (g : UnitW F) (hg : g ∈ w.units) (hf : IdleUnit w g) :
    unitCost w g val ≤ unitRevenue w g (atPrice w old lam) val + coupled other mu "StorageUnit" g.name val := by
  have h2 := gain_unit hw hl hP hs hwt old g hg (fun v => - val (.of "StorageUnit" g.name v))
    (fun rs hrs q hq => admissible_undo _ q (unit_rows_still hrs hf q hq))
  rw [rev_neg_unit, cost_neg_unit, coupled_neg other mu "StorageUnit" g.name (spread (fun v => val (.of "StorageUnit" g.name v))) _
    (fun v => rfl)] at h2
  rw [coupled_congr other mu "StorageUnit" g.name val (spread (fun v => val (.of "StorageUnit" g.name v))) (fun v => rfl)]
  have h3 := neg_le_neg h2
  rw [neg_neg, neg_add, neg_neg, neg_neg] at h3
  exact h3

example : 16 / 5 ≤ unitRevenue exNet exBattery (atPrice exNet (fun _ _ => 7) exLam) exVal +
    coupled exOther exMu "StorageUnit" exBattery.name exVal :=
  le_of_eq_of_le (by decide +kernel) (no_loss_unit exSound exLinear exModel_eq exSolved exWeight _ exBattery (by simp [exNet])
    ⟨fun h => (by cases h), fun h => (by cases h), fun h => (by cases h), Or.inl rfl, fun _ _ => rfl, exIdleCap 1, fun t x h => (by cases h)⟩)

/-- C108: a line which may stand still and need not be built makes no loss. -/
theorem no_loss_line {w : WNet F} (hw : Sound w) (hl : LinearCosts w) {other : List (Con WVar F)} {P : Program F}
    (hP : createModel w other = some P) {val : WVar → F} {lam : Name → Nat → F} {mu : List F} (hs : Solved P val lam mu)
    (hwt : ∀ t < w.len, weight w t ≠ 0) (old : Name → Nat → F) (g : BranchW F) (hg : g ∈ w.lines) (hf : IdleBranch w g) :
    branchCost w "Line" g val ≤ branchRevenue w "Line" g (atPrice w old lam) val + coupled other mu "Line" g.name val := by
  have h2 := gain_line hw hl hP hs hwt old g hg (fun v => - val (.of "Line" g.name v))
    (fun rs hrs q hq => admissible_undo _ q (branch_still (Or.inl rfl) hrs hf q hq))
  rw [rev_neg_line, cost_neg_line, coupled_neg other mu "Line" g.name (spread (fun v => val (.of "Line" g.name v))) _
    (fun v => rfl)] at h2
  rw [coupled_congr other mu "Line" g.name val (spread (fun v => val (.of "Line" g.name v))) (fun v => rfl)]
  have h3 := neg_le_neg h2
  rw [neg_neg, neg_add, neg_neg, neg_neg] at h3
  exact h3

example : 72 / 5 ≤ branchRevenue exNet "Line" exLine (atPrice exNet (fun _ _ => 7) exLam) exVal +
    coupled exOther exMu "Line" exLine.name exVal :=
  le_of_eq_of_le (by decide +kernel) (no_loss_line exSound exLinear exModel_eq exSolved exWeight _ exLine (by simp [exNet])
    ⟨rfl, fun h => (by cases h), exIdleCap 2, fun t x h => (by cases h)⟩)

/-- C108: a transformer which may stand still and need not be built makes no loss. -/
theorem no_loss_trafo {w : WNet F} (hw : Sound w) (hl : LinearCosts w) {other : List (Con WVar F)} {P : Program F}
    (hP : createModel w other = some P) {val : WVar → F} {lam : Name → Nat → F} {mu : List F} (hs : Solved P val lam mu)
    (hwt : ∀ t < w.len, weight w t ≠ 0) (old : Name → Nat → F) (g : BranchW F) (hg : g ∈ w.trafos) (hf : IdleBranch w g) :
    branchCost w "Transformer" g val ≤ branchRevenue w "Transformer" g (atPrice w old lam) val + coupled other mu "Transformer" g.name val := by
  have h2 := gain_trafo hw hl hP hs hwt old g hg (fun v => - val (.of "Transformer" g.name v))
    (fun rs hrs q hq => admissible_undo _ q (branch_still (Or.inr rfl) hrs hf q hq))
  rw [rev_neg_trafo, cost_neg_trafo, coupled_neg other mu "Transformer" g.name (spread (fun v => val (.of "Transformer" g.name v))) _
    (fun v => rfl)] at h2
  rw [coupled_congr other mu "Transformer" g.name val (spread (fun v => val (.of "Transformer" g.name v))) (fun v => rfl)]
  have h3 := neg_le_neg h2
  rw [neg_neg, neg_add, neg_neg, neg_neg] at h3
  exact h3

example : 36 / 5 ≤ branchRevenue exNet "Transformer" exTrafo (atPrice exNet (fun _ _ => 7) exLam) exVal +
    coupled exOther exMu "Transformer" exTrafo.name exVal :=
  le_of_eq_of_le (by decide +kernel) (no_loss_trafo exSound exLinear exModel_eq exSolved exWeight _ exTrafo (by simp [exNet])
    ⟨rfl, fun h => (by cases h), exIdleCap 1, fun t x h => (by cases h)⟩)

/-! ## C109: merit order -/

omit [IsStrictOrderedRing F] in
theorem plain_rows {cls : List (Unit' F)} {u : Unit' F} (h : Plain u) {T : Nat} {rolling lin' : Bool} (q : Con UVar F)
    (hq : q ∈ unitCons cls u T rolling lin') : ∃ t, (u.extendable = false ∧ (q = ⟨[(1, .p t)], .ge, u.minPu t * u.nom⟩ ∨
      q = ⟨[(1, .p t)], .le, u.maxPu t * u.nom⟩)) ∨ (u.extendable = true ∧ (q = ⟨[(1, .p t), (- u.minPu t, .cap)], .ge, 0⟩ ∨
      q = ⟨[(1, .p t), (- u.maxPu t, .cap)], .le, 0⟩)) := by
  have hr : rampCons cls u T rolling = [] := by
    unfold rampCons rowsAt
    split
    · rfl
    · simp [rampRows, h.noCommitment, h.noRampUp, h.noRampDown]
  unfold unitCons at hq
  have hl : linearizedCons u T = [] := by simp [linearizedCons, h.noCommitment]
  rw [hr, hl] at hq
  simp only [comCons, h.noCommitment, Bool.not_false, if_true, List.append_nil, ite_self, List.mem_append] at hq
  rcases hq with hq | hq
  · unfold nonExtCons rowsAt at hq
    split at hq
    · cases hq
    · rename_i hn
      simp only [h.noCommitment, Bool.or_false, Bool.not_eq_true] at hn
      simp only [List.mem_flatMap] at hq
      obtain ⟨t, -, hq⟩ := hq
      split at hq
      · rename_i ha
        simp only [tm, present, ha, if_true, List.mem_cons, List.not_mem_nil, or_false] at hq
        exact ⟨t, Or.inl ⟨hn, hq⟩⟩
      · cases hq
  · unfold extCons rowsAt at hq
    split at hq
    · cases hq
    · rename_i hn
      simp only [Bool.not_eq_true', Bool.not_eq_false] at hn
      simp only [List.mem_flatMap] at hq
      obtain ⟨t, -, hq⟩ := hq
      split at hq
      · rename_i ha
        simp only [tm, present, ha, if_true, List.mem_cons, List.not_mem_nil, or_false] at hq
        exact ⟨t, Or.inr ⟨hn, hq⟩⟩
      · cases hq

theorem plain_more {cls : List (Unit' F)} {u : Unit' F} (h : Plain u) {T : Nat} {rolling lin' : Bool} (x : Loc → F) (t : Nat)
    (hup : x (.op "p" t) < limit u (u.maxPu t) (x .cap)) (q : Con UVar F) (hq : q ∈ unitCons cls u T rolling lin') :
    Admissible x (oneMore "p" t) (remap unitLoc q) := by
  obtain ⟨s, ⟨he, rfl | rfl⟩ | ⟨he, rfl | rfl⟩⟩ := plain_rows h q hq <;> intro hb <;>
    simp only [remap, lin, unitLoc, oneMore, List.map_cons, List.map_nil, List.sum_cons, List.sum_nil, one_mul, add_zero,
      Loc.op.injEq, true_and, reduceCtorEq, if_false, mul_zero] at hb ⊢ <;> by_cases hst : s = t
  · simp [hst]
  · simp [hst]
  · exfalso
    subst hst
    rw [hb] at hup
    simp [limit, he] at hup
  · simp [hst]
  · simp [hst]
  · simp [hst]
  · exfalso
    subst hst
    simp only [limit, he, if_true] at hup
    linarith
  · simp [hst]

theorem plain_less {cls : List (Unit' F)} {u : Unit' F} (h : Plain u) {T : Nat} {rolling lin' : Bool} (x : Loc → F) (t : Nat)
    (hlo : limit u (u.minPu t) (x .cap) < x (.op "p" t)) (q : Con UVar F) (hq : q ∈ unitCons cls u T rolling lin') :
    Admissible x (fun v => - oneMore "p" t v) (remap unitLoc q) := by
  obtain ⟨s, ⟨he, rfl | rfl⟩ | ⟨he, rfl | rfl⟩⟩ := plain_rows h q hq <;> intro hb <;>
    simp only [remap, lin, unitLoc, oneMore, List.map_cons, List.map_nil, List.sum_cons, List.sum_nil, one_mul, add_zero,
      Loc.op.injEq, true_and, reduceCtorEq, if_false, mul_zero, neg_zero] at hb ⊢ <;> by_cases hst : s = t
  · exfalso
    subst hst
    rw [hb] at hlo
    simp [limit, he] at hlo
  · simp [hst]
  · simp [hst]
  · simp [hst]
  · exfalso
    subst hst
    simp only [limit, he, if_true] at hlo
    linarith
  · simp [hst]
  · simp [hst]
  · simp [hst]

/-- A row without the variable does not mind. -/
theorem admissible_absent (x d : Loc → F) (q : Con Loc F) (h : ∀ e ∈ q.terms, d e.2 = 0) : Admissible x d q := by
  intro _
  rw [lin_zero _ _ h]
  cases q.sense <;> simp

omit [IsStrictOrderedRing F] in
theorem cap_absent {name : Name} {ext : Bool} {i : Invest F} {rs : List (Con Loc F)} (h : capRows name ext i = some rs)
    (d : Loc → F) (h1 : d .cap = 0) (h2 : d .mod = 0) (q : Con Loc F) (hq : q ∈ rs) : ∀ e ∈ q.terms, d e.2 = 0 := by
  rcases mem_capRows h q hq with ⟨-, rfl⟩ | ⟨-, u, -, rfl⟩ | ⟨y, -, rfl⟩ | ⟨-, -, rfl | rfl⟩ <;> simp [h1, h2]

omit [IsStrictOrderedRing F] in
theorem set_absent {len : Nat} {var : Name} {active : Nat → Bool} {value : Nat → Option F} (d : Loc → F)
    (h : ∀ t, value t ≠ none → d (.op var t) = 0) (q : Con Loc F) (hq : q ∈ setRows len var active value) :
    ∀ e ∈ q.terms, d e.2 = 0 := by
  obtain ⟨t, x, -, hv, rfl⟩ := mem_setRows q hq
  intro e he
  rw [List.mem_singleton.mp he]
  exact h t (by rw [hv]; simp)

omit [IsStrictOrderedRing F] in
theorem sumRows_none {len : Nat} {gw : Nat → F} {name : Name} {active : Nat → Bool} :
    Capacity.totalSupplyCons (List.range len) gw [⟨name, active, none, none⟩] = [] := by
  simp [Capacity.totalSupplyCons]

omit [IsStrictOrderedRing F] [LinearOrder F] in
theorem single_time {len t : Nat} (ht : t < len) (f : Nat → F) (h : ∀ s, s ≠ t → f s = 0) :
    ((List.range len).map f).sum = f t :=
  sum_single (List.range len) id f (by simpa using List.nodup_range) t (List.mem_range.mpr ht) (fun s _ hs => h s hs)

/-- C109: at an optimum a generator below its upper limit is not worth more than it costs, one above its lower limit
not less; in between the price is its marginal cost. -/
theorem merit_order_gen {w : WNet F} (hw : Sound w) (hl : LinearCosts w) {other : List (Con WVar F)} {P : Program F}
    (hP : createModel w other = some P) {val : WVar → F} {lam : Name → Nat → F} {mu : List F} (hs : Solved P val lam mu)
    (hwt : ∀ t < w.len, weight w t ≠ 0) (old : Name → Nat → F) (g : GenW F) (hg : g ∈ w.gens) (hp : Plain g.unit)
    (hsum : g.eSumMin = none ∧ g.eSumMax = none) (t : Nat) (ht : t < w.len) (ha : g.unit.active t = true) (hset : g.pSet t = none) :
    (val (.of "Generator" g.name (.op "p" t)) < limit g.unit (g.unit.maxPu t) (val (.of "Generator" g.name .cap)) →
      weight w t * (g.sign * busPrice w (old g.bus t) (lam g.bus t) t) +
        coupled other mu "Generator" g.name (spread (oneMore "p" t)) ≤ weight w t * g.costs.marginal t) ∧
    (limit g.unit (g.unit.minPu t) (val (.of "Generator" g.name .cap)) < val (.of "Generator" g.name (.op "p" t)) →
      weight w t * g.costs.marginal t ≤ weight w t * (g.sign * busPrice w (old g.bus t) (lam g.bus t) t) +
        coupled other mu "Generator" g.name (spread (oneMore "p" t))) := by
  have hrev : genRevenue w g (atPrice w old lam) (spread (oneMore "p" t)) =
      weight w t * (g.sign * busPrice w (old g.bus t) (lam g.bus t) t) := by
    unfold genRevenue
    rw [single_time ht _ (fun s hst => by simp [spread, oneMore, hst])]
    simp only [ha, spread, oneMore, if_true, atPrice]
    ring
  have hcost : genCost w g (spread (oneMore "p" t)) = weight w t * g.costs.marginal t := by
    unfold genCost
    rw [single_time ht _ (fun s hst => by simp [spread, oneMore, hst])]
    simp [ha, spread, oneMore, hp.noCommitment]
  constructor
  · intro hup
    have h1 := gain_gen hw hl hP hs hwt old g hg (oneMore "p" t) (fun rs hrs q hq => by
      obtain ⟨cap, hc, rfl⟩ := Option.map_eq_some_iff.mp hrs
      rw [hsum.1, hsum.2, sumRows_none, commit_none hp.noCommitment] at hq
      simp only [List.map_nil, List.append_nil, List.mem_append] at hq
      rcases hq with (hq | hq) | hq
      · exact admissible_absent _ _ _ (cap_absent hc _ (by simp [oneMore]) (by simp [oneMore]) q hq)
      · obtain ⟨q', hq', rfl⟩ := List.mem_map.mp hq
        exact plain_more hp _ t hup q' hq'
      · refine admissible_absent _ _ _ (set_absent _ (fun s hv => ?_) q hq)
        have : s ≠ t := fun e => hv (e ▸ hset)
        simp [oneMore, this])
    rwa [hrev, hcost] at h1
  · intro hlo
    have h1 := gain_gen hw hl hP hs hwt old g hg (fun v => - oneMore "p" t v) (fun rs hrs q hq => by
      obtain ⟨cap, hc, rfl⟩ := Option.map_eq_some_iff.mp hrs
      rw [hsum.1, hsum.2, sumRows_none, commit_none hp.noCommitment] at hq
      simp only [List.map_nil, List.append_nil, List.mem_append] at hq
      rcases hq with (hq | hq) | hq
      · exact admissible_absent _ _ _ (cap_absent hc (fun v => - oneMore "p" t v) (by simp [oneMore]) (by simp [oneMore]) q hq)
      · obtain ⟨q', hq', rfl⟩ := List.mem_map.mp hq
        exact plain_less hp _ t hlo q' hq'
      · refine admissible_absent _ _ _ (set_absent (fun v => - oneMore "p" t v) (fun s hv => ?_) q hq)
        have : s ≠ t := fun e => hv (e ▸ hset)
        simp [oneMore, this])
    rw [rev_neg_gen, cost_neg_gen, coupled_neg other mu "Generator" g.name (spread (oneMore "p" t)) _ (fun v => rfl),
      hrev, hcost] at h1
    linarith

/-- The peaker earns its marginal cost of 12 and the charge for its emissions. -/
example : (1 : ℚ) * (1 * (179 / 10)) - 59 / 10 = 1 * 12 := by
  have h := merit_order_gen exSound exLinear exModel_eq exSolved exWeight (fun _ _ => 7) exPeaker (by simp [exNet]) (exPlain false 20)
    ⟨rfl, rfl⟩ 1 (by decide) rfl rfl
  have e1 : weight exNet 1 = 1 := by decide +kernel
  have e2 : coupled exOther exMu "Generator" exPeaker.name (spread (oneMore "p" 1)) = - (59 / 10) := by decide +kernel
  have e3 : busPrice exNet 7 (exLam exPeaker.bus 1) 1 = 179 / 10 := by decide +kernel
  rw [e1, e2, e3] at h
  have h1 := h.1 (by decide +kernel)
  have h2 := h.2 (by decide +kernel)
  simp only [exPeaker, exCosts] at h1 h2
  linarith

/-- A peaker which may stand still makes no loss. -/
example : genCost exNet exPeaker exVal ≤ genRevenue exNet exPeaker (atPrice exNet (fun _ _ => 7) exLam) exVal +
    coupled exOther exMu "Generator" exPeaker.name exVal :=
  no_loss_gen exSound exLinear exModel_eq exSolved exWeight _ exPeaker (by simp [exNet])
    ⟨exIdle false 20 (by norm_num) 2, rfl, exIdleCap 0, fun t x h => (by cases h), fun x h => (by cases h), fun x h => (by cases h)⟩

/-- What a link earns with one unit taken in at the first bus. -/
def spreadPrice (w : WNet F) (old lam : Name → Nat → F) (g : LinkW F) (t : Nat) : F :=
  g.eff t * busPrice w (old g.bus1 t) (lam g.bus1 t) t - busPrice w (old g.bus0 t) (lam g.bus0 t) t +
    (g.extra.map (fun e => if e.1 = "" then 0 else e.2 t * busPrice w (old e.1 t) (lam e.1 t) t)).sum

/-- C109 for links: between its limits the link's marginal cost is the difference of the prices. -/
theorem merit_order_link {w : WNet F} (hw : Sound w) (hl : LinearCosts w) {other : List (Con WVar F)} {P : Program F}
    (hP : createModel w other = some P) {val : WVar → F} {lam : Name → Nat → F} {mu : List F} (hs : Solved P val lam mu)
    (hwt : ∀ t < w.len, weight w t ≠ 0) (old : Name → Nat → F) (g : LinkW F) (hg : g ∈ w.links) (hp : Plain g.unit)
    (t : Nat) (ht : t < w.len) (ha : g.unit.active t = true) (hset : g.pSet t = none) :
    (val (.of "Link" g.name (.op "p" t)) < limit g.unit (g.unit.maxPu t) (val (.of "Link" g.name .cap)) →
      weight w t * spreadPrice w old lam g t +
        coupled other mu "Link" g.name (spread (oneMore "p" t)) ≤ weight w t * g.costs.marginal t) ∧
    (limit g.unit (g.unit.minPu t) (val (.of "Link" g.name .cap)) < val (.of "Link" g.name (.op "p" t)) →
      weight w t * g.costs.marginal t ≤ weight w t * spreadPrice w old lam g t +
        coupled other mu "Link" g.name (spread (oneMore "p" t))) := by
  have hrev : linkRevenue w g (atPrice w old lam) (spread (oneMore "p" t)) = weight w t * spreadPrice w old lam g t := by
    unfold linkRevenue
    rw [single_time ht _ (fun s hst => by simp [spread, oneMore, hst])]
    simp only [ha, spread, oneMore, if_true, atPrice, spreadPrice, mul_one]
    have : (g.extra.map (fun e => if e.1 = "" then 0 else e.2 t * (weight w t * busPrice w (old e.1 t) (lam e.1 t) t))).sum =
        weight w t * (g.extra.map (fun e => if e.1 = "" then 0 else e.2 t * busPrice w (old e.1 t) (lam e.1 t) t)).sum := by
      rw [← List.sum_map_mul_left]
      congr 1
      apply List.map_congr_left
      intro e _
      split
      · simp
      · ring
    rw [this]
    ring
  have hcost : linkCost w g (spread (oneMore "p" t)) = weight w t * g.costs.marginal t := by
    unfold linkCost
    rw [single_time ht _ (fun s hst => by simp [spread, oneMore, hst])]
    simp [ha, spread, oneMore, hp.noCommitment]
  constructor
  · intro hup
    have h1 := gain_link hw hl hP hs hwt old g hg (oneMore "p" t) (fun rs hrs q hq => by
      obtain ⟨cap, hc, rfl⟩ := Option.map_eq_some_iff.mp hrs
      rw [commit_none hp.noCommitment] at hq
      simp only [List.append_nil, List.mem_append] at hq
      rcases hq with (hq | hq) | hq
      · exact admissible_absent _ _ _ (cap_absent hc _ (by simp [oneMore]) (by simp [oneMore]) q hq)
      · obtain ⟨q', hq', rfl⟩ := List.mem_map.mp hq
        exact plain_more hp _ t hup q' hq'
      · refine admissible_absent _ _ _ (set_absent _ (fun s hv => ?_) q hq)
        have : s ≠ t := fun e => hv (e ▸ hset)
        simp [oneMore, this])
    rwa [hrev, hcost] at h1
  · intro hlo
    have h1 := gain_link hw hl hP hs hwt old g hg (fun v => - oneMore "p" t v) (fun rs hrs q hq => by
      obtain ⟨cap, hc, rfl⟩ := Option.map_eq_some_iff.mp hrs
      rw [commit_none hp.noCommitment] at hq
      simp only [List.append_nil, List.mem_append] at hq
      rcases hq with (hq | hq) | hq
      · exact admissible_absent _ _ _ (cap_absent hc (fun v => - oneMore "p" t v) (by simp [oneMore]) (by simp [oneMore]) q hq)
      · obtain ⟨q', hq', rfl⟩ := List.mem_map.mp hq
        exact plain_less hp _ t hlo q' hq'
      · refine admissible_absent _ _ _ (set_absent (fun v => - oneMore "p" t v) (fun s hv => ?_) q hq)
        have : s ≠ t := fun e => hv (e ▸ hset)
        simp [oneMore, this])
    rw [rev_neg_link, cost_neg_link, coupled_neg other mu "Link" g.name (spread (oneMore "p" t)) _ (fun v => rfl),
      hrev, hcost] at h1
    linarith

/-- The link runs below its limit in the second snapshot: its marginal cost is the difference of the prices. -/
example : spreadPrice exNet (fun _ _ => 7) exLam exLink 1 = 1 := by
  have h := merit_order_link exSound exLinear exModel_eq exSolved exWeight (fun _ _ => 7) exLink (by simp [exNet]) (exPlain true 0)
    1 (by decide) rfl rfl
  have e1 : weight exNet 1 = 1 := by decide +kernel
  have e2 : coupled exOther exMu "Link" exLink.name (spread (oneMore "p" 1)) = 0 := by decide +kernel
  rw [e1, e2] at h
  have h1 := h.1 (by decide +kernel)
  have h2 := h.2 (by decide +kernel)
  simp only [exLink, exCosts] at h1 h2 ⊢
  linarith

/-! ## C110: the price is what more load costs -/

/-- The rows of the nodal balance hold exactly if at every bus and snapshot supply meets demand. -/
theorem balance_iff {w : WNet F} (hw : Sound w) {bal : List ((Name × Nat) × Con WVar F)} (h : balanceRows w = some bal)
    (x : WVar → F) : Feasible x (bal.map (·.2)) ↔ ∀ t < w.len, ∀ b ∈ w.buses,
      Nodal.supplied (nodal w t) (w.tangents != 0) (fun v => x (nodalVar t v)) b = Nodal.demanded (nodal w t) b := by
  unfold balanceRows at h
  obtain ⟨ls, hls, rfl⟩ := Option.map_eq_some_iff.mp h
  have hm := mapM_some_eq _ _ ls hls
  simp only [← List.mem_range]
  generalize List.range w.len = ts at hm hls ⊢
  clear hls h
  induction ts generalizing ls with
  | nil =>
    cases ls with
    | nil => simp [Feasible]
    | cons a b => simp at hm
  | cons t ts ih =>
    cases ls with
    | nil => simp at hm
    | cons l ls =>
      simp only [List.map_cons, List.cons.injEq] at hm
      obtain ⟨h1, h2⟩ := hm
      obtain ⟨rows, h3, h4⟩ := Option.map_eq_some_iff.mp h1
      have h5 : Nodal.createBalance (nodal w t) (w.tangents != 0) w.threshold = .ok rows := by
        cases hc : Nodal.createBalance (nodal w t) (w.tangents != 0) w.threshold with
        | error e => rw [hc] at h3; cases h3
        | ok r => rw [hc] at h3; injection h3 with h3; rw [h3]
      subst h4
      obtain ⟨-, rows', -, -, hiff⟩ := (Nodal.split_same_partial (nodal w t) (w.tangents != 0) w.threshold hw.noEmpty hw.buses
        (refs_known hw t)).1 rows h5
      have hone := hiff (fun v => x (nodalVar t v))
      rw [show (nodal w t).buses = w.buses from rfl] at hone
      have hsplit : Feasible x (List.map (·.2) (List.flatten (rows.map (fun r => ((r.1, t), remap (nodalVar t) r.2)) :: ls))) ↔
          Feasible (fun v => x (nodalVar t v)) (rows.map (·.2)) ∧ Feasible x (List.map (·.2) ls.flatten) := by
        unfold Feasible
        simp only [List.flatten_cons, List.map_append, List.mem_append, List.map_map]
        constructor
        · intro h
          refine ⟨fun c hc => ?_, fun c hc => h c (Or.inr hc)⟩
          obtain ⟨r, hr, rfl⟩ := List.mem_map.mp hc
          exact (holds_remap (nodalVar t) x r.2).mp (h _ (Or.inl (List.mem_map.mpr ⟨r, hr, rfl⟩)))
        · rintro ⟨ha, hb⟩ c (hc | hc)
          · obtain ⟨r, hr, rfl⟩ := List.mem_map.mp hc
            exact (holds_remap (nodalVar t) x r.2).mpr (ha _ (List.mem_map.mpr ⟨r, hr, rfl⟩))
          · exact hb c hc
      refine hsplit.trans ((and_congr hone (ih ls h2)).trans ?_)
      simp only [List.mem_cons, forall_eq_or_imp]

/-- Costs of a point in the objective. -/
theorem objective_cost {w : WNet F} (hl : LinearCosts w) {other : List (Con WVar F)} {P : Program F}
    (hP : createModel w other = some P) (x : WVar → F) (hx : Feasible x P.rows) :
    lin x P.linear + Objective.constant (objNet w) = Objective.systemCost (objNet w) (fun v => x (objVar v)) (weight w) := by
  obtain ⟨own, bal, o, -, -, h3, h4, -, -, h6⟩ := createModel_parts hP
  have hc : x .const = Objective.constant (objNet w) := by
    have := hx (constRow w) (by rw [h6]; simp)
    simpa [constRow, Con.holds, lin] using this
  have hq : o.quadratic = [] := by
    unfold Objective.objective at h3
    simp only at h3
    split at h3
    swap
    · cases h3
    split at h3
    · cases h3
    injection h3 with h3
    subst h3
    simp [quadratic_nil hl]
  rw [h4, lin_map_var]
  have hev : ∀ c ∈ ["Generator", "Link"], ∀ a ∈ (objNet w).assets c, 0 ≤ a.startUp ∧ 0 ≤ a.shutDown := by
    intro c hc a ha
    rcases List.mem_cons.mp hc with rfl | hc
    · rw [assets_gen] at ha
      obtain ⟨g, hg, rfl⟩ := List.mem_map.mp ha
      exact hl.genEvents g hg
    · rw [List.mem_singleton.mp hc, assets_link] at ha
      obtain ⟨g, hg, rfl⟩ := List.mem_map.mp ha
      exact hl.linkEvents g hg
  have := Objective.objective_is_cost_partial (objNet w) o h3 (fun v => x (objVar v)) hc (weight w) (weight_spec w)
      (fun c hc h => events_zero _ c _ (fun a ha => (hev c hc a ha).1) h)
      (fun c hc h => events_zero _ c _ (fun a ha => (hev c hc a ha).2) h)
  rw [← this]
  unfold Objective.Obj.value
  rw [hq]
  simp

/-- C110: let the loads of the network be others.  Whatever the dispatch then is, it costs at least what the optimum
costs now, and for every additional unit of demand the price of its bus.  So prices are what more load costs, and a
solution is cheapest among all feasible ones. -/
theorem price_is_marginal {w : WNet F} (hw : Sound w) (hl : LinearCosts w) {other : List (Con WVar F)} {P : Program F}
    (hP : createModel w other = some P) {val : WVar → F} {lam : Name → Nat → F} {mu : List F} (hs : Solved P val lam mu)
    (hwt : ∀ t < w.len, weight w t ≠ 0) (old : Name → Nat → F) (loads : List (LoadW F)) (hb : ∀ l ∈ loads, l.bus ∈ w.buses)
    {P' : Program F} (hP' : createModel { w with loads := loads } other = some P') (x : WVar → F)
    (hx : Feasible x (P'.balance.map (·.2) ++ P'.rows)) :
    totalCost w val +
      ((List.range w.len).map (fun t => (w.buses.map (fun b => weight w t * busPrice w (old b t) (lam b t) t *
        (drawn loads b t - drawn w.loads b t))).sum)).sum ≤ totalCost w x := by
  have hd1 : ∀ b t, drawn w.loads b t = Nodal.demanded (nodal w t) b := fun b t => (demanded_drawn w b t).symm
  have hd2 : ∀ b t, drawn loads b t = Nodal.demanded (nodal { w with loads := loads } t) b :=
    fun b t => (demanded_drawn { w with loads := loads } b t).symm
  simp only [hd1, hd2, ← system_total hl]
  obtain ⟨own, bal, o, h1, h2, h3, h4, -, h5, h6⟩ := createModel_parts hP
  obtain ⟨own', bal', o', h1', h2', h3', h4', -, h5', h6'⟩ := createModel_parts hP'
  have e1 : own' = own := by
    have : ownRows { w with loads := loads } = ownRows w := rfl
    rw [this, h1] at h1'
    exact (Option.some.inj h1').symm
  have hw' : Sound { w with loads := loads } := { hw with loadBus := hb }
  have hrows : P'.rows = P.rows := by rw [h6', h6, e1]; rfl
  have hxr : Feasible x P.rows := fun c hc => hx c (List.mem_append.mpr (Or.inr (hrows ▸ hc)))
  have hxb : Feasible x (bal'.map (·.2)) := fun c hc => hx c (List.mem_append.mpr (Or.inl (h5' ▸ hc)))
  have hsup := (balance_iff hw' h2' x).mp hxb
  have hvr : Feasible val P.rows := fun c hc => by
    obtain ⟨i, hi, rfl⟩ := List.mem_iff_getElem.mp hc
    have hlen := hs.len
    have : (P.rows[i], mu[i]'(by omega)) ∈ P.rows.zip mu := by
      refine List.mem_iff_getElem.mpr ⟨i, by simp [hi, hlen], ?_⟩
      simp
    exact hs.answer.feasible _ (List.mem_append.mpr (Or.inr this))
  have hvb : Feasible val (bal.map (·.2)) := fun c hc => by
    obtain ⟨r, hr, rfl⟩ := List.mem_map.mp hc
    exact hs.answer.feasible (r.2, lam r.1.1 r.1.2) (List.mem_append.mpr (Or.inl (List.mem_map.mpr ⟨r, h5 ▸ hr, rfl⟩)))
  have hval := (balance_iff hw h2 val).mp hvb
  rw [← objective_cost hl hP x hxr, ← objective_cost hl hP val hvr]
  have s1 := lin_of_stationary _ _ hs.answer.stationary x
  have s2 := lin_of_stationary _ _ hs.answer.stationary val
  rw [List.map_append, List.sum_append, List.map_map] at s1 s2
  have b1 := balance_sum hw h2 (fun b t s _ => lam b t * s) (fun b t d => by simp) x
  have b2 := balance_sum hw h2 (fun b t s _ => lam b t * s) (fun b t d => by simp) val
  rw [← h5] at b1 b2
  have s1' : lin x P.linear = ((List.range w.len).map (fun t => (w.buses.map (fun b => lam b t *
      Nodal.demanded (nodal { w with loads := loads } t) b)).sum)).sum +
      ((P.rows.zip mu).map (fun r => r.2 * lin x r.1.terms)).sum := by
    rw [s1]
    congr 1
    refine Eq.trans b1 ?_
    congr 1
    apply List.map_congr_left
    intro t ht
    congr 1
    apply List.map_congr_left
    intro b hb'
    have : Nodal.supplied (nodal w t) (w.tangents != 0) (fun v => x (nodalVar t v)) b =
        Nodal.demanded (nodal { w with loads := loads } t) b := hsup t (List.mem_range.mp ht) b hb'
    simp only [this]
  have s2' : lin val P.linear = ((List.range w.len).map (fun t => (w.buses.map (fun b => lam b t *
      Nodal.demanded (nodal w t) b)).sum)).sum + ((P.rows.zip mu).map (fun r => r.2 * lin val r.1.terms)).sum := by
    rw [s2]
    congr 1
    refine Eq.trans b2 ?_
    congr 1
    apply List.map_congr_left
    intro t ht
    congr 1
    apply List.map_congr_left
    intro b hb'
    simp only [hval t (List.mem_range.mp ht) b hb']
  have hrowsle : ((P.rows.zip mu).map (fun r => r.2 * lin val r.1.terms)).sum ≤
      ((P.rows.zip mu).map (fun r => r.2 * lin x r.1.terms)).sum := by
    refine List.sum_le_sum (fun r hr => ?_)
    have hmem := List.mem_append.mpr (Or.inr hr : r ∈ P.balance.map (fun r => (r.2, lam r.1.1 r.1.2)) ∨ r ∈ P.rows.zip mu)
    rw [slackness hs.answer r hmem]
    have := dual_gap hs.answer r hmem r.1.terms r.1.rhs x (hxr r.1 (mem_zip_left hr))
    rw [mul_sub] at this
    linarith
  have hprice : ((List.range w.len).map (fun t => (w.buses.map (fun b => weight w t * busPrice w (old b t) (lam b t) t *
        (Nodal.demanded (nodal { w with loads := loads } t) b - Nodal.demanded (nodal w t) b))).sum)).sum =
      ((List.range w.len).map (fun t => (w.buses.map (fun b => lam b t *
        Nodal.demanded (nodal { w with loads := loads } t) b)).sum)).sum -
      ((List.range w.len).map (fun t => (w.buses.map (fun b => lam b t * Nodal.demanded (nodal w t) b)).sum)).sum := by
    rw [← sum_sub_map]
    congr 1
    apply List.map_congr_left
    intro t ht
    rw [← sum_sub_map]
    congr 1
    apply List.map_congr_left
    intro b _
    have := atPrice_eq old lam b t (hwt t (List.mem_range.mp ht))
    unfold atPrice at this
    rw [this]
    ring
  rw [hprice, s1', s2']
  linarith

/-- The example network with one more unit of load at B in the first snapshot. -/
def exMore : List (LoadW ℚ) := ⟨"B", -1, fun t => if t = 0 then 1 else 0, fun _ => true⟩ :: exNet.loads

theorem exMore_some : (createModel { exNet with loads := exMore } exOther).isSome = true := by decide +kernel

/-- Its optimum: the pump runs more and the tank less. -/
def exMoreVal (v : WVar) : ℚ :=
  if v = .of "Generator" "wind" .cap then 109 / 5 else if v = .of "Generator" "wind" (.op "p" 0) then 109 / 5
  else if v = .of "Generator" "wind" (.op "p" 1) then 109 / 10 else if v = .of "Link" "pump" .cap then 73 / 5
  else if v = .of "Link" "pump" (.op "p" 0) then 73 / 5 else if v = .of "Link" "pump" (.op "p" 1) then 37 / 10
  else if v = .of "Store" "tank" .cap then 23 / 10 else if v = .of "Store" "tank" (.op "e" 0) then 23 / 10
  else if v = .of "Store" "tank" (.op "p" 0) then -23 / 10 else if v = .of "Store" "tank" (.op "p" 1) then 23 / 20
  else exVal v

/-- An answer to it costs at least the price of 61/4 more, and this one costs just that. -/
example : 1953 / 5 + 61 / 4 ≤ totalCost exNet exMoreVal :=
  le_of_eq_of_le (by decide +kernel) (price_is_marginal exSound exLinear exModel_eq exSolved exWeight (fun _ _ => 7) exMore
    (by decide +kernel) (Option.some_get exMore_some).symm exMoreVal (by decide +kernel))

example : totalCost exNet exMoreVal = 1953 / 5 + 61 / 4 := by
  decide +kernel

/-! ## C111: no gain from moving energy in time -/

theorem next_only {a : Storage F} {w : Window} (hpp : perPeriod a w = false) {t u : Nat} (hu : u < w.len)
    (hau : a.active u = true) (hn : PrevIn (fun s => a.active s = true) u t) (s : Nat) (hs : s < w.len)
    (has : a.active s = true) (h : previous a w s = some t) : s = u := by
  obtain ⟨h1, h2⟩ := previous_whole a w hpp s hs has
  obtain ⟨htu, hat, hbetween⟩ := hn
  by_cases hex : ∃ r, PrevIn (fun s => a.active s = true) s r
  · obtain ⟨r, hr⟩ := hex
    have := (h1 r hr).1
    rw [h] at this
    obtain rfl := Option.some.inj this
    obtain ⟨hrs, -, hb⟩ := hr
    rcases lt_trichotomy s u with hlt | rfl | hgt
    · exact absurd has (hbetween s hrs hlt)
    · rfl
    · exact absurd hau (hb u htu hgt)
  · have h3 := h2 hex
    cases hc : a.cyclic with
    | false =>
      rw [hc] at h3
      simp only [Bool.false_eq_true, if_false] at h3
      rw [h3.1] at h
      cases h
    | true =>
      rw [hc] at h3
      simp only [if_true] at h3
      obtain ⟨r, hr⟩ := lastIn_exists (fun s => a.active s = true) w.len u hu hau
      have := (h3 r hr).1
      rw [h] at this
      obtain rfl := Option.some.inj this
      exact absurd hau (hr.2.2 u htu hu)

/-- One more unit of energy in a store from `t` to the next snapshot `u`. -/
def carry (a : Storage F) (t u : Nat) (v : Loc) : F :=
  if v = .op "e" t then 1 else if v = .op "p" t then - (1 / a.eh t) else if v = .op "p" u then a.keep u / a.eh u else 0

omit [LinearOrder F] [IsStrictOrderedRing F] in
theorem carry_e (a : Storage F) (t u s : Nat) : carry a t u (.op "e" s) = if s = t then 1 else 0 := by
  unfold carry
  by_cases h : s = t <;> simp [h]

omit [LinearOrder F] [IsStrictOrderedRing F] in
theorem carry_p (a : Storage F) (t u s : Nat) :
    carry a t u (.op "p" s) = if s = t then - (1 / a.eh t) else if s = u then a.keep u / a.eh u else 0 := by
  unfold carry
  simp

omit [LinearOrder F] [IsStrictOrderedRing F] in
theorem carry_cap (a : Storage F) (t u : Nat) : carry a t u .cap = 0 ∧ carry a t u .mod = 0 := by
  unfold carry
  simp

theorem carry_balance {a : Storage F} {w : Window} (hpp : perPeriod a w = false) {t u : Nat} (hu : u < w.len)
    (hau : a.active u = true) (hn : PrevIn (fun s => a.active s = true) u t) (he : a.eh t ≠ 0) (heu : a.eh u ≠ 0)
    (q : Con EVar F) (hq : q ∈ storeCons a w) : q.sense = .eq ∧ lin (fun v => carry a t u (storeLoc v)) q.terms = 0 := by
  unfold storeCons at hq
  simp only [List.mem_flatMap, List.mem_range] at hq
  obtain ⟨s, hs, hq⟩ := hq
  split at hq
  swap
  · cases hq
  rename_i has
  rw [List.mem_singleton.mp hq]
  refine ⟨rfl, ?_⟩
  have htu := hn.1
  have hprev : (s = u → previous a w s = some t) ∧ (previous a w s = some t → s = u) := by
    refine ⟨?_, next_only hpp hu hau hn s hs has⟩
    rintro rfl
    exact ((previous_whole a w hpp s hs has).1 t hn).1
  simp only [lin, List.map_append, List.map_cons, List.map_nil, List.sum_append, List.sum_cons, List.sum_nil, storeLoc, carry_e,
    carry_p, add_zero]
  by_cases h1 : s = t
  · have h2 : ¬ s = u := by omega
    have h3 : previous a w s ≠ some t := fun h => h2 (hprev.2 h)
    cases hp : previous a w s with
    | none => subst h1; simp; field_simp; ring
    | some r =>
      have : r ≠ t := fun e => h3 (by rw [hp, e])
      subst h1
      simp [this, storeLoc, carry_e]; field_simp; ring
  · by_cases h2 : s = u
    · rw [hprev.1 h2]
      subst h2
      simp [h1, storeLoc, carry_e]; field_simp; ring
    · have h3 : previous a w s ≠ some t := fun h => h2 (hprev.2 h)
      cases hp : previous a w s with
      | none => simp [h1, h2]
      | some r =>
        have : r ≠ t := fun e => h3 (by rw [hp, e])
        simp [h1, h2, this, storeLoc, carry_e]

/-- A row of bounds, for a change of the variable only. -/
theorem bound_dir {len : Nat} {c : Accessor.Cls} {attr : Accessor.Attr'} (hc : Accessor.passive c = false) {var : Name}
    {a : Nat → Accessor.Asset F} (x d : Loc → F) (hd : d .cap = 0)
    (hup : ∀ s < len, (a s).active = true → 0 < d (.op var s) →
      x (.op var s) < (Accessor.boundsPu c attr (a s)).2 * (if (a s).ext then x .cap else (a s).nom))
    (hlo : ∀ s < len, (a s).active = true → d (.op var s) < 0 →
      (Accessor.boundsPu c attr (a s)).1 * (if (a s).ext then x .cap else (a s).nom) < x (.op var s))
    (q : Con Loc F) (hq : q ∈ boundRows len c attr var false a) : Admissible x d q := by
  obtain ⟨s, hs, r, hr, rfl⟩ := mem_boundRows q hq
  unfold Accessor.opRows Accessor.fixRows Accessor.extRows at hr
  have hl : ∀ k : F, Accessor.lossTm c false k = [] := fun k => by simp [Accessor.lossTm]
  simp only [hl] at hr
  cases ha : (a s).active with
  | false => simp [ha] at hr
  | true =>
    have hup := hup s hs ha
    have hlo := hlo s hs ha
    cases he : (a s).ext with
    | false =>
      simp only [he, ha, Bool.false_or, Bool.not_true, Bool.false_eq_true, if_false, Bool.not_false, Bool.true_or, if_true,
        List.append_nil, List.mem_cons, List.not_mem_nil, or_false] at hr hup hlo
      rcases hr with rfl | rfl <;> intro hb <;>
        simp only [remap, lin, boundLoc, List.map_cons, List.map_nil, List.sum_cons, List.sum_nil, one_mul, add_zero] at hb ⊢
      · exact le_of_not_gt (fun h => absurd hb (hlo h).ne')
      · exact le_of_not_gt (fun h => absurd hb (hup h).ne)
    | true =>
      simp only [he, ha, Bool.true_or, if_true, List.nil_append, Bool.not_true, Bool.false_or, Bool.false_eq_true, if_false,
        List.mem_cons, List.not_mem_nil, or_false] at hr hup hlo
      rcases hr with rfl | rfl <;> intro hb <;>
        simp only [remap, lin, boundLoc, List.map_cons, List.map_nil, List.sum_cons, List.sum_nil, one_mul, add_zero, hd,
          mul_zero] at hb ⊢
      · exact le_of_not_gt (fun h => by have := hlo h; linarith)
      · exact le_of_not_gt (fun h => by have := hup h; linarith)

/-- Value of energy that a store gives away at a snapshot. -/
def netPrice (w : WNet F) (old lam : Name → Nat → F) (bus : Name) (sign marginal : F) (t : Nat) : F :=
  weight w t * (sign * busPrice w (old bus t) (lam bus t) t - marginal)

omit [LinearOrder F] [IsStrictOrderedRing F] in
theorem two_times {len t u : Nat} (ht : t < len) (hu : u < len) (htu : t ≠ u) (f : Nat → F)
    (h : ∀ s, s ≠ t → s ≠ u → f s = 0) : ((List.range len).map f).sum = f t + f u := by
  have h1 : ((List.range len).map f).sum = ((List.range len).map (fun s => if s = t then f t else 0)).sum +
      ((List.range len).map (fun s => if s = u then f u else 0)).sum := by
    rw [← List.sum_map_add]
    congr 1
    apply List.map_congr_left
    intro s _
    by_cases h1 : s = t
    · subst h1; simp [htu]
    · by_cases h2 : s = u
      · subst h2; simp [h1]
      · simp [h1, h2, h s h1 h2]
  rw [h1, single_time ht _ (fun s hs => by simp [hs]), single_time hu _ (fun s hs => by simp [hs])]
  simp

/-- C111: at an optimum, let `u` be the next snapshot after `t`.  If the store is not full at `t`, energy kept until `u`
is not worth more there than at `t`, storage costs included; if it is not empty, not less. -/
theorem arbitrage_store {w : WNet F} (hw : Sound w) (hl : LinearCosts w) {other : List (Con WVar F)} {P : Program F}
    (hP : createModel w other = some P) {val : WVar → F} {lam : Name → Nat → F} {mu : List F} (hs : Solved P val lam mu)
    (hwt : ∀ t < w.len, weight w t ≠ 0) (old : Name → Nat → F) (g : StoreW F) (hg : g ∈ w.stores)
    (hone : w.multi = false) (t u : Nat) (hu : u < w.len) (hau : g.storage.active u = true)
    (hn : PrevIn (fun s => g.storage.active s = true) u t) (het : g.storage.eh t ≠ 0) (heu : g.storage.eh u ≠ 0)
    (hset : g.eSet t = none) :
    (val (.of "Store" g.name (.op "e" t)) < g.maxPu t * (if g.ext then val (.of "Store" g.name .cap) else g.nom) →
      netPrice w old lam g.bus g.sign (g.costs.marginal u) u * (g.storage.keep u / g.storage.eh u) +
        coupled other mu "Store" g.name (spread (carry g.storage t u)) ≤
      netPrice w old lam g.bus g.sign (g.costs.marginal t) t / g.storage.eh t + weight w t * g.costs.marginalStorage t) ∧
    (g.minPu t * (if g.ext then val (.of "Store" g.name .cap) else g.nom) < val (.of "Store" g.name (.op "e" t)) →
      netPrice w old lam g.bus g.sign (g.costs.marginal t) t / g.storage.eh t + weight w t * g.costs.marginalStorage t ≤
      netPrice w old lam g.bus g.sign (g.costs.marginal u) u * (g.storage.keep u / g.storage.eh u) +
        coupled other mu "Store" g.name (spread (carry g.storage t u))) := by
  have hpp : perPeriod g.storage ⟨w.len, w.multi, w.period⟩ = false := by simp [perPeriod, hone]
  have htu := hn.1
  have hat : g.storage.active t = true := hn.2.1
  have ht : t < w.len := by omega
  have htu' : u ≠ t := by omega
  have hrev : storeRevenue w g (atPrice w old lam) (spread (carry g.storage t u)) =
      - (weight w t * (g.sign * busPrice w (old g.bus t) (lam g.bus t) t)) / g.storage.eh t +
      weight w u * (g.sign * busPrice w (old g.bus u) (lam g.bus u) u) * (g.storage.keep u / g.storage.eh u) := by
    unfold storeRevenue
    rw [two_times ht hu htu'.symm _ (fun s h1 h2 => by simp [spread, carry_p, h1, h2])]
    simp only [hat, hau, if_true, spread, carry_p, atPrice, htu', if_false]
    ring
  have hcost : storeCost w g (spread (carry g.storage t u)) =
      - (weight w t * g.costs.marginal t) / g.storage.eh t + weight w t * g.costs.marginalStorage t +
      weight w u * g.costs.marginal u * (g.storage.keep u / g.storage.eh u) := by
    unfold storeCost
    rw [two_times ht hu htu'.symm _ (fun s h1 h2 => by simp [spread, carry_p, carry_e, h1, h2])]
    simp only [hat, hau, if_true, spread, carry_p, carry_e, carry_cap, htu', if_false, mul_zero, ite_self]
    ring
  have hbal := carry_balance (a := g.storage) (w := ⟨w.len, w.multi, w.period⟩) hpp hu hau hn het heu
  constructor
  · intro hup
    have h1 := gain_store hw hl hP hs hwt old g hg (carry g.storage t u) (fun rs hrs q hq => by
      obtain ⟨cap, hc, rfl⟩ := Option.map_eq_some_iff.mp hrs
      simp only [List.mem_append] at hq
      rcases hq with ((hq | hq) | hq) | hq
      · exact admissible_absent _ _ _ (cap_absent hc _ (carry_cap _ t u).1 (carry_cap _ t u).2 q hq)
      · refine bound_dir (by rfl) _ _ (carry_cap _ t u).1 (fun s hs ha hpos => ?_) (fun s hs ha hneg => ?_) q hq
        · rw [carry_e] at hpos
          by_cases hst : s = t
          · subst hst; exact hup
          · simp [hst] at hpos
        · rw [carry_e] at hneg
          exfalso
          split at hneg
          · linarith
          · exact lt_irrefl _ hneg
      · refine admissible_absent _ _ _ (set_absent _ (fun s hv => ?_) q hq)
        have : s ≠ t := fun e => hv (e ▸ hset)
        rw [carry_e, if_neg this]
      · obtain ⟨q', hq', rfl⟩ := List.mem_map.mp hq
        intro _
        rw [lin_remap, (hbal q' hq').2]
        simp [remap, (hbal q' hq').1])
    rw [hrev, hcost] at h1
    unfold netPrice
    linear_combination h1
  · intro hlo
    have h1 := gain_store hw hl hP hs hwt old g hg (fun v => - carry g.storage t u v) (fun rs hrs q hq => by
      obtain ⟨cap, hc, rfl⟩ := Option.map_eq_some_iff.mp hrs
      simp only [List.mem_append] at hq
      rcases hq with ((hq | hq) | hq) | hq
      · exact admissible_absent _ _ _ (cap_absent hc (fun v => - carry g.storage t u v) (by simp [carry_cap])
          (by simp [carry_cap]) q hq)
      · refine bound_dir (by rfl) _ _ (by simp [carry_cap]) (fun s hs ha hpos => ?_) (fun s hs ha hneg => ?_) q hq
        · rw [carry_e] at hpos
          exfalso
          split at hpos
          · linarith
          · simp at hpos
        · rw [carry_e] at hneg
          by_cases hst : s = t
          · subst hst; exact hlo
          · simp [hst] at hneg
      · refine admissible_absent _ _ _ (set_absent (fun v => - carry g.storage t u v) (fun s hv => ?_) q hq)
        have : s ≠ t := fun e => hv (e ▸ hset)
        rw [carry_e, if_neg this, neg_zero]
      · obtain ⟨q', hq', rfl⟩ := List.mem_map.mp hq
        intro _
        rw [lin_remap, lin_neg (fun v => carry g.storage t u (storeLoc v)), (hbal q' hq').2]
        simp [remap, (hbal q' hq').1])
    rw [rev_neg_store, cost_neg_store, coupled_neg other mu "Store" g.name (spread (carry g.storage t u)) _ (fun v => rfl),
      hrev, hcost] at h1
    unfold netPrice
    linear_combination h1

/-- The tank is not empty after the first snapshot. -/
example : (61 : ℚ) / 4 + 1 / 2 ≤ 67 / 2 * (1 / 2) := by
  have h := (arbitrage_store exSound exLinear exModel_eq exSolved exWeight (fun _ _ => 7) exStore (by simp [exNet]) rfl 0 1 (by decide)
    rfl ⟨by decide, rfl, fun r h1 h2 => (by omega)⟩ (by decide +kernel) (by decide +kernel) rfl).2 (by decide +kernel)
  have e1 : netPrice exNet (fun _ _ => 7) exLam exStore.bus exStore.sign (exStore.costs.marginal 0) 0 / exStore.storage.eh 0 +
      weight exNet 0 * exStore.costs.marginalStorage 0 = 61 / 4 + 1 / 2 := by decide +kernel
  have e2 : netPrice exNet (fun _ _ => 7) exLam exStore.bus exStore.sign (exStore.costs.marginal 1) 1 *
      (exStore.storage.keep 1 / exStore.storage.eh 1) + coupled exOther exMu "Store" exStore.name (spread (carry exStore.storage 0 1)) =
      67 / 2 * (1 / 2) := by decide +kernel
  rw [e1, e2] at h
  exact h

/-- One more unit of energy in a storage unit from `t` to the next snapshot `u`. -/
def carryUnit (a : StorUnit F) (t u : Nat) (v : Loc) : F :=
  if v = .op "state_of_charge" t then 1 else if v = .op "p_store" t then 1 / (a.effStore t * a.eh t)
  else if v = .op "p_dispatch" u then a.keep u * a.effDispatch u / a.eh u else 0

omit [LinearOrder F] [IsStrictOrderedRing F] in
theorem carryUnit_soc (a : StorUnit F) (t u s : Nat) :
    carryUnit a t u (.op "state_of_charge" s) = if s = t then 1 else 0 := by
  unfold carryUnit; simp

omit [LinearOrder F] [IsStrictOrderedRing F] in
theorem carryUnit_store (a : StorUnit F) (t u s : Nat) :
    carryUnit a t u (.op "p_store" s) = if s = t then 1 / (a.effStore t * a.eh t) else 0 := by
  unfold carryUnit; simp

omit [LinearOrder F] [IsStrictOrderedRing F] in
theorem carryUnit_dispatch (a : StorUnit F) (t u s : Nat) :
    carryUnit a t u (.op "p_dispatch" s) = if s = u then a.keep u * a.effDispatch u / a.eh u else 0 := by
  unfold carryUnit; simp

omit [LinearOrder F] [IsStrictOrderedRing F] in
theorem carryUnit_rest (a : StorUnit F) (t u : Nat) :
    carryUnit a t u .cap = 0 ∧ carryUnit a t u .mod = 0 ∧ ∀ s, carryUnit a t u (.op "spill" s) = 0 := by
  unfold carryUnit; simp

theorem carryUnit_balance {a : StorUnit F} {w : Window} (hpp : perPeriod a.toStorage w = false) {t u : Nat} (hu : u < w.len)
    (hau : a.active u = true) (hn : PrevIn (fun s => a.active s = true) u t) (he : a.eh t ≠ 0) (heu : a.eh u ≠ 0)
    (hes : a.effStore t ≠ 0) (hed : a.effDispatch u ≠ 0) (q : Con SVar F) (hq : q ∈ storageUnitCons a w) :
    q.sense = .eq ∧ lin (fun v => carryUnit a t u (sunitLoc v)) q.terms = 0 := by
  unfold storageUnitCons at hq
  simp only [List.mem_flatMap, List.mem_range] at hq
  obtain ⟨s, hs, hq⟩ := hq
  split at hq
  swap
  · cases hq
  rename_i has
  rw [List.mem_singleton.mp hq]
  refine ⟨rfl, ?_⟩
  have htu := hn.1
  have hprev : (s = u → previous a.toStorage w s = some t) ∧ (previous a.toStorage w s = some t → s = u) := by
    refine ⟨?_, next_only hpp hu hau hn s hs has⟩
    rintro rfl
    exact ((previous_whole a.toStorage w hpp s hs has).1 t hn).1
  have hspill : ((if hasSpill a s = true then [(- a.eh s, SVar.spill s)] else []).map
      (fun e => e.1 * carryUnit a t u (sunitLoc e.2))).sum = 0 := by
    split
    · simp [sunitLoc, carryUnit_rest]
    · simp
  simp only [lin, List.map_append, List.map_cons, List.map_nil, List.sum_append, List.sum_cons, List.sum_nil, hspill]
  simp only [sunitLoc, carryUnit_soc, carryUnit_store, carryUnit_dispatch, add_zero]
  by_cases h1 : s = t
  · have h2 : ¬ s = u := by omega
    have h3 : previous a.toStorage w s ≠ some t := fun h => h2 (hprev.2 h)
    cases hp : previous a.toStorage w s with
    | none => subst h1; simp [h2]; field_simp; ring
    | some r =>
      have : r ≠ t := fun e => h3 (by rw [hp, e])
      subst h1
      simp [this, h2, sunitLoc, carryUnit_soc]; field_simp; ring
  · by_cases h2 : s = u
    · rw [hprev.1 h2]
      subst h2
      simp [h1, sunitLoc, carryUnit_soc]; field_simp; ring
    · have h3 : previous a.toStorage w s ≠ some t := fun h => h2 (hprev.2 h)
      cases hp : previous a.toStorage w s with
      | none => simp [h1, h2]
      | some r =>
        have : r ≠ t := fun e => h3 (by rw [hp, e])
        simp [h1, h2, this, sunitLoc, carryUnit_soc]

/-- C111 for storage units: charging at `t` and discharging at the next snapshot `u`. -/
theorem arbitrage_unit {w : WNet F} (hw : Sound w) (hl : LinearCosts w) {other : List (Con WVar F)} {P : Program F}
    (hP : createModel w other = some P) {val : WVar → F} {lam : Name → Nat → F} {mu : List F} (hs : Solved P val lam mu)
    (hwt : ∀ t < w.len, weight w t ≠ 0) (old : Name → Nat → F) (g : UnitW F) (hg : g ∈ w.units)
    (hone : w.multi = false) (t u : Nat) (hu : u < w.len) (hau : g.storage.active u = true)
    (hn : PrevIn (fun s => g.storage.active s = true) u t) (het : 0 < g.storage.eh t) (heu : 0 < g.storage.eh u)
    (hes : 0 < g.storage.effStore t) (hed : 0 < g.storage.effDispatch u) (hk : 0 ≤ g.storage.keep u) (hset : g.socSet t = none)
    (cap : F) (hcap : cap = if g.ext then val (.of "StorageUnit" g.name .cap) else g.nom) :
    (val (.of "StorageUnit" g.name (.op "p_store" t)) < - g.minPu t * cap →
      val (.of "StorageUnit" g.name (.op "state_of_charge" t)) < g.maxHours * cap →
      val (.of "StorageUnit" g.name (.op "p_dispatch" u)) < g.maxPu u * cap →
      netPrice w old lam g.bus g.sign (g.costs.marginal u) u *
          (g.storage.keep u * g.storage.effDispatch u / g.storage.eh u) +
        coupled other mu "StorageUnit" g.name (spread (carryUnit g.storage t u)) ≤
      netPrice w old lam g.bus g.sign 0 t / (g.storage.effStore t * g.storage.eh t) + weight w t * g.costs.marginalStorage t) ∧
    (0 < val (.of "StorageUnit" g.name (.op "p_store" t)) → 0 < val (.of "StorageUnit" g.name (.op "state_of_charge" t)) →
      0 < val (.of "StorageUnit" g.name (.op "p_dispatch" u)) →
      netPrice w old lam g.bus g.sign 0 t / (g.storage.effStore t * g.storage.eh t) + weight w t * g.costs.marginalStorage t ≤
      netPrice w old lam g.bus g.sign (g.costs.marginal u) u *
          (g.storage.keep u * g.storage.effDispatch u / g.storage.eh u) +
        coupled other mu "StorageUnit" g.name (spread (carryUnit g.storage t u))) := by
  have hpp : perPeriod g.storage.toStorage ⟨w.len, w.multi, w.period⟩ = false := by simp [perPeriod, hone]
  have htu := hn.1
  have hat : g.storage.active t = true := hn.2.1
  have ht : t < w.len := by omega
  have htu' : u ≠ t := by omega
  have hd1 : 0 < 1 / (g.storage.effStore t * g.storage.eh t) := by positivity
  have hd2 : 0 ≤ g.storage.keep u * g.storage.effDispatch u / g.storage.eh u := by positivity
  have hrev : unitRevenue w g (atPrice w old lam) (spread (carryUnit g.storage t u)) =
      - (weight w t * (g.sign * busPrice w (old g.bus t) (lam g.bus t) t)) / (g.storage.effStore t * g.storage.eh t) +
      weight w u * (g.sign * busPrice w (old g.bus u) (lam g.bus u) u) *
        (g.storage.keep u * g.storage.effDispatch u / g.storage.eh u) := by
    unfold unitRevenue
    rw [two_times ht hu htu'.symm _ (fun s h1 h2 => by simp [spread, carryUnit_dispatch, carryUnit_store, h1, h2])]
    simp only [hat, hau, if_true, spread, carryUnit_dispatch, carryUnit_store, atPrice, htu', htu'.symm, if_false]
    ring
  have hcost : unitCost w g (spread (carryUnit g.storage t u)) = weight w t * g.costs.marginalStorage t +
      weight w u * g.costs.marginal u * (g.storage.keep u * g.storage.effDispatch u / g.storage.eh u) := by
    unfold unitCost
    rw [two_times ht hu htu'.symm _ (fun s h1 h2 => by
      simp [spread, carryUnit_dispatch, carryUnit_soc, carryUnit_rest, h1, h2])]
    simp only [hat, hau, if_true, spread, carryUnit_dispatch, carryUnit_soc, carryUnit_rest, htu', htu'.symm, if_false, mul_zero,
      ite_self]
    ring
  have hbal := carryUnit_balance (a := g.storage) (w := ⟨w.len, w.multi, w.period⟩) hpp hu hau hn het.ne' heu.ne' hes.ne' hed.ne'
  have hspill : ∀ q ∈ (List.range w.len).flatMap (fun t => if hasSpill g.storage t then
      [(⟨[(1, .op "spill" t)], .ge, 0⟩ : Con Loc F), ⟨[(1, .op "spill" t)], .le, g.storage.inflow t⟩] else []),
      ∀ e ∈ q.terms, ∃ s, e.2 = .op "spill" s := by
    intro q hq
    simp only [List.mem_flatMap, List.mem_range] at hq
    obtain ⟨s, -, hq⟩ := hq
    split at hq
    · simp only [List.mem_cons, List.not_mem_nil, or_false] at hq
      rcases hq with rfl | rfl <;> (intro e he; rw [List.mem_singleton.mp he]; exact ⟨s, rfl⟩)
    · cases hq
  have hcapf : ∀ b : F, b * (if g.ext = true then val (.of "StorageUnit" g.name .cap) else g.nom) = b * cap := fun b => by rw [hcap]
  constructor
  · intro hup1 hup2 hup3
    have h1 := gain_unit hw hl hP hs hwt old g hg (carryUnit g.storage t u) (fun rs hrs q hq => by
      obtain ⟨cap', hc, rfl⟩ := Option.map_eq_some_iff.mp hrs
      simp only [List.mem_append] at hq
      rcases hq with (((((hq | hq) | hq) | hq) | hq) | hq) | hq
      · exact admissible_absent _ _ _ (cap_absent hc _ (carryUnit_rest _ t u).1 (carryUnit_rest _ t u).2.1 q hq)
      · refine bound_dir (by rfl) _ _ (carryUnit_rest _ t u).1 (fun s hs ha hpos => ?_) (fun s hs ha hneg => ?_) q hq
        · rw [carryUnit_dispatch] at hpos
          by_cases hst : s = u
          · subst hst
            refine lt_of_lt_of_eq hup3 ?_
            exact (hcapf _).symm
          · simp [hst] at hpos
        · rw [carryUnit_dispatch] at hneg
          exfalso
          split at hneg
          · exact absurd hneg (not_lt.mpr hd2)
          · exact lt_irrefl _ hneg
      · refine bound_dir (by rfl) _ _ (carryUnit_rest _ t u).1 (fun s hs ha hpos => ?_) (fun s hs ha hneg => ?_) q hq
        · rw [carryUnit_store] at hpos
          by_cases hst : s = t
          · subst hst
            refine lt_of_lt_of_eq hup1 ?_
            exact (hcapf _).symm
          · simp [hst] at hpos
        · rw [carryUnit_store] at hneg
          exfalso
          split at hneg
          · exact absurd hneg (not_lt.mpr hd1.le)
          · exact lt_irrefl _ hneg
      · refine bound_dir (by rfl) _ _ (carryUnit_rest _ t u).1 (fun s hs ha hpos => ?_) (fun s hs ha hneg => ?_) q hq
        · rw [carryUnit_soc] at hpos
          by_cases hst : s = t
          · subst hst
            refine lt_of_lt_of_eq hup2 ?_
            exact (hcapf _).symm
          · simp [hst] at hpos
        · rw [carryUnit_soc] at hneg
          exfalso
          split at hneg
          · linarith
          · exact lt_irrefl _ hneg
      · refine admissible_absent _ _ _ (set_absent _ (fun s hv => ?_) q hq)
        have : s ≠ t := fun e => hv (e ▸ hset)
        rw [carryUnit_soc, if_neg this]
      · obtain ⟨q', hq', rfl⟩ := List.mem_map.mp hq
        intro _
        rw [lin_remap, (hbal q' hq').2]
        simp [remap, (hbal q' hq').1]
      · refine admissible_absent _ _ _ (fun e he => ?_)
        obtain ⟨s, hs⟩ := hspill q hq e he
        rw [hs]
        exact (carryUnit_rest _ t u).2.2 s)
    rw [hrev, hcost] at h1
    unfold netPrice
    linear_combination h1
  · intro hlo1 hlo2 hlo3
    have h1 := gain_unit hw hl hP hs hwt old g hg (fun v => - carryUnit g.storage t u v) (fun rs hrs q hq => by
      obtain ⟨cap', hc, rfl⟩ := Option.map_eq_some_iff.mp hrs
      simp only [List.mem_append] at hq
      rcases hq with (((((hq | hq) | hq) | hq) | hq) | hq) | hq
      · exact admissible_absent _ _ _ (cap_absent hc (fun v => - carryUnit g.storage t u v) (by simp [carryUnit_rest])
          (by simp [carryUnit_rest]) q hq)
      · refine bound_dir (by rfl) _ _ (by simp [carryUnit_rest]) (fun s hs ha hpos => ?_) (fun s hs ha hneg => ?_) q hq
        · rw [carryUnit_dispatch] at hpos
          exfalso
          split at hpos
          · linarith
          · simp at hpos
        · rw [carryUnit_dispatch] at hneg
          by_cases hst : s = u
          · subst hst
            refine lt_of_eq_of_lt ?_ hlo3
            exact zero_mul _
          · simp [hst] at hneg
      · refine bound_dir (by rfl) _ _ (by simp [carryUnit_rest]) (fun s hs ha hpos => ?_) (fun s hs ha hneg => ?_) q hq
        · rw [carryUnit_store] at hpos
          exfalso
          split at hpos
          · linarith
          · simp at hpos
        · rw [carryUnit_store] at hneg
          by_cases hst : s = t
          · subst hst
            refine lt_of_eq_of_lt ?_ hlo1
            exact zero_mul _
          · simp [hst] at hneg
      · refine bound_dir (by rfl) _ _ (by simp [carryUnit_rest]) (fun s hs ha hpos => ?_) (fun s hs ha hneg => ?_) q hq
        · rw [carryUnit_soc] at hpos
          exfalso
          split at hpos
          · linarith
          · simp at hpos
        · rw [carryUnit_soc] at hneg
          by_cases hst : s = t
          · subst hst
            refine lt_of_eq_of_lt ?_ hlo2
            exact zero_mul _
          · simp [hst] at hneg
      · refine admissible_absent _ _ _ (set_absent (fun v => - carryUnit g.storage t u v) (fun s hv => ?_) q hq)
        have : s ≠ t := fun e => hv (e ▸ hset)
        rw [carryUnit_soc, if_neg this, neg_zero]
      · obtain ⟨q', hq', rfl⟩ := List.mem_map.mp hq
        intro _
        rw [lin_remap, lin_neg (fun v => carryUnit g.storage t u (sunitLoc v)), (hbal q' hq').2]
        simp [remap, (hbal q' hq').1]
      · refine admissible_absent _ _ _ (fun e he => ?_)
        obtain ⟨s, hs⟩ := hspill q hq e he
        rw [hs, (carryUnit_rest _ t u).2.2 s, neg_zero])
    rw [rev_neg_unit, cost_neg_unit, coupled_neg other mu "StorageUnit" g.name (spread (carryUnit g.storage t u)) _
      (fun v => rfl), hrev, hcost] at h1
    unfold netPrice
    linear_combination h1

/-- The battery is charged in the first snapshot and discharged in the second. -/
example : 139 / 40 / (1 / 2) ≤ 179 / 10 * ((1 : ℚ) / 2) := by
  have h := (arbitrage_unit exSound exLinear exModel_eq exSolved exWeight (fun _ _ => 7) exBattery (by simp [exNet]) rfl 0 1 (by decide)
    rfl ⟨by decide, rfl, fun r h1 h2 => (by omega)⟩ (by decide +kernel) (by decide +kernel) (by decide +kernel) (by decide +kernel)
    (by decide +kernel) rfl _ rfl).2 (by decide +kernel) (by decide +kernel) (by decide +kernel)
  have e1 : netPrice exNet (fun _ _ => 7) exLam exBattery.bus exBattery.sign 0 0 /
      (exBattery.storage.effStore 0 * exBattery.storage.eh 0) +
      weight exNet 0 * exBattery.costs.marginalStorage 0 = 139 / 40 / (1 / 2) := by decide +kernel
  have e2 : netPrice exNet (fun _ _ => 7) exLam exBattery.bus exBattery.sign (exBattery.costs.marginal 1) 1 *
      (exBattery.storage.keep 1 * exBattery.storage.effDispatch 1 / exBattery.storage.eh 1) +
      coupled exOther exMu "StorageUnit" exBattery.name (spread (carryUnit exBattery.storage 0 1)) =
      179 / 10 * (1 / 2) := by decide +kernel
  rw [e1, e2] at h
  exact h

end claims

end Verif.Opt.Whole
