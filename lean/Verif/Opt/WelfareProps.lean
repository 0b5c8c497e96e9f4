import Verif.Opt.ExistProps
import Verif.Opt.CommitProps

/-!
# Least costs and a market (C155)

A plan has least costs exactly if the balance holds and there are prices at which each asset, left to its own rules, could not earn more than it does.  The statement
speaks of the rules of `RulesProps.lean` and of costs and revenues only; rows, duals and the solver do not occur in it.
-/

namespace Verif.Opt.Whole.Exist

open Doc

variable {F : Type} [Field F] [LinearOrder F] [IsStrictOrderedRing F]

/-- Each asset earns at these prices at least what any other course within its own rules would earn. -/
structure Competitive (w : WNet F) (lam : Name → Nat → F) (x : WVar → F) : Prop where
  gens : ∀ g ∈ w.gens, ∀ y, GenRule w g y → genRevenue w g lam (spread y) - genCost w g (spread y) ≤ genRevenue w g lam x - genCost w g x
  links : ∀ g ∈ w.links, ∀ y, LinkRule w g y → linkRevenue w g lam (spread y) - linkCost w g (spread y) ≤ linkRevenue w g lam x - linkCost w g x
  stores : ∀ g ∈ w.stores, ∀ y, StoreRule w g y →
    storeRevenue w g lam (spread y) - storeCost w g (spread y) ≤ storeRevenue w g lam x - storeCost w g x
  units : ∀ g ∈ w.units, ∀ y, StorageRule w g y → unitRevenue w g lam (spread y) - unitCost w g (spread y) ≤ unitRevenue w g lam x - unitCost w g x
  lines : ∀ g ∈ w.lines, ∀ y, BranchRule w g y →
    branchRevenue w "Line" g lam (spread y) - branchCost w "Line" g (spread y) ≤ branchRevenue w "Line" g lam x - branchCost w "Line" g x
  trafos : ∀ g ∈ w.trafos, ∀ y, BranchRule w g y →
    branchRevenue w "Transformer" g lam (spread y) - branchCost w "Transformer" g (spread y) ≤
      branchRevenue w "Transformer" g lam x - branchCost w "Transformer" g x

/-- What all assets are paid. -/
def revenue (w : WNet F) (lam : Name → Nat → F) (x : WVar → F) : F :=
  (w.gens.map (fun g => genRevenue w g lam x)).sum + (w.links.map (fun g => linkRevenue w g lam x)).sum +
  (w.stores.map (fun g => storeRevenue w g lam x)).sum + (w.units.map (fun g => unitRevenue w g lam x)).sum +
  (w.lines.map (fun g => branchRevenue w "Line" g lam x)).sum + (w.trafos.map (fun g => branchRevenue w "Transformer" g lam x)).sum

/-- What is supplied to the buses by some variables is worth. -/
def part (w : WNet F) (lam : Name → Nat → F) (x : WVar → F) : F :=
  ((List.range w.len).map (fun t => (w.buses.map (fun b => lam b t *
    Nodal.supplied (nodal w t) (w.tangents != 0) (fun v => x (nodalVar t v)) b)).sum)).sum

omit [LinearOrder F] [IsStrictOrderedRing F] in
theorem sum_parts {α : Type} (w : WNet F) (lam : Name → Nat → F) (l : List α) (f : α → WVar → F) :
    ((List.range w.len).map (fun t => (w.buses.map (fun b => lam b t *
      (l.map (fun g => Nodal.supplied (nodal w t) (w.tangents != 0) (fun v => f g (nodalVar t v)) b)).sum)).sum)).sum =
      (l.map (fun g => part w lam (f g))).sum := by
  induction l with
  | nil => simp
  | cons g l ih =>
    simp only [List.map_cons, List.sum_cons, mul_add, List.sum_map_add]
    rw [ih]
    rfl

/-- The supply is what single assets supply. -/
theorem supplied_parts {w : WNet F} (hw : Sound w) (x : WVar → F) (t : Nat) (b : Name) :
    Nodal.supplied (nodal w t) (w.tangents != 0) (fun v => x (nodalVar t v)) b =
      (w.gens.map (fun g => Nodal.supplied (nodal w t) (w.tangents != 0) (fun v => only (ofAsset "Generator" g.name) x (nodalVar t v)) b)).sum +
      (w.stores.map (fun g => Nodal.supplied (nodal w t) (w.tangents != 0) (fun v => only (ofAsset "Store" g.name) x (nodalVar t v)) b)).sum +
      (w.units.map (fun g => Nodal.supplied (nodal w t) (w.tangents != 0) (fun v => only (ofAsset "StorageUnit" g.name) x (nodalVar t v)) b)).sum +
      (w.lines.map (fun g => Nodal.supplied (nodal w t) (w.tangents != 0) (fun v => only (ofAsset "Line" g.name) x (nodalVar t v)) b)).sum +
      (w.trafos.map (fun g => Nodal.supplied (nodal w t) (w.tangents != 0) (fun v => only (ofAsset "Transformer" g.name) x (nodalVar t v)) b)).sum +
      (w.links.map (fun g => Nodal.supplied (nodal w t) (w.tangents != 0) (fun v => only (ofAsset "Link" g.name) x (nodalVar t v)) b)).sum := by
  rw [List.map_congr_left (fun g hg => supplied_gen hw g hg x t b), List.map_congr_left (fun g hg => supplied_store hw g hg x t b),
    List.map_congr_left (fun g hg => supplied_unit hw g hg x t b), List.map_congr_left (fun g hg => supplied_line hw g hg x t b),
    List.map_congr_left (fun g hg => supplied_trafo hw g hg x t b), List.map_congr_left (fun g hg => supplied_link hw g hg x t b)]
  unfold Nodal.supplied nodal
  simp only [List.map_map, Function.comp_def, nodalVar]
  try rfl

/-- What all assets are paid is what the supply is worth. -/
theorem revenue_worth {w : WNet F} (hw : Sound w) (lam : Name → Nat → F) (x : WVar → F) : revenue w lam x = worth w lam x := by
  have h : worth w lam x = part w lam x := by
    unfold worth part
    simp only [supply_rule]
  rw [h]
  unfold part
  simp only [supplied_parts hw x, mul_add, List.sum_map_add]
  rw [sum_parts w lam w.gens, sum_parts w lam w.stores, sum_parts w lam w.units, sum_parts w lam w.lines, sum_parts w lam w.trafos,
    sum_parts w lam w.links]
  unfold part
  rw [List.map_congr_left (fun g hg => revenue_gen hw g hg x lam), List.map_congr_left (fun g hg => revenue_store hw g hg x lam),
    List.map_congr_left (fun g hg => revenue_unit hw g hg x lam), List.map_congr_left (fun g hg => revenue_line hw g hg x lam),
    List.map_congr_left (fun g hg => revenue_trafo hw g hg x lam), List.map_congr_left (fun g hg => revenue_link hw g hg x lam)]
  unfold revenue
  ring

/-! ## One asset changes its course -/

/-- The asset does something else, all others what they did. -/
def put (c a : Name) (y : Loc → F) (x : WVar → F) : WVar → F
  | .of c' a' v => if c' = c ∧ a' = a then y v else x (.of c' a' v)
  | .const => x .const

omit [LinearOrder F] [IsStrictOrderedRing F] in
theorem put_self (c a : Name) (y : Loc → F) (x : WVar → F) (v : Loc) : put c a y x (.of c a v) = y v := if_pos ⟨rfl, rfl⟩

omit [LinearOrder F] [IsStrictOrderedRing F] in
theorem put_cls {c c' : Name} (h : c' ≠ c) (a a' : Name) (y : Loc → F) (x : WVar → F) (v : Loc) : put c a y x (.of c' a' v) = x (.of c' a' v) :=
  if_neg (fun e => h e.1)

omit [LinearOrder F] [IsStrictOrderedRing F] in
theorem put_name (c : Name) {a a' : Name} (h : a' ≠ a) (y : Loc → F) (x : WVar → F) (v : Loc) : put c a y x (.of c a' v) = x (.of c a' v) :=
  if_neg (fun e => h e.2)

/-- Sums change by what the asset changes. -/
theorem sum_put {α : Type} (l : List α) (name : α → Name) (hn : (l.map name).Nodup) (g : α) (hg : g ∈ l) (f f' : α → F)
    (h : ∀ a ∈ l, name a ≠ name g → f' a = f a) : (l.map f').sum - (l.map f).sum = f' g - f g := by
  rw [← sum_sub_map]
  exact sum_single l name _ hn g hg (fun a ha hne => by rw [h a ha hne, sub_self])

/-- Costs less revenue of all assets. -/
theorem net_eq {w : WNet F} (hw : Sound w) (lam : Name → Nat → F) (x : WVar → F) : totalCost w x - worth w lam x =
    (w.gens.map (fun g => genCost w g x - genRevenue w g lam x)).sum + (w.links.map (fun g => linkCost w g x - linkRevenue w g lam x)).sum +
    (w.stores.map (fun g => storeCost w g x - storeRevenue w g lam x)).sum + (w.units.map (fun g => unitCost w g x - unitRevenue w g lam x)).sum +
    (w.lines.map (fun g => branchCost w "Line" g x - branchRevenue w "Line" g lam x)).sum +
    (w.trafos.map (fun g => branchCost w "Transformer" g x - branchRevenue w "Transformer" g lam x)).sum := by
  rw [← revenue_worth hw]
  unfold totalCost revenue
  simp only [sum_sub_map]
  ring

section
omit [IsStrictOrderedRing F]
variable (w : WNet F) (lam : Name → Nat → F) (x x' : WVar → F)

theorem gen_same (g : GenW F) (h : ∀ v, x' (.of "Generator" g.name v) = x (.of "Generator" g.name v)) :
    genCost w g x' - genRevenue w g lam x' = genCost w g x - genRevenue w g lam x := by simp only [genCost, genRevenue, h]

theorem link_same (g : LinkW F) (h : ∀ v, x' (.of "Link" g.name v) = x (.of "Link" g.name v)) :
    linkCost w g x' - linkRevenue w g lam x' = linkCost w g x - linkRevenue w g lam x := by simp only [linkCost, linkRevenue, h]

theorem store_same (g : StoreW F) (h : ∀ v, x' (.of "Store" g.name v) = x (.of "Store" g.name v)) :
    storeCost w g x' - storeRevenue w g lam x' = storeCost w g x - storeRevenue w g lam x := by simp only [storeCost, storeRevenue, h]

theorem unit_same (g : UnitW F) (h : ∀ v, x' (.of "StorageUnit" g.name v) = x (.of "StorageUnit" g.name v)) :
    unitCost w g x' - unitRevenue w g lam x' = unitCost w g x - unitRevenue w g lam x := by simp only [unitCost, unitRevenue, h]

theorem branch_same (c : Name) (g : BranchW F) (h : ∀ v, x' (.of c g.name v) = x (.of c g.name v)) :
    branchCost w c g x' - branchRevenue w c g lam x' = branchCost w c g x - branchRevenue w c g lam x := by
  simp only [branchCost, branchRevenue, h]

end

/-- No better course for all assets together, so none for one of them. -/
theorem alone {w : WNet F} (hw : Sound w) {lam : Name → Nat → F} {x : WVar → F} (hx : AssetRules w x)
    (h : ∀ z, AssetRules w z → totalCost w x - worth w lam x ≤ totalCost w z - worth w lam z) : Competitive w lam x := by
  simp only [net_eq hw] at h
  have key : ∀ (c a : Name) (y : Loc → F) (c' a' : Name), ¬ (c' = c ∧ a' = a) → (fun v => put c a y x (.of c' a' v)) = fun v => x (.of c' a' v) :=
    fun c a y c' a' hn => funext (fun v => if_neg hn)
  have self : ∀ (c a : Name) (y : Loc → F), (fun v => put c a y x (.of c a v)) = y := fun c a y => funext (put_self c a y x)
  have gs : ∀ (c a : Name) (y : Loc → F), c ≠ "Generator" → w.gens.map (fun g => genCost w g (put c a y x) - genRevenue w g lam (put c a y x)) =
      w.gens.map (fun g => genCost w g x - genRevenue w g lam x) := fun c a y hc =>
    List.map_congr_left (fun g _ => gen_same w lam _ _ g (fun v => put_cls hc.symm a g.name y x v))
  have ks : ∀ (c a : Name) (y : Loc → F), c ≠ "Link" → w.links.map (fun g => linkCost w g (put c a y x) - linkRevenue w g lam (put c a y x)) =
      w.links.map (fun g => linkCost w g x - linkRevenue w g lam x) := fun c a y hc =>
    List.map_congr_left (fun g _ => link_same w lam _ _ g (fun v => put_cls hc.symm a g.name y x v))
  have ss : ∀ (c a : Name) (y : Loc → F), c ≠ "Store" → w.stores.map (fun g => storeCost w g (put c a y x) - storeRevenue w g lam (put c a y x)) =
      w.stores.map (fun g => storeCost w g x - storeRevenue w g lam x) := fun c a y hc =>
    List.map_congr_left (fun g _ => store_same w lam _ _ g (fun v => put_cls hc.symm a g.name y x v))
  have us : ∀ (c a : Name) (y : Loc → F), c ≠ "StorageUnit" → w.units.map (fun g => unitCost w g (put c a y x) - unitRevenue w g lam (put c a y x)) =
      w.units.map (fun g => unitCost w g x - unitRevenue w g lam x) := fun c a y hc =>
    List.map_congr_left (fun g _ => unit_same w lam _ _ g (fun v => put_cls hc.symm a g.name y x v))
  have bs : ∀ (d : Name) (l : List (BranchW F)) (c a : Name) (y : Loc → F), c ≠ d →
      l.map (fun g => branchCost w d g (put c a y x) - branchRevenue w d g lam (put c a y x)) =
      l.map (fun g => branchCost w d g x - branchRevenue w d g lam x) := fun d l c a y hc =>
    List.map_congr_left (fun g _ => branch_same w lam _ _ d g (fun v => put_cls hc.symm a g.name y x v))
  have rules : ∀ (c a : Name) (y : Loc → F), (∀ g ∈ w.gens, "Generator" = c ∧ g.name = a → GenRule w g y) →
      (∀ g ∈ w.links, "Link" = c ∧ g.name = a → LinkRule w g y) → (∀ g ∈ w.stores, "Store" = c ∧ g.name = a → StoreRule w g y) →
      (∀ g ∈ w.units, "StorageUnit" = c ∧ g.name = a → StorageRule w g y) → (∀ g ∈ w.lines, "Line" = c ∧ g.name = a → BranchRule w g y) →
      (∀ g ∈ w.trafos, "Transformer" = c ∧ g.name = a → BranchRule w g y) → AssetRules w (put c a y x) := by
    intro c a y r1 r2 r3 r4 r5 r6
    refine ⟨?_, ?_, ?_, ?_, ?_, ?_⟩
    · intro g hg
      by_cases e : "Generator" = c ∧ g.name = a
      · obtain ⟨rfl, rfl⟩ := e; rw [self]; exact r1 g hg ⟨rfl, rfl⟩
      · rw [key _ _ _ _ _ e]; exact hx.gens g hg
    · intro g hg
      by_cases e : "Link" = c ∧ g.name = a
      · obtain ⟨rfl, rfl⟩ := e; rw [self]; exact r2 g hg ⟨rfl, rfl⟩
      · rw [key _ _ _ _ _ e]; exact hx.links g hg
    · intro g hg
      by_cases e : "Store" = c ∧ g.name = a
      · obtain ⟨rfl, rfl⟩ := e; rw [self]; exact r3 g hg ⟨rfl, rfl⟩
      · rw [key _ _ _ _ _ e]; exact hx.stores g hg
    · intro g hg
      by_cases e : "StorageUnit" = c ∧ g.name = a
      · obtain ⟨rfl, rfl⟩ := e; rw [self]; exact r4 g hg ⟨rfl, rfl⟩
      · rw [key _ _ _ _ _ e]; exact hx.units g hg
    · intro g hg
      by_cases e : "Line" = c ∧ g.name = a
      · obtain ⟨rfl, rfl⟩ := e; rw [self]; exact r5 g hg ⟨rfl, rfl⟩
      · rw [key _ _ _ _ _ e]; exact hx.lines g hg
    · intro g hg
      by_cases e : "Transformer" = c ∧ g.name = a
      · obtain ⟨rfl, rfl⟩ := e; rw [self]; exact r6 g hg ⟨rfl, rfl⟩
      · rw [key _ _ _ _ _ e]; exact hx.trafos g hg
  refine ⟨?_, ?_, ?_, ?_, ?_, ?_⟩
  · intro g hg y hy
    have hz := h _ (rules "Generator" g.name y (fun g' hg' e => by rw [List.inj_on_of_nodup_map hw.gens hg' hg e.2]; exact hy)
      (by simp) (by simp) (by simp) (by simp) (by simp))
    rw [ks _ _ _ (by simp), ss _ _ _ (by simp), us _ _ _ (by simp), bs _ _ _ _ _ (by simp), bs _ _ _ _ _ (by simp)] at hz
    have := sum_put w.gens (·.name) hw.gens g hg (fun g => genCost w g x - genRevenue w g lam x)
      (fun g' => genCost w g' (put "Generator" g.name y x) - genRevenue w g' lam (put "Generator" g.name y x))
      (fun a _ hn => gen_same w lam _ _ a (fun v => put_name "Generator" hn y x v))
    rw [gen_same w lam (spread y) _ g (fun v => put_self "Generator" g.name y x v)] at this
    linarith
  · intro g hg y hy
    have hz := h _ (rules "Link" g.name y (by simp) (fun g' hg' e => by rw [List.inj_on_of_nodup_map hw.links hg' hg e.2]; exact hy)
      (by simp) (by simp) (by simp) (by simp))
    rw [gs _ _ _ (by simp), ss _ _ _ (by simp), us _ _ _ (by simp), bs _ _ _ _ _ (by simp), bs _ _ _ _ _ (by simp)] at hz
    have := sum_put w.links (·.name) hw.links g hg (fun g => linkCost w g x - linkRevenue w g lam x)
      (fun g' => linkCost w g' (put "Link" g.name y x) - linkRevenue w g' lam (put "Link" g.name y x))
      (fun a _ hn => link_same w lam _ _ a (fun v => put_name "Link" hn y x v))
    rw [link_same w lam (spread y) _ g (fun v => put_self "Link" g.name y x v)] at this
    linarith
  · intro g hg y hy
    have hz := h _ (rules "Store" g.name y (by simp) (by simp) (fun g' hg' e => by rw [List.inj_on_of_nodup_map hw.stores hg' hg e.2]; exact hy)
      (by simp) (by simp) (by simp))
    rw [gs _ _ _ (by simp), ks _ _ _ (by simp), us _ _ _ (by simp), bs _ _ _ _ _ (by simp), bs _ _ _ _ _ (by simp)] at hz
    have := sum_put w.stores (·.name) hw.stores g hg (fun g => storeCost w g x - storeRevenue w g lam x)
      (fun g' => storeCost w g' (put "Store" g.name y x) - storeRevenue w g' lam (put "Store" g.name y x))
      (fun a _ hn => store_same w lam _ _ a (fun v => put_name "Store" hn y x v))
    rw [store_same w lam (spread y) _ g (fun v => put_self "Store" g.name y x v)] at this
    linarith
  · intro g hg y hy
    have hz := h _ (rules "StorageUnit" g.name y (by simp) (by simp) (by simp)
      (fun g' hg' e => by rw [List.inj_on_of_nodup_map hw.units hg' hg e.2]; exact hy) (by simp) (by simp))
    rw [gs _ _ _ (by simp), ks _ _ _ (by simp), ss _ _ _ (by simp), bs _ _ _ _ _ (by simp), bs _ _ _ _ _ (by simp)] at hz
    have := sum_put w.units (·.name) hw.units g hg (fun g => unitCost w g x - unitRevenue w g lam x)
      (fun g' => unitCost w g' (put "StorageUnit" g.name y x) - unitRevenue w g' lam (put "StorageUnit" g.name y x))
      (fun a _ hn => unit_same w lam _ _ a (fun v => put_name "StorageUnit" hn y x v))
    rw [unit_same w lam (spread y) _ g (fun v => put_self "StorageUnit" g.name y x v)] at this
    linarith
  · intro g hg y hy
    have hz := h _ (rules "Line" g.name y (by simp) (by simp) (by simp) (by simp)
      (fun g' hg' e => by rw [List.inj_on_of_nodup_map hw.lines hg' hg e.2]; exact hy) (by simp))
    rw [gs _ _ _ (by simp), ks _ _ _ (by simp), ss _ _ _ (by simp), us _ _ _ (by simp), bs "Transformer" _ _ _ _ (by simp)] at hz
    have := sum_put w.lines (·.name) hw.lines g hg (fun g => branchCost w "Line" g x - branchRevenue w "Line" g lam x)
      (fun g' => branchCost w "Line" g' (put "Line" g.name y x) - branchRevenue w "Line" g' lam (put "Line" g.name y x))
      (fun a _ hn => branch_same w lam _ _ "Line" a (fun v => put_name "Line" hn y x v))
    rw [branch_same w lam (spread y) _ "Line" g (fun v => put_self "Line" g.name y x v)] at this
    linarith
  · intro g hg y hy
    have hz := h _ (rules "Transformer" g.name y (by simp) (by simp) (by simp) (by simp) (by simp)
      (fun g' hg' e => by rw [List.inj_on_of_nodup_map hw.trafos hg' hg e.2]; exact hy))
    rw [gs _ _ _ (by simp), ks _ _ _ (by simp), ss _ _ _ (by simp), us _ _ _ (by simp), bs "Line" _ _ _ _ (by simp)] at hz
    have := sum_put w.trafos (·.name) hw.trafos g hg (fun g => branchCost w "Transformer" g x - branchRevenue w "Transformer" g lam x)
      (fun g' => branchCost w "Transformer" g' (put "Transformer" g.name y x) - branchRevenue w "Transformer" g' lam (put "Transformer" g.name y x))
      (fun a _ hn => branch_same w lam _ _ "Transformer" a (fun v => put_name "Transformer" hn y x v))
    rw [branch_same w lam (spread y) _ "Transformer" g (fun v => put_self "Transformer" g.name y x v)] at this
    linarith

/-- If no asset alone has a better course, then all together have none. -/
theorem together {w : WNet F} (hw : Sound w) {lam : Name → Nat → F} {x : WVar → F} (h : Competitive w lam x) (z : WVar → F) (hz : AssetRules w z) :
    totalCost w x - worth w lam x ≤ totalCost w z - worth w lam z := by
  rw [net_eq hw, net_eq hw]
  have h1 : (w.gens.map (fun g => genCost w g x - genRevenue w g lam x)).sum ≤ (w.gens.map (fun g => genCost w g z - genRevenue w g lam z)).sum :=
    List.sum_le_sum (fun g hg => by
      have := h.gens g hg _ (hz.gens g hg)
      have e := gen_same w lam z (spread (fun v => z (.of "Generator" g.name v))) g (fun v => rfl)
      linarith)
  have h2 : (w.links.map (fun g => linkCost w g x - linkRevenue w g lam x)).sum ≤ (w.links.map (fun g => linkCost w g z - linkRevenue w g lam z)).sum :=
    List.sum_le_sum (fun g hg => by
      have := h.links g hg _ (hz.links g hg)
      have e := link_same w lam z (spread (fun v => z (.of "Link" g.name v))) g (fun v => rfl)
      linarith)
  have h3 : (w.stores.map (fun g => storeCost w g x - storeRevenue w g lam x)).sum ≤ (w.stores.map (fun g => storeCost w g z - storeRevenue w g lam z)).sum :=
    List.sum_le_sum (fun g hg => by
      have := h.stores g hg _ (hz.stores g hg)
      have e := store_same w lam z (spread (fun v => z (.of "Store" g.name v))) g (fun v => rfl)
      linarith)
  have h4 : (w.units.map (fun g => unitCost w g x - unitRevenue w g lam x)).sum ≤ (w.units.map (fun g => unitCost w g z - unitRevenue w g lam z)).sum :=
    List.sum_le_sum (fun g hg => by
      have := h.units g hg _ (hz.units g hg)
      have e := unit_same w lam z (spread (fun v => z (.of "StorageUnit" g.name v))) g (fun v => rfl)
      linarith)
  have h5 : (w.lines.map (fun g => branchCost w "Line" g x - branchRevenue w "Line" g lam x)).sum ≤
      (w.lines.map (fun g => branchCost w "Line" g z - branchRevenue w "Line" g lam z)).sum :=
    List.sum_le_sum (fun g hg => by
      have := h.lines g hg _ (hz.lines g hg)
      have e := branch_same w lam z (spread (fun v => z (.of "Line" g.name v))) "Line" g (fun v => rfl)
      linarith)
  have h6 : (w.trafos.map (fun g => branchCost w "Transformer" g x - branchRevenue w "Transformer" g lam x)).sum ≤
      (w.trafos.map (fun g => branchCost w "Transformer" g z - branchRevenue w "Transformer" g lam z)).sum :=
    List.sum_le_sum (fun g hg => by
      have := h.trafos g hg _ (hz.trafos g hg)
      have e := branch_same w lam z (spread (fun v => z (.of "Transformer" g.name v))) "Transformer" g (fun v => rfl)
      linarith)
  linarith

/-- A plan that obeys the rules has least costs exactly if there are prices at which each asset on its own could not earn more. -/
theorem welfare {w : WNet F} (hw : Sound w) (hlin : LinearCosts w) (hd : Orderly w) {P : Program F} (hP : createModel w [] = some P) (x : WVar → F) :
    Best w [] (fun _ => True) x ↔ Rules w x ∧ ∃ lam : Name → Nat → F, Competitive w lam x := by
  rw [market hw hlin hd (by simp) hP x]
  constructor
  · rintro ⟨⟨h1, -⟩, lam, h⟩
    exact ⟨h1, lam, alone hw (Rules.assets h1) (fun z hz => h z hz (by simp [Feasible]))⟩
  · rintro ⟨h1, lam, h⟩
    exact ⟨⟨h1, by simp [Feasible]⟩, lam, fun z hz _ => together hw h z hz⟩

/-- Prices of one plan with least costs are prices of all of them: which optimum the solver returns does not matter for them. -/
theorem same_prices {w : WNet F} (hw : Sound w) {lam : Name → Nat → F} {x : WVar → F} (hx : Rules w x) (h : Competitive w lam x) {z : WVar → F}
    (hz : Best w [] (fun _ => True) z) : Competitive w lam z := by
  apply alone hw (Rules.assets hz.1)
  intro y hy
  have h1 := together hw h y hy
  have h2 := hz.2.2.2 x hx (by simp [Feasible]) trivial
  rw [worth_bill lam hx.balance] at h1
  rw [worth_bill lam hz.1.balance]
  linarith

/-! ## Examples and limits -/

/-- At a price of 5 (10 with the weight of the snapshot) both generators are content. -/
example : ∃ lam : Name → Nat → ℚ, Competitive (twoNet 12) lam twoVal :=
  ((welfare (twoSound 12) (twoLinear 12) (orderly_single rfl rfl) (Option.some_get twoSome12).symm twoVal).mp twoBest).2

/-- A generator of 10 that is on or off, with stand-by costs of 3 per snapshot and hour. -/
def onOff : GenW ℚ := ⟨"block", "A", 1, { exUnit' false 10 with committable := true }, exInvest 0, ⟨fun _ => 1, fun _ => 0, fun _ => 0, fun _ => 0, fun _ => 3⟩, fun _ => none, none, none⟩

def blockNet : WNet ℚ := { twoNet 5 with gens := [onOff] }

theorem blockSound : Sound blockNet := by constructor <;> simp [blockNet, twoNet, onOff]
theorem blockLinear : LinearCosts blockNet := by constructor <;> simp [blockNet, twoNet, onOff, exUnit']
theorem blockSome : (createModel blockNet []).isSome = true := by decide +kernel

/-- On, and half on. -/
def blockVal (s : ℚ) (v : WVar) : ℚ :=
  if v = .of "Generator" "block" (.op "p" 0) then 5 else if v = .of "Generator" "block" (.op "status" 0) then s
  else if v = .of "Generator" "block" (.op "start_up" 0) then s else 0

theorem blockRules1 : Rules blockNet (blockVal 1) :=
  ((rules_iff blockSound (orderly_single rfl rfl) (Option.some_get blockSome).symm (blockVal 1)).mp (by unfold FeasibleIn; decide +kernel)).1

theorem blockRulesHalf : Rules blockNet (blockVal (1 / 2)) :=
  ((rules_iff blockSound (orderly_single rfl rfl) (Option.some_get blockSome).symm (blockVal (1 / 2))).mp (by unfold FeasibleIn; decide +kernel)).1

theorem blockCost (y : WVar → ℚ) : totalCost blockNet y = 2 * y (.of "Generator" "block" (.op "p" 0)) + 6 * y (.of "Generator" "block" (.op "status" 0)) := by
  simp [totalCost, genCost, blockNet, twoNet, onOff, exUnit', weight, exNet]
  exact Or.inl (by norm_num)

/-- With units that are on or off, a plan may have least costs although there are no prices for it. -/
theorem not_whole_prices : ∃ (w : WNet ℚ) (P : Program ℚ) (x : WVar → ℚ), Sound w ∧ LinearCosts w ∧ Orderly w ∧ createModel w [] = some P ∧
    Best w [] (Commit.OnOff w) x ∧ ¬ (∃ lam, Competitive w lam x) ∧ ¬ ∃ lam mu, Solved P x lam mu := by
  have hP : createModel blockNet [] = some ((createModel blockNet []).get blockSome) := (Option.some_get blockSome).symm
  have hno : ¬ Best blockNet [] (fun _ => True) (blockVal 1) := by
    intro h
    have := h.2.2.2 _ blockRulesHalf (by simp [Feasible]) trivial
    rw [blockCost, blockCost] at this
    revert this
    decide +kernel
  refine ⟨blockNet, _, blockVal 1, blockSound, blockLinear, orderly_single rfl rfl, hP, ⟨blockRules1, by simp [Feasible], ?_, ?_⟩, ?_, ?_⟩
  · refine ⟨?_, by simp [blockNet, twoNet]⟩
    intro g hg _ t ht _ v hv
    have hg : g = onOff := by simpa [blockNet] using hg
    have ht : t = 0 := by
      have : t < 1 := ht
      omega
    subst hg ht
    simp only [List.mem_cons, List.not_mem_nil, or_false] at hv
    rcases hv with rfl | rfl | rfl <;> decide +kernel
  · intro z hz _ hD
    have hb := hz.balance 0 Nat.one_pos "A" (by simp [blockNet, twoNet])
    simp [supply, demand, atBus, blockNet, twoNet, onOff, exUnit'] at hb
    have hc := ((hz.gens onOff (by simp [blockNet])).unit.committed rfl 0 Nat.one_pos rfl).2
    simp only [onOff, exUnit', if_true, one_mul] at hc
    have hs := hD.1 onOff (by simp [blockNet]) rfl 0 Nat.one_pos rfl "status" (by simp)
    rw [blockCost, blockCost]
    have e1 : blockVal 1 (.of "Generator" "block" (.op "p" 0)) = 5 := by decide +kernel
    have e2 : blockVal 1 (.of "Generator" "block" (.op "status" 0)) = 1 := by decide +kernel
    rw [e1, e2]
    simp only [onOff] at hs
    rcases hs with hs | hs
    · rw [hs, hb] at hc
      norm_num at hc
    · rw [hs, hb]
  · rintro ⟨lam, h⟩
    exact hno ((welfare blockSound blockLinear (orderly_single rfl rfl) hP _).mpr ⟨blockRules1, lam, h⟩)
  · rintro ⟨lam, mu, h⟩
    exact hno (priced_best blockSound blockLinear (orderly_single rfl rfl) (by simp) hP h)

end Verif.Opt.Whole.Exist
