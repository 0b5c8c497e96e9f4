import Verif.Opt.WholeLemmas
import Verif.Opt.UnitProps

/-!
# Rows of single assets and what they are worth at an optimum
-/

namespace Verif.Opt.Whole

variable {F : Type} [Field F] [LinearOrder F]

/-- The solver's answer: solution, duals of the nodal balance by bus and snapshot, duals of the other rows. -/
structure Solved (P : Program F) (val : WVar → F) (lam : Name → Nat → F) (mu : List F) : Prop where
  len : mu.length = P.rows.length
  answer : Answer P.linear (P.balance.map (fun r => (r.2, lam r.1.1 r.1.2)) ++ P.rows.zip mu) val

section general
variable [IsStrictOrderedRing F]

theorem mem_zip_left {α β : Type} {l : List α} {m : List β} {p : α × β} (h : p ∈ l.zip m) : p.1 ∈ l :=
  (List.of_mem_zip h).1

/-- At every point, cost is what the nodal balance and the other rows are worth. -/
theorem value_identity {w : WNet F} (hw : Sound w) (hl : LinearCosts w) {other : List (Con WVar F)} {P : Program F}
    (hP : createModel w other = some P) {val : WVar → F} {lam : Name → Nat → F} {mu : List F} (hs : Solved P val lam mu)
    (x : WVar → F) (hx : x .const = 0) :
    Objective.systemCost (objNet w) (fun v => x (objVar v)) (weight w) =
      ((List.range w.len).map (fun t => (w.buses.map (fun b => lam b t *
        Nodal.supplied (nodal w t) (w.tangents != 0) (fun v => x (nodalVar t v)) b)).sum)).sum +
      ((P.rows.zip mu).map (fun r => r.2 * lin x r.1.terms)).sum := by
  obtain ⟨own, bal, o, h1, h2, h3, h4, -, h5, h6⟩ := createModel_parts hP
  have h := lin_of_stationary _ _ hs.answer.stationary x
  rw [h4, objective_lin hl h3 x hx] at h
  rw [h, List.map_append, List.sum_append, List.map_map]
  congr 1
  rw [h5]
  exact balance_sum hw h2 (fun b t s _ => lam b t * s) (fun b t d => by simp) x

/-- Rows of the assets concern one asset only. -/
theorem separate {w : WNet F} {own : List (Con WVar F)} (h1 : ownRows w = some own) (c a : Name) (r : Con WVar F)
    (hr : r ∈ own) : (∀ e ∈ r.terms, ofAsset c a e.2 = false) ∨ (∀ e ∈ r.terms, ofAsset c a e.2 = true) := by
  have key : ∀ (c' a' : Name) (q : Con Loc F), r = remap (WVar.of c' a') q →
      (∀ e ∈ r.terms, ofAsset c a e.2 = false) ∨ (∀ e ∈ r.terms, ofAsset c a e.2 = true) := by
    rintro c' a' q rfl
    by_cases h : c' = c ∧ a' = a
    · right
      intro e he
      obtain ⟨e', -, rfl⟩ := List.mem_map.mp he
      simp [ofAsset, h.1, h.2]
    · left
      intro e he
      obtain ⟨e', -, rfl⟩ := List.mem_map.mp he
      simp only [ofAsset]
      rw [← Bool.decide_and, decide_eq_false_iff_not]
      exact h
  rcases mem_ownRows h1 r hr with ⟨g, _, rs, _, q, _, e⟩ | ⟨g, _, rs, _, q, _, e⟩ | ⟨g, _, rs, _, q, _, e⟩ |
      ⟨g, _, rs, _, q, _, e⟩ | ⟨g, _, rs, _, q, _, e⟩ | ⟨g, _, rs, _, q, _, e⟩ <;>
    exact key _ _ q e

/-- Rows of one asset with a name. -/
theorem asset_row {w : WNet F} {own : List (Con WVar F)} (h1 : ownRows w = some own) (r : Con WVar F) (hr : r ∈ own)
    (hne : r.terms ≠ []) (c a : Name) (hall : ∀ e ∈ r.terms, ofAsset c a e.2 = true) :
    (c = "Generator" → ∃ g ∈ w.gens, g.name = a ∧ ∃ rs, genRows w g = some rs ∧ ∃ q ∈ rs, r = remap (WVar.of c a) q) ∧
    (c = "Link" → ∃ g ∈ w.links, g.name = a ∧ ∃ rs, linkRows w g = some rs ∧ ∃ q ∈ rs, r = remap (WVar.of c a) q) ∧
    (c = "Store" → ∃ g ∈ w.stores, g.name = a ∧ ∃ rs, storeRows w g = some rs ∧ ∃ q ∈ rs, r = remap (WVar.of c a) q) ∧
    (c = "StorageUnit" → ∃ g ∈ w.units, g.name = a ∧ ∃ rs, sunitRows w g = some rs ∧ ∃ q ∈ rs, r = remap (WVar.of c a) q) ∧
    (c = "Line" → ∃ g ∈ w.lines, g.name = a ∧ ∃ rs, branchRows w .line g = some rs ∧ ∃ q ∈ rs, r = remap (WVar.of c a) q) ∧
    (c = "Transformer" → ∃ g ∈ w.trafos, g.name = a ∧ ∃ rs, branchRows w .transformer g = some rs ∧
      ∃ q ∈ rs, r = remap (WVar.of c a) q) := by
  obtain ⟨e, he⟩ := List.exists_mem_of_ne_nil _ hne
  have hthis := hall e he
  have key : ∀ (c' a' : Name) (q : Con Loc F), r = remap (WVar.of c' a') q → c' = c ∧ a' = a := by
    rintro c' a' q rfl
    obtain ⟨e', -, rfl⟩ := List.mem_map.mp he
    simpa [ofAsset] using hthis
  rcases mem_ownRows h1 r hr with ⟨g, hg, rs, h2, q, hq, e1⟩ | ⟨g, hg, rs, h2, q, hq, e1⟩ | ⟨g, hg, rs, h2, q, hq, e1⟩ |
      ⟨g, hg, rs, h2, q, hq, e1⟩ | ⟨g, hg, rs, h2, q, hq, e1⟩ | ⟨g, hg, rs, h2, q, hq, e1⟩ <;>
    obtain ⟨rfl, rfl⟩ := key _ _ q e1
  · exact ⟨fun _ => ⟨g, hg, rfl, rs, h2, q, hq, e1⟩, by simp⟩
  · exact ⟨by simp, fun _ => ⟨g, hg, rfl, rs, h2, q, hq, e1⟩, by simp⟩
  · exact ⟨by simp, by simp, fun _ => ⟨g, hg, rfl, rs, h2, q, hq, e1⟩, by simp⟩
  · exact ⟨by simp, by simp, by simp, fun _ => ⟨g, hg, rfl, rs, h2, q, hq, e1⟩, by simp⟩
  · exact ⟨by simp, by simp, by simp, by simp, fun _ => ⟨g, hg, rfl, rs, h2, q, hq, e1⟩, by simp⟩
  · exact ⟨by simp, by simp, by simp, by simp, by simp, fun _ => ⟨g, hg, rfl, rs, h2, q, hq, e1⟩⟩

/-- A change `d` of the variables of one asset that keeps every row which binds at `x`. -/
def Admissible (x d : Loc → F) (q : Con Loc F) : Prop :=
  lin x q.terms = q.rhs → match q.sense with
    | .le => lin d q.terms ≤ 0
    | .ge => 0 ≤ lin d q.terms
    | .eq => lin d q.terms = 0

/-- The same change for the variables of all assets. -/
def spread (d : Loc → F) : WVar → F
  | .of _ _ v => d v
  | .const => 0

/-- What the rows which couple assets charge for the variables of one asset; `mu` has their duals at its end. -/
def coupled (other : List (Con WVar F)) (mu : List F) (c a : Name) (x : WVar → F) : F :=
  ((other.zip (mu.drop (mu.length - other.length))).map (fun r => r.2 * lin (only (ofAsset c a) x) r.1.terms)).sum

/-- Changes of one asset which keep its rows cannot gain from them. -/
theorem rows_gain {w : WNet F} {other : List (Con WVar F)} {P : Program F} (hP : createModel w other = some P)
    {val : WVar → F} {lam : Name → Nat → F} {mu : List F} (hs : Solved P val lam mu) (c a : Name) (d : Loc → F)
    (hown : ∀ own, ownRows w = some own → ∀ r ∈ own, r.terms ≠ [] → (∀ e ∈ r.terms, ofAsset c a e.2 = true) →
      ∃ q, r = remap (WVar.of c a) q ∧ Admissible (fun v => val (.of c a v)) d q) :
    coupled other mu c a (spread d) ≤
      ((P.rows.zip mu).map (fun r => r.2 * lin (only (ofAsset c a) (spread d)) r.1.terms)).sum := by
  obtain ⟨own, bal, o, h1, -, -, -, -, -, h6⟩ := createModel_parts hP
  have hlen := hs.len
  have hsl := slackness hs.answer
  have hup := hs.answer.upper
  have hlo := hs.answer.lower
  rw [h6] at hlen hsl hup hlo ⊢
  obtain ⟨m1, m2, rfl, hm1⟩ : ∃ m1 m2, mu = m1 ++ m2 ∧ m1.length = own.length :=
    ⟨mu.take own.length, mu.drop own.length, (List.take_append_drop _ _).symm, by
      rw [List.length_take, hlen]; simp⟩
  have hm2 : m2.length = other.length + 1 := by
    simp only [List.length_append, List.length_cons, hm1] at hlen; omega
  cases m2 with
  | nil => simp at hm2
  | cons mc m3 =>
    have hm3 : m3.length = other.length := by simpa using hm2
    have hdrop : (m1 ++ mc :: m3).drop ((m1 ++ mc :: m3).length - other.length) = m3 := by
      have : (m1 ++ mc :: m3).length - other.length = (m1 ++ [mc]).length := by
        simp only [List.length_append, List.length_cons, List.length_nil]; omega
      rw [this, show m1 ++ mc :: m3 = (m1 ++ [mc]) ++ m3 by simp, List.drop_left]
    unfold coupled
    rw [hdrop, List.zip_append hm1.symm, List.zip_cons_cons, List.map_append, List.sum_append, List.map_cons, List.sum_cons]
    have hc0 : lin (only (ofAsset c a) (spread d)) (constRow w).terms = 0 := by
      simp [constRow, lin, only, ofAsset]
    simp only [hc0, mul_zero, zero_add]
    have : 0 ≤ ((own.zip m1).map (fun r => r.2 * lin (only (ofAsset c a) (spread d)) r.1.terms)).sum := by
      refine List.sum_nonneg (fun y hy => ?_)
      obtain ⟨r, hr, rfl⟩ := List.mem_map.mp hy
      have hmem : r ∈ P.balance.map (fun r => (r.2, lam r.1.1 r.1.2)) ++ (own ++ constRow w :: other).zip (m1 ++ mc :: m3) := by
        rw [List.zip_append hm1.symm]
        exact List.mem_append.mpr (Or.inr (List.mem_append.mpr (Or.inl hr)))
      rcases separate h1 c a r.1 (mem_zip_left hr) with h | h
      · rw [lin_zero _ _ (fun e he => by simp [only, h e he]), mul_zero]
      · by_cases hne : r.1.terms = []
        · rw [hne]; simp
        · obtain ⟨q, hq, hadm⟩ := hown own h1 r.1 (mem_zip_left hr) hne h
          rw [lin_congr (only (ofAsset c a) (spread d)) (spread d) _ (fun e he => by simp [only, h e he])]
          have h2 : lin (spread d) r.1.terms = lin d q.terms := by rw [hq, lin_remap]; rfl
          have h3 : lin val r.1.terms = lin (fun v => val (.of c a v)) q.terms := by rw [hq, lin_remap]
          have h4 : r.1.rhs = q.rhs := by rw [hq]; rfl
          have h5 : r.1.sense = q.sense := by rw [hq]; rfl
          rw [h2]
          have h7 := hsl r hmem
          have h8 := hup r hmem
          have h9 := hlo r hmem
          rw [h3, h4] at h7
          rw [h5] at h8 h9
          by_cases hb : lin (fun v => val (.of c a v)) q.terms = q.rhs
          · have := hadm hb
            cases hsn : q.sense with
            | le => rw [hsn] at this; exact mul_nonneg_of_nonpos_of_nonpos (h8 hsn) this
            | ge => rw [hsn] at this; exact mul_nonneg (h9 hsn) this
            | eq => rw [hsn] at this; simp only at this; rw [this, mul_zero]
          · have h10 : r.2 * (lin (fun v => val (.of c a v)) q.terms - q.rhs) = 0 := by rw [mul_sub, h7, sub_self]
            rcases mul_eq_zero.mp h10 with h11 | h11
            · rw [h11, zero_mul]
            · exact absurd (sub_eq_zero.mp h11) hb
    linarith

theorem lin_neg {V : Type} (x : V → F) (ts : List (F × V)) : lin (fun v => - x v) ts = - lin x ts := by
  induction ts with
  | nil => simp [lin]
  | cons e t ih =>
    unfold lin at ih ⊢
    simp only [List.map_cons, List.sum_cons, ih]
    ring

/-- If standing still keeps a row, undoing everything is an admissible change. -/
theorem admissible_undo (x : Loc → F) (q : Con Loc F) (h : q.holds (fun _ => 0)) : Admissible x (fun v => - x v) q := by
  intro hb
  have hn := lin_neg x q.terms
  unfold Con.holds at h
  rw [lin_zero _ _ (fun _ _ => rfl)] at h
  rw [hn, hb]
  cases hs : q.sense <;> rw [hs] at h <;> simp only at h ⊢ <;> linarith

/-- If every row which binds has right-hand side zero, growing in proportion is an admissible change. -/
theorem admissible_scale (x : Loc → F) (q : Con Loc F) (h : q.rhs = 0 ∨ lin x q.terms ≠ q.rhs) : Admissible x x q := by
  intro hb
  rcases h with h | h
  · rw [hb, h]
    cases q.sense
    · exact le_refl _
    · exact le_refl _
    · rfl
  · exact absurd hb h

theorem admissible_shrink (x : Loc → F) (q : Con Loc F) (h : q.rhs = 0 ∨ lin x q.terms ≠ q.rhs) :
    Admissible x (fun v => - x v) q := by
  intro hb
  have hn := lin_neg x q.terms
  rcases h with h | h
  · rw [hn, hb, h]
    cases q.sense <;> simp
  · exact absurd hb h

end general

/-! ## Rows of single assets -/

section rows

theorem mem_capRows {name : Name} {ext : Bool} {i : Invest F} {rs : List (Con Loc F)} (h : capRows name ext i = some rs)
    (q : Con Loc F) (hq : q ∈ rs) :
    (ext = true ∧ q = ⟨[(1, .cap)], .ge, i.nomMin⟩) ∨ (ext = true ∧ ∃ u, i.nomMax = some u ∧ q = ⟨[(1, .cap)], .le, u⟩) ∨
    (∃ x, i.nomSet = some x ∧ q = ⟨[(1, .cap)], .eq, x⟩) ∨
    (ext = true ∧ 0 < i.nomMod ∧ (q = ⟨[(1, .cap), (- i.nomMod, .mod)], .eq, 0⟩ ∨ q = ⟨[(1, .mod)], .ge, 0⟩)) := by
  unfold capRows at h
  cases hc : Capacity.capacityCons [capAsset name ext i] with
  | error e => rw [hc] at h; simp [Except.toOption] at h
  | ok cs =>
    rw [hc] at h
    simp only [Except.toOption, Option.map_some, Option.some.injEq] at h
    unfold Capacity.capacityCons Capacity.fixedNominalCons at hc
    by_cases hany : ([capAsset name ext i].any fun a => a.nomSet.isSome && !a.ext) = true
    · rw [if_pos hany] at hc; cases hc
    rw [if_neg hany] at hc
    injection hc with hc
    subst hc
    subst h
    simp only [List.map_append, List.mem_append] at hq
    rcases hq with ((hq | hq) | hq) | hq
    · cases ext with
      | false => simp [Capacity.nominalCons, capAsset] at hq
      | true =>
        cases hmax : i.nomMax with
        | none =>
          simp [Capacity.nominalCons, capAsset, hmax, remap, capLoc] at hq
          exact Or.inl ⟨rfl, hq⟩
        | some u =>
          simp [Capacity.nominalCons, capAsset, hmax, remap, capLoc] at hq
          rcases hq with hq | hq
          · exact Or.inl ⟨rfl, hq⟩
          · exact Or.inr (Or.inl ⟨rfl, u, rfl, hq⟩)
    · cases hset : i.nomSet with
      | none => simp [Capacity.setRow, capAsset, hset] at hq
      | some x =>
        simp [Capacity.setRow, capAsset, hset, remap, capLoc] at hq
        exact Or.inr (Or.inr (Or.inl ⟨x, rfl, hq⟩))
    · by_cases hm : Capacity.modular (capAsset name ext i) = true
      · simp [Capacity.modularCons, hm, remap, capLoc] at hq
        simp only [Capacity.modular, capAsset, Bool.and_eq_true] at hm
        exact Or.inr (Or.inr (Or.inr ⟨hm.1, of_decide_eq_true hm.2, Or.inl hq⟩))
      · simp [Capacity.modularCons, hm] at hq
    · by_cases hm : Capacity.modular (capAsset name ext i) = true
      · simp [hm] at hq
        simp only [Capacity.modular, capAsset, Bool.and_eq_true] at hm
        exact Or.inr (Or.inr (Or.inr ⟨hm.1, of_decide_eq_true hm.2, Or.inr hq⟩))
      · simp [hm] at hq

theorem mem_setRows {len : Nat} {var : Name} {active : Nat → Bool} {value : Nat → Option F} (q : Con Loc F)
    (hq : q ∈ setRows len var active value) :
    ∃ t x, t < len ∧ value t = some x ∧ q = ⟨[(1, .op var t)], .eq, x⟩ := by
  unfold setRows at hq
  obtain ⟨c, hc, rfl⟩ := List.mem_map.mp hq
  unfold Capacity.fixedOperationCons at hc
  simp only [List.flatMap_cons, List.flatMap_nil, List.append_nil, List.mem_flatMap, List.mem_range] at hc
  obtain ⟨t, ht, hc⟩ := hc
  cases hv : value t with
  | none => simp [hv] at hc
  | some x =>
    simp only [hv] at hc
    split at hc
    · rw [List.mem_singleton.mp hc]
      exact ⟨t, x, ht, hv, rfl⟩
    · cases hc

theorem mem_sumRows {len : Nat} {gw : Nat → F} {name : Name} {active : Nat → Bool} {lo hi : Option F} (q : Con Loc F)
    (hq : q ∈ (Capacity.totalSupplyCons (List.range len) gw [⟨name, active, lo, hi⟩]).map
      (remap (fun v => Loc.op "p" v.2))) :
    (q.sense = .ge ∧ lo = some q.rhs) ∨ (q.sense = .le ∧ hi = some q.rhs) := by
  obtain ⟨c, hc, rfl⟩ := List.mem_map.mp hq
  unfold Capacity.totalSupplyCons at hc
  simp only [List.flatMap_cons, List.flatMap_nil, List.append_nil, List.mem_append] at hc
  rcases hc with hc | hc
  · left
    cases hlo : lo with
    | none => simp [hlo] at hc
    | some x =>
      simp only [hlo, Capacity.rowOf] at hc
      split at hc
      · cases hc
      · rw [List.mem_singleton.mp hc]; exact ⟨rfl, rfl⟩
  · right
    cases hhi : hi with
    | none => simp [hhi] at hc
    | some x =>
      simp only [hhi, Capacity.rowOf] at hc
      split at hc
      · cases hc
      · rw [List.mem_singleton.mp hc]; exact ⟨rfl, rfl⟩

theorem mem_boundRows {len : Nat} {c : Accessor.Cls} {attr : Accessor.Attr'} {var : Name} {losses : Bool}
    {a : Nat → Accessor.Asset F} (q : Con Loc F) (hq : q ∈ boundRows len c attr var losses a) :
    ∃ t, t < len ∧ ∃ r ∈ Accessor.opRows c attr losses (a t), q = remap (boundLoc var t) r := by
  unfold boundRows at hq
  simp only [List.mem_flatMap, List.mem_range, List.mem_map] at hq
  obtain ⟨t, ht, r, hr, rfl⟩ := hq
  exact ⟨t, ht, r, hr, rfl⟩

/-- Rows of bounds of an extendable asset have right-hand side zero. -/
theorem bound_scale {c : Accessor.Cls} {attr : Accessor.Attr'} {losses : Bool} {a : Accessor.Asset F} (ha : a.ext = true)
    (r : Con Accessor.BVar F) (hr : r ∈ Accessor.opRows c attr losses a) : r.rhs = 0 := by
  unfold Accessor.opRows Accessor.fixRows Accessor.extRows at hr
  simp only [ha, Bool.true_or, if_true, List.nil_append, Bool.not_true, Bool.false_or] at hr
  split at hr
  · cases hr
  · simp only [List.mem_cons, List.not_mem_nil, or_false] at hr
    rcases hr with rfl | rfl <;> rfl

/-- Standing still is within the bounds. -/
theorem bound_still {c : Accessor.Cls} {attr : Accessor.Attr'} {losses : Bool} {a : Accessor.Asset F}
    (hlo : a.ext = false → (Accessor.boundsPu c attr a).1 * a.nom ≤ 0)
    (hhi : a.ext = false → 0 ≤ (Accessor.boundsPu c attr a).2 * a.nom)
    (r : Con Accessor.BVar F) (hr : r ∈ Accessor.opRows c attr losses a) : r.holds (fun _ => 0) := by
  unfold Con.holds
  rw [lin_zero _ _ (fun _ _ => rfl)]
  unfold Accessor.opRows Accessor.fixRows Accessor.extRows at hr
  cases he : a.ext with
  | true =>
    simp only [he, Bool.true_or, if_true, List.nil_append, Bool.not_true, Bool.false_or] at hr
    split at hr
    · cases hr
    · simp only [List.mem_cons, List.not_mem_nil, or_false] at hr
      rcases hr with rfl | rfl <;> exact le_refl _
  | false =>
    simp only [he, Bool.not_false, Bool.true_or, if_true, List.append_nil, Bool.false_or] at hr
    split at hr
    · cases hr
    · simp only [List.mem_cons, List.not_mem_nil, or_false] at hr
      rcases hr with rfl | rfl
      · exact hlo he
      · exact hhi he

omit [LinearOrder F] in
theorem holds_remap [LinearOrder F] {V W : Type} (f : V → W) (x : W → F) (q : Con V F) :
    (remap f q).holds x ↔ q.holds (fun v => x (f v)) := by
  unfold Con.holds
  rw [lin_remap]
  rfl

/-- Rows of an extendable unit without commitment have right-hand side zero. -/
theorem unit_scale {cls : List (Unit' F)} {u : Unit' F} {T : Nat} {lin' : Bool} (hext : u.extendable = true)
    (hcom : u.committable = false) (q : Con UVar F) (hq : q ∈ unitCons cls u T false lin') : q.rhs = 0 := by
  unfold unitCons at hq
  simp only [nonExtCons, comCons, linearizedCons, hext, hcom, Bool.true_or, if_true, Bool.not_false, List.nil_append,
    ite_self, List.append_nil, List.mem_append] at hq
  rcases hq with hq | hq
  · unfold extCons rowsAt at hq
    simp only [hext, Bool.not_true, Bool.false_eq_true, if_false, List.mem_flatMap] at hq
    obtain ⟨t, -, hq⟩ := hq
    split at hq
    · simp only [List.mem_cons, List.not_mem_nil, or_false] at hq
      rcases hq with rfl | rfl <;> rfl
    · cases hq
  · unfold rampCons rowsAt at hq
    split at hq
    · cases hq
    · simp only [List.mem_flatMap] at hq
      obtain ⟨t, -, hq⟩ := hq
      split at hq
      · unfold rampRows at hq
        simp only [hext, hcom, Bool.not_true, Bool.false_and, Bool.false_eq_true, if_false, List.nil_append, if_true,
          List.append_nil, List.mem_append] at hq
        rcases hq with hq | hq
        · cases hr : u.rampUp t with
          | none => simp [hr] at hq
          | some r => simp only [hr, List.mem_singleton] at hq; subst hq; simp [rampStartRhs]
        · cases hr : u.rampDown t with
          | none => simp [hr] at hq
          | some r => simp only [hr, List.mem_singleton] at hq; subst hq; simp [rampStartRhs]
      · cases hq

/-- A unit that may stand still: its bounds and ramp limits allow zero, it was not running before. -/
structure Idle (u : Unit' F) (T : Nat) : Prop where
  lower : u.extendable = false → u.committable = false → ∀ t < T, u.minPu t * u.nom ≤ 0
  upper : u.extendable = false → u.committable = false → ∀ t < T, 0 ≤ u.maxPu t * u.nom
  rampUp : u.extendable = false → u.committable = false → ∀ t < T, ∀ r, u.rampUp t = some r → 0 ≤ r * u.nom
  rampDown : u.extendable = false → u.committable = false → ∀ t < T, ∀ r, u.rampDown t = some r → 0 ≤ r * u.nom
  before : u.committable = true → u.upBefore = 0

theorem unit_still [IsStrictOrderedRing F] {cls : List (Unit' F)} {u : Unit' F} {T : Nat} {lin' : Bool} (h : Idle u T)
    (q : Con UVar F) (hq : q ∈ unitCons cls u T false lin') : q.holds (fun _ => 0) := by
  unfold Con.holds
  rw [lin_zero _ _ (fun _ _ => rfl)]
  unfold unitCons at hq
  simp only [List.mem_append] at hq
  rcases hq with (((hq | hq) | hq) | hq) | hq
  · unfold nonExtCons rowsAt at hq
    split at hq
    · cases hq
    · rename_i hn
      simp only [Bool.or_eq_true, not_or, Bool.not_eq_true] at hn
      simp only [List.mem_flatMap, List.mem_range] at hq
      obtain ⟨t, ht, hq⟩ := hq
      split at hq
      · simp only [List.mem_cons, List.not_mem_nil, or_false] at hq
        rcases hq with rfl | rfl
        · exact h.lower hn.1 hn.2 t ht
        · exact h.upper hn.1 hn.2 t ht
      · cases hq
  · unfold extCons rowsAt at hq
    split at hq
    · cases hq
    · simp only [List.mem_flatMap] at hq
      obtain ⟨t, -, hq⟩ := hq
      split at hq
      · simp only [List.mem_cons, List.not_mem_nil, or_false] at hq
        rcases hq with rfl | rfl <;> exact le_refl _
      · cases hq
  · unfold comCons rowsAt at hq
    split at hq
    · cases hq
    · rename_i hn
      simp only [Bool.not_eq_true', Bool.not_eq_false] at hn
      have hup : initUp u false = false := by simp [initUp, upTimeSet, h.before hn]
      simp only [hup, List.mem_append, List.mem_flatMap] at hq
      rcases hq with ((⟨t, -, hq⟩ | ⟨t, -, hq⟩) | ⟨t, -, hq⟩) | ⟨t, -, hq⟩ <;> split at hq
      · simp only [List.mem_cons, List.not_mem_nil, or_false] at hq
        rcases hq with rfl | rfl <;> exact le_refl _
      · cases hq
      · simp only [List.mem_cons, List.not_mem_nil, or_false] at hq
        rcases hq with rfl | rfl <;> simp
      · cases hq
      · rcases List.mem_append.mp hq with hq | hq <;> split at hq
        · rw [List.mem_singleton.mp hq]
        · cases hq
        · rw [List.mem_singleton.mp hq]; exact zero_le_one
        · cases hq
      · cases hq
      · rcases List.mem_append.mp hq with hq | hq <;> split at hq
        · rename_i h1; simp at h1
        · cases hq
        · rw [List.mem_singleton.mp hq]
        · cases hq
      · cases hq
  · split at hq
    · unfold linearizedCons rowsAt at hq
      split at hq
      · cases hq
      · simp only [List.mem_flatMap] at hq
        obtain ⟨t, -, hq⟩ := hq
        split at hq
        · simp only [List.mem_cons, List.not_mem_nil, or_false] at hq
          rcases hq with rfl | rfl | rfl | rfl <;> exact le_refl _
        · cases hq
    · cases hq
  · unfold rampCons rowsAt at hq
    split at hq
    · cases hq
    · simp only [List.mem_flatMap, Bool.false_eq_true, if_false] at hq
      obtain ⟨t, ht, hq⟩ := hq
      have ht' := (mem_tail.mp ht).2
      split at hq
      · unfold rampRows at hq
        simp only [List.mem_append] at hq
        rcases hq with (hq | hq) | hq <;> split at hq
        · rename_i hn
          simp only [Bool.and_eq_true, Bool.not_eq_true'] at hn
          rcases List.mem_append.mp hq with hq | hq
          · cases hr : u.rampUp t with
            | none => simp [hr] at hq
            | some r =>
              simp only [hr, List.mem_singleton] at hq; subst hq
              simpa [rampStartRhs] using h.rampUp hn.1 hn.2 t ht' r hr
          · cases hr : u.rampDown t with
            | none => simp [hr] at hq
            | some r =>
              simp only [hr, List.mem_singleton] at hq; subst hq
              simpa [rampStartRhs] using h.rampDown hn.1 hn.2 t ht' r hr
        · cases hq
        · rcases List.mem_append.mp hq with hq | hq
          · cases hr : u.rampUp t with
            | none => simp [hr] at hq
            | some r => simp only [hr, List.mem_singleton] at hq; subst hq; simp [rampStartRhs]
          · cases hr : u.rampDown t with
            | none => simp [hr] at hq
            | some r => simp only [hr, List.mem_singleton] at hq; subst hq; simp [rampStartRhs]
        · cases hq
        · rcases List.mem_append.mp hq with hq | hq
          · cases hr : u.rampUpStatic with
            | none => simp [hr] at hq
            | some r => simp only [hr, List.mem_singleton] at hq; subst hq; simp [rampStartRhs]
          · cases hr : u.rampDownStatic with
            | none => simp [hr] at hq
            | some r => simp only [hr, List.mem_singleton] at hq; subst hq; simp [rampStartRhs]
        · cases hq
      · cases hq

theorem commit_still [IsStrictOrderedRing F] {len : Nat} {u : Unit' F} (q : Con Loc F) (hq : q ∈ commitRows len u) :
    q.holds (fun _ => 0) := by
  unfold Con.holds
  rw [lin_zero _ _ (fun _ _ => rfl)]
  unfold commitRows at hq
  split at hq
  · simp only [List.mem_flatMap] at hq
    obtain ⟨t, -, hq⟩ := hq
    split at hq
    · simp only [List.mem_flatMap] at hq
      obtain ⟨v, -, hq⟩ := hq
      simp only [List.mem_cons, List.not_mem_nil, or_false] at hq
      rcases hq with rfl | rfl
      · exact le_refl _
      · exact zero_le_one
    · cases hq
  · cases hq

theorem included_cyclic {a : Storage F} {w : Window} (h : a.cyclic = true) (t : Nat) : included a w t = true := by
  unfold included includePrevPP includePrev
  simp [h]

theorem mem_storeCons {a : Storage F} {w : Window} (h : a.cyclic = true ∨ a.initial = 0) (q : Con EVar F)
    (hq : q ∈ storeCons a w) : q.sense = .eq ∧ q.rhs = 0 := by
  unfold storeCons at hq
  simp only [List.mem_flatMap] at hq
  obtain ⟨t, -, hq⟩ := hq
  split at hq
  · rw [List.mem_singleton.mp hq]
    refine ⟨rfl, ?_⟩
    rcases h with h | h
    · simp [included_cyclic h]
    · simp [h]
  · cases hq

theorem mem_storageUnitCons {a : StorUnit F} {w : Window} (h : a.cyclic = true ∨ a.initial = 0)
    (hi : ∀ t < w.len, a.inflow t = 0) (q : Con SVar F) (hq : q ∈ storageUnitCons a w) : q.sense = .eq ∧ q.rhs = 0 := by
  unfold storageUnitCons at hq
  simp only [List.mem_flatMap, List.mem_range] at hq
  obtain ⟨t, ht, hq⟩ := hq
  split at hq
  · rw [List.mem_singleton.mp hq]
    refine ⟨rfl, ?_⟩
    rcases h with h | h
    · simp [included_cyclic h, hi t ht]
    · simp [h, hi t ht]
  · cases hq

/-- Conditions on the capacity: no module sizes, no set value, not at a bound other than zero. -/
structure FreeCap (i : Invest F) (cap : F) : Prop where
  noSet : i.nomSet = none
  noMod : ¬ 0 < i.nomMod
  above : i.nomMin = 0 ∨ i.nomMin < cap
  below : ∀ u, i.nomMax = some u → u = 0 ∨ cap < u

theorem cap_scale {name : Name} {ext : Bool} {i : Invest F} {rs : List (Con Loc F)} (h : capRows name ext i = some rs)
    (x : Loc → F) (hf : FreeCap i (x .cap)) (q : Con Loc F) (hq : q ∈ rs) : q.rhs = 0 ∨ lin x q.terms ≠ q.rhs := by
  rcases mem_capRows h q hq with ⟨-, rfl⟩ | ⟨-, u, hu, rfl⟩ | ⟨y, hy, -⟩ | ⟨-, hm, -⟩
  · rcases hf.above with h1 | h1
    · exact Or.inl h1
    · right; simp [lin]; exact h1.ne'
  · rcases hf.below u hu with h1 | h1
    · exact Or.inl h1
    · right; simp [lin]; exact h1.ne
  · rw [hf.noSet] at hy; cases hy
  · exact absurd hm hf.noMod

/-- Zero capacity is allowed. -/
structure IdleCap (ext : Bool) (i : Invest F) : Prop where
  lower : ext = true → i.nomMin ≤ 0
  upper : ext = true → ∀ u, i.nomMax = some u → 0 ≤ u
  set : ∀ x, i.nomSet = some x → x = 0

theorem cap_still {name : Name} {ext : Bool} {i : Invest F} {rs : List (Con Loc F)} (h : capRows name ext i = some rs)
    (hf : IdleCap ext i) (q : Con Loc F) (hq : q ∈ rs) : q.holds (fun _ => 0) := by
  unfold Con.holds
  rw [lin_zero _ _ (fun _ _ => rfl)]
  rcases mem_capRows h q hq with ⟨he, rfl⟩ | ⟨he, u, hu, rfl⟩ | ⟨y, hy, rfl⟩ | ⟨-, -, rfl | rfl⟩
  · exact hf.lower he
  · exact hf.upper he u hu
  · exact (hf.set y hy).symm
  · rfl
  · exact le_refl _

end rows

end Verif.Opt.Whole
