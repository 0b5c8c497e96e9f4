import Verif.Opt.WelfareProps

/-!
# Optima of problems with units that are on or off (C156)

Statuses, start-ups and shut-downs are binary variables (`pypsa/optimization/variables.py` 53-80, `Verif.Opt.Whole.Commit.OnOff`).  There are finitely many courses of
them, and for each course the problem is linear, so C154 gives an optimum; with the statuses of an optimum fixed there are prices.
-/

namespace Verif.Opt.Whole.Exist

open Doc

variable {F : Type} [Field F] [LinearOrder F] [IsStrictOrderedRing F]

/-- Each of these variables is 0 or 1. -/
def Binary (vs : List WVar) (x : WVar → F) : Prop := ∀ v ∈ vs, x v = 0 ∨ x v = 1

/-- The variable has this value. -/
def fixRow (v : WVar) (c : F) : Con WVar F := ⟨[(1, v)], .eq, c⟩

omit [IsStrictOrderedRing F] in
theorem fixRow_iff (v : WVar) (c : F) (x : WVar → F) : (fixRow v c).holds x ↔ x v = c := by simp [fixRow, Con.holds, lin]

omit [IsStrictOrderedRing F] in
/-- Further rows do not decide whether the problem can be set up. -/
theorem model_any {w : WNet F} {other : List (Con WVar F)} {P : Program F} (h : createModel w other = some P) (other' : List (Con WVar F)) :
    ∃ P', createModel w other' = some P' := by
  unfold createModel at h ⊢
  cases h1 : ownRows w with
  | none => rw [h1] at h; cases h
  | some own =>
    cases h2 : balanceRows w with
    | none => rw [h1, h2] at h; cases h
    | some bal =>
      cases h3 : Objective.objective (objNet w) with
      | error e => rw [h1, h2, h3] at h; cases h
      | ok o => exact ⟨_, rfl⟩

omit [IsStrictOrderedRing F] in
theorem feasible_snoc (x : WVar → F) (other : List (Con WVar F)) (v : WVar) (c : F) :
    Feasible x (other ++ [fixRow v c]) ↔ Feasible x other ∧ x v = c := by
  rw [feasible_append, feasible_cons, fixRow_iff]
  simp [Feasible]

/-- If a plan with binary values exists and costs are limited below, then one of these plans has least costs. -/
theorem binary_best {w : WNet F} (hw : Sound w) (hlin : LinearCosts w) (hd : Orderly w) (vs : List WVar) (hv : WVar.const ∉ vs) :
    ∀ {other : List (Con WVar F)} (_ : ∀ r ∈ other, ∀ e ∈ r.terms, e.2 ≠ .const) {P : Program F} (_ : createModel w other = some P)
      (_ : ∃ x, Plan w other x ∧ Binary vs x) {δ : F} (_ : ∀ x, Plan w other x → Binary vs x → δ ≤ totalCost w x),
      ∃ x, Best w other (Binary vs) x := by
  induction vs with
  | nil =>
    rintro other ho P hP ⟨x0, h0, -⟩ δ h
    have hb : ∀ x : WVar → F, Binary [] x := fun x => by simp [Binary]
    obtain ⟨x, h1, h2, -, h3⟩ := best_exists hw hlin hd ho hP ⟨x0, h0⟩ (fun x hx => h x hx (hb x))
    exact ⟨x, h1, h2, hb x, fun z z1 z2 _ => h3 z z1 z2 trivial⟩
  | cons v vs ih =>
    rintro other ho P hP ⟨x0, h0, b0⟩ δ h
    have hv' : WVar.const ∉ vs := fun e => hv (List.mem_cons_of_mem _ e)
    have hne : v ≠ .const := fun e => hv (e ▸ List.mem_cons_self)
    have bin : ∀ (c : F) (x : WVar → F), c = 0 ∨ c = 1 → x v = c → Binary vs x → Binary (v :: vs) x := by
      intro c x hc hx hb u hu
      rcases List.mem_cons.mp hu with rfl | hu
      · rw [hx]; exact hc
      · exact hb u hu
    -- one side, if it has a plan
    have side : ∀ c : F, c = 0 ∨ c = 1 → (∃ x, Plan w other x ∧ x v = c ∧ Binary vs x) →
        ∃ x, Plan w other x ∧ x v = c ∧ Binary vs x ∧ ∀ z, Plan w other z → z v = c → Binary vs z → totalCost w x ≤ totalCost w z := by
      rintro c hc ⟨y, y1, y2, y3⟩
      obtain ⟨P', hP'⟩ := model_any hP (other ++ [fixRow v c])
      have ho' : ∀ r ∈ other ++ [fixRow v c], ∀ e ∈ r.terms, e.2 ≠ .const := by
        intro r hr e he
        rcases List.mem_append.mp hr with hr | hr
        · exact ho r hr e he
        · rw [List.mem_singleton.mp hr] at he
          rw [List.mem_singleton.mp he]
          exact hne
      obtain ⟨x, k1, k2, k3, k4⟩ := ih hv' ho' hP' ⟨y, ⟨y1.1, (feasible_snoc y other v c).mpr ⟨y1.2, y2⟩⟩, y3⟩
        (fun x hx hb => by
          obtain ⟨q1, q2⟩ := (feasible_snoc x other v c).mp hx.2
          exact h x ⟨hx.1, q1⟩ (bin c x hc q2 hb))
      obtain ⟨q1, q2⟩ := (feasible_snoc x other v c).mp k2
      exact ⟨x, ⟨k1, q1⟩, q2, k3, fun z z1 z2 z3 => k4 z z1.1 ((feasible_snoc z other v c).mpr ⟨z1.2, z2⟩) z3⟩
    by_cases s0 : ∃ x, Plan w other x ∧ x v = 0 ∧ Binary vs x
    · obtain ⟨x, x1, x2, x3, x4⟩ := side 0 (Or.inl rfl) s0
      by_cases s1 : ∃ x, Plan w other x ∧ x v = 1 ∧ Binary vs x
      · obtain ⟨y, y1, y2, y3, y4⟩ := side 1 (Or.inr rfl) s1
        rcases le_total (totalCost w x) (totalCost w y) with hle | hle
        · refine ⟨x, x1.1, x1.2, bin 0 x (Or.inl rfl) x2 x3, fun z z1 z2 z3 => ?_⟩
          have hz : Binary vs z := fun u hu => z3 u (List.mem_cons_of_mem _ hu)
          rcases z3 v List.mem_cons_self with e | e
          · exact x4 z ⟨z1, z2⟩ e hz
          · exact hle.trans (y4 z ⟨z1, z2⟩ e hz)
        · refine ⟨y, y1.1, y1.2, bin 1 y (Or.inr rfl) y2 y3, fun z z1 z2 z3 => ?_⟩
          have hz : Binary vs z := fun u hu => z3 u (List.mem_cons_of_mem _ hu)
          rcases z3 v List.mem_cons_self with e | e
          · exact hle.trans (x4 z ⟨z1, z2⟩ e hz)
          · exact y4 z ⟨z1, z2⟩ e hz
      · refine ⟨x, x1.1, x1.2, bin 0 x (Or.inl rfl) x2 x3, fun z z1 z2 z3 => ?_⟩
        have hz : Binary vs z := fun u hu => z3 u (List.mem_cons_of_mem _ hu)
        rcases z3 v List.mem_cons_self with e | e
        · exact x4 z ⟨z1, z2⟩ e hz
        · exact absurd ⟨z, ⟨z1, z2⟩, e, hz⟩ s1
    · have s1 : ∃ x, Plan w other x ∧ x v = 1 ∧ Binary vs x := by
        refine ⟨x0, h0, (b0 v List.mem_cons_self).resolve_left (fun e => s0 ⟨x0, h0, e, ?_⟩), ?_⟩ <;>
        exact fun u hu => b0 u (List.mem_cons_of_mem _ hu)
      obtain ⟨y, y1, y2, y3, y4⟩ := side 1 (Or.inr rfl) s1
      refine ⟨y, y1.1, y1.2, bin 1 y (Or.inr rfl) y2 y3, fun z z1 z2 z3 => ?_⟩
      have hz : Binary vs z := fun u hu => z3 u (List.mem_cons_of_mem _ hu)
      rcases z3 v List.mem_cons_self with e | e
      · exact absurd ⟨z, ⟨z1, z2⟩, e, hz⟩ s0
      · exact y4 z ⟨z1, z2⟩ e hz

/-! ## Commitment -/

/-- Statuses, start-ups and shut-downs of the units that are on or off. -/
def switches (w : WNet F) : List WVar :=
  ((w.gens.filter (fun g => g.unit.committable)).flatMap (fun g => ((List.range w.len).filter (fun t => g.unit.active t)).flatMap (fun t =>
    ["status", "start_up", "shut_down"].map (fun v => WVar.of "Generator" g.name (.op v t))))) ++
  ((w.links.filter (fun g => g.unit.committable)).flatMap (fun g => ((List.range w.len).filter (fun t => g.unit.active t)).flatMap (fun t =>
    ["status", "start_up", "shut_down"].map (fun v => WVar.of "Link" g.name (.op v t)))))

omit [IsStrictOrderedRing F] in
theorem switches_iff (w : WNet F) (x : WVar → F) : Binary (switches w) x ↔ Commit.OnOff w x := by
  unfold Binary switches Commit.OnOff
  constructor
  · intro h
    refine ⟨fun g hg hc t ht ha v hv => h _ (List.mem_append_left _ ?_), fun g hg hc t ht ha v hv => h _ (List.mem_append_right _ ?_)⟩ <;>
    exact List.mem_flatMap.mpr ⟨g, List.mem_filter.mpr ⟨hg, hc⟩, List.mem_flatMap.mpr ⟨t, List.mem_filter.mpr ⟨List.mem_range.mpr ht, ha⟩,
      List.mem_map.mpr ⟨v, hv, rfl⟩⟩⟩
  · rintro ⟨h1, h2⟩ u hu
    rcases List.mem_append.mp hu with hu | hu <;>
    · obtain ⟨g, hg, hu⟩ := List.mem_flatMap.mp hu
      obtain ⟨t, ht, hu⟩ := List.mem_flatMap.mp hu
      obtain ⟨v, hv, rfl⟩ := List.mem_map.mp hu
      obtain ⟨hg, hc⟩ := List.mem_filter.mp hg
      obtain ⟨ht, ha⟩ := List.mem_filter.mp ht
      first
        | exact h1 g hg hc t (List.mem_range.mp ht) ha v hv
        | exact h2 g hg hc t (List.mem_range.mp ht) ha v hv

omit [IsStrictOrderedRing F] in
theorem switches_const (w : WNet F) : WVar.const ∉ switches w := by
  unfold switches
  simp

section
variable {w : WNet F} (hw : Sound w) (hlin : LinearCosts w) (hd : Orderly w) {other : List (Con WVar F)}
  (ho : ∀ r ∈ other, ∀ e ∈ r.terms, e.2 ≠ .const) {P : Program F} (hP : createModel w other = some P)
include hw hlin hd ho hP

/-- Unit commitment has an optimum as soon as there is a plan and costs are limited below. -/
theorem commitment_best (h0 : ∃ x, Plan w other x ∧ Commit.OnOff w x) {δ : F} (h : ∀ x, Plan w other x → Commit.OnOff w x → δ ≤ totalCost w x) :
    ∃ x, Best w other (Commit.OnOff w) x := by
  obtain ⟨x0, p0, b0⟩ := h0
  obtain ⟨x, h1, h2, h3, h4⟩ := binary_best hw hlin hd (switches w) (switches_const w) ho hP ⟨x0, p0, (switches_iff w x0).mpr b0⟩
    (fun x hx hb => h x hx ((switches_iff w x).mp hb))
  exact ⟨x, h1, h2, (switches_iff w x).mp h3, fun z z1 z2 z3 => h4 z z1 z2 ((switches_iff w z).mpr z3)⟩

/-- With costs that are not negative, one plan is enough. -/
theorem commitment_thrifty (ht : Thrifty w) (h0 : ∃ x, Plan w other x ∧ Commit.OnOff w x) : ∃ x, Best w other (Commit.OnOff w) x :=
  commitment_best hw hlin hd ho hP h0 (fun _ hx _ => cost_nonneg hlin ht hx.1)

/-- A plan with least costs has prices once its switching is fixed: there are prices at which no other way to run the assets with the same switching earns more. -/
theorem commitment_prices {x : WVar → F} (hx : Best w other (Commit.OnOff w) x) :
    ∃ lam : Name → Nat → F, ∀ z, AssetRules w z → Feasible z other → (∀ v ∈ switches w, z v = x v) →
      totalCost w x - worth w lam x ≤ totalCost w z - worth w lam z := by
  have fixed : ∀ z : WVar → F, Feasible z (other ++ (switches w).map (fun v => fixRow v (x v))) ↔ Feasible z other ∧ ∀ v ∈ switches w, z v = x v := by
    intro z
    rw [feasible_append]
    refine and_congr_right (fun _ => ?_)
    unfold Feasible
    simp only [List.forall_mem_map, fixRow_iff]
  obtain ⟨P', hP'⟩ := model_any hP (other ++ (switches w).map (fun v => fixRow v (x v)))
  have ho' : ∀ r ∈ other ++ (switches w).map (fun v => fixRow v (x v)), ∀ e ∈ r.terms, e.2 ≠ .const := by
    intro r hr e he
    rcases List.mem_append.mp hr with hr | hr
    · exact ho r hr e he
    · obtain ⟨v, hv, rfl⟩ := List.mem_map.mp hr
      rw [List.mem_singleton.mp he]
      exact fun e => switches_const w (e ▸ hv)
  have hb : Best w (other ++ (switches w).map (fun v => fixRow v (x v))) (fun _ => True) x := by
    refine ⟨hx.1, (fixed x).mpr ⟨hx.2.1, fun _ _ => rfl⟩, trivial, fun z z1 z2 _ => ?_⟩
    obtain ⟨q1, q2⟩ := (fixed z).mp z2
    refine hx.2.2.2 z z1 q1 ((switches_iff w z).mp (fun v hv => ?_))
    rw [q2 v hv]
    exact (switches_iff w x).mpr hx.2.2.1 v hv
  obtain ⟨-, lam, hl⟩ := (market hw hlin hd ho' hP' x).mp hb
  exact ⟨lam, fun z h1 h2 h3 => hl z h1 ((fixed z).mpr ⟨h2, h3⟩)⟩

end

/-! ## Example -/

theorem blockThrifty : Thrifty blockNet := by constructor <;> decide +kernel

theorem blockOnOff : Commit.OnOff blockNet (blockVal 1) := by
  refine (switches_iff blockNet (blockVal 1)).mp ?_
  unfold Binary
  decide +kernel

/-- The block that is on or off has an optimum. -/
example : ∃ x, Best blockNet [] (Commit.OnOff blockNet) x :=
  commitment_thrifty blockSound blockLinear (orderly_single rfl rfl) (by simp) (Option.some_get blockSome).symm blockThrifty
    ⟨blockVal 1, ⟨blockRules1, by simp [Feasible]⟩, blockOnOff⟩

end Verif.Opt.Whole.Exist
