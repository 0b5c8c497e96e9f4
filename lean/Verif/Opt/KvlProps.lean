import Verif.Opt.Kvl
import Verif.Graph.CyclesProps
import Verif.PowerFlow.LinearProps
import Mathlib.Algebra.Order.Field.Rat
import Mathlib.Tactic.IntervalCases
import Mathlib.Tactic.Positivity
import Mathlib.Tactic.NormNum

/-!
# Voltage law (C49)
-/

namespace Verif.Opt.Kvl

open Verif.Graph

section
variable {F : Type} [Field F] [LinearOrder F] [IsStrictOrderedRing F]

/-! ## Specification -/

/-- There are bus angles whose difference over every branch in service (of finite reactance) is
the reactance times the flow. -/
def HasAngles (es : List Edge) (w f : Nat → F) : Prop :=
  ∃ θ : Name → F, ∀ i e, es[i]? = some e → e.inf = false → e.active = true →
    w i * f i = θ e.bus0 - θ e.bus1

/-- The same, and branches out of service force their ends to have the same angle. -/
def HasAnglesTied (es : List Edge) (w f : Nat → F) : Prop :=
  ∃ θ : Name → F, ∀ (i : Nat) (e : Edge), es[i]? = some e → e.inf = false →
    if e.active then w i * f i = θ e.bus0 - θ e.bus1 else θ e.bus0 = θ e.bus1

/-! ## Potentials -/

omit [LinearOrder F] [IsStrictOrderedRing F] in
theorem walk_append {es : List Edge} {u v w : Name} {l k : List (Nat × Bool)} (h : Walk es u v l)
    (h' : Walk es v w k) : Walk es u w (l ++ k) := by
  induction h with
  | nil => exact h'
  | fwd he hi _ ih => exact Walk.fwd he hi (ih h')
  | bwd he hi _ ih => exact Walk.bwd he hi (ih h')

theorem walk_rev {es : List Edge} {u v : Name} {l : List (Nat × Bool)} (h : Walk es u v l)
    (d : Nat → F) : ∃ k, Walk es v u k ∧ walkSum d k = - walkSum d l := by
  induction h with
  | nil u => exact ⟨[], Walk.nil u, by simp [walkSum]⟩
  | @fwd i e w l he hi _ ih =>
    obtain ⟨k, hk, hs⟩ := ih
    refine ⟨k ++ [(i, false)], walk_append hk (Walk.bwd he hi (Walk.nil _)), ?_⟩
    simp only [walkSum, List.map_append, List.sum_append] at hs ⊢
    rw [hs]; simp
  | @bwd i e w l he hi _ ih =>
    obtain ⟨k, hk, hs⟩ := ih
    refine ⟨k ++ [(i, true)], walk_append hk (Walk.fwd he hi (Walk.nil _)), ?_⟩
    simp only [walkSum, List.map_append, List.sum_append] at hs ⊢
    rw [hs]; simp

theorem potential {es : List Edge} (d : Nat → F)
    (h : ∀ u l, Walk es u u l → walkSum d l = 0) :
    ∃ θ : Name → F, ∀ i e, es[i]? = some e → e.inf = false → d i = θ e.bus0 - θ e.bus1 := by
  classical
  let s : Setoid Name := ⟨fun u v => ∃ l, Walk es u v l,
    ⟨fun u => ⟨[], Walk.nil u⟩,
     fun ⟨l, hl⟩ => let ⟨k, hk, _⟩ := walk_rev hl d; ⟨k, hk⟩,
     fun ⟨l, hl⟩ ⟨k, hk⟩ => ⟨l ++ k, walk_append hl hk⟩⟩⟩
  let root : Name → Name := fun u => (Quotient.mk s u).out
  have hroot : ∀ u, ∃ l, Walk es u (root u) l := fun u => s.symm (Quotient.mk_out (s := s) u)
  refine ⟨fun u => walkSum d (hroot u).choose, ?_⟩
  intro i e he hi
  show d i = walkSum d (hroot e.bus0).choose - walkSum d (hroot e.bus1).choose
  have hw0 := (hroot e.bus0).choose_spec
  have hw1 := (hroot e.bus1).choose_spec
  have hr : root e.bus0 = root e.bus1 := by
    have : Quotient.mk s e.bus0 = Quotient.mk s e.bus1 :=
      Quotient.sound ⟨[(i, true)], Walk.fwd he hi (Walk.nil _)⟩
    simp only [root, this]
  generalize (hroot e.bus0).choose = l0 at hw0 ⊢
  generalize (hroot e.bus1).choose = l1 at hw1 ⊢
  rw [hr] at hw0
  obtain ⟨k, hk, hks⟩ := walk_rev hw0 d
  have := h _ _ (Walk.fwd he hi (walk_append hw1 hk))
  simp only [walkSum, List.map_cons, List.map_append, List.sum_cons, List.sum_append, if_true] at this hks ⊢
  rw [hks] at this
  linear_combination this

omit [LinearOrder F] [IsStrictOrderedRing F] in
/-- Differences of a potential add up to zero along a closed column. -/
theorem closed_potential (es : List Edge) (θ : Name → F) (col : Nat → Int)
    (h : ∀ bus, ∑ i ∈ Finset.range es.length, inc es bus i * col i = 0) :
    ∑ i ∈ Finset.range es.length, (match es[i]? with
      | some e => θ e.bus0 - θ e.bus1
      | none => 0) * (col i : F) = 0 := by
  classical
  let B : Finset Name := (es.map (·.bus0) ++ es.map (·.bus1)).toFinset
  have hB : ∀ i ∈ Finset.range es.length, (match es[i]? with
      | some e => θ e.bus0 - θ e.bus1
      | none => 0) * (col i : F) = ∑ b ∈ B, θ b * ((inc es b i * col i : Int) : F) := by
    intro i hi
    rw [Finset.mem_range] at hi
    have he : es[i]? = some es[i] := List.getElem?_eq_getElem hi
    simp only [inc, he]
    have h0 : (es[i]).bus0 ∈ B := by
      simp only [B, List.mem_toFinset, List.mem_append, List.mem_map]
      exact Or.inl ⟨_, List.getElem_mem hi, rfl⟩
    have h1 : (es[i]).bus1 ∈ B := by
      simp only [B, List.mem_toFinset, List.mem_append, List.mem_map]
      exact Or.inr ⟨_, List.getElem_mem hi, rfl⟩
    have : ∀ b, θ b * (((((if (es[i]).bus0 = b then (1 : Int) else 0) -
        (if (es[i]).bus1 = b then 1 else 0)) * col i : Int)) : F) =
        (if (es[i]).bus0 = b then θ b * (col i : F) else 0) -
        (if (es[i]).bus1 = b then θ b * (col i : F) else 0) := by
      intro b; split_ifs <;> push_cast <;> ring
    simp only [this, Finset.sum_sub_distrib]
    rw [Finset.sum_ite_eq, Finset.sum_ite_eq, if_pos h0, if_pos h1]
    ring
  rw [Finset.sum_congr rfl hB, Finset.sum_comm]
  apply Finset.sum_eq_zero
  intro b _
  rw [← Finset.mul_sum, ← Int.cast_sum, h b]
  simp

omit [IsStrictOrderedRing F] [LinearOrder F] in
theorem sum_range_list (n : Nat) (g : Nat → F) :
    ((List.range n).map g).sum = ∑ i ∈ Finset.range n, g i := by
  induction n with
  | zero => rfl
  | succ n ih => rw [List.range_succ, Finset.sum_range_succ]; simp [ih]

theorem kvlRow_holds (es : List Edge) (w : Nat → F) (col : List (Nat × Int)) (f : Nat → F) :
    (kvlRow es w col).holds f ↔
      ∑ i ∈ Finset.range es.length, (w i * orZero (inService es) f i) * (column col i : F) = 0 := by
  have : lin f (kvlRow es w col).terms =
      100000 * ∑ i ∈ Finset.range es.length, (w i * orZero (inService es) f i) * (column col i : F) := by
    simp only [kvlRow]
    rw [lin_flatMap, sum_range_list, Finset.mul_sum]
    apply Finset.sum_congr rfl
    intro i _
    split
    · rename_i h; rw [h]; simp
    · rw [lin_tm]; ring
  show lin f (kvlRow es w col).terms = 0 ↔ _
  rw [this, mul_eq_zero]
  constructor
  · rintro (h | h)
    · exact absurd h (by positivity)
    · exact h
  · exact Or.inr

theorem column_zero {col : List (Nat × Int)} {i : Nat} (h : ∀ x ∈ col, x.1 ≠ i) : column col i = 0 := by
  unfold column
  rw [List.filter_eq_nil_iff.mpr (by intro x hx; simpa using h x hx)]
  rfl

/-- Branches of infinite weight do not occur in `C`. -/
theorem column_inf (es : List Edge) (cycles : List (List Name)) (C : List (List (Nat × Int)))
    (hC : findCycles es cycles = .ok C) (col : List (Nat × Int)) (hcol : col ∈ C) (i : Nat) (e : Edge)
    (he : es[i]? = some e) (hi : e.inf = true) : column col i = 0 := by
  have hne : ∀ u v j, j ∈ between es u v → j ≠ i := by
    rintro u v j hj rfl
    obtain ⟨e', he', hf, -⟩ := mem_between.1 hj
    rw [he] at he'
    injection he' with he'
    subst he'
    rw [hi] at hf
    cases hf
  apply column_zero
  intro x hx
  unfold findCycles at hC
  cases hcs : collect (fun c => collect (stepEntry es) (cycleSteps c)) cycles with
  | error e => simp [hcs] at hC
  | ok cs =>
    simp only [hcs, Except.ok.injEq] at hC
    subst hC
    rcases List.mem_append.1 hcol with h | h
    · have hf := collect_forall _ _ _ hcs
      obtain ⟨c, hc⟩ : ∃ c, collect (stepEntry es) (cycleSteps c) = .ok col := by
        clear hcs hcol
        induction hf with
        | nil => simp at h
        | cons h1 _ ih =>
          rcases List.mem_cons.1 h with rfl | h
          · exact ⟨_, h1⟩
          · exact ih h
      have hf2 := collect_forall _ _ _ hc
      obtain ⟨s, hs⟩ : ∃ s, stepEntry es s = .ok x := by
        clear hc h hcol
        generalize cycleSteps c = steps at hf2
        induction hf2 with
        | nil => simp at hx
        | cons h1 _ ih =>
          rcases List.mem_cons.1 hx with rfl | h
          · exact ⟨_, h1⟩
          · exact ih h
      unfold stepEntry at hs
      cases hh : (between es s.1 s.2).head? with
      | none => simp [hh] at hs
      | some j =>
        simp only [hh, Except.ok.injEq] at hs
        subst hs
        exact hne _ _ _ (List.mem_of_head? hh)
    · obtain ⟨f, hf, hm⟩ := List.mem_flatMap.1 h
      obtain ⟨ef, hef, hhead⟩ := mem_firsts.1 hf
      unfold multiOf at hm
      simp only [hef, List.mem_map] at hm
      obtain ⟨b, hb, rfl⟩ := hm
      simp only [List.mem_cons, List.not_mem_nil, or_false] at hx
      rcases hx with rfl | rfl
      · exact hne _ _ _ (List.mem_of_head? hhead)
      · exact hne _ _ _ (List.mem_of_mem_tail hb)

/-! ## C49 -/

/-- The rows say exactly that there are bus angles consistent with the flows in which the ends of
each branch out of service have the same angle. -/
theorem kvl_tied (es : List Edge) (w : Nat → F) (cycles : List (List Name))
    (hb : CycleBasis F es cycles) :
    ∃ rows, kvlCons es w cycles = .ok rows ∧
      ∀ f, Feasible f rows ↔ HasAnglesTied es w f := by
  obtain ⟨C, hC, hclosed⟩ := cycle_columns_closed_partial es cycles hb
  refine ⟨C.map (kvlRow es w), by simp [kvlCons, hC], ?_⟩
  intro f
  have hfeas : Feasible f (C.map (kvlRow es w)) ↔ ∀ col ∈ C, ∑ i ∈ Finset.range es.length,
      (w i * orZero (inService es) f i) * (column col i : F) = 0 := by
    unfold Feasible
    constructor
    · intro h col hcol
      exact (kvlRow_holds es w col f).mp (h _ (List.mem_map.mpr ⟨col, hcol, rfl⟩))
    · intro h c hc
      obtain ⟨col, hcol, rfl⟩ := List.mem_map.mp hc
      exact (kvlRow_holds es w col f).mpr (h col hcol)
  rw [hfeas]
  constructor
  · intro h
    obtain ⟨θ, hθ⟩ := potential (fun i => w i * orZero (inService es) f i)
      (fun u l hl => cycle_columns_span es cycles hb C hC _ h u l hl)
    refine ⟨θ, ?_⟩
    intro i e he hi
    have h1 := hθ i e he hi
    have hs : inService es i = e.active := by simp [inService, he]
    cases ha : e.active with
    | true => simp only [orZero, hs, ha, if_true] at h1; simpa using h1
    | false =>
      simp only [orZero, hs, ha, Bool.false_eq_true, if_false, mul_zero] at h1 ⊢
      linear_combination -h1
  · rintro ⟨θ, hθ⟩ col hcol
    -- branches of infinite weight do not occur in `C`
    have hinf : ∀ i e, es[i]? = some e → e.inf = true → column col i = 0 :=
      fun i e he hi => column_inf es cycles C hC col hcol i e he hi
    rw [← closed_potential es θ (column col) (hclosed col hcol)]
    apply Finset.sum_congr rfl
    intro i hi
    rw [Finset.mem_range] at hi
    have he : es[i]? = some es[i] := List.getElem?_eq_getElem hi
    cases hinfi : (es[i]).inf with
    | true => rw [hinf i _ he hinfi]; simp
    | false =>
      have h1 := hθ i _ he hinfi
      have hs : inService es i = (es[i]).active := by simp [inService, he]
      simp only [he, orZero, hs]
      cases ha : (es[i]).active with
      | true => simp only [ha, if_true] at h1; simp [h1]
      | false => simp only [ha, Bool.false_eq_true, if_false] at h1; simp [h1]

/-- C49 (partial): with all branches in service, flows satisfy the rows exactly if there are bus
angles whose differences are reactance times flow; whatever is in service, flows that satisfy the
rows have such angles.  Missing: with a branch out of service not all flows that have angles satisfy
the rows (`kvl_excludes`). -/
theorem kvl_angles_partial (es : List Edge) (w : Nat → F) (cycles : List (List Name))
    (hb : CycleBasis F es cycles) :
    ∃ rows, kvlCons es w cycles = .ok rows ∧
      (∀ f, Feasible f rows → HasAngles es w f) ∧
      ((∀ e ∈ es, e.active = true) → ∀ f, Feasible f rows ↔ HasAngles es w f) := by
  obtain ⟨rows, hr, h⟩ := kvl_tied es w cycles hb
  refine ⟨rows, hr, ?_, ?_⟩
  · intro f hf
    obtain ⟨θ, hθ⟩ := (h f).mp hf
    refine ⟨θ, ?_⟩
    intro i e he hi ha
    have := hθ i e he hi
    rwa [if_pos ha] at this
  · intro hall f
    rw [h f]
    constructor
    · rintro ⟨θ, hθ⟩
      refine ⟨θ, ?_⟩
      intro i e he hi ha
      have := hθ i e he hi
      rwa [if_pos ha] at this
    · rintro ⟨θ, hθ⟩
      refine ⟨θ, ?_⟩
      intro i e he hi
      have ha := hall e (List.mem_of_getElem? he)
      rw [if_pos ha]
      exact hθ i e he hi ha

/-- The list of branches of a sub-network in the numbering of its buses. -/
def gridEdges {n m : Nat} (g : PowerFlow.Grid F n m) (order : Fin (n + 1) → Name) : List Edge :=
  List.ofFn (fun l => ⟨order (g.bus0 l), order (g.bus1 l), false, true⟩)

/-- C87 (partial): in a connected sub-network with positive reactances, all branches in service,
and no phase shifts, the linear power flow for the injections of a dispatch reproduces every flow
which the rows of the optimisation admit for these injections.  Missing: phase-shifting
transformers (`lpf_differs`). -/
theorem lpf_reproduces_partial {n m : Nat} (solve : PowerFlow.Solve F) (hs : PowerFlow.Solves solve)
    (g : PowerFlow.Grid F n m) (hz : ∀ l, 0 < g.z l) (hc : PowerFlow.Connected g)
    (hshift : ∀ l, g.shift l = 0) (order : Fin (n + 1) → Name) (cycles : List (List Name))
    (hb : CycleBasis F (gridEdges g order) cycles)
    (w f : Nat → F) (hw : ∀ l : Fin m, w l = g.z l)
    (p : Fin (n + 1) → F) (hbal : ∀ i, PowerFlow.outflow g (fun l => f l) i = p i)
    (rows : List (Con Nat F)) (hrows : kvlCons (gridEdges g order) w cycles = .ok rows)
    (hf : Feasible f rows) (l : Fin m) : PowerFlow.flows solve g p l = f l := by
  obtain ⟨rows', hr', hsound, -⟩ := kvl_angles_partial (gridEdges g order) w cycles hb
  rw [hrows] at hr'
  injection hr' with hr'
  subst hr'
  obtain ⟨θ, hθ⟩ := hsound f hf
  have hreg := PowerFlow.Bred_regular g hz hc
  have h1 : PowerFlow.FromAngles g (fun l => f l) (fun i => θ (order i)) := by
    intro l
    have he : (gridEdges g order)[(l : Nat)]? = some ⟨order (g.bus0 l), order (g.bus1 l), false, true⟩ := by
      simp [gridEdges, List.getElem?_ofFn]
    have := hθ l _ he rfl rfl
    rw [hw] at this
    rw [hshift l, sub_zero]
    exact this
  have h2 := (PowerFlow.lpf_kvl solve g (fun l => (hz l).ne') p).1
  obtain ⟨h3, h4, h5⟩ := PowerFlow.lpf_balance solve hs g hreg p
  have hsum : ∑ i, p i = 0 := by
    rw [← PowerFlow.outflow_sum g (fun l => f l)]
    exact Finset.sum_congr rfl (fun i _ => (hbal i).symm)
  have hp : ∀ i, PowerFlow.busP p i = p i := by
    intro i
    refine Fin.cases ?_ h4 i
    rw [hsum] at h5
    linear_combination h5
  have := PowerFlow.flows_unique g hz _ _ _ _ h2 h1 (fun i => by rw [h3, hp, hbal])
  exact congrFun this l

end

/-- A flow around the triangle with a doubled side. -/
example : CycleBasis ℚ (exEdges true) [["a", "b", "c"]] ∧ ∃ rows,
    kvlCons (exEdges true) (fun i => (i : ℚ) + 1) [["a", "b", "c"]] = .ok rows ∧ rows.length = 2 ∧
    Feasible (fun i => [12, 3, 6, -3].getD i 0) rows ∧
    ¬ Feasible (fun i => [12, 3, 6, 3].getD i 0) rows :=
  ⟨exEdges_basis true, _, rfl, by decide +kernel, by decide +kernel, by decide +kernel⟩

/-- **Finding** (constraints.py 693-717): with the third side of the triangle out of service any flow on
the first two sides has angles, but the rows only admit flows without a drop over the two
sides together. -/
theorem kvl_excludes : ∃ (es : List Edge) (cycles : List (List Name)) (w f : Nat → ℚ),
    CycleBasis ℚ es cycles ∧ HasAngles es w f ∧
    ∃ rows, kvlCons es w cycles = .ok rows ∧ ¬ Feasible f rows := by
  refine ⟨exEdges false, [["a", "b", "c"]], fun _ => 1, fun i => [1, 1, 0, -1].getD i 0,
    exEdges_basis false, ⟨fun b => if b = "a" then 2 else if b = "b" then 1 else 0, ?_⟩, _, rfl,
    by decide +kernel⟩
  intro i e he hi ha
  have : i < 4 := by
    have := (List.getElem?_eq_some_iff.1 he).1
    simpa [exEdges] using this
  interval_cases i <;> simp [exEdges] at he <;> subst he <;> simp at ha ⊢ <;> norm_num

/-- Two buses with two parallel branches. -/
def exGrid (shift : ℚ) : PowerFlow.Grid ℚ 1 2 where
  bus0 := fun _ => 0
  bus1 := fun _ => 1
  z := fun _ => 1
  shift := fun l => if l = 0 then shift else 0

def exOrder : Fin 2 → Name := fun i => if i = 0 then "a" else "b"

theorem exGrid_basis (shift : ℚ) : CycleBasis ℚ (gridEdges (exGrid shift) exOrder) [] := by
  apply cycleBasis_of_potential
  · intro c hc; simp at hc
  · intro D hD _
    refine ⟨fun x => if x = "b" then D "b" "a" else 0, ?_⟩
    intro u v ⟨i, e, he, _, h⟩
    have : e ∈ gridEdges (exGrid shift) exOrder := List.mem_of_getElem? he
    have he : e = ⟨"a", "b", false, true⟩ := by
      simp only [gridEdges, exGrid, exOrder, List.ofFn_succ, List.ofFn_zero, List.mem_cons,
        List.not_mem_nil] at this
      rcases this with h | h | h
      · simpa using h
      · simpa using h
      · exact h.elim
    subst he
    have := hD "a" "b" (by decide)
    rcases h with ⟨rfl, rfl⟩ | ⟨rfl, rfl⟩ <;> simp <;> linarith

/-- The hypotheses of `lpf_reproduces_partial` hold for the two branches, for equal flows. -/
example : (∀ l, 0 < (exGrid 0).z l) ∧ PowerFlow.Connected (exGrid 0) ∧ (∀ l, (exGrid 0).shift l = 0) ∧
    (∀ i, PowerFlow.outflow (exGrid 0) (fun _ => 3) i = (if i = 0 then 6 else -6)) ∧
    ∃ rows, kvlCons (gridEdges (exGrid 0) exOrder) (fun _ => (1 : ℚ)) [] = .ok rows ∧
      rows.length = 1 ∧ Feasible (fun _ => 3) rows := by
  refine ⟨by decide +kernel, ?_, by decide +kernel, by decide +kernel, _, rfl, by decide +kernel,
    by decide +kernel⟩
  intro i
  refine Fin.cases .refl (fun j => ?_) i
  have : j.succ = (1 : Fin 2) := by rw [Subsingleton.elim j 0]; rfl
  rw [this]
  exact .single ⟨0, Or.inl ⟨rfl, rfl⟩⟩

/-- **Finding** (constraints.py 699-717): the rows do not know the phase shift.  The flows they admit
for two parallel branches, one of which shifts the phase, are not those of the linear power
flow for the same injections: they come from no angles. -/
theorem lpf_differs : ∃ rows, kvlCons (gridEdges (exGrid 2) exOrder) (fun _ => 1) [] = .ok rows ∧
    Feasible (fun _ => (3 : ℚ)) rows ∧
    (∀ i, PowerFlow.outflow (exGrid 2) (fun _ => 3) i = (if i = 0 then 6 else -6)) ∧
    ¬ ∃ θ, PowerFlow.FromAngles (exGrid 2) (fun _ => 3) θ := by
  refine ⟨_, rfl, by decide +kernel, by decide +kernel, ?_⟩
  rintro ⟨θ, hθ⟩
  have h0 := hθ 0
  have h1 := hθ 1
  simp [exGrid] at h0 h1
  linarith

end Verif.Opt.Kvl
