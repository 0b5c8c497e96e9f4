import Verif.Graph.Cycles
import Verif.Graph.Lemmas
import Mathlib.Tactic.Ring
import Mathlib.Algebra.BigOperators.Group.Finset.Sigma
import Mathlib.Data.Finset.Card
import Mathlib.Tactic.Abel
import Mathlib.Tactic.Conv
import Mathlib.Tactic.LinearCombination
import Mathlib.Tactic.Linarith
import Mathlib.Algebra.Order.Ring.Rat

/-!
# Property C24: the cycle matrix
-/

namespace Verif.Graph

/-! ### Specification -/

/-- Incidence of branch `i` with the bus `b`: `+1` at the start, `-1` at the end. -/
def inc (es : List Edge) (b : Name) (i : Nat) : Int :=
  match es[i]? with
  | none => 0
  | some e => (if e.bus0 = b then 1 else 0) - (if e.bus1 = b then 1 else 0)

/-- A walk along branches of finite weight; a step is a branch with its direction
(`true`: from `bus0` to `bus1`). -/
inductive Walk (es : List Edge) : Name → Name → List (Nat × Bool) → Prop
  | nil (u : Name) : Walk es u u []
  | fwd {i : Nat} {e : Edge} {w : Name} {l : List (Nat × Bool)} :
      es[i]? = some e → e.inf = false → Walk es e.bus1 w l → Walk es e.bus0 w ((i, true) :: l)
  | bwd {i : Nat} {e : Edge} {w : Name} {l : List (Nat × Bool)} :
      es[i]? = some e → e.inf = false → Walk es e.bus0 w l → Walk es e.bus1 w ((i, false) :: l)

/-- The sum of the drops `d` met on a walk. -/
def walkSum {F : Type} [Ring F] (d : Nat → F) (l : List (Nat × Bool)) : F :=
  (l.map (fun s => if s.2 then d s.1 else - d s.1)).sum

/-- Two nodes are adjacent in the simple graph. -/
def Adj (es : List Edge) (u v : Name) : Prop :=
  ∃ (i : Nat) (e : Edge), es[i]? = some e ∧ e.inf = false ∧
    ((e.bus0 = u ∧ e.bus1 = v) ∨ (e.bus0 = v ∧ e.bus1 = u))

/-- A closed walk in the simple graph, as the list of its nodes. -/
def ClosedIn (es : List Edge) (cycle : List Name) : Prop :=
  ∀ s ∈ cycleSteps cycle, Adj es s.1 s.2

/-- **Library assumption** on `nx.cycle_basis(graph)`: its members are cycles of the graph
(single nodes for self-loops), and they generate all cycles: a function on directed edges
that changes sign with the direction and adds up to zero around every member adds up to zero
around every cycle. -/
structure CycleBasis (F : Type) [Ring F] (es : List Edge) (cycles : List (List Name)) : Prop where
  closed : ∀ c ∈ cycles, ClosedIn es c
  spans : ∀ D : Name → Name → F, (∀ u v, u ≠ v → D u v = - D v u) →
    (∀ c ∈ cycles, ((cycleSteps c).map (fun s => D s.1 s.2)).sum = 0) →
    ∀ c, ClosedIn es c → ((cycleSteps c).map (fun s => D s.1 s.2)).sum = 0

/-! ### Lemmas -/

theorem mem_between {es : List Edge} {u v : Name} {i : Nat} :
    i ∈ between es u v ↔ ∃ e, es[i]? = some e ∧ e.inf = false ∧ e.joins u v = true := by
  unfold between
  rw [List.mem_filter, List.mem_range]
  constructor
  · rintro ⟨_, h⟩
    cases he : es[i]? with
    | none => simp [he] at h
    | some e => simp only [he, Bool.and_eq_true, Bool.not_eq_eq_eq_not, Bool.not_true] at h
                exact ⟨e, rfl, h⟩
  · rintro ⟨e, he, h1, h2⟩
    refine ⟨?_, by simp [he, h1, h2]⟩
    rw [List.getElem?_eq_some_iff] at he
    exact he.1

theorem joins_comm (e : Edge) (u v : Name) : e.joins u v = e.joins v u := by
  unfold Edge.joins; congr 1; exact propext or_comm

theorem between_comm (es : List Edge) (u v : Name) : between es u v = between es v u := by
  unfold between
  apply List.filter_congr
  intro i _
  cases es[i]? with
  | none => rfl
  | some e => simp [joins_comm e u v]

theorem between_nodup (es : List Edge) (u v : Name) : (between es u v).Nodup :=
  List.Nodup.filter _ List.nodup_range

theorem adj_iff {es : List Edge} {u v : Name} : Adj es u v ↔ between es u v ≠ [] := by
  constructor
  · rintro ⟨i, e, he, h1, h2⟩ hnil
    have : i ∈ between es u v := mem_between.2 ⟨e, he, h1, by simpa [Edge.joins] using h2⟩
    rw [hnil] at this; simp at this
  · intro h
    obtain ⟨i, l, hl⟩ := List.exists_cons_of_ne_nil h
    obtain ⟨e, he, h1, h2⟩ := mem_between.1 (by rw [hl]; simp : i ∈ between es u v)
    exact ⟨i, e, he, h1, by simpa [Edge.joins] using h2⟩

/-- The sum of a column against a row is the sum over its entries. -/
theorem sum_column {F : Type} [CommRing F] (g : Nat → F) (n : Nat) (en : List (Nat × Int))
    (h : ∀ e ∈ en, e.1 < n) :
    ∑ i ∈ Finset.range n, g i * (column en i : F) = (en.map (fun e => g e.1 * (e.2 : F))).sum := by
  induction en with
  | nil => simp [column]
  | cons e en ih =>
    have ih' := ih (fun x hx => h x (by simp [hx]))
    have hc : ∀ i, (column (e :: en) i : F) = (if e.1 = i then (e.2 : F) else 0) + (column en i : F) := by
      intro i
      unfold column
      by_cases hi : e.1 = i
      · rw [List.filter_cons_of_pos (by simpa using hi)]; simp [hi]
      · rw [List.filter_cons_of_neg (by simpa using hi)]; simp [hi]
    simp only [hc, mul_add, Finset.sum_add_distrib, ih', List.map_cons, List.sum_cons, mul_ite,
      mul_zero]
    congr 1
    rw [Finset.sum_ite_eq]
    simp [h e (by simp)]

/-- What `stepEntry` delivers. -/
theorem stepEntry_ok {es : List Edge} {s : Name × Name} {x : Nat × Int}
    (h : stepEntry es s = .ok x) : ∃ e, es[x.1]? = some e ∧ e.inf = false ∧
      ((e.bus0 = s.1 ∧ e.bus1 = s.2 ∧ x.2 = 1) ∨ (e.bus0 = s.2 ∧ e.bus1 = s.1 ∧ e.bus0 ≠ e.bus1 ∧ x.2 = -1)) ∧
      (between es s.1 s.2).head? = some x.1 := by
  unfold stepEntry at h
  cases hh : (between es s.1 s.2).head? with
  | none => simp [hh] at h
  | some i =>
    simp only [hh, Except.ok.injEq] at h
    subst h
    obtain ⟨e, he, h1, h2⟩ := mem_between.1 (List.mem_of_head? hh)
    refine ⟨e, he, h1, ?_, rfl⟩
    simp only [Edge.joins, decide_eq_true_eq] at h2
    simp only [orient, he, Option.map_some, Option.some.injEq]
    by_cases hb : e.bus0 = s.1
    · left
      rcases h2 with h2 | h2
      · simp [h2.1, h2.2]
      · simp only [hb, if_true, true_and, and_true]
        rw [h2.2, ← hb, h2.1]
    · right
      rcases h2 with h2 | h2
      · exact absurd h2.1 hb
      · refine ⟨h2.1, h2.2, ?_, by simp [hb]⟩
        intro h; exact hb (h.trans h2.2)

theorem collect_forall {α β : Type} (f : α → Except Err β) (l : List α) (r : List β)
    (h : collect f l = .ok r) : List.Forall₂ (fun a b => f a = .ok b) l r := by
  induction l generalizing r with
  | nil => simp only [collect, Except.ok.injEq] at h; subst h; exact .nil
  | cons a l ih =>
    cases ha : f a with
    | error e => simp [collect, ha] at h
    | ok b =>
      cases hl : collect f l with
      | error e => simp [collect, ha, hl] at h
      | ok bs =>
        simp only [collect, ha, hl, Except.ok.injEq] at h
        subst h
        exact .cons ha (ih bs hl)

theorem entries_lt {es : List Edge} {l : List (Name × Name)} {col : List (Nat × Int)}
    (h : List.Forall₂ (fun s x => stepEntry es s = .ok x) l col) :
    ∀ e ∈ col, e.1 < es.length := by
  intro e he
  induction h with
  | nil => simp at he
  | cons h _ ih =>
    rcases List.mem_cons.1 he with rfl | he
    · obtain ⟨e', he', _⟩ := stepEntry_ok h
      exact (List.getElem?_eq_some_iff.1 he').1
    · exact ih he

/-- The steps of a cycle telescope. -/
theorem cycleSteps_telescope {F : Type} [AddCommGroup F] (p : Name → F) (c : List Name) :
    ((cycleSteps c).map (fun s => p s.1 - p s.2)).sum = 0 := by
  have aux : ∀ (l : List Name) (a z : Name),
      (((a :: l).zip (l ++ [z])).map (fun s => p s.1 - p s.2)).sum = p a - p z := by
    intro l
    induction l with
    | nil => intro a z; simp
    | cons b l ih => intro a z; simp only [List.cons_append, List.zip_cons_cons, List.map_cons,
                       List.sum_cons]; rw [ih b z]; abel
  cases c with
  | nil => rfl
  | cons a l =>
    simp only [cycleSteps, List.tail_cons, List.take_succ_cons, List.take_zero]
    rw [aux l a a]; simp

theorem forall₂_sum {α β F : Type} [AddMonoid F] (f : α → F) (g : β → F) (R : α → β → Prop)
    (h : ∀ a b, R a b → f a = g b) {l : List α} {r : List β} (hlr : List.Forall₂ R l r) :
    (l.map f).sum = (r.map g).sum := by
  induction hlr with
  | nil => rfl
  | cons hab _ ih => simp [h _ _ hab, ih]

theorem mem_multiOf {es : List Edge} {f : Nat} {col : List (Nat × Int)} (h : col ∈ multiOf es f) :
    ∃ e b, es[f]? = some e ∧ b ∈ (between es e.bus0 e.bus1).tail ∧
      col = [(f, 1), (b, multiSign es f b)] := by
  unfold multiOf at h
  cases he : es[f]? with
  | none => simp [he] at h
  | some e =>
    simp only [he, List.mem_map] at h
    obtain ⟨b, hb, rfl⟩ := h
    exact ⟨e, b, rfl, hb, rfl⟩

theorem mem_firsts {es : List Edge} {f : Nat} : f ∈ firsts es ↔
    ∃ e, es[f]? = some e ∧ (between es e.bus0 e.bus1).head? = some f := by
  unfold firsts
  rw [List.mem_filter, List.mem_range]
  constructor
  · rintro ⟨_, h⟩
    cases he : es[f]? with
    | none => simp [he] at h
    | some e => exact ⟨e, rfl, by simpa [he] using h⟩
  · rintro ⟨e, he, h⟩
    refine ⟨?_, by simp [he, h]⟩
    rw [List.getElem?_eq_some_iff] at he
    exact he.1

/-! ### C24 -/

/-- **C24, first half (partial: for the incidence matrix of all branches; `incidence_matrix` itself
leaves out branches that are out of service, see `cycle_through_inactive`).** With the cycles delivered by `nx.cycle_basis`, `find_cycles` does
not fail and every column of `C` is a cycle of the multigraph: the incidence matrix of all
branches of the sub-network annihilates it. -/
theorem cycle_columns_closed_partial {F : Type} [Ring F] (es : List Edge) (cycles : List (List Name))
    (hb : CycleBasis F es cycles) :
    ∃ C, findCycles es cycles = .ok C ∧
      ∀ col ∈ C, ∀ bus, ∑ i ∈ Finset.range es.length, inc es bus i * column col i = 0 := by
  have hstep : ∀ c ∈ cycles, ∃ r, collect (stepEntry es) (cycleSteps c) = .ok r := by
    intro c hc
    have := hb.closed c hc
    unfold ClosedIn at this
    generalize cycleSteps c = l at this
    induction l with
    | nil => exact ⟨[], rfl⟩
    | cons s l ih =>
      obtain ⟨r, hr⟩ := ih (fun x hx => this x (by simp [hx]))
      have hs := adj_iff.1 (this s (by simp))
      obtain ⟨i, t, ht⟩ := List.exists_cons_of_ne_nil hs
      exact ⟨(i, orient es i s.1) :: r, by simp [collect, stepEntry, ht, hr]⟩
  have hall : ∃ cs, collect (fun c => collect (stepEntry es) (cycleSteps c)) cycles = .ok cs := by
    clear hb
    induction cycles with
    | nil => exact ⟨[], rfl⟩
    | cons c l ih =>
      obtain ⟨r, hr⟩ := hstep c (by simp)
      obtain ⟨cs, hcs⟩ := ih (fun x hx => hstep x (by simp [hx]))
      exact ⟨r :: cs, by simp [collect, hr, hcs]⟩
  obtain ⟨cs, hcs⟩ := hall
  refine ⟨cs ++ (firsts es).flatMap (multiOf es), by simp [findCycles, hcs], ?_⟩
  intro col hcol bus
  rcases List.mem_append.1 hcol with hcol | hcol
  · have hf := collect_forall _ _ _ hcs
    obtain ⟨c, _, hc⟩ : ∃ c ∈ cycles, collect (stepEntry es) (cycleSteps c) = .ok col := by
      clear hcs hb hstep
      induction hf with
      | nil => simp at hcol
      | cons h _ ih =>
        rcases List.mem_cons.1 hcol with rfl | hcol
        · exact ⟨_, by simp, h⟩
        · obtain ⟨c, hc, hh⟩ := ih (List.mem_append.2 (Or.inl hcol)) hcol
          exact ⟨c, by simp [hc], hh⟩
    have hf2 := collect_forall _ _ _ hc
    have hlt := entries_lt hf2
    have hsum := sum_column (F := Int) (inc es bus) es.length col hlt
    simp only [Int.cast_id] at hsum
    rw [hsum]
    rw [← forall₂_sum (fun s : Name × Name => (if s.1 = bus then (1 : Int) else 0) -
      (if s.2 = bus then 1 else 0)) (fun e => inc es bus e.1 * e.2) _ ?_ hf2]
    · exact cycleSteps_telescope (fun u => if u = bus then (1 : Int) else 0) c
    · intro s x hx
      obtain ⟨e, he, _, h, _⟩ := stepEntry_ok hx
      rcases h with ⟨h0, h1, h2⟩ | ⟨h0, h1, _, h2⟩
      · simp [inc, he, h0, h1, h2]
      · simp [inc, he, h0, h1, h2]
  · obtain ⟨f, hf, hcol⟩ := List.mem_flatMap.1 hcol
    obtain ⟨e, b, he, hbm, rfl⟩ := mem_multiOf hcol
    obtain ⟨eb, heb, _, hj⟩ := mem_between.1 (List.mem_of_mem_tail hbm)
    have h1 := (List.getElem?_eq_some_iff.1 he).1
    have h2 := (List.getElem?_eq_some_iff.1 heb).1
    have hsum := sum_column (F := Int) (inc es bus) es.length [(f, 1), (b, multiSign es f b)]
      (by simp [h1, h2])
    simp only [Int.cast_id] at hsum
    rw [hsum]
    simp only [Edge.joins, decide_eq_true_eq] at hj
    simp only [List.map_cons, List.map_nil, List.sum_cons, List.sum_nil, inc, he, heb, multiSign,
      Option.map_some, Option.some.injEq]
    rcases hj with ⟨h0, h1⟩ | ⟨h0, h1⟩
    · simp [h0, h1]
    · by_cases hs : eb.bus0 = e.bus0
      · have : e.bus1 = e.bus0 := h0.symm.trans hs
        simp [hs, h1, this]
      · rw [if_neg hs]; simp only [h0, h1]; ring

/-- **C24, second half.** If the drops `d` of the branches (from `bus0` to `bus1`) add up to
zero along every column of `C`, they add up to zero around every closed walk of the
multigraph of branches of finite weight, including loops of parallel branches and self-loops. -/
theorem cycle_columns_span {F : Type} [CommRing F] (es : List Edge) (cycles : List (List Name))
    (hb : CycleBasis F es cycles) (C : List (List (Nat × Int)))
    (hC : findCycles es cycles = .ok C) (d : Nat → F)
    (hd : ∀ col ∈ C, ∑ i ∈ Finset.range es.length, d i * (column col i : F) = 0)
    (u : Name) (l : List (Nat × Bool)) (hw : Walk es u u l) : walkSum d l = 0 := by
  -- the columns
  unfold findCycles at hC
  cases hcs : collect (fun c => collect (stepEntry es) (cycleSteps c)) cycles with
  | error e => simp [hcs] at hC
  | ok cs =>
  simp only [hcs, Except.ok.injEq] at hC
  subst hC
  -- the drop along the representative of a pair of nodes
  let D : Name → Name → F := fun u v =>
    match (between es u v).head? with
    | none => 0
    | some i => ((orient es i u : Int) : F) * d i
  have hDanti : ∀ u v, u ≠ v → D u v = - D v u := by
    intro u v huv
    simp only [D]
    rw [between_comm es v u]
    cases hh : (between es u v).head? with
    | none => simp
    | some i =>
      simp only
      obtain ⟨e, he, _, hj⟩ := mem_between.1 (List.mem_of_head? hh)
      simp only [Edge.joins, decide_eq_true_eq] at hj
      simp only [orient, he, Option.map_some, Option.some.injEq]
      rcases hj with ⟨h0, h1⟩ | ⟨h0, h1⟩
      · simp [h0, huv]
      · simp [h0, Ne.symm huv]
  have hDstep : ∀ s x, stepEntry es s = .ok x → D s.1 s.2 = d x.1 * (x.2 : F) := by
    intro s x hx
    unfold stepEntry at hx
    simp only [D]
    cases hh : (between es s.1 s.2).head? with
    | none => simp [hh] at hx
    | some i => simp only [hh, Except.ok.injEq] at hx; subst hx; simp only; ring
  have hDcyc : ∀ c ∈ cycles, ((cycleSteps c).map (fun s => D s.1 s.2)).sum = 0 := by
    have hf := collect_forall _ _ _ hcs
    intro c hc
    obtain ⟨col, hcol, hccol⟩ : ∃ col ∈ cs, collect (stepEntry es) (cycleSteps c) = .ok col := by
      clear hd hcs hb hDstep hDanti
      induction hf with
      | nil => simp at hc
      | cons h _ ih =>
        rcases List.mem_cons.1 hc with rfl | hc
        · exact ⟨_, by simp, h⟩
        · obtain ⟨x, hx, hh⟩ := ih hc
          exact ⟨x, by simp [hx], hh⟩
    have hf2 := collect_forall _ _ _ hccol
    rw [forall₂_sum (fun s : Name × Name => D s.1 s.2) (fun e : Nat × Int => d e.1 * (e.2 : F)) _
      hDstep hf2]
    have h0 := hd col (List.mem_append.2 (Or.inl hcol))
    rw [sum_column d es.length col] at h0
    · exact h0
    · exact entries_lt hf2
  have hspan := hb.spans D hDanti hDcyc
  -- a single branch against its representative
  have hbranch : ∀ (i : Nat) (e : Edge), es[i]? = some e → e.inf = false → d i = D e.bus0 e.bus1 := by
    intro i e he hinf
    have hmem : i ∈ between es e.bus0 e.bus1 :=
      mem_between.2 ⟨e, he, hinf, by simp [Edge.joins]⟩
    obtain ⟨f, t, ht⟩ := List.exists_cons_of_ne_nil (List.ne_nil_of_mem hmem)
    obtain ⟨ef, hef, hfinf, hfj⟩ := mem_between.1 (by rw [ht]; simp : f ∈ between es e.bus0 e.bus1)
    have hhead : (between es e.bus0 e.bus1).head? = some f := by rw [ht]; rfl
    have hfj' := hfj
    simp only [Edge.joins, decide_eq_true_eq] at hfj
    have hpair : between es ef.bus0 ef.bus1 = between es e.bus0 e.bus1 := by
      rcases hfj with ⟨h0, h1⟩ | ⟨h0, h1⟩
      · rw [h0, h1]
      · rw [h0, h1, between_comm]
    simp only [D, hhead, orient, hef, Option.map_some, Option.some.injEq]
    by_cases hif : i = f
    · subst hif
      have : ef = e := by rw [he] at hef; exact (Option.some.inj hef).symm
      subst this
      simp
    · have hit : i ∈ t := by
        rw [ht] at hmem
        rcases List.mem_cons.1 hmem with h | h
        · exact absurd h hif
        · exact h
      have hff : f ∈ firsts es := mem_firsts.2 ⟨ef, hef, by rw [hpair]; exact hhead⟩
      have hcolm : [(f, (1 : Int)), (i, multiSign es f i)] ∈ (firsts es).flatMap (multiOf es) := by
        refine List.mem_flatMap.2 ⟨f, hff, ?_⟩
        unfold multiOf
        rw [hef]
        simp only [hpair, ht, List.tail_cons, List.mem_map]
        exact ⟨i, hit, rfl⟩
      have h0 := hd _ (List.mem_append.2 (Or.inr hcolm))
      rw [sum_column d es.length _ (by
        simp [(List.getElem?_eq_some_iff.1 he).1, (List.getElem?_eq_some_iff.1 hef).1])] at h0
      simp only [List.map_cons, List.map_nil, List.sum_cons, List.sum_nil, multiSign, he, hef,
        Option.map_some, Option.some.injEq] at h0
      by_cases hs : e.bus0 = ef.bus0
      · simp only [hs, if_true] at h0 ⊢
        push_cast at h0 ⊢
        linear_combination -h0
      · have hs' : ¬ ef.bus0 = e.bus0 := fun h => hs h.symm
        rw [if_neg hs] at h0
        rw [if_neg hs']
        push_cast at h0 ⊢
        linear_combination h0
  -- the walk in the simple graph
  have hwalk : ∀ (u w : Name) (l : List (Nat × Bool)), Walk es u w l →
      ∃ ns : List Name, (∀ s ∈ (u :: ns).zip ns, Adj es s.1 s.2) ∧ (u :: ns).getLast (by simp) = w ∧
        walkSum d l = (((u :: ns).zip ns).map (fun s => D s.1 s.2)).sum := by
    intro u w l hw
    induction hw with
    | nil u => exact ⟨[], by simp, by simp, by simp [walkSum]⟩
    | @fwd i e w l he hinf _ ih =>
      obtain ⟨ns, h1, h2, h3⟩ := ih
      refine ⟨e.bus1 :: ns, ?_, ?_, ?_⟩
      · intro s hs
        simp only [List.zip_cons_cons, List.mem_cons] at hs
        rcases hs with rfl | hs
        · exact ⟨i, e, he, hinf, Or.inl ⟨rfl, rfl⟩⟩
        · exact h1 s hs
      · rw [List.getLast_cons (by simp)]; exact h2
      · simp only [walkSum, List.map_cons, List.sum_cons, List.zip_cons_cons, if_true]
        simp only [walkSum] at h3
        rw [h3, hbranch i e he hinf]
    | @bwd i e w l he hinf _ ih =>
      obtain ⟨ns, h1, h2, h3⟩ := ih
      by_cases hsl : e.bus0 = e.bus1
      · -- a self-loop backwards: the loop contributes zero
        refine ⟨ns, by rw [← hsl]; exact h1, by simp only [← hsl]; exact h2, ?_⟩
        have hz : D e.bus0 e.bus1 = 0 := by
          have := hspan [e.bus0] (by
            intro s hs
            simp only [cycleSteps, List.tail_cons, List.take_succ_cons, List.take_zero,
              List.nil_append, List.zip_cons_cons, List.zip_nil_left, List.mem_singleton] at hs
            subst hs
            exact ⟨i, e, he, hinf, Or.inl ⟨rfl, hsl.symm⟩⟩)
          simp only [cycleSteps, List.tail_cons, List.take_succ_cons, List.take_zero,
            List.nil_append, List.zip_cons_cons, List.zip_nil_left, List.map_cons, List.map_nil,
            List.sum_cons, List.sum_nil, add_zero] at this
          rw [← hsl]; exact this
        simp only [walkSum, List.map_cons, List.sum_cons, Bool.false_eq_true, if_false] at h3 ⊢
        rw [h3, hbranch i e he hinf, hz, ← hsl]; simp
      · refine ⟨e.bus0 :: ns, ?_, ?_, ?_⟩
        · intro s hs
          simp only [List.zip_cons_cons, List.mem_cons] at hs
          rcases hs with rfl | hs
          · exact ⟨i, e, he, hinf, Or.inr ⟨rfl, rfl⟩⟩
          · exact h1 s hs
        · rw [List.getLast_cons (by simp)]; exact h2
        · simp only [walkSum, List.map_cons, List.sum_cons, List.zip_cons_cons, Bool.false_eq_true,
            if_false]
          simp only [walkSum] at h3
          rw [h3, hbranch i e he hinf, hDanti _ _ hsl, neg_neg]
  obtain ⟨ns, h1, h2, h3⟩ := hwalk u u l hw
  rw [h3]
  cases ns with
  | nil => simp
  | cons n ns =>
    -- the nodes after the first form a cycle ending in `u`
    have hcs : cycleSteps (u :: (n :: ns).dropLast) = (u :: n :: ns).zip (n :: ns) := by
      have hlast : (n :: ns) = (n :: ns).dropLast ++ [u] := by
        conv_lhs => rw [← List.dropLast_append_getLast (l := n :: ns) (by simp)]
        rw [List.getLast_cons (by simp)] at h2
        rw [h2]
      simp only [cycleSteps, List.tail_cons, List.take_succ_cons, List.take_zero]
      rw [← hlast]
      have hz : (u :: n :: ns).zip (n :: ns) = (u :: (n :: ns).dropLast).zip (n :: ns) := by
        conv_lhs => arg 1; rw [hlast]
        have : ∀ (a : List Name) (b : List Name) (x : Name), b.length = a.length →
            (a ++ [x]).zip b = a.zip b := by
          intro a
          induction a with
          | nil => intro b x h; cases b with
            | nil => rfl
            | cons _ _ => simp at h
          | cons y a ih => intro b x h; cases b with
            | nil => rfl
            | cons z b => simp only [List.cons_append, List.zip_cons_cons]; rw [ih b x (by simpa using h)]
        rw [← List.cons_append, this]
        simp
      exact hz.symm
    have := hspan (u :: (n :: ns).dropLast) (by
      intro s hs; rw [hcs] at hs; exact h1 s hs)
    rw [hcs] at this
    exact this

/-- A potential for every admissible function shows that the cycles generate all cycles. -/
theorem cycleBasis_of_potential {F : Type} [Ring F] (es : List Edge) (cycles : List (List Name))
    (hc : ∀ c ∈ cycles, ClosedIn es c)
    (hp : ∀ D : Name → Name → F, (∀ u v, u ≠ v → D u v = - D v u) →
      (∀ c ∈ cycles, ((cycleSteps c).map (fun s => D s.1 s.2)).sum = 0) →
      ∃ p : Name → F, ∀ u v, Adj es u v → D u v = p u - p v) : CycleBasis F es cycles := by
  refine ⟨hc, ?_⟩
  intro D h1 h2 c hcl
  obtain ⟨p, hp⟩ := hp D h1 h2
  rw [← cycleSteps_telescope p c]
  congr 1
  apply List.map_congr_left
  intro s hs
  exact hp _ _ (hcl s hs)

/-- A triangle with a doubled side (in the other direction). -/
def exEdges (active : Bool) : List Edge :=
  [⟨"a", "b", false, true⟩, ⟨"b", "c", false, true⟩, ⟨"a", "c", false, active⟩,
   ⟨"b", "a", false, true⟩]

theorem exEdges_adj {active : Bool} {u v : Name} (h : Adj (exEdges active) u v) :
    (u = "a" ∧ v = "b") ∨ (u = "b" ∧ v = "a") ∨ (u = "b" ∧ v = "c") ∨ (u = "c" ∧ v = "b") ∨
    (u = "a" ∧ v = "c") ∨ (u = "c" ∧ v = "a") := by
  obtain ⟨i, e, he, _, h⟩ := h
  have : e ∈ exEdges active := List.mem_of_getElem? he
  simp only [exEdges, List.mem_cons, List.not_mem_nil, or_false] at this
  rcases this with rfl | rfl | rfl | rfl <;> rcases h with ⟨h1, h2⟩ | ⟨h1, h2⟩ <;>
    simp only at h1 h2 <;> subst h1 <;> subst h2 <;> simp

theorem exEdges_basis (active : Bool) : CycleBasis ℚ (exEdges active) [["a", "b", "c"]] := by
  apply cycleBasis_of_potential
  · intro c hc
    simp only [List.mem_singleton] at hc
    subst hc
    intro s hs
    simp only [cycleSteps, List.tail_cons, List.take_succ_cons, List.take_zero, List.cons_append,
      List.nil_append, List.zip_cons_cons, List.zip_nil_left, List.mem_cons, List.not_mem_nil,
      or_false] at hs
    rcases hs with rfl | rfl | rfl
    · exact ⟨0, _, rfl, rfl, Or.inl ⟨rfl, rfl⟩⟩
    · exact ⟨1, _, rfl, rfl, Or.inl ⟨rfl, rfl⟩⟩
    · exact ⟨2, _, rfl, rfl, Or.inr ⟨rfl, rfl⟩⟩
  · intro D hD hc
    have h := hc _ (List.mem_singleton.2 rfl)
    simp only [cycleSteps, List.tail_cons, List.take_succ_cons, List.take_zero, List.cons_append,
      List.nil_append, List.zip_cons_cons, List.zip_nil_left, List.map_cons, List.map_nil,
      List.sum_cons, List.sum_nil] at h
    have h1 := hD "a" "b" (by decide)
    have h2 := hD "b" "c" (by decide)
    have h3 := hD "c" "a" (by decide)
    refine ⟨fun x => if x = "b" then D "b" "a" else if x = "c" then D "c" "a" else 0, ?_⟩
    intro u v huv
    rcases exEdges_adj huv with ⟨rfl, rfl⟩ | ⟨rfl, rfl⟩ | ⟨rfl, rfl⟩ | ⟨rfl, rfl⟩ | ⟨rfl, rfl⟩ |
      ⟨rfl, rfl⟩ <;> simp <;> linarith

/-- Non-vacuity: the columns of the triangle with a doubled side. -/
example : CycleBasis ℚ (exEdges true) [["a", "b", "c"]] ∧
    (match findCycles (exEdges true) [["a", "b", "c"]] with
      | .ok C => decide (C = [[(0, 1), (1, 1), (2, -1)], [(0, 1), (3, 1)]])
      | .error _ => false) = true :=
  ⟨exEdges_basis true, by decide +kernel⟩

theorem firsts_nodup (es : List Edge) : (firsts es).Nodup := List.Nodup.filter _ List.nodup_range

/-- The representative of a branch of finite weight. -/
theorem exists_first {es : List Edge} {i : Nat} {e : Edge} (he : es[i]? = some e)
    (hi : e.inf = false) : ∃ f ef, (between es e.bus0 e.bus1).head? = some f ∧ es[f]? = some ef ∧
      between es ef.bus0 ef.bus1 = between es e.bus0 e.bus1 ∧ f ∈ firsts es := by
  have hmem : i ∈ between es e.bus0 e.bus1 := mem_between.2 ⟨e, he, hi, by simp [Edge.joins]⟩
  obtain ⟨f, t, ht⟩ := List.exists_cons_of_ne_nil (List.ne_nil_of_mem hmem)
  have hhead : (between es e.bus0 e.bus1).head? = some f := by rw [ht]; rfl
  obtain ⟨ef, hef, _, hfj⟩ := mem_between.1 (by rw [ht]; simp : f ∈ between es e.bus0 e.bus1)
  simp only [Edge.joins, decide_eq_true_eq] at hfj
  have hpair : between es ef.bus0 ef.bus1 = between es e.bus0 e.bus1 := by
    rcases hfj with ⟨h0, h1⟩ | ⟨h0, h1⟩
    · rw [h0, h1]
    · rw [h0, h1, between_comm]
  exact ⟨f, ef, hhead, hef, hpair, mem_firsts.2 ⟨ef, hef, by rw [hpair]; exact hhead⟩⟩

/-- **C24, dimensions.** The number of columns is the width `C` is allocated with
(`pf.py` 1395-1397), so that no entry is written outside the matrix. -/
theorem cycle_columns_count (es : List Edge) (cycles : List (List Name))
    (C : List (List (Nat × Int))) (hC : findCycles es cycles = .ok C) :
    C.length = cycles.length + numMulti es := by
  unfold findCycles at hC
  cases hcs : collect (fun c => collect (stepEntry es) (cycleSteps c)) cycles with
  | error e => simp [hcs] at hC
  | ok cs =>
  simp only [hcs, Except.ok.injEq] at hC
  subst hC
  have hlen := (collect_forall _ _ _ hcs).length_eq
  rw [List.length_append, ← hlen]
  congr 1
  -- the finite branches are divided among the representatives
  let w : Nat → Nat := fun f => match es[f]? with
    | none => 0
    | some e => (between es e.bus0 e.bus1).length
  have hmulti : ∀ f ∈ firsts es, (multiOf es f).length + 1 = w f := by
    intro f hf
    obtain ⟨e, he, hh⟩ := mem_firsts.1 hf
    simp only [multiOf, he, List.length_map, w, List.length_tail]
    have : 0 < (between es e.bus0 e.bus1).length := by
      cases hb : between es e.bus0 e.bus1 with
      | nil => rw [hb] at hh; simp at hh
      | cons _ _ => simp
    omega
  have h1 : ((firsts es).flatMap (multiOf es)).length + (firsts es).length =
      ((firsts es).map w).sum := by
    rw [List.length_flatMap]
    generalize firsts es = l at hmulti
    induction l with
    | nil => rfl
    | cons f l ih =>
      have := hmulti f (by simp)
      have ih' := ih (fun x hx => hmulti x (by simp [hx]))
      simp only [List.map_cons, List.sum_cons, List.length_cons]
      omega
  have h2 : (es.filter (fun e => !e.inf)).length = ((firsts es).map w).sum := by
    let S : Finset Nat := (Finset.range es.length).filter
      (fun i => (es[i]?).map (·.inf) = some false)
    have hS : (es.filter (fun e => !e.inf)).length = S.card := by
      have : ∀ (l : List Edge), (l.filter (fun e => !e.inf)).length =
          ((Finset.range l.length).filter (fun i => (l[i]?).map (·.inf) = some false)).card := by
        intro l
        induction l using List.reverseRecOn with
        | nil => rfl
        | append_singleton l a ih =>
          rw [List.filter_append, List.length_append, ih, List.length_append, List.length_singleton,
            Finset.range_add_one, Finset.filter_insert]
          have hsame : (Finset.range l.length).filter
              (fun i => ((l ++ [a])[i]?).map (·.inf) = some false) =
              (Finset.range l.length).filter (fun i => (l[i]?).map (·.inf) = some false) := by
            apply Finset.filter_congr
            intro i hi
            rw [List.getElem?_append_left (Finset.mem_range.1 hi)]
          rw [hsame]
          cases ha : a.inf with
          | true => simp [ha]
          | false =>
            rw [if_pos (by simp [ha]), Finset.card_insert_of_notMem (by simp)]
            simp [ha]
      exact this es
    let g : Nat → Nat := fun i => match es[i]? with
      | none => 0
      | some e => ((between es e.bus0 e.bus1).head?).getD 0
    have hmaps : ∀ i ∈ S, g i ∈ (firsts es).toFinset := by
      intro i hi
      have := (Finset.mem_filter.1 hi).2
      cases he : es[i]? with
      | none => simp [he] at this
      | some e =>
        simp only [he, Option.map_some, Option.some.injEq] at this
        obtain ⟨f, ef, hh, _, _, hf⟩ := exists_first he this
        simp only [g, he, hh, Option.getD_some, List.mem_toFinset]
        exact hf
    rw [hS, Finset.card_eq_sum_card_fiberwise hmaps, List.sum_toFinset _ (firsts_nodup es)]
    congr 1
    apply List.map_congr_left
    intro f hf
    obtain ⟨ef, hef, hh⟩ := mem_firsts.1 hf
    simp only [w, hef]
    rw [← List.toFinset_card_of_nodup (between_nodup es _ _)]
    congr 1
    ext i
    simp only [List.mem_toFinset, Finset.mem_filter, Finset.mem_range, S]
    constructor
    · rintro ⟨⟨_, hinf⟩, hg⟩
      cases he : es[i]? with
      | none => simp [he] at hinf
      | some e =>
        simp only [he, Option.map_some, Option.some.injEq] at hinf
        obtain ⟨f', ef', hh', hef', hpair, _⟩ := exists_first he hinf
        simp only [g, he, hh', Option.getD_some] at hg
        subst hg
        rw [hef] at hef'
        obtain rfl := Option.some.inj hef'
        rw [hpair]
        exact mem_between.2 ⟨e, he, hinf, by simp [Edge.joins]⟩
    · intro hi
      obtain ⟨e, he, hinf, hj⟩ := mem_between.1 hi
      refine ⟨⟨(List.getElem?_eq_some_iff.1 he).1, by simp [he, hinf]⟩, ?_⟩
      have hpair : between es e.bus0 e.bus1 = between es ef.bus0 ef.bus1 := by
        simp only [Edge.joins, decide_eq_true_eq] at hj
        rcases hj with ⟨h0, h1⟩ | ⟨h0, h1⟩
        · rw [h0, h1]
        · rw [h0, h1, between_comm]
      simp [g, he, hpair, hh]
  unfold numMulti
  omega

example : numMulti (exEdges true) = 1 := by decide +kernel

/-- **Finding** (`graph.py` 28, `pf.py` 1388-1392): `graph` includes branches out of service,
so a column of `C` may run through one.  Without the branch `a`-`c` of the example the rest
of the column is not a cycle: it does not even balance at the bus `a`. -/
theorem cycle_through_inactive :
    CycleBasis ℚ (exEdges false) [["a", "b", "c"]] ∧
    ∃ C, findCycles (exEdges false) [["a", "b", "c"]] = .ok C ∧ ∃ col ∈ C,
      ∑ i ∈ (Finset.range (exEdges false).length).filter
        (fun i => ((exEdges false)[i]?).map (·.active) = some true),
        inc (exEdges false) "a" i * column col i ≠ 0 :=
  ⟨exEdges_basis false, [[(0, 1), (1, 1), (2, -1)], [(0, 1), (3, 1)]], by decide +kernel,
    [(0, 1), (1, 1), (2, -1)], by decide, by decide +kernel⟩

end Verif.Graph
