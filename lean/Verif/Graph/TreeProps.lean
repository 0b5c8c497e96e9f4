import Verif.Graph.Tree
import Verif.Graph.CyclesProps
import Verif.PowerFlow.LinearProps
import Mathlib.LinearAlgebra.Matrix.NonsingularInverse
import Mathlib.Data.Fintype.EquivFin

/-!
# Property C127: the tree matrix and parallel lines
-/

namespace Verif.Graph

/-! ### Specification -/

/-- A step from `u` to `v` along one of the branches `tree`. -/
def StepIn (es : List Edge) (tree : List Nat) (u v : Name) : Prop :=
  ∃ i ∈ tree, ∃ e, es[i]? = some e ∧ ((e.bus0 = u ∧ e.bus1 = v) ∨ (e.bus0 = v ∧ e.bus1 = u))

/-- **Library assumption** on `nx.minimum_spanning_tree` and `nx.shortest_path` for a connected
sub-network: between any two buses there is a path, from the first to the second, along branches of
the tree, that visits no bus twice. -/
structure TreePaths (es : List Edge) (buses : List Name) (tree : List Nat)
    (path : Name → Name → Option (List Name)) : Prop where
  total : ∀ b ∈ buses, ∀ c ∈ buses, (path b c).isSome
  first : ∀ {b c l}, path b c = some l → l.head? = some b
  last : ∀ {b c l}, path b c = some l → l.getLast? = some c
  simple : ∀ {b c l}, path b c = some l → l.Nodup
  steps : ∀ {b c l}, path b c = some l → ∀ s ∈ l.zip l.tail, StepIn es tree s.1 s.2

/-- Number of ends of branches of the tree at a bus. -/
def endCount (es : List Edge) (tree : List Nat) (b : Name) : Nat :=
  (tree.filter (fun i => (es[i]?).map (·.bus0) = some b)).length +
    (tree.filter (fun i => (es[i]?).map (·.bus1) = some b)).length

/-- What leaves the bus `c` over the branches when the branch `i` carries `f i`. -/
def leaving {F : Type} [Ring F] (es : List Edge) (f : Nat → F) (c : Name) : F :=
  ∑ i ∈ Finset.range es.length, (inc es c i : F) * f i

/-- The flows given by the matrix: its columns times the injections of the buses. -/
def treeFlow {F : Type} [Ring F] (buses : List Name) (cols : List (List (Nat × Int))) (p : Name → F)
    (i : Nat) : F :=
  ((buses.zip cols).map (fun bc => (assigned bc.2 i : F) * p bc.1)).sum

/-! ### Lemmas -/

theorem degree_eq (es : List Edge) (tree : List Nat) (b : Name) :
    degree es tree b = endCount es tree b := by
  unfold degree endCount
  induction tree with
  | nil => rfl
  | cons i l ih =>
    rw [List.map_cons, List.sum_cons, ih]
    cases he : es[i]? with
    | none => simp [endsAt, he]
    | some e =>
      simp only [endsAt, he, List.filter_cons, Option.map_some, Option.some.injEq, decide_eq_true_eq]
      split_ifs <;> simp <;> omega

theorem foldl_max (d : Name → Nat) (bs : List Name) (b : Name) :
    bs.foldl (fun best c => if d best < d c then c else best) b ∈ b :: bs ∧
    ∀ c ∈ b :: bs, d c ≤ d (bs.foldl (fun best c => if d best < d c then c else best) b) := by
  induction bs generalizing b with
  | nil => simp
  | cons a bs ih =>
    simp only [List.foldl_cons]
    obtain ⟨h1, h2⟩ := ih (if d b < d a then a else b)
    have hx := h2 (if d b < d a then a else b) (by simp)
    refine ⟨?_, ?_⟩
    · rcases List.mem_cons.1 h1 with h | h
      · rw [h]; split_ifs <;> simp
      · simp [h]
    · intro c hc
      rcases List.mem_cons.1 hc with rfl | hc
      · refine le_trans ?_ hx; split_ifs <;> omega
      · rcases List.mem_cons.1 hc with rfl | hc
        · refine le_trans ?_ hx; split_ifs <;> omega
        · exact h2 c (by simp [hc])

theorem treeSlack_spec {es : List Edge} {tree : List Nat} {buses : List Name} {s : Name}
    (h : treeSlack es tree buses = .ok s) :
    s ∈ buses ∧ ∀ b ∈ buses, endCount es tree b ≤ endCount es tree s := by
  cases buses with
  | nil => simp [treeSlack] at h
  | cons b bs =>
    simp only [treeSlack, Except.ok.injEq] at h
    obtain ⟨h1, h2⟩ := foldl_max (degree es tree) bs b
    rw [h] at h1 h2
    refine ⟨h1, fun c hc => ?_⟩
    rw [← degree_eq, ← degree_eq]; exact h2 c hc

theorem mem_joining {es : List Edge} {u v : Name} {i : Nat} :
    i ∈ joining es u v ↔ ∃ e, es[i]? = some e ∧
      ((e.bus0 = u ∧ e.bus1 = v) ∨ (e.bus0 = v ∧ e.bus1 = u)) := by
  unfold joining
  rw [List.mem_filter, List.mem_range]
  constructor
  · rintro ⟨_, h⟩
    cases he : es[i]? with
    | none => simp [he] at h
    | some e => exact ⟨e, rfl, by simpa [he, Edge.joins] using h⟩
  · rintro ⟨e, he, h⟩
    refine ⟨?_, by simp [he, Edge.joins, h]⟩
    rw [List.getElem?_eq_some_iff] at he
    exact he.1

theorem treeEntry_total {es : List Edge} {tree : List Nat} {s : Name × Name}
    (h : StepIn es tree s.1 s.2) : ∃ x, treeEntry es s = .ok x := by
  obtain ⟨i, _, e, he, hj⟩ := h
  have hm : i ∈ joining es s.1 s.2 := mem_joining.2 ⟨e, he, hj⟩
  obtain ⟨j, t, ht⟩ := List.exists_cons_of_ne_nil (List.ne_nil_of_mem hm)
  exact ⟨(j, orient es j s.1), by simp [treeEntry, ht]⟩

theorem treeEntry_ok {es : List Edge} {s : Name × Name} {x : Nat × Int}
    (h : treeEntry es s = .ok x) : ∃ e, es[x.1]? = some e ∧
      ((e.bus0 = s.1 ∧ e.bus1 = s.2 ∧ x.2 = 1) ∨
        (e.bus0 = s.2 ∧ e.bus1 = s.1 ∧ e.bus0 ≠ e.bus1 ∧ x.2 = -1)) := by
  unfold treeEntry at h
  cases hh : (joining es s.1 s.2).head? with
  | none => simp [hh] at h
  | some i =>
    simp only [hh, Except.ok.injEq] at h
    subst h
    obtain ⟨e, he, h2⟩ := mem_joining.1 (List.mem_of_head? hh)
    refine ⟨e, he, ?_⟩
    simp only [orient, he, Option.map_some, Option.some.injEq]
    by_cases hb : e.bus0 = s.1
    · left
      rcases h2 with h2 | h2
      · simp [h2.1, h2.2]
      · simp only [hb, if_true, true_and, and_true]
        rw [h2.2, ← hb, h2.1]
    · right
      rcases h2 with h2 | h2
      · exact absurd h2.1 hb
      · refine ⟨h2.1, h2.2, ?_, by simp [hb]⟩
        intro h; exact hb (h.trans h2.2)

theorem collect_total {α β : Type} (f : α → Except Err β) (l : List α)
    (h : ∀ a ∈ l, ∃ b, f a = .ok b) : ∃ r, collect f l = .ok r := by
  induction l with
  | nil => exact ⟨[], rfl⟩
  | cons a l ih =>
    obtain ⟨b, hb⟩ := h a (by simp)
    obtain ⟨r, hr⟩ := ih (fun x hx => h x (by simp [hx]))
    exact ⟨b :: r, by simp [collect, hb, hr]⟩

/-- Both ends of a step lie on the path. -/
theorem mem_pathSteps {l : List Name} {s : Name × Name} (h : s ∈ pathSteps l) : s.1 ∈ l ∧ s.2 ∈ l :=
  ⟨(List.of_mem_zip h).1, List.mem_of_mem_tail (List.of_mem_zip h).2⟩

/-- A path without repetition uses no branch twice. -/
theorem entries_nodup {es : List Edge} {l : List Name} {r : List (Nat × Int)} (hl : l.Nodup)
    (h : collect (treeEntry es) (pathSteps l) = .ok r) : (r.map (·.1)).Nodup := by
  have hf := collect_forall _ _ _ h
  clear h
  induction l generalizing r with
  | nil => simp only [pathSteps, List.zip_nil_left] at hf; cases hf; simp
  | cons u l ih =>
    cases l with
    | nil => simp only [pathSteps, List.tail_cons, List.zip_nil_right] at hf; cases hf; simp
    | cons v l =>
      have hs : pathSteps (u :: v :: l) = (u, v) :: pathSteps (v :: l) := rfl
      rw [hs] at hf
      cases hf with
      | cons hx hr =>
        rename_i x r
        rw [List.map_cons, List.nodup_cons]
        refine ⟨?_, ih (List.nodup_cons.1 hl).2 hr⟩
        rintro hm
        obtain ⟨y, hy, hxy⟩ := List.mem_map.1 hm
        obtain ⟨s, hs, hsy⟩ : ∃ s ∈ pathSteps (v :: l), treeEntry es s = .ok y := by
          clear ih hx hm hs
          generalize pathSteps (v :: l) = q at hr
          induction hr with
          | nil => simp at hy
          | cons h1 _ ih =>
            rcases List.mem_cons.1 hy with rfl | hy
            · exact ⟨_, by simp, h1⟩
            · obtain ⟨s, hs, h⟩ := ih hy
              exact ⟨s, by simp [hs], h⟩
        obtain ⟨e, he, h1⟩ := treeEntry_ok hx
        obtain ⟨e', he', h2⟩ := treeEntry_ok hsy
        rw [hxy] at he'
        rw [he] at he'
        cases he'
        have hn := (List.nodup_cons.1 hl).1
        obtain ⟨m1, m2⟩ := mem_pathSteps hs
        have : u = s.1 ∨ u = s.2 := by
          rcases h1 with h1 | h1 <;> rcases h2 with h2 | h2
          · left; rw [← h2.1, h1.1]
          · right; rw [← h2.1, h1.1]
          · right; rw [← h2.2.1, h1.2.1]
          · left; rw [← h2.2.1, h1.2.1]
        rcases this with h | h
        · exact hn (h ▸ m1)
        · exact hn (h ▸ m2)

/-- With no row assigned twice, the last assignment is the sum. -/
theorem assigned_eq {r : List (Nat × Int)} (h : (r.map (·.1)).Nodup) (i : Nat) :
    assigned r i = column r i := by
  induction r with
  | nil => rfl
  | cons x r ih =>
    rw [List.map_cons, List.nodup_cons] at h
    have ih := ih h.2
    unfold assigned column at ih ⊢
    rw [List.reverse_cons, List.find?_append]
    by_cases hx : x.1 = i
    · have hno : r.reverse.find? (fun e => decide (e.1 = i)) = none := by
        rw [List.find?_eq_none]
        intro y hy hyi
        exact h.1 (List.mem_map.2 ⟨y, by simpa using hy, by rw [hx]; simpa using hyi⟩)
      rw [hno] at ih ⊢
      rw [List.filter_cons_of_pos (by simpa using hx), List.map_cons, List.sum_cons, ← ih]
      simp [hx]
    · rw [List.filter_cons_of_neg (by simpa using hx), ← ih]
      cases hr : r.reverse.find? (fun e => decide (e.1 = i)) with
      | none => simp [hx]
      | some y => simp

theorem treeEntries_lt {es : List Edge} {l : List (Name × Name)} {r : List (Nat × Int)}
    (h : collect (treeEntry es) l = .ok r) : ∀ e ∈ r, e.1 < es.length := by
  have hf := collect_forall _ _ _ h
  clear h
  induction hf with
  | nil => simp
  | cons h1 _ ih =>
    intro e he
    rcases List.mem_cons.1 he with rfl | he
    · obtain ⟨b, hb, _⟩ := treeEntry_ok h1
      rw [List.getElem?_eq_some_iff] at hb
      exact hb.1
    · exact ih e he

/-- Along a path everything telescopes. -/
theorem path_telescope {F : Type} [AddCommGroup F] (p : Name → F) (l : List Name) {a z : Name}
    (ha : l.head? = some a) (hz : l.getLast? = some z) :
    ((pathSteps l).map (fun s => p s.1 - p s.2)).sum = p a - p z := by
  induction l generalizing a with
  | nil => simp at ha
  | cons u l ih =>
    cases l with
    | nil =>
      simp only [List.head?_cons, Option.some.injEq] at ha
      simp only [List.getLast?_singleton, Option.some.injEq] at hz
      subst ha hz; simp [pathSteps]
    | cons v l =>
      simp only [List.head?_cons, Option.some.injEq] at ha
      rw [List.getLast?_cons_cons] at hz
      have := ih (a := v) rfl hz
      have hs : pathSteps (u :: v :: l) = (u, v) :: pathSteps (v :: l) := rfl
      rw [hs, List.map_cons, List.sum_cons, this, ← ha]
      abel

/-- The column of one bus carries one unit from there to the slack. -/
theorem column_carries {F : Type} [CommRing F] {es : List Edge} {buses : List Name} {tree : List Nat}
    {path : Name → Name → Option (List Name)} (hp : TreePaths es buses tree path) {slack b : Name}
    {col : List (Nat × Int)} (h : treeColumn es path slack b = .ok col) (c : Name) :
    leaving es (fun i => (assigned col i : F)) c =
      (if c = b then 1 else 0) - (if c = slack then 1 else 0) := by
  unfold treeColumn at h
  cases hl : path b slack with
  | none => simp [hl] at h
  | some l =>
    simp only [hl] at h
    have hnd := entries_nodup (hp.simple hl) h
    simp only [leaving, assigned_eq hnd]
    rw [sum_column _ _ _ (treeEntries_lt h)]
    have hf := collect_forall _ _ _ h
    have key : (col.map (fun e => (inc es c e.1 : F) * (e.2 : F))).sum =
        ((pathSteps l).map (fun s => (if c = s.1 then (1 : F) else 0) - (if c = s.2 then 1 else 0))).sum := by
      clear h hnd hl
      generalize pathSteps l = q at hf
      induction hf with
      | nil => rfl
      | cons h1 _ ih =>
        rw [List.map_cons, List.map_cons, List.sum_cons, List.sum_cons, ih]
        congr 1
        obtain ⟨e, he, h1⟩ := treeEntry_ok h1
        simp only [inc, he]
        rcases h1 with ⟨h0, h1, hx⟩ | ⟨h0, h1, _, hx⟩
        · rw [h0, h1, hx]; push_cast; simp only [eq_comm (a := c)]; ring
        · rw [h0, h1, hx]; push_cast; simp only [eq_comm (a := c)]; ring
    rw [key, path_telescope (fun x => if c = x then (1 : F) else 0) l (hp.first hl) (hp.last hl)]

theorem findTree_ok {es : List Edge} {buses : List Name} {tree : List Nat}
    {path : Name → Name → Option (List Name)} {slack : Name} {cols : List (List (Nat × Int))}
    (h : findTree es buses tree path = .ok (slack, cols)) :
    treeSlack es tree buses = .ok slack ∧
    List.Forall₂ (fun b col => treeColumn es path slack b = .ok col) buses cols := by
  unfold findTree at h
  cases hs : treeSlack es tree buses with
  | error e => simp [hs] at h
  | ok s =>
    simp only [hs] at h
    cases hc : collect (treeColumn es path s) buses with
    | error e => simp [hc] at h
    | ok cs =>
      simp only [hc, Except.ok.injEq, Prod.mk.injEq] at h
      obtain ⟨rfl, rfl⟩ := h
      exact ⟨rfl, collect_forall _ _ _ hc⟩

theorem leaving_add {F : Type} [CommRing F] (es : List Edge) (f g : Nat → F) (c : Name) :
    leaving es (fun i => f i + g i) c = leaving es f c + leaving es g c := by
  simp only [leaving, mul_add, Finset.sum_add_distrib]

theorem leaving_mul {F : Type} [CommRing F] (es : List Edge) (f : Nat → F) (x : F) (c : Name) :
    leaving es (fun i => f i * x) c = leaving es f c * x := by
  simp only [leaving, Finset.sum_mul, mul_assoc]

/-! ### C127, trees -/

/-- `find_tree` works for every connected sub-network with buses. -/
theorem tree_total {es : List Edge} {buses : List Name} {tree : List Nat}
    {path : Name → Name → Option (List Name)} (hp : TreePaths es buses tree path) (hb : buses ≠ []) :
    ∃ slack cols, findTree es buses tree path = .ok (slack, cols) ∧ cols.length = buses.length := by
  obtain ⟨s, hs⟩ : ∃ s, treeSlack es tree buses = .ok s := by
    cases buses with
    | nil => exact absurd rfl hb
    | cons b bs => exact ⟨_, rfl⟩
  have hmem := (treeSlack_spec hs).1
  obtain ⟨cols, hc⟩ := collect_total (treeColumn es path s) buses (by
    intro b hb
    obtain ⟨l, hl⟩ := Option.isSome_iff_exists.1 (hp.total b hb s hmem)
    obtain ⟨r, hr⟩ := collect_total (treeEntry es) (pathSteps l)
      (fun x hx => treeEntry_total (hp.steps hl x hx))
    exact ⟨r, by simp [treeColumn, hl, hr]⟩)
  have h : findTree es buses tree path = .ok (s, cols) := by simp [findTree, hs, hc]
  exact ⟨s, cols, h, ((findTree_ok h).2.length_eq).symm⟩

/-- **C127, trees (partial: for the branches of the sub-network whether in service or not, see
`tree_through_inactive`).** The slack of the tree is a bus with as many branches of the tree as any
other.  For any injections at the buses the flows given by the matrix balance every bus but the
slack, which takes the sum of all injections. -/
theorem tree_flow_partial {F : Type} [CommRing F] {es : List Edge} {buses : List Name} {tree : List Nat}
    {path : Name → Name → Option (List Name)} (hp : TreePaths es buses tree path)
    (hnd : buses.Nodup) {slack : Name} {cols : List (List (Nat × Int))}
    (h : findTree es buses tree path = .ok (slack, cols)) (p : Name → F) :
    (slack ∈ buses ∧ ∀ b ∈ buses, endCount es tree b ≤ endCount es tree slack) ∧
    ∀ c ∈ buses, leaving es (treeFlow buses cols p) c =
      p c - (if c = slack then (buses.map p).sum else 0) := by
  obtain ⟨hs, hf⟩ := findTree_ok h
  refine ⟨treeSlack_spec hs, fun c hc => ?_⟩
  have key : ∀ (bs : List Name) (cs : List (List (Nat × Int))),
      List.Forall₂ (fun b col => treeColumn es path slack b = .ok col) bs cs →
      leaving es (treeFlow bs cs p) c =
        (bs.map (fun b => if c = b then p b else 0)).sum - (if c = slack then (bs.map p).sum else 0) := by
    intro bs cs hf
    induction hf with
    | nil => simp [leaving, treeFlow]
    | cons h1 _ ih =>
      rename_i b col bs cs _
      have : treeFlow (b :: bs) (col :: cs) p = fun i => (assigned col i : F) * p b + treeFlow bs cs p i := by
        funext i; simp [treeFlow]
      rw [this, leaving_add, leaving_mul, column_carries hp h1, ih]
      simp only [List.map_cons, List.sum_cons]
      split_ifs <;> ring
  rw [key buses cols hf]
  congr 1
  clear key hf h hs hp
  induction buses with
  | nil => simp at hc
  | cons b bs ih =>
    rw [List.nodup_cons] at hnd
    rw [List.map_cons, List.sum_cons]
    by_cases hcb : c = b
    · subst hcb
      have : bs.map (fun b => if c = b then p b else 0) = bs.map (fun _ => 0) := by
        apply List.map_congr_left
        intro b hb
        rw [if_neg]; rintro rfl; exact hnd.1 hb
      rw [this]; simp
    · rw [if_neg hcb, ih hnd.2 (by simpa [hcb] using hc), zero_add]

/-- **C127, radial sub-networks.** With one branch less than buses the flows are determined by the
injections alone: any flows that balance the buses are those given by the matrix. -/
theorem tree_flow_unique {F : Type} [Field F] {es : List Edge} {buses : List Name} {tree : List Nat}
    {path : Name → Name → Option (List Name)} (hp : TreePaths es buses tree path)
    (hnd : buses.Nodup) {slack : Name} {cols : List (List (Nat × Int))}
    (h : findTree es buses tree path = .ok (slack, cols))
    (hradial : es.length + 1 = buses.length) (p : Name → F) (f : Nat → F)
    (hf : ∀ c ∈ buses, c ≠ slack → leaving es f c = p c) :
    ∀ i < es.length, f i = treeFlow buses cols p i := by
  classical
  obtain ⟨⟨hsm, _⟩, hT⟩ := tree_flow_partial (F := F) hp hnd h p
  -- buses other than the slack, and the incidence matrix restricted to them
  let V := {c : Name // c ∈ buses.toFinset.erase slack}
  have hcard : Fintype.card (Fin es.length) = Fintype.card V := by
    rw [Fintype.card_fin, Fintype.card_coe, Finset.card_erase_of_mem (by simpa using hsm),
      List.toFinset_card_of_nodup hnd]
    omega
  let A : Matrix V (Fin es.length) F := fun c i => (inc es c.1 i.1 : F)
  let B : Matrix (Fin es.length) V F := fun i c => treeFlow buses cols (fun b => if b = c.1 then 1 else 0) i.1
  have hAB : A * B = 1 := by
    ext c d
    rw [Matrix.mul_apply]
    have := (tree_flow_partial (F := F) hp hnd h (fun b => if b = d.1 then 1 else 0)).2 c.1
      (by simpa using (Finset.mem_erase.1 c.2).2)
    rw [leaving, Finset.sum_range] at this
    rw [this, if_neg (Finset.mem_erase.1 c.2).1, sub_zero, Matrix.one_apply]
    by_cases hcd : c = d
    · rw [if_pos hcd, if_pos (congrArg _ hcd)]
    · rw [if_neg hcd, if_neg (fun hh => hcd (Subtype.ext hh))]
  have hBA : B * A = 1 := by
    have e : V ≃ Fin es.length := Fintype.equivOfCardEq hcard.symm
    exact (Matrix.mul_eq_one_comm_of_equiv e).1 hAB
  -- the difference of the two flows leaves no bus
  have hzero : ∀ c : V, A.mulVec (fun i => f i.1 - treeFlow buses cols p i.1) c = 0 := by
    intro c
    have hc : c.1 ∈ buses := by simpa using (Finset.mem_erase.1 c.2).2
    have hne := (Finset.mem_erase.1 c.2).1
    have h1 := hf c.1 hc hne
    have h2 := hT c.1 hc
    rw [if_neg hne, sub_zero] at h2
    rw [leaving, Finset.sum_range] at h1 h2
    change ∑ i : Fin es.length, (inc es c.1 i.1 : F) * (f i.1 - treeFlow buses cols p i.1) = 0
    simp only [mul_sub, Finset.sum_sub_distrib]
    rw [h1, h2, sub_self]
  intro i hi
  have hv : A.mulVec (fun i : Fin es.length => f i.1 - treeFlow buses cols p i.1) = 0 := funext hzero
  have := congrArg B.mulVec hv
  rw [Matrix.mulVec_mulVec, hBA, Matrix.one_mulVec, Matrix.mulVec_zero] at this
  have := congrFun this ⟨i, hi⟩
  simpa [sub_eq_zero] using this

/-- The branches of a sub-network of the linear power flow, with names of buses. -/
def gridEdges {F : Type} {n m : Nat} (g : PowerFlow.Grid F n m) (name : Fin (n + 1) → Name) : List Edge :=
  List.ofFn (fun l => ⟨name (g.bus0 l), name (g.bus1 l), false, true⟩)

theorem leaving_grid {F : Type} [Field F] {n m : Nat} (g : PowerFlow.Grid F n m)
    (name : Fin (n + 1) → Name) (hn : Function.Injective name) (f : Nat → F) (i : Fin (n + 1)) :
    leaving (gridEdges g name) f (name i) = PowerFlow.outflow g (fun l => f l.1) i := by
  unfold leaving PowerFlow.outflow
  rw [← Finset.sum_sub_distrib]
  have hlen : (gridEdges g name).length = m := by simp [gridEdges]
  rw [hlen, Finset.sum_range]
  apply Finset.sum_congr rfl
  intro l _
  have : (gridEdges g name)[l.1]? = some ⟨name (g.bus0 l), name (g.bus1 l), false, true⟩ := by
    simp [gridEdges]
  simp only [inc, this, hn.eq_iff]
  push_cast
  split_ifs <;> ring

/-- **C127, linear power flow.** In a radial sub-network the flows of the linear power flow are the
matrix of the tree times the injections, whatever the impedances and phase shifts. -/
theorem lpf_radial {F : Type} [Field F] {n : Nat} (solve : PowerFlow.Solve F) (hs : PowerFlow.Solves solve)
    (g : PowerFlow.Grid F n n) (hreg : g.Bred.det ≠ 0) (p : Fin (n + 1) → F)
    (name : Fin (n + 1) → Name) (hn : Function.Injective name) {tree : List Nat}
    {path : Name → Name → Option (List Name)}
    (hp : TreePaths (gridEdges g name) (List.ofFn name) tree path)
    {slack : Name} {cols : List (List (Nat × Int))}
    (h : findTree (gridEdges g name) (List.ofFn name) tree path = .ok (slack, cols)) (l : Fin n) :
    PowerFlow.flows solve g p l =
      treeFlow (List.ofFn name) cols (fun b => ∑ i, if name i = b then PowerFlow.busP p i else 0) l.1 := by
  have hb := (PowerFlow.lpf_balance solve hs g hreg p).1
  let f : Nat → F := fun i => if hi : i < n then PowerFlow.flows solve g p ⟨i, hi⟩ else 0
  have hfl : (fun l : Fin n => f l.1) = PowerFlow.flows solve g p := by
    funext l; simp [f]
  have hu := tree_flow_unique (F := F) hp (List.nodup_ofFn.2 hn) h (by simp [gridEdges])
    (fun b => ∑ i, if name i = b then PowerFlow.busP p i else 0) f (by
      intro c hc _
      obtain ⟨i, rfl⟩ := List.mem_ofFn.1 hc
      rw [leaving_grid g name hn f i, hfl, hb i]
      simp [hn.eq_iff])
  have := hu l.1 (by simp [gridEdges])
  rw [← this]
  simp [f]

/-! ### Example: a star with an extra parallel branch -/

/-- Buses a, b, c, d; b is in the middle; two branches between b and c, the first of which may be out
of service. -/
def starEdges (active : Bool) : List Edge :=
  [⟨"a", "b", false, true⟩, ⟨"c", "b", true, active⟩, ⟨"b", "c", false, true⟩, ⟨"b", "d", false, true⟩]

/-- Paths in the star. -/
def starPath (b c : Name) : Option (List Name) :=
  if ¬(b ∈ ["a", "b", "c", "d"] ∧ c ∈ ["a", "b", "c", "d"]) then none
  else if b = c then some [b]
  else if b = "b" ∨ c = "b" then some [b, c]
  else some [b, "b", c]

theorem starPaths (active : Bool) :
    TreePaths (starEdges active) ["a", "b", "c", "d"] [0, 2, 3] starPath := by
  have hall : ∀ {b c l}, starPath b c = some l →
      b ∈ ["a", "b", "c", "d"] ∧ c ∈ ["a", "b", "c", "d"] := by
    intro b c l h
    by_contra hn
    simp only [starPath, if_pos hn] at h
    cases h
  have hstep : ∀ active, ∀ b ∈ ["a", "b", "c", "d"], ∀ c ∈ ["a", "b", "c", "d"], ∀ l ∈ (starPath b c).toList,
      l.head? = some b ∧ l.getLast? = some c ∧ l.Nodup ∧ ∀ s ∈ l.zip l.tail,
        ∃ i ∈ [0, 2, 3], ∃ e ∈ ((starEdges active)[i]?).toList,
          ((e.bus0 = s.1 ∧ e.bus1 = s.2) ∨ (e.bus0 = s.2 ∧ e.bus1 = s.1)) := by
    decide +kernel
  have hstep' : ∀ {b c l}, starPath b c = some l → _ := fun {b c l} h =>
    hstep active b (hall h).1 c (hall h).2 l (by simp [h])
  refine ⟨by decide +kernel, fun h => (hstep' h).1, fun h => (hstep' h).2.1,
    fun h => (hstep' h).2.2.1, fun h s hs => ?_⟩
  obtain ⟨i, hi, e, he, hj⟩ := (hstep' h).2.2.2 s hs
  exact ⟨i, hi, e, by simpa using he, hj⟩

example : findTree (starEdges true) ["a", "b", "c", "d"] [0, 2, 3] starPath =
    .ok ("b", [[(0, 1)], [], [(1, 1)], [(3, -1)]]) := by decide +kernel

/-- A radial grid for `lpf_radial`: a chain of three buses. -/
def chain : PowerFlow.Grid ℚ 2 2 := ⟨![0, 2], ![1, 1], ![1, 3], ![0, 1]⟩

example : ∃ (name : Fin 3 → Name) (path : Name → Name → Option (List Name)),
    Function.Injective name ∧ TreePaths (gridEdges chain name) (List.ofFn name) [0, 1] path ∧
    chain.Bred.det ≠ 0 ∧ (List.ofFn name).Nodup := by
  have hall : ∀ {b c l}, (if ¬(b ∈ ["a", "b", "c"] ∧ c ∈ ["a", "b", "c"]) then none
      else starPath b c) = some l → (b ∈ ["a", "b", "c"] ∧ c ∈ ["a", "b", "c"]) ∧ starPath b c = some l := by
    intro b c l h
    by_cases hn : b ∈ ["a", "b", "c"] ∧ c ∈ ["a", "b", "c"]
    · rw [if_neg (not_not.2 hn)] at h; exact ⟨hn, h⟩
    · rw [if_pos hn] at h; cases h
  have hstep : ∀ b ∈ ["a", "b", "c"], ∀ c ∈ ["a", "b", "c"], ∀ l ∈ (starPath b c).toList,
      l.head? = some b ∧ l.getLast? = some c ∧ l.Nodup ∧ ∀ s ∈ l.zip l.tail,
        ∃ i ∈ [0, 1], ∃ e ∈ ((gridEdges chain ![("a" : Name), "b", "c"])[i]?).toList,
          ((e.bus0 = s.1 ∧ e.bus1 = s.2) ∨ (e.bus0 = s.2 ∧ e.bus1 = s.1)) := by
    decide +kernel
  have hstep' : ∀ {b c l}, (if ¬(b ∈ ["a", "b", "c"] ∧ c ∈ ["a", "b", "c"]) then none
      else starPath b c) = some l → _ := fun {b c l} h =>
    hstep b (hall h).1.1 c (hall h).1.2 l (by simp [(hall h).2])
  refine ⟨![("a" : Name), "b", "c"], fun b c => if ¬(b ∈ ["a", "b", "c"] ∧ c ∈ ["a", "b", "c"]) then none
      else starPath b c, by decide +kernel, ⟨by decide +kernel, fun h => (hstep' h).1,
    fun h => (hstep' h).2.1, fun h => (hstep' h).2.2.1, fun h s hs => ?_⟩, ?_, by decide +kernel⟩
  · obtain ⟨i, hi, e, he, hj⟩ := (hstep' h).2.2.2 s hs
    exact ⟨i, hi, e, by simpa using he, hj⟩
  · rw [Matrix.det_fin_two]
    decide +kernel

/-- **Finding** (`graph.py` 28, `pf.py` 1354, 1370): branches out of service take part, so the flows
may run over one.  Without it nothing leaves bus c for the unit injected there. -/
theorem tree_through_inactive :
    TreePaths (starEdges false) ["a", "b", "c", "d"] [0, 2, 3] starPath ∧
    ∃ slack cols, findTree (starEdges false) ["a", "b", "c", "d"] [0, 2, 3] starPath = .ok (slack, cols) ∧
      "c" ≠ slack ∧
      ∑ i ∈ (Finset.range (starEdges false).length).filter
        (fun i => ((starEdges false)[i]?).map (·.active) = some true),
        (inc (starEdges false) "c" i : ℚ) *
          treeFlow ["a", "b", "c", "d"] cols (fun b => if b = "c" then 1 else 0) i ≠ 1 :=
  ⟨starPaths false, "b", [[(0, 1)], [], [(1, 1)], [(3, -1)]], by decide +kernel, by decide,
    by decide +kernel⟩

/-! ### C127, parallel lines -/

/-- The two branches lie between the same buses. -/
def SameEnds (k k' : Key) : Prop :=
  (k.bus0 = k'.bus0 ∧ k.bus1 = k'.bus1) ∨ (k.bus0 = k'.bus1 ∧ k.bus1 = k'.bus0)

theorem mem_parallel {ks : List Key} {k k' : Key} (h : k' ∈ ks) :
    k' ∈ parallel ks k.bus0 k.bus1 ↔ SameEnds k k' := by
  unfold parallel SameEnds
  simp only [List.mem_filter, h, true_and, decide_eq_true_eq, eq_comm (a := k.bus0), eq_comm (a := k.bus1)]
  tauto

theorem loop_none {ks : List Key} {lines : List Name} {es : List (Name × Name)} :
    (aggregateLoop ks lines es).2 = none ↔ ∀ e ∈ es, (parallel ks e.1 e.2).length ≤ 1 := by
  induction es with
  | nil => simp [aggregateLoop]
  | cons e es ih =>
    obtain ⟨u, v⟩ := e
    simp only [aggregateLoop, List.mem_cons, forall_eq_or_imp]
    by_cases h : 1 < (parallel ks u v).length
    · rw [if_pos h]
      have : ¬ (parallel ks u v).length ≤ 1 := by omega
      simp only [this, false_and, iff_false]
      split_ifs <;> simp
    · rw [if_neg h, ih]
      have : (parallel ks u v).length ≤ 1 := by omega
      simp [this]

theorem loop_keeps {ks : List Key} {lines : List Name} {es : List (Name × Name)}
    (h : (aggregateLoop ks lines es).2 = none) : (aggregateLoop ks lines es).1 = lines := by
  induction es with
  | nil => rfl
  | cons e es ih =>
    obtain ⟨u, v⟩ := e
    simp only [aggregateLoop] at h ⊢
    by_cases h1 : 1 < (parallel ks u v).length
    · rw [if_pos h1] at h; split_ifs at h
    · rw [if_neg h1] at h ⊢; exact ih h

theorem loop_loses {ks : List Key} {lines : List Name} {es : List (Name × Name)}
    (hl : ∀ k ∈ ks, k.name ∈ lines) (h : (aggregateLoop ks lines es).2 ≠ none) :
    (aggregateLoop ks lines es).2 = some .attributeError ∧
    ∃ l ∈ lines, l ∉ (aggregateLoop ks lines es).1 := by
  induction es with
  | nil => exact absurd rfl h
  | cons e es ih =>
    obtain ⟨u, v⟩ := e
    simp only [aggregateLoop] at h ⊢
    by_cases h1 : 1 < (parallel ks u v).length
    · have hall : (parallel ks u v).all (fun k => lines.contains k.name) = true := by
        rw [List.all_eq_true]
        intro k hk
        simpa using hl k (List.mem_filter.1 hk).1
      rw [if_pos h1, if_pos hall]
      refine ⟨rfl, ?_⟩
      obtain ⟨k, k', t, hk⟩ : ∃ k k' t, parallel ks u v = k :: k' :: t := by
        match hp : parallel ks u v with
        | [] => simp [hp] at h1
        | [_] => simp [hp] at h1
        | k :: k' :: t => exact ⟨k, k', t, rfl⟩
      have hk' : k' ∈ parallel ks u v := by rw [hk]; simp
      refine ⟨k'.name, hl k' (List.mem_filter.1 hk').1, ?_⟩
      rw [hk]
      simp [removeRest]
    · rw [if_neg h1] at h ⊢; exact ih h

/-- **C127, parallel lines (partial: only where there is nothing to aggregate).** A sub-network
without parallel branches is left as it is. -/
theorem aggregate_keeps_partial (order : List Key → List Key) (ks : List Key) (lines : List Name)
    (ho : (order ks).Perm ks) (hnd : ks.Nodup)
    (hp : ∀ k ∈ ks, ∀ k' ∈ ks, SameEnds k k' → k = k') :
    aggregateMulti order ks lines = (lines, none) := by
  have h : (aggregateMulti order ks lines).2 = none := by
    unfold aggregateMulti
    rw [loop_none]
    intro e he
    obtain ⟨k, hk, rfl⟩ := List.mem_map.1 he
    have hk := ho.mem_iff.1 hk
    have hn : (parallel ks k.bus0 k.bus1).Nodup := hnd.filter _
    by_contra hlen
    match hq : parallel ks k.bus0 k.bus1 with
    | [] => simp [hq] at hlen
    | [_] => simp [hq] at hlen
    | a :: b :: t =>
      rw [hq] at hn
      have ha : a ∈ parallel ks k.bus0 k.bus1 := by rw [hq]; simp
      have hb : b ∈ parallel ks k.bus0 k.bus1 := by rw [hq]; simp
      have ha' := (List.mem_filter.1 ha).1
      have hb' := (List.mem_filter.1 hb).1
      have h1 := hp k hk a ha' ((mem_parallel ha').1 ha)
      have h2 := hp k hk b hb' ((mem_parallel hb').1 hb)
      rw [← h1, ← h2] at hn
      simp at hn
  exact Prod.ext (loop_keeps h) h

example : aggregateMulti id [⟨"Line", "1", "a", "b"⟩, ⟨"Transformer", "1", "b", "c"⟩] ["1"] = (["1"], none) := by
  decide +kernel

/-- **Finding** (`pf.py` 1331-1335): the summed values are set on the key of the first branch, a
tuple.  In every sub-network with parallel branches the function raises, and if all of them are
lines some have been removed from the network before. -/
theorem aggregate_fails (order : List Key → List Key) (ks : List Key) (lines : List Name)
    (ho : (order ks).Perm ks) (k k' : Key) (hk : k ∈ ks) (hk' : k' ∈ ks) (hne : k ≠ k')
    (hs : SameEnds k k') :
    (aggregateMulti order ks lines).2 ≠ none ∧
    ((∀ k ∈ ks, k.name ∈ lines) → (aggregateMulti order ks lines).2 = some .attributeError ∧
      ∃ l ∈ lines, l ∉ (aggregateMulti order ks lines).1) := by
  have h : (aggregateMulti order ks lines).2 ≠ none := by
    unfold aggregateMulti
    rw [Ne, loop_none]
    intro hall
    have := hall (k.bus0, k.bus1) (List.mem_map.2 ⟨k, ho.mem_iff.2 hk, rfl⟩)
    have h1 : k ∈ parallel ks k.bus0 k.bus1 := (mem_parallel hk).2 (Or.inl ⟨rfl, rfl⟩)
    have h2 : k' ∈ parallel ks k.bus0 k.bus1 := (mem_parallel hk').2 hs
    match hq : parallel ks k.bus0 k.bus1 with
    | [] => rw [hq] at h1; simp at h1
    | [a] =>
      rw [hq] at h1 h2
      simp only [List.mem_singleton] at h1 h2
      exact hne (h1.trans h2.symm)
    | a :: b :: t => simp [hq] at this
  exact ⟨h, fun hl => loop_loses hl h⟩

/-- Two lines between the same buses, given in opposite directions, and a transformer. -/
example : aggregateMulti id [⟨"Line", "1", "a", "b"⟩, ⟨"Line", "2", "b", "a"⟩, ⟨"Line", "3", "b", "c"⟩]
    ["1", "2", "3"] = (["1", "3"], some .attributeError) := by decide +kernel

end Verif.Graph
