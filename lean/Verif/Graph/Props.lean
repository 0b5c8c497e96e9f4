import Verif.Graph.Lemmas

/-!
# Properties C20-C23: topology, adjacency, incidence, slack and bus order
-/

namespace Verif.Graph

/-! ### Specifications -/

/-- The branch is in service: switched on and, if an investment period is given, built and
not yet decommissioned in it. -/
def ActiveIn (period : Option Int) (b : Branch) : Prop :=
  b.active = true ∧ ∀ p, period = some p → b.build ≤ p ∧ ∀ l, b.life = some l → p < b.build + l

theorem isActive_iff {period : Option Int} {b : Branch} :
    b.isActive period = true ↔ ActiveIn period b := by
  unfold Branch.isActive Branch.builtIn ActiveIn
  cases period with
  | none => simp
  | some p => cases b.life with
    | none => simp [and_comm]
    | some l => simp [and_comm]

theorem isActive_eq_false {period : Option Int} {b : Branch} :
    b.isActive period = false ↔ ¬ ActiveIn period b := by
  rw [← isActive_iff]; simp

instance (period : Option Int) (b : Branch) : Decidable (ActiveIn period b) :=
  decidable_of_iff _ isActive_iff

/-- Some active branch of the tables joins the two buses. -/
def Joined (ts : List Table) (period : Option Int) (x y : Name) : Prop :=
  ∃ t ∈ ts, ∃ b ∈ t.rows, ActiveIn period b ∧
    ((b.bus0 = x ∧ b.bus1 = y) ∨ (b.bus0 = y ∧ b.bus1 = x))

/-- A path of active branches leads from one bus to the other. -/
def Path (ts : List Table) (period : Option Int) : Name → Name → Prop :=
  Relation.ReflTransGen (Joined ts period)

/-- The ends of all active branches are buses. -/
def KnownEnds (buses : List Name) (ts : List Table) (period : Option Int) : Prop :=
  ∀ t ∈ ts, ∀ b ∈ t.rows, ActiveIn period b → b.bus0 ∈ buses ∧ b.bus1 ∈ buses

/-- The class visited last among those with rows has an active branch, or no class has. -/
def LastTableActive (ts : List Table) (period : Option Int) : Prop :=
  (∃ t, (ts.filter (fun t => !t.rows.isEmpty)).getLast? = some t ∧
    ∃ b ∈ t.rows, ActiveIn period b) ∨
  ∀ t ∈ ts, ∀ b ∈ t.rows, ¬ ActiveIn period b

theorem lastCount_eq (period : Option Int) (ts : List Table) :
    lastCount period ts = match (ts.filter (fun t => !t.rows.isEmpty)).getLast? with
      | none => 0
      | some t => (t.rows.filter (·.isActive period)).length := by
  unfold lastCount nonEmpty
  generalize ts.filter (fun t => !t.rows.isEmpty) = l
  generalize hk : 0 = k
  cases hl : l.getLast? with
  | none => rw [List.getLast?_eq_none_iff.1 hl]; simp
  | some t =>
    obtain ⟨l', rfl⟩ := List.getLast?_eq_some_iff.1 hl
    simp

theorem lastTableActive_count {ts : List Table} {period : Option Int}
    (h : LastTableActive ts period) :
    lastCount period ts = 0 → ∀ t ∈ ts, ∀ b ∈ t.rows, b.isActive period = false := by
  intro h0
  rcases h with ⟨t, ht, b, hb, hact⟩ | h
  · rw [lastCount_eq, ht] at h0
    simp only [List.length_eq_zero_iff, List.filter_eq_nil_iff] at h0
    exact absurd (isActive_iff.2 hact) (h0 b hb)
  · intro t ht b hb
    exact isActive_eq_false.2 (h t ht b hb)

/-! ### C21 -/

/-- **C21 (partial: the class visited last has an active branch).** The entry `(i, j)` of
the adjacency matrix is the sum of the weights of the active branches from the `i`-th to the
`j`-th bus, over all requested classes.  Missing: the class visited last has rows but none
active; then all branches are dropped (`adjacency_drops_branches`). -/
theorem adjacency_counts_partial {F : Type} [AddMonoid F] (order : List Name) (hnd : order.Nodup)
    (ts : List Table) (period : Option Int) (weight : String × Branch → F)
    (hends : KnownEnds order ts period) (hlast : LastTableActive ts period) :
    ∃ tr, adjacency order ts period weight = .ok tr ∧
      ∀ i j (hi : i < order.length) (hj : j < order.length),
        entry tr i j = (((ts.flatMap (fun t => t.rows.map (fun b => (t.cls, b)))).filter
          (fun b => ActiveIn period b.2 ∧ b.2.bus0 = order[i] ∧ b.2.bus1 = order[j])).map
            weight).sum := by
  have hends : ∀ t ∈ ts, ∀ b ∈ t.rows, b.isActive period = true → b.bus0 ∈ order ∧ b.bus1 ∈ order :=
    fun t ht b hb h => hends t ht b hb (isActive_iff.1 h)
  refine ⟨_, adjacency_ok order ts period weight hends (lastTableActive_count hlast), ?_⟩
  intro i j hi hj
  unfold entry
  rw [List.filter_map, List.map_map, activeBranches_eq, List.filter_filter]
  have : (allBranches ts).filter (fun b => ((fun t : Nat × Nat × F => decide (t.1 = i ∧ t.2.1 = j)) ∘
        (fun b => (order.idxOf b.2.bus0, order.idxOf b.2.bus1, weight b))) b && b.2.isActive period) =
      (ts.flatMap (fun t => t.rows.map (fun b => (t.cls, b)))).filter
        (fun b => ActiveIn period b.2 ∧ b.2.bus0 = order[i] ∧ b.2.bus1 = order[j]) := by
    apply List.filter_congr
    intro e he
    obtain ⟨t, ht, _, hb⟩ := mem_allBranches.1 he
    by_cases hact : e.2.isActive period = true
    · obtain ⟨h0, h1⟩ := hends t ht e.2 hb hact
      simp [hact, isActive_iff.1 hact, idxOf_eq_iff hnd h0 hi, idxOf_eq_iff hnd h1 hj]
    · simp [hact, mt isActive_iff.2 hact]
  rw [this]
  rfl

/-- Two lines, two transformers of which one is out of service. -/
def exTables (active : Bool) : List Table :=
  [⟨"Line", [{ name := "l1", bus0 := "a", bus1 := "b" }, { name := "l2", bus0 := "a", bus1 := "b" }]⟩,
   ⟨"Transformer", [{ name := "t1", bus0 := "b", bus1 := "c", active := active }]⟩]

/-- Non-vacuity of C20 and C21. -/
example : KnownEnds ["a", "b", "c"] (exTables true) none ∧ LastTableActive (exTables true) none ∧
    ["a", "b", "c"].Nodup := by
  refine ⟨?_, Or.inl ⟨_, rfl, _, List.mem_singleton.2 rfl, by decide⟩, by decide⟩
  intro t ht b hb _
  simp only [exTables, List.mem_cons, List.not_mem_nil, or_false] at ht
  rcases ht with rfl | rfl
  · simp only [List.mem_cons, List.not_mem_nil, or_false] at hb
    rcases hb with rfl | rfl <;> simp
  · simp only [List.mem_cons, List.not_mem_nil, or_false] at hb
    subst hb; simp

/-- **C21 is violated** (finding, `graph.py` 146-153): `no_branches` is overwritten in every
pass of the loop, so when the class visited last has only inactive branches the matrix is
empty although there are two active lines. -/
theorem adjacency_drops_branches :
    adjacency ["a", "b", "c"] (exTables false) none (fun _ => (1 : Nat)) = .ok [] ∧
    ((exTables false).flatMap (·.rows)).any (fun b => b.active) = true := by
  decide

theorem collect_error {α β : Type} (f : α → Except Err β) (l : List α) (a : α) (ha : a ∈ l) (e : Err) (h : f a = .error e) :
    ∃ e', collect f l = .error e' := by
  induction l with
  | nil => simp at ha
  | cons b l ih =>
    cases hb : f b with
    | error e' => exact ⟨e', by simp [collect, hb]⟩
    | ok v =>
      rcases List.mem_cons.1 ha with rfl | ha
      · rw [h] at hb; cases hb
      · obtain ⟨e', he⟩ := ih ha
        exact ⟨e', by simp [collect, hb, he]⟩

theorem ends_unknown {order : List Name} {b : Branch} (h : b.bus0 ∉ order ∨ b.bus1 ∉ order) : ends order b = .error .valueError := by
  unfold ends indexer
  rcases h with h | h
  · simp [h]
  · by_cases h0 : b.bus0 ∈ order <;> simp [h, h0]

/-- **C21, C22.** An active branch with an end that is no bus is not silently counted at another bus: both matrices are refused. -/
theorem unknown_end_refused {F : Type} (order : List Name) (ts : List Table) (period : Option Int) (weight : String × Branch → F)
    (hlast : LastTableActive ts period) (t : Table) (ht : t ∈ ts) (b : Branch) (hb : b ∈ t.rows) (hact : ActiveIn period b)
    (hend : b.bus0 ∉ order ∨ b.bus1 ∉ order) :
    adjacency order ts period weight = .error .valueError ∧ incidence order ts = .error .valueError := by
  have one : ∀ e : Err, e = .valueError := fun e => by cases e; rfl
  have mem : ∀ period, b.isActive period = true → (t.cls, b) ∈ activeBranches period ts := by
    intro period h
    rw [activeBranches_eq, List.mem_filter]
    exact ⟨mem_allBranches.2 ⟨t, ht, rfl, hb⟩, h⟩
  constructor
  · unfold adjacency
    rw [if_neg (fun h0 => by
      have := lastTableActive_count hlast h0 t ht b hb
      rw [isActive_iff.2 hact] at this; cases this)]
    obtain ⟨e, he⟩ := collect_error (fun b : String × Branch =>
      match ends order b.2 with
      | .error e => .error e
      | .ok (i, j) => .ok (i, j, weight b)) (activeBranches period ts) (t.cls, b) (mem period (isActive_iff.2 hact)) .valueError
        (by simp only [ends_unknown hend])
    rw [← one e]; exact he
  · unfold incidence
    split
    · rfl
    · obtain ⟨e, he⟩ := collect_error (fun b : String × Branch => ends order b.2) (activeBranches none ts) (t.cls, b)
        (mem none (by simpa [Branch.isActive] using hact.1)) .valueError (ends_unknown hend)
      rw [he, one e]

example : adjacency ["a"] (exTables true) none (fun _ => (1 : Nat)) = .error .valueError :=
  (unknown_end_refused ["a"] (exTables true) none _ (by unfold LastTableActive; decide) _ List.mem_cons_self _ List.mem_cons_self
    (by decide) (by decide)).1

/-! ### C20 -/

theorem joined_symm {ts : List Table} {period : Option Int} {x y : Name}
    (h : Joined ts period x y) : Joined ts period y x := by
  obtain ⟨t, ht, b, hb, hact, h⟩ := h
  exact ⟨t, ht, b, hb, hact, h.symm⟩

theorem path_symm {ts : List Table} {period : Option Int} {x y : Name}
    (h : Path ts period x y) : Path ts period y x := by
  induction h with
  | refl => exact .refl
  | tail _ h ih => exact .head (joined_symm h) ih

/-- **C20 (partial: the class visited last has an active branch).** After
`determine_network_topology` every bus has one sub-network label; two buses share it iff a
path of active lines and transformers connects them; the sub-networks are exactly the labels
in use, without repetition (with `skip_isolated_buses`, those of more than one bus); an
active branch lies in the sub-network of both its ends and, when an investment period is
given, an inactive branch in none.  Missing: the case of `topology_ignores_lines`. -/
theorem topology_components_partial (buses : List Name) (hnd : buses.Nodup) (ts : List Table)
    (period : Option Int) (skip : Bool) (hends : KnownEnds buses ts period)
    (hlast : LastTableActive ts period) :
    ∃ T, topology buses ts period skip = .ok T ∧
      (∀ x ∈ buses, ∀ y ∈ buses, T.bus x = T.bus y ↔ Path ts period x y) ∧
      T.subNetworks.Nodup ∧
      (∀ s, s ∈ T.subNetworks ↔ ∃ x ∈ buses, T.bus x = s ∧
        (skip = true → ∃ y ∈ buses, y ≠ x ∧ Path ts period x y)) ∧
      ∀ t ∈ ts, ∀ b ∈ t.rows,
        (ActiveIn period b →
          T.branch b = some (T.bus b.bus0) ∧ T.branch b = some (T.bus b.bus1)) ∧
        (¬ ActiveIn period b → period ≠ none → T.branch b = none) := by
  have hends : ∀ t ∈ ts, ∀ b ∈ t.rows, b.isActive period = true → b.bus0 ∈ buses ∧ b.bus1 ∈ buses :=
    fun t ht b hb h => hends t ht b hb (isActive_iff.1 h)
  have hadj := adjacency_ok (F := Nat) buses ts period (fun _ => 1) hends
    (lastTableActive_count hlast)
  unfold topology
  rw [hadj]
  simp only [List.map_map]
  generalize hedges : (activeBranches period ts).map
    ((fun t : Nat × Nat × Nat => (t.1, t.2.1)) ∘
      fun b => (buses.idxOf b.2.bus0, buses.idxOf b.2.bus1, 1)) = edges
  have hedge : ∀ i j, (i, j) ∈ edges ↔ ∃ t ∈ ts, ∃ b ∈ t.rows, b.isActive period = true ∧
      buses.idxOf b.bus0 = i ∧ buses.idxOf b.bus1 = j := by
    intro i j
    rw [← hedges, List.mem_map]
    constructor
    · rintro ⟨e, he, heq⟩
      rw [activeBranches_eq, List.mem_filter] at he
      obtain ⟨t, ht, _, hb⟩ := mem_allBranches.1 he.1
      simp only [Function.comp, Prod.mk.injEq] at heq
      exact ⟨t, ht, e.2, hb, he.2, heq⟩
    · rintro ⟨t, ht, b, hb, hact, h0, h1⟩
      refine ⟨(t.cls, b), ?_, by simp [h0, h1]⟩
      rw [activeBranches_eq, List.mem_filter]
      exact ⟨mem_allBranches.2 ⟨t, ht, rfl, hb⟩, hact⟩
  -- indices and names
  have fwd : ∀ i j, Relation.EqvGen (fun x y => (x, y) ∈ edges) i j →
      i = j ∨ ∃ x ∈ buses, ∃ y ∈ buses, buses.idxOf x = i ∧ buses.idxOf y = j ∧
        Path ts period x y := by
    intro i j h
    induction h with
    | rel i j h =>
      obtain ⟨t, ht, b, hb, hact, h0, h1⟩ := (hedge i j).1 h
      obtain ⟨e0, e1⟩ := hends t ht b hb hact
      exact Or.inr ⟨_, e0, _, e1, h0, h1, .single ⟨t, ht, b, hb, isActive_iff.1 hact, Or.inl ⟨rfl, rfl⟩⟩⟩
    | refl i => exact Or.inl rfl
    | symm i j _ ih =>
      rcases ih with h | ⟨x, hx, y, hy, h1, h2, hp⟩
      · exact Or.inl h.symm
      · exact Or.inr ⟨y, hy, x, hx, h2, h1, path_symm hp⟩
    | trans i j k _ _ ih1 ih2 =>
      rcases ih1 with rfl | ⟨x, hx, y, hy, h1, h2, hp⟩
      · exact ih2
      · rcases ih2 with rfl | ⟨x', hx', y', hy', h1', h2', hp'⟩
        · exact Or.inr ⟨x, hx, y, hy, h1, h2, hp⟩
        · have : y = x' := (List.idxOf_inj hy).1 (h2.trans h1'.symm)
          subst this
          exact Or.inr ⟨x, hx, y', hy', h1, h2', hp.trans hp'⟩
  have bwd : ∀ x y, Path ts period x y →
      Relation.EqvGen (fun x y => (x, y) ∈ edges) (buses.idxOf x) (buses.idxOf y) := by
    intro x y h
    induction h with
    | refl => exact .refl _
    | tail _ h ih =>
      obtain ⟨t, ht, b, hb, hact, h⟩ := h
      refine .trans _ _ _ ih ?_
      have he := (hedge _ _).2 ⟨t, ht, b, hb, isActive_iff.2 hact, rfl, rfl⟩
      rcases h with ⟨rfl, rfl⟩ | ⟨rfl, rfl⟩
      · exact .rel _ _ he
      · exact .symm _ _ (.rel _ _ he)
  have hlab : ∀ x ∈ buses, ∀ y ∈ buses,
      labels buses.length edges (buses.idxOf x) = labels buses.length edges (buses.idxOf y) ↔
        Path ts period x y := by
    intro x hx y hy
    rw [labels_iff (List.idxOf_lt_length_of_mem hx)]
    constructor
    · intro h
      rcases fwd _ _ h with h | ⟨x', hx', y', hy', h1, h2, hp⟩
      · rw [(List.idxOf_inj hx).1 h]; exact .refl
      · rw [← (List.idxOf_inj hx').1 h1, ← (List.idxOf_inj hy').1 h2]; exact hp
    · exact bwd x y
  refine ⟨_, rfl, hlab, List.Nodup.filter _ List.nodup_range, ?_, ?_⟩
  · intro s
    simp only [List.mem_filter, List.mem_range]
    constructor
    · rintro ⟨hs, hsk⟩
      obtain ⟨a, ha, hval⟩ := labels_surj hs
      refine ⟨buses[a], List.getElem_mem _, by rw [hnd.idxOf_getElem a ha]; exact hval, ?_⟩
      intro hskip
      simp only [hskip, Bool.true_and, Bool.not_eq_eq_eq_not, Bool.not_true,
        decide_eq_false_iff_not] at hsk
      -- another index with the same label
      by_contra hno
      apply hsk
      have : (List.range buses.length).filter (fun k => labels buses.length edges k = s) = [a] := by
        have hnd' : ((List.range buses.length).filter
            (fun k => labels buses.length edges k = s)).Nodup := List.Nodup.filter _ List.nodup_range
        apply List.perm_singleton.1
        refine (List.perm_ext_iff_of_nodup hnd' (by simp)).2 ?_
        intro k
        simp only [List.mem_filter, List.mem_range, decide_eq_true_eq, List.mem_singleton]
        constructor
        · rintro ⟨hk, hks⟩
          by_contra hka
          refine hno ⟨buses[k], List.getElem_mem _, ?_, ?_⟩
          · intro h; exact hka ((hnd.getElem_inj_iff).1 h)
          · apply (hlab _ (List.getElem_mem _) _ (List.getElem_mem _)).1
            rw [hnd.idxOf_getElem a ha, hnd.idxOf_getElem k hk, hval, hks]
        · rintro rfl; exact ⟨ha, hval⟩
      rw [this]; rfl
    · rintro ⟨x, hx, rfl, hsk⟩
      have hxl := List.idxOf_lt_length_of_mem hx
      refine ⟨labels_lt hxl, ?_⟩
      cases skip with
      | false => simp
      | true =>
        obtain ⟨y, hy, hyx, hp⟩ := hsk rfl
        simp only [Bool.true_and, Bool.not_eq_eq_eq_not, Bool.not_true, decide_eq_false_iff_not]
        intro h1
        obtain ⟨k, hk⟩ := List.length_eq_one_iff.1 h1
        have mx : buses.idxOf x ∈ (List.range buses.length).filter (fun k =>
            labels buses.length edges k = labels buses.length edges (buses.idxOf x)) := by
          simp [hxl]
        have my : buses.idxOf y ∈ (List.range buses.length).filter (fun k =>
            labels buses.length edges k = labels buses.length edges (buses.idxOf x)) := by
          simp only [List.mem_filter, List.mem_range, decide_eq_true_eq]
          exact ⟨List.idxOf_lt_length_of_mem hy, ((hlab x hx y hy).2 hp).symm⟩
        rw [hk, List.mem_singleton] at mx my
        exact hyx ((List.idxOf_inj hy).1 (my.trans mx.symm))
  · intro t ht b hb
    refine ⟨?_, ?_⟩
    · intro hact
      rw [← isActive_iff] at hact
      obtain ⟨e0, e1⟩ := hends t ht b hb hact
      have hsame := (hlab _ e0 _ e1).2 (.single ⟨t, ht, b, hb, isActive_iff.1 hact, Or.inl ⟨rfl, rfl⟩⟩)
      simp only [hact, Bool.not_true, Bool.and_false, Bool.false_eq_true, if_false, true_and,
        Option.some.injEq]
      exact hsame
    · intro hact hper
      rw [← isActive_eq_false] at hact
      have : period.isSome = true := by
        cases period with
        | none => exact absurd rfl hper
        | some _ => rfl
      simp [hact, this]

/-- `a` and `b` are connected, `c` is joined by an active transformer. -/
example : (match topology ["a", "b", "c", "d"] (exTables true) none false with
    | .ok T => decide (T.bus "a" = T.bus "c" ∧ T.bus "a" ≠ T.bus "d" ∧ T.subNetworks = [0, 1])
    | .error _ => false) = true := by decide +kernel

/-- **C20 is violated** (finding, consequence of `adjacency_drops_branches`): with all
transformers out of service and transformers visited last, two buses joined by two active
lines are in different sub-networks. -/
theorem topology_ignores_lines : ∃ T, topology ["a", "b", "c"] (exTables false) none false = .ok T ∧
    T.bus "a" ≠ T.bus "b" ∧ Joined (exTables false) none "a" "b" := by
  refine ⟨_, rfl, by decide +kernel, ?_⟩
  exact ⟨_, List.mem_cons_self, _, List.mem_cons_self, by decide, Or.inl ⟨rfl, rfl⟩⟩

/-! ### C22 -/

theorem numbered_getElem {α : Type} (l : List α) (k i : Nat) (h : i < l.length) :
    (k + i, l[i]) ∈ numbered k l := by
  induction l generalizing k i with
  | nil => simp at h
  | cons a l ih =>
    cases i with
    | zero => simp [numbered]
    | succ i =>
      simp only [numbered, List.getElem_cons_succ, List.mem_cons]
      right
      have := ih (k + 1) i (by simpa using h)
      rwa [show k + 1 + i = k + (i + 1) by omega] at this

theorem filter_numbered {α : Type} (l : List α) (k i : Nat) (h : i < l.length) :
    (numbered k l).filter (fun e => e.1 = k + i) = [(k + i, l[i])] := by
  induction l generalizing k i with
  | nil => simp at h
  | cons a l ih =>
    have hgt : ∀ (l : List α) (k j : Nat), j < k → (numbered k l).filter (fun e => e.1 = j) = [] := by
      intro l
      induction l with
      | nil => intro k j _; rfl
      | cons b l ih' =>
        intro k j hj
        simp only [numbered]
        rw [List.filter_cons_of_neg (by simp; omega)]
        exact ih' (k + 1) j (by omega)
    cases i with
    | zero =>
      simp only [numbered, Nat.add_zero, List.getElem_cons_zero]
      rw [List.filter_cons_of_pos (by simp), hgt l (k + 1) k (by omega)]
    | succ i =>
      simp only [numbered, List.getElem_cons_succ]
      rw [List.filter_cons_of_neg (by simp)]
      have := ih (k + 1) i (by simpa using h)
      rwa [show k + 1 + i = k + (i + 1) by omega] at this

theorem numbered_map {α β : Type} (f : α → β) (l : List α) (k : Nat) :
    numbered k (l.map f) = (numbered k l).map (fun e => (e.1, f e.2)) := by
  induction l generalizing k with
  | nil => rfl
  | cons a l ih => simp [numbered, ih]

/-- The branches in service, table after table. -/
def inService (ts : List Table) : List Branch :=
  (ts.flatMap (fun t => t.rows)).filter (fun b => b.active)

/-- **C22.** If some class has rows and the ends of the active branches are known, the
incidence matrix has one column per active branch, in the order visited: `+1` in the row of
`bus0`, `-1` in the row of `bus1` and `0` elsewhere when the ends differ (a branch from a bus
to itself has a zero column), and every column adds up to zero. -/
theorem incidence_columns (order : List Name) (hnd : order.Nodup) (ts : List Table)
    (hne : ∃ t ∈ ts, t.rows ≠ []) (hends : KnownEnds order ts none) :
    ∃ tr, incidence order ts = .ok tr ∧
      ∀ l (hl : l < (inService ts).length),
        (∀ i (hi : i < order.length), entry tr i l =
          if (inService ts)[l].bus0 = (inService ts)[l].bus1 then 0
          else if order[i] = (inService ts)[l].bus0 then 1
          else if order[i] = (inService ts)[l].bus1 then -1
          else 0) ∧
        ((List.range order.length).map (fun i => entry tr i l)).sum = 0 := by
  have hends : ∀ t ∈ ts, ∀ b ∈ t.rows, b.isActive none = true → b.bus0 ∈ order ∧ b.bus1 ∈ order :=
    fun t ht b hb h => hends t ht b hb (isActive_iff.1 h)
  have hb : (activeBranches none ts).map (·.2) = (ts.flatMap (·.rows)).filter (·.active) := by
    rw [activeBranches_eq]
    unfold allBranches
    induction ts with
    | nil => rfl
    | cons t ts ih =>
      have hmap : ((List.map (fun b => (t.cls, b)) t.rows).filter
          (fun b => b.2.isActive none)).map (·.2) = t.rows.filter (·.active) := by
        rw [List.filter_map, List.map_map]
        simp [Function.comp_def, Branch.isActive]
      have ih' : ((ts.flatMap (fun t => t.rows.map (fun b => (t.cls, b)))).filter
          (fun b => b.2.isActive none)).map (·.2) = (ts.flatMap (·.rows)).filter (·.active) := by
        clear hne hends ih hmap
        clear hends
        induction ts with
        | nil => rfl
        | cons t ts ih =>
          rw [List.flatMap_cons, List.flatMap_cons, List.filter_append, List.filter_append,
            List.map_append, ih]
          congr 1
          rw [List.filter_map, List.map_map]
          simp [Function.comp_def, Branch.isActive]
      rw [List.flatMap_cons, List.flatMap_cons, List.filter_append, List.filter_append,
        List.map_append, hmap, ih']
  have hcol : collect (fun b => ends order b.2) (activeBranches none ts) =
      .ok ((activeBranches none ts).map
        (fun b => (order.idxOf b.2.bus0, order.idxOf b.2.bus1))) := by
    apply collect_ok
    intro e he
    rw [activeBranches_eq, List.mem_filter] at he
    obtain ⟨t, ht, _, hb⟩ := mem_allBranches.1 he.1
    obtain ⟨h0, h1⟩ := hends t ht e.2 hb he.2
    exact ends_ok h0 h1
  have hne' : (nonEmpty ts).isEmpty = false := by
    obtain ⟨t, ht, htr⟩ := hne
    have : t ∈ nonEmpty ts := List.mem_filter.2 ⟨ht, by simpa using htr⟩
    cases h : nonEmpty ts with
    | nil => rw [h] at this; simp at this
    | cons _ _ => rfl
  have hmm : (activeBranches none ts).map (fun b => (order.idxOf b.2.bus0, order.idxOf b.2.bus1)) =
      ((ts.flatMap (·.rows)).filter (·.active)).map
        (fun b => (order.idxOf b.bus0, order.idxOf b.bus1)) := by
    rw [← hb, List.map_map]; rfl
  unfold incidence
  simp only [hne', Bool.false_eq_true, if_false, hcol]
  rw [hmm]
  unfold inService
  generalize hB : (ts.flatMap (·.rows)).filter (·.active) = B
  have hBends : ∀ b ∈ B, b.bus0 ∈ order ∧ b.bus1 ∈ order := by
    intro b hb'
    rw [← hB, List.mem_filter, List.mem_flatMap] at hb'
    obtain ⟨⟨t, ht, hbt⟩, hact⟩ := hb'
    exact hends t ht b hbt hact
  refine ⟨_, rfl, ?_⟩
  intro l hl
  have hmem := hBends B[l] (List.getElem_mem _)
  have hent : ∀ i, entry ((numbered 0 (B.map fun b => (order.idxOf b.bus0, order.idxOf b.bus1))).map
        (fun e => (e.2.1, e.1, (1 : Int))) ++
      (numbered 0 (B.map fun b => (order.idxOf b.bus0, order.idxOf b.bus1))).map
        (fun e => (e.2.2, e.1, (-1 : Int)))) i l =
      (if order.idxOf B[l].bus0 = i then 1 else 0) + (if order.idxOf B[l].bus1 = i then -1 else 0) := by
    intro i
    unfold entry
    rw [List.filter_append, List.map_append, List.sum_append, List.filter_map, List.filter_map,
      List.map_map, List.map_map]
    have key : ∀ (g : Nat × Nat → Nat) (v : Int),
        (((numbered 0 (B.map fun b => (order.idxOf b.bus0, order.idxOf b.bus1))).filter
          ((fun t : Nat × Nat × Int => decide (t.1 = i ∧ t.2.1 = l)) ∘
            fun e => (g e.2, e.1, v))).map
          ((fun t : Nat × Nat × Int => t.2.2) ∘ fun e => (g e.2, e.1, v))).sum =
        if g (order.idxOf B[l].bus0, order.idxOf B[l].bus1) = i then v else 0 := by
      intro g v
      have hl' : l < (B.map fun b => (order.idxOf b.bus0, order.idxOf b.bus1)).length := by
        simpa using hl
      have hf := filter_numbered (B.map fun b => (order.idxOf b.bus0, order.idxOf b.bus1)) 0 l hl'
      simp only [Nat.zero_add, List.getElem_map] at hf
      have hsplit : (numbered 0 (B.map fun b => (order.idxOf b.bus0, order.idxOf b.bus1))).filter
          ((fun t : Nat × Nat × Int => decide (t.1 = i ∧ t.2.1 = l)) ∘
            fun e => (g e.2, e.1, v)) =
          ((numbered 0 (B.map fun b => (order.idxOf b.bus0, order.idxOf b.bus1))).filter
            (fun e => e.1 = l)).filter (fun e => g e.2 = i) := by
        rw [List.filter_filter]
        apply List.filter_congr
        intro e _
        simp [Bool.decide_and]
      rw [hsplit, hf]
      by_cases hg : g (order.idxOf B[l].bus0, order.idxOf B[l].bus1) = i
      · rw [List.filter_cons_of_pos (by simpa using hg)]; simp [hg]
      · rw [List.filter_cons_of_neg (by simpa using hg)]; simp [hg]
    have k1 := key (·.1) 1
    have k2 := key (·.2) (-1)
    simp only at k1 k2
    rw [k1, k2]
  constructor
  · intro i hi
    rw [hent i]
    simp only [idxOf_eq_iff hnd hmem.1 hi, idxOf_eq_iff hnd hmem.2 hi]
    by_cases hself : B[l].bus0 = B[l].bus1
    · simp only [hself, if_true]; split <;> simp
    · simp only [hself, if_false]
      by_cases h0 : B[l].bus0 = order[i]
      · have h1 : ¬ B[l].bus1 = order[i] := fun h => hself (h0.trans h.symm)
        simp [h0, h1]
      · have h0' : ¬ order[i] = B[l].bus0 := fun h => h0 h.symm
        by_cases h1 : B[l].bus1 = order[i]
        · simp [h0, h0', h1]
        · have h1' : ¬ order[i] = B[l].bus1 := fun h => h1 h.symm
          simp [h0, h0', h1, h1']
  · simp only [hent]
    have hs : ∀ (j : Nat) (v : Int), j < order.length →
        ((List.range order.length).map (fun i => if j = i then v else 0)).sum = v := by
      intro j v hj
      generalize order.length = n at hj
      induction n with
      | zero => omega
      | succ n ih =>
        rw [List.range_succ, List.map_append, List.sum_append]
        by_cases h : j = n
        · subst h
          have : ((List.range j).map (fun i => if j = i then v else 0)).sum = 0 := by
            apply List.sum_eq_zero
            intro x hx
            obtain ⟨i, hi, rfl⟩ := List.mem_map.1 hx
            have : j ≠ i := by simp at hi; omega
            simp [this]
          simp [this]
        · rw [ih (by omega)]; simp [h]
    rw [List.sum_map_add, hs _ _ (List.idxOf_lt_length_of_mem hmem.1),
      hs _ _ (List.idxOf_lt_length_of_mem hmem.2)]
    rfl

/-- Non-vacuity: the first line's column. -/
example : (match incidence ["a", "b", "c"] (exTables true) with
    | .ok tr => decide ((List.range 3).map (fun i => entry tr i 0) = [1, -1, 0] ∧
        (List.range 3).map (fun i => entry tr i 2) = [0, 1, -1])
    | .error _ => false) = true := by decide +kernel

/-! ### C23 -/

/-- **C23.** In a sub-network with at least one bus, whose generators have distinct names and
sit at its buses: the slack bus is one of its buses; it is the only bus of control `Slack`;
every other bus is either `PV` (exactly when it has a generator that is `PV` after the slack
choice, the first of which is recorded) or `PQ`; the ordered list starts with the slack bus
and is a permutation of the buses; if there are generators, exactly one of them is `Slack`
afterwards, and it sits at the slack bus. -/
theorem bus_controls_complete (buses : List Name) (hne : buses ≠ []) (hnd : buses.Nodup)
    (gens : List Gen) (hg : (gens.map (·.name)).Nodup) (hbus : ∀ g ∈ gens, g.bus ∈ buses)
    (old : Name → Option Name) :
    ∃ C, busControls buses gens old = some C ∧
      C.slackBus ∈ buses ∧
      (∀ b, C.control b = "Slack" ↔ b = C.slackBus) ∧
      (∀ b ∈ buses, b ≠ C.slackBus →
        (b ∈ C.pvs ∧ b ∉ C.pqs ∧ C.control b = "PV" ∧ ∃ g ∈ C.gens, g.bus = b ∧ g.control = "PV" ∧
          C.generator b = some g.name) ∨
        (b ∉ C.pvs ∧ b ∈ C.pqs ∧ C.control b = "PQ" ∧
          ∀ g ∈ C.gens, g.bus = b → g.control ≠ "PV")) ∧
      C.busesO.Perm buses ∧ C.busesO.head? = some C.slackBus ∧
      C.gens.map (fun g => (g.name, g.bus)) = gens.map (fun g => (g.name, g.bus)) ∧
      (gens ≠ [] → ∃ s ∈ C.gens, s.bus = C.slackBus ∧ C.slackGen = some s.name ∧
        ∀ g ∈ C.gens, g.control = "Slack" ↔ g = s) := by
  have hset : ∀ (names : List Name) (c : String) (l : List Gen),
      (l.map (setControl names c)).map (fun g => (g.name, g.bus)) =
        l.map (fun g => (g.name, g.bus)) := by
    intro names c l
    rw [List.map_map]
    apply List.map_congr_left
    intro g _
    simp only [Function.comp, setControl]
    split <;> rfl
  -- the slack choice
  obtain ⟨sg, sb, gens', hfs, hsb, hkeep, hsl⟩ : ∃ sg sb gens',
      findSlack buses gens = some (sg, sb, gens') ∧ sb ∈ buses ∧
      gens'.map (fun g => (g.name, g.bus)) = gens.map (fun g => (g.name, g.bus)) ∧
      (gens ≠ [] → ∃ s ∈ gens', s.bus = sb ∧ sg = some s.name ∧
        ∀ g ∈ gens', g.control = "Slack" ↔ g = s) := by
    unfold findSlack
    cases hgs : gens with
    | nil =>
      cases hb : buses with
      | nil => exact absurd hb hne
      | cons b bs => exact ⟨_, _, _, rfl, by simp, rfl, fun h => absurd rfl h⟩
    | cons g gs =>
      rw [hgs] at hg hbus
      have inj : ∀ x ∈ g :: gs, ∀ y ∈ g :: gs, x.name = y.name → x = y :=
        fun x hx y hy h => List.inj_on_of_nodup_map hg hx hy h
      simp only
      cases hsl : (g :: gs).filter (fun g => g.control = "Slack") with
      | nil =>
        simp only
        refine ⟨_, _, _, rfl, hbus g (by simp), hset _ _ _, ?_⟩
        intro _
        refine ⟨setControl [g.name] "Slack" g, List.mem_map.2 ⟨g, by simp, rfl⟩, ?_, ?_, ?_⟩
        · simp [setControl]
        · simp [setControl]
        · intro x hx
          obtain ⟨y, hy, rfl⟩ := List.mem_map.1 hx
          have hyc : y.control ≠ "Slack" := by
            have := (List.filter_eq_nil_iff.1 hsl) y hy
            simpa using this
          by_cases hyn : y.name = g.name
          · rw [inj y hy g (by simp) hyn]; simp [setControl]
          · constructor
            · intro h; simp only [setControl, List.mem_singleton, hyn, if_false] at h
              exact absurd h hyc
            · intro h
              have := congrArg Gen.name h
              simp only [setControl, List.mem_singleton, hyn, if_false, if_true] at this
      | cons s rest =>
        simp only
        have hs : s ∈ (g :: gs).filter (fun g => g.control = "Slack") := by rw [hsl]; simp
        rw [List.mem_filter] at hs
        have hnd' : ((s :: rest).map (·.name)).Nodup := by
          rw [← hsl]; exact hg.sublist (List.filter_sublist.map _)
        simp only [List.map_cons, List.nodup_cons] at hnd'
        refine ⟨_, _, _, rfl, hbus s hs.1, hset _ _ _, ?_⟩
        intro _
        have hss : setControl (rest.map (·.name)) "PV" s = s := by
          unfold setControl; simp only [hnd'.1, if_false]
        refine ⟨s, List.mem_map.2 ⟨s, hs.1, hss⟩, rfl, rfl, ?_⟩
        intro x hx
        obtain ⟨y, hy, rfl⟩ := List.mem_map.1 hx
        by_cases hyr : y.name ∈ rest.map (·.name)
        · have e1 : setControl (rest.map (·.name)) "PV" y = { y with control := "PV" } := by
            unfold setControl; simp only [hyr, if_true]
          rw [e1]
          constructor
          · intro h; simp at h
          · intro h
            have := congrArg Gen.control h
            have hsc : s.control = "Slack" := by simpa using hs.2
            rw [hsc] at this
            simp at this
        · have e1 : setControl (rest.map (·.name)) "PV" y = y := by
            unfold setControl; simp only [hyr, if_false]
          rw [e1]
          constructor
          · intro h
            have : y ∈ (g :: gs).filter (fun g => g.control = "Slack") := by
              rw [List.mem_filter]; exact ⟨hy, by simpa using h⟩
            rw [hsl] at this
            rcases List.mem_cons.1 this with rfl | h'
            · rfl
            · exact absurd (List.mem_map.2 ⟨y, h', rfl⟩) hyr
          · rintro rfl; simpa using hs.2
  unfold busControls
  rw [hfs]
  refine ⟨_, rfl, hsb, ?_, ?_, ?_, rfl, hkeep, hsl⟩
  · intro b
    simp only
    by_cases hb : b = sb
    · simp [hb]
    · simp only [hb, if_false, iff_false]
      split <;> simp
  · intro b hb hbs
    simp only [List.mem_filter, decide_eq_true_eq, hb, true_and, hbs, if_false]
    by_cases hpv : b ∈ (gens'.filter (fun g => g.control = "PV")).map (·.bus)
    · left
      refine ⟨by simp only [hpv, if_true], by simp [hpv], by simp only [hpv, if_true], ?_⟩
      simp only [hpv, if_true]
      obtain ⟨g, hgm, hgb⟩ := List.mem_map.1 hpv
      cases hfind : (gens'.filter (fun g => g.control = "PV")).find? (fun g => g.bus = b) with
      | none =>
        have := List.find?_eq_none.1 hfind g hgm
        simp [hgb] at this
      | some x =>
        have h1 := List.mem_of_find?_eq_some hfind
        have h2 := List.find?_some hfind
        rw [List.mem_filter] at h1
        exact ⟨x, h1.1, by simpa using h2, by simpa using h1.2, rfl⟩
    · right
      refine ⟨by simp [hpv], by simp only [hpv, if_false], by simp only [hpv, if_false], ?_⟩
      intro g hgm hgb hgc
      exact hpv (List.mem_map.2 ⟨g, List.mem_filter.2 ⟨hgm, by simpa using hgc⟩, hgb⟩)
  · simp only
    apply (List.perm_ext_iff_of_nodup ?_ hnd).2
    · intro b
      simp only [List.mem_cons, List.mem_append, List.mem_filter, decide_eq_true_eq]
      constructor
      · rintro (rfl | h | h)
        · exact hsb
        · exact h.1
        · exact h.1
      · intro hb
        by_cases hbs : b = sb
        · exact Or.inl hbs
        · right
          by_cases hpv : b ∈ (gens'.filter (fun g => g.control = "PV")).map (·.bus)
          · left; exact ⟨hb, by simp only [hbs, if_false, hpv, if_true]⟩
          · right; exact ⟨hb, by simp only [hbs, if_false, hpv]⟩
    · rw [List.nodup_cons]
      refine ⟨by simp [List.mem_filter], ?_⟩
      rw [List.nodup_append]
      refine ⟨hnd.filter _, hnd.filter _, ?_⟩
      intro a ha b hb hab
      subst hab
      simp only [List.mem_filter, decide_eq_true_eq] at ha hb
      rw [ha.2] at hb
      simp at hb

/-- Non-vacuity: two slack generators, one is demoted to `PV`. -/
example : (match busControls ["a", "b", "c"]
      [⟨"g1", "b", "Slack"⟩, ⟨"g2", "c", "Slack"⟩, ⟨"g3", "c", "PV"⟩] (fun _ => none) with
    | some C => decide (C.slackBus = "b" ∧ C.busesO = ["b", "c", "a"] ∧
        C.generator "c" = some "g2")
    | none => false) = true := by decide +kernel

end Verif.Graph
