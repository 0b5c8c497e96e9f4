import Verif.Cluster.Lines
import Verif.Cluster.OnePortProps
import Mathlib.Data.String.Basic

/-!
# Properties of the aggregation of lines
-/

namespace Verif.Cluster.Lines

variable {F : Type} [Field F] [LinearOrder F]

/-! ## Specification -/

/-- The line joins the clusters `p` and `q`. -/
def Joins (busmap : String → Option String) (l : Line F) (p q : String) : Prop :=
  busmap l.bus0 = some p ∧ busmap l.bus1 = some q ∨ busmap l.bus0 = some q ∧ busmap l.bus1 = some p

instance (busmap : String → Option String) (l : Line F) (p q : String) : Decidable (Joins busmap l p q) := by
  unfold Joins; infer_instance

/-- The lines that join two clusters and agree in the columns named for grouping. -/
def between (busmap : String → Option String) (ls : List (Line F)) (p q tag : String) : List (Line F) :=
  ls.filter (fun l => decide (Joins busmap l p q ∧ l.tag = tag))

/-- `V` is the greatest voltage of the buses of two clusters. -/
def Top (cfg : Config F) (p q : String) (V : F) : Prop :=
  (∃ b ∈ cfg.buses, (cfg.busmap b.1 = some p ∨ cfg.busmap b.1 = some q) ∧ b.2 = V) ∧
    ∀ b ∈ cfg.buses, cfg.busmap b.1 = some p ∨ cfg.busmap b.1 = some q → b.2 ≤ V

/-! ## Groups -/

variable (cfg : Config F)

theorem mapLine_some (l : Line F) (m : Mapped F) (h : mapLine cfg l = some (some m)) :
    m.line = l ∧ m.c0 < m.c1 ∧ Joins cfg.busmap l m.c0 m.c1 := by
  unfold mapLine at h
  split at h
  · rename_i a b ha hb
    rw [Option.some.injEq] at h
    split at h
    · simp at h
    · rename_i hne
      split at h
      · rename_i hlt
        injection h with h
        subst h
        exact ⟨rfl, hlt, Or.inr ⟨ha, hb⟩⟩
      · rename_i hlt
        injection h with h
        subst h
        exact ⟨rfl, lt_of_le_of_ne (not_lt.1 hlt) hne, Or.inl ⟨ha, hb⟩⟩
  · simp at h

theorem mapLine_none (l : Line F) (h : mapLine cfg l = some none) (p q : String) (hpq : p < q) : ¬ Joins cfg.busmap l p q := by
  unfold mapLine at h
  split at h
  · rename_i a b ha hb
    rw [Option.some.injEq] at h
    split at h
    · rename_i hab
      subst hab
      rintro (⟨h1, h2⟩ | ⟨h1, h2⟩) <;>
      · rw [ha] at h1; rw [hb] at h2
        injection h1 with h1; injection h2 with h2
        subst h1; subst h2
        exact absurd hpq (lt_irrefl _)
    · split at h <;> simp at h
  · simp at h

omit [Field F] [LinearOrder F] in
theorem joins_unique (busmap : String → Option String) (l : Line F) (p q p' q' : String) (h : p < q) (h' : p' < q')
    (j : Joins busmap l p q) (j' : Joins busmap l p' q') : p = p' ∧ q = q' := by
  unfold Joins at j j'
  rcases j with ⟨a, b⟩ | ⟨a, b⟩ <;> rcases j' with ⟨c, d⟩ | ⟨c, d⟩ <;> rw [a] at c <;> rw [b] at d <;>
    injection c with c <;> injection d with d
  · exact ⟨c, d⟩
  · subst c; subst d; exact absurd h (lt_asymm h')
  · subst c; subst d; exact absurd h (lt_asymm h')
  · exact ⟨d, c⟩

/-- All about the list of mapped lines. -/
theorem mapped_spec (ls : List (Line F)) (ms : List (Mapped F)) (h : mapped cfg ls = some ms) :
    (∀ m ∈ ms, m.line ∈ ls ∧ m.c0 < m.c1 ∧ Joins cfg.busmap m.line m.c0 m.c1) ∧
    (∀ k : String × String × String, k.1 < k.2.1 → (groupOf ms k).map (fun m => m.line) = between cfg.busmap ls k.1 k.2.1 k.2.2) ∧
    ms.map (fun m => m.line) = ls.filter (fun l => decide (cfg.busmap l.bus0 ≠ cfg.busmap l.bus1)) := by
  induction ls generalizing ms with
  | nil =>
    simp [mapped] at h
    subst h
    simp [groupOf, between]
  | cons l ls ih =>
    unfold mapped at h ih
    rw [List.mapM_cons] at h
    cases hl : mapLine cfg l with
    | none => simp [hl] at h
    | some o =>
      cases hr : ls.mapM (mapLine cfg) with
      | none => simp [hl, hr] at h
      | some rs =>
        obtain ⟨ih1, ih2, ih3⟩ := ih (rs.filterMap id) (by rw [hr]; rfl)
        simp only [hl, hr, Option.pure_def, Option.bind_eq_bind, Option.bind_some, Option.map_some, Option.some.injEq] at h
        cases o with
        | none =>
          have hms : ms = rs.filterMap id := by rw [← h]; rfl
          subst hms
          refine ⟨fun m hm => ?_, fun k hk => ?_, ?_⟩
          · obtain ⟨a, b, c⟩ := ih1 m hm
            exact ⟨List.mem_cons_of_mem _ a, b, c⟩
          · rw [ih2 k hk, between, between, List.filter_cons_of_neg]
            simp [mapLine_none cfg l hl k.1 k.2.1 hk]
          · rw [ih3, List.filter_cons_of_neg]
            unfold mapLine at hl
            split at hl
            · rename_i a b ha hb
              rw [Option.some.injEq] at hl
              split at hl
              · rename_i hab; simp [ha, hb, hab]
              · split at hl <;> simp at hl
            · simp at hl
        | some m =>
          have hms : ms = m :: rs.filterMap id := by rw [← h]; rfl
          subst hms
          obtain ⟨e1, e2, e3⟩ := mapLine_some cfg l m hl
          refine ⟨fun m' hm => ?_, fun k hk => ?_, ?_⟩
          · rcases List.mem_cons.1 hm with rfl | hm
            · exact ⟨by rw [e1]; exact List.mem_cons_self, e2, by rw [e1]; exact e3⟩
            · obtain ⟨a, b, c⟩ := ih1 m' hm
              exact ⟨List.mem_cons_of_mem _ a, b, c⟩
          · by_cases hkey : m.key = k
            · subst hkey
              have : Joins cfg.busmap l m.key.1 m.key.2.1 ∧ l.tag = m.key.2.2 := ⟨e3, by simp [Mapped.key, e1]⟩
              rw [groupOf, List.filter_cons_of_pos (by simp), List.map_cons, between, List.filter_cons_of_pos (by simpa using this), e1]
              congr 1
              exact ih2 _ hk
            · rw [groupOf, List.filter_cons_of_neg (by simpa using hkey), between, List.filter_cons_of_neg]
              · exact ih2 _ hk
              · simp only [decide_eq_true_eq, not_and]
                intro hj ht
                obtain ⟨q1, q2⟩ := joins_unique cfg.busmap l _ _ _ _ e2 hk e3 hj
                apply hkey
                simp [Mapped.key, e1, q1, q2, ht]
          · rw [List.map_cons, List.filter_cons_of_pos, ih3, e1]
            rcases e3 with ⟨a, b⟩ | ⟨a, b⟩
            · simp only [a, b, ne_eq, Option.some.injEq, decide_not, Bool.not_eq_eq_eq_not, Bool.not_true, decide_eq_false_iff_not]
              exact e2.ne
            · simp only [a, b, ne_eq, Option.some.injEq, decide_not, Bool.not_eq_eq_eq_not, Bool.not_true, decide_eq_false_iff_not]
              exact e2.ne'

theorem aggregate_some (ls rows : List (Line F)) (lm : List (String × String)) (h : aggregate cfg ls = some (rows, lm)) :
    ∃ ms, mapped cfg ls = some ms ∧ rows = (groupKeys ms).mapIdx (fun i k => merge cfg i k (groupOf ms k)) ∧ lm = linemap ms := by
  unfold aggregate at h
  cases hm : mapped cfg ls with
  | none => simp [hm] at h
  | some ms =>
    simp only [hm, Option.bind_some] at h
    split at h
    · simp at h
    · simp only [Option.some.injEq, Prod.mk.injEq] at h
      exact ⟨ms, rfl, h.1.symm, h.2.symm⟩

theorem row_spec (ls rows : List (Line F)) (lm : List (String × String)) (h : aggregate cfg ls = some (rows, lm)) (r : Line F) (hr : r ∈ rows) :
    ∃ i ms k, mapped cfg ls = some ms ∧ k ∈ groupKeys ms ∧ k.1 < k.2.1 ∧ r = merge cfg i k (groupOf ms k) := by
  obtain ⟨ms, hm, hrows, -⟩ := aggregate_some cfg ls rows lm h
  rw [hrows, List.mem_mapIdx] at hr
  obtain ⟨i, hi, rfl⟩ := hr
  have hk : (groupKeys ms)[i] ∈ groupKeys ms := List.getElem_mem hi
  refine ⟨i, ms, _, hm, hk, ?_, rfl⟩
  obtain ⟨m, hmm, he⟩ := List.mem_map.1 (List.mem_dedup.1 hk)
  have := ((mapped_spec cfg ls ms hm).1 m hmm).2.1
  rw [← he]
  exact this

/-- **C66.** Lines of the clustered network join different clusters, each pair (and combination of the columns for grouping) at most once and
in one order, and a pair is joined exactly if some line joins it. -/
theorem lines_pairs (ls rows : List (Line F)) (lm : List (String × String)) (h : aggregate cfg ls = some (rows, lm)) :
    (∀ r ∈ rows, r.bus0 < r.bus1) ∧ (rows.map (fun r => (r.bus0, r.bus1, r.tag))).Nodup ∧
      ∀ p q tag, p < q → ((∃ r ∈ rows, r.bus0 = p ∧ r.bus1 = q ∧ r.tag = tag) ↔ ∃ l ∈ ls, Joins cfg.busmap l p q ∧ l.tag = tag) := by
  have hrow := row_spec cfg ls rows lm h
  obtain ⟨ms, hm, hrows, -⟩ := aggregate_some cfg ls rows lm h
  obtain ⟨s1, s2, -⟩ := mapped_spec cfg ls ms hm
  have hkeys : rows.map (fun r => (r.bus0, r.bus1, r.tag)) = groupKeys ms := by
    rw [hrows]
    apply List.ext_getElem
    · simp
    · intro i h1 h2
      simp [merge]
  refine ⟨fun r hr => ?_, ?_, fun p q tag hpq => ?_⟩
  · obtain ⟨i, ms, k, _, _, hk, rfl⟩ := hrow r hr
    exact hk
  · rw [hkeys]; exact List.nodup_dedup _
  · have h1 : (∃ r ∈ rows, r.bus0 = p ∧ r.bus1 = q ∧ r.tag = tag) ↔ (p, q, tag) ∈ groupKeys ms := by
      rw [← hkeys, List.mem_map]
      simp [Prod.mk.injEq]
    rw [h1, groupKeys, List.mem_dedup, List.mem_map]
    constructor
    · rintro ⟨m, hmm, he⟩
      obtain ⟨a, b, c⟩ := s1 m hmm
      simp only [Mapped.key, Prod.mk.injEq] at he
      obtain ⟨rfl, rfl, rfl⟩ := he
      exact ⟨m.line, a, c, rfl⟩
    · rintro ⟨l, hl, hj, ht⟩
      have : l ∈ between cfg.busmap ls p q tag := by
        rw [between, List.mem_filter]; exact ⟨hl, by simpa using ⟨hj, ht⟩⟩
      rw [← s2 (p, q, tag) hpq, List.mem_map] at this
      obtain ⟨m, hmm, _⟩ := this
      rw [groupOf, List.mem_filter] at hmm
      exact ⟨m, hmm.1, by simpa using hmm.2⟩

theorem toString_inj (i j : Nat) (h : toString i = toString j) : i = j := by
  have h' : Nat.toDigits 10 i = Nat.toDigits 10 j := by
    rw [← Nat.toList_repr, ← Nat.toList_repr]
    exact congrArg String.toList h
  rw [← Nat.ofDigitChars_ten_toDigits (n := i), ← Nat.ofDigitChars_ten_toDigits (n := j), h']

/-- **C66.** The map of lines is defined on exactly the lines between different clusters, and takes each to the one line of the clustered
network (names are distinct) that joins the clusters of its ends. -/
theorem lines_linemap (ls rows : List (Line F)) (lm : List (String × String)) (h : aggregate cfg ls = some (rows, lm)) :
    lm.map Prod.fst = (ls.filter (fun l => decide (cfg.busmap l.bus0 ≠ cfg.busmap l.bus1))).map (fun l => l.name) ∧
      (rows.map (fun r => r.name)).Nodup ∧
      ∀ l ∈ ls, cfg.busmap l.bus0 ≠ cfg.busmap l.bus1 →
        ∃ r ∈ rows, (l.name, r.name) ∈ lm ∧ Joins cfg.busmap l r.bus0 r.bus1 ∧ r.tag = l.tag := by
  obtain ⟨ms, hm, hrows, hlm⟩ := aggregate_some cfg ls rows lm h
  obtain ⟨s1, s2, s3⟩ := mapped_spec cfg ls ms hm
  refine ⟨?_, ?_, fun l hl hne => ?_⟩
  · rw [hlm, linemap, List.map_map, ← s3, List.map_map]; rfl
  · have : rows.map (fun r => r.name) = (List.range (groupKeys ms).length).map toString := by
      rw [hrows]
      apply List.ext_getElem
      · simp
      · intro i h1 h2
        simp [merge]
    rw [this]
    exact List.nodup_range.map (fun i j hij => toString_inj i j hij)
  · have hml : l ∈ ms.map (fun m => m.line) := by
      rw [s3, List.mem_filter]; exact ⟨hl, by simpa using hne⟩
    obtain ⟨m, hmm, rfl⟩ := List.mem_map.1 hml
    have hk : m.key ∈ groupKeys ms := List.mem_dedup.2 (List.mem_map_of_mem hmm)
    have hi : (groupKeys ms).idxOf m.key < (groupKeys ms).length := List.idxOf_lt_length_of_mem hk
    refine ⟨merge cfg ((groupKeys ms).idxOf m.key) m.key (groupOf ms m.key), ?_, ?_, ?_, rfl⟩
    · rw [hrows, List.mem_mapIdx]
      exact ⟨_, hi, by rw [List.getElem_idxOf hi]⟩
    · rw [hlm, linemap, List.mem_map]
      exact ⟨m, hmm, rfl⟩
    · exact (s1 m hmm).2.2

/-! ## Totals -/

omit [LinearOrder F] in
theorem sum_group (ms : List (Mapped F)) (f : Line F → F) : (ms.map (fun m => f m.line)).sum = ((ms.map (fun m => m.line)).map f).sum := by
  rw [List.map_map]; rfl

/-- **C66.** Capacities between two clusters are conserved. -/
theorem lines_capacity (ls rows : List (Line F)) (lm : List (String × String)) (h : aggregate cfg ls = some (rows, lm)) (r : Line F) (hr : r ∈ rows) :
    r.sNom = ((between cfg.busmap ls r.bus0 r.bus1 r.tag).map (fun l => l.sNom)).sum ∧
    r.sNomMin = ((between cfg.busmap ls r.bus0 r.bus1 r.tag).map (fun l => l.sNomMin)).sum ∧
    r.sNomMax = ((between cfg.busmap ls r.bus0 r.bus1 r.tag).map (fun l => l.sNomMax)).sum ∧
    r.numParallel = ((between cfg.busmap ls r.bus0 r.bus1 r.tag).map (fun l => l.numParallel)).sum ∧
    (r.extendable = true ↔ ∃ l ∈ between cfg.busmap ls r.bus0 r.bus1 r.tag, l.extendable = true) := by
  obtain ⟨i, ms, k, hm, _, hk, rfl⟩ := row_spec cfg ls rows lm h r hr
  have hb := (mapped_spec cfg ls ms hm).2.1 k hk
  have e : between cfg.busmap ls (merge cfg i k (groupOf ms k)).bus0 (merge cfg i k (groupOf ms k)).bus1 (merge cfg i k (groupOf ms k)).tag =
      (groupOf ms k).map (fun m => m.line) := hb.symm
  rw [e]
  refine ⟨sum_group _ _, sum_group _ _, sum_group _ _, sum_group _ _, ?_⟩
  simp [merge]

variable [IsStrictOrderedRing F]

theorem normed_product {α : Type} (g : List α) (w x : α → F) (h : ∀ u ∈ g, 0 ≤ w u) :
    (g.map w).sum * (g.map (fun u => x u * OnePort.normed (g.map w) (w u))).sum = (g.map (fun u => w u * x u)).sum := by
  by_cases hp : 0 < (g.map w).sum
  · rw [← List.sum_map_mul_left]
    refine congrArg List.sum (List.map_congr_left (fun u _ => ?_))
    rw [OnePort.normed, if_pos hp]
    have := hp.ne'
    field_simp
  · have h0 : (g.map w).sum = 0 := le_antisymm (not_lt.1 hp) (List.sum_nonneg (by simpa using h))
    rw [h0, zero_mul]
    symm
    refine List.sum_eq_zero ?_
    intro y hy
    obtain ⟨u, hu, rfl⟩ := List.mem_map.1 hy
    have : w u = 0 := List.all_zero_of_le_zero_le_of_sum_eq_zero (l := g.map w) (by simpa using h) h0 (List.mem_map_of_mem hu)
    simp [this]

/-- **C66.** The usable capacity between two clusters is conserved at every snapshot. -/
theorem lines_usable (ls rows : List (Line F)) (lm : List (String × String)) (h : aggregate cfg ls = some (rows, lm)) (r : Line F) (hr : r ∈ rows)
    (hpos : ∀ l ∈ ls, 0 ≤ l.sNom) (t : Nat) :
    r.sNom * r.sMaxPu t = ((between cfg.busmap ls r.bus0 r.bus1 r.tag).map (fun l => l.sNom * l.sMaxPu t)).sum := by
  obtain ⟨i, ms, k, hm, _, hk, rfl⟩ := row_spec cfg ls rows lm h r hr
  obtain ⟨s1, s2, -⟩ := mapped_spec cfg ls ms hm
  have e : between cfg.busmap ls (merge cfg i k (groupOf ms k)).bus0 (merge cfg i k (groupOf ms k)).bus1 (merge cfg i k (groupOf ms k)).tag =
      (groupOf ms k).map (fun m => m.line) := (s2 k hk).symm
  rw [e, ← sum_group (groupOf ms k) (fun l => l.sNom * l.sMaxPu t)]
  exact normed_product (groupOf ms k) (fun m => m.line.sNom) (fun m => m.line.sMaxPu t)
    (fun m hmm => hpos m.line (s1 m (List.mem_filter.1 hmm).1).1)

/-- **C66.** The cost of the capacity between two clusters is that of the lines, per kilometre, over the new distance. -/
theorem lines_cost (ls rows : List (Line F)) (lm : List (String × String)) (h : aggregate cfg ls = some (rows, lm)) (r : Line F) (hr : r ∈ rows)
    (hpos : ∀ l ∈ ls, 0 ≤ l.sNom) (hlen : ∀ l ∈ between cfg.busmap ls r.bus0 r.bus1 r.tag, 0 < l.length) :
    r.sNom * r.capitalCost =
      ((between cfg.busmap ls r.bus0 r.bus1 r.tag).map (fun l => l.sNom * (l.capitalCost / l.length * cfg.dist r.bus0 r.bus1))).sum ∧
      r.length = cfg.dist r.bus0 r.bus1 := by
  refine ⟨?_, ?_⟩
  · obtain ⟨i, ms, k, hm, _, hk, rfl⟩ := row_spec cfg ls rows lm h r hr
    obtain ⟨s1, s2, -⟩ := mapped_spec cfg ls ms hm
    have e : between cfg.busmap ls (merge cfg i k (groupOf ms k)).bus0 (merge cfg i k (groupOf ms k)).bus1 (merge cfg i k (groupOf ms k)).tag =
        (groupOf ms k).map (fun m => m.line) := (s2 k hk).symm
    rw [e] at hlen ⊢
    rw [← sum_group (groupOf ms k)]
    have := normed_product (groupOf ms k) (fun m => m.line.sNom) (fun m => m.line.capitalCost * lengthFactor cfg m)
      (fun m hmm => hpos m.line (s1 m (List.mem_filter.1 hmm).1).1)
    refine Eq.trans this (congrArg List.sum (List.map_congr_left (fun m hmm => ?_)))
    have hkey : m.key = k := by simpa using (List.mem_filter.1 hmm).2
    have h0 : 0 < m.line.length := hlen m.line (List.mem_map_of_mem hmm)
    have e1 : m.c0 = k.1 := by rw [← hkey]; rfl
    have e2 : m.c1 = k.2.1 := by rw [← hkey]; rfl
    simp only [lengthFactor, if_pos h0, e1, e2, merge]
    ring
  · obtain ⟨i, ms, k, hm, _, hk, rfl⟩ := row_spec cfg ls rows lm h r hr
    rfl

omit [IsStrictOrderedRing F] [Field F] in
theorem max?_iff (l : List F) (a : F) (ha : a ∈ l) (h : ∀ b ∈ l, b ≤ a) : l.max? = some a := by
  rw [List.max?_eq_some_iff]
  exact ⟨ha, h⟩

omit [IsStrictOrderedRing F] in
theorem clusterV_le (c : String) (V : F) (hc : ∃ b ∈ cfg.buses, cfg.busmap b.1 = some c) (h : ∀ b ∈ cfg.buses, cfg.busmap b.1 = some c → b.2 ≤ V) :
    clusterV cfg c ≤ V ∧ ∀ b ∈ cfg.buses, cfg.busmap b.1 = some c → b.2 ≤ clusterV cfg c := by
  have hne : (cfg.buses.filter (fun p => decide (cfg.busmap p.1 = some c))).map (fun p => p.2) ≠ [] := by
    obtain ⟨b, hb, hbc⟩ := hc
    exact List.ne_nil_of_mem (List.mem_map_of_mem (List.mem_filter.2 ⟨hb, by simpa using hbc⟩))
  obtain ⟨a, ha⟩ := Option.isSome_iff_exists.1 (List.isSome_max?_of_ne_nil hne)
  have hV : clusterV cfg c = a := by simp [clusterV, ha]
  rw [List.max?_eq_some_iff] at ha
  rw [hV]
  constructor
  · obtain ⟨b, hb, rfl⟩ := List.mem_map.1 ha.1
    rw [List.mem_filter] at hb
    exact h b hb.1 (by simpa using hb.2)
  · intro b hb hbc
    exact ha.2 _ (List.mem_map_of_mem (List.mem_filter.2 ⟨hb, by simpa using hbc⟩))

omit [IsStrictOrderedRing F] in
theorem pairV_top (p q : String) (V : F) (hp : ∃ b ∈ cfg.buses, cfg.busmap b.1 = some p) (hq : ∃ b ∈ cfg.buses, cfg.busmap b.1 = some q)
    (h : Top cfg p q V) : pairV cfg p q = V := by
  obtain ⟨h1, h2⟩ := clusterV_le cfg p V hp (fun b hb hbc => h.2 b hb (Or.inl hbc))
  obtain ⟨h3, h4⟩ := clusterV_le cfg q V hq (fun b hb hbc => h.2 b hb (Or.inr hbc))
  refine le_antisymm (max_le h1 h3) ?_
  obtain ⟨b, hb, hbc | hbc, rfl⟩ := h.1
  · exact le_trans (h2 b hb hbc) (le_max_left _ _)
  · exact le_trans (h4 b hb hbc) (le_max_right _ _)

omit [IsStrictOrderedRing F] in
/-- **C66.** Series impedance and shunt admittance in terms of the lines: with `V` the greatest voltage of the two clusters, the admittance per unit
of the clustered line at `V` is the sum of the admittances per unit of the lines, each rescaled to the new length. -/
theorem lines_impedance (ls rows : List (Line F)) (lm : List (String × String)) (h : aggregate cfg ls = some (rows, lm)) (r : Line F) (hr : r ∈ rows)
    (hbus : ∀ c, c = r.bus0 ∨ c = r.bus1 → ∃ b ∈ cfg.buses, cfg.busmap b.1 = some c) (V : F) (hV : Top cfg r.bus0 r.bus1 V) (hV0 : V ≠ 0)
    (hlen : ∀ l ∈ between cfg.busmap ls r.bus0 r.bus1 r.tag, 0 < l.length) :
    V ^ 2 / r.x = ((between cfg.busmap ls r.bus0 r.bus1 r.tag).map (fun l =>
        vNom cfg l.bus0 ^ 2 / (l.x * (cfg.dist r.bus0 r.bus1 / l.length)))).sum ∧
    V ^ 2 / r.r = ((between cfg.busmap ls r.bus0 r.bus1 r.tag).map (fun l =>
        vNom cfg l.bus0 ^ 2 / (l.r * (cfg.dist r.bus0 r.bus1 / l.length)))).sum ∧
    V ^ 2 * r.b = ((between cfg.busmap ls r.bus0 r.bus1 r.tag).map (fun l =>
        vNom cfg l.bus0 ^ 2 * (l.b * (cfg.dist r.bus0 r.bus1 / l.length)))).sum ∧
    V ^ 2 * r.g = ((between cfg.busmap ls r.bus0 r.bus1 r.tag).map (fun l =>
        vNom cfg l.bus0 ^ 2 * (l.g * (cfg.dist r.bus0 r.bus1 / l.length)))).sum := by
  obtain ⟨i, ms, k, hm, _, hk, rfl⟩ := row_spec cfg ls rows lm h r hr
  obtain ⟨s1, s2, -⟩ := mapped_spec cfg ls ms hm
  have hpv : pairV cfg k.1 k.2.1 = V := pairV_top cfg _ _ V (hbus _ (Or.inl rfl)) (hbus _ (Or.inr rfl)) hV
  have e : between cfg.busmap ls (merge cfg i k (groupOf ms k)).bus0 (merge cfg i k (groupOf ms k)).bus1 (merge cfg i k (groupOf ms k)).tag =
      (groupOf ms k).map (fun m => m.line) := (s2 k hk).symm
  rw [e] at hlen ⊢
  have hfac : ∀ m ∈ groupOf ms k, lengthFactor cfg m = cfg.dist k.1 k.2.1 / m.line.length ∧ V ^ 2 * voltageFactor cfg m = vNom cfg m.line.bus0 ^ 2 := by
    intro m hmm
    have hkey : m.key = k := by simpa using (List.mem_filter.1 hmm).2
    have h0 : 0 < m.line.length := hlen m.line (List.mem_map_of_mem hmm)
    have e1 : m.c0 = k.1 := by rw [← hkey]; rfl
    have e2 : m.c1 = k.2.1 := by rw [← hkey]; rfl
    constructor
    · simp only [lengthFactor, if_pos h0, e1, e2]
    · rw [voltageFactor, e1, e2, hpv]
      field_simp
  refine ⟨?_, ?_, ?_, ?_⟩
  · rw [← sum_group (groupOf ms k)]
    show V ^ 2 / (1 / _) = _
    rw [div_div_eq_mul_div, div_one, ← List.sum_map_mul_left]
    refine congrArg List.sum (List.map_congr_left (fun m hmm => ?_))
    obtain ⟨f1, f2⟩ := hfac m hmm
    rw [← mul_div_assoc, f2, f1, mul_comm m.line.x]
    rfl
  · rw [← sum_group (groupOf ms k)]
    show V ^ 2 / (1 / _) = _
    rw [div_div_eq_mul_div, div_one, ← List.sum_map_mul_left]
    refine congrArg List.sum (List.map_congr_left (fun m hmm => ?_))
    obtain ⟨f1, f2⟩ := hfac m hmm
    rw [← mul_div_assoc, f2, f1, mul_comm m.line.r]
    rfl
  · rw [← sum_group (groupOf ms k)]
    show V ^ 2 * (List.map _ _).sum = _
    rw [← List.sum_map_mul_left]
    refine congrArg List.sum (List.map_congr_left (fun m hmm => ?_))
    obtain ⟨f1, f2⟩ := hfac m hmm
    rw [← f2, f1]
    show _ = _ * (m.line.b * (cfg.dist k.1 k.2.1 / m.line.length))
    ring
  · rw [← sum_group (groupOf ms k)]
    show V ^ 2 * (List.map _ _).sum = _
    rw [← List.sum_map_mul_left]
    refine congrArg List.sum (List.map_congr_left (fun m hmm => ?_))
    obtain ⟨f1, f2⟩ := hfac m hmm
    rw [← f2, f1]
    show _ = _ * (m.line.g * (cfg.dist k.1 k.2.1 / m.line.length))
    ring

/-! ## Errors -/

omit [IsStrictOrderedRing F] in
theorem mapped_none (ls : List (Line F)) : mapped cfg ls = none ↔ ∃ l ∈ ls, cfg.busmap l.bus0 = none ∨ cfg.busmap l.bus1 = none := by
  have hl : ∀ l, mapLine cfg l = none ↔ cfg.busmap l.bus0 = none ∨ cfg.busmap l.bus1 = none := by
    intro l
    unfold mapLine
    cases cfg.busmap l.bus0 <;> cases cfg.busmap l.bus1 <;> simp
  have hm : mapped cfg ls = none ↔ ls.mapM (mapLine cfg) = none := by simp [mapped]
  rw [hm]
  induction ls with
  | nil => simp
  | cons l ls ih =>
    have ih' := ih (by simp [mapped])
    rw [List.mapM_cons]
    cases h1 : mapLine cfg l with
    | none =>
      simp only [Option.bind_eq_bind, Option.bind_none, true_iff]
      exact ⟨l, List.mem_cons_self, (hl l).1 h1⟩
    | some o =>
      have hno : ¬ (cfg.busmap l.bus0 = none ∨ cfg.busmap l.bus1 = none) := by rw [← hl, h1]; simp
      cases h2 : ls.mapM (mapLine cfg) with
      | none =>
        obtain ⟨l', hl', hh⟩ := ih'.1 h2
        simp only [Option.bind_eq_bind, Option.bind_none, Option.bind_some, true_iff]
        exact ⟨l', List.mem_cons_of_mem _ hl', hh⟩
      | some rs =>
        simp only [Option.bind_eq_bind, Option.bind_some, Option.pure_def, reduceCtorEq, false_iff]
        rintro ⟨l', hl', hh⟩
        rcases List.mem_cons.1 hl' with rfl | hl'
        · exact hno hh
        · have := ih'.2 ⟨l', hl', hh⟩
          rw [h2] at this
          simp at this

omit [IsStrictOrderedRing F] in
/-- **C66.** Lines cannot be merged exactly if an end is not mapped, or two lines of a pair of clusters disagree in an attribute without a rule
or, in a solved network, in their recorded flow. -/
theorem lines_raises (ls : List (Line F)) :
    aggregate cfg ls = none ↔ (∃ l ∈ ls, cfg.busmap l.bus0 = none ∨ cfg.busmap l.bus1 = none) ∨
      ∃ l ∈ ls, ∃ l' ∈ ls, (∃ p q, p < q ∧ Joins cfg.busmap l p q ∧ Joins cfg.busmap l' p q) ∧ l.tag = l'.tag ∧
        (l.label ≠ l'.label ∨ cfg.solved = true ∧ ∃ t ∈ cfg.snapshots, l.p0 t ≠ l'.p0 t) := by
  cases hm : mapped cfg ls with
  | none =>
    simp only [aggregate, hm, Option.bind_none, true_iff]
    exact Or.inl ((mapped_none cfg ls).1 hm)
  | some ms =>
    have hno : ¬ ∃ l ∈ ls, cfg.busmap l.bus0 = none ∨ cfg.busmap l.bus1 = none := by
      rw [← mapped_none, hm]; simp
    obtain ⟨s1, s2, -⟩ := mapped_spec cfg ls ms hm
    have hd : aggregate cfg ls = none ↔ disagrees cfg ms = true := by
      simp only [aggregate, hm, Option.bind_some]
      split <;> simp_all
    have hna : ∀ {α : Type} [DecidableEq α] (l : List α), (!OnePort.agree l) = true ↔ ∃ x ∈ l, ∃ y ∈ l, x ≠ y := by
      intro α _ l
      rw [Bool.not_eq_true', ← Bool.not_eq_true, OnePort.agree_iff]
      push Not
      rfl
    rw [hd, disagrees, List.any_eq_true]
    simp only [Bool.or_eq_true, Bool.and_eq_true, List.any_eq_true, hna, hno, false_or]
    constructor
    · rintro ⟨k, hk, hk'⟩
      have hlt : k.1 < k.2.1 := by
        obtain ⟨m, hmm, rfl⟩ := List.mem_map.1 (List.mem_dedup.1 hk)
        exact (s1 m hmm).2.1
      have get : ∀ m ∈ groupOf ms k, m.line ∈ ls ∧ Joins cfg.busmap m.line k.1 k.2.1 ∧ m.line.tag = k.2.2 := by
        intro m hmm
        obtain ⟨h1, h2⟩ := List.mem_filter.1 hmm
        have h2 : m.key = k := by simpa using h2
        obtain ⟨a, _, c⟩ := s1 m h1
        subst h2
        exact ⟨a, c, rfl⟩
      rcases hk' with ⟨x, hx, y, hy, hne⟩ | ⟨hsol, t, ht, x, hx, y, hy, hne⟩
      · obtain ⟨m, hm1, rfl⟩ := List.mem_map.1 hx
        obtain ⟨m', hm2, rfl⟩ := List.mem_map.1 hy
        obtain ⟨a, b, c⟩ := get m hm1
        obtain ⟨a', b', c'⟩ := get m' hm2
        exact ⟨m.line, a, m'.line, a', ⟨k.1, k.2.1, hlt, b, b'⟩, c.trans c'.symm, Or.inl hne⟩
      · obtain ⟨m, hm1, rfl⟩ := List.mem_map.1 hx
        obtain ⟨m', hm2, rfl⟩ := List.mem_map.1 hy
        obtain ⟨a, b, c⟩ := get m hm1
        obtain ⟨a', b', c'⟩ := get m' hm2
        exact ⟨m.line, a, m'.line, a', ⟨k.1, k.2.1, hlt, b, b'⟩, c.trans c'.symm, Or.inr ⟨hsol, t, ht, hne⟩⟩
    · rintro ⟨l, hl, l', hl', ⟨p, q, hpq, j, j'⟩, ht, hne⟩
      have find : ∀ l ∈ ls, Joins cfg.busmap l p q → l.tag = l'.tag → ∃ m ∈ groupOf ms (p, q, l'.tag), m.line = l := by
        intro l hl j ht
        have : l ∈ between cfg.busmap ls p q l'.tag := List.mem_filter.2 ⟨hl, by simpa using ⟨j, ht⟩⟩
        rw [← s2 (p, q, l'.tag) hpq] at this
        exact List.mem_map.1 this
      obtain ⟨m, h1, e1⟩ := find l hl j ht
      obtain ⟨m', h2, e2⟩ := find l' hl' j' rfl
      refine ⟨(p, q, l'.tag), ?_, ?_⟩
      · obtain ⟨h3, h4⟩ := List.mem_filter.1 h1
        rw [groupKeys, List.mem_dedup, List.mem_map]
        exact ⟨m, h3, by simpa using h4⟩
      · rcases hne with hne | ⟨hs, t, htt, hne⟩
        · exact Or.inl ⟨_, List.mem_map_of_mem h1, _, List.mem_map_of_mem h2, by rw [e1, e2]; exact hne⟩
        · exact Or.inr ⟨hs, t, htt, _, List.mem_map_of_mem h1, _, List.mem_map_of_mem h2, by rw [e1, e2]; exact hne⟩

/-! ## Examples and findings -/

namespace Demo

def line (name a b : String) (len x s : ℚ) (flow : ℚ) : Line ℚ where
  name := name
  bus0 := a
  bus1 := b
  tag := ""
  label := ""
  length := len
  r := 1
  x := x
  g := 0
  b := 2
  sNom := s
  sNomMin := 0
  sNomMax := 100
  sMaxPu := fun _ => 1 / 2
  capitalCost := 10
  numParallel := 1
  extendable := false
  p0 := fun _ => flow

def conf : Config ℚ where
  buses := [("a1", 380), ("a2", 380), ("b1", 380)]
  busmap := fun b => if b = "a1" ∨ b = "a2" then some "A" else if b = "b1" then some "B" else none
  dist := fun _ _ => 100
  snapshots := [0]
  solved := false

/-- Two lines between the clusters in opposite orders and one within. -/
def net : List (Line ℚ) := [line "l1" "a1" "b1" 50 4 10 0, line "l2" "b1" "a2" 200 6 20 0, line "l3" "a1" "a2" 10 1 5 0]

def result : List (Line ℚ) × List (String × String) := (aggregate conf net).get (by decide +kernel)

example : aggregate conf net = some result := by simp [result]

example : result.1.map (fun r => (r.name, r.bus0, r.bus1)) = [("0", "A", "B")] ∧ result.2 = [("l1", "0"), ("l2", "0")] ∧
    result.1.map (fun r => (r.sNom, r.x, r.capitalCost)) = [(30, 24 / 11, 10)] := by decide +kernel

/-- The hypotheses of `lines_impedance` hold. -/
example : (∀ r ∈ result.1, Top conf r.bus0 r.bus1 380) ∧ ∀ r ∈ result.1, ∀ l ∈ between conf.busmap net r.bus0 r.bus1 r.tag, 0 < l.length := by
  constructor
  · intro r hr
    have : result.1.all (fun r => r.bus0 == "A" && r.bus1 == "B") = true := by decide +kernel
    rw [List.all_eq_true] at this
    have := this r hr
    simp only [Bool.and_eq_true, beq_iff_eq] at this
    rw [this.1, this.2]
    refine ⟨⟨("a1", 380), by decide +kernel⟩, ?_⟩
    simp [conf]
  · decide +kernel

/-- A cluster of 220 kV and one with both voltages. -/
def conf2 : Config ℚ where
  buses := [("a1", 220), ("b1", 220), ("b2", 380)]
  busmap := fun b => if b = "a1" then some "A" else some "B"
  dist := fun _ _ => 50
  snapshots := [0]
  solved := false

/-- **C66, finding.** The reactance of a merged line is meant for the greater voltage of its two clusters, but is taken at the voltage of its first
end: a line of 220 kV between a cluster of 220 kV and one that also has 380 kV becomes almost three times as long electrically. -/
theorem voltage_mismatch :
    (aggregate conf2 [line "l" "a1" "b1" 50 4 10 0]).map (fun r => r.1.map (fun l => (l.bus0, l.x / 220 ^ 2))) = some [("A", 4 / 220 ^ 2 * (380 / 220) ^ 2)] := by
  decide +kernel

/-- **C66, finding.** Without lengths, impedance and cost are multiplied by the distance between the clusters. -/
theorem unset_length_scales : (aggregate conf [line "l" "a1" "b1" 0 4 10 0]).map (fun r => r.1.map (fun l => (l.x, l.capitalCost))) =
    some [(400, 1000)] := by
  decide +kernel

/-- **C66, finding.** Without coordinates, the distance is zero, and so are impedance, charging and cost. -/
theorem no_coordinates : (aggregate { conf with dist := fun _ _ => 0 } [line "l" "a1" "b1" 50 4 10 0]).map (fun r => r.1.map (fun l => (l.x, l.b, l.capitalCost))) =
    some [(0, 0, 0)] := by
  decide +kernel

/-- **C66, finding.** The recorded flow of a line whose ends are swapped keeps its sign: 5 MW from `b1` to `a1` become 5 MW from `A` to `B`. -/
theorem flow_reversed : (aggregate { conf with solved := true } [line "l" "b1" "a1" 50 4 10 5]).map (fun r => r.1.map (fun l => (l.bus0, l.bus1, l.p0 0))) =
    some [("A", "B", 5)] := by
  decide +kernel

/-- **C66, finding.** A solved network with different flows in parallel lines cannot be clustered. -/
theorem solved_raises : (aggregate { conf with solved := true } [line "l1" "a1" "b1" 50 4 10 5, line "l2" "a2" "b1" 50 4 10 6]).isNone := by
  decide +kernel

end Demo

end Verif.Cluster.Lines
