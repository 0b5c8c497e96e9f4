import Mathlib.Data.List.Nodup
import Mathlib.Data.List.Induction
import Verif.Ports.Model

/-!
# Properties of links with more than two ports (C101, C102)
-/

namespace Verif.Ports

variable {V : Type}

/-! ## Spec -/

/-- The three attributes of the port `i`, if the table has them, are what the
documentation says: a bus that may be left out, an efficiency like the first one, and
the power at the port. -/
structure Proper (b : Base V) (t : List (ARow V)) (i : Attr) : Prop where
  bus : ∀ r ∈ t, r.name = busC ++ i → r = ⟨busC ++ i, some b.bus, true, false⟩
  eff : ∀ r ∈ t, r.name = effC ++ i → r = ⟨effC ++ i, some b.eff, true, true⟩
  p : ∀ r ∈ t, r.name = pC ++ i → r = ⟨pC ++ i, some b.p, false, true⟩

/-- `i` is one of the further ports that the columns `w` ask for. -/
def Port (w : List Attr) (i : Attr) : Prop := busC ++ i ∈ w ∧ i ≠ ['0'] ∧ i ≠ ['1']

/-- A table of attributes that knows all three attributes of each port. -/
def Complete (b : Base V) (t : List (ARow V)) : Prop :=
  ∀ i, Port (rowNames t) i → (⟨effC ++ i, some b.eff, true, true⟩ : ARow V) ∈ t ∧
    (⟨pC ++ i, some b.p, false, true⟩ : ARow V) ∈ t

/-- The network has a table for each attribute that may vary in time, and a column for
each purely static one. -/
structure InStep (t : List (ARow V)) (n : Net V) : Prop where
  dyn : ∀ r ∈ t, r.varying = true → r.name ∈ n.dyn
  cols : ∀ r ∈ t, r.static = true → r.varying = false → r.name ≠ nameC → r.name ∈ n.cols

/-- The network can be optimised and solved: everything that is read for each further
port of its links is there. -/
def Ready (n : Net V) : Prop :=
  ∀ i, Port n.cols i → effC ++ i ∈ n.cols ∧ pC ++ i ∈ n.dyn

/-! ## Names -/

theorem portOf_eq (k i : Attr) : portOf k = some i ↔ k = busC ++ i ∧ i ≠ ['0'] ∧ i ≠ ['1'] := by
  unfold portOf
  constructor
  · intro h
    split at h
    · rename_i hc
      simp only [Bool.and_eq_true, Bool.not_eq_true', beq_eq_false_iff_ne, ne_eq,
        List.isPrefixOf_iff_prefix] at hc
      obtain ⟨⟨⟨j, hj⟩, h0⟩, h1⟩ := hc
      simp only [Option.some.injEq] at h
      have hij : i = j := by rw [← h, ← hj]; simp [busC]
      subst hij
      refine ⟨hj.symm, ?_, ?_⟩
      · rintro rfl; exact h0 hj.symm
      · rintro rfl; exact h1 hj.symm
    · cases h
  · rintro ⟨rfl, h0, h1⟩
    rw [if_pos]
    · simp [busC]
    · simp only [Bool.and_eq_true, Bool.not_eq_true', beq_eq_false_iff_ne, ne_eq,
        List.isPrefixOf_iff_prefix, List.append_cancel_left_eq]
      exact ⟨⟨List.prefix_append _ _, h0⟩, h1⟩

theorem mem_ports (w : List Attr) (i : Attr) : i ∈ ports w ↔ Port w i := by
  unfold ports Port
  rw [List.mem_filterMap]
  constructor
  · rintro ⟨k, hk, hp⟩
    obtain ⟨rfl, h⟩ := (portOf_eq k i).1 hp
    exact ⟨hk, h⟩
  · rintro ⟨hk, h⟩
    exact ⟨_, hk, (portOf_eq _ i).2 ⟨rfl, h⟩⟩

theorem bus_ne_eff (i j : Attr) : busC ++ i ≠ effC ++ j := by simp [busC, effC]
theorem bus_ne_p (i j : Attr) : busC ++ i ≠ pC ++ j := by simp [busC, pC]
theorem eff_ne_p (i j : Attr) : effC ++ i ≠ pC ++ j := by simp [effC, pC]
theorem bus_ne_name (i : Attr) : busC ++ i ≠ nameC := by simp [busC, nameC]
theorem eff_ne_name (i : Attr) : effC ++ i ≠ nameC := by simp [effC, nameC]

theorem canOptimise_iff (n : Net V) :
    canOptimise n = true ↔ ∀ i, Port n.cols i → effC ++ i ∈ n.cols := by
  unfold canOptimise
  rw [List.all_eq_true]
  simp only [mem_ports, decide_eq_true_eq]

theorem canFlow_iff (n : Net V) : canFlow n = true ↔ Ready n := by
  unfold canFlow Ready
  rw [Bool.and_eq_true, canOptimise_iff, List.all_eq_true]
  simp only [mem_ports, decide_eq_true_eq]
  constructor
  · rintro ⟨h1, h2⟩ i hi; exact ⟨h1 i hi, h2 i hi⟩
  · intro h; exact ⟨fun i hi => (h i hi).1, fun i hi => (h i hi).2⟩

theorem mem_rowNames (t : List (ARow V)) (k : Attr) : k ∈ rowNames t ↔ ∃ r ∈ t, r.name = k := by
  simp [rowNames]

theorem mem_staticCols (t : List (ARow V)) (k : Attr) :
    k ∈ staticCols t ↔ k ≠ nameC ∧ ∃ r ∈ t, r.static = true ∧ r.name = k := by
  simp only [staticCols, List.mem_filter, List.mem_map, decide_eq_true_eq]
  constructor
  · rintro ⟨⟨r, ⟨h1, h2⟩, rfl⟩, h⟩; exact ⟨h, r, h1, h2, rfl⟩
  · rintro ⟨h, r, h1, h2, rfl⟩; exact ⟨⟨r, ⟨h1, h2⟩, rfl⟩, h⟩

theorem mem_seriesCols (t : List (ARow V)) (k : Attr) :
    k ∈ seriesCols t ↔ ∃ r ∈ t, r.static = false ∧ r.name = k := by
  simp [seriesCols, and_assoc]

theorem mem_varyingCols (t : List (ARow V)) (k : Attr) :
    k ∈ varyingCols t ↔ ∃ r ∈ t, r.varying = true ∧ r.name = k := by
  simp [varyingCols, and_assoc]

theorem row_unique (t : List (ARow V)) (h : (rowNames t).Nodup) (r q : ARow V) (hr : r ∈ t)
    (hq : q ∈ t) (he : r.name = q.name) : r = q :=
  List.inj_on_of_nodup_map h hr hq he

theorem dfltOf_row (t : List (ARow V)) (h : (rowNames t).Nodup) (r : ARow V) (hr : r ∈ t) :
    dfltOf t r.name = r.dflt := by
  unfold dfltOf
  have : t.find? (fun q => q.name == r.name) = some r := by
    cases hf : t.find? (fun q => q.name == r.name) with
    | none =>
      rw [List.find?_eq_none] at hf
      exact absurd (beq_self_eq_true r.name) (by simpa using hf r hr)
    | some q =>
      have h1 := List.find?_some hf
      have h2 := List.mem_of_find?_eq_some hf
      rw [row_unique t h q r h2 hr (by simpa using h1)]
  simp [this]

/-! ## One port -/

/-- Everything that one of the loops' turns keeps. -/
structure Kept (b : Base V) (s s' : State V) : Prop where
  names : s'.net.names = s.net.names
  rows : ∃ l, s'.attrs = s.attrs ++ l
  colsSub : ∀ k ∈ s.net.cols, k ∈ s'.net.cols
  dynSub : ∀ k ∈ s.net.dyn, k ∈ s'.net.dyn
  val : ∀ x, ∀ k ∈ s.net.cols, s'.net.val x k = s.net.val x k
  newCol : ∀ x, ∀ k ∈ s'.net.cols, k ∉ s.net.cols → s'.net.val x k = some b.bus
  newColBus : ∀ k ∈ s'.net.cols, k ∉ s.net.cols → k ∈ rowNames s'.attrs
  nodup : (rowNames s.attrs).Nodup → (rowNames s'.attrs).Nodup
  step : InStep s.attrs s.net → InStep s'.attrs s'.net
  proper : ∀ i, Proper b s.attrs i → Proper b s'.attrs i

theorem Kept.refl (b : Base V) (s : State V) : Kept b s s where
  names := rfl
  rows := ⟨[], by simp⟩
  colsSub := fun _ h => h
  dynSub := fun _ h => h
  val := fun _ _ _ => rfl
  newCol := fun _ _ h h' => absurd h h'
  newColBus := fun _ h h' => absurd h h'
  nodup := id
  step := id
  proper := fun _ h => h

theorem Kept.trans {b : Base V} {s s' s'' : State V} (h : Kept b s s') (h' : Kept b s' s'') :
    Kept b s s'' where
  names := h'.names.trans h.names
  rows := by
    obtain ⟨l, hl⟩ := h.rows; obtain ⟨l', hl'⟩ := h'.rows
    exact ⟨l ++ l', by rw [hl', hl, List.append_assoc]⟩
  colsSub := fun k hk => h'.colsSub k (h.colsSub k hk)
  dynSub := fun k hk => h'.dynSub k (h.dynSub k hk)
  val := fun x k hk => (h'.val x k (h.colsSub k hk)).trans (h.val x k hk)
  newCol := by
    intro x k hk hn
    by_cases h1 : k ∈ s'.net.cols
    · rw [h'.val x k h1]; exact h.newCol x k h1 hn
    · exact h'.newCol x k hk h1
  newColBus := by
    intro k hk hn
    by_cases h1 : k ∈ s'.net.cols
    · obtain ⟨l, hl⟩ := h'.rows
      have := h.newColBus k h1 hn
      rw [hl]; simp only [rowNames, List.map_append, List.mem_append] at *; exact Or.inl this
    · exact h'.newColBus k hk h1
  nodup := fun hn => h'.nodup (h.nodup hn)
  step := fun hs => h'.step (h.step hs)
  proper := fun i hp => h'.proper i (h.proper i hp)

theorem rowNames_append (t l : List (ARow V)) : rowNames (t ++ l) = rowNames t ++ rowNames l := by
  simp [rowNames]

theorem nodup_snoc (t : List (ARow V)) (r : ARow V) (h : r.name ∉ rowNames t)
    (hn : (rowNames t).Nodup) : (rowNames (t ++ [r])).Nodup := by
  rw [rowNames_append]
  refine List.nodup_append.2 ⟨hn, by simp [rowNames], ?_⟩
  intro a ha c hc hac
  simp [rowNames] at hc
  subst hac; subst hc; exact h ha

theorem addBus_kept (b : Base V) (s : State V) (i : Attr) : Kept b s (addBus b s i) := by
  unfold addBus
  split
  · exact Kept.refl b s
  · rename_i hrow
    refine ⟨?_, ⟨_, rfl⟩, ?_, ?_, ?_, ?_, ?_, ?_, ?_, ?_⟩
    · dsimp only; split <;> rfl
    · intro k hk; dsimp only; split
      · exact hk
      · simp [hk]
    · intro k hk; dsimp only; split <;> exact hk
    · intro x k hk; dsimp only; split
      · rfl
      · rename_i hc
        have : k ≠ busC ++ i := fun hh => hc (by rw [← hh]; exact hk)
        simp [this]
    · intro x k hk hn; dsimp only at hk ⊢; split at hk
      · exact absurd hk hn
      · rename_i hc
        simp only [List.mem_append, List.mem_singleton] at hk
        rcases hk with hk | hk
        · exact absurd hk hn
        · rw [if_neg hc]; simp [hk]
    · intro k hk hn; dsimp only at hk ⊢; split at hk
      · exact absurd hk hn
      · simp only [List.mem_append, List.mem_singleton] at hk
        rcases hk with hk | hk
        · exact absurd hk hn
        · rw [rowNames_append]; simp [rowNames, hk]
    · intro hn; exact nodup_snoc _ _ hrow hn
    · rintro ⟨h1, h2⟩
      constructor
      · intro r hr hv
        simp only [List.mem_append, List.mem_singleton] at hr
        rcases hr with hr | hr
        · have := h1 r hr hv
          dsimp only; split <;> exact this
        · subst hr; cases hv
      · intro r hr hs hv hne
        simp only [List.mem_append, List.mem_singleton] at hr
        rcases hr with hr | hr
        · have := h2 r hr hs hv hne
          dsimp only; split
          · exact this
          · simp [this]
        · subst hr
          dsimp only; split
          · assumption
          · simp
    · intro j hp
      refine ⟨?_, ?_, ?_⟩
      · intro r hr hn
        simp only [List.mem_append, List.mem_singleton] at hr
        rcases hr with hr | hr
        · exact hp.bus r hr hn
        · subst hr
          simp only [List.append_cancel_left_eq] at hn
          subst hn; rfl
      · intro r hr hn
        simp only [List.mem_append, List.mem_singleton] at hr
        rcases hr with hr | hr
        · exact hp.eff r hr hn
        · subst hr; exact absurd hn (bus_ne_eff _ _)
      · intro r hr hn
        simp only [List.mem_append, List.mem_singleton] at hr
        rcases hr with hr | hr
        · exact hp.p r hr hn
        · subst hr; exact absurd hn (bus_ne_p _ _)

theorem addSeries_kept (b : Base V) (s : State V) (r : ARow V) (hv : r.varying = true)
    (hpr : ∀ j, Proper b [r] j) : Kept b s (addSeries s r) := by
  unfold addSeries
  split
  · exact Kept.refl b s
  · rename_i hrow
    refine ⟨?_, ⟨_, rfl⟩, ?_, ?_, ?_, ?_, ?_, ?_, ?_, ?_⟩
    · dsimp only; split <;> rfl
    · intro k hk; dsimp only; split <;> exact hk
    · intro k hk; dsimp only; split
      · exact hk
      · simp [hk]
    · intro x k hk; dsimp only; split <;> rfl
    · intro x k hk hn; dsimp only at hk; split at hk <;> exact absurd hk hn
    · intro k hk hn; dsimp only at hk; split at hk <;> exact absurd hk hn
    · intro hn; exact nodup_snoc _ _ hrow hn
    · rintro ⟨h1, h2⟩
      constructor
      · intro q hq hqv
        simp only [List.mem_append, List.mem_singleton] at hq
        rcases hq with hq | hq
        · have := h1 q hq hqv
          dsimp only; split
          · exact this
          · simp [this]
        · subst hq
          dsimp only; split
          · assumption
          · simp
      · intro q hq hs hqv hne
        simp only [List.mem_append, List.mem_singleton] at hq
        rcases hq with hq | hq
        · have := h2 q hq hs hqv hne
          dsimp only; split <;> exact this
        · subst hq; rw [hv] at hqv; cases hqv
    · intro j hp
      have hj := hpr j
      refine ⟨?_, ?_, ?_⟩
      · intro q hq hn
        simp only [List.mem_append] at hq
        rcases hq with hq | hq
        · exact hp.bus q hq hn
        · exact hj.bus q hq hn
      · intro q hq hn
        simp only [List.mem_append] at hq
        rcases hq with hq | hq
        · exact hp.eff q hq hn
        · exact hj.eff q hq hn
      · intro q hq hn
        simp only [List.mem_append] at hq
        rcases hq with hq | hq
        · exact hp.p q hq hn
        · exact hj.p q hq hn

theorem proper_eff (b : Base V) (i j : Attr) :
    Proper b [⟨effC ++ i, some b.eff, true, true⟩] j := by
  refine ⟨?_, ?_, ?_⟩ <;> intro r hr hn <;> simp only [List.mem_singleton] at hr <;> subst hr
  · exact absurd hn.symm (bus_ne_eff _ _)
  · simp only [List.append_cancel_left_eq] at hn; subst hn; rfl
  · exact absurd hn (eff_ne_p _ _)

theorem proper_p (b : Base V) (i j : Attr) :
    Proper b [⟨pC ++ i, some b.p, false, true⟩] j := by
  refine ⟨?_, ?_, ?_⟩ <;> intro r hr hn <;> simp only [List.mem_singleton] at hr <;> subst hr
  · exact absurd hn.symm (bus_ne_p _ _)
  · exact absurd hn.symm (eff_ne_p _ _)
  · simp only [List.append_cancel_left_eq] at hn; subst hn; rfl

theorem addPort_kept (b : Base V) (s : State V) (i : Attr) : Kept b s (addPort b s i) :=
  ((addBus_kept b s i).trans
    (addSeries_kept b _ ⟨effC ++ i, some b.eff, true, true⟩ rfl (proper_eff b i))).trans
    (addSeries_kept b _ ⟨pC ++ i, some b.p, false, true⟩ rfl (proper_p b i))

theorem update_kept (b : Base V) (s : State V) (w : List Attr) : Kept b s (update b s w) := by
  unfold update
  generalize ports w = l
  induction l generalizing s with
  | nil => exact Kept.refl b s
  | cons i l ih => exact (addPort_kept b s i).trans (ih _)

/-- The rows of the port are there afterwards. -/
theorem addBus_row (b : Base V) (s : State V) (i : Attr) :
    busC ++ i ∈ rowNames (addBus b s i).attrs := by
  unfold addBus
  split
  · assumption
  · simp [rowNames]

theorem addSeries_row (s : State V) (r : ARow V) : r.name ∈ rowNames (addSeries s r).attrs := by
  unfold addSeries
  split
  · assumption
  · simp [rowNames]

theorem Kept.rowSub {b : Base V} {s s' : State V} (h : Kept b s s') (k : Attr)
    (hk : k ∈ rowNames s.attrs) : k ∈ rowNames s'.attrs := by
  obtain ⟨l, hl⟩ := h.rows
  rw [hl, rowNames_append]; exact List.mem_append_left _ hk

theorem addPort_rows (b : Base V) (s : State V) (i : Attr) :
    busC ++ i ∈ rowNames (addPort b s i).attrs ∧ effC ++ i ∈ rowNames (addPort b s i).attrs ∧
      pC ++ i ∈ rowNames (addPort b s i).attrs := by
  have k2 := addSeries_kept b (addBus b s i) ⟨effC ++ i, some b.eff, true, true⟩ rfl (proper_eff b i)
  have k3 := addSeries_kept b (addSeries (addBus b s i) ⟨effC ++ i, some b.eff, true, true⟩)
    ⟨pC ++ i, some b.p, false, true⟩ rfl (proper_p b i)
  exact ⟨k3.rowSub _ (k2.rowSub _ (addBus_row b s i)),
    k3.rowSub _ (addSeries_row _ ⟨effC ++ i, some b.eff, true, true⟩),
    addSeries_row _ ⟨pC ++ i, some b.p, false, true⟩⟩

theorem update_rows (b : Base V) (s : State V) (w : List Attr) (i : Attr) (hi : Port w i) :
    busC ++ i ∈ rowNames (update b s w).attrs ∧ effC ++ i ∈ rowNames (update b s w).attrs ∧
      pC ++ i ∈ rowNames (update b s w).attrs := by
  rw [← mem_ports] at hi
  unfold update
  generalize ports w = l at hi
  induction l generalizing s with
  | nil => simp at hi
  | cons j l ih =>
    simp only [List.mem_cons] at hi
    by_cases hl : i ∈ l
    · exact ih (addPort b s j) hl
    · have hij : i = j := by rcases hi with h | h; exact h; exact absurd h hl
      subst hij
      have hk : Kept b (addPort b s i) (l.foldl (addPort b) (addPort b s i)) := by
        clear ih hi hl
        generalize addPort b s i = s0
        induction l generalizing s0 with
        | nil => exact Kept.refl b s0
        | cons j l ih => exact (addPort_kept b s0 j).trans (ih _)
      obtain ⟨h1, h2, h3⟩ := addPort_rows b s i
      exact ⟨hk.rowSub _ h1, hk.rowSub _ h2, hk.rowSub _ h3⟩

/-- Rows that a port adds. -/
theorem addPort_newRow (b : Base V) (s : State V) (j k : Attr)
    (hk : k ∈ rowNames (addPort b s j).attrs) (hn : k ∉ rowNames s.attrs) :
    k = busC ++ j ∨ k = effC ++ j ∨ k = pC ++ j := by
  have e1 : ∀ (s : State V) (r : ARow V), k ∈ rowNames (addSeries s r).attrs →
      k ∈ rowNames s.attrs ∨ k = r.name := by
    intro s r h
    unfold addSeries at h
    split at h
    · exact Or.inl h
    · rw [rowNames_append] at h
      simp only [List.mem_append] at h
      rcases h with h | h
      · exact Or.inl h
      · right; simpa [rowNames] using h
  have e2 : k ∈ rowNames (addBus b s j).attrs → k = busC ++ j := by
    intro h
    unfold addBus at h
    split at h
    · exact absurd h hn
    · rw [rowNames_append] at h
      simp only [List.mem_append] at h
      rcases h with h | h
      · exact absurd h hn
      · simpa [rowNames] using h
  rcases e1 _ _ hk with h | h
  · rcases e1 _ _ h with h | h
    · exact Or.inl (e2 h)
    · exact Or.inr (Or.inl h)
  · exact Or.inr (Or.inr h)

/-- Rows that an update adds belong to ports asked for. -/
theorem update_newRow (b : Base V) (s : State V) (w : List Attr) (k : Attr)
    (hk : k ∈ rowNames (update b s w).attrs) (hn : k ∉ rowNames s.attrs) :
    ∃ i, Port w i ∧ (k = busC ++ i ∨ k = effC ++ i ∨ k = pC ++ i) := by
  have hw : ∀ i ∈ ports w, Port w i := fun i hi => (mem_ports w i).1 hi
  unfold update at hk
  generalize ports w = l at hk hw
  induction l generalizing s with
  | nil => exact absurd hk hn
  | cons j l ih =>
    by_cases h1 : k ∈ rowNames (addPort b s j).attrs
    · exact ⟨j, hw j (by simp), addPort_newRow b s j k h1 hn⟩
    · exact ih (addPort b s j) h1 hk (fun i hi => hw i (by simp [hi]))

/-- An update keeps the table complete. -/
theorem update_complete (b : Base V) (s : State V) (w : List Attr) (hc : Complete b s.attrs)
    (hw : ∀ i, Port w i → Proper b s.attrs i) : Complete b (update b s w).attrs := by
  have hk := update_kept b s w
  rintro i ⟨hi, h0, h1⟩
  by_cases hold : busC ++ i ∈ rowNames s.attrs
  · obtain ⟨he, hp⟩ := hc i ⟨hold, h0, h1⟩
    obtain ⟨l, hl⟩ := hk.rows
    rw [hl]; exact ⟨List.mem_append_left _ he, List.mem_append_left _ hp⟩
  · obtain ⟨j, hj, hname⟩ := update_newRow b s w _ hi hold
    have hij : i = j := by
      rcases hname with h | h | h
      · simpa using h
      · exact absurd h (bus_ne_eff _ _)
      · exact absurd h (bus_ne_p _ _)
    subst hij
    obtain ⟨-, h2, h3⟩ := update_rows b s w i hj
    have hpr := hk.proper i (hw i hj)
    rw [mem_rowNames] at h2 h3
    obtain ⟨r2, m2, n2⟩ := h2
    obtain ⟨r3, m3, n3⟩ := h3
    exact ⟨by rw [← hpr.eff r2 m2 n2]; exact m2, by rw [← hpr.p r3 m3 n3]; exact m3⟩

/-! ## Importing links -/

theorem mem_cleanedCols (t : List (ARow V)) (g : Given V) (k : Attr) :
    k ∈ cleanedCols t g ↔ (k ∈ g.cols ∨ k ∈ staticCols t) ∧ k ∉ seriesCols t := by
  simp only [cleanedCols, List.mem_filter, List.mem_append, decide_eq_true_eq]
  by_cases h : k ∈ g.cols <;> simp [h]

/-- Columns after the import. -/
theorem mem_importCols (b : Base V) (s : State V) (g : Given V) (k : Attr) :
    k ∈ (importLinks b s g).net.cols ↔
      (s.net.names ≠ [] ∧ k ∈ (update b s g.cols).net.cols) ∨ k ∈ cleanedCols s.attrs g := by
  have hn := (update_kept b s g.cols).names
  simp only [importLinks, hn]
  by_cases h : s.net.names = []
  · simp [h]
  · simp only [h, if_false, List.mem_append, List.mem_filter, decide_eq_true_eq, ne_eq,
      not_false_eq_true, true_and]
    by_cases h2 : k ∈ (update b s g.cols).net.cols <;> simp [h2]

/-- A static attribute is not a series, in a table without repeated rows. -/
theorem static_not_series (t : List (ARow V)) (hn : (rowNames t).Nodup) (r : ARow V) (hr : r ∈ t)
    (hs : r.static = true) : r.name ∉ seriesCols t := by
  rw [mem_seriesCols]
  rintro ⟨q, hq, hqs, hqn⟩
  rw [row_unique t hn q r hq hr hqn, hs] at hqs
  cases hqs

/-- **C102 (partial).** Importing links keeps the network in step with the table of
attributes. -/
theorem import_inStep (b : Base V) (s : State V) (g : Given V) (hn : (rowNames s.attrs).Nodup)
    (h : InStep s.attrs s.net) :
    InStep (importLinks b s g).attrs (importLinks b s g).net := by
  have hk := update_kept b s g.cols
  have h' := hk.step h
  refine ⟨fun r hr hv => h'.dyn r hr hv, ?_⟩
  intro r hr hs hv hne
  rw [mem_importCols]
  by_cases hnames : s.net.names = []
  · right
    rw [mem_cleanedCols]
    by_cases hold : r.name ∈ rowNames s.attrs
    · obtain ⟨q, hq, hqn⟩ := (mem_rowNames _ _).1 hold
      have hq' : q ∈ (update b s g.cols).attrs := by
        obtain ⟨l, hl⟩ := hk.rows; rw [hl]; exact List.mem_append_left _ hq
      have : q = r := row_unique _ (hk.nodup hn) q r hq' hr hqn
      subst this
      exact ⟨Or.inr ((mem_staticCols _ _).2 ⟨hne, q, hq, hs, rfl⟩),
        static_not_series _ hn q hq hs⟩
    · have hrow : r.name ∈ rowNames (update b s g.cols).attrs := (mem_rowNames _ _).2 ⟨r, hr, rfl⟩
      obtain ⟨i, hi, hname⟩ := update_newRow b s g.cols _ hrow hold
      have hnot : r.name ∉ seriesCols s.attrs := by
        rw [mem_seriesCols]; rintro ⟨q, hq, -, hqn⟩
        exact hold ((mem_rowNames _ _).2 ⟨q, hq, hqn⟩)
      refine ⟨?_, hnot⟩
      rcases hname with hh | hh | hh
      · left; rw [hh]; exact hi.1
      · -- a new efficiency row varies
        exfalso
        have := hk.proper i
        -- the row that was added is the varying one
        have hnew : ∀ (l : List Attr) (s0 : State V), effC ++ i ∉ rowNames s0.attrs →
            ∀ q ∈ (l.foldl (addPort b) s0).attrs, q.name = effC ++ i → q.varying = true := by
          intro l
          induction l with
          | nil =>
            intro s0 h0 q hq hqn
            exact absurd ((mem_rowNames _ _).2 ⟨q, hq, hqn⟩) h0
          | cons j l ih =>
            intro s0 h0 q hq hqn
            by_cases hj : effC ++ i ∈ rowNames (addPort b s0 j).attrs
            · -- Proper for i holds after this turn and is kept
              have hp0 : ∀ q ∈ s0.attrs, q.name = effC ++ i →
                  q = ⟨effC ++ i, some b.eff, true, true⟩ := fun q hq hqn =>
                absurd ((mem_rowNames _ _).2 ⟨q, hq, hqn⟩) h0
              have hkeep : ∀ (s1 : State V), (∀ q ∈ s1.attrs, q.name = effC ++ i →
                  q = ⟨effC ++ i, some b.eff, true, true⟩) → ∀ m,
                  ∀ q ∈ (addPort b s1 m).attrs, q.name = effC ++ i →
                  q = ⟨effC ++ i, some b.eff, true, true⟩ := by
                intro s1 hs1 m
                have a1 : ∀ q ∈ (addBus b s1 m).attrs, q.name = effC ++ i →
                    q = ⟨effC ++ i, some b.eff, true, true⟩ := by
                  intro q hq hqn
                  unfold addBus at hq
                  split at hq
                  · exact hs1 q hq hqn
                  · simp only [List.mem_append, List.mem_singleton] at hq
                    rcases hq with hq | hq
                    · exact hs1 q hq hqn
                    · subst hq; exact absurd hqn (bus_ne_eff _ _)
                have a2 : ∀ (s2 : State V) (r : ARow V), (∀ q ∈ s2.attrs, q.name = effC ++ i →
                    q = ⟨effC ++ i, some b.eff, true, true⟩) →
                    (r.name = effC ++ i → r = ⟨effC ++ i, some b.eff, true, true⟩) →
                    ∀ q ∈ (addSeries s2 r).attrs, q.name = effC ++ i →
                    q = ⟨effC ++ i, some b.eff, true, true⟩ := by
                  intro s2 r hs2 hr2 q hq hqn
                  unfold addSeries at hq
                  split at hq
                  · exact hs2 q hq hqn
                  · simp only [List.mem_append, List.mem_singleton] at hq
                    rcases hq with hq | hq
                    · exact hs2 q hq hqn
                    · subst hq; exact hr2 hqn
                unfold addPort
                refine a2 _ _ (a2 _ _ a1 ?_) ?_
                · intro hh2
                  simp only [List.append_cancel_left_eq] at hh2
                  rw [hh2]
                · intro hh2; exact absurd hh2.symm (eff_ne_p _ _)
              have hall : ∀ (l : List Attr) (s1 : State V), (∀ q ∈ s1.attrs,
                  q.name = effC ++ i → q = ⟨effC ++ i, some b.eff, true, true⟩) →
                  ∀ q ∈ (l.foldl (addPort b) s1).attrs, q.name = effC ++ i →
                  q = ⟨effC ++ i, some b.eff, true, true⟩ := by
                intro l
                induction l with
                | nil => intro s1 hs1; exact hs1
                | cons m l ih => intro s1 hs1; exact ih _ (hkeep s1 hs1 m)
              have := hall l (addPort b s0 j) (hkeep s0 hp0 j) q hq hqn
              rw [this]
            · exact ih (addPort b s0 j) hj q hq hqn
        have := hnew (ports g.cols) s (by rw [← hh]; exact hold) r hr hh
        rw [hv] at this; cases this
      · exfalso
        -- a new power row is a series
        have hnew : ∀ (l : List Attr) (s0 : State V), pC ++ i ∉ rowNames s0.attrs →
            ∀ q ∈ (l.foldl (addPort b) s0).attrs, q.name = pC ++ i → q.varying = true := by
          have hall : ∀ (l : List Attr) (s1 : State V), (∀ q ∈ s1.attrs,
              q.name = pC ++ i → q.varying = true) →
              ∀ q ∈ (l.foldl (addPort b) s1).attrs, q.name = pC ++ i → q.varying = true := by
            intro l
            induction l with
            | nil => intro s1 hs1; exact hs1
            | cons m l ih =>
              intro s1 hs1
              refine ih _ ?_
              have a1 : ∀ q ∈ (addBus b s1 m).attrs, q.name = pC ++ i → q.varying = true := by
                intro q hq hqn
                unfold addBus at hq
                split at hq
                · exact hs1 q hq hqn
                · simp only [List.mem_append, List.mem_singleton] at hq
                  rcases hq with hq | hq
                  · exact hs1 q hq hqn
                  · subst hq; exact absurd hqn (bus_ne_p _ _)
              have a2 : ∀ (s2 : State V) (r : ARow V), r.varying = true →
                  (∀ q ∈ s2.attrs, q.name = pC ++ i → q.varying = true) →
                  ∀ q ∈ (addSeries s2 r).attrs, q.name = pC ++ i → q.varying = true := by
                intro s2 r hrv hs2 q hq hqn
                unfold addSeries at hq
                split at hq
                · exact hs2 q hq hqn
                · simp only [List.mem_append, List.mem_singleton] at hq
                  rcases hq with hq | hq
                  · exact hs2 q hq hqn
                  · subst hq; exact hrv
              unfold addPort
              exact a2 _ _ rfl (a2 _ _ rfl a1)
          intro l s0 h0
          exact hall l s0 (fun q hq hqn => absurd ((mem_rowNames _ _).2 ⟨q, hq, hqn⟩) h0)
        have := hnew (ports g.cols) s (by rw [← hh]; exact hold) r hr hh
        rw [hv] at this; cases this
  · left
    exact ⟨hnames, h'.cols r hr hs hv hne⟩

/-- Everything that a network by itself keeps up. -/
structure Good (b : Base V) (s : State V) : Prop where
  nodup : (rowNames s.attrs).Nodup
  complete : Complete b s.attrs
  step : InStep s.attrs s.net
  ready : Ready s.net
  known : ∀ i, Port s.net.cols i → busC ++ i ∈ rowNames s.attrs

/-- **C101.** A new network is good, whatever ports other networks have brought in. -/
theorem fresh_good (b : Base V) (t : List (ARow V)) (hn : (rowNames t).Nodup)
    (hc : Complete b t) : Good b ⟨t, fresh t⟩ := by
  have hknown : ∀ i, Port (fresh t).cols i → busC ++ i ∈ rowNames t := by
    rintro i ⟨hi, -⟩
    obtain ⟨-, r, hr, -, hrn⟩ := (mem_staticCols t _).1 hi
    exact (mem_rowNames t _).2 ⟨r, hr, hrn⟩
  refine ⟨hn, hc, ⟨?_, ?_⟩, ?_, hknown⟩
  · intro r hr hv; exact (mem_varyingCols t _).2 ⟨r, hr, hv, rfl⟩
  · intro r hr hs _ hne; exact (mem_staticCols t _).2 ⟨hne, r, hr, hs, rfl⟩
  · intro i hi
    obtain ⟨he, hp⟩ := hc i ⟨hknown i hi, hi.2⟩
    exact ⟨(mem_staticCols t _).2 ⟨eff_ne_name i, _, he, rfl, rfl⟩,
      (mem_varyingCols t _).2 ⟨_, hp, rfl, rfl⟩⟩

/-- **C102 (partial).** Adding links to a good network leaves it good, provided that each
port that the new links use has its efficiency given or was known before.  The proviso
cannot be left out (`Demo.first_efficiency_missing`). -/
theorem import_good_partial (b : Base V) (s : State V) (g : Given V) (h : Good b s)
    (hg : ∀ i, Port g.cols i → Proper b s.attrs i ∧
      (effC ++ i ∈ g.cols ∨ effC ++ i ∈ rowNames s.attrs)) :
    Good b (importLinks b s g) := by
  have hk := update_kept b s g.cols
  have hcomp := update_complete b s g.cols h.complete (fun i hi => (hg i hi).1)
  have hstep := import_inStep b s g h.nodup h.step
  have hknown : ∀ i, Port (importLinks b s g).net.cols i →
      busC ++ i ∈ rowNames (update b s g.cols).attrs := by
    rintro i ⟨hi, h0, h1⟩
    rw [mem_importCols, mem_cleanedCols] at hi
    rcases hi with ⟨-, hi⟩ | ⟨hi | hi, -⟩
    · by_cases hold : busC ++ i ∈ s.net.cols
      · exact hk.rowSub _ (h.known i ⟨hold, h0, h1⟩)
      · exact hk.newColBus _ hi hold
    · exact (update_rows b s g.cols i ⟨hi, h0, h1⟩).1
    · obtain ⟨-, r, hr, -, hrn⟩ := (mem_staticCols _ _).1 hi
      exact hk.rowSub _ ((mem_rowNames _ _).2 ⟨r, hr, hrn⟩)
  have heffGiven : ∀ i, Port g.cols i → effC ++ i ∈ cleanedCols s.attrs g := by
    intro i hi
    obtain ⟨hp, he⟩ := hg i hi
    rw [mem_cleanedCols]
    refine ⟨?_, ?_⟩
    · rcases he with he | he
      · exact Or.inl he
      · obtain ⟨r, hr, hrn⟩ := (mem_rowNames _ _).1 he
        right
        exact (mem_staticCols _ _).2 ⟨eff_ne_name i, r, hr, by rw [hp.eff r hr hrn], hrn⟩
    · rw [mem_seriesCols]
      rintro ⟨r, hr, hrs, hrn⟩
      rw [hp.eff r hr hrn] at hrs; cases hrs
  have hready : Ready (importLinks b s g).net := by
    rintro i hi
    have hrow := hknown i hi
    obtain ⟨he, hp⟩ := hcomp i ⟨hrow, hi.2⟩
    refine ⟨?_, hstep.dyn _ hp rfl⟩
    obtain ⟨hi, h0, h1⟩ := hi
    by_cases hgi : Port g.cols i
    · rw [mem_importCols]; exact Or.inr (heffGiven i hgi)
    · rw [mem_importCols] at hi ⊢
      rw [mem_cleanedCols] at hi
      have hstat : busC ++ i ∈ rowNames s.attrs → effC ++ i ∈ cleanedCols s.attrs g := by
        intro hb
        obtain ⟨hme, -⟩ := h.complete i ⟨hb, h0, h1⟩
        rw [mem_cleanedCols]
        exact ⟨Or.inr ((mem_staticCols _ _).2 ⟨eff_ne_name i, _, hme, rfl, rfl⟩),
          static_not_series _ h.nodup _ hme rfl⟩
      right
      apply hstat
      rcases hi with ⟨-, hi⟩ | ⟨hi | hi, -⟩
      · by_cases hold : busC ++ i ∈ s.net.cols
        · exact h.known i ⟨hold, h0, h1⟩
        · by_contra hno
          obtain ⟨j, hj, hname⟩ := update_newRow b s g.cols _ hrow hno
          have hij : i = j := by
            rcases hname with e | e | e
            · simpa using e
            · exact absurd e (bus_ne_eff _ _)
            · exact absurd e (bus_ne_p _ _)
          subst hij; exact hgi hj
      · exact absurd ⟨hi, h0, h1⟩ hgi
      · obtain ⟨-, r, hr, -, hrn⟩ := (mem_staticCols _ _).1 hi
        exact (mem_rowNames _ _).2 ⟨r, hr, hrn⟩
  exact ⟨hk.nodup h.nodup, hcomp, hstep, hready, hknown⟩

/-- **C102.** Links that were there keep all their values.  At a port that is new to the
network they have no bus. -/
theorem import_old (b : Base V) (s : State V) (g : Given V) (x : String) (hx : x ∈ s.net.names) :
    (∀ k ∈ s.net.cols, (importLinks b s g).net.val x k = s.net.val x k) ∧
      ∀ i, Port g.cols i → busC ++ i ∉ s.net.cols → busC ++ i ∉ rowNames s.attrs →
        (importLinks b s g).net.val x (busC ++ i) = some b.bus := by
  have hk := update_kept b s g.cols
  have hx' : x ∈ (update b s g.cols).net.names := by rw [hk.names]; exact hx
  constructor
  · intro k hkc
    simp only [importLinks, hx', if_true, hk.colsSub k hkc]
    exact hk.val x k hkc
  · intro i hi hnc hnr
    have hcol : busC ++ i ∈ (update b s g.cols).net.cols := by
      rw [← mem_ports] at hi
      unfold update
      generalize ports g.cols = l at hi
      clear hk hx' hx
      induction l generalizing s with
      | nil => simp at hi
      | cons j l ih =>
        by_cases hij : i = j
        · subst hij
          have hb : busC ++ i ∈ (addBus b s i).net.cols := by
            unfold addBus; rw [if_neg hnr]; simp [hnc]
          have k2 := addSeries_kept b (addBus b s i) ⟨effC ++ i, some b.eff, true, true⟩ rfl
            (proper_eff b i)
          have k3 := addSeries_kept b
            (addSeries (addBus b s i) ⟨effC ++ i, some b.eff, true, true⟩)
            ⟨pC ++ i, some b.p, false, true⟩ rfl (proper_p b i)
          have hkk : Kept b (addPort b s i) (l.foldl (addPort b) (addPort b s i)) := by
            clear ih hi
            generalize addPort b s i = s0
            induction l generalizing s0 with
            | nil => exact Kept.refl b s0
            | cons j l ih => exact (addPort_kept b s0 j).trans (ih _)
          exact hkk.colsSub _ (k3.colsSub _ (k2.colsSub _ hb))
        · simp only [List.mem_cons, hij, false_or] at hi
          by_cases hc : busC ++ i ∈ (addPort b s j).net.cols
          · have hkk : Kept b (addPort b s j) (l.foldl (addPort b) (addPort b s j)) := by
              clear ih hi hc
              generalize addPort b s j = s0
              induction l generalizing s0 with
              | nil => exact Kept.refl b s0
              | cons j l ih => exact (addPort_kept b s0 j).trans (ih _)
            exact hkk.colsSub _ hc
          · refine ih (addPort b s j) hc ?_ hi
            intro hr
            rcases addPort_newRow b s j _ hr hnr with e | e | e
            · exact hij (by simpa using e)
            · exact bus_ne_eff _ _ e
            · exact bus_ne_p _ _ e
    simp only [importLinks, hx', if_true, hcol]
    exact hk.newCol x _ hcol hnc

/-- **C102.** The values given for new links are in the table, missing ones replaced by
the default of the attribute, and attributes not given have their default. -/
theorem import_new (b : Base V) (s : State V) (g : Given V) (hn : (rowNames s.attrs).Nodup)
    (x : String) (hx : x ∈ g.names) (hold : x ∉ s.net.names) (k : Attr)
    (hk : k ∉ seriesCols s.attrs) :
    (k ∈ g.cols → ∀ v, g.val x k = some v → (importLinks b s g).net.val x k = some v) ∧
    (k ∈ g.cols → g.val x k = none → ∀ r ∈ (importLinks b s g).attrs, r.name = k →
      (importLinks b s g).net.val x k = r.dflt) ∧
    (k ∉ g.cols → ∀ r ∈ s.attrs, r.name = k → r.static = true → k ≠ nameC →
      (importLinks b s g).net.val x k = r.dflt) := by
  have hu := update_kept b s g.cols
  have hx' : x ∉ (update b s g.cols).net.names := by rw [hu.names]; exact hold
  have hcell : (k ∈ g.cols ∨ k ∈ staticCols s.attrs) → (importLinks b s g).net.val x k =
      cleaned s.attrs (update b s g.cols).attrs g x k := by
    intro h
    simp only [importLinks, hx', if_false, List.mem_filter, hx, decide_eq_true_eq,
      not_false_eq_true, and_self, true_and]
    rw [if_pos ((mem_cleanedCols _ _ _).2 ⟨h, hk⟩)]
  refine ⟨?_, ?_, ?_⟩
  · intro h v hv; rw [hcell (Or.inl h)]; simp [cleaned, h, hv]
  · intro h hv r hr hrn
    rw [hcell (Or.inl h)]
    have := dfltOf_row _ (hu.nodup hn) r hr
    rw [hrn] at this
    simp [cleaned, h, hv, this]
  · intro h r hr hrn hs hne
    have hst : k ∈ staticCols s.attrs := (mem_staticCols _ _).2 ⟨hne, r, hr, hs, hrn⟩
    rw [hcell (Or.inr hst)]
    have := dfltOf_row _ hn r hr
    rw [hrn] at this
    simp [cleaned, h, hst, this]

/-! ## Optimisation and power flow -/

/-- **C101.** A good network can be optimised and solved: it has the efficiency and the power of each further port. -/
theorem good_runs (b : Base V) (s : State V) (h : Good b s) :
    canOptimise s.net = true ∧ canFlow s.net = true ∧
      ∀ i, ['b', 'u', 's'] ++ i ∈ s.net.cols → i ≠ ['0'] → i ≠ ['1'] →
        ['e', 'f', 'f', 'i', 'c', 'i', 'e', 'n', 'c', 'y'] ++ i ∈ s.net.cols ∧ ['p'] ++ i ∈ s.net.dyn := by
  refine ⟨?_, (canFlow_iff _).2 h.ready, fun i h1 h2 h3 => h.ready i ⟨h1, h2, h3⟩⟩
  rw [canOptimise_iff]; exact fun i hi => (h.ready i hi).1

/-- **C101.** The update at the head of a power flow changes nothing in a good network. -/
theorem beforeFlow_good (b : Base V) (s : State V) (h : Good b s)
    (hp : ∀ i, Port s.net.cols i → effC ++ i ∈ rowNames s.attrs ∧ pC ++ i ∈ rowNames s.attrs) :
    beforeFlow b s = s := by
  have hport : ∀ i ∈ ports s.net.cols, addPort b s i = s := by
    intro i hi
    rw [mem_ports] at hi
    have h1 : addBus b s i = s := by unfold addBus; rw [if_pos (h.known i hi)]
    have h2 : addSeries s ⟨effC ++ i, some b.eff, true, true⟩ = s := by
      unfold addSeries; rw [if_pos (hp i hi).1]
    have h3 : addSeries s ⟨pC ++ i, some b.p, false, true⟩ = s := by
      unfold addSeries; rw [if_pos (hp i hi).2]
    unfold addPort; rw [h1, h2, h3]
  unfold beforeFlow update
  generalize ports s.net.cols = l at hport
  induction l with
  | nil => rfl
  | cons i l ih =>
    rw [List.foldl_cons, hport i (by simp)]
    exact ih (fun j hj => hport j (by simp [hj]))

/-! ## Several networks of one process -/

/-- What a user must do for each import: every port used by the links is given together
with its efficiency, and no attribute of that name is something else. -/
def Fair (b : Base V) (t : List (ARow V)) (g : Given V) : Prop :=
  ∀ i, Port g.cols i → Proper b t i ∧ (effC ++ i ∈ g.cols ∨ effC ++ i ∈ rowNames t)

/-- The histories in which each import is fair and goes to the network made last, as in
programs that build one network after the other. -/
inductive OneByOne (b : Base V) : World V → List (Op V) → Prop where
  | nil (w) : OneByOne b w []
  | new (w l) : OneByOne b (w.step b .new) l → OneByOne b w (.new :: l)
  | add (w l j g) : j + 1 = w.nets.length → Fair b w.attrs g →
      OneByOne b (w.step b (.add j g)) l → OneByOne b w (.add j g :: l)

/-- The network made last is good. -/
def LastGood (b : Base V) (w : World V) : Prop :=
  (rowNames w.attrs).Nodup ∧ Complete b w.attrs ∧
    ∀ n, w.nets.getLast? = some n → Good b ⟨w.attrs, n⟩

/-- **C101 (partial).** In every history that builds one network after the other, the
network made last can be optimised and solved, whatever ports the earlier ones brought
into the table of attributes that all share.  Missing: histories that go back to an
earlier network, for which it is false (`Demo.other_network_breaks`). -/
theorem oneByOne_good_partial (b : Base V) (w : World V) (l : List (Op V)) (h : OneByOne b w l)
    (hw : LastGood b w) : LastGood b (w.run b l) := by
  induction h with
  | nil w => exact hw
  | new w l _ ih =>
    refine ih ⟨hw.1, hw.2.1, ?_⟩
    intro n hn
    simp only [World.step, List.getLast?_append, List.getLast?_singleton, Option.some_or,
      Option.some.injEq] at hn
    subst hn
    exact fresh_good b w.attrs hw.1 hw.2.1
  | add w l j g hj hg _ ih =>
    apply ih
    cases hn : w.nets[j]? with
    | none =>
      have : w.step b (.add j g) = w := by simp [World.step, hn]
      rw [this]; exact hw
    | some n =>
      have hlast : w.nets.getLast? = some n := by
        rw [List.getLast?_eq_getElem?, ← hj, Nat.add_sub_cancel]; exact hn
      have hgood := import_good_partial b ⟨w.attrs, n⟩ g (hw.2.2 n hlast) hg
      have hs : w.step b (.add j g) = ⟨(importLinks b ⟨w.attrs, n⟩ g).attrs,
          w.nets.set j (importLinks b ⟨w.attrs, n⟩ g).net⟩ := by simp [World.step, hn]
      rw [hs]
      refine ⟨hgood.nodup, hgood.complete, ?_⟩
      intro m hm
      rw [List.getLast?_eq_getElem?] at hm
      simp only [List.length_set, ← hj, Nat.add_sub_cancel] at hm
      rw [List.getElem?_set_self (by omega)] at hm
      simp only [Option.some.injEq] at hm
      subst hm
      exact hgood

/-- **C101.** Adding links to one network leaves the tables of the others alone. -/
theorem others_kept (b : Base V) (w : World V) (j m : ℕ) (g : Given V) (h : m ≠ j) :
    (w.step b (.add j g)).nets[m]? = w.nets[m]? := by
  simp only [World.step]
  split
  · rfl
  · simp [List.getElem?_set_ne (Ne.symm h)]

/-! ## Examples, and what fails -/

namespace Demo

def base : Base ℕ := ⟨0, 100, 0⟩

/-- The part of `links.csv` that matters: `name`, `bus0`, `bus1`, `efficiency`, `p0`, `p1`. -/
def table : List (ARow ℕ) :=
  [⟨nameC, some 0, true, false⟩, ⟨busC ++ ['0'], some 0, true, false⟩,
   ⟨busC ++ ['1'], some 0, true, false⟩, ⟨effC, some 100, true, true⟩,
   ⟨pC ++ ['0'], some 0, false, true⟩, ⟨pC ++ ['1'], some 0, false, true⟩]

def two : Attr := ['2']

/-- A link with three ports, with or without its second efficiency. -/
def chp (eff : Bool) : Given ℕ :=
  { names := ["chp"]
    cols := [busC ++ ['0'], busC ++ ['1'], busC ++ two] ++ if eff then [effC ++ two] else []
    val := fun _ k => if k = effC ++ two then some 30 else some 7 }

/-- A link with two ports. -/
def plain (x : String) : Given ℕ :=
  { names := [x], cols := [busC ++ ['0'], busC ++ ['1']], val := fun _ _ => some 5 }

theorem table_nodup : (rowNames table).Nodup := by decide +kernel

theorem table_complete : Complete base table := by
  rintro i ⟨hi, h0, h1⟩
  exfalso
  have : ∀ k ∈ rowNames table, portOf k = none := by decide +kernel
  have h := this _ hi
  rw [(portOf_eq _ i).2 ⟨rfl, h0, h1⟩] at h
  cases h

theorem table_proper : Proper base table two := by
  refine ⟨?_, ?_, ?_⟩ <;> intro r hr hn <;>
    exact absurd ((mem_rowNames _ _).2 ⟨r, hr, hn⟩) (by decide +kernel)

theorem start_good : Good base ⟨table, fresh table⟩ :=
  fresh_good base table table_nodup table_complete

theorem chp_fair : Fair base table (chp true) := by
  intro i hi
  have : i = two := by
    have h := (mem_ports _ _).2 hi
    have e : ports (chp true).cols = [two] := by decide +kernel
    rw [e] at h; simpa using h
  subst this
  exact ⟨table_proper, Or.inl (by decide +kernel)⟩

example : Good base (importLinks base ⟨table, fresh table⟩ (chp true)) :=
  import_good_partial base _ _ start_good chp_fair

/-- The hypotheses of `oneByOne_good_partial`, for a program with two networks. -/
example : LastGood base ⟨table, []⟩ ∧
    OneByOne base ⟨table, []⟩ [.new, .add 0 (chp true), .new] := by
  refine ⟨⟨table_nodup, table_complete, by simp⟩, ?_⟩
  refine .new _ _ (.add _ _ _ _ (by simp [World.step]) chp_fair (.new _ _ (.nil _)))

/-- **C102 fails.** The first link with a third port, added without the efficiency of
that port, gives a network that cannot be optimised: the table of attributes knows the
efficiency and its default, but the network has no such column. -/
theorem first_efficiency_missing :
    let s := importLinks base ⟨table, fresh table⟩ (chp false)
    canOptimise s.net = false ∧ dfltOf s.attrs (effC ++ two) = some 100 ∧
      s.net.val "chp" (effC ++ two) = none := by decide +kernel

/-- The second such link repairs it, for itself only: the first link has no efficiency. -/
theorem second_efficiency_filled :
    let s := importLinks base ⟨table, fresh table⟩ (chp false)
    let s' := importLinks base s { chp false with names := ["chp2"] }
    canOptimise s'.net = true ∧ s'.net.val "chp2" (effC ++ two) = some 100 ∧
      s'.net.val "chp" (effC ++ two) = none := by decide +kernel

/-- **C102 fails.** A network with two-port links that gets a three-port link: the older
links have no bus at the third port, but a missing efficiency there. -/
theorem older_links_missing :
    let s := importLinks base ⟨table, fresh table⟩ (plain "a")
    let s' := importLinks base s (chp true)
    s'.net.val "a" (busC ++ two) = some 0 ∧ s'.net.val "a" (effC ++ two) = none ∧
      s'.net.val "chp" (effC ++ two) = some 30 := by decide +kernel

/-- **C101 fails.** Two networks are made, the first gets a link with three ports, then
the second gets the same link.  The second has no table for the power at the third
port, so a power flow raises. -/
theorem other_network_breaks :
    let w : World ℕ := (World.mk table []).run base [.new, .new, .add 0 (chp true), .add 1 (chp true)]
    (w.nets.map canFlow) = [true, false] ∧ (w.nets.map canOptimise) = [true, true] := by
  decide +kernel

/-- The update before a power flow does not repair it: the attribute is known. -/
theorem beforeFlow_no_repair :
    let w : World ℕ := (World.mk table []).run base [.new, .new, .add 0 (chp true), .add 1 (chp true)]
    (w.nets.map (fun n => canFlow (beforeFlow base ⟨w.attrs, n⟩).net)) = [true, false] := by
  decide +kernel

/-- **C101 fails.** A network that never had such a link has the third port after another
network of the process had one: every link added to it gets the columns. -/
theorem ports_leak :
    let w : World ℕ := (World.mk table []).run base
      [.new, .add 0 (chp true), .new, .add 1 (plain "a")]
    (w.nets.map (fun n => decide (busC ++ two ∈ n.cols))) = [true, true] := by decide +kernel

end Demo

end Verif.Ports
