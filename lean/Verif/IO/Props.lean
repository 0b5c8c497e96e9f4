import Verif.IO.Lemmas

/-!
# Properties C16 and C17: export and import
-/

namespace Verif.IO

open Verif.Network

variable {V : Type} [DecidableEq V] (cfg : Setup V)

/-! ## Specification -/

omit [DecidableEq V] in
/-- The static value of an attribute; series-only attributes have the default. -/
def base (sch : Schema V) (n : Network V) (c : Cls) (k : Attr) (x : Name) : Option V :=
  if sch.seriesOnly c k then sch.dflt c k else (n.comps c).sval x k

/-- A series that holds nothing but the default. -/
def AllDefault (sch : Schema V) (n : Network V) (c : Cls) (k : Attr) (x : Name) : Prop :=
  (∃ a ∈ sch.attrs c, a.name = k) ∧
    ∃ f, Dict.get? (n.comps c).dyn k = some f ∧ x ∈ f.cols ∧ ∀ s ∈ n.snaps, f.val s x = sch.dflt c k

/-- The components that are not among the standard types, unless these are to be exported. -/
def own (n : Network V) (c : Cls) : List Name :=
  (n.comps c).names.filter (fun y => cfg.exportStd || !(cfg.std c).contains y)

/-- What a network and its classes have to satisfy. -/
structure Exportable (n : Network V) : Prop where
  good : cfg.sch.Good
  wf : WF cfg.sch n
  classes : cfg.classes.Nodup
  bus : "Bus" ∈ cfg.classes
  /-- There is a bus. -/
  buses : own cfg n "Bus" ≠ []
  cols_nodup : ∀ c, (cfg.cols c).Nodup
  cols_static : ∀ c, ∀ k ∈ cfg.cols c, cfg.sch.seriesOnly c k = false
  /-- Every attribute that is not a column has its default. -/
  rest : ∀ c k, k ∉ cfg.cols c → cfg.sch.seriesOnly c k = false → ∀ x ∈ (n.comps c).names,
    (n.comps c).sval x k = cfg.sch.dflt c k
  /-- Values are only missing where the default is. -/
  clean : ∀ c, ∀ k ∈ cfg.cols c, ∀ x ∈ (n.comps c).names, (n.comps c).sval x k = none → cfg.sch.dflt c k = none
  dyn_keys : ∀ c, (Dict.keys (n.comps c).dyn).Nodup
  std_nodup : ∀ c, (cfg.std c).Nodup
  /-- The standard types are there, as they were, and have no series. -/
  std : cfg.exportStd = false → ∀ c, ∀ y ∈ cfg.std c,
    y ∈ (n.comps c).names ∧ (n.comps c).sval y = cfg.stdVal c y ∧
      ∀ k f, Dict.get? (n.comps c).dyn k = some f → y ∉ f.cols
  /-- The weightings of periods belong to the periods, in order. -/
  periods : n.pw.index = periodsOf n.snaps
  increasing : n.pw.index.Pairwise (· < ·)
  /-- Names and values come back from a file as they are. -/
  names_back : ∀ c, cfg.readNames (own cfg n c) = own cfg n c
  cols_back : ∀ c, ∀ k ∈ cfg.cols c, cfg.readCol (cfg.sch.dflt c k) ((own cfg n c).map (fun y => (n.comps c).sval y k)) =
    (own cfg n c).map (fun y => (n.comps c).sval y k)

/-- Nothing of what is there outlives the export: tables are there for classes that are written, and series for attributes
of the network. -/
structure Replaced (old : Store V) (n : Network V) : Prop where
  static : ∀ c, own cfg n c = [] → old.static c = none
  series : ∀ c k, (Dict.get? (old.series c) k).isSome → (Dict.get? (n.comps c).dyn k).isSome
  keys : ∀ c, (Dict.keys (old.series c)).Nodup
  other : ∀ c, c ∉ cfg.classes → old.static c = none

/-- The attributes that PyPSA calculates itself. -/
def calculated : List Attr := ["sub_network", "r_pu", "x_pu", "g_pu", "b_pu"]

/-! ## Export -/

theorem own_eq (n : Network V) (c : Cls) : keptNames cfg n c = own cfg n c := by
  unfold keptNames own
  apply List.filter_congr
  intro y _
  cases cfg.exportStd <;> simp

theorem spec_isSome (sch : Schema V) (c : Cls) (k : Attr) :
    (sch.spec? c k).isSome ↔ ∃ a ∈ sch.attrs c, a.name = k := by
  simp [Schema.spec?, List.find?_isSome]

/-- The store after an export. -/
theorem exportInto_ok (old : Store V) (n : Network V) (h : Exportable cfg n) (ho : Replaced cfg old n) :
    ∃ st, exportInto cfg old n = .ok st ∧ st.snaps = n.snaps ∧ st.w = n.w.val ∧ st.periods = n.pw.index ∧ st.pw = n.pw.val ∧
      (∀ c, st.static c = if c ∈ cfg.classes ∧ own cfg n c ≠ [] then some (staticTable cfg n c) else none) ∧
      ∀ c ∈ cfg.classes, own cfg n c ≠ [] → (Dict.keys (st.series c)).Nodup ∧
        ∀ k, Dict.get? (st.series c) k =
          match Dict.get? (n.comps c).dyn k with
          | some f =>
            if (writtenSeries cfg c k f).isEmpty then none
            else some ⟨writtenSeries cfg c k f, f.index.map (fun s => f.val s)⟩
          | none => none := by
  have hno : cfg.classes.any (dropRaises cfg n) = false := by
    rw [List.any_eq_false]
    intro c _
    unfold dropRaises
    cases he : cfg.exportStd with
    | true => simp
    | false =>
      have : (cfg.std c).all (fun y => decide (y ∈ (n.comps c).names)) = true := by
        rw [List.all_eq_true]
        intro y hy
        exact decide_eq_true (h.std he c y hy).1
      simp [this]
  refine ⟨_, by unfold exportInto; rw [hno]; rfl, rfl, rfl, rfl, rfl, ?_, ?_⟩
  · intro c
    simp only [own_eq]
    by_cases hc : c ∈ cfg.classes ∧ own cfg n c ≠ []
    · rw [if_pos hc, if_pos hc]
    · rw [if_neg hc, if_neg hc]
      by_cases h1 : c ∈ cfg.classes
      · exact ho.static c (by by_contra h2; exact hc ⟨h1, h2⟩)
      · exact ho.other c h1
  · intro c hc hne
    simp only [own_eq]
    rw [if_pos ⟨hc, hne⟩]
    refine ⟨writeAll_nodup cfg c _ _ (ho.keys c), ?_⟩
    intro k
    rw [writeAll_get cfg c _ (h.dyn_keys c)]
    cases hg : Dict.get? (n.comps c).dyn k with
    | some f => rfl
    | none =>
      simp only
      cases hs : Dict.get? (old.series c) k with
      | none => rfl
      | some t =>
        have := ho.series c k (by rw [hs]; rfl)
        rw [hg] at this
        exact absurd this (by simp)

theorem not_written (n : Network V) (h : Exportable cfg n) (c : Cls) (k : Attr) (hk : k ∈ cfg.cols c)
    (hw : writesCol cfg n c k = false) (hd : k ∉ calculated) (x : Name) (hx : x ∈ own cfg n c) :
    (n.comps c).sval x k = cfg.sch.dflt c k := by
  have hd' : decide (k ∉ derived) = true := decide_eq_true hd
  unfold writesCol at hw
  rw [hd', Bool.true_and, Bool.and_eq_false_iff] at hw
  rcases hw with hw | hw
  · simp only [Bool.not_eq_false', Bool.and_eq_true, decide_eq_true_eq, List.all_eq_true, own_eq] at hw
    rw [hw.2 x hx, hw.1.2]
  · simp only [Bool.not_eq_false', Bool.and_eq_true, decide_eq_true_eq, List.all_eq_true, own_eq] at hw
    exact hw.2 x hx

theorem writtenSeries_sub (c : Cls) (k : Attr) (f : Frame V) : (writtenSeries cfg c k f).Sublist f.cols := by
  unfold writtenSeries
  split
  · exact List.filter_sublist
  · exact List.Sublist.refl _

theorem mem_writtenSeries (n : Network V) (h : Exportable cfg n) (c : Cls) (k : Attr) (f : Frame V)
    (hf : Dict.get? (n.comps c).dyn k = some f) (x : Name) :
    x ∈ writtenSeries cfg c k f ↔ x ∈ f.cols ∧ ¬ AllDefault cfg.sch n c k x := by
  have hi := (h.wf.table c k f hf).1
  unfold writtenSeries AllDefault
  by_cases hs : ∃ a ∈ cfg.sch.attrs c, a.name = k
  · rw [if_pos ((spec_isSome cfg.sch c k).2 hs), List.mem_filter, List.any_eq_true]
    constructor
    · rintro ⟨h1, s, h2, h3⟩
      refine ⟨h1, ?_⟩
      rintro ⟨_, f', hf', _, h4⟩
      rw [hf] at hf'
      cases hf'
      rw [hi] at h2
      exact of_decide_eq_true h3 (h4 s h2)
    · rintro ⟨h1, h2⟩
      refine ⟨h1, ?_⟩
      by_contra h3
      apply h2
      refine ⟨hs, f, hf, h1, ?_⟩
      intro s hs'
      by_contra h4
      exact h3 ⟨s, by rw [hi]; exact hs', decide_eq_true h4⟩
  · rw [if_neg (fun h' => hs ((spec_isSome cfg.sch c k).1 h'))]
    exact ⟨fun h1 => ⟨h1, fun h2 => hs h2.1⟩, fun h1 => h1.1⟩

omit [DecidableEq V] in
theorem relabel_val (snaps : List Snap) (hn : snaps.Nodup) (cols : List Name) (g : Snap → Name → Option V) (s : Snap)
    (hs : s ∈ snaps) (x : Name) : (relabel snaps ⟨cols, snaps.map (fun s => g s)⟩).val s x = g s x := by
  obtain ⟨i, hi⟩ := List.getElem?_of_mem hs
  have := get?_zip snaps (snaps.map (fun s => g s)) i s (g s) hn hi (by simp [hi])
  simp [relabel, this]

omit [DecidableEq V] in
theorem get?_map {A B : Type} (d : Dict Attr A) (g : A → B) (k : Attr) :
    Dict.get? (d.map (fun e => (e.1, g e.2))) k = (Dict.get? d k).map g := by
  induction d with
  | nil => rfl
  | cons e d ih =>
    obtain ⟨a, v⟩ := e
    simp only [List.map_cons, Dict.get?_cons, ih]
    split <;> rfl

theorem mem_own (n : Network V) (c : Cls) (x : Name) :
    x ∈ own cfg n c ↔ x ∈ (n.comps c).names ∧ (cfg.exportStd = true ∨ x ∉ cfg.std c) := by
  simp [own]

/-- What an export of `n` leaves behind. -/
structure Written (st : Store V) (n : Network V) : Prop where
  snaps : st.snaps = n.snaps
  static : ∀ c, st.static c = if c ∈ cfg.classes ∧ own cfg n c ≠ [] then some (staticTable cfg n c) else none
  nodup : ∀ c ∈ cfg.classes, own cfg n c ≠ [] → (Dict.keys (st.series c)).Nodup
  series : ∀ c ∈ cfg.classes, own cfg n c ≠ [] → ∀ k, Dict.get? (st.series c) k =
    match Dict.get? (n.comps c).dyn k with
    | some f =>
      if (writtenSeries cfg c k f).isEmpty then none
      else some ⟨writtenSeries cfg c k f, f.index.map (fun s => f.val s)⟩
    | none => none

theorem decode_there (st : Store V) (n : Network V) (hw : Written cfg st n) (c : Cls) (hc : c ∈ cfg.classes)
    (hne : own cfg n c ≠ []) : (decode cfg st).comps c = decodeComp cfg st c (staticTable cfg n c) := by
  simp [decode, hw.static c, hc, hne]

theorem decode_gone (st : Store V) (n : Network V) (hw : Written cfg st n) (c : Cls)
    (hc : ¬ (c ∈ cfg.classes ∧ own cfg n c ≠ [])) :
    (decode cfg st).comps c = { names := [], sval := fun _ k => cfg.sch.dflt c k, dyn := [] } := by
  simp only [decode, hw.static c, if_neg hc, Option.map_none, Option.getD_none]

theorem decode_dyn (st : Store V) (n : Network V) (h : Exportable cfg n) (hw : Written cfg st n) (c : Cls)
    (hc : c ∈ cfg.classes) (hne : own cfg n c ≠ []) (k : Attr) (f : Frame V)
    (hf : Dict.get? ((decode cfg st).comps c).dyn k = some f) :
    cfg.skipTime = false ∧ ∃ g, Dict.get? (n.comps c).dyn k = some g ∧ f.index = n.snaps ∧
      f.cols = writtenSeries cfg c k g ∧ ∀ s ∈ n.snaps, ∀ x, f.val s x = g.val s x := by
  rw [decode_there cfg st n hw c hc hne] at hf
  unfold decodeComp at hf
  cases hs : cfg.skipTime with
  | true => simp [hs] at hf
  | false =>
    simp only [hs, Bool.false_eq_true, if_false] at hf
    rw [get?_map, hw.series c hc hne] at hf
    cases hg : Dict.get? (n.comps c).dyn k with
    | none => simp [hg] at hf
    | some g =>
      simp only [hg] at hf
      refine ⟨rfl, g, rfl, ?_⟩
      have hi := (h.wf.table c k g hg).1
      split at hf
      · simp at hf
      · simp only [Option.map_some, Option.some.injEq] at hf
        subst hf
        refine ⟨hw.snaps, rfl, ?_⟩
        intro s hs x
        rw [hw.snaps, hi]
        exact relabel_val n.snaps h.wf.snaps_nodup _ g.val s hs x

theorem decode_source (st : Store V) (n : Network V) (h : Exportable cfg n) (hw : Written cfg st n) :
    Source cfg.sch (colsOf st) (decode cfg st) := by
  have hcols : ∀ c, (colsOf st c).Sublist (cfg.cols c) := by
    intro c
    unfold colsOf
    rw [hw.static c]
    split
    · exact List.filter_sublist
    · simp
  constructor
  · intro c
    by_cases hc : c ∈ cfg.classes ∧ own cfg n c ≠ []
    · rw [decode_there cfg st n hw c hc.1 hc.2]
      exact (h.wf.names_nodup c).filter _
    · rw [decode_gone cfg st n hw c hc]
      exact List.nodup_nil
  · intro c k f hf
    by_cases hc : c ∈ cfg.classes ∧ own cfg n c ≠ []
    · obtain ⟨_, g, h1, h2, h3, _⟩ := decode_dyn cfg st n h hw c hc.1 hc.2 k f hf
      obtain ⟨_, t2, t3⟩ := h.wf.table c k g h1
      refine ⟨h2.trans hw.snaps.symm, ?_, ?_⟩
      · rw [h3]
        exact t2.sublist (writtenSeries_sub cfg c k g)
      · intro x hx
        rw [h3] at hx
        have hx' := (writtenSeries_sub cfg c k g).subset hx
        rw [decode_there cfg st n hw c hc.1 hc.2]
        show x ∈ keptNames cfg n c
        rw [own_eq, mem_own]
        refine ⟨t3 x hx', ?_⟩
        cases he : cfg.exportStd with
        | true => exact Or.inl rfl
        | false => exact Or.inr (fun hs => (h.std he c x hs).2.2 k g h1 hx')
    · rw [decode_gone cfg st n hw c hc] at hf
      simp at hf
  · intro c
    exact (h.cols_nodup c).sublist (hcols c)
  · intro c k hk
    exact h.cols_static c k ((hcols c).subset hk)
  · intro c k hk _ x hx
    by_cases hc : c ∈ cfg.classes ∧ own cfg n c ≠ []
    · rw [decode_there cfg st n hw c hc.1 hc.2]
      have : k ∉ (staticTable cfg n c).cols := by
        have h2 : colsOf st c = (staticTable cfg n c).cols := by
          unfold colsOf
          rw [hw.static c, if_pos hc]
          rfl
        rwa [← h2]
      simp [decodeComp, this]
    · rw [decode_gone cfg st n hw c hc] at hx
      simp at hx
  · intro c k hk x hx hv
    by_cases hc : c ∈ cfg.classes ∧ own cfg n c ≠ []
    · rw [decode_there cfg st n hw c hc.1 hc.2] at hx hv
      have hx' : x ∈ own cfg n c := by rw [← own_eq]; exact hx
      have hkc := (hcols c).subset hk
      simp only [decodeComp] at hv
      split at hv
      · exact h.clean c k hkc x ((mem_own cfg n c x).1 hx').1 hv
      · exact hv
    · rw [decode_gone cfg st n hw c hc] at hx
      simp at hx
  · intro c
    by_cases hc : c ∈ cfg.classes ∧ own cfg n c ≠ []
    · rw [decode_there cfg st n hw c hc.1 hc.2]
      unfold decodeComp
      cases cfg.skipTime with
      | true => simp [Dict.keys]
      | false =>
        have := hw.nodup c hc.1 hc.2
        simp only [Bool.false_eq_true, if_false, Dict.keys, List.map_map] at this ⊢
        exact this
    · rw [decode_gone cfg st n hw c hc]
      simp [Dict.keys]

/-! ## Import -/

omit [DecidableEq V] in
theorem mem_periods (l : List Snap) (hne : periodsOf l ≠ []) : isMultiIndex l = true := by
  unfold isMultiIndex
  rw [List.any_eq_true]
  by_contra h
  apply hne
  unfold periodsOf
  have : l.filterMap Snap.period? = [] := by
    rw [List.filterMap_eq_nil_iff]
    intro s hs
    cases s with
    | flat t => rfl
    | multi p t => exact absurd ⟨_, hs, rfl⟩ h
  rw [this]
  rfl

omit [DecidableEq V] in
/-- Periods of the network come back. -/
theorem readPeriods_ok (st : Store V) (m : Network V) (n : Network V) (hs : m.snaps = n.snaps)
    (h1 : n.pw.index = periodsOf n.snaps) (h2 : n.pw.index.Pairwise (· < ·)) (h3 : st.periods = n.pw.index)
    (h4 : st.pw = n.pw.val) :
    ∃ m', readPeriods cfg st m = .ok m' ∧ m'.snaps = m.snaps ∧ m'.w = m.w ∧ m'.comps = m.comps ∧
      m'.pw.index = n.pw.index ∧ ∀ p ∈ n.pw.index, ∀ k, m'.pw.val p k = n.pw.val p k := by
  have hset : ∃ m', setInvestmentPeriods cfg.sch m st.periods true = .ok m' ∧ m'.snaps = m.snaps ∧ m'.w = m.w ∧
      m'.comps = m.comps := by
    by_cases he : st.periods = []
    · exact ⟨m, by simp [setInvestmentPeriods, he], rfl, rfl, rfl⟩
    · have hm : isMultiIndex m.snaps = true := by
        rw [hs]
        exact mem_periods n.snaps (by rw [← h1, ← h3]; exact he)
      obtain ⟨a1, a2⟩ := set_investment_periods_multi cfg.sch m hm st.periods he true
      cases hr : setInvestmentPeriods cfg.sch m st.periods true with
      | error e =>
        have := a1.1 ⟨e, hr⟩
        exact absurd ⟨rfl, by rw [h3]; exact h2, by rw [h3, h1, hs]; exact fun p hp => hp, by rw [h3, h1, hs]; exact Nat.le_refl _⟩ this
      | ok m' =>
        obtain ⟨b1, b2, b3, _⟩ := a2 m' hr
        exact ⟨m', rfl, b1, b2, b3⟩
  obtain ⟨m', c1, c2, c3, c4⟩ := hset
  refine ⟨{ m' with pw := { index := periodsOf m'.snaps, val := fun p k => if p ∈ st.periods then st.pw p k else none } },
    by unfold readPeriods; rw [c1], c2, c3, c4, ?_, ?_⟩
  · show periodsOf m'.snaps = _
    rw [c2, hs, h1]
  · intro p hp k
    show (if p ∈ st.periods then st.pw p k else none) = _
    rw [h3, if_pos hp, h4]

theorem rows_length (st : Store V) (n : Network V) (h : Exportable cfg n) (hw : Written cfg st n) (c : Cls)
    (hc : c ∈ cfg.classes) (hne : own cfg n c ≠ []) : ∀ e ∈ st.series c, e.2.rows.length = st.snaps.length := by
  intro e he
  have := Dict.get?_of_mem (hw.nodup c hc hne) (show (e.1, e.2) ∈ st.series c from he)
  rw [hw.series c hc hne] at this
  cases hg : Dict.get? (n.comps c).dyn e.1 with
  | none => simp [hg] at this
  | some g =>
    simp only [hg] at this
    split at this
    · simp at this
    · simp only [Option.some.injEq] at this
      rw [← this, List.length_map, (h.wf.table c e.1 g hg).1, hw.snaps]

omit [DecidableEq V] in
theorem fresh_dyn (b : Bool) (c : Cls) (k : Attr) (f : Frame V)
    (hf : Dict.get? ((fresh cfg b).comps c).dyn k = some f) : (cfg.sch.vary? c k).isSome ∧ f.cols = [] := by
  refine ⟨?_, init_get? cfg.sch c k f hf⟩
  have := Dict.mem_of_get? hf
  simp only [fresh, init, List.mem_map, List.mem_filter] at this
  obtain ⟨a, ⟨h1, h2⟩, h3⟩ := this
  simp only [Prod.mk.injEq] at h3
  unfold Schema.vary?
  rw [List.find?_isSome]
  exact ⟨a, h1, by simp [h3.1, h2]⟩

/-- **C16 and C17 (partial: where the claim holds).**  A network that is exported into a new folder or over an older export
that it replaces, and read into a new network, has the same snapshots, weightings, periods, components and static values, and
the same value read for every attribute at every snapshot, except that a series that holds nothing but the default is gone, so
that the static value is read (`export_import_same` says when that is the same).  Calculated attributes come back as defaults.
With `skip_time` the static values are read.  Missing: networks without buses (`no_buses`), with standard types
removed (`export_error`) or changed (`Demo.changed_type_lost`), older tables that nothing replaces (`stale_stays`,
`Demo.stale_read`), missing values where the default is not (`Demo.missing_value_filled`), and what files do to names and values (`CsvProps.lean`). -/
theorem export_import_partial (n : Network V) (h : Exportable cfg n) (old : Store V) (ho : Replaced cfg old n) :
    ∃ st m, exportInto cfg old n = .ok st ∧ importFrom cfg (fresh cfg cfg.exportStd) st = .ok m ∧
      m.snaps = n.snaps ∧ m.w.index = n.w.index ∧
      (∀ s ∈ n.snaps, ∀ k ∈ ["objective", "stores", "generators"], m.w.val s k = n.w.val s k) ∧
      m.pw.index = n.pw.index ∧ (∀ p ∈ n.pw.index, ∀ k, m.pw.val p k = n.pw.val p k) ∧
      ∀ c ∈ cfg.classes, (m.comps c).names.Nodup ∧ (∀ x, x ∈ (m.comps c).names ↔ x ∈ (n.comps c).names) ∧
        (∀ x ∈ (n.comps c).names, ∀ k, k ∉ calculated →
          (cfg.sch.seriesOnly c k = false → (m.comps c).sval x k = (n.comps c).sval x k) ∧
          ∀ s ∈ n.snaps,
            (cfg.skipTime = true → effective cfg.sch m c k s x = base cfg.sch n c k x) ∧
            (cfg.skipTime = false →
              (AllDefault cfg.sch n c k x → effective cfg.sch m c k s x = base cfg.sch n c k x) ∧
              (¬ AllDefault cfg.sch n c k x → effective cfg.sch m c k s x = effective cfg.sch n c k s x))) ∧
        ∀ x ∈ own cfg n c, ∀ k ∈ calculated, cfg.sch.seriesOnly c k = false → (m.comps c).sval x k = cfg.sch.dflt c k := by
  obtain ⟨st, e1, e2, e3, e4, e5, e6, e7⟩ := exportInto_ok cfg old n h ho
  have hw : Written cfg st n := ⟨e2, e6, fun c hc hne => (e7 c hc hne).1, fun c hc hne => (e7 c hc hne).2⟩
  have hsrc := decode_source cfg st n h hw
  have hfr := fresh_wf cfg cfg.exportStd h.std_nodup
  -- snapshots
  have hsne : st.snaps.isEmpty = false := by
    rw [e2]
    cases hh : n.snaps with
    | nil => exact absurd hh h.wf.snaps_ne
    | cons => rfl
  obtain ⟨m0, p1⟩ : ∃ m0, setSnapshots cfg.sch (fresh cfg cfg.exportStd) st.snaps cfg.sch.one = (m0, none) := by
    exact ⟨_, by unfold setSnapshots; rw [hsne]; rfl⟩
  have p2 : WF cfg.sch m0 := by
    have := setSnapshots_wf cfg.sch (fresh cfg cfg.exportStd) st.snaps cfg.sch.one hfr (by rw [e2]; exact h.wf.snaps_nodup)
      (by rw [e2]; exact h.wf.snaps_hom) (by rw [e2]; exact h.wf.snaps_ne)
    rw [p1] at this
    exact this
  have p3 : m0.snaps = n.snaps ∧ (∀ c, (m0.comps c).names = ((fresh cfg cfg.exportStd).comps c).names) ∧
      (∀ c, (m0.comps c).sval = cfg.stdVal c) ∧
      ∀ c k f, Dict.get? (m0.comps c).dyn k = some f → (cfg.sch.vary? c k).isSome ∧ f.cols = [] := by
    have := congrArg Prod.fst p1
    unfold setSnapshots at this
    rw [hsne] at this
    simp only [Bool.false_eq_true, if_false] at this
    subst this
    refine ⟨e2, fun _ => rfl, fun _ => rfl, ?_⟩
    intro c k f hf
    simp only [get?_mapDyn] at hf
    cases hg : Dict.get? ((fresh cfg cfg.exportStd).comps c).dyn k with
    | none => rw [hg] at hf; simp at hf
    | some g =>
      rw [hg] at hf
      simp only [Option.map_some, Option.some.injEq] at hf
      obtain ⟨h1, h2⟩ := fresh_dyn cfg _ c k g hg
      refine ⟨h1, ?_⟩
      rw [← hf]
      unfold reindexTable
      rw [if_pos (by simp [h2])]
      exact h2
  obtain ⟨q1, q2, q3, q4⟩ := p3
  let m1 : Network V := { m0 with w := { index := st.snaps, val := fun s k => if k ∈ weightCols then st.w s k else none } }
  have r1 : readSnapshots cfg (fresh cfg cfg.exportStd) st = .ok m1 := by
    unfold readSnapshots
    rw [p1]
  obtain ⟨m2, s1, s2, s3, s4, s5, s6⟩ := readPeriods_ok cfg st m1 n q1 h.periods h.increasing e4 e5
  have hm2 : WF cfg.sch m2 := by
    refine ⟨?_, ?_, ?_, ?_, ?_, ?_, ?_⟩
    · intro c; rw [s4]; exact p2.names_nodup c
    · intro c k f hf; rw [s4] at hf ⊢; rw [s2]; exact p2.table c k f hf
    · rw [s3, s2]; exact e2.trans q1.symm
    · intro c a ha hv; rw [s4]; exact p2.keys c a ha hv
    · rw [s2]; exact p2.snaps_nodup
    · rw [s2]; exact p2.snaps_hom
    · rw [s2]; exact p2.snaps_ne
  have hm2s : m2.snaps = st.snaps := by rw [s2, e2]; exact q1
  have hnames2 : ∀ c, (m2.comps c).names = if cfg.exportStd then [] else cfg.std c := by
    intro c; rw [s4]; exact q2 c
  have hdis : ∀ c, ∀ x ∈ own cfg n c, x ∉ (m2.comps c).names := by
    intro c x hx
    rw [hnames2]
    rcases ((mem_own cfg n c x).1 hx).2 with h' | h'
    · simp [h']
    · cases cfg.exportStd <;> simp [h']
  have hdec : ∀ c, ∀ x ∈ ((decode cfg st).comps c).names, x ∈ own cfg n c := by
    intro c x hx
    by_cases hc : c ∈ cfg.classes ∧ own cfg n c ≠ []
    · rw [decode_there cfg st n hw c hc.1 hc.2] at hx
      rw [← own_eq]; exact hx
    · rw [decode_gone cfg st n hw c hc] at hx
      simp at hx
  have hfaith : ∀ c ∈ cfg.classes, ∀ t, st.static c = some t → Faithful cfg t c := by
    intro c _ t ht
    rw [hw.static c] at ht
    split at ht
    · simp only [Option.some.injEq] at ht
      subst ht
      refine ⟨?_, ?_⟩
      · show cfg.readNames (keptNames cfg n c) = keptNames cfg n c
        rw [own_eq]; exact h.names_back c
      · intro k hk
        show cfg.readCol _ ((keptNames cfg n c).map _) = (keptNames cfg n c).map _
        rw [own_eq]
        exact h.cols_back c k (List.mem_of_mem_filter hk)
    · simp at ht
  have hrows : ∀ c ∈ cfg.classes.filter (fun c => (st.static c).isSome), c ∈ cfg.classes ∧ own cfg n c ≠ [] := by
    intro c hc
    rw [List.mem_filter, hw.static c] at hc
    by_contra hcon
    rw [if_neg hcon] at hc
    simp at hc
  have hloop : readClasses cfg st cfg.classes m2 =
      mergeLoop cfg.sch (colsOf st) (decode cfg st) (cfg.classes.filter (fun c => (st.static c).isSome)) m2 := by
    rw [readClasses_filter]
    rw [readClasses_eq cfg st _ (h.classes.filter _) m2 hm2 h.good hsrc (fun c hc => hfaith c (List.mem_of_mem_filter hc)) hm2s
      (fun c hc => rows_length cfg st n h hw c (hrows c hc).1 (hrows c hc).2)
      (fun c _ x hx => hdis c x (hdec c x hx))]
    simp
  obtain ⟨m, t1, t2, t3, t4, t5, t6, t7⟩ := mergeLoop_spec cfg.sch h.good (colsOf st) m2 (decode cfg st) hm2 hsrc hm2s
    (cfg.classes.filter (fun c => (st.static c).isSome)) (h.classes.filter _) (fun c _ x hx => hdis c x (hdec c x hx))
  have hbus : (st.static "Bus").isNone = false := by
    rw [hw.static, if_pos ⟨h.bus, h.buses⟩]
    rfl
  have hwrite : ∀ c ∈ cfg.classes, own cfg n c ≠ [] → c ∈ cfg.classes.filter (fun c => (st.static c).isSome) := by
    intro c hc hne
    rw [List.mem_filter, hw.static c, if_pos ⟨hc, hne⟩]
    exact ⟨hc, rfl⟩
  have hbase2 : ∀ c k s x, effective cfg.sch m2 c k s x = base cfg.sch m2 c k x := by
    intro c k s x
    unfold effective base
    cases hg : Dict.get? (m2.comps c).dyn k with
    | none => rfl
    | some f =>
      rw [s4] at hg
      simp [(q4 c k f hg).2]
  -- standard types
  have hstd : ∀ c, ∀ x ∈ (n.comps c).names, x ∉ own cfg n c → x ∈ (m2.comps c).names ∧
      (m2.comps c).sval x = (n.comps c).sval x ∧
      (∀ k, ¬ AllDefault cfg.sch n c k x) ∧ ∀ k s, effective cfg.sch n c k s x = base cfg.sch n c k x := by
    intro c x hx hxo
    rw [mem_own] at hxo
    have he : cfg.exportStd = false := by
      cases he : cfg.exportStd with
      | false => rfl
      | true => exact absurd ⟨hx, Or.inl he⟩ hxo
    have hxs : x ∈ cfg.std c := by
      by_contra h'
      exact hxo ⟨hx, Or.inr h'⟩
    obtain ⟨_, v2, v3⟩ := h.std he c x hxs
    refine ⟨by rw [hnames2, he]; exact hxs, by rw [s4, v2]; exact congrFun (q3 c) x, ?_, ?_⟩
    · rintro k ⟨_, f, hf, hxf, _⟩
      exact v3 k f hf hxf
    · intro k s
      unfold effective base
      cases hg : Dict.get? (n.comps c).dyn k with
      | none => rfl
      | some f => simp [v3 k f hg]
  refine ⟨st, m, e1, ?_, ?_, ?_, ?_, ?_, ?_, ?_⟩
  · unfold importFrom
    rw [r1]
    simp only [s1, hbus, Bool.false_eq_true, if_false]
    rw [hloop, t1]
  · rw [t3, hm2s, e2]
  · rw [t4, s3, h.wf.w_index]; exact e2
  · intro s _ k hk
    rw [t4, s3]
    show (if k ∈ weightCols then st.w s k else none) = _
    rw [if_pos (show k ∈ weightCols from hk), e3]
  · rw [t5, s5]
  · intro p hp k
    rw [t5, s6 p hp]
  · intro c hc
    refine ⟨t2.names_nodup c, ?_, ?_, ?_⟩
    · intro x
      by_cases hne : own cfg n c = []
      · rw [t6 c (fun h' => (hrows c h').2 hne), hnames2]
        constructor
        · intro hx
          cases he : cfg.exportStd with
          | true => rw [he] at hx; simp at hx
          | false =>
            rw [he] at hx
            exact (h.std he c x hx).1
        · intro hx
          have := (hstd c x hx (by simp [hne])).1
          rwa [hnames2] at this
      · rw [(t7 c (hwrite c hc hne)).1, List.mem_append, decode_there cfg st n hw c hc hne]
        show _ ∨ x ∈ keptNames cfg n c ↔ _
        rw [own_eq]
        constructor
        · rintro (hx | hx)
          · rw [hnames2] at hx
            cases he : cfg.exportStd with
            | true => rw [he] at hx; simp at hx
            | false =>
              rw [he] at hx
              exact (h.std he c x hx).1
          · exact ((mem_own cfg n c x).1 hx).1
        · intro hx
          by_cases hxo : x ∈ own cfg n c
          · exact Or.inr hxo
          · exact Or.inl (hstd c x hx hxo).1
    · intro x hx k hk
      by_cases hxo : x ∈ own cfg n c
      · have hne : own cfg n c ≠ [] := List.ne_nil_of_mem hxo
        have hdc := decode_there cfg st n hw c hc hne
        have hxd : x ∈ ((decode cfg st).comps c).names := by
          rw [hdc]
          show x ∈ keptNames cfg n c
          rw [own_eq]; exact hxo
        obtain ⟨u1, u2⟩ := (t7 c (hwrite c hc hne)).2.2 x hxd
        -- static values in the store
        have hsv : cfg.sch.seriesOnly c k = false → ((decode cfg st).comps c).sval x k = (n.comps c).sval x k := by
          intro hso
          rw [hdc]
          show (if k ∈ (staticTable cfg n c).cols then (n.comps c).sval x k else cfg.sch.dflt c k) = _
          split
          · rfl
          · rename_i hkc
            by_cases hkcol : k ∈ cfg.cols c
            · refine (not_written cfg n h c k hkcol ?_ hk x hxo).symm
              have : k ∉ (cfg.cols c).filter (writesCol cfg n c) := hkc
              rw [List.mem_filter] at this
              cases hwc : writesCol cfg n c k with
              | false => rfl
              | true => exact absurd ⟨hkcol, hwc⟩ this
            · exact (h.rest c k hkcol hso x hx).symm
        have hbase : base cfg.sch (decode cfg st) c k x = base cfg.sch n c k x := by
          unfold base
          cases hso : cfg.sch.seriesOnly c k with
          | true => rfl
          | false => simp only [Bool.false_eq_true, if_false]; exact hsv hso
        have hcustom : (cfg.sch.vary? c k).isSome ∨ Dict.get? (m2.comps c).dyn k = none ∨
            Dict.get? ((decode cfg st).comps c).dyn k = none := by
          cases hg : Dict.get? (m2.comps c).dyn k with
          | none => exact Or.inr (Or.inl rfl)
          | some f =>
            rw [s4] at hg
            exact Or.inl (q4 c k f hg).1
        refine ⟨fun hso => (u1 k hso).trans (hsv hso), ?_⟩
        intro s hs
        rw [u2 k hcustom s (by rw [hm2s, e2]; exact hs), ← hbase]
        have hnone : ∀ f, Dict.get? ((decode cfg st).comps c).dyn k = some f → x ∉ f.cols →
            effective cfg.sch (decode cfg st) c k s x = base cfg.sch (decode cfg st) c k x := by
          intro f hf hxf
          unfold effective base
          rw [hf]
          simp [hxf]
        have hno : Dict.get? ((decode cfg st).comps c).dyn k = none →
            effective cfg.sch (decode cfg st) c k s x = base cfg.sch (decode cfg st) c k x := by
          intro hf
          unfold effective base
          rw [hf]
        refine ⟨?_, ?_⟩
        · intro hsk
          apply hno
          cases hf : Dict.get? ((decode cfg st).comps c).dyn k with
          | none => rfl
          | some f =>
            have := (decode_dyn cfg st n h hw c hc hne k f hf).1
            rw [hsk] at this
            exact absurd this (by simp)
        · intro hsk
          refine ⟨?_, ?_⟩
          · intro had
            cases hf : Dict.get? ((decode cfg st).comps c).dyn k with
            | none => exact hno hf
            | some f =>
              obtain ⟨_, g, h1, _, h3, _⟩ := decode_dyn cfg st n h hw c hc hne k f hf
              apply hnone f hf
              rw [h3, mem_writtenSeries cfg n h c k g h1]
              exact fun h' => h'.2 had
          · intro had
            cases hg : Dict.get? (n.comps c).dyn k with
            | none =>
              have hf : Dict.get? ((decode cfg st).comps c).dyn k = none := by
                cases hf : Dict.get? ((decode cfg st).comps c).dyn k with
                | none => rfl
                | some f =>
                  obtain ⟨_, g, h1, _⟩ := decode_dyn cfg st n h hw c hc hne k f hf
                  rw [hg] at h1
                  simp at h1
              rw [hno hf, hbase]
              unfold effective base
              rw [hg]
            | some g =>
              have hmw := mem_writtenSeries cfg n h c k g hg x
              by_cases hxg : x ∈ g.cols
              · have hxw := hmw.2 ⟨hxg, had⟩
                have hf : ∃ f, Dict.get? ((decode cfg st).comps c).dyn k = some f := by
                  rw [hdc]
                  unfold decodeComp
                  simp only [hsk, Bool.false_eq_true, if_false]
                  rw [get?_map, hw.series c hc hne, hg]
                  have : (writtenSeries cfg c k g).isEmpty = false := by
                    cases hl : writtenSeries cfg c k g with
                    | nil => rw [hl] at hxw; simp at hxw
                    | cons => rfl
                  simp [this]
                obtain ⟨f, hf⟩ := hf
                obtain ⟨_, g', h1, _, h3, h4⟩ := decode_dyn cfg st n h hw c hc hne k f hf
                rw [hg] at h1
                cases h1
                unfold effective
                rw [hf, hg]
                simp [h3, hxw, hxg, h4 s hs x]
              · have h2 : effective cfg.sch n c k s x = base cfg.sch n c k x := by
                  unfold effective base
                  rw [hg]
                  simp [hxg]
                rw [h2, ← hbase]
                cases hf : Dict.get? ((decode cfg st).comps c).dyn k with
                | none => exact hno hf
                | some f =>
                  obtain ⟨_, g', h1, _, h3, _⟩ := decode_dyn cfg st n h hw c hc hne k f hf
                  rw [hg] at h1
                  cases h1
                  apply hnone f hf
                  rw [h3]
                  exact fun h' => hxg (hmw.1 h').1
      · obtain ⟨w1, w2, w3, w4⟩ := hstd c x hx hxo
        have hkeep : (m.comps c).sval x = (m2.comps c).sval x ∧
            ∀ k s, effective cfg.sch m c k s x = effective cfg.sch m2 c k s x := by
          by_cases hne : own cfg n c = []
          · have := t6 c (fun h' => (hrows c h').2 hne)
            refine ⟨by rw [this], ?_⟩
            intro k s
            unfold effective
            rw [this]
          · exact (t7 c (hwrite c hc hne)).2.1 x w1
        have hb : ∀ s, effective cfg.sch m c k s x = base cfg.sch n c k x := by
          intro s
          rw [hkeep.2, hbase2]
          unfold base
          rw [w2]
        refine ⟨fun _ => by rw [hkeep.1, w2], ?_⟩
        intro s _
        exact ⟨fun _ => hb s, fun _ => ⟨fun _ => hb s, fun _ => by rw [hb s, w4]⟩⟩
    · intro x hxo k hk hso
      have hne : own cfg n c ≠ [] := List.ne_nil_of_mem hxo
      have hdc := decode_there cfg st n hw c hc hne
      have hxd : x ∈ ((decode cfg st).comps c).names := by
        rw [hdc]
        show x ∈ keptNames cfg n c
        rw [own_eq]; exact hxo
      rw [((t7 c (hwrite c hc hne)).2.2 x hxd).1 k hso, hdc]
      show (if k ∈ (cfg.cols c).filter (writesCol cfg n c) then (n.comps c).sval x k else cfg.sch.dflt c k) = _
      rw [if_neg]
      rw [List.mem_filter]
      rintro ⟨_, h2⟩
      have h3 : decide (k ∉ derived) = false := decide_eq_false (fun h' => h' hk)
      unfold writesCol at h2
      rw [h3] at h2
      simp at h2

/-- **C16 (where the claim fails).**  After export and import a component has the same values of an attribute at all snapshots
exactly if it is not the case that a series holding only the default overrides another static value. -/
theorem export_import_same (n : Network V) (h : Exportable cfg n) (old : Store V) (ho : Replaced cfg old n)
    (ht : cfg.skipTime = false) (st : Store V) (m : Network V) (h1 : exportInto cfg old n = .ok st)
    (h2 : importFrom cfg (fresh cfg cfg.exportStd) st = .ok m) (c : Cls) (hc : c ∈ cfg.classes) (x : Name)
    (hx : x ∈ (n.comps c).names) (k : Attr) (hk : k ∉ calculated) :
    (∀ s ∈ n.snaps, effective cfg.sch m c k s x = effective cfg.sch n c k s x) ↔
      ¬ (AllDefault cfg.sch n c k x ∧ base cfg.sch n c k x ≠ cfg.sch.dflt c k) := by
  obtain ⟨st', m', g1, g2, _, _, _, _, _, g8⟩ := export_import_partial cfg n h old ho
  rw [h1] at g1
  cases g1
  rw [h2] at g2
  cases g2
  have hall := ((g8 c hc).2.2.1 x hx k hk).2
  have hdef : AllDefault cfg.sch n c k x → ∀ s ∈ n.snaps, effective cfg.sch n c k s x = cfg.sch.dflt c k := by
    rintro ⟨_, f, hf, hxf, hv⟩ s hs
    unfold effective
    rw [hf]
    simp [hxf, hv s hs]
  constructor
  · rintro hs ⟨ha, hb⟩
    obtain ⟨s, hsn⟩ := List.exists_mem_of_ne_nil _ h.wf.snaps_ne
    apply hb
    rw [← ((hall s hsn).2 ht).1 ha, hs s hsn, hdef ha s hsn]
  · intro hn s hs
    by_cases ha : AllDefault cfg.sch n c k x
    · rw [((hall s hs).2 ht).1 ha, hdef ha s hs]
      by_contra hb
      exact hn ⟨ha, hb⟩
    · exact ((hall s hs).2 ht).2 ha

/-- Nothing is there: a new folder. -/
theorem empty_replaced (n : Network V) : Replaced cfg empty n :=
  ⟨fun _ _ => rfl, fun _ _ h => by simp [empty] at h, fun _ => by simp [empty, Dict.keys], fun _ _ => rfl⟩

/-- **C16 (errors).**  Export raises exactly if standard types are left out and one of them is not in the network. -/
theorem export_error (old : Store V) (n : Network V) :
    (∃ e, exportInto cfg old n = .error e) ↔
      cfg.exportStd = false ∧ ∃ c ∈ cfg.classes, ∃ y ∈ cfg.std c, y ∉ (n.comps c).names := by
  unfold exportInto
  split
  · rename_i h
    refine ⟨fun _ => ?_, fun _ => ⟨_, rfl⟩⟩
    obtain ⟨c, hc, hd⟩ := List.any_eq_true.1 h
    unfold dropRaises at hd
    simp only [Bool.and_eq_true, Bool.not_eq_true', List.all_eq_false] at hd
    obtain ⟨h1, y, hy, h2⟩ := hd
    exact ⟨h1, c, hc, y, hy, by simpa using h2⟩
  · rename_i h
    refine ⟨fun ⟨e, he⟩ => by simp at he, ?_⟩
    rintro ⟨h1, c, hc, y, hy, h2⟩
    exfalso
    apply h
    rw [List.any_eq_true]
    refine ⟨c, hc, ?_⟩
    unfold dropRaises
    simp only [h1, Bool.not_false, Bool.true_and, Bool.not_eq_true', List.all_eq_false]
    exact ⟨y, hy, by simpa using h2⟩

/-- **C16 (fails without buses).**  Whatever a network without buses holds, reading it from a new folder gives a network with
nothing but standard types. -/
theorem no_buses (n : Network V) (st m : _) (hb : (n.comps "Bus").names = [])
    (h1 : exportInto cfg empty n = .ok st) (h2 : importFrom cfg (fresh cfg cfg.exportStd) st = .ok m) :
    ∀ c x, x ∈ (m.comps c).names → x ∈ cfg.std c := by
  have hst : st.static "Bus" = none := by
    unfold exportInto at h1
    split at h1
    · simp at h1
    · simp only [Except.ok.injEq] at h1
      subst h1
      have : keptNames cfg n "Bus" = [] := by simp [keptNames, hb]
      simp [this, empty]
  unfold importFrom at h2
  split at h2
  · simp at h2
  · rename_i m1 hm1
    split at h2
    · simp at h2
    · rename_i m2 hm2
      simp only [hst, Option.isNone_none, if_true, Except.ok.injEq] at h2
      subst h2
      have hn1 : ∀ c, (m1.comps c).names = ((fresh cfg cfg.exportStd).comps c).names := by
        intro c
        unfold readSnapshots at hm1
        split at hm1
        · simp at hm1
        · rename_i a ha
          simp only [Except.ok.injEq] at hm1
          subst hm1
          have := congrArg Prod.fst ha
          unfold setSnapshots at this
          simp only at this
          split at this <;> subst this <;> rfl
      have hn2 : ∀ c, (m2.comps c).names = (m1.comps c).names := by
        intro c
        unfold readPeriods at hm2
        split at hm2
        · simp at hm2
        · rename_i a ha
          simp only [Except.ok.injEq] at hm2
          subst hm2
          unfold setInvestmentPeriods at ha
          split at ha
          · cases ha; rfl
          · split at ha
            · simp at ha
            · simp only at ha
              split at ha
              · split at ha
                · simp at ha
                · split at ha
                  · simp at ha
                  · cases ha; rfl
              · cases ha; rfl
      intro c x hx
      rw [hn2, hn1] at hx
      have : x ∈ (if cfg.exportStd then [] else cfg.std c) := hx
      cases he : cfg.exportStd <;> rw [he] at this
      · exact this
      · simp at this

/-- **C17 (fails).**  Where the network has no components of a class, the older tables and series of that class stay. -/
theorem stale_stays (old : Store V) (n : Network V) (st : Store V) (h : exportInto cfg old n = .ok st) (c : Cls)
    (hc : own cfg n c = []) : st.static c = old.static c ∧ st.series c = old.series c := by
  unfold exportInto at h
  split at h
  · simp at h
  · simp only [Except.ok.injEq] at h
    subst h
    simp [own_eq, hc]

/-- **C17 (fails).**  Older series of attributes that the network does not have stay. -/
theorem stale_series_stays (old : Store V) (n : Network V) (st : Store V) (h : exportInto cfg old n = .ok st) (c : Cls)
    (k : Attr) (hn : (Dict.keys (n.comps c).dyn).Nodup) (hk : Dict.get? (n.comps c).dyn k = none) :
    Dict.get? (st.series c) k = Dict.get? (old.series c) k := by
  unfold exportInto at h
  split at h
  · simp at h
  · simp only [Except.ok.injEq] at h
    subst h
    simp only
    split
    · rw [writeAll_get cfg c _ hn, hk]
    · rfl

end Verif.IO
