import Verif.Network.TransferProps

/-!
# Property C14: merging two networks
-/

namespace Verif.Network

variable {V : Type}

/-- Data that can be added to a network: tables in order, and the default where a static column is not given. -/
structure Source (sch : Schema V) (cols : Cls → List Attr) (n : Network V) : Prop where
  names_nodup : ∀ c, (n.comps c).names.Nodup
  table : ∀ c k f, Dict.get? (n.comps c).dyn k = some f →
    f.index = n.snaps ∧ f.cols.Nodup ∧ ∀ x ∈ f.cols, x ∈ (n.comps c).names
  cols_nodup : ∀ c, (cols c).Nodup
  cols_static : ∀ c, ∀ k ∈ cols c, sch.seriesOnly c k = false
  rest : ∀ c k, k ∉ cols c → sch.seriesOnly c k = false → ∀ x ∈ (n.comps c).names,
    (n.comps c).sval x k = sch.dflt c k
  clean : ∀ c, ∀ k ∈ cols c, ∀ x ∈ (n.comps c).names, (n.comps c).sval x k = none →
    sch.dflt c k = none
  dyn_keys : ∀ c, (Dict.keys (n.comps c).dyn).Nodup

theorem Fits.source {sch : Schema V} {cols : Cls → List Attr} {n : Network V} (h : WF sch n)
    (hf : Fits sch cols n) : Source sch cols n where
  names_nodup := h.names_nodup
  table := h.table
  cols_nodup := hf.cols_nodup
  cols_static := hf.cols_static
  rest := by
    intro c k hk hso x hx
    have hspec : sch.spec? c k = none := by
      rcases hf.cols_all c k hk with h' | h'
      · rw [h'] at hso; exact absurd hso (by simp)
      · exact h'
    rw [hf.outside c k hk x hx hso]
    simp [Schema.dflt, hspec]
  clean := hf.clean
  dyn_keys := hf.dyn_keys

/-- What one pass of the `merge` loop does to its class. -/
theorem mergeClass_spec (sch : Schema V) (hg : sch.Good) (cols : Cls → List Attr)
    (n other : Network V) (h : WF sch n) (hf : Source sch cols other)
    (hsn : n.snaps = other.snaps) (c : Cls)
    (hd : ∀ x ∈ (other.comps c).names, x ∉ (n.comps c).names) :
    ∃ m, mergeClass sch cols other c n = .ok m ∧ WF sch m ∧
      m.snaps = n.snaps ∧ m.w = n.w ∧ m.pw = n.pw ∧
      (∀ c', c' ≠ c → m.comps c' = n.comps c') ∧
      (m.comps c).names = (n.comps c).names ++ (other.comps c).names ∧
      (∀ x ∈ (n.comps c).names, (m.comps c).sval x = (n.comps c).sval x ∧
        ∀ k s, effective sch m c k s x = effective sch n c k s x) ∧
      ∀ x ∈ (other.comps c).names,
        (∀ k, sch.seriesOnly c k = false → (m.comps c).sval x k = (other.comps c).sval x k) ∧
        ∀ k, ((sch.vary? c k).isSome ∨ Dict.get? (n.comps c).dyn k = none ∨
            Dict.get? (other.comps c).dyn k = none) →
          ∀ s ∈ n.snaps, effective sch m c k s x = effective sch other c k s x := by
  obtain ⟨m1, a1, a2, a3, a4, a5, a6, a7, a8, a9, a10⟩ :=
    addStatic_spec sch n h c (other.comps c) (other.comps c).names (hf.names_nodup c) hd
      (cols c) (hf.cols_nodup c) (hf.cols_static c)
  have hse : ∀ e ∈ (other.comps c).dyn, e.2.index = m1.snaps ∧ e.2.cols.Nodup ∧
      ∀ y ∈ e.2.cols, y ∈ (m1.comps c).names := by
    intro e he
    have hget := Dict.get?_of_mem (hf.dyn_keys c) (show (e.1, e.2) ∈ (other.comps c).dyn from he)
    obtain ⟨t1, t2, t3⟩ := hf.table c e.1 e.2 hget
    refine ⟨by rw [t1, a3, hsn], t2, ?_⟩
    intro y hy
    rw [a7]; exact List.mem_append.2 (Or.inr (t3 y hy))
  have hcolsub : ∀ e ∈ (other.comps c).dyn, ∀ y ∈ e.2.cols, y ∈ (other.comps c).names := by
    intro e he
    have hget := Dict.get?_of_mem (hf.dyn_keys c) (show (e.1, e.2) ∈ (other.comps c).dyn from he)
    exact (hf.table c e.1 e.2 hget).2.2
  let m := importAll sch m1 c false (other.comps c).dyn
  have hsvalm : ∀ x, (m.comps c).sval x = (m1.comps c).sval x := by
    intro x; rw [(importAll_names _ _ _ _ _ _).2]
  refine ⟨m, ?_, importAll_wf sch m1 c false _ a2 hse, ?_, ?_, ?_, ?_, ?_, ?_, ?_⟩
  · simp only [mergeClass, a1]; rfl
  · rw [importAll_snaps, a3]
  · rw [(importAll_w _ _ _ _ _).1, a4]
  · rw [(importAll_w _ _ _ _ _).2, a5]
  · intro c' hc'; rw [importAll_ne _ _ _ _ hc', a6 c' hc']
  · rw [(importAll_names _ _ _ _ _ _).1, a7]
  · intro x hx
    have hxo : x ∉ (other.comps c).names := fun h' => hd x h' hx
    refine ⟨by rw [hsvalm, a9 x hxo], ?_⟩
    intro k s
    rw [importAll_effective_other sch hg m1 a2 c false (other.comps c).dyn hse x
      (fun e he h' => hxo (hcolsub e he x h')) (Or.inl rfl) k s]
    unfold effective
    rw [a8, a9 x hxo]
  · intro x hx
    have hxn : x ∉ (n.comps c).names := hd x hx
    have hsv : ∀ k ∈ cols c, (m1.comps c).sval x k = (other.comps c).sval x k := by
      intro k hk
      rw [a10 x hx k]
      simp only [hf.cols_static c k hk, Bool.false_eq_true, if_false, hk, if_true]
      cases hv : (other.comps c).sval x k with
      | some v => rfl
      | none => simp only [Option.none_or]; exact hf.clean c k hk x hx hv
    refine ⟨fun k hk => ?_, ?_⟩
    · rw [hsvalm]
      by_cases hkc : k ∈ cols c
      · exact hsv k hkc
      · rw [a10 x hx k, hf.rest c k hkc hk x hx]
        simp [hk, hkc]
    intro k hk s hs
    have hbase : (if sch.seriesOnly c k then sch.dflt c k else (m1.comps c).sval x k) =
        (if sch.seriesOnly c k then sch.dflt c k else (other.comps c).sval x k) := by
      by_cases hkc : k ∈ cols c
      · rw [hsv k hkc]
      · by_cases hso : sch.seriesOnly c k = true
        · simp [hso]
        · have hso' : sch.seriesOnly c k = false := by simpa using hso
          simp only [hso', Bool.false_eq_true, if_false]
          rw [a10 x hx k, hf.rest c k hkc hso' x hx]
          simp [hso', hkc]
    have hnocol : ∀ g, Dict.get? (n.comps c).dyn k = some g → x ∉ g.cols :=
      fun g hg' hxg => hxn ((h.table c k g hg').2.2 x hxg)
    -- what is read right after the static import
    have hm1 : effective sch m1 c k s x =
        (if sch.seriesOnly c k then sch.dflt c k else (other.comps c).sval x k) := by
      unfold effective
      rw [a8, hbase]
      cases hgn : Dict.get? (n.comps c).dyn k with
      | none => rfl
      | some g => simp [hnocol g hgn]
    by_cases hkk : k ∈ (other.comps c).dyn.map (·.1)
    · obtain ⟨f, hfo⟩ := Option.isSome_iff_exists.1 ((Dict.mem_keys_iff (other.comps c).dyn k).1 hkk)
      have hmem := Dict.mem_of_get? hfo
      obtain ⟨t1, t2, t3⟩ := hf.table c k f hfo
      have hidx : f.index = m1.snaps := by rw [t1, a3, hsn]
      have heff : effective sch m c k s x =
          effective sch (importSeries sch m1 c k f false) c k s x := by
        unfold effective
        rw [importAll_get?_mem _ _ _ _ _ (hf.dyn_keys c) k f hmem, (importAll_names _ _ _ _ _ _).2,
          importSeries_sval]
      rw [heff]
      by_cases hxf : x ∈ f.cols
      · have hother : effective sch other c k s x = f.val s x := by
          unfold effective; rw [hfo]; simp [hxf]
        rw [hother]
        have hcolx : x ∈ (seriesCols (m1.comps c) k f false).cols := by
          unfold seriesCols
          simp only [Bool.false_eq_true, if_false]
          rw [a8]
          split
          · rename_i g hg'
            rw [Frame.dropCols, List.mem_filter]
            exact ⟨hxf, by simpa using hnocol g hg'⟩
          · exact hxf
        unfold effective importSeries
        simp only
        cases hv : sch.vary? c k with
        | none =>
          have hnone : Dict.get? (n.comps c).dyn k = none := by
            rcases hk with hk | hk | hk
            · simp [hv] at hk
            · exact hk
            · simp [hfo] at hk
          have hcont : Dict.contains (m1.comps c).dyn k = false := by
            simp [Dict.contains, a8, hnone]
          simp only [hcont, Bool.not_false, Bool.or_true, if_true, setComp_self, Dict.get?_set_self,
            hcolx, seriesCols_val]
        | some a' =>
          have hm := List.mem_of_find?_eq_some hv
          have hpp := List.find?_some hv
          simp only [decide_eq_true_eq] at hpp
          have := h.keys c a' hm hpp.2
          rw [hpp.1] at this
          obtain ⟨cur, hcur⟩ := Option.isSome_iff_exists.1 this
          have hs1 : s ∈ m1.snaps := by rw [a3]; exact hs
          simp only [a8, hcur, setComp_self, Dict.get?_set_self]
          rw [alignRows_eq _ _ _ ((seriesCols_index _ _ _ _).trans hidx)]
          unfold writeSeries Frame.assign
          simp only [hs1, hcolx, and_self, if_true, seriesCols_val]
          split
          · simp [Frame.reindexCols, mem_unionNames, hcolx]
          · simp [Frame.reindexCols, mem_unionNames, hcolx]
      · have hother : effective sch other c k s x =
            (if sch.seriesOnly c k then sch.dflt c k else (other.comps c).sval x k) := by
          unfold effective; rw [hfo]; simp [hxf]
        rw [hother, ← hm1]
        exact importSeries_effective_other sch hg m1 c k f false hidx x
          (fun h' => hxf (seriesCols_sub _ _ _ _ x h'))
          (fun k f hf => (a2.table c k f hf).2.2) (Or.inl rfl) k s
    · have hnone : Dict.get? (other.comps c).dyn k = none := by
        cases hh : Dict.get? (other.comps c).dyn k with
        | none => rfl
        | some _ =>
          exact absurd ((Dict.mem_keys_iff (other.comps c).dyn k).2 (by simp [hh])) hkk
      have hother : effective sch other c k s x =
          (if sch.seriesOnly c k then sch.dflt c k else (other.comps c).sval x k) := by
        unfold effective; rw [hnone]
      rw [hother, ← hm1]
      unfold effective
      rw [importAll_get?_not_mem _ _ _ _ _ _ hkk, (importAll_names _ _ _ _ _ _).2]

theorem mergeLoop_spec (sch : Schema V) (hg : sch.Good) (cols : Cls → List Attr)
    (n other : Network V) (h : WF sch n) (hf : Source sch cols other)
    (hsn : n.snaps = other.snaps) (cs : List Cls) (hcs : cs.Nodup)
    (hd : ∀ c ∈ cs, ∀ x ∈ (other.comps c).names, x ∉ (n.comps c).names) :
    ∃ m, mergeLoop sch cols other cs n = .ok m ∧ WF sch m ∧
      m.snaps = n.snaps ∧ m.w = n.w ∧ m.pw = n.pw ∧
      (∀ c, c ∉ cs → m.comps c = n.comps c) ∧
      ∀ c ∈ cs,
        (m.comps c).names = (n.comps c).names ++ (other.comps c).names ∧
        (∀ x ∈ (n.comps c).names, (m.comps c).sval x = (n.comps c).sval x ∧
          ∀ k s, effective sch m c k s x = effective sch n c k s x) ∧
        ∀ x ∈ (other.comps c).names,
          (∀ k, sch.seriesOnly c k = false → (m.comps c).sval x k = (other.comps c).sval x k) ∧
          ∀ k, ((sch.vary? c k).isSome ∨ Dict.get? (n.comps c).dyn k = none ∨
              Dict.get? (other.comps c).dyn k = none) →
            ∀ s ∈ n.snaps, effective sch m c k s x = effective sch other c k s x := by
  induction cs generalizing n with
  | nil => exact ⟨n, rfl, h, rfl, rfl, rfl, fun _ _ => rfl, by simp⟩
  | cons c cs ih =>
    simp only [List.nodup_cons] at hcs
    obtain ⟨m1, a1, a2, a3, a4, a5, a6, a7, a8, a9⟩ :=
      mergeClass_spec sch hg cols n other h hf hsn c (hd c (by simp))
    obtain ⟨m, b1, b2, b3, b4, b5, b6, b7⟩ := ih m1 a2 (a3.trans hsn) hcs.2 (by
      intro c' hc' x hx
      have hne : c' ≠ c := fun h' => hcs.1 (h' ▸ hc')
      rw [a6 c' hne]; exact hd c' (by simp [hc']) x hx)
    have heff : ∀ (p q : Network V) c k s x, p.comps c = q.comps c →
        effective sch p c k s x = effective sch q c k s x := by
      intro p q c k s x hpq; unfold effective; rw [hpq]
    refine ⟨m, ?_, b2, b3.trans a3, b4.trans a4, b5.trans a5, ?_, ?_⟩
    · simp only [mergeLoop, a1, b1]
    · intro c' hc'
      simp only [List.mem_cons, not_or] at hc'
      rw [b6 c' hc'.2, a6 c' hc'.1]
    · intro c' hc'
      rcases List.mem_cons.1 hc' with rfl | hc'
      · have hmc := b6 c' hcs.1
        refine ⟨by rw [hmc, a7], ?_, ?_⟩
        · intro x hx
          obtain ⟨e1, e2⟩ := a8 x hx
          exact ⟨by rw [hmc, e1], fun k s => by rw [heff m m1 c' k s x hmc, e2]⟩
        · intro x hx
          obtain ⟨e1, e2⟩ := a9 x hx
          exact ⟨fun k hk => by rw [hmc]; exact e1 k hk,
            fun k hk s hs => by rw [heff m m1 c' k s x hmc]; exact e2 k hk s hs⟩
      · have hne : c' ≠ c := fun h' => hcs.1 (h' ▸ hc')
        obtain ⟨c1, c2, c3⟩ := b7 c' hc'
        have hmc := a6 c' hne
        refine ⟨by rw [c1, hmc], ?_, ?_⟩
        · intro x hx
          obtain ⟨e1, e2⟩ := c2 x (by rw [hmc]; exact hx)
          exact ⟨by rw [e1, hmc], fun k s => by rw [e2, heff m1 n c' k s x hmc]⟩
        · intro x hx
          obtain ⟨e1, e2⟩ := c3 x hx
          refine ⟨e1, fun k hk s hs => e2 k ?_ s (by rw [a3]; exact hs)⟩
          rw [hmc]; exact hk

/-- The weightings of both networks have the same labels and values. -/
def EqualWeights (n m : Network V) : Prop :=
  n.w.index = m.w.index ∧ ∀ s ∈ n.w.index, n.w.val s "objective" = m.w.val s "objective" ∧
    n.w.val s "stores" = m.w.val s "stores" ∧ n.w.val s "generators" = m.w.val s "generators"

theorem sameWeights_iff [DecidableEq V] (n m : Network V) : sameWeights n m = true ↔ EqualWeights n m := by
  simp [sameWeights, weightCols, EqualWeights]

/-- **C14 (partial: `Bus` not in the skip list; custom series attributes that both
networks have are excluded).**  `n.merge(m, components_to_skip)` raises, without changing
anything, exactly when some class that is merged has a common name, or the snapshots or
weightings differ.  Otherwise every class that is not skipped has the components of both
networks, each with its own static values and the same value read for every attribute at
every snapshot, and skipped classes are as in `n`.  Missing: `Bus` in the skip list
(`merge_skip_bus_ignored`) and custom series present on both sides
(`merge_loses_custom_series`), where the claim is false. -/
theorem merge_union_partial [DecidableEq V] (sch : Schema V) (hg : sch.Good) (lay : Layout)
    (n other : Network V) (h : WF sch n) (ho : WF sch other) (hf : Fits sch lay.cols other)
    (hcls : lay.classes.Nodup) (hbus : "Bus" ∈ lay.classes) (skip : List Cls)
    (hskip : "Bus" ∉ skip) :
    ((∃ e, merge sch lay n other skip = .error e) ↔
      (∃ c ∈ lay.classes, c ∉ skip ∧ ∃ x ∈ (other.comps c).names, x ∈ (n.comps c).names) ∨
      n.snaps ≠ other.snaps ∨ ¬ EqualWeights n other) ∧
    ∀ m, merge sch lay n other skip = .ok m →
      m.snaps = n.snaps ∧ m.w = n.w ∧ m.pw = n.pw ∧
      (∀ c ∈ skip, m.comps c = n.comps c) ∧
      ∀ c ∈ lay.classes, c ∉ skip →
        (m.comps c).names = (n.comps c).names ++ (other.comps c).names ∧
        (∀ x ∈ (n.comps c).names, (m.comps c).sval x = (n.comps c).sval x ∧
          ∀ k s, effective sch m c k s x = effective sch n c k s x) ∧
        ∀ x ∈ (other.comps c).names,
          (∀ k ∈ lay.cols c, (m.comps c).sval x k = (other.comps c).sval x k) ∧
          ∀ k, ((sch.vary? c k).isSome ∨ Dict.get? (n.comps c).dyn k = none ∨
              Dict.get? (other.comps c).dyn k = none) →
            ∀ s ∈ n.snaps, effective sch m c k s x = effective sch other c k s x := by
  have hmem : ∀ c, c ∈ mergeClasses lay skip ↔ c ∈ lay.classes ∧ c ∉ skip := by
    intro c
    simp only [mergeClasses, List.mem_cons, List.mem_filter, decide_eq_true_eq]
    constructor
    · rintro (rfl | h')
      · exact ⟨hbus, hskip⟩
      · exact ⟨h'.1, h'.2.1⟩
    · intro ⟨h1, h2⟩
      by_cases hc : c = "Bus"
      · exact Or.inl hc
      · exact Or.inr ⟨h1, h2, hc⟩
  have hnd : (mergeClasses lay skip).Nodup := by
    unfold mergeClasses
    rw [List.nodup_cons]
    exact ⟨by simp, hcls.filter _⟩
  have hover : (mergeClasses lay skip).any (fun c => (other.comps c).names.any
      (fun x => decide (x ∈ (n.comps c).names))) = true ↔
      ∃ c ∈ lay.classes, c ∉ skip ∧ ∃ x ∈ (other.comps c).names, x ∈ (n.comps c).names := by
    simp only [List.any_eq_true, decide_eq_true_eq, hmem]
    constructor
    · rintro ⟨c, ⟨h1, h2⟩, h3⟩; exact ⟨c, h1, h2, h3⟩
    · rintro ⟨c, h1, h2, h3⟩; exact ⟨c, ⟨h1, h2⟩, h3⟩
  unfold merge
  simp only
  by_cases h1 : (mergeClasses lay skip).any (fun c => (other.comps c).names.any
      (fun x => decide (x ∈ (n.comps c).names))) = true
  · simp only [h1, if_true]
    exact ⟨⟨fun _ => Or.inl (hover.1 h1), fun _ => ⟨_, rfl⟩⟩, fun m hm => by simp at hm⟩
  · simp only [h1, Bool.false_eq_true, if_false]
    by_cases h2 : n.snaps = other.snaps
    · simp only [h2, ne_eq, not_true_eq_false, if_false]
      rw [← sameWeights_iff, Bool.not_eq_true]
      by_cases h3 : sameWeights n other = true
      · simp only [h3, Bool.not_true, Bool.false_eq_true, if_false]
        obtain ⟨m, a1, a2, a3, a4, a5, a6, a7⟩ := mergeLoop_spec sch hg lay.cols n other h (hf.source ho) h2
          (mergeClasses lay skip) hnd (by
            intro c hc x hx hx'
            obtain ⟨hc1, hc2⟩ := (hmem c).1 hc
            exact h1 (hover.2 ⟨c, hc1, hc2, x, hx, hx'⟩))
        rw [a1]
        constructor
        · constructor
          · rintro ⟨e, he⟩; simp at he
          · rintro (h' | h' | h')
            · exact absurd (hover.2 h') h1
            · exact h'.elim
            · simp at h'
        · intro m' hm'
          simp only [Except.ok.injEq] at hm'
          subst hm'
          refine ⟨h2 ▸ a3, a4, a5, ?_, ?_⟩
          · intro c hc
            exact a6 c (fun h' => ((hmem c).1 h').2 hc)
          · intro c hc hcs
            have := a7 c ((hmem c).2 ⟨hc, hcs⟩)
            rw [h2] at this
            refine ⟨this.1, this.2.1, fun x hx => ⟨fun k hk => ?_, (this.2.2 x hx).2⟩⟩
            exact (this.2.2 x hx).1 k (hf.cols_static c k hk)
      · have h3' : sameWeights n other = false := by simpa using h3
        simp only [h3', Bool.not_false, if_true]
        exact ⟨⟨fun _ => Or.inr (Or.inr trivial), fun _ => ⟨_, rfl⟩⟩, fun m hm => by simp at hm⟩
    · simp only [ne_eq, h2, not_false_eq_true, if_true]
      exact ⟨⟨fun _ => Or.inr (Or.inl trivial), fun _ => ⟨_, rfl⟩⟩, fun m hm => by simp at hm⟩

/-! ### Examples and witnesses -/

/-- A second network with one bus and one generator. -/
def exOther (bus gen : String) : Network Val where
  snaps := [.flat "0", .flat "1"]
  w := { index := [.flat "0", .flat "1"], val := fun _ _ => some (.num 1) }
  pw := { index := [], val := fun _ _ => none }
  comps := fun c =>
    if c = "Bus" then
      { names := [bus]
        sval := fun _ k => if k = "carrier" then some (.str "AC") else none
        dyn := [] }
    else if c = "Generator" then
      { names := [gen]
        sval := fun _ k => if k = "bus" then some (.str bus)
          else if k = "p_max_pu" then some (.num 1) else none
        dyn := [("p_max_pu", emptyFrame [.flat "0", .flat "1"]),
                ("p", { index := [.flat "0", .flat "1"], cols := [gen],
                        val := fun _ _ => some (.num 5) })] }
    else { names := [], sval := fun _ _ => none, dyn := [] }

example : exSch.Good ∧ "Bus" ∈ exKinds.classes ∧ exKinds.classes.Nodup := by
  refine ⟨?_, by decide, by decide⟩
  intro c; simp only [exSch]; repeat' split
  all_goals simp

/-- Non-vacuity of C14. -/
example : holds (merge exSch exKinds.toLayout exNet (exOther "b4" "g4") []) (fun m =>
    (m.comps "Bus").names = ["b1", "b2", "b3", "b4"] ∧
    (m.comps "Generator").names = ["g1", "g2", "g4"] ∧
    effective exSch m "Generator" "p" (.flat "1") "g4" = some (.num 5) ∧
    effective exSch m "Generator" "p" (.flat "1") "g1" = some (.num 0) ∧
    effective exSch m "Generator" "p_max_pu" (.flat "1") "g2" = some (.num 3)) := by
  decide +kernel

/-- **C14 fails for a skip list containing `Bus`** (finding, `io.py` 1631-1632): buses are
iterated anyway, so networks that share their buses cannot be merged with
`components_to_skip=["Bus"]`, and networks that do not are merged with their buses. -/
theorem merge_skip_bus_ignored :
    merge exSch exKinds.toLayout exNet (exOther "b1" "g4") ["Bus"] = .error .valueError ∧
    ∃ m, merge exSch exKinds.toLayout exNet (exOther "b4" "g4") ["Bus"] = .ok m ∧
      (m.comps "Bus").names ≠ (exNet.comps "Bus").names := by
  refine ⟨eq_error_of_raises (by decide +kernel), ?_⟩
  have h : holds (merge exSch exKinds.toLayout exNet (exOther "b4" "g4") ["Bus"]) (fun m =>
      (m.comps "Bus").names ≠ (exNet.comps "Bus").names) = true := by decide +kernel
  cases hr : merge exSch exKinds.toLayout exNet (exOther "b4" "g4") ["Bus"] with
  | error e => rw [hr] at h; simp [holds] at h
  | ok m => rw [hr] at h; exact ⟨m, rfl, by simpa [holds] using h⟩

/-- A network with a custom series `foo` for its one bus. -/
def exFoo (bus : String) : Network Val where
  snaps := [.flat "0"]
  w := { index := [.flat "0"], val := fun _ _ => some (.num 1) }
  pw := { index := [], val := fun _ _ => none }
  comps := fun c =>
    if c = "Bus" then
      { names := [bus]
        sval := fun _ k => if k = "carrier" then some (.str "AC") else none
        dyn := [("foo", { index := [.flat "0"], cols := [bus], val := fun _ _ => some (.num 5) })] }
    else { names := [], sval := fun _ _ => none, dyn := [] }

/-- **C14 fails for custom series that both networks have** (finding): the series of the
merged-in component is lost. -/
theorem merge_loses_custom_series :
    ∃ m, merge exSch exKinds.toLayout (exFoo "x") (exFoo "y") [] = .ok m ∧
      effective exSch (exFoo "y") "Bus" "foo" (.flat "0") "y" = some (.num 5) ∧
      effective exSch m "Bus" "foo" (.flat "0") "y" = none := by
  have h : holds (merge exSch exKinds.toLayout (exFoo "x") (exFoo "y") []) (fun m =>
      effective exSch (exFoo "y") "Bus" "foo" (.flat "0") "y" = some (.num 5) ∧
      effective exSch m "Bus" "foo" (.flat "0") "y" = none) = true := by decide +kernel
  cases hr : merge exSch exKinds.toLayout (exFoo "x") (exFoo "y") [] with
  | error e => rw [hr] at h; simp [holds] at h
  | ok m => rw [hr] at h; exact ⟨m, rfl, by simpa [holds] using h⟩

end Verif.Network
