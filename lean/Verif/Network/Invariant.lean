import Verif.Network.Lemmas

/-! # The store invariant and its preservation (helper lemmas) -/

namespace Verif.Network

variable {V : Type}

/-- All labels are single-index labels, or all are (period, timestep) pairs. -/
def Homogeneous (l : List Snap) : Prop :=
  (∀ s ∈ l, s.isMulti = false) ∨ (∀ s ∈ l, s.isMulti = true)

/-- Well-formed network: what users rely on when they combine tables. -/
structure WF (sch : Schema V) (n : Network V) : Prop where
  names_nodup : ∀ c, (n.comps c).names.Nodup
  table : ∀ c k f, Dict.get? (n.comps c).dyn k = some f →
    f.index = n.snaps ∧ f.cols.Nodup ∧ ∀ x ∈ f.cols, x ∈ (n.comps c).names
  w_index : n.w.index = n.snaps
  keys : ∀ c, ∀ a ∈ sch.attrs c, a.varying = true → (Dict.get? (n.comps c).dyn a.name).isSome
  snaps_nodup : n.snaps.Nodup
  snaps_hom : Homogeneous n.snaps
  snaps_ne : n.snaps ≠ []

theorem WF.setComp {sch : Schema V} {n : Network V} (h : WF sch n) (c : Cls) (x : Comp V)
    (h1 : x.names.Nodup)
    (h2 : ∀ k f, Dict.get? x.dyn k = some f →
      f.index = n.snaps ∧ f.cols.Nodup ∧ ∀ y ∈ f.cols, y ∈ x.names)
    (h3 : ∀ a ∈ sch.attrs c, a.varying = true → (Dict.get? x.dyn a.name).isSome) :
    WF sch (n.setComp c x) := by
  refine ⟨?_, ?_, h.w_index, ?_, h.snaps_nodup, h.snaps_hom, h.snaps_ne⟩
  · intro c'
    by_cases hc : c' = c
    · subst hc; simpa using h1
    · rw [setComp_ne n x hc]; exact h.names_nodup c'
  · intro c' k f hf
    by_cases hc : c' = c
    · subst hc; rw [setComp_self] at hf ⊢; exact h2 k f hf
    · rw [setComp_ne n x hc] at hf ⊢; exact h.table c' k f hf
  · intro c' a ha hv
    by_cases hc : c' = c
    · subst hc; rw [setComp_self]; exact h3 a ha hv
    · rw [setComp_ne n x hc]; exact h.keys c' a ha hv

/-- The names after `importComponents`. -/
def namesAfter (old names : List Name) (ow : Bool) : List Name :=
  (if ow then old.filter (fun x => x ∉ old.filter (fun x => x ∈ names)) else old) ++
  (if ow then names else names.filter (fun x => x ∉ old.filter (fun x => x ∈ names)))

theorem mem_namesAfter (old names : List Name) (ow : Bool) (x : Name) :
    x ∈ namesAfter old names ow ↔ x ∈ old ∨ x ∈ names := by
  unfold namesAfter
  cases ow
  · simp only [Bool.false_eq_true, if_false, List.mem_append, List.mem_filter, decide_eq_true_eq]
    constructor
    · rintro (h | h)
      · exact Or.inl h
      · exact Or.inr h.1
    · rintro (h | h)
      · exact Or.inl h
      · by_cases h' : x ∈ old
        · exact Or.inl h'
        · exact Or.inr ⟨h, fun h2 => h' h2.1⟩
  · simp only [if_true, List.mem_append, List.mem_filter, decide_eq_true_eq]
    constructor
    · rintro (h | h)
      · exact Or.inl h.1
      · exact Or.inr h
    · rintro (h | h)
      · by_cases h' : x ∈ names
        · exact Or.inr h'
        · exact Or.inl ⟨h, fun h2 => h' h2.2⟩
      · exact Or.inr h

theorem nodup_namesAfter {old names : List Name} (h1 : old.Nodup) (h2 : names.Nodup)
    (ow : Bool) : (namesAfter old names ow).Nodup := by
  unfold namesAfter
  cases ow
  · simp only [Bool.false_eq_true, if_false]
    refine List.nodup_append.2 ⟨h1, h2.filter _, ?_⟩
    intro a ha b hb hab
    subst hab
    simp only [List.mem_filter, decide_eq_true_eq] at hb
    exact hb.2 ⟨ha, hb.1⟩
  · simp only [if_true]
    refine List.nodup_append.2 ⟨h1.filter _, h2, ?_⟩
    intro a ha b hb hab
    subst hab
    simp only [List.mem_filter, decide_eq_true_eq] at ha
    exact ha.2 ⟨ha.1, hb⟩

theorem importComponents_names (sch : Schema V) (n : Network V) (c : Cls)
    (names : List Name) (static : StaticArgs V) (ow : Bool) :
    ((importComponents sch n c names static ow).comps c).names =
      namesAfter (n.comps c).names names ow := by
  simp [importComponents, namesAfter]

theorem importComponents_ne (sch : Schema V) (n : Network V) (c c' : Cls) (hc : c' ≠ c)
    (names : List Name) (static : StaticArgs V) (ow : Bool) :
    (importComponents sch n c names static ow).comps c' = n.comps c' := by
  simp only [importComponents]; exact setComp_ne n _ hc

@[simp] theorem importComponents_snaps (sch : Schema V) (n : Network V) (c : Cls)
    (names : List Name) (static : StaticArgs V) (ow : Bool) :
    (importComponents sch n c names static ow).snaps = n.snaps := rfl

@[simp] theorem importComponents_w (sch : Schema V) (n : Network V) (c : Cls)
    (names : List Name) (static : StaticArgs V) (ow : Bool) :
    (importComponents sch n c names static ow).w = n.w := rfl

@[simp] theorem importComponents_pw (sch : Schema V) (n : Network V) (c : Cls)
    (names : List Name) (static : StaticArgs V) (ow : Bool) :
    (importComponents sch n c names static ow).pw = n.pw := rfl

theorem importComponents_get? (sch : Schema V) (n : Network V) (c : Cls)
    (names : List Name) (static : StaticArgs V) (ow : Bool)
    (hks : (Dict.keys static).Nodup) (k : Attr) :
    Dict.get? ((importComponents sch n c names static ow).comps c).dyn k =
      if k ∈ Dict.keys static ∧ sch.seriesOnly c k = true then
        (Dict.get? (n.comps c).dyn k).map (fun f =>
          (f.reindexCols (namesAfter (n.comps c).names names ow) (sch.dflt c k)).assign n.snaps
            (if ow then names
              else names.filter (fun x => x ∉ (n.comps c).names.filter (fun x => x ∈ names)))
            (fun _ x => cleaned sch c static x k))
      else Dict.get? (n.comps c).dyn k := by
  simp only [importComponents, setComp_self]
  rw [fillOutputs_get? _ _ _ _ _ _ _ hks]
  rfl

theorem importComponents_wf (sch : Schema V) (n : Network V) (c : Cls) (names : List Name)
    (static : StaticArgs V) (ow : Bool) (h : WF sch n) (hn : names.Nodup)
    (hks : (Dict.keys static).Nodup) :
    WF sch (importComponents sch n c names static ow) := by
  have hnames := importComponents_names sch n c names static ow
  have hget := importComponents_get? sch n c names static ow hks
  have key : WF sch (n.setComp c ((importComponents sch n c names static ow).comps c)) := by
    refine h.setComp c _ ?_ ?_ ?_
    · rw [hnames]; exact nodup_namesAfter (h.names_nodup c) hn ow
    · intro k f hf
      rw [hget] at hf
      rw [hnames]
      split at hf
      · rcases hg : Dict.get? (n.comps c).dyn k with _ | g
        · simp [hg] at hf
        · simp only [hg, Option.map_some, Option.some.injEq] at hf
          subst hf
          refine ⟨(h.table c k g hg).1, nodup_namesAfter (h.names_nodup c) hn ow, fun y hy => hy⟩
      · obtain ⟨t1, t2, t3⟩ := h.table c k f hf
        exact ⟨t1, t2, fun y hy => (mem_namesAfter _ _ _ _).2 (Or.inl (t3 y hy))⟩
    · intro a ha hv
      rw [hget]
      have := h.keys c a ha hv
      split
      · simpa using this
      · exact this
  have heq : n.setComp c ((importComponents sch n c names static ow).comps c) =
      importComponents sch n c names static ow := by
    simp only [importComponents, setComp_self]
  rw [← heq]; exact key

/-! ## `importSeries` -/

theorem seriesCols_index (x : Comp V) (k : Attr) (df : Frame V) (ow : Bool) :
    (seriesCols x k df ow).index = df.index := by
  unfold seriesCols; split
  · rfl
  · split <;> rfl

theorem seriesCols_val (x : Comp V) (k : Attr) (df : Frame V) (ow : Bool) :
    (seriesCols x k df ow).val = df.val := by
  unfold seriesCols; split
  · rfl
  · split <;> rfl

theorem seriesCols_sub (x : Comp V) (k : Attr) (df : Frame V) (ow : Bool) :
    ∀ y ∈ (seriesCols x k df ow).cols, y ∈ df.cols := by
  unfold seriesCols; split
  · exact fun y hy => hy
  · split
    · intro y hy; exact (List.mem_filter.1 hy).1
    · exact fun y hy => hy

theorem seriesCols_nodup (x : Comp V) (k : Attr) (df : Frame V) (ow : Bool)
    (h : df.cols.Nodup) : (seriesCols x k df ow).cols.Nodup := by
  unfold seriesCols; split
  · exact h
  · split
    · exact h.filter _
    · exact h

theorem alignRows_eq (snaps : List Snap) (d : Option V) (df : Frame V)
    (h : df.index = snaps) : alignRows snaps d df = df := by
  unfold alignRows; simp [h]

@[simp] theorem importSeries_snaps (sch : Schema V) (n : Network V) (c : Cls) (k : Attr)
    (df : Frame V) (ow : Bool) : (importSeries sch n c k df ow).snaps = n.snaps := by
  unfold importSeries; simp only
  repeat' split
  all_goals rfl

@[simp] theorem importSeries_w (sch : Schema V) (n : Network V) (c : Cls) (k : Attr)
    (df : Frame V) (ow : Bool) : (importSeries sch n c k df ow).w = n.w := by
  unfold importSeries; simp only
  repeat' split
  all_goals rfl

@[simp] theorem importSeries_pw (sch : Schema V) (n : Network V) (c : Cls) (k : Attr)
    (df : Frame V) (ow : Bool) : (importSeries sch n c k df ow).pw = n.pw := by
  unfold importSeries; simp only
  repeat' split
  all_goals rfl

theorem importSeries_names (sch : Schema V) (n : Network V) (c c' : Cls) (k : Attr)
    (df : Frame V) (ow : Bool) :
    ((importSeries sch n c k df ow).comps c').names = (n.comps c').names := by
  unfold importSeries; simp only
  by_cases hc : c' = c
  · subst hc
    repeat' split
    all_goals simp
  · repeat' split
    all_goals simp [setComp_ne n _ hc]

theorem importSeries_sval (sch : Schema V) (n : Network V) (c c' : Cls) (k : Attr)
    (df : Frame V) (ow : Bool) :
    ((importSeries sch n c k df ow).comps c').sval = (n.comps c').sval := by
  unfold importSeries; simp only
  by_cases hc : c' = c
  · subst hc
    repeat' split
    all_goals simp
  · repeat' split
    all_goals simp [setComp_ne n _ hc]

theorem importSeries_ne (sch : Schema V) (n : Network V) (c c' : Cls) (hc : c' ≠ c) (k : Attr)
    (df : Frame V) (ow : Bool) :
    (importSeries sch n c k df ow).comps c' = n.comps c' := by
  unfold importSeries; simp only
  repeat' split
  all_goals simp [setComp_ne n _ hc]

/-- The table of `k` after importing a series of `k` for columns in `df`. -/
theorem importSeries_get?_ne (sch : Schema V) (n : Network V) (c : Cls) (k k' : Attr)
    (hk : k' ≠ k) (df : Frame V) (ow : Bool) :
    Dict.get? ((importSeries sch n c k df ow).comps c).dyn k' =
      Dict.get? (n.comps c).dyn k' := by
  unfold importSeries; simp only
  repeat' split
  all_goals simp [Dict.get?_set_ne _ _ (Ne.symm hk)]

theorem importSeries_wf (sch : Schema V) (n : Network V) (c : Cls) (k : Attr)
    (df : Frame V) (ow : Bool) (h : WF sch n) (hidx : df.index = n.snaps)
    (hcols : df.cols.Nodup) (hsub : ∀ y ∈ df.cols, y ∈ (n.comps c).names) :
    WF sch (importSeries sch n c k df ow) := by
  unfold importSeries; simp only
  have hkeys : ∀ (g : Frame V) (a : AttrSpec V), a ∈ sch.attrs c → a.varying = true →
      (Dict.get? (Dict.set (n.comps c).dyn k g) a.name).isSome := by
    intro g a ha hv
    rw [Dict.get?_set]; split
    · rfl
    · exact h.keys c a ha hv
  have htab : ∀ g : Frame V,
      (g.index = n.snaps ∧ g.cols.Nodup ∧ ∀ x ∈ g.cols, x ∈ (n.comps c).names) →
      ∀ k' f, Dict.get? (Dict.set (n.comps c).dyn k g) k' = some f →
      f.index = n.snaps ∧ f.cols.Nodup ∧ ∀ x ∈ f.cols, x ∈ (n.comps c).names := by
    intro g hg k' f hf
    rw [Dict.get?_set] at hf
    split at hf
    · cases hf; exact hg
    · exact h.table c k' f hf
  have hc1 := seriesCols_nodup (n.comps c) k df ow hcols
  have hc2 := seriesCols_sub (n.comps c) k df ow
  split
  · split
    · refine h.setComp c _ (h.names_nodup c) (htab _ ⟨?_, hc1, ?_⟩) (hkeys _)
      · rw [seriesCols_index]; exact hidx
      · exact fun x hx => hsub x (hc2 x hx)
    · exact h
  · split
    · exact h
    · rename_i a _ _ cur hcur
      obtain ⟨t1, t2, t3⟩ := h.table c k cur hcur
      rw [alignRows_eq _ _ _ ((seriesCols_index _ _ _ _).trans hidx)]
      unfold writeSeries
      refine h.setComp c _ (h.names_nodup c) (htab _ ⟨?_, ?_, ?_⟩) (hkeys _)
      · simp only [Frame.assign]; split <;> exact t1
      · simp only [Frame.assign]; split
        · exact nodup_unionNames hc1 (h.names_nodup c)
        · exact nodup_unionNames hc1 t2
      · simp only [Frame.assign]; split
        · intro x hx
          rcases (mem_unionNames _ _ _).1 hx with hx | hx
          · exact hsub x (hc2 x hx)
          · exact hx
        · intro x hx
          rcases (mem_unionNames _ _ _).1 hx with hx | hx
          · exact hsub x (hc2 x hx)
          · exact t3 x hx

/-! ## Processing of keyword arguments -/

theorem processArg_series (snaps : List Snap) (names : List Name) (suffix : String)
    (single : Bool) (a : Arg V) (f : Frame V)
    (h : processArg snaps names suffix single a = .ok (.series f)) :
    f.index = snaps ∧ f.cols = names := by
  unfold processArg at h
  repeat' split at h
  all_goals first
    | (simp only [Except.ok.injEq, Proc.series.injEq] at h; subst h; exact ⟨rfl, rfl⟩)
    | (simp at h)

theorem processArgs_series (snaps : List Snap) (names : List Name) (suffix : String)
    (single : Bool) (kw : List (Attr × Arg V)) (st : StaticArgs V)
    (se : List (Attr × Frame V))
    (h : processArgs snaps names suffix single kw = .ok (st, se)) :
    (∀ e ∈ se, e.2.index = snaps ∧ e.2.cols = names) ∧
    (∀ k ∈ Dict.keys st, k ∈ kw.map (·.1)) ∧
    (∀ e ∈ se, e.1 ∈ kw.map (·.1)) ∧
    ((kw.map (·.1)).Nodup → (Dict.keys st).Nodup ∧ (se.map (·.1)).Nodup ∧
      ∀ e ∈ se, e.1 ∉ Dict.keys st) := by
  induction kw generalizing st se with
  | nil =>
    simp only [processArgs, Except.ok.injEq, Prod.mk.injEq] at h
    obtain ⟨rfl, rfl⟩ := h
    simp [Dict.keys]
  | cons e r ih =>
    obtain ⟨k, a⟩ := e
    simp only [processArgs] at h
    cases hp : processArg snaps names suffix single a with
    | error e => simp [hp] at h
    | ok p =>
      simp only [hp] at h
      cases hr : processArgs snaps names suffix single r with
      | error e => simp [hr] at h
      | ok q =>
        obtain ⟨st', se'⟩ := q
        simp only [hr] at h
        obtain ⟨i1, i2, i3, i4⟩ := ih st' se' hr
        cases p with
        | static f =>
          simp only [Except.ok.injEq, Prod.mk.injEq] at h
          obtain ⟨rfl, rfl⟩ := h
          refine ⟨i1, ?_, ?_, ?_⟩
          · intro k' hk'
            simp only [Dict.keys, List.map_cons, List.mem_cons] at hk' ⊢
            rcases hk' with h' | h'
            · exact Or.inl h'
            · exact Or.inr (i2 k' h')
          · intro e he; exact List.mem_cons_of_mem _ (i3 e he)
          · intro hn
            simp only [List.map_cons, List.nodup_cons] at hn
            obtain ⟨j1, j2, j3⟩ := i4 hn.2
            refine ⟨?_, j2, ?_⟩
            · simp only [Dict.keys, List.map_cons, List.nodup_cons]
              exact ⟨fun h' => hn.1 (i2 k h'), j1⟩
            · intro e he
              simp only [Dict.keys, List.map_cons, List.mem_cons, not_or]
              exact ⟨fun h' => hn.1 (h' ▸ i3 e he), j3 e he⟩
        | series f =>
          simp only [Except.ok.injEq, Prod.mk.injEq] at h
          obtain ⟨rfl, rfl⟩ := h
          refine ⟨?_, ?_, ?_, ?_⟩
          · intro e he
            simp only [List.mem_cons] at he
            rcases he with rfl | he
            · exact processArg_series snaps names suffix single a f hp
            · exact i1 e he
          · intro k' hk'; exact List.mem_cons_of_mem _ (i2 k' hk')
          · intro e he
            simp only [List.mem_cons] at he
            rcases he with rfl | he
            · simp
            · exact List.mem_cons_of_mem _ (i3 e he)
          · intro hn
            simp only [List.map_cons, List.nodup_cons] at hn
            obtain ⟨j1, j2, j3⟩ := i4 hn.2
            refine ⟨j1, ?_, ?_⟩
            · simp only [List.map_cons, List.nodup_cons]
              refine ⟨?_, j2⟩
              intro h'
              obtain ⟨e, he, hek⟩ := List.mem_map.1 h'
              exact hn.1 (hek ▸ i3 e he)
            · intro e he
              simp only [List.mem_cons] at he
              rcases he with rfl | he
              · exact fun h' => hn.1 (i2 k h')
              · exact j3 e he

/-! ## Folding series -/

/-- The network after importing all series arguments. -/
def importAll (sch : Schema V) (n : Network V) (c : Cls) (ow : Bool)
    (se : List (Attr × Frame V)) : Network V :=
  se.foldl (fun m kf => importSeries sch m c kf.1 kf.2 ow) n

theorem importAll_snaps (sch : Schema V) (n : Network V) (c : Cls) (ow : Bool)
    (se : List (Attr × Frame V)) : (importAll sch n c ow se).snaps = n.snaps := by
  induction se generalizing n with
  | nil => rfl
  | cons e se ih =>
    simp only [importAll, List.foldl_cons] at *
    rw [ih, importSeries_snaps]

theorem importAll_w (sch : Schema V) (n : Network V) (c : Cls) (ow : Bool)
    (se : List (Attr × Frame V)) : (importAll sch n c ow se).w = n.w ∧
    (importAll sch n c ow se).pw = n.pw := by
  induction se generalizing n with
  | nil => exact ⟨rfl, rfl⟩
  | cons e se ih =>
    simp only [importAll, List.foldl_cons] at *
    rw [(ih _).1, (ih _).2, importSeries_w, importSeries_pw]; exact ⟨rfl, rfl⟩

theorem importAll_names (sch : Schema V) (n : Network V) (c c' : Cls) (ow : Bool)
    (se : List (Attr × Frame V)) :
    ((importAll sch n c ow se).comps c').names = (n.comps c').names ∧
    ((importAll sch n c ow se).comps c').sval = (n.comps c').sval := by
  induction se generalizing n with
  | nil => exact ⟨rfl, rfl⟩
  | cons e se ih =>
    simp only [importAll, List.foldl_cons] at *
    rw [(ih _).1, (ih _).2, importSeries_names, importSeries_sval]; exact ⟨rfl, rfl⟩

theorem importAll_ne (sch : Schema V) (n : Network V) (c c' : Cls) (hc : c' ≠ c) (ow : Bool)
    (se : List (Attr × Frame V)) :
    (importAll sch n c ow se).comps c' = n.comps c' := by
  induction se generalizing n with
  | nil => rfl
  | cons e se ih =>
    simp only [importAll, List.foldl_cons] at *
    rw [ih, importSeries_ne _ _ _ _ hc]

theorem importAll_wf (sch : Schema V) (n : Network V) (c : Cls) (ow : Bool)
    (se : List (Attr × Frame V)) (h : WF sch n)
    (hse : ∀ e ∈ se, e.2.index = n.snaps ∧ e.2.cols.Nodup ∧
      ∀ y ∈ e.2.cols, y ∈ (n.comps c).names) :
    WF sch (importAll sch n c ow se) := by
  induction se generalizing n with
  | nil => exact h
  | cons e se ih =>
    simp only [importAll, List.foldl_cons] at *
    obtain ⟨h1, h2, h3⟩ := hse e (by simp)
    refine ih _ (importSeries_wf sch n c e.1 e.2 ow h h1 h2 h3) ?_
    intro e' he'
    rw [importSeries_snaps, importSeries_names]
    exact hse e' (by simp [he'])

theorem importAll_get?_not_mem (sch : Schema V) (n : Network V) (c : Cls) (ow : Bool)
    (se : List (Attr × Frame V)) (k : Attr) (hk : k ∉ se.map (·.1)) :
    Dict.get? ((importAll sch n c ow se).comps c).dyn k = Dict.get? (n.comps c).dyn k := by
  induction se generalizing n with
  | nil => rfl
  | cons e se ih =>
    simp only [List.map_cons, List.mem_cons, not_or] at hk
    simp only [importAll, List.foldl_cons] at *
    rw [ih _ hk.2, importSeries_get?_ne _ _ _ _ _ hk.1]

/-- With distinct attribute names, the table of `k` is the one obtained by importing
only the series of `k`. -/
theorem importAll_get?_mem (sch : Schema V) (n : Network V) (c : Cls) (ow : Bool)
    (se : List (Attr × Frame V)) (hn : (se.map (·.1)).Nodup) (k : Attr) (f : Frame V)
    (hk : (k, f) ∈ se) :
    Dict.get? ((importAll sch n c ow se).comps c).dyn k =
      Dict.get? ((importSeries sch n c k f ow).comps c).dyn k := by
  have hcongr : ∀ (m m' : Network V), (m.comps c).names = (m'.comps c).names →
      m.snaps = m'.snaps →
      Dict.get? (m.comps c).dyn k = Dict.get? (m'.comps c).dyn k →
      Dict.get? ((importSeries sch m c k f ow).comps c).dyn k =
        Dict.get? ((importSeries sch m' c k f ow).comps c).dyn k := by
    intro m m' e1 e2 e3
    unfold importSeries
    simp only [e2, e3, Dict.contains]
    have e4 : seriesCols (m.comps c) k f ow = seriesCols (m'.comps c) k f ow := by
      simp only [seriesCols, e3]
    rw [e4]
    repeat' split
    all_goals simp_all [Dict.get?_set_self, writeSeries]
  induction se generalizing n with
  | nil => simp at hk
  | cons e se ih =>
    simp only [List.map_cons, List.nodup_cons] at hn
    simp only [List.mem_cons] at hk
    rcases hk with rfl | hk
    · simp only [importAll, List.foldl_cons]
      have := importAll_get?_not_mem sch (importSeries sch n c k f ow) c ow se k hn.1
      simp only [importAll] at this
      rw [this]
    · simp only [importAll, List.foldl_cons]
      have h1 := ih (importSeries sch n c e.1 e.2 ow) hn.2 hk
      simp only [importAll] at h1
      rw [h1]
      have hne : k ≠ e.1 := by
        intro h'; apply hn.1; rw [← h']; exact List.mem_map.2 ⟨_, hk, rfl⟩
      apply hcongr
      · rw [importSeries_names]
      · rw [importSeries_snaps]
      · rw [importSeries_get?_ne _ _ _ _ _ hne]

/-- The outcome of a successful `add`, in terms of the imports. -/
theorem add_ok (sch : Schema V) (n m : Network V) (c : Cls) (raw : List Name)
    (suffix : String) (single ow : Bool) (kw : List (Attr × Arg V))
    (h : add sch n c raw suffix single ow kw = .ok m) :
    (raw.map (· ++ suffix)).Nodup ∧ ∃ st se,
      processArgs n.snaps (raw.map (· ++ suffix)) suffix single kw = .ok (st, se) ∧
      m = importAll sch (importComponents sch n c (raw.map (· ++ suffix)) st ow) c ow se := by
  unfold add at h
  simp only at h
  split at h
  · simp at h
  · rename_i hn
    have hn' : (raw.map (· ++ suffix)).Nodup := Decidable.not_not.1 hn
    split at h
    · simp at h
    · rename_i st se hp
      simp only [Except.ok.injEq] at h
      exact ⟨hn', st, se, hp, h.symm⟩

theorem add_wf (sch : Schema V) (n m : Network V) (c : Cls) (raw : List Name)
    (suffix : String) (single ow : Bool) (kw : List (Attr × Arg V)) (h : WF sch n)
    (hkw : (kw.map (·.1)).Nodup)
    (hadd : add sch n c raw suffix single ow kw = .ok m) : WF sch m := by
  obtain ⟨hn, st, se, hp, rfl⟩ := add_ok sch n m c raw suffix single ow kw hadd
  obtain ⟨p1, p2, p3, p4⟩ := processArgs_series _ _ _ _ _ _ _ hp
  obtain ⟨q1, q2, q3⟩ := p4 hkw
  refine importAll_wf sch _ c ow se (importComponents_wf sch n c _ st ow h hn q1) ?_
  intro e he
  obtain ⟨r1, r2⟩ := p1 e he
  refine ⟨by rw [r1]; rfl, by rw [r2]; exact hn, ?_⟩
  intro y hy
  rw [importComponents_names, mem_namesAfter]
  exact Or.inr (by rw [r2] at hy; exact hy)

theorem remove_wf (sch : Schema V) (n m : Network V) (c : Cls) (raw : List Name)
    (suffix : String) (h : WF sch n) (hr : remove n c raw suffix = .ok m) : WF sch m := by
  unfold remove at hr
  simp only at hr
  split at hr
  · simp at hr
  · simp only [Except.ok.injEq] at hr
    subst hr
    refine h.setComp c _ ((h.names_nodup c).filter _) ?_ ?_
    · intro k f hf
      simp only [get?_mapDyn] at hf
      rcases hg : Dict.get? (n.comps c).dyn k with _ | g
      · simp [hg] at hf
      · simp only [hg, Option.map_some, Option.some.injEq] at hf
        subst hf
        obtain ⟨t1, t2, t3⟩ := h.table c k g hg
        refine ⟨t1, t2.filter _, ?_⟩
        intro y hy
        simp only [Frame.dropCols, List.mem_filter] at hy ⊢
        exact ⟨t3 y hy.1, hy.2⟩
    · intro a ha hv
      simp only [get?_mapDyn, Option.isSome_map]
      exact h.keys c a ha hv

theorem reindexTable_index (sch : Schema V) (c : Cls) (new : List Snap) (k : Attr)
    (f : Frame V) : (reindexTable sch c new k f).index = new ∧
    (reindexTable sch c new k f).cols = f.cols := by
  unfold reindexTable
  repeat' split
  all_goals exact ⟨rfl, rfl⟩

theorem setSnapshots_wf (sch : Schema V) (n : Network V) (new : List Snap) (d : V)
    (h : WF sch n) (h1 : new.Nodup) (h2 : Homogeneous new) (h3 : new ≠ []) :
    WF sch (setSnapshots sch n new d).1 := by
  have he : new.isEmpty = false := by
    cases new with
    | nil => exact absurd rfl h3
    | cons _ _ => rfl
  unfold setSnapshots
  simp only [he, Bool.false_eq_true, if_false]
  refine ⟨h.names_nodup, ?_, rfl, ?_, h1, h2, h3⟩
  · intro c k f hf
    simp only [get?_mapDyn] at hf
    rcases hg : Dict.get? (n.comps c).dyn k with _ | g
    · simp [hg] at hf
    · simp only [hg, Option.map_some, Option.some.injEq] at hf
      subst hf
      obtain ⟨t1, t2, t3⟩ := h.table c k g hg
      obtain ⟨r1, r2⟩ := reindexTable_index sch c new k g
      rw [r1, r2]
      exact ⟨rfl, t2, t3⟩
  · intro c a ha hv
    simp only [get?_mapDyn, Option.isSome_map]
    exact h.keys c a ha hv

theorem mem_productIndex (ps : List Int) (l : List Snap) (s : Snap) :
    s ∈ productIndex ps l ↔ ∃ p ∈ ps, ∃ s' ∈ l, s = s'.withPeriod p := by
  simp only [productIndex, List.mem_flatMap, List.mem_map]
  constructor
  · rintro ⟨p, hp, s', hs', rfl⟩; exact ⟨p, hp, s', hs', rfl⟩
  · rintro ⟨p, hp, s', hs', rfl⟩; exact ⟨p, hp, s', hs', rfl⟩

theorem nodup_productIndex (ps : List Int) (l : List Snap) (hp : ps.Nodup) (hl : l.Nodup)
    (hf : ∀ s ∈ l, s.isMulti = false) : (productIndex ps l).Nodup := by
  induction ps with
  | nil => simp [productIndex]
  | cons p ps ih =>
    simp only [List.nodup_cons] at hp
    simp only [productIndex, List.flatMap_cons] at *
    refine List.nodup_append.2 ⟨?_, ih hp.2, ?_⟩
    · refine List.pairwise_map.2 (hl.imp_of_mem ?_)
      intro a b ha hb hab hcontra
      have ha' := hf a ha
      have hb' := hf b hb
      cases a <;> cases b <;> simp_all [Snap.isMulti, Snap.withPeriod]
    · intro a ha b hb hab
      subst hab
      rw [List.mem_map] at ha
      obtain ⟨s, hs, rfl⟩ := ha
      rw [show (List.flatMap (fun p => l.map (Snap.withPeriod p)) ps) =
        productIndex ps l from rfl, mem_productIndex] at hb
      obtain ⟨p', hp', s', hs', heq⟩ := hb
      have : p = p' := by
        cases s <;> cases s' <;> simp [Snap.withPeriod] at heq <;> exact heq.1
      subst this
      exact hp.1 hp'

theorem nodup_of_strictlyIncreasing (ps : List Int) (h : strictlyIncreasing ps = true) :
    ps.Nodup := by
  simp only [strictlyIncreasing, decide_eq_true_eq] at h
  exact h.imp (fun hab => by omega)

theorem not_multi_of (l : List Snap) (h : isMultiIndex l = false) :
    ∀ s ∈ l, s.isMulti = false := by
  intro s hs
  simp only [isMultiIndex, List.any_eq_false] at h
  simpa using h s hs

theorem setInvestmentPeriods_wf (sch : Schema V) (n m : Network V) (ps : List Int)
    (i : Bool) (h : WF sch n) (hr : setInvestmentPeriods sch n ps i = .ok m) : WF sch m := by
  unfold setInvestmentPeriods at hr
  split at hr
  · simp only [Except.ok.injEq] at hr; subst hr; exact h
  · rename_i hne
    split at hr
    · simp at hr
    · rename_i hinc
      simp only at hr
      split at hr
      · split at hr
        · simp at hr
        · split at hr
          · simp at hr
          · simp only [Except.ok.injEq] at hr; subst hr
            exact ⟨h.names_nodup, h.table, h.w_index, h.keys, h.snaps_nodup, h.snaps_hom, h.snaps_ne⟩
      · rename_i hmulti
        simp only [Except.ok.injEq] at hr; subst hr
        have hflat := not_multi_of n.snaps (by simpa using hmulti)
        have hps : ps.Nodup := nodup_of_strictlyIncreasing ps (by
          simp only [Bool.not_eq_true', Bool.and_eq_true, Bool.not_eq_false] at hinc
          cases hx : strictlyIncreasing ps <;> simp_all)
        refine ⟨h.names_nodup, ?_, ?_, ?_, ?_, Or.inr ?_, ?_⟩
        · intro c k f hf
          simp only [get?_mapDyn] at hf
          rcases hg : Dict.get? (n.comps c).dyn k with _ | g
          · simp [hg] at hf
          · simp only [hg, Option.map_some, Option.some.injEq] at hf
            subst hf
            obtain ⟨t1, t2, t3⟩ := h.table c k g hg
            exact ⟨by simp [repeatFrame, t1], t2, t3⟩
        · simp [h.w_index]
        · intro c a ha hv
          simp only [get?_mapDyn, Option.isSome_map]
          exact h.keys c a ha hv
        · exact nodup_productIndex ps n.snaps hps h.snaps_nodup hflat
        · intro s hs
          obtain ⟨p, _, s', _, rfl⟩ := (mem_productIndex _ _ _).1 hs
          cases s' <;> rfl
        · intro hcontra
          have hne' : ps ≠ [] := by intro h'; simp [h'] at hne
          obtain ⟨p, ps', rfl⟩ := List.exists_cons_of_ne_nil hne'
          obtain ⟨s, l', hl⟩ := List.exists_cons_of_ne_nil h.snaps_ne
          simp [productIndex, hl] at hcontra

theorem init_wf (sch : Schema V) : WF sch (init sch) := by
  have hget : ∀ (l : List (AttrSpec V)) k f,
      Dict.get? (l.map (fun a => (a.name, (emptyFrame [Snap.flat "now"] : Frame V)))) k = some f →
      f = emptyFrame [Snap.flat "now"] := by
    intro l
    induction l with
    | nil => intro k f h; simp at h
    | cons a l ih =>
      intro k f h
      rw [List.map_cons, Dict.get?_cons] at h
      split at h
      · simp at h; exact h.symm
      · exact ih k f h
  have hkeys : ∀ (l : List (AttrSpec V)) a, a ∈ l →
      (Dict.get? (l.map (fun a => (a.name, (emptyFrame [Snap.flat "now"] : Frame V)))) a.name).isSome := by
    intro l a ha
    rw [← Dict.mem_keys_iff]
    simp only [Dict.keys, List.map_map, List.mem_map]
    exact ⟨a, ha, rfl⟩
  refine ⟨?_, ?_, rfl, ?_, by simp [init], Or.inl (by simp [init, Snap.isMulti]), by simp [init]⟩
  · intro c; simp [init]
  · intro c k f hf
    have := hget _ k f hf
    subst this
    exact ⟨rfl, by simp [emptyFrame], by simp [emptyFrame]⟩
  · intro c a ha hv
    exact hkeys _ a (List.mem_filter.2 ⟨ha, hv⟩)

end Verif.Network
