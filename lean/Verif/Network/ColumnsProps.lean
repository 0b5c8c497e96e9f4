import Verif.Network.Columns
import Mathlib.Data.List.Nodup
import Mathlib.Tactic.Push

/-!
# Standard columns have a fixed place, own columns have not (C162)
-/

namespace Verif.Network.Columns

/-! ## Specification -/

/-- A list of the same elements. -/
def Fair (e : Nat → Listing) : Prop := ∀ k l, (e k l).Perm l

/-- Standard columns in the order of the schema, then own ones, each once. -/
def Tidy (S : Schema) (cols : List String) : Prop :=
  ∃ own, cols = S.attrs.filter S.static ++ own ∧ own.Nodup ∧ ∀ c ∈ own, c ∉ S.attrs

/-- The own columns of a call. -/
def Gives (S : Schema) (op : Op) (c : String) : Prop :=
  c ∉ S.attrs ∧ ∃ names given ow, op = .add names given ow ∧ c ∈ given

/-- Each call names a column once. -/
def Once (op : Op) : Prop := ∀ names given ow, op = .add names given ow → given.Nodup

/-! ## One call -/

variable {S : Schema}

theorem mem_completed {given : List String} {c : String} : c ∈ completed S given ↔ (c ∈ S.attrs ∧ S.static c = true) ∨ (c ∈ given ∧ c ∉ S.attrs) := by
  unfold completed
  simp only [List.mem_filter, List.mem_append, Bool.not_eq_true', Bool.and_eq_false_iff, List.contains_iff_mem, Bool.not_eq_false, ← Bool.not_eq_true]
  by_cases h1 : c ∈ S.attrs <;> by_cases h2 : S.static c = true <;> by_cases h3 : c ∈ given <;> simp [h1, h2, h3]

theorem nodup_completed {given : List String} (hS : S.attrs.Nodup) (hg : given.Nodup) : (completed S given).Nodup := by
  unfold completed
  refine List.Nodup.filter _ (List.nodup_append.mpr ⟨hg, (hS.filter _).filter _, ?_⟩)
  intro a ha b hb e
  subst e
  have := (List.mem_filter.mp hb).2
  simp [ha] at this

/-- The components that are there and stay. -/
def kept (t : Table) (names : List String) (ow : Bool) : List String :=
  if ow then t.rows.filter (fun x => !(t.rows.filter (fun x => names.contains x)).contains x) else t.rows

/-- The columns that are sorted in a call. -/
def joined (S : Schema) (t : Table) (names given : List String) (ow : Bool) : List String :=
  if (kept t names ow).isEmpty then completed S given
  else t.cols ++ (completed S given).filter (fun c => !t.cols.contains c)

theorem step_cols (e : Listing) (t : Table) (names given : List String) (ow : Bool) :
    (step S e t (.add names given ow)).cols = sortAttrs S e (joined S t names given ow) := rfl

theorem sorted_tidy {e : Listing} (he : ∀ l, (e l).Perm l) {cols : List String} (hn : cols.Nodup) (hm : ∀ c, c ∈ S.attrs → (c ∈ cols ↔ S.static c = true)) :
    Tidy S (sortAttrs S e cols) := by
  refine ⟨e (cols.filter (fun c => !S.attrs.contains c)), ?_, (he _).nodup_iff.mpr (hn.filter _), ?_⟩
  · unfold sortAttrs
    congr 1
    refine List.filter_congr (fun c hc => ?_)
    rw [Bool.eq_iff_iff, List.contains_iff_mem]
    exact hm c hc
  · intro c hc
    have := (List.mem_filter.mp ((he _).mem_iff.mp hc)).2
    simpa using this

theorem tidy_mem {cols : List String} (h : Tidy S cols) {c : String} (hc : c ∈ S.attrs) : c ∈ cols ↔ S.static c = true := by
  obtain ⟨own, rfl, -, h2⟩ := h
  rw [List.mem_append, List.mem_filter]
  exact ⟨fun h => h.elim (·.2) (fun h => absurd hc (h2 c h)), fun h => Or.inl ⟨hc, h⟩⟩

theorem tidy_nodup (hS : S.attrs.Nodup) {cols : List String} (h : Tidy S cols) : cols.Nodup := by
  obtain ⟨own, rfl, h1, h2⟩ := h
  refine List.nodup_append.mpr ⟨hS.filter _, h1, ?_⟩
  intro a ha b hb e
  subst e
  exact h2 a hb (List.mem_filter.mp ha).1

theorem joined_mem {t : Table} (ht : Tidy S t.cols) {names given : List String} {ow : Bool} {c : String} (hc : c ∈ S.attrs) :
    c ∈ joined S t names given ow ↔ S.static c = true := by
  have h1 : c ∈ completed S given ↔ S.static c = true := by rw [mem_completed]; simp [hc]
  have h2 := tidy_mem ht hc
  unfold joined
  split
  · exact h1
  · rw [List.mem_append, List.mem_filter, h1, h2]
    by_cases h : S.static c = true <;> simp [h]

theorem joined_nodup (hS : S.attrs.Nodup) {t : Table} (ht : Tidy S t.cols) {names given : List String} {ow : Bool} (hg : given.Nodup) :
    (joined S t names given ow).Nodup := by
  unfold joined
  split
  · exact nodup_completed hS hg
  · refine List.nodup_append.mpr ⟨tidy_nodup hS ht, (nodup_completed hS hg).filter _, ?_⟩
    intro a ha b hb e
    subst e
    have := (List.mem_filter.mp hb).2
    simp [ha] at this

theorem step_tidy (hS : S.attrs.Nodup) {e : Listing} (he : ∀ l, (e l).Perm l) {t : Table} (ht : Tidy S t.cols) {op : Op} (ho : Once op) :
    Tidy S (step S e t op).cols := by
  cases op with
  | add names given ow =>
    rw [step_cols]
    exact sorted_tidy he (joined_nodup hS ht (ho names given ow rfl)) (fun c hc => joined_mem ht hc)
  | remove names => exact ht

/-! ## All histories -/

theorem run_tidy (hS : S.attrs.Nodup) {e : Nat → Listing} (he : Fair e) : ∀ (ops : List Op) (k : Nat) (t : Table), Tidy S t.cols → (∀ op ∈ ops, Once op) →
    Tidy S (run S e k t ops).cols := by
  intro ops
  induction ops with
  | nil => intro k t ht _; exact ht
  | cons op ops ih =>
    intro k t ht ho
    exact ih (k + 1) _ (step_tidy hS (he k) ht (ho op List.mem_cons_self)) (fun o h => ho o (List.mem_cons_of_mem _ h))

/-- After any calls, with whatever columns in whatever order, the standard columns come first and in their order. -/
theorem standard_first (hS : S.attrs.Nodup) {e : Nat → Listing} (he : Fair e) {ops : List Op} (ho : ∀ op ∈ ops, Once op) :
    Tidy S (run S e 0 (start S) ops).cols :=
  run_tidy hS he ops 0 _ ⟨[], by simp [start], by simp, by simp⟩ ho

theorem sort_perm {e e' : Listing} (he : ∀ l, (e l).Perm l) (he' : ∀ l, (e' l).Perm l) {l l' : List String} (h : l.Perm l') :
    (sortAttrs S e l).Perm (sortAttrs S e' l') := by
  unfold sortAttrs
  refine List.Perm.append (List.Perm.of_eq ?_) ((he _).trans ((h.filter _).trans (he' _).symm))
  refine List.filter_congr (fun c _ => ?_)
  rw [Bool.eq_iff_iff, List.contains_iff_mem, List.contains_iff_mem, h.mem_iff]

theorem step_perm {e e' : Listing} (he : ∀ l, (e l).Perm l) (he' : ∀ l, (e' l).Perm l) {t t' : Table} (hc : t.cols.Perm t'.cols) (hr : t.rows = t'.rows) (op : Op) :
    (step S e t op).cols.Perm (step S e' t' op).cols ∧ (step S e t op).rows = (step S e' t' op).rows := by
  cases op with
  | add names given ow =>
    refine ⟨?_, by simp only [step, hr]⟩
    rw [step_cols, step_cols]
    refine sort_perm he he' ?_
    unfold joined
    have hk : kept t names ow = kept t' names ow := by unfold kept; rw [hr]
    rw [hk]
    split
    · exact List.Perm.refl _
    · refine hc.append (List.Perm.of_eq (List.filter_congr (fun c _ => ?_)))
      congr 1
      rw [Bool.eq_iff_iff, List.contains_iff_mem, List.contains_iff_mem, hc.mem_iff]
  | remove names => exact ⟨hc, by simp only [step, hr]⟩

theorem run_perm {e e' : Nat → Listing} (he : Fair e) (he' : Fair e') : ∀ (ops : List Op) (k : Nat) (t t' : Table), t.cols.Perm t'.cols → t.rows = t'.rows →
    (run S e k t ops).cols.Perm (run S e' k t' ops).cols ∧ (run S e k t ops).rows = (run S e' k t' ops).rows := by
  intro ops
  induction ops with
  | nil => intro k t t' h1 h2; exact ⟨h1, h2⟩
  | cons op ops ih =>
    intro k t t' h1 h2
    obtain ⟨h3, h4⟩ := step_perm (S := S) (he k) (he' k) h1 h2 op
    exact ih (k + 1) _ _ h3 h4

/-- Two runs of a program have the same rows, and the same columns but for their order. -/
theorem same_columns {e e' : Nat → Listing} (he : Fair e) (he' : Fair e') (ops : List Op) :
    (run S e 0 (start S) ops).cols.Perm (run S e' 0 (start S) ops).cols ∧ (run S e 0 (start S) ops).rows = (run S e' 0 (start S) ops).rows :=
  run_perm he he' ops 0 _ _ (List.Perm.refl _) rfl

/-! ## Own columns -/

theorem mem_step {e : Listing} (he : ∀ l, (e l).Perm l) {t : Table} {names given : List String} {ow : Bool} {c : String} (hc : c ∉ S.attrs) :
    c ∈ (step S e t (.add names given ow)).cols ↔ c ∈ given ∨ (c ∈ t.cols ∧ ∃ r ∈ t.rows, ow = true → r ∉ names) := by
  rw [step_cols]
  have h1 : c ∈ sortAttrs S e (joined S t names given ow) ↔ c ∈ joined S t names given ow := by
    unfold sortAttrs
    rw [List.mem_append, (he _).mem_iff, List.mem_filter, List.mem_filter]
    simp [hc]
  have h2 : c ∈ completed S given ↔ c ∈ given := by rw [mem_completed]; simp [hc]
  rw [h1]
  unfold joined
  have h3 : (kept t names ow).isEmpty = true ↔ ¬ ∃ r ∈ t.rows, ow = true → r ∉ names := by
    unfold kept
    cases ow with
    | false => simp [List.isEmpty_iff, List.eq_nil_iff_forall_not_mem]
    | true =>
      simp only [if_true, List.isEmpty_iff, List.filter_eq_nil_iff]
      push Not
      refine forall_congr' (fun r => forall_congr' (fun hr => ?_))
      simp [hr]
  split
  · rename_i h
    rw [h2]
    have := h3.mp h
    exact ⟨Or.inl, fun h => h.elim id (fun h => absurd h.2 this)⟩
  · rename_i h
    have h4 : ∃ r ∈ t.rows, ow = true → r ∉ names := by
      by_contra hn
      exact h (h3.mpr hn)
    rw [List.mem_append, List.mem_filter, h2]
    by_cases h5 : c ∈ t.cols <;> simp [h5, h4]

/-- An own column that is given is there … -/
theorem own_there {e : Listing} (he : ∀ l, (e l).Perm l) {t : Table} {op : Op} {c : String} (h : Gives S op c) : c ∈ (step S e t op).cols := by
  obtain ⟨hc, names, given, ow, rfl, hg⟩ := h
  exact (mem_step he hc).mpr (Or.inl hg)

/-- … and stays as long as some component is there that is not overwritten … -/
theorem own_stays {e : Listing} (he : ∀ l, (e l).Perm l) {t : Table} {names given : List String} {ow : Bool} {c r : String} (hc : c ∉ S.attrs) (h : c ∈ t.cols)
    (hr : r ∈ t.rows) (hn : ow = true → r ∉ names) : c ∈ (step S e t (.add names given ow)).cols :=
  (mem_step he hc).mpr (Or.inr ⟨h, r, hr, hn⟩)

/-- … but is gone when the first component is added again to a class all of whose components were removed. -/
theorem own_lost {e : Listing} (he : ∀ l, (e l).Perm l) {t : Table} (ht : t.rows = []) {names given : List String} {ow : Bool} {c : String} (hc : c ∉ S.attrs)
    (hg : c ∉ given) : c ∉ (step S e t (.add names given ow)).cols := by
  rw [mem_step he hc, ht]
  simp [hg]

/-! ## Whether runs agree -/

theorem run_own {e : Nat → Listing} (he : Fair e) {c : String} (hc : c ∉ S.attrs) : ∀ (ops : List Op) (k : Nat) (t : Table), c ∈ (run S e k t ops).cols →
    c ∈ t.cols ∨ ∃ op ∈ ops, Gives S op c := by
  intro ops
  induction ops with
  | nil => intro k t h; exact Or.inl h
  | cons op ops ih =>
    intro k t h
    rcases ih (k + 1) _ h with h | ⟨o, ho, hg⟩
    · cases op with
      | add names given ow =>
        rcases (mem_step (he k) hc).mp h with h | h
        · exact Or.inr ⟨_, List.mem_cons_self, hc, names, given, ow, rfl, h⟩
        · exact Or.inl h.1
      | remove names => exact Or.inl h
    · exact Or.inr ⟨o, List.mem_cons_of_mem _ ho, hg⟩

theorem perm_eq_of_one {l l' : List String} (h : l.Perm l') (hn : l.Nodup) (h1 : ∀ a ∈ l, ∀ b ∈ l, a = b) : l = l' := by
  match l, hn, h1 with
  | [], _, _ => exact (List.nil_perm.mp h).symm
  | [a], _, _ => exact (List.singleton_perm.mp h)
  | a :: b :: r, hn, h1 =>
    have := h1 a (by simp) b (by simp)
    subst this
    simp at hn

/-- Two runs of a program have the same table. -/
def Reproducible : Prop := ∀ (S : Schema), S.attrs.Nodup → ∀ e e' : Nat → Listing, Fair e → Fair e' → ∀ ops : List Op, (∀ op ∈ ops, Once op) →
  run S e 0 (start S) ops = run S e' 0 (start S) ops

/-- It is so with at most one own column. -/
theorem reproducible_partial (hS : S.attrs.Nodup) {e e' : Nat → Listing} (he : Fair e) (he' : Fair e') {ops : List Op} (ho : ∀ op ∈ ops, Once op)
    (hone : ∀ op ∈ ops, ∀ op' ∈ ops, ∀ c c', Gives S op c → Gives S op' c' → c = c') : run S e 0 (start S) ops = run S e' 0 (start S) ops := by
  obtain ⟨h1, h2⟩ := same_columns (S := S) he he' ops
  obtain ⟨own, h3, h4, h5⟩ := standard_first hS he ho
  obtain ⟨own', h3', h4', h5'⟩ := standard_first hS he' ho
  have hgiven : ∀ a ∈ own, ∃ op ∈ ops, Gives S op a := by
    intro a ha
    have hm : a ∈ (run S e 0 (start S) ops).cols := by rw [h3]; exact List.mem_append_right _ ha
    rcases run_own he (h5 a ha) ops 0 _ hm with h | h
    · exact absurd (List.mem_filter.mp h).1 (h5 a ha)
    · exact h
  have hcols : (run S e 0 (start S) ops).cols = (run S e' 0 (start S) ops).cols := by
    rw [h3, h3'] at h1 ⊢
    congr 1
    refine perm_eq_of_one ((List.perm_append_left_iff _).mp h1) h4 (fun a ha b hb => ?_)
    obtain ⟨o, ho1, hg⟩ := hgiven a ha
    obtain ⟨o', ho1', hg'⟩ := hgiven b hb
    exact hone o ho1 o' ho1' a b hg hg'
  revert hcols h2
  cases run S e 0 (start S) ops
  cases run S e' 0 (start S) ops
  rintro rfl rfl
  rfl

def exSchema : Schema := ⟨["name", "carrier", "v_nom", "p"], fun c => c != "name" && c != "p"⟩

/-- It is not so with two. -/
theorem not_reproducible : ¬ Reproducible := by
  intro h
  have := h exSchema (by decide) (fun _ l => l) (fun _ l => l.reverse) (fun _ _ => List.Perm.refl _) (fun _ l => List.reverse_perm l)
    [.add ["b"] ["height", "v_nom", "owner"] false] (by
      intro op hop names given ow e
      rw [List.mem_singleton] at hop
      rw [hop] at e
      injection e with _ e _
      rw [← e]
      decide)
  revert this
  decide +kernel

/-! ## Examples -/

example : (run exSchema (fun _ l => l) 0 (start exSchema) [.add ["b"] ["height", "v_nom", "owner"] false, .add ["c"] ["p", "area"] false]).cols =
    ["carrier", "v_nom", "height", "owner", "area"] := by decide +kernel

example : "height" ∉ (run exSchema (fun _ l => l) 0 (start exSchema) [.add ["b"] ["height"] false, .remove ["b"], .add ["c"] [] false]).cols := by decide +kernel

end Verif.Network.Columns
