import Verif.Network.Weightings
import Verif.Network.Invariant
import Mathlib.Tactic.Ring
import Mathlib.Tactic.Push

/-!
# Weightings fit the snapshots and the periods (C163)
-/

namespace Verif.Network.Weightings

/-! ## Specification -/

/-- Each snapshot has its row, in the same order. -/
def RowsFit (s : State) : Prop := s.w.index = s.snaps

/-- The periods of the snapshots, each once, in the order of their first snapshot. -/
def Periods (snaps : List Snap) (ps : List Int) : Prop :=
  ps.Nodup ∧ ∀ p, p ∈ ps ↔ ∃ t, Snap.multi p t ∈ snaps

/-- Each period has its row. -/
def PeriodsFit (s : State) : Prop := Periods s.snaps s.pw.index

/-- The call does not give an empty list of snapshots. -/
def Filled (o : Op) : Prop := ∀ new d times, o = .snapshots new d times → new ≠ []

/-- A DataFrame that is assigned has the columns it should have. -/
def Whole (o : Op) : Prop :=
  (∀ i c v, o = .weigh (.frame i c v) → c = ["objective", "stores", "generators"]) ∧ (∀ i c v, o = .weighPeriods (.frame i c v) → c = ["objective", "years"])

/-! ## Rows and columns -/

theorem assign_ok {I : Type} [DecidableEq I] {labels : List I} {w r : Weights I} {g : Given I} (h : assign labels w g = .ok r) : r.index = labels := by
  unfold assign at h
  split at h
  · exact absurd h (by simp)
  · rename_i hi
    push Not at hi
    cases g with
    | series i v => simp only [Except.ok.injEq] at h; rw [← h]; exact hi
    | frame i c v => simp only [Except.ok.injEq] at h; rw [← h]; exact hi

theorem step_rows {s : State} (h : RowsFit s) {o : Op} (ho : Filled o) : RowsFit (step s o).1 := by
  cases o with
  | snapshots new d times =>
    have hne := ho new d times rfl
    simp only [step, setSnapshots, List.isEmpty_iff, hne, if_false]
    cases times <;> rfl
  | periods ps integral =>
    simp only [step, setPeriods]
    split
    · exact h
    · split
      · exact h
      · split
        · split
          · exact h
          · split <;> exact h
        · show productIndex ps s.w.index = productIndex ps s.snaps
          rw [h]
  | weigh g =>
    simp only [step]
    split
    · rename_i w hw; exact assign_ok hw
    · exact h
  | weighPeriods g =>
    simp only [step]
    split <;> exact h

/-- After any calls, also refused ones, each snapshot has its weightings. -/
theorem rows_fit (ops : List Op) (ho : ∀ o ∈ ops, Filled o) : RowsFit (run start ops) := by
  have : ∀ (ops : List Op) (s : State), RowsFit s → (∀ o ∈ ops, Filled o) → RowsFit (run s ops) := by
    intro ops
    induction ops with
    | nil => intro s h _; exact h
    | cons o ops ih =>
      intro s h ho
      exact ih _ (step_rows h (ho o List.mem_cons_self)) (fun o' h' => ho o' (List.mem_cons_of_mem _ h'))
  exact this ops start rfl ho

/-- After any calls there are the columns the optimisation asks for. -/
def ColumnsStay (ok : Op → Prop) : Prop := ∀ ops : List Op, (∀ o ∈ ops, ok o) →
  (run start ops).w.cols = ["objective", "stores", "generators"] ∧ (run start ops).pw.cols = ["objective", "years"]

theorem assign_cols {I : Type} [DecidableEq I] {labels : List I} {w r : Weights I} {g : Given I} (h : assign labels w g = .ok r) :
    r.cols = w.cols ∨ ∃ i v, g = .frame i r.cols v := by
  unfold assign at h
  split at h
  · exact absurd h (by simp)
  · cases g with
    | series i v => simp only [Except.ok.injEq] at h; rw [← h]; exact Or.inl rfl
    | frame i c v => simp only [Except.ok.injEq] at h; rw [← h]; exact Or.inr ⟨i, v, rfl⟩

theorem step_cols {s : State} {o : Op} (ho : Whole o) (h1 : s.w.cols = ["objective", "stores", "generators"]) (h2 : s.pw.cols = ["objective", "years"]) :
    (step s o).1.w.cols = ["objective", "stores", "generators"] ∧ (step s o).1.pw.cols = ["objective", "years"] := by
  cases o with
  | snapshots new d times =>
    simp only [step, setSnapshots]
    split
    · exact ⟨h1, h2⟩
    · cases times <;> exact ⟨h1, h2⟩
  | periods ps integral =>
    simp only [step, setPeriods]
    split
    · exact ⟨h1, h2⟩
    · split
      · exact ⟨h1, h2⟩
      · split
        · split
          · exact ⟨h1, h2⟩
          · split <;> exact ⟨h1, h2⟩
        · exact ⟨h1, h2⟩
  | weigh g =>
    simp only [step]
    split
    · rename_i w hw
      rcases assign_cols hw with h | ⟨i, v, rfl⟩
      · exact ⟨h.trans h1, h2⟩
      · exact ⟨ho.1 _ _ _ rfl, h2⟩
    · exact ⟨h1, h2⟩
  | weighPeriods g =>
    simp only [step]
    split
    · rename_i w hw
      rcases assign_cols hw with h | ⟨i, v, rfl⟩
      · exact ⟨h1, h.trans h2⟩
      · exact ⟨h1, ho.2 _ _ _ rfl⟩
    · exact ⟨h1, h2⟩

/-- So it is if assigned tables have them … -/
theorem columns_stay_partial : ColumnsStay Whole := by
  have : ∀ (ops : List Op) (s : State), s.w.cols = ["objective", "stores", "generators"] → s.pw.cols = ["objective", "years"] → (∀ o ∈ ops, Whole o) →
      (run s ops).w.cols = ["objective", "stores", "generators"] ∧ (run s ops).pw.cols = ["objective", "years"] := by
    intro ops
    induction ops with
    | nil => intro s h1 h2 _; exact ⟨h1, h2⟩
    | cons o ops ih =>
      intro s h1 h2 ho
      obtain ⟨h3, h4⟩ := step_cols (ho o List.mem_cons_self) h1 h2
      exact ih _ h3 h4 (fun o' h' => ho o' (List.mem_cons_of_mem _ h'))
  exact fun ops ho => this ops start rfl rfl ho

/-- … but a table with one of the columns is taken and the others are gone. -/
theorem not_columns_stay : ¬ ColumnsStay (fun _ => True) := by
  intro h
  have := (h [.weigh (.frame [.flat "now"] ["objective"] (fun _ _ => some 2))] (fun _ _ => trivial)).1
  revert this
  decide +kernel

/-! ## Periods -/

theorem mem_periodsOf {l : List Snap} {p : Int} : p ∈ periodsOf l ↔ ∃ t, Snap.multi p t ∈ l := by
  unfold periodsOf
  rw [List.mem_eraseDups, List.mem_filterMap]
  constructor
  · rintro ⟨s, hs, h⟩
    cases s with
    | flat t => simp [Snap.period?] at h
    | multi q t =>
      simp only [Snap.period?, Option.some.injEq] at h
      subst h
      exact ⟨t, hs⟩
  · rintro ⟨t, h⟩
    exact ⟨_, h, rfl⟩

theorem nodup_eraseDups {α : Type} [BEq α] [LawfulBEq α] (l : List α) : l.eraseDups.Nodup := by
  induction hk : l.length using Nat.strong_induction_on generalizing l with
  | _ k ih =>
    cases l with
    | nil => simp
    | cons a l =>
      rw [List.eraseDups_cons, List.nodup_cons]
      constructor
      · rw [List.mem_eraseDups, List.mem_filter]
        simp
      · refine ih _ ?_ _ rfl
        have := List.length_filter_le (fun b => !b == a) l
        simp only [List.length_cons] at hk
        omega

theorem periods_of (l : List Snap) : Periods l (periodsOf l) := ⟨nodup_eraseDups _, fun _ => mem_periodsOf⟩

/-- The call is `set_investment_periods` with some periods and is not refused. -/
def Sets (s : State) (o : Op) : Prop := ∃ ps integral, o = .periods ps integral ∧ ps ≠ [] ∧ (step s o).2 = none

/-- The call leaves the periods of the snapshots as they are. -/
def Leaves (s : State) (o : Op) : Prop := ∀ new d times, o = .snapshots new d times → ∀ p, (∃ t, Snap.multi p t ∈ new) ↔ ∃ t, Snap.multi p t ∈ s.snaps

/-- Setting the periods gives each its row … -/
theorem sets_fit {s : State} {o : Op} (h : Sets s o) : PeriodsFit (step s o).1 := by
  obtain ⟨ps, integral, rfl, hne, hok⟩ := h
  revert hok
  simp only [step, setPeriods, List.isEmpty_iff, hne, if_false]
  split
  · intro h; exact absurd h (by simp)
  · split
    · split
      · intro h; exact absurd h (by simp)
      · split
        · intro h; exact absurd h (by simp)
        · intro _; exact periods_of _
    · intro _; exact periods_of _

/-- … which no call takes away … -/
theorem leaves_fit {s : State} (h : PeriodsFit s) {o : Op} (ho : Leaves s o) : PeriodsFit (step s o).1 := by
  cases o with
  | snapshots new d times =>
    have hp := ho new d times rfl
    have : Periods new s.pw.index := ⟨h.1, fun p => (h.2 p).trans (hp p).symm⟩
    simp only [step, setSnapshots]
    split
    · exact this
    · cases times <;> exact this
  | periods ps integral =>
    by_cases hne : ps = []
    · subst hne; exact h
    by_cases hok : (step s (.periods ps integral)).2 = none
    · exact sets_fit ⟨ps, integral, rfl, hne, hok⟩
    · revert hok
      simp only [step, setPeriods, List.isEmpty_iff, hne, if_false]
      split
      · intro _; exact h
      · split
        · split
          · intro _; exact h
          · split
            · intro _; exact h
            · intro hn; exact absurd rfl hn
        · intro hn; exact absurd rfl hn
  | weigh g =>
    simp only [step]
    split <;> exact h
  | weighPeriods g =>
    simp only [step]
    split
    · rename_i w hw
      show Periods s.snaps w.index
      rw [assign_ok hw]
      exact periods_of _
    · exact h

/-- Calls each of which leaves the periods as they are. -/
def LeavesAll : State → List Op → Prop
  | _, [] => True
  | s, o :: ops => Leaves s o ∧ LeavesAll (step s o).1 ops

/-- After any calls, each period of the snapshots has its row of weightings. -/
def PeriodRows : Prop := ∀ ops : List Op, (∀ o ∈ ops, Filled o) → PeriodsFit (run start ops)

/-- It is so once the periods are set and as long as `set_snapshots` gives no others. -/
theorem period_rows_partial (before after : List Op) {o : Op} (h : Sets (run start before) o) (ha : LeavesAll (step (run start before) o).1 after) :
    PeriodsFit (run start (before ++ o :: after)) := by
  have : ∀ (ops : List Op) (s : State), PeriodsFit s → LeavesAll s ops → PeriodsFit (run s ops) := by
    intro ops
    induction ops with
    | nil => intro s h _; exact h
    | cons o ops ih => intro s h hl; exact ih _ (leaves_fit h hl.1) hl.2
  have hrun : run start (before ++ o :: after) = run (step (run start before) o).1 after := by
    simp [run, List.foldl_append]
  rw [hrun]
  exact this after _ (sets_fit h) ha

/-- `set_snapshots` with periods leaves them without weightings. -/
theorem not_period_rows : ¬ PeriodRows := by
  intro h
  have := ((h [.snapshots [.multi 2020 "0"] 1 none] (by
    intro o ho new d times e
    rw [List.mem_singleton] at ho
    rw [ho] at e
    injection e with e _ _
    rw [← e]
    decide)).2 2020).mpr ⟨"0", by decide +kernel⟩
  revert this
  decide +kernel

/-! ## Values -/

/-- New snapshots weigh the default, others what they did. -/
theorem snapshots_value (s : State) {new : List Snap} (hne : new ≠ []) (d : ℚ) (x : Snap) (k : String) :
    (x ∈ s.w.index → (step s (.snapshots new d none)).1.w.val x k = s.w.val x k) ∧
    (x ∉ s.w.index → (step s (.snapshots new d none)).1.w.val x k = some d) := by
  simp only [step, setSnapshots, List.isEmpty_iff, hne, if_false, Weights.reindex]
  exact ⟨fun h => by simp [h], fun h => by simp [h]⟩

/-- With the first periods each snapshot weighs in each period what it did. -/
theorem periods_value {s : State} (hflat : ∀ x ∈ s.snaps, ∃ t, x = .flat t) {ps : List Int} {i : Bool} (h : Sets s (.periods ps i)) (p : Int) (t : String) (k : String) :
    (step s (.periods ps i)).1.w.val (.multi p t) k = s.w.val (.flat t) k := by
  obtain ⟨ps', i', e, hne, hok⟩ := h
  injection e with e1 e2
  subst e1 e2
  have hm : isMultiIndex s.snaps = false := by
    unfold isMultiIndex
    rw [List.any_eq_false]
    intro x hx
    obtain ⟨t, rfl⟩ := hflat x hx
    simp [Snap.isMulti]
  revert hok
  simp only [step, setPeriods, List.isEmpty_iff, hne, if_false, hm]
  split
  · intro h; exact absurd h (by simp)
  · intro _; rfl

/-- Periods that had weightings keep them, others weigh one. -/
theorem period_value {s : State} {o : Op} (h : Sets s o) (p : Int) (k : String) :
    (p ∈ s.pw.index → (step s o).1.pw.val p k = s.pw.val p k) ∧ (p ∉ s.pw.index → (step s o).1.pw.val p k = some 1) := by
  obtain ⟨ps, integral, rfl, hne, hok⟩ := h
  revert hok
  simp only [step, setPeriods, List.isEmpty_iff, hne, if_false, Weights.reindex]
  split
  · intro h; exact absurd h (by simp)
  · split
    · split
      · intro h; exact absurd h (by simp)
      · split
        · intro h; exact absurd h (by simp)
        · intro _; exact ⟨fun h => by simp [h], fun h => by simp [h]⟩
    · intro _; exact ⟨fun h => by simp [h], fun h => by simp [h]⟩

/-- A Series for the snapshots, in their order, weighs in all columns; any other is refused and changes nothing. -/
theorem series_value (s : State) (i : List Snap) (v : Snap → Option ℚ) :
    (i = s.snaps → (step s (.weigh (.series i v))).2 = none ∧ ∀ x k, (step s (.weigh (.series i v))).1.w.val x k = v x) ∧
    (i ≠ s.snaps → step s (.weigh (.series i v)) = (s, some .assertion)) := by
  constructor
  · intro h
    simp [step, assign, Given.index, h]
  · intro h
    simp [step, assign, Given.index, h]

/-- Likewise for periods. -/
theorem period_series_value (s : State) (v : Int → Option ℚ) {i : List Int} :
    (step s (.weighPeriods (.series i v))).2 = none → Periods s.snaps i ∧ ∀ p k, (step s (.weighPeriods (.series i v))).1.pw.val p k = v p := by
  by_cases h : i = periodsOf s.snaps
  · intro _
    subst h
    refine ⟨periods_of _, ?_⟩
    simp [step, assign, Given.index]
  · intro hn
    simp [step, assign, Given.index, h] at hn

/-! ## Lengths of time -/

theorem ffill_length (a : Option ℚ) (l : List (Option ℚ)) : (ffill a l).length = l.length := by
  induction l generalizing a with
  | nil => rfl
  | cons x l ih => cases x <;> simp [ffill, ih]

theorem hours_cons_cons (a b : ℚ) (l : List ℚ) : hours (a :: b :: l) = some (b - a) :: ffill (some (b - a)) (shift (diff (b :: l))) := by
  simp [hours, diff, shift, ffill]

theorem ffill_known (y : ℚ) : ∀ (t : List ℚ) (a : ℚ), ffill (some y) (shift (diff (a :: t))) = match t with
    | [] => [some y]
    | b :: r => some (b - a) :: ffill (some (b - a)) (shift (diff (b :: r)))
  | [], a => by simp [diff, shift, ffill]
  | b :: r, a => by simp [diff, shift, ffill]

/-- Each snapshot weighs the time until the next. -/
theorem hours_step : ∀ (t : List ℚ) (i : ℕ) (h : i + 1 < t.length), (hours t)[i]? = some (some (t[i + 1] - t[i]))
  | [], i, h => absurd h (by simp)
  | [_], i, h => absurd h (by simp)
  | a :: b :: l, 0, h => by rw [hours_cons_cons]; simp
  | a :: b :: l, i + 1, h => by
    have ih := hours_step (b :: l) i (by simpa using h)
    rw [hours_cons_cons]
    cases l with
    | nil => simp at h; omega
    | cons c r =>
      rw [ffill_known]
      rw [hours_cons_cons] at ih
      simpa using ih

/-- The last weighs as much as the one before it. -/
theorem hours_last : ∀ (t : List ℚ) (n : ℕ), t.length = n + 2 → (hours t)[n + 1]? = (hours t)[n]?
  | [], n, h => absurd h (by simp)
  | [_], n, h => absurd h (by simp)
  | [a, b], n, h => by
    have : n = 0 := by simpa using h.symm
    subst this
    rw [hours_cons_cons]
    simp [diff, shift, ffill]
  | a :: b :: c :: r, n, h => by
    obtain ⟨m, rfl⟩ : ∃ m, n = m + 1 := ⟨n - 1, by simp at h; omega⟩
    have ih := hours_last (b :: c :: r) m (by simpa using h)
    rw [hours_cons_cons, ffill_known]
    rw [hours_cons_cons] at ih
    simpa using ih

/-- A single snapshot gets no weight at all. -/
theorem hours_single (a : ℚ) : hours [a] = [none] := rfl

/-- All together weigh the time from the first to the last and once more the last step. -/
theorem hours_sum (t : List ℚ) (a b : ℚ) : ((hours (t ++ [a, b])).map (fun x => x.getD 0)).sum = (b - (t ++ [a, b]).headD 0) + (b - a) := by
  have key : ∀ (t : List ℚ) (c y : ℚ), ((ffill (some y) (shift (diff (c :: (t ++ [a, b]))))).map (fun x => x.getD 0)).sum = (b - c) + (b - a) := by
    intro t
    induction t with
    | nil => intro c y; simp [diff, shift, ffill]; ring
    | cons d t ih =>
      intro c y
      rw [List.cons_append, ffill_known]
      simp only [List.map_cons, List.sum_cons, Option.getD_some]
      rw [ih]
      ring
  cases t with
  | nil => simp [hours, diff, shift, ffill]
  | cons c t =>
    cases t with
    | nil => simp [hours, diff, shift, ffill]; ring
    | cons d t =>
      rw [List.cons_append, List.cons_append, hours_cons_cons]
      simp only [List.map_cons, List.sum_cons, Option.getD_some, List.headD_cons]
      rw [← List.cons_append] 
      have := key t d (d - c)
      simp only [List.cons_append] at this ⊢
      rw [this]
      ring

theorem hours_length (t : List ℚ) : (hours t).length = t.length := by
  unfold hours
  rw [ffill_length]
  cases t <;> simp [diff, shift]

theorem lookup_zip {α β : Type} [BEq α] [LawfulBEq α] : ∀ {l : List α} (_ : l.Nodup) (r : List β) (_ : r.length = l.length) {i : ℕ} (h : i < l.length),
    (l.zip r).lookup l[i] = r[i]?
  | [], _, _, _, i, h => absurd h (by simp)
  | a :: l, hn, [], hl, i, h => absurd hl (by simp)
  | a :: l, hn, b :: r, hl, 0, h => by simp
  | a :: l, hn, b :: r, hl, i + 1, h => by
    have hne : ((a :: l)[i + 1] == a) = false := by
      rw [beq_eq_false_iff_ne]
      intro e
      exact (List.nodup_cons.mp hn).1 (e ▸ by simp)
    rw [List.zip_cons_cons, List.lookup_cons, hne]
    have := lookup_zip (List.nodup_cons.mp hn).2 r (by simpa using hl) (i := i) (by simpa using h)
    simpa using this

/-- The weights given to the snapshots of a call are these. -/
theorem timed_value (s : State) {new : List Snap} (hn : new.Nodup) (d : ℚ) (f : Snap → ℚ) (k : String) {i : ℕ} (h : i < new.length) :
    (step s (.snapshots new d (some f))).1.w.val new[i] k = ((hours (new.map f))[i]?).join := by
  have hne : new ≠ [] := by intro e; simp [e] at h
  simp only [step, setSnapshots, List.isEmpty_iff, hne, if_false]
  congr 1
  refine lookup_zip hn _ ?_ h
  rw [hours_length, List.length_map]

/-! ## Examples -/

def exOps : List Op :=
  [.snapshots [.flat "0", .flat "2", .flat "5"] 1 (some fun x => match x with
    | .flat "0" => 0
    | .flat "2" => 2
    | _ => 5),
   .periods [2020, 2030] true]

example : (run start exOps).w.val (.multi 2030 "0") "stores" = some 2 ∧ (run start exOps).w.val (.multi 2020 "5") "stores" = some 3 ∧
    (run start exOps).pw.index = [2020, 2030] ∧ (run start exOps).pw.val 2030 "years" = some 1 := by decide +kernel

example : Sets start (.periods [2020, 2030] true) := ⟨_, _, rfl, by decide, by decide +kernel⟩

example : LeavesAll (step start (.periods [2020] true)).1 [.weighPeriods (.series [2020] fun _ => some 10), .snapshots [.multi 2020 "a", .multi 2020 "b"] 1 none] := by
  refine ⟨?_, ?_, trivial⟩
  · intro new d times e
    exact absurd e (by simp)
  · intro new d times e p
    injection e with e _ _
    subst e
    have : (step (step start (.periods [2020] true)).1 (.weighPeriods (.series [2020] fun _ => some 10))).1.snaps = [Snap.multi 2020 "now"] := by decide +kernel
    rw [this]
    simp only [List.mem_cons, List.not_mem_nil, or_false, Snap.multi.injEq]
    exact ⟨fun ⟨t, h⟩ => ⟨"now", h.elim (·.1) (·.1), rfl⟩, fun ⟨t, h⟩ => ⟨"a", Or.inl ⟨h.1, rfl⟩⟩⟩

end Verif.Network.Weightings
