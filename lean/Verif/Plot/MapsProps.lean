import Verif.Plot.Maps
import Mathlib.Algebra.Order.BigOperators.Group.List
import Mathlib.Algebra.BigOperators.Ring.List
import Mathlib.Tactic.Linarith
import Mathlib.Tactic.FieldSimp
import Mathlib.Tactic.Ring
import Mathlib.Tactic.LinearCombination
import Mathlib.Analysis.Real.Sqrt

/-!
# Property C129: symbols on a map show what they stand for
-/

namespace Verif.Plot

variable {F : Type} [Field F] [LinearOrder F] [IsStrictOrderedRing F]

/-! ### Specification -/

/-- A square root of all numbers that are not negative. -/
def IsRoot (root : F → F) : Prop := ∀ x, 0 ≤ x → 0 ≤ root x ∧ root x ^ 2 = x

/-- The area of a wedge as a part of that of the circle with radius one. -/
def area (w : Wedge F) : F := w.radius ^ 2 * (w.theta2 - w.theta1) / 360

/-- Wedges side by side from one angle to another. -/
inductive Fills : F → F → List (Wedge F) → Prop
  | nil (a : F) : Fills a a []
  | cons (w : Wedge F) (ws : List (Wedge F)) (b : F) (hle : w.theta1 < w.theta2) (h : Fills w.theta2 b ws) :
      Fills w.theta1 b (w :: ws)

/-! ### Pies -/

theorem root_zero {root : F → F} (hr : IsRoot root) {x : F} (hx : 0 ≤ x) (h : root x = 0) : x = 0 := by
  have := (hr x hx).2
  rw [h] at this
  simpa using this.symm

theorem root_pos {root : F → F} (hr : IsRoot root) {x : F} (hx : 0 < x) : 0 < root x := by
  rcases lt_or_eq_of_le (hr x hx.le).1 with h | h
  · exact h
  · exact absurd (root_zero hr hx.le h.symm) hx.ne'

omit [LinearOrder F] [IsStrictOrderedRing F] in
theorem sectors_keys (bus : Name) (radius scope start : F) (l : List (Name × F)) :
    (sectors bus radius scope start l).map (fun w => (w.bus, w.key, w.radius, w.theta2 - w.theta1)) =
      l.map (fun e => (bus, e.1, radius, scope * e.2)) := by
  induction l generalizing start with
  | nil => rfl
  | cons e l ih =>
    simp only [sectors, List.map_cons, ih]
    congr 4
    ring

theorem sectors_fill (bus : Name) (radius scope start : F) (hs : 0 < scope) (l : List (Name × F))
    (h : ∀ e ∈ l, 0 < e.2) :
    Fills (scope * start) (scope * (start + (l.map (·.2)).sum)) (sectors bus radius scope start l) := by
  induction l generalizing start with
  | nil => simpa [sectors] using Fills.nil (scope * start)
  | cons e l ih =>
    have h1 := ih (start + e.2) (fun x hx => h x (by simp [hx]))
    have h2 : 0 < e.2 := h e (by simp)
    rw [List.map_cons, List.sum_cons, ← add_assoc]
    refine Fills.cons ⟨bus, e.1, radius, scope * start, scope * (start + e.2)⟩ _ _ ?_ h1
    exact mul_lt_mul_of_pos_left (by linarith) hs

omit [IsStrictOrderedRing F] in
theorem sum_abs_of_sign {l : List F} [IsStrictOrderedRing F] (h : (∀ x ∈ l, 0 < x) ∨ (∀ x ∈ l, x < 0)) :
    |l.sum| = (l.map (fun x => |x|)).sum := by
  rcases h with h | h
  · have h0 : 0 ≤ l.sum := List.sum_nonneg (fun x hx => (h x hx).le)
    rw [abs_of_nonneg h0]
    congr 1
    conv_lhs => rw [← List.map_id l]
    apply List.map_congr_left
    intro x hx
    rw [abs_of_pos (h x hx)]; rfl
  · have h1 : (l.map (fun x => |x|)).sum = - l.sum := by
      induction l with
      | nil => simp
      | cons a l ih =>
        rw [List.map_cons, List.sum_cons, List.sum_cons, ih (fun x hx => h x (by simp [hx])),
          abs_of_neg (h a (by simp))]
        ring
    have h0 : l.sum ≤ 0 := by
      have : 0 ≤ (l.map (fun x => |x|)).sum := List.sum_nonneg (by
        intro x hx; obtain ⟨y, _, rfl⟩ := List.mem_map.1 hx; exact abs_nonneg y)
      linarith
    rw [abs_of_nonpos h0, h1]

/-- Entries of one sign: each has a wedge with its value as area, and the wedges fill the scope. -/
theorem pie_spec {root : F → F} (hr : IsRoot root) (bus : Name) (scope start : F) (hs : 0 < scope)
    (s : List (Name × F)) (h : (∀ x ∈ s.map (·.2), 0 < x) ∨ (∀ x ∈ s.map (·.2), x < 0)) :
    (pie root bus scope start s).map (fun w => (w.bus, w.key, area w)) =
        s.map (fun e => (bus, e.1, scope / 360 * |e.2|)) ∧
      (s ≠ [] → Fills (scope * start) (scope * (start + 1)) (pie root bus scope start s)) := by
  have habs := sum_abs_of_sign h
  have hsum : s ≠ [] → (s.map (·.2)).sum ≠ 0 := by
    intro hne h0
    obtain ⟨e, l, rfl⟩ := List.exists_cons_of_ne_nil hne
    rw [h0, abs_zero, List.map_cons, List.map_cons, List.sum_cons] at habs
    have he : e.2 ≠ 0 := by
      rcases h with h | h
      · exact (h e.2 (by simp)).ne'
      · exact (h e.2 (by simp)).ne
    have h1 : 0 < |e.2| := abs_pos.2 he
    have h2 : 0 ≤ ((l.map (·.2)).map (fun x => |x|)).sum := List.sum_nonneg (by
      intro x hx; obtain ⟨y, _, rfl⟩ := List.mem_map.1 hx; exact abs_nonneg y)
    linarith
  by_cases hne : s = []
  · subst hne
    simp [pie, sectors]
  · have ht := hsum hne
    have hrad : root |(s.map (·.2)).sum| ≠ 0 := (root_pos hr (abs_pos.2 ht)).ne'
    have hsq : root |(s.map (·.2)).sum| ^ 2 = |(s.map (·.2)).sum| := (hr _ (abs_nonneg _)).2
    have hratio : ∀ e ∈ s, 0 < e.2 / (s.map (·.2)).sum := by
      intro e he
      have hm : e.2 ∈ s.map (·.2) := List.mem_map.2 ⟨e, he, rfl⟩
      rcases h with h | h
      · have : 0 < (s.map (·.2)).sum := lt_of_le_of_ne (List.sum_nonneg (fun x hx => (h x hx).le)) (Ne.symm ht)
        exact div_pos (h _ hm) this
      · have : (s.map (·.2)).sum < 0 := by
          apply lt_of_le_of_ne _ ht
          by_contra hc
          push Not at hc
          rw [abs_of_pos hc] at habs
          have h3 : (s.map (·.2)).sum ≤ 0 := by
            have : ∀ l : List F, (∀ x ∈ l, x < 0) → l.sum ≤ 0 := by
              intro l hl
              induction l with
              | nil => simp
              | cons a l ih =>
                rw [List.sum_cons]
                have := hl a (by simp)
                have := ih (fun x hx => hl x (by simp [hx]))
                linarith
            exact this _ h
          linarith
        exact div_pos_of_neg_of_neg (h _ hm) this
    have hpie : pie root bus scope start s = sectors bus (root |(s.map (·.2)).sum|) scope start
        (s.map (fun e => (e.1, e.2 / (s.map (·.2)).sum))) := by
      unfold pie
      simp only [if_neg hrad]
    rw [hpie]
    constructor
    · have hk := congrArg (List.map (fun q : Name × Name × F × F => (q.1, q.2.1, q.2.2.1 ^ 2 * q.2.2.2 / 360)))
        (sectors_keys bus (root |(s.map (·.2)).sum|) scope start (s.map (fun e => (e.1, e.2 / (s.map (·.2)).sum))))
      rw [List.map_map, List.map_map, List.map_map] at hk
      refine hk.trans ?_
      apply List.map_congr_left
      intro e he
      simp only [Function.comp_apply, Prod.mk.injEq, true_and]
      rw [hsq]
      have h1 := hratio e he
      have h2 : |e.2| = |(s.map (·.2)).sum| * (e.2 / (s.map (·.2)).sum) := by
        rw [← abs_of_pos h1, abs_div, mul_div_assoc', mul_div_cancel_left₀ _ (abs_ne_zero.2 ht)]
      rw [h2]; ring
    · intro _
      have := sectors_fill bus (root |(s.map (·.2)).sum|) scope start hs
        (s.map (fun e => (e.1, e.2 / (s.map (·.2)).sum))) (by
          intro e he; obtain ⟨x, hx, rfl⟩ := List.mem_map.1 he; exact hratio x hx)
      rw [List.map_map] at this
      have h1 : (s.map ((fun e : Name × F => e.2) ∘ fun e => (e.1, e.2 / (s.map (·.2)).sum))).sum = 1 := by
        have : (s.map ((fun e : Name × F => e.2) ∘ fun e => (e.1, e.2 / (s.map (·.2)).sum))) =
            (s.map (·.2)).map (fun x => x / (s.map (·.2)).sum) := by
          rw [List.map_map]; rfl
        rw [this]
        have hd : ∀ (l : List F) (t : F), (l.map (fun x => x / t)).sum = l.sum / t := by
          intro l t
          induction l with
          | nil => simp
          | cons a l ih => rw [List.map_cons, List.sum_cons, ih, List.sum_cons, add_div]
        rw [hd, div_self ht]
      rw [h1] at this
      exact this

/-- The values of a bus that are shown, with their absolute values; without halves only the positive ones. -/
def shown (split : Bool) (s : List (Name × Option F)) : List (Name × F) :=
  if split then
    s.filterMap (fun e => e.2.bind (fun x => if 0 < x then some (e.1, x) else none)) ++
    s.filterMap (fun e => e.2.bind (fun x => if x < 0 then some (e.1, -x) else none))
  else s.filterMap (fun e => e.2.bind (fun x => if 0 < x then some (e.1, x) else none))

theorem above_pos (s : List (Name × Option F)) : ∀ x ∈ (above s).map (·.2), 0 < x := by
  intro x hx
  obtain ⟨e, he, rfl⟩ := List.mem_map.1 hx
  obtain ⟨a, _, ha⟩ := List.mem_filterMap.1 he
  obtain ⟨i, o⟩ := a
  cases o with
  | none => simp at ha
  | some y =>
    by_cases h : 0 < y
    · simp only [h, if_true, Option.some.injEq] at ha; rw [← ha]; exact h
    · simp [h] at ha

theorem below_neg (s : List (Name × Option F)) : ∀ x ∈ (below s).map (·.2), x < 0 := by
  intro x hx
  obtain ⟨e, he, rfl⟩ := List.mem_map.1 hx
  obtain ⟨a, _, ha⟩ := List.mem_filterMap.1 he
  obtain ⟨i, o⟩ := a
  cases o with
  | none => simp at ha
  | some y =>
    by_cases h : y < 0
    · simp only [h, if_true, Option.some.injEq] at ha; rw [← ha]; exact h
    · simp [h] at ha

theorem above_doubled (bus : Name) (s : List (Name × Option F)) :
    (above (doubled s)).map (fun e => (bus, e.1, 180 / 360 * |e.2|)) =
      (s.filterMap (fun e => e.2.bind (fun x => if 0 < x then some (e.1, x) else none))).map
        (fun e => (bus, e.1, e.2)) := by
  unfold above doubled
  induction s with
  | nil => rfl
  | cons e s ih =>
    obtain ⟨i, o⟩ := e
    cases o with
    | none => simpa using ih
    | some y =>
      by_cases h : 0 < y
      · have h2 : 0 < y * 2 := by linarith
        simp only [List.map_cons, Option.map_some, List.filterMap_cons, h2, if_true, h, Option.bind_some]
        rw [ih, abs_of_pos h2]
        congr 3
        linarith
      · have h2 : ¬ 0 < y * 2 := by intro; apply h; linarith
        simp only [List.map_cons, Option.map_some, List.filterMap_cons, h2, if_false, h, Option.bind_some]
        exact ih

theorem below_doubled (bus : Name) (s : List (Name × Option F)) :
    (below (doubled s)).map (fun e => (bus, e.1, 180 / 360 * |e.2|)) =
      (s.filterMap (fun e => e.2.bind (fun x => if x < 0 then some (e.1, -x) else none))).map
        (fun e => (bus, e.1, e.2)) := by
  unfold below doubled
  induction s with
  | nil => rfl
  | cons e s ih =>
    obtain ⟨i, o⟩ := e
    cases o with
    | none => simpa using ih
    | some y =>
      by_cases h : y < 0
      · have h2 : y * 2 < 0 := by linarith
        simp only [List.map_cons, Option.map_some, List.filterMap_cons, h2, if_true, h, Option.bind_some]
        rw [ih, abs_of_neg h2]
        congr 3
        linarith
      · have h2 : ¬ y * 2 < 0 := by intro; apply h; linarith
        simp only [List.map_cons, Option.map_some, List.filterMap_cons, h2, if_false, h, Option.bind_some]
        exact ih

theorem above_plain (bus : Name) (s : List (Name × Option F)) :
    (above s).map (fun e => (bus, e.1, 360 / 360 * |e.2|)) =
      (s.filterMap (fun e => e.2.bind (fun x => if 0 < x then some (e.1, x) else none))).map
        (fun e => (bus, e.1, e.2)) := by
  unfold above
  induction s with
  | nil => rfl
  | cons e s ih =>
    obtain ⟨i, o⟩ := e
    cases o with
    | none => simpa using ih
    | some y =>
      by_cases h : 0 < y
      · simp only [List.map_cons, List.filterMap_cons, if_true, h, Option.bind_some]
        rw [ih, abs_of_pos h]
        congr 3
        have : (360 : F) ≠ 0 := by norm_num
        field_simp
      · simp only [List.filterMap_cons, if_false, h, Option.bind_some]
        exact ih

theorem busPies_areas {root : F → F} (hr : IsRoot root) (split : Bool) (b : Name) (s : List (Name × Option F)) :
    (busPies root split b s).map (fun w => (w.bus, w.key, area w)) =
      (shown split s).map (fun e => (b, e.1, e.2)) := by
  unfold busPies shown
  cases split with
  | true =>
    simp only [if_true, List.map_append]
    rw [(pie_spec hr b 180 0 (by norm_num) _ (Or.inl (above_pos _))).1,
      (pie_spec hr b 180 1 (by norm_num) _ (Or.inr (below_neg _))).1, above_doubled, below_doubled]
  | false =>
    simp only [Bool.false_eq_true, if_false]
    rw [(pie_spec hr b 360 (1 / 4) (by norm_num) _ (Or.inl (above_pos _))).1, above_plain]

theorem distinct_nodup {α : Type} [DecidableEq α] (l : List α) : (distinct l).Nodup := by
  unfold distinct
  rw [List.nodup_reverse]
  exact List.nodup_dedup _

theorem mem_distinct {α : Type} [DecidableEq α] (l : List α) (a : α) : a ∈ distinct l ↔ a ∈ l := by
  unfold distinct
  rw [List.mem_reverse, List.mem_dedup, List.mem_reverse]

theorem filter_flatMap_one {α : Type} (l : List Name) (hl : l.Nodup) (f : Name → List α) (bus : α → Name)
    (hf : ∀ b, ∀ w ∈ f b, bus w = b) (b : Name) :
    (l.flatMap f).filter (fun w => decide (bus w = b)) = if b ∈ l then f b else [] := by
  have hyes : (f b).filter (fun w => decide (bus w = b)) = f b := by
    rw [List.filter_eq_self]; intro w hw; simp [hf b w hw]
  have hno : ∀ c, c ≠ b → (f c).filter (fun w => decide (bus w = b)) = [] := by
    intro c hc; rw [List.filter_eq_nil_iff]; intro w hw; simp [hf c w hw, hc]
  induction l with
  | nil => simp
  | cons c l ih =>
    rw [List.nodup_cons] at hl
    rw [List.flatMap_cons, List.filter_append, ih hl.2]
    by_cases h : c = b
    · subst h
      rw [hyes, if_neg hl.1]
      simp
    · rw [hno c h]
      have h' : b ≠ c := fun e => h e.symm
      simp [h']

/-- **C129, pies.** Every value at a bus that is shown has one wedge there, whose area is that value, whatever
else is at the bus and whether or not circles are split. -/
theorem pie_areas {root : F → F} (hr : IsRoot root) (split : Bool) (sizes : List (Name × Name × Option F))
    (b : Name) :
    ((pies root split sizes).filter (fun w => decide (w.bus = b))).map (fun w => (w.key, area w)) =
      shown split ((sizes.filter (fun e => decide (e.1 = b))).map (·.2)) := by
  have hb : ∀ c, ∀ w ∈ busPies root split c ((sizes.filter (fun e => e.1 = c)).map (·.2)), w.bus = c := by
    intro c w hw
    have h1 := busPies_areas hr split c ((sizes.filter (fun e => e.1 = c)).map (·.2))
    have h2 : (w.bus, w.key, area w) ∈ (shown split ((sizes.filter (fun e => e.1 = c)).map (·.2))).map
        (fun e => (c, e.1, e.2)) := by
      rw [← h1]; exact List.mem_map.2 ⟨w, hw, rfl⟩
    obtain ⟨e, _, he⟩ := List.mem_map.1 h2
    simp only [Prod.mk.injEq] at he
    exact he.1.symm
  unfold pies
  rw [filter_flatMap_one (distinct (sizes.map (·.1))) (distinct_nodup _)
    (fun c => busPies root split c ((sizes.filter (fun e => e.1 = c)).map (·.2))) (fun w : Wedge F => w.bus) hb]
  have hmem : b ∈ distinct (sizes.map (·.1)) ↔ b ∈ sizes.map (·.1) := mem_distinct _ _
  by_cases h : b ∈ distinct (sizes.map (·.1))
  · rw [if_pos h]
    have h1 := congrArg (List.map (fun q : Name × Name × F => (q.2.1, q.2.2)))
      (busPies_areas hr split b ((sizes.filter (fun e => e.1 = b)).map (·.2)))
    rw [List.map_map, List.map_map] at h1
    refine h1.trans ?_
    conv_rhs => rw [← List.map_id (shown split _)]
    rfl
  · rw [if_neg h]
    have : sizes.filter (fun e => decide (e.1 = b)) = [] := by
      rw [List.filter_eq_nil_iff]
      intro e he hc
      apply h
      rw [hmem]
      exact List.mem_map.2 ⟨e, he, by simpa using hc⟩
    rw [this]
    cases split <;> simp [shown]

/-- **C129, halves.** With split circles the positive values of a bus fill the upper half from 0 to 180 degrees
and the negative ones the lower half; otherwise the positive values fill the circle. -/
theorem pie_halves {root : F → F} (hr : IsRoot root) (bus : Name) (s : List (Name × Option F)) :
    (∃ up low, busPies root true bus s = up ++ low ∧
      (up ≠ [] → Fills 0 180 up) ∧ (low ≠ [] → Fills 180 360 low) ∧
      up.length = (s.filter (fun e => e.2.any (fun x => 0 < x))).length ∧
      low.length = (s.filter (fun e => e.2.any (fun x => x < 0))).length) ∧
    (busPies root false bus s ≠ [] → Fills 90 450 (busPies root false bus s)) := by
  have len : ∀ (scope start : F) (l : List (Name × F)), (pie root bus scope start l).length = l.length := by
    intro scope start l
    have hs : ∀ (rad st : F) (l : List (Name × F)), (sectors bus rad scope st l).length = l.length := by
      intro rad st l
      have := congrArg List.length (sectors_keys bus rad scope st l)
      simpa using this
    unfold pie
    dsimp only
    split_ifs <;> simp [hs]
  have hne : ∀ (scope start : F) (l : List (Name × F)), pie root bus scope start l ≠ [] → l ≠ [] := by
    intro scope start l h e
    apply h
    have := len scope start l
    rw [e] at this ⊢
    simpa using this
  constructor
  · refine ⟨_, _, by unfold busPies; rw [if_pos rfl], ?_, ?_, ?_, ?_⟩
    · intro h
      have := (pie_spec hr bus 180 0 (by norm_num) _ (Or.inl (above_pos (doubled s)))).2 (hne _ _ _ h)
      norm_num at this
      exact this
    · intro h
      have := (pie_spec hr bus 180 1 (by norm_num) _ (Or.inr (below_neg (doubled s)))).2 (hne _ _ _ h)
      norm_num at this
      exact this
    · rw [len]
      have := congrArg List.length (above_doubled bus s)
      rw [List.length_map, List.length_map] at this
      rw [this]
      clear this hne len
      induction s with
      | nil => rfl
      | cons e s ih =>
        obtain ⟨i, o⟩ := e
        cases o with
        | none => simpa using ih
        | some y => by_cases h : 0 < y <;> simp [h, ih]
    · rw [len]
      have := congrArg List.length (below_doubled bus s)
      rw [List.length_map, List.length_map] at this
      rw [this]
      clear this hne len
      induction s with
      | nil => rfl
      | cons e s ih =>
        obtain ⟨i, o⟩ := e
        cases o with
        | none => simpa using ih
        | some y => by_cases h : y < 0 <;> simp [h, ih]
  · unfold busPies
    simp only [Bool.false_eq_true, if_false]
    intro h
    have := (pie_spec hr bus 360 (1 / 4) (by norm_num) _ (Or.inl (above_pos s))).2 (hne _ _ _ h)
    norm_num at this
    exact this

/-- **C129, circles.** A circle has its value as area too, so it is as large as a pie of that total. -/
theorem circle_areas {root : F → F} (hr : IsRoot root) (sizes : List (Name × Option F))
    (h : ∀ e ∈ sizes, ∀ x, e.2 = some x → 0 ≤ x) :
    (circles root sizes).map (fun e => (e.1, e.2.map (fun c => (c.bus, c.radius ^ 2)))) =
      sizes.filterMap (fun e => e.2.bind (fun x => if 0 < x then some (e.1, some (e.1, x)) else none)) := by
  unfold circles
  induction sizes with
  | nil => rfl
  | cons e s ih =>
    have ih := ih (fun y hy => h y (by simp [hy]))
    obtain ⟨i, o⟩ := e
    cases o with
    | none => simpa using ih
    | some y =>
      have hy := h (i, some y) (by simp) y rfl
      rcases lt_or_eq_of_le hy with hp | hp
      · have h1 : ¬ y = 0 := hp.ne'
        have h2 : ¬ y < 0 := not_lt.2 hy
        simp only [List.filterMap_cons, h1, if_false, h2, List.map_cons, Option.map_some, ih, Option.bind_some,
          hp, if_true, (hr y hy).2]
      · subst hp
        simpa using ih

/-! ### Arrows -/

/-- The place power comes from and the place it goes to. -/
def sender (r : FlowRow F) : F × F := if 0 ≤ r.flow then (r.x1, r.y1) else (r.x2, r.y2)

def receiver (r : FlowRow F) : F × F := if 0 ≤ r.flow then (r.x2, r.y2) else (r.x1, r.y1)

omit [IsStrictOrderedRing F] in
theorem swapped_eq (r : FlowRow F) : (swapped r).x1 = (sender r).1 ∧ (swapped r).y1 = (sender r).2 ∧
    (swapped r).x2 = (receiver r).1 ∧ (swapped r).y2 = (receiver r).2 := by
  unfold swapped sender receiver
  by_cases h : r.flow < 0
  · simp [h, not_le.2 h]
  · simp [h, not_lt.1 h]

theorem length_pos {root : F → F} (hr : IsRoot root) (r : FlowRow F) (h : (r.x1, r.y1) ≠ (r.x2, r.y2)) :
    0 < lineLength root r := by
  apply root_pos hr
  by_cases hx : r.x1 = r.x2
  · have hy : r.y1 ≠ r.y2 := fun e => h (by rw [hx, e])
    have := sq_pos_of_ne_zero (sub_ne_zero.2 hy)
    nlinarith [sq_nonneg (r.x1 - r.x2)]
  · have := sq_pos_of_ne_zero (sub_ne_zero.2 hx)
    nlinarith [sq_nonneg (r.y1 - r.y2)]

/-- **C129, arrows.** The arrow of a branch between two places starts where the power comes from and points to
where it goes; it ends before; the square of the width of its head is proportional to the flow. -/
theorem arrow_direction {root : F → F} (hr : IsRoot root) (areaFactor : F) (ha : 0 < areaFactor) (r : FlowRow F)
    (h : (r.x1, r.y1) ≠ (r.x2, r.y2)) :
    ∃ a, arrowOf root areaFactor r = some a ∧ (a.x, a.y) = sender r ∧
      (∃ c, 0 < c ∧ c < 1 ∧ a.dx = c * ((receiver r).1 - (sender r).1) ∧
        a.dy = c * ((receiver r).2 - (sender r).2)) ∧
      ((1 / 100000000) ^ 2 ≤ |r.flow| → a.head ^ 2 = areaFactor ^ 2 * |r.flow|) := by
  have hl := length_pos hr r h
  obtain ⟨e1, e2, e3, e4⟩ := swapped_eq r
  have hhead : (1 / 100000000) ^ 2 ≤ |r.flow| → arrowSize root areaFactor r ^ 2 = areaFactor ^ 2 * |r.flow| := by
    intro hf
    have h1 := hr |r.flow| (abs_nonneg _)
    have h2 : (1 / 100000000 : F) ≤ root |r.flow| := by
      apply le_of_sq_le_sq _ h1.1
      rw [h1.2]; exact hf
    unfold arrowSize
    rw [max_eq_left h2, mul_pow, h1.2, mul_comm]
  unfold arrowOf
  simp only [hl, if_true, e1, e2, e3, e4]
  by_cases hb : 3 / 2 * arrowSize root areaFactor r > lineLength root r
  · rw [if_pos hb]
    exact ⟨_, rfl, rfl, ⟨1 / 1000, by norm_num, by norm_num, rfl, rfl⟩, hhead⟩
  · rw [if_neg hb]
    have hsize : 0 < arrowSize root areaFactor r := by
      unfold arrowSize
      apply mul_pos _ ha
      exact lt_of_lt_of_le (by norm_num) (le_max_right _ _)
    have hq : arrowSize root areaFactor r / lineLength root r ≤ 2 / 3 := by
      rw [div_le_iff₀ hl]; push Not at hb; linarith
    have hq0 : 0 < arrowSize root areaFactor r / lineLength root r := div_pos hsize hl
    refine ⟨_, rfl, rfl, ⟨3 / 5 - 3 / 4 * (arrowSize root areaFactor r / lineLength root r), by linarith, by linarith, ?_, ?_⟩, hhead⟩
    · simp only; ring
    · simp only; ring

/-- A branch with its ends exchanged. -/
def FlowRow.turned (r : FlowRow F) : FlowRow F := ⟨r.x2, r.y2, r.x1, r.y1, - r.flow⟩

omit [IsStrictOrderedRing F] in
/-- **C129, direction of branches.** Which bus is `bus0` does not matter for the arrow. -/
theorem arrow_turned [IsStrictOrderedRing F] (root : F → F) (areaFactor : F) (r : FlowRow F) (h : r.flow ≠ 0) :
    arrowOf root areaFactor r.turned = arrowOf root areaFactor r := by
  have h1 : arrowSize root areaFactor r.turned = arrowSize root areaFactor r := by
    simp [arrowSize, FlowRow.turned]
  have h2 : lineLength root r.turned = lineLength root r := by
    unfold lineLength FlowRow.turned
    congr 1; ring
  have h3 : (swapped r.turned).x1 = (swapped r).x1 ∧ (swapped r.turned).y1 = (swapped r).y1 ∧
      (swapped r.turned).x2 = (swapped r).x2 ∧ (swapped r.turned).y2 = (swapped r).y2 := by
    unfold swapped FlowRow.turned
    rcases lt_or_gt_of_ne h with hn | hp
    · have : ¬ - r.flow < 0 := by linarith
      simp [hn, this]
    · have h' : ¬ r.flow < 0 := by linarith
      have : - r.flow < 0 := by linarith
      simp [h', this]
  obtain ⟨e1, e2, e3, e4⟩ := h3
  unfold arrowOf
  simp only [h1, h2, e1, e2, e3, e4]

/-- **C129, colours (partial: see `colours_shift`).** If no branch has both buses at one place, every branch has
an arrow in its colour. -/
theorem colours_partial {C : Type} {root : F → F} (hr : IsRoot root) (areaFactor : F) (rows : List (FlowRow F))
    (colors : List C) (hlen : colors.length = rows.length)
    (h : ∀ r ∈ rows, (r.x1, r.y1) ≠ (r.x2, r.y2)) :
    (coloured root areaFactor rows colors).map (fun a => (some a.1, a.2)) =
      (rows.zip colors).map (fun rc => (arrowOf root areaFactor rc.1, some rc.2)) := by
  have hall : ∀ r ∈ rows, ∃ a, arrowOf root areaFactor r = some a := by
    intro r hrm
    have hl := length_pos hr r (h r hrm)
    unfold arrowOf
    simp only [hl, if_true]
    split_ifs <;> exact ⟨_, rfl⟩
  have hfm : (rows.filterMap (arrowOf root areaFactor)).map some = rows.map (arrowOf root areaFactor) := by
    clear hlen h
    induction rows with
    | nil => rfl
    | cons r l ih =>
      obtain ⟨a, ha⟩ := hall r (by simp)
      simp [ha, ih (fun x hx => hall x (by simp [hx]))]
  have hlen2 : (rows.filterMap (arrowOf root areaFactor)).length = rows.length := by
    have := congrArg List.length hfm
    simpa using this
  unfold coloured
  apply List.ext_getElem?
  intro i
  simp only [List.map_map, List.getElem?_map, List.getElem?_zipIdx]
  by_cases hi : i < rows.length
  · have hi2 : i < (rows.filterMap (arrowOf root areaFactor)).length := by rw [hlen2]; exact hi
    have hi3 : i < colors.length := by rw [hlen]; exact hi
    have hv := congrArg (fun l => l[i]?) hfm
    simp only [List.getElem?_map, List.getElem?_eq_getElem hi2, List.getElem?_eq_getElem hi, Option.map_some,
      Option.some.injEq] at hv
    have hz : (rows.zip colors)[i]? = some (rows[i], colors[i]) := by
      rw [List.getElem?_eq_getElem (by simp [hi, hi3])]
      simp
    rw [hz, List.getElem?_eq_getElem hi2]
    simp only [Option.map_some, Function.comp_apply, Nat.zero_add, Nat.mod_eq_of_lt hi3,
      List.getElem?_eq_getElem hi3, hv]
    obtain ⟨a, ha⟩ := hall rows[i] (List.getElem_mem hi)
    simp [ha, Nat.mod_eq_of_lt hi3, hi3]
  · have h1 : (rows.filterMap (arrowOf root areaFactor))[i]? = none := by
      rw [List.getElem?_eq_none_iff, hlen2]; exact not_lt.1 hi
    have h2 : (rows.zip colors)[i]? = none := by
      rw [List.getElem?_eq_none_iff]; simp; left; exact not_lt.1 hi
    rw [h1, h2]; rfl

/-- **C129, widths.** The rectangle of a branch has the line between its buses as middle line, and its sides at the buses are
at right angles to that line and as long as the width. -/
theorem rectangle {root : F → F} (hr : IsRoot root) (areaFactor width x0 y0 x1 y1 : F) (h : (x0, y0) ≠ (x1, y1)) :
    ∃ a b c d, corners root areaFactor width x0 y0 x1 y1 = some [a, b, c, d] ∧
      (a.1 + d.1 = 2 * x0 ∧ a.2 + d.2 = 2 * y0) ∧ (b.1 + c.1 = 2 * x1 ∧ b.2 + c.2 = 2 * y1) ∧
      (a.1 - d.1) * (x1 - x0) + (a.2 - d.2) * (y1 - y0) = 0 ∧
      (a.1 - d.1) ^ 2 + (a.2 - d.2) ^ 2 = (width * areaFactor) ^ 2 ∧
      (b.1 - a.1 = x1 - x0 ∧ b.2 - a.2 = y1 - y0) := by
  have hsum : 0 < (x1 - x0) ^ 2 + (y1 - y0) ^ 2 := by
    by_cases hx : x0 = x1
    · have hy : y0 ≠ y1 := fun e => h (by rw [hx, e])
      have := sq_pos_of_ne_zero (sub_ne_zero.2 (Ne.symm hy))
      nlinarith [sq_nonneg (x1 - x0)]
    · have := sq_pos_of_ne_zero (sub_ne_zero.2 (Ne.symm hx))
      nlinarith [sq_nonneg (y1 - y0)]
  have hlen := root_pos hr hsum
  have hsq := (hr _ hsum.le).2
  unfold corners
  simp only [if_neg hlen.ne']
  refine ⟨_, _, _, _, rfl, ⟨by simp only; ring, by simp only; ring⟩, ⟨by simp only; ring, by simp only; ring⟩, by simp only; ring, ?_,
    ⟨by simp only; ring, by simp only; ring⟩⟩
  generalize root ((x1 - x0) ^ 2 + (y1 - y0) ^ 2) = L at hlen hsq ⊢
  have hL : L ≠ 0 := hlen.ne'
  simp only
  field_simp
  linear_combination (-4 * width ^ 2 * areaFactor ^ 2) * hsq

/-! ### Flows between buses -/

/-- Both branches join the same two buses. -/
def SamePair (c d : Conn F) : Prop := (c.bus0 = d.bus0 ∧ c.bus1 = d.bus1) ∨ (c.bus0 = d.bus1 ∧ c.bus1 = d.bus0)

instance (c d : Conn F) : Decidable (SamePair c d) := by unfold SamePair; infer_instance

/-- What the branch `d` carries from the first to the second bus of `c`. -/
def along (c d : Conn F) : F :=
  if d.bus0 = c.bus0 ∧ d.bus1 = c.bus1 then d.flow
  else if d.bus0 = c.bus1 ∧ d.bus1 = c.bus0 then - d.flow else 0

/-- What branches draw from a bus. -/
def drawnAt (b : Name) (cs : List (Conn F)) : F :=
  (cs.map (fun c => (if c.bus0 = b then c.flow else 0) - (if c.bus1 = b then c.flow else 0))).sum

/-- Pairs of buses stay apart when their names are joined. -/
def NoClash (cs : List (Conn F)) : Prop := ∀ c ∈ cs, ∀ d ∈ cs, pairName c = pairName d → SamePair c d

omit [LinearOrder F] [IsStrictOrderedRing F] in
theorem pair_of_same {c d : Conn F} (h : SamePair c d) : pairName c = pairName d := by
  rcases h with ⟨h0, h1⟩ | ⟨h0, h1⟩
  · unfold pairName; rw [h0, h1]
  · unfold pairName
    rw [h0, h1]
    rcases lt_trichotomy d.bus0 d.bus1 with hl | he | hl
    · rw [if_pos hl, if_neg (not_lt.2 hl.le)]
    · rw [he]
    · rw [if_neg (not_lt.2 hl.le), if_pos hl]

omit [LinearOrder F] [IsStrictOrderedRing F] in
theorem sign_along (c d : Conn F) (h : SamePair d c) : d.flow * sign d * sign c = along c d := by
  unfold along
  by_cases h1 : d.bus0 = c.bus0 ∧ d.bus1 = c.bus1
  · rw [if_pos h1]
    unfold sign
    rw [h1.1, h1.2]
    split_ifs <;> ring
  · rw [if_neg h1]
    have h2 : d.bus0 = c.bus1 ∧ d.bus1 = c.bus0 := h.resolve_left h1
    rw [if_pos h2]
    have hne : c.bus0 ≠ c.bus1 := by
      intro e
      exact h1 ⟨h2.1.trans e.symm, h2.2.trans e⟩
    unfold sign
    rw [h2.1, h2.2]
    rcases lt_or_gt_of_ne hne with hl | hl
    · rw [if_neg (not_lt.2 hl.le), if_pos hl]; ring
    · rw [if_pos hl, if_neg (not_lt.2 hl.le)]; ring

omit [LinearOrder F] [IsStrictOrderedRing F] in
theorem along_zero (c d : Conn F) (h : ¬ SamePair d c) : along c d = 0 := by
  unfold SamePair at h
  push Not at h
  unfold along
  rw [if_neg (fun e => h.1 e.1 e.2), if_neg (fun e => h.2 e.1 e.2)]

omit [LinearOrder F] [IsStrictOrderedRing F] in
theorem sum_filter_mul {α : Type} (l : List α) (q : α → Bool) (x y : α → F) (k : F)
    (h1 : ∀ e ∈ l, q e = true → x e * k = y e) (h0 : ∀ e ∈ l, q e = false → y e = 0) :
    ((l.filter q).map x).sum * k = (l.map y).sum := by
  induction l with
  | nil => simp
  | cons e l ih =>
    have ih := ih (fun z hz => h1 z (by simp [hz])) (fun z hz => h0 z (by simp [hz]))
    rw [List.map_cons, List.sum_cons, ← ih]
    cases hq : q e with
    | true => rw [List.filter_cons_of_pos hq, List.map_cons, List.sum_cons, add_mul, h1 e (by simp) hq]
    | false => rw [List.filter_cons_of_neg (by simp [hq]), h0 e (by simp) hq, zero_add]

omit [LinearOrder F] [IsStrictOrderedRing F] in
theorem firsts_mem (before cs : List (Conn F)) {c : Conn F} (h : c ∈ firsts before cs) : c ∈ cs := by
  induction cs generalizing before with
  | nil => simp [firsts] at h
  | cons d cs ih =>
    unfold firsts at h
    split_ifs at h
    · exact List.mem_cons_of_mem _ (ih _ h)
    · rcases List.mem_cons.1 h with rfl | h
      · simp
      · exact List.mem_cons_of_mem _ (ih _ h)

omit [LinearOrder F] [IsStrictOrderedRing F] in
theorem firsts_apart (before cs : List (Conn F)) :
    (∀ c ∈ firsts before cs, pairName c ∉ before.map pairName) ∧
    (firsts before cs).Pairwise (fun c d => pairName c ≠ pairName d) := by
  induction cs generalizing before with
  | nil => simp [firsts]
  | cons d cs ih =>
    obtain ⟨h1, h2⟩ := ih (d :: before)
    unfold firsts
    split_ifs with hc
    · exact ⟨fun c hcm hm => h1 c hcm (by simp only [List.map_cons, List.mem_cons]; exact Or.inr hm), h2⟩
    · constructor
      · intro c hcm hm
        rcases List.mem_cons.1 hcm with rfl | hcm
        · exact hc (by simpa using hm)
        · exact h1 c hcm (by simp only [List.map_cons, List.mem_cons]; exact Or.inr hm)
      · rw [List.pairwise_cons]
        refine ⟨?_, h2⟩
        intro c hcm he
        exact h1 c hcm (by simp [he])

omit [LinearOrder F] [IsStrictOrderedRing F] in
theorem firsts_complete (before cs : List (Conn F)) :
    ∀ c ∈ cs, pairName c ∈ before.map pairName ∨ ∃ d ∈ firsts before cs, pairName d = pairName c := by
  induction cs generalizing before with
  | nil => simp
  | cons e cs ih =>
    intro c hc
    by_cases hb : (before.map pairName).contains (pairName e) = true
    · have hf : firsts before (e :: cs) = firsts (e :: before) cs := by rw [firsts, if_pos hb]
      rw [hf]
      rcases List.mem_cons.1 hc with rfl | hc
      · left; simpa using hb
      · rcases ih (e :: before) c hc with h | h
        · rw [List.map_cons, List.mem_cons] at h
          rcases h with h | h
          · left; rw [h]; simpa using hb
          · left; exact h
        · right; exact h
    · have hf : firsts before (e :: cs) = e :: firsts (e :: before) cs := by rw [firsts, if_neg hb]
      rw [hf]
      rcases List.mem_cons.1 hc with rfl | hc
      · right; exact ⟨c, by simp, rfl⟩
      · rcases ih (e :: before) c hc with h | ⟨d, hd, he⟩
        · rw [List.map_cons, List.mem_cons] at h
          rcases h with h | h
          · right; exact ⟨e, by simp, h.symm⟩
          · left; exact h
        · right; exact ⟨d, List.mem_cons_of_mem _ hd, he⟩

omit [LinearOrder F] [IsStrictOrderedRing F] in
/-- **C129, net flows (partial: see `names_clash`).** Each two buses that are joined by branches are left with
exactly one of these branches, which shows the net flow of all of them in its own direction. -/
theorem aggregate_net_partial (cs : List (Conn F)) (h : NoClash cs) :
    (aggregateFlow cs).Pairwise (fun c d => ¬ SamePair c d) ∧
    (∀ c ∈ cs, ∃ d ∈ aggregateFlow cs, SamePair d c) ∧
    ∀ d ∈ aggregateFlow cs, (∃ c ∈ cs, c.label = d.label ∧ c.bus0 = d.bus0 ∧ c.bus1 = d.bus1) ∧
      d.flow = (cs.map (along d)).sum := by
  have hap := firsts_apart ([] : List (Conn F)) cs
  refine ⟨?_, ?_, ?_⟩
  · unfold aggregateFlow
    rw [List.pairwise_map]
    refine hap.2.imp ?_
    intro c d hne hs
    exact hne (pair_of_same hs)
  · intro c hc
    rcases firsts_complete [] cs c hc with hm | ⟨d, hd, he⟩
    · simp at hm
    · exact ⟨_, List.mem_map.2 ⟨d, hd, rfl⟩, h d (firsts_mem _ _ hd) c hc he⟩
  · intro d hd
    obtain ⟨c, hc, rfl⟩ := List.mem_map.1 hd
    have hcm := firsts_mem _ _ hc
    refine ⟨⟨c, hcm, rfl, rfl, rfl⟩, ?_⟩
    change grouped cs c = _
    unfold grouped
    apply sum_filter_mul
    · intro e he hq
      exact sign_along c e (h e he c hcm (by simpa using hq))
    · intro e he hq
      apply along_zero c e
      intro hs
      simp only [decide_eq_false_iff_not] at hq
      exact hq (pair_of_same hs)

omit [LinearOrder F] [IsStrictOrderedRing F] in
theorem sum_by_key {α : Type} (l : List α) (x : α → F) (key : α → Name) (reps : List α)
    (hap : reps.Pairwise (fun c d => key c ≠ key d)) (hall : ∀ c ∈ l, ∃ d ∈ reps, key d = key c) :
    (reps.map (fun d => ((l.filter (fun c => decide (key c = key d))).map x).sum)).sum = (l.map x).sum := by
  induction l with
  | nil => simp
  | cons a l ih =>
    have ih := ih (fun c hc => hall c (by simp [hc]))
    rw [List.map_cons, List.sum_cons, ← ih]
    obtain ⟨d, hd, he⟩ := hall a (by simp)
    have hone : ∀ (reps : List α), reps.Pairwise (fun c d => key c ≠ key d) → d ∈ reps →
        (reps.map (fun d => (((a :: l).filter (fun c => decide (key c = key d))).map x).sum)).sum =
          x a + (reps.map (fun d => ((l.filter (fun c => decide (key c = key d))).map x).sum)).sum := by
      intro reps hp hm
      have hnone : ∀ (rs : List α), (∀ r ∈ rs, key r ≠ key a) →
          (rs.map (fun d => (((a :: l).filter (fun c => decide (key c = key d))).map x).sum)).sum =
            (rs.map (fun d => ((l.filter (fun c => decide (key c = key d))).map x).sum)).sum := by
        intro rs hr
        congr 1
        apply List.map_congr_left
        intro r hrm
        rw [List.filter_cons_of_neg (by simpa using Ne.symm (hr r hrm))]
      induction reps with
      | nil => simp at hm
      | cons r rs ihr =>
        rw [List.pairwise_cons] at hp
        rw [List.map_cons, List.sum_cons, List.map_cons, List.sum_cons]
        by_cases hk : key r = key a
        · rw [List.filter_cons_of_pos (by simpa using hk.symm), List.map_cons, List.sum_cons,
            hnone rs (fun q hq e => hp.1 q hq (hk.trans e.symm))]
          ring
        · have hm' : d ∈ rs := by
            rcases List.mem_cons.1 hm with rfl | hm
            · exact absurd he hk
            · exact hm
          rw [List.filter_cons_of_neg (by simpa using Ne.symm hk), ihr hp.2 hm']
          ring
    exact hone reps hap hd

omit [LinearOrder F] [IsStrictOrderedRing F] in
theorem drawn_sign (b : Name) (c d : Conn F) (h : SamePair c d) (f : F) :
    (if c.bus0 = b then f * sign c else 0) - (if c.bus1 = b then f * sign c else 0) =
      (if d.bus0 = b then f * sign d else 0) - (if d.bus1 = b then f * sign d else 0) := by
  rcases h with ⟨h0, h1⟩ | ⟨h0, h1⟩
  · unfold sign; rw [h0, h1]
  · unfold sign
    rw [h0, h1]
    rcases lt_trichotomy d.bus0 d.bus1 with hl | he | hl
    · rw [if_neg (not_lt.2 hl.le), if_pos hl]; split_ifs <;> ring
    · rw [he]
    · rw [if_pos hl, if_neg (not_lt.2 hl.le)]; split_ifs <;> ring

omit [LinearOrder F] [IsStrictOrderedRing F] in
/-- **C129, balance.** The flows shown draw the same power from every bus as all flows do. -/
theorem aggregate_balance_partial (cs : List (Conn F)) (h : NoClash cs) (b : Name) :
    drawnAt b (aggregateFlow cs) = drawnAt b cs := by
  have hap := firsts_apart ([] : List (Conn F)) cs
  have hsq : ∀ c : Conn F, sign c * sign c = 1 := by
    intro c; unfold sign; split_ifs <;> ring
  unfold drawnAt aggregateFlow
  rw [List.map_map]
  rw [← sum_by_key cs (fun c => (if c.bus0 = b then c.flow else 0) - (if c.bus1 = b then c.flow else 0)) pairName
    (firsts [] cs) hap.2 (by
      intro c hc
      rcases firsts_complete [] cs c hc with hm | hm
      · simp at hm
      · exact hm)]
  congr 1
  apply List.map_congr_left
  intro c hc
  have hcm := firsts_mem _ _ hc
  have hpart : ∀ l : List (Conn F), (∀ d ∈ l, d ∈ cs) →
      (if c.bus0 = b then ((l.filter (fun d => decide (pairName d = pairName c))).map
          (fun d => d.flow * sign d)).sum * sign c else 0) -
        (if c.bus1 = b then ((l.filter (fun d => decide (pairName d = pairName c))).map
          (fun d => d.flow * sign d)).sum * sign c else 0) =
      ((l.filter (fun d => decide (pairName d = pairName c))).map
        (fun d => (if d.bus0 = b then d.flow else 0) - (if d.bus1 = b then d.flow else 0))).sum := by
    intro l hl
    induction l with
    | nil => simp
    | cons d l ih =>
      have ih := ih (fun x hx => hl x (by simp [hx]))
      by_cases hk : pairName d = pairName c
      · rw [List.filter_cons_of_pos (by simpa using hk), List.map_cons, List.sum_cons, List.map_cons, List.sum_cons, ← ih]
        have hs := h d (hl d (by simp)) c hcm hk
        have h1 := drawn_sign b d c hs (d.flow * sign d)
        have h2 : d.flow * sign d * sign d = d.flow := by rw [mul_assoc, hsq, mul_one]
        rw [h2] at h1
        rw [h1]
        split_ifs <;> ring
      · rw [List.filter_cons_of_neg (by simpa using hk)]
        exact ih
  exact hpart cs (fun d hd => hd)

/-! ### Areas -/

/-- **C129, scaling.** With the factor the areas cover the wanted part of the map. -/
theorem scaling_covers (areas : List F) (xMin xMax yMin yMax fraction : F) (h : ∃ a ∈ areas, a ≠ 0) :
    (areas.map (fun a => |a|)).sum * scalingFactor areas xMin xMax yMin yMax fraction =
      fraction * ((xMax - xMin) * (yMax - yMin)) := by
  have hpos : ∀ l : List F, 0 ≤ (l.map (fun a => |a|)).sum := by
    intro l
    apply List.sum_nonneg
    intro x hx; obtain ⟨y, _, rfl⟩ := List.mem_map.1 hx; exact abs_nonneg y
  have hne : (areas.map (fun a => |a|)).sum ≠ 0 := by
    obtain ⟨a, ha, hn⟩ := h
    induction areas with
    | nil => simp at ha
    | cons c l ih =>
      rw [List.map_cons, List.sum_cons]
      have h1 := hpos l
      have h2 := abs_nonneg c
      rcases List.mem_cons.1 ha with rfl | ha
      · have := abs_pos.2 hn; linarith
      · have h3 := lt_of_le_of_ne h1 (Ne.symm (ih ha))
        linarith
  unfold scalingFactor
  simp only [if_neg hne]
  field_simp

/-! ### Examples and findings -/

/-- The real square root is such a root. -/
example : IsRoot Real.sqrt := fun x hx => ⟨Real.sqrt_nonneg x, Real.sq_sqrt hx⟩

def mapLines : List (Conn ℚ) :=
  [⟨"l1", "b", "a", 5⟩, ⟨"l2", "a", "b", 7⟩, ⟨"l3", "b", "c", 1⟩, ⟨"l4", "b", "a", 4⟩, ⟨"l5", "c", "c", 3⟩]

theorem mapLines_apart : NoClash mapLines := by
  unfold NoClash
  decide +kernel

example : NoClash mapLines ∧ (aggregateFlow mapLines).map (fun c => (c.label, c.flow)) = [("l1", 2), ("l3", 1), ("l5", 3)] ∧
    drawnAt "b" mapLines = 3 := by
  exact ⟨mapLines_apart, by decide +kernel, by decide +kernel⟩

/-- **Finding** (`static.py` 913): pairs of buses are told apart by joined names.  Here the branch between "a"
and "b - c" is lost, and its flow counts for the one between "a - b" and "c". -/
theorem names_clash : (aggregateFlow [⟨"l1", "a - b", "c", 5⟩, ⟨"l2", "a", "b - c", (7 : ℚ)⟩]).map
    (fun c => (c.label, c.flow)) = [("l1", 12)] := by
  decide +kernel

/-- **Finding** (`static.py` 801-808): a branch without an arrow (both buses at one place) leaves its colour to the
next arrow. -/
theorem colours_shift : (coloured (fun x : ℚ => x) 1 [⟨0, 0, 0, 0, 1⟩, ⟨0, 0, 9, 0, 1⟩] ["red", "blue"]).map (·.2) =
    [some "red"] := by
  decide +kernel

/-- **Finding** (`static.py` 1134-1154): the argument `flow`, documented to be passed to all branches, is ignored
if it is no series with a MultiIndex. -/
theorem flow_ignored {α : Type} (f : α) : branchFlows (.plain f) none none none = some (none, none, none) := rfl

/-- Otherwise each class gets its own flows, and none are mixed with the other arguments. -/
theorem flows_by_class {α : Type} (line link trafo a b c : Option α) :
    branchFlows .none line link trafo = some (line, link, trafo) ∧
    branchFlows (.multi a b c) none none none = some (a, b, c) ∧
    ∀ f, (branchFlows f line link trafo = none ↔
      (∀ e : f = .none, False) ∧ ¬ (line = none ∧ link = none ∧ trafo = none)) := by
  refine ⟨rfl, rfl, ?_⟩
  intro f
  cases f <;> cases line <;> cases link <;> cases trafo <;> simp [branchFlows]

end Verif.Plot
