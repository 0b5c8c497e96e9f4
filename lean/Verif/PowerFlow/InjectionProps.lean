import Verif.PowerFlow.Injection
import Mathlib.Tactic.Ring
import Mathlib.Tactic.LinearCombination
import Mathlib.Algebra.Order.Ring.Rat

/-!
# Properties C25 (injections) and C30
-/

namespace Verif.PowerFlow

variable {F : Type} [Field F]

/-! ### Injections -/

/-- A one-port that is out of service does not take part. -/
theorem injection_ignores_inactive (ops : List (OnePort F)) (links : List (LinkRow F)) (x : Name) :
    injection ops links x = injection (ops.filter (·.active)) links x := by
  unfold injection
  rw [List.filter_filter]
  congr 4
  funext o
  cases o.active <;> simp

/-- The power a link takes out of the network: over all buses its contribution adds up to
`-p0` times (1 - sum of the efficiencies of connected ports). -/
theorem link_total (k : LinkRow F) : ((k.flows).map (·.2)).sum =
    k.pSet * (1 - ((k.ports.filter (fun q => q.1 ≠ "")).map (·.2)).sum) := by
  unfold LinkRow.flows
  rw [List.map_cons, List.sum_cons, List.map_map]
  generalize k.ports.filter (fun q => q.1 ≠ "") = l
  have : (l.map ((fun q : Name × F => q.2) ∘ fun q => (q.1, -k.pSet * q.2))).sum =
      -k.pSet * (l.map (·.2)).sum := by
    induction l with
    | nil => simp
    | cons a l ih => simp only [List.map_cons, List.sum_cons, ih, Function.comp]; ring
  rw [this]; ring

/-- **C25 is violated for links out of service** (finding, `pf.py` 146-157 and 1490-1499): a link with
`active=False` still moves its set point from one bus to the other. -/
theorem inactive_link_injects :
    injection (F := ℚ) [] [⟨"a", [("b", 1)], false, 5⟩] "a" = -5 ∧
    injection (F := ℚ) [] [⟨"a", [("b", 1)], false, 5⟩] "b" = 5 := by
  decide +kernel

/-- **C25, generators.** If the slack generator is in service with sign 1 and has a unique
name, the components at the slack bus account for the adjusted injection, and all other buses
are unchanged. -/
theorem slack_generator_consistent (ops : List (OnePort F)) (links : List (LinkRow F))
    (hnd : (ops.map (·.name)).Nodup) (o : OnePort F) (ho : o ∈ ops) (hact : o.active = true)
    (hsign : o.sign = 1) (adj : F) (x : Name) :
    injection (adjustSlack o.name adj ops) links x =
      injection ops links x + if x = o.bus then adj else 0 := by
  unfold injection adjustSlack
  have key : (((ops.map (fun o' => if o'.name = o.name then { o' with p := o'.p + adj } else o')).filter
      (fun o => o.active && o.bus = x)).map (fun o => o.p * o.sign)).sum =
      ((ops.filter (fun o => o.active && o.bus = x)).map (fun o => o.p * o.sign)).sum +
        if x = o.bus then adj else 0 := by
    have hout : ∀ l : List (OnePort F), o.name ∉ l.map (·.name) →
        l.map (fun o' => if o'.name = o.name then { o' with p := o'.p + adj } else o') = l := by
      intro l hl
      conv_rhs => rw [← List.map_id l]
      apply List.map_congr_left
      intro a ha
      have : ¬ a.name = o.name := fun h => hl (List.mem_map.2 ⟨a, ha, h⟩)
      simp [this]
    induction ops with
    | nil => simp at ho
    | cons a l ih =>
      simp only [List.map_cons, List.nodup_cons] at hnd
      rcases List.mem_cons.1 ho with rfl | ho
      · rw [List.map_cons, hout l hnd.1]
        simp only [if_true]
        by_cases hx : x = o.bus
        · subst hx
          rw [List.filter_cons_of_pos (by simp [hact]), List.filter_cons_of_pos (by simp [hact])]
          simp only [List.map_cons, List.sum_cons, hsign, if_true]
          ring
        · have hx' : ¬ o.bus = x := fun h => hx h.symm
          rw [List.filter_cons_of_neg (by simp [hx']), List.filter_cons_of_neg (by simp [hx'])]
          simp [hx]
      · have hne : ¬ a.name = o.name := fun h => hnd.1 (List.mem_map.2 ⟨o, ho, h.symm⟩)
        rw [List.map_cons]
        simp only [hne, if_false]
        have ih' := ih hnd.2 ho
        by_cases ha : (fun o : OnePort F => o.active && decide (o.bus = x)) a = true
        · simp only [List.filter_cons_of_pos (p := fun o : OnePort F => o.active && decide (o.bus = x)) ha]
          simp only [List.map_cons, List.sum_cons, ih']
          ring
        · simp only [List.filter_cons_of_neg (p := fun o : OnePort F => o.active && decide (o.bus = x)) ha, ih']
  rw [key]; ring

example : injection (F := ℚ) (adjustSlack "g" 3 [⟨"g", "a", 1, true, 1⟩, ⟨"l", "b", -1, true, 4⟩]) [] "a" = 4 := by
  decide +kernel

/-- **Finding** (`pf.py` 1033-1052): generators out of service are candidates for the slack.
If one is chosen, the adjusted bus injection is not accounted for by the components in
service. -/
theorem inactive_slack_generator :
    injection (F := ℚ) (adjustSlack "g" 3 [⟨"g", "a", 1, false, 1⟩]) [] "a" ≠
      injection (F := ℚ) [⟨"g", "a", 1, false, 1⟩] [] "a" + 3 := by
  decide +kernel

/-! ### C30 -/

omit [Field F] in
theorem find_mapIdx {α : Type} (l : List (Key × α)) (g : Nat → Key × α → F) (k : Key)
    (hk : k ∈ l.map (·.1)) :
    (l.mapIdx (fun i e => (e.1, g i e))).find? (fun e => e.1 = k) =
      (l[(l.map (·.1)).idxOf k]?).map (fun e => (e.1, g ((l.map (·.1)).idxOf k) e)) := by
  induction l generalizing g with
  | nil => simp at hk
  | cons a l ih =>
    rw [List.mapIdx_cons]
    by_cases h : a.1 = k
    · rw [List.find?_cons_of_pos (by simpa using h)]
      simp [h]
    · rw [List.find?_cons_of_neg (by simpa using h)]
      have hk' : k ∈ l.map (·.1) := by
        rcases List.mem_cons.1 hk with h' | h'
        · exact absurd h'.symm h
        · exact h'
      rw [ih (fun i => g (i + 1)) hk', List.map_cons, List.idxOf_cons_ne _ h]
      simp

omit [Field F] in
theorem find_mapIdx_none {α : Type} (l : List (Key × α)) (g : Nat → Key × α → F) (k : Key)
    (hk : k ∉ l.map (·.1)) : (l.mapIdx (fun i e => (e.1, g i e))).find? (fun e => e.1 = k) = none := by
  rw [List.find?_eq_none]
  intro e he
  rw [List.mem_mapIdx] at he
  obtain ⟨i, hi, rfl⟩ := he
  simp only [decide_eq_true_eq]
  intro h
  exact hk (List.mem_map.2 ⟨_, List.getElem_mem hi, h⟩)

/-- **C30 (partial: inside one sub-network).** With all branches in service, the result for a
branch of the sub-network of the outage is the base flow plus BODF times the base flow of the
lost branch.  Missing: branches of other sub-networks should keep their base flow; they are NaN
instead (`contingency_others_nan`). -/
theorem contingency_inside_partial (base : List (Key × F)) (subs : List (Sub F)) (out : Key)
    (s : Sub F) (hs : subs.find? (fun s => out ∈ s.branches.map (·.1)) = some s)
    (hall : ∀ s ∈ subs, s.branches ≠ [] ∧ ∀ b ∈ s.branches, b.2 = true)
    (f : F) (hf : base.find? (fun e => e.1 = out) = some (out, f)) :
    ∃ r, contingency base subs out = .ok r ∧
      ∀ k ∈ s.branches.map (·.1), ∀ fk, base.find? (fun e => e.1 = k) = some (k, fk) →
        r k = some (fk + s.bodf ((s.branches.map (·.1)).idxOf k) ((s.branches.map (·.1)).idxOf out) * f) := by
  have hcount : ∀ s ∈ subs, s.activeCount = s.branches.length := by
    intro s hs'
    unfold Sub.activeCount
    rw [List.filter_eq_self.2 (fun b hb => (hall s hs').2 b hb)]
  have hany : subs.any (fun s => s.activeCount = 0) = false := by
    rw [List.any_eq_false]
    intro s hs'
    simp only [decide_eq_true_eq, hcount s hs', List.length_eq_zero_iff]
    exact (hall s hs').1
  have hsm := List.mem_of_find?_eq_some hs
  have hout : out ∈ s.branches.map (·.1) := by simpa using List.find?_some hs
  have hidx : (s.branches.map (·.1)).idxOf out < s.branches.length := by
    have := List.idxOf_lt_length_of_mem hout; simpa using this
  unfold contingency bodfColumn
  simp only [hany, hs, hf, hcount s hsm, Bool.false_eq_true, if_false, ne_eq, not_true_eq_false]
  rw [if_neg (by omega)]
  refine ⟨_, rfl, ?_⟩
  intro k hk fk hfk
  unfold alignAdd
  rw [hfk, find_mapIdx s.branches (fun i _ => s.bodf i _ * f) k hk]
  have hkidx : (s.branches.map (·.1)).idxOf k < s.branches.length := by
    have := List.idxOf_lt_length_of_mem hk; simpa using this
  rw [List.getElem?_eq_getElem hkidx]
  simp

/-- **C30 is violated** (finding, `contingency.py` 128-132): the two series are aligned by
label, so every branch outside the sub-network of the outage becomes NaN instead of keeping
its base flow. -/
theorem contingency_others_nan (base : List (Key × F)) (subs : List (Sub F)) (out : Key)
    (r : Key → Option F) (h : contingency base subs out = .ok r) (s : Sub F)
    (hs : subs.find? (fun s => out ∈ s.branches.map (·.1)) = some s)
    (k : Key) (hk : k ∉ s.branches.map (·.1)) : r k = none := by
  unfold contingency at h
  split at h
  · simp at h
  · rw [hs] at h
    cases hb : base.find? (fun e => e.1 = out) with
    | none => simp [hb] at h
    | some f =>
      simp only [hb] at h
      unfold bodfColumn at h
      split at h
      · simp at h
      · rename_i col hcol
        split at hcol
        · simp at hcol
        · split at hcol
          · simp at hcol
          · simp only [Except.ok.injEq] at h hcol
            subst h hcol
            unfold alignAdd
            rw [find_mapIdx_none s.branches (fun i _ => s.bodf i _ * f.2) k hk]
            cases base.find? (fun e => e.1 = k) <;> rfl

/-- Two sub-networks with one line each: the hypotheses of both theorems are met. -/
example : (match contingency (F := ℚ) [(("Line", "1"), 5), (("Line", "2"), 7)]
      [⟨[(("Line", "1"), true)], fun _ _ => -1⟩, ⟨[(("Line", "2"), true)], fun _ _ => -1⟩]
      ("Line", "1") with
    | .ok r => decide (r ("Line", "1") = some 0 ∧ r ("Line", "2") = none)
    | .error _ => false) = true := by decide +kernel

/-- **Finding**: one sub-network without branches (an isolated bus) makes every call fail. -/
theorem contingency_isolated_bus_raises (base : List (Key × F)) (subs : List (Sub F)) (out : Key)
    (s : Sub F) (hs : s ∈ subs) (hb : s.branches = []) :
    contingency base subs out = .error .valueError := by
  have : subs.any (fun s => s.activeCount = 0) = true := by
    rw [List.any_eq_true]
    exact ⟨s, hs, by simp [Sub.activeCount, hb]⟩
  unfold contingency
  rw [if_pos this]

/-- **Finding**: one branch out of service in the sub-network makes the call fail, because the
BODF covers the active branches only. -/
theorem contingency_inactive_branch_raises (base : List (Key × F)) (subs : List (Sub F)) (out : Key)
    (s : Sub F) (hs : subs.find? (fun s => out ∈ s.branches.map (·.1)) = some s)
    (b : Key × Bool) (hb : b ∈ s.branches) (hoff : b.2 = false) :
    ∃ e, contingency base subs out = .error e := by
  have hlt : s.activeCount < s.branches.length := by
    unfold Sub.activeCount
    apply lt_of_le_of_ne (List.length_filter_le _ _)
    intro h
    have := List.length_filter_eq_length_iff.1 h b hb
    simp [hoff] at this
  unfold contingency bodfColumn
  split
  · exact ⟨_, rfl⟩
  · rw [hs]
    cases base.find? (fun e => e.1 = out) with
    | none => exact ⟨_, rfl⟩
    | some f =>
      simp only
      split
      · exact ⟨_, rfl⟩
      · rename_i hcol
        split at hcol
        · simp at hcol
        · rw [if_pos (by omega)] at hcol; simp at hcol

end Verif.PowerFlow
