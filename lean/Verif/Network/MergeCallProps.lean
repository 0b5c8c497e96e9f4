import Verif.Network.MergeCall
import Verif.Network.MergeProps

/-!
# Property C14: merging in place, without series, and by `+`
-/

namespace Verif.Network

variable {V : Type}

/-! ## Specification -/

/-- Some class that is merged has a name that both networks use. -/
def Clash (lay : Layout) (n other : Network V) (skip : List Cls) : Prop :=
  ∃ c ∈ lay.classes, c ∉ skip ∧ ∃ x ∈ (other.comps c).names, x ∈ (n.comps c).names

/-- Static data only: components of both, those of `n` as they were, the others with their static values at all snapshots and the default
where there is no static value. -/
structure JoinedStatic (sch : Schema V) (lay : Layout) (n other m : Network V) (skip : List Cls) : Prop where
  times : m.snaps = n.snaps ∧ m.w = n.w ∧ m.pw = n.pw
  skipped : ∀ c ∈ skip, m.comps c = n.comps c
  names : ∀ c ∈ lay.classes, c ∉ skip → (m.comps c).names = (n.comps c).names ++ (other.comps c).names
  own : ∀ c ∈ lay.classes, c ∉ skip → ∀ x ∈ (n.comps c).names, (m.comps c).sval x = (n.comps c).sval x ∧
    ∀ k s, effective sch m c k s x = effective sch n c k s x
  new : ∀ c ∈ lay.classes, c ∉ skip → ∀ x ∈ (other.comps c).names, (∀ k ∈ lay.cols c, (m.comps c).sval x k = (other.comps c).sval x k) ∧
    ∀ k, ∀ s ∈ n.snaps, effective sch m c k s x = if sch.seriesOnly c k then sch.dflt c k else (other.comps c).sval x k

/-! ## Proofs -/

theorem step_time (sch : Schema V) (cols : Cls → List Attr) (other : Network V) (c : Cls) (n : Network V) :
    mergeStep true sch cols other c n = mergeClass sch cols other c n := by
  unfold mergeStep mergeClass
  rfl

theorem steps_time (sch : Schema V) (cols : Cls → List Attr) (other : Network V) (cs : List Cls) (n m : Network V)
    (h : mergeLoop sch cols other cs n = .ok m) : mergeSteps true sch cols other cs n = (none, m) := by
  induction cs generalizing n with
  | nil =>
    simp only [mergeLoop, Except.ok.injEq] at h
    simp [mergeSteps, h]
  | cons c cs ih =>
    unfold mergeLoop at h
    unfold mergeSteps
    rw [step_time]
    cases hc : mergeClass sch cols other c n with
    | error e => rw [hc] at h; cases h
    | ok n' => rw [hc] at h; exact ih n' h

/-- The other network without its series, at the snapshots `sn`. -/
def bare (sn : List Snap) (other : Network V) : Network V := { other with snaps := sn, comps := fun c => { other.comps c with dyn := [] } }

theorem source_bare {sch : Schema V} {cols : Cls → List Attr} {other : Network V} (h : Source sch cols other) (sn : List Snap) :
    Source sch cols (bare sn other) where
  names_nodup := h.names_nodup
  table := fun c k f hf => by cases hf
  cols_nodup := h.cols_nodup
  cols_static := h.cols_static
  rest := h.rest
  clean := h.clean
  dyn_keys := fun c => List.nodup_nil

theorem step_bare (sch : Schema V) (cols : Cls → List Attr) (other : Network V) (sn : List Snap) (c : Cls) (n : Network V) :
    mergeStep false sch cols other c n = mergeStep true sch cols (bare sn other) c n := by
  unfold mergeStep
  rfl

theorem steps_bare (sch : Schema V) (cols : Cls → List Attr) (other : Network V) (sn : List Snap) (cs : List Cls) (n : Network V) :
    mergeSteps false sch cols other cs n = mergeSteps true sch cols (bare sn other) cs n := by
  induction cs generalizing n with
  | nil => rfl
  | cons c cs ih =>
    unfold mergeSteps
    rw [step_bare sch cols other sn]
    split
    · rfl
    · exact ih _

theorem mem_mergeClasses {lay : Layout} {skip : List Cls} (hbus : "Bus" ∈ lay.classes) (hskip : "Bus" ∉ skip) (c : Cls) :
    c ∈ mergeClasses lay skip ↔ c ∈ lay.classes ∧ c ∉ skip := by
  simp only [mergeClasses, List.mem_cons, List.mem_filter, decide_eq_true_eq]
  constructor
  · rintro (rfl | h')
    · exact ⟨hbus, hskip⟩
    · exact ⟨h'.1, h'.2.1⟩
  · intro ⟨h1, h2⟩
    by_cases hc : c = "Bus"
    · exact Or.inl hc
    · exact Or.inr ⟨h1, h2, hc⟩

theorem overlap_iff {lay : Layout} {n other : Network V} {skip : List Cls} (hbus : "Bus" ∈ lay.classes) (hskip : "Bus" ∉ skip) :
    (mergeClasses lay skip).any (fun c => (other.comps c).names.any (fun x => decide (x ∈ (n.comps c).names))) = true ↔ Clash lay n other skip := by
  simp only [List.any_eq_true, decide_eq_true_eq, mem_mergeClasses hbus hskip, Clash]
  constructor
  · rintro ⟨c, ⟨h1, h2⟩, h3⟩; exact ⟨c, h1, h2, h3⟩
  · rintro ⟨c, h1, h2, h3⟩; exact ⟨c, ⟨h1, h2⟩, h3⟩

section
variable [DecidableEq V] (sch : Schema V) (hg : sch.Good) (lay : Layout) (n other : Network V) (h : WF sch n) (ho : WF sch other)
  (hf : Fits sch lay.cols other) (hcls : lay.classes.Nodup) (hbus : "Bus" ∈ lay.classes) (skip : List Cls) (hskip : "Bus" ∉ skip)
include hg h ho hf hcls hbus hskip

/-- **C14 (partial: `Bus` not in the skip list).** Without series the snapshots do not matter: the call raises exactly if there is a common name, and otherwise
joins the static data. -/
theorem merge_static_partial :
    ((∃ e, (mergeCall sch lay n other skip false false).1 = .error e) ↔ Clash lay n other skip) ∧
    ∀ m, (mergeCall sch lay n other skip false false).1 = .ok (some m) → JoinedStatic sch lay n other m skip := by
  have hnd : (mergeClasses lay skip).Nodup := by
    unfold mergeClasses
    rw [List.nodup_cons]
    exact ⟨by simp, hcls.filter _⟩
  unfold mergeCall
  simp only [Bool.false_and, Bool.false_eq_true, if_false]
  by_cases h1 : (mergeClasses lay skip).any (fun c => (other.comps c).names.any (fun x => decide (x ∈ (n.comps c).names))) = true
  · rw [if_pos h1]
    exact ⟨⟨fun _ => (overlap_iff hbus hskip).mp h1, fun _ => ⟨_, rfl⟩⟩, fun m hm => by cases hm⟩
  · rw [if_neg h1]
    have hc : ¬ Clash lay n other skip := fun hc => h1 ((overlap_iff hbus hskip).mpr hc)
    obtain ⟨m, a1, a2, a3, a4, a5, a6, a7⟩ := mergeLoop_spec sch hg lay.cols n (bare n.snaps other) h (source_bare (hf.source ho) n.snaps) rfl
      (mergeClasses lay skip) hnd (fun c hcm x hx hx' => by
        obtain ⟨b1, b2⟩ := (mem_mergeClasses hbus hskip c).1 hcm
        exact hc ⟨c, b1, b2, x, hx, hx'⟩)
    rw [steps_bare sch lay.cols other n.snaps, steps_time _ _ _ _ _ _ a1]
    refine ⟨⟨fun ⟨e, he⟩ => (by cases he), fun h' => absurd h' hc⟩, fun m' hm => ?_⟩
    obtain rfl : m = m' := by simpa using hm
    refine ⟨⟨a3, a4, a5⟩, fun c hcs => a6 c (fun h' => ((mem_mergeClasses hbus hskip c).1 h').2 hcs), fun c h1 h2 => ?_, fun c h1 h2 => ?_, fun c h1 h2 x hx => ?_⟩
    · exact (a7 c ((mem_mergeClasses hbus hskip c).2 ⟨h1, h2⟩)).1
    · exact (a7 c ((mem_mergeClasses hbus hskip c).2 ⟨h1, h2⟩)).2.1
    · obtain ⟨e1, e2⟩ := (a7 c ((mem_mergeClasses hbus hskip c).2 ⟨h1, h2⟩)).2.2 x hx
      exact ⟨fun k hk => e1 k (hf.cols_static c k hk), fun k s hs => e2 k (.inr (.inr rfl)) s hs⟩

/-- **C14 (partial: `Bus` not in the skip list).** A call in place returns nothing and leaves the network that the call with a copy returns; if it raises, in place or not, the network is as before.
A call with a copy never changes the network. -/
theorem merge_inplace_partial (withTime : Bool) :
    (mergeCall sch lay n other skip false withTime).2 = n ∧
    (∀ e, (mergeCall sch lay n other skip true withTime).1 = .error e ↔ (mergeCall sch lay n other skip false withTime).1 = .error e) ∧
    (∀ e, (mergeCall sch lay n other skip true withTime).1 = .error e → (mergeCall sch lay n other skip true withTime).2 = n) ∧
    ∀ m, (mergeCall sch lay n other skip false withTime).1 = .ok (some m) ↔ mergeCall sch lay n other skip true withTime = (.ok none, m) := by
  have hnd : (mergeClasses lay skip).Nodup := by
    unfold mergeClasses
    rw [List.nodup_cons]
    exact ⟨by simp, hcls.filter _⟩
  unfold mergeCall
  simp only
  by_cases h1 : (mergeClasses lay skip).any (fun c => (other.comps c).names.any (fun x => decide (x ∈ (n.comps c).names))) = true
  · simp [h1]
  · simp only [h1, Bool.false_eq_true, if_false]
    have hc : ¬ Clash lay n other skip := fun hc => h1 ((overlap_iff hbus hskip).mpr hc)
    have hd : ∀ c ∈ mergeClasses lay skip, ∀ x ∈ (other.comps c).names, x ∉ (n.comps c).names := fun c hcm x hx hx' => by
      obtain ⟨b1, b2⟩ := (mem_mergeClasses hbus hskip c).1 hcm
      exact hc ⟨c, b1, b2, x, hx, hx'⟩
    by_cases h2 : (withTime && decide (n.snaps ≠ other.snaps)) = true
    · simp only [h2, if_true]; simp
    · simp only [h2, Bool.false_eq_true, if_false]
      by_cases h3 : (withTime && !sameWeights n other) = true
      · simp only [h3, if_true]; simp
      · simp only [h3, Bool.false_eq_true, if_false]
        have key : ∃ m, mergeSteps withTime sch lay.cols other (mergeClasses lay skip) n = (none, m) := by
          cases withTime with
          | false =>
            obtain ⟨m, a1, -⟩ := mergeLoop_spec sch hg lay.cols n (bare n.snaps other) h (source_bare (hf.source ho) n.snaps) rfl _ hnd hd
            exact ⟨m, by rw [steps_bare sch lay.cols other n.snaps, steps_time _ _ _ _ _ _ a1]⟩
          | true =>
            obtain ⟨m, a1, -⟩ := mergeLoop_spec sch hg lay.cols n other h (hf.source ho) (by simpa using h2) _ hnd hd
            exact ⟨m, steps_time _ _ _ _ _ _ a1⟩
        obtain ⟨m, hm⟩ := key
        simp [hm]

omit hg h ho hf hcls hbus hskip in
/-- **C14.** With a copy and with series the call gives what `merge` gives (`merge_union_partial`). -/
theorem merge_copy (m : Network V) (hm : merge sch lay n other skip = .ok m) : mergeCall sch lay n other skip false true = (.ok (some m), n) := by
  unfold merge at hm
  unfold mergeCall
  simp only at hm ⊢
  split at hm
  · cases hm
  · rename_i h1
    rw [if_neg h1]
    split at hm
    · cases hm
    · rename_i h2
      split at hm
      · cases hm
      · rename_i h3
        rw [if_neg (by simpa using h2), if_neg (by simpa using h3), steps_time _ _ _ _ _ _ hm]
        rfl

end

/-! ## Examples and witnesses -/

theorem exGood : exSch.Good := by
  intro c; simp only [exSch]; repeat' split
  all_goals simp

/-- All hypotheses hold for the example, merged into an empty network that has other snapshots. -/
example := merge_static_partial exSch exGood exKinds.toLayout (init exSch) exNet (init_wf exSch) exNet_wf exNet_fits (by decide) (by decide) [] (by simp)

example := merge_inplace_partial exSch exGood exKinds.toLayout (init exSch) exNet (init_wf exSch) exNet_wf exNet_fits (by decide) (by decide) [] (by simp) false

example : ¬ Clash exKinds.toLayout (init exSch) exNet [] := by
  rintro ⟨c, _, _, x, _, hx⟩
  simp [init] at hx

/-- Without series, into a network that has components. -/
example : holds (mergeCall exSch exKinds.toLayout exNet (exOther "b4" "g4") [] false false).1 (fun r => ∃ m ∈ r,
    (m.comps "Generator").names = ["g1", "g2", "g4"] ∧ effective exSch m "Generator" "p" (.flat "1") "g4" = some (.num 0) ∧
    effective exSch m "Generator" "p_max_pu" (.flat "1") "g2" = some (.num 3)) := by
  decide +kernel

/-- In place. -/
example : ((mergeCall exSch exKinds.toLayout exNet (exOther "b4" "g4") [] true true).2.comps "Generator").names = ["g1", "g2", "g4"] := by decide +kernel

/-- **C14 fails for `+`** (finding, `networks.py` 370-372): the merged network is made and thrown away, so that the sum is `None` and neither network has changed. -/
theorem plus_loses [DecidableEq V] (sch : Schema V) (lay : Layout) (n other m : Network V) (hm : merge sch lay n other [] = .ok m) :
    plus sch lay n other = (.ok none, n) := by
  unfold plus
  rw [merge_copy sch lay n other [] m hm]

theorem not_plus : ∃ n other m : Network Val, merge exSch exKinds.toLayout n other [] = .ok m ∧ (plus exSch exKinds.toLayout n other).1 = .ok none ∧
    ((plus exSch exKinds.toLayout n other).2.comps "Generator").names ≠ (m.comps "Generator").names := by
  have h : holds (merge exSch exKinds.toLayout exNet (exOther "b4" "g4") []) (fun m => (exNet.comps "Generator").names ≠ (m.comps "Generator").names) = true := by
    decide +kernel
  cases hr : merge exSch exKinds.toLayout exNet (exOther "b4" "g4") [] with
  | error e => rw [hr] at h; simp [holds] at h
  | ok m =>
    rw [hr] at h
    refine ⟨exNet, exOther "b4" "g4", m, hr, ?_, ?_⟩ <;> rw [plus_loses _ _ _ _ _ hr]
    simpa [holds] using h

end Verif.Network
