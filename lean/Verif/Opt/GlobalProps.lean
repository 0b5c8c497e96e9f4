import Verif.Opt.Global
import Mathlib.Data.List.TakeWhile
import Mathlib.Tactic.Ring
import Mathlib.Tactic.Linarith
import Mathlib.Tactic.LinearCombination
import Mathlib.Tactic.IntervalCases
import Mathlib.Algebra.Order.Ring.Rat

/-!
# Global constraints (C51 to C55)
-/

namespace Verif.Opt.Global

open Verif.Opt.Capacity (rowOf)

/-! ## Specification -/

section spec
variable {F : Type} [Field F] [LinearOrder F]

/-- A number is on the right side of the constant. -/
def Right (s : Sense) (x c : F) : Prop :=
  match s with
  | .le => x ≤ c
  | .ge => c ≤ x
  | .eq => x = c

/-- Sum over the elements with a property. -/
def sumIf {α : Type} (l : List α) (p : α → Prop) [DecidablePred p] (f : α → F) : F :=
  (l.map (fun a => if p a then f a else 0)).sum

end spec

section lemmas
variable {F : Type} [Field F] [LinearOrder F] {α : Type}

omit [LinearOrder F] in
theorem sum_filter_map (l : List α) (p : α → Bool) (f : α → F) :
    ((l.filter p).map f).sum = sumIf l (fun a => p a = true) f := by
  unfold sumIf
  induction l with
  | nil => rfl
  | cons a t ih =>
    rw [List.map_cons, List.sum_cons, ← ih]
    cases h : p a <;> simp [h]

omit [LinearOrder F] in
theorem sumIf_congr (l : List α) (p q : α → Prop) [DecidablePred p] [DecidablePred q] (f g : α → F)
    (h : ∀ a ∈ l, (p a ↔ q a)) (hfg : ∀ a ∈ l, q a → f a = g a) : sumIf l p f = sumIf l q g := by
  unfold sumIf
  congr 1
  apply List.map_congr_left
  intro a ha
  by_cases hq : q a
  · rw [if_pos ((h a ha).mpr hq), if_pos hq, hfg a ha hq]
  · rw [if_neg (fun hp => hq ((h a ha).mp hp)), if_neg hq]

theorem rowOf_feasible {V : Type} (val : V → F) (ts : List (F × V)) (s : Sense) (c : F) (h : ts ≠ []) :
    Feasible val (rowOf ts s c) ↔ Right s (lin val ts) c := by
  unfold rowOf
  rw [if_neg (by simpa using h)]
  rw [feasible_cons]
  cases s <;> simp [Con.holds, Right]

omit [LinearOrder F] in
theorem sum_flatMap' {β : Type} (l : List α) (f : α → List β) (g : β → F) :
    ((l.flatMap f).map g).sum = (l.map (fun a => ((f a).map g).sum)).sum := by
  induction l with
  | nil => rfl
  | cons a t ih => simp [List.flatMap_cons, ih]

end lemmas

/-! ## Alignment of labels -/

section merge
variable {F : Type} [Field F]

/-- Same labels everywhere, or not the same number of labels everywhere. -/
def Aligned {T : Type} (ls : List (List (Name × List T))) : Prop :=
  (∀ l ∈ ls, ∀ l' ∈ ls, l.map (·.1) = l'.map (·.1)) ∨ ∃ l ∈ ls, ∃ l' ∈ ls, l.length ≠ l'.length

theorem sameShape_false {α : Type} {ls : List (List α)}
    (h : ∃ l ∈ ls, ∃ l' ∈ ls, l.length ≠ l'.length) : sameShape ls = false := by
  obtain ⟨l, hl, l', hl', hne⟩ := h
  cases ls with
  | nil => simp at hl
  | cons a t =>
    unfold sameShape
    rw [← Bool.not_eq_true, List.all_eq_true]
    intro hall
    have hlen : ∀ x ∈ a :: t, x.length = a.length := by
      intro x hx
      rcases List.mem_cons.mp hx with rfl | hx
      · rfl
      · simpa using hall x hx
    exact hne ((hlen l hl).trans (hlen l' hl').symm)

theorem sameShape_true {T : Type} {ls : List (List (Name × List T))}
    (h : ∀ l ∈ ls, ∀ l' ∈ ls, l.map (·.1) = l'.map (·.1)) : sameShape ls = true := by
  cases ls with
  | nil => rfl
  | cons a t =>
    unfold sameShape
    rw [List.all_eq_true]
    intro x hx
    have := congrArg List.length (h x (by simp [hx]) a (by simp))
    simpa using this

/-- With distinct labels the terms of the label at position `i` are those at position `i`. -/
theorem lookup_getElem {T : Type} {l : List (Name × List T)} (hnd : (l.map (·.1)).Nodup) {i : Nat}
    {e : Name × List T} (he : l[i]? = some e) : lookup e.1 l = e.2 := by
  induction l generalizing i with
  | nil => simp at he
  | cons a t ih =>
    simp only [List.map_cons, List.nodup_cons] at hnd
    have hnone : ∀ b, b ∉ t.map (·.1) → lookup b t = [] := by
      intro b hb
      unfold lookup
      rw [List.filter_eq_nil_iff.mpr]
      · rfl
      · intro x hx
        simp only [decide_eq_true_eq]
        rintro rfl
        exact hb (List.mem_map.mpr ⟨x, hx, rfl⟩)
    cases i with
    | zero =>
      simp only [List.getElem?_cons_zero, Option.some.injEq] at he
      subst he
      have := hnone _ hnd.1
      unfold lookup at this ⊢
      simp [this]
    | succ i =>
      simp only [List.getElem?_cons_succ] at he
      have hne : a.1 ≠ e.1 := by
        intro h
        exact hnd.1 (h ▸ List.mem_map.mpr ⟨e, List.mem_of_getElem? he, rfl⟩)
      have := ih hnd.2 he
      unfold lookup at this ⊢
      simp [hne, this]

/-- Aligned expressions are merged label by label. -/
theorem mergeExprs_aligned {T : Type} (ls : List (List (Name × List T))) (ha : Aligned ls)
    (hnd : ∀ l ∈ ls, (l.map (·.1)).Nodup) :
    ((mergeExprs ls).map (·.1)).Nodup ∧
    (∀ b, b ∈ (mergeExprs ls).map (·.1) ↔ ∃ l ∈ ls, b ∈ l.map (·.1)) ∧
    ∀ e ∈ mergeExprs ls, e.2 = ls.flatMap (lookup e.1) := by
  rcases ha with h | h
  · unfold mergeExprs
    rw [if_pos (sameShape_true h)]
    cases ls with
    | nil => simp
    | cons l rest =>
      simp only
      have hmap : ((List.range l.length).filterMap (fun i => (l[i]?).map (fun e =>
          (e.1, (l :: rest).flatMap (termsAtPos i))))) =
          l.map (fun e => (e.1, (l :: rest).flatMap (lookup e.1))) := by
        have key : ∀ (i : Nat) (e : Name × List T), l[i]? = some e → (l :: rest).flatMap (termsAtPos i) = (l :: rest).flatMap (lookup e.1) := by
          intro i e he
          rw [List.flatMap_def, List.flatMap_def]
          congr 1
          apply List.map_congr_left
          intro l' hl'
          have heq := h l' hl' l (by simp)
          have : (l'.map (·.1))[i]? = (l.map (·.1))[i]? := by rw [heq]
          simp only [List.getElem?_map, he, Option.map_some] at this
          unfold termsAtPos
          cases he' : l'[i]? with
          | none => simp [he'] at this
          | some e' =>
            simp only [he', Option.map_some, Option.some.injEq] at this
            rw [← this, lookup_getElem (hnd l' hl') he']
        apply List.ext_getElem?
        intro j
        have hfm : (List.range l.length).filterMap (fun i => (l[i]?).map (fun e =>
          (e.1, (l :: rest).flatMap (termsAtPos i)))) = (List.range l.length).filterMap (fun i => (l[i]?).map (fun e =>
          (e.1, (l :: rest).flatMap (lookup e.1)))) := by
          apply List.filterMap_congr
          intro i _
          cases he : l[i]? with
          | none => rfl
          | some e => simp only [Option.map_some]; rw [key i e he]
        rw [hfm]
        congr 1
        generalize (fun e : Name × List T => (e.1, (l :: rest).flatMap (lookup e.1))) = g
        clear hfm key h hnd
        induction l with
        | nil => rfl
        | cons a t ih =>
          rw [List.length_cons, List.range_succ_eq_map, List.filterMap_cons]
          simp only [List.getElem?_cons_zero, Option.map_some, List.map_cons]
          rw [List.filterMap_map]
          congr 1
      rw [hmap]
      refine ⟨?_, ?_, ?_⟩
      · rw [List.map_map]; exact hnd l (by simp)
      · intro b
        rw [List.map_map]
        constructor
        · intro hb; exact ⟨l, by simp, hb⟩
        · rintro ⟨l', hl', hb⟩
          rw [h l' hl' l (by simp)] at hb
          exact hb
      · intro e he
        obtain ⟨e', -, rfl⟩ := List.mem_map.mp he
        rfl
  · unfold mergeExprs
    rw [if_neg (by rw [sameShape_false h]; simp)]
    refine ⟨?_, ?_, ?_⟩
    · rw [List.map_map]
      have : ((fun x : Name × List T => x.1) ∘ fun b => (b, ls.flatMap (lookup b))) = id := rfl
      rw [this, List.map_id]
      exact List.nodup_dedup _
    · intro b
      rw [List.map_map]
      have : ((fun x : Name × List T => x.1) ∘ fun b => (b, ls.flatMap (lookup b))) = id := rfl
      rw [this, List.map_id, List.mem_dedup, List.mem_flatMap]
    · intro e he
      obtain ⟨b, -, rfl⟩ := List.mem_map.mp he
      rfl

theorem mem_sortedLabels {l : List Name} {b : Name} : b ∈ sortedLabels l ↔ b ∈ l := by
  unfold sortedLabels; rw [List.mem_insertionSort, List.mem_dedup]

theorem sortedLabels_nodup (l : List Name) : (sortedLabels l).Nodup :=
  ((List.perm_insertionSort _ _).nodup_iff).mpr (List.nodup_dedup _)

theorem sortedLabels_eq {l l' : List Name} (h : ∀ b, b ∈ l ↔ b ∈ l') : sortedLabels l = sortedLabels l' := by
  refine List.Perm.eq_of_pairwise (le := (· ≤ ·)) (fun a b _ _ => le_antisymm)
    (List.pairwise_insertionSort _ _) (List.pairwise_insertionSort _ _) ?_
  rw [List.perm_ext_iff_of_nodup (sortedLabels_nodup l) (sortedLabels_nodup l')]
  intro b
  rw [mem_sortedLabels, mem_sortedLabels, h]

/-- The value of a merged expression, label by label. -/
theorem lookup_map {T : Type} (labels : List Name) (hnd : labels.Nodup) (f : Name → List T) (b : Name) :
    lookup b (labels.map (fun x => (x, f x))) = if b ∈ labels then f b else [] := by
  induction labels with
  | nil => rfl
  | cons a t ih =>
    simp only [List.nodup_cons] at hnd
    have := ih hnd.2
    unfold lookup at this ⊢
    by_cases h : a = b
    · subst h
      rw [if_neg hnd.1] at this
      simp [this]
    · simp only [List.map_cons, List.mem_cons, Ne.symm h, false_or]
      rw [List.filter_cons_of_neg (by simpa using h), this]

omit [Field F] in
theorem sum_comm_list {α β : Type} {M : Type} [AddCommMonoid M] (l : List α) (k : List β) (f : α → β → M) :
    (l.map (fun a => (k.map (f a)).sum)).sum = (k.map (fun b => (l.map (fun a => f a b)).sum)).sum := by
  induction l with
  | nil => simp
  | cons a t ih => simp only [List.map_cons, List.sum_cons, ih, List.sum_map_add]

theorem sum_lookup (val : Var → F) (l : List (Name × List (F × Var))) (L : List Name) (hnd : L.Nodup)
    (hsub : ∀ e ∈ l, e.1 ∈ L) :
    (L.map (fun b => lin val (lookup b l))).sum = (l.map (fun e => lin val e.2)).sum := by
  induction l with
  | nil => simp [lookup]
  | cons e t ih =>
    have hl : ∀ b, lin val (lookup b (e :: t)) = (if e.1 = b then lin val e.2 else 0) + lin val (lookup b t) := by
      intro b
      unfold lookup
      by_cases h : e.1 = b <;> simp [h]
    simp only [hl, List.sum_map_add, ih (fun x hx => hsub x (by simp [hx])), List.map_cons, List.sum_cons]
    congr 1
    have he := hsub e (by simp)
    clear ih hl hsub
    induction L with
    | nil => simp at he
    | cons b L ih =>
      simp only [List.nodup_cons] at hnd
      rw [List.map_cons, List.sum_cons]
      by_cases h : e.1 = b
      · subst h
        have : (L.map (fun b => if e.1 = b then lin val e.2 else 0)).sum = 0 := by
          apply List.sum_eq_zero
          intro x hx
          obtain ⟨b, hb, rfl⟩ := List.mem_map.mp hx
          rw [if_neg]
          rintro rfl
          exact hnd.1 hb
        simp [this]
      · rw [if_neg h, zero_add]
        refine ih hnd.2 ?_
        rcases List.mem_cons.mp he with h' | h'
        · exact absurd h' h
        · exact h'

/-- Merging never loses or repeats a term, whatever the labels. -/
theorem mergeExprs_total (val : Var → F) (ls : List (List (Name × List (F × Var)))) :
    lin val ((mergeExprs ls).flatMap (·.2)) = (ls.map (fun l => (l.map (fun e => lin val e.2)).sum)).sum := by
  rw [lin_flatMap]
  unfold mergeExprs
  split
  · rename_i hs
    cases ls with
    | nil => rfl
    | cons l rest =>
      have hlen : ∀ l' ∈ l :: rest, l'.length = l.length := by
        intro l' hl'
        rcases List.mem_cons.mp hl' with rfl | h
        · rfl
        · simp only [sameShape, List.all_eq_true] at hs
          simpa using hs l' h
      have h1 : (((List.range l.length).filterMap (fun i => (l[i]?).map (fun e =>
          (e.1, (l :: rest).flatMap (termsAtPos i))))).map (fun e => lin val e.2)) =
          (List.range l.length).map (fun i => lin val ((l :: rest).flatMap (termsAtPos i))) := by
        rw [List.map_filterMap]
        rw [← List.filterMap_eq_map]
        apply List.filterMap_congr
        intro i hi
        rw [List.mem_range] at hi
        simp [List.getElem?_eq_getElem hi]
      simp only
      rw [h1]
      simp only [lin_flatMap]
      rw [sum_comm_list]
      congr 1
      apply List.map_congr_left
      intro l' hl'
      rw [← hlen l' hl']
      congr 1
      apply List.ext_getElem?
      intro i
      simp only [List.getElem?_map]
      by_cases hi : i < l'.length
      · rw [List.getElem?_range hi, List.getElem?_eq_getElem hi]
        simp [termsAtPos, hi]
      · rw [List.getElem?_eq_none (by simpa using hi), List.getElem?_eq_none (by simpa using hi)]
        rfl
  · rw [List.map_map]
    simp only [Function.comp_def, lin_flatMap]
    rw [sum_comm_list]
    congr 1
    apply List.map_congr_left
    intro l hl
    apply sum_lookup
    · exact List.nodup_dedup _
    · intro e he
      rw [List.mem_dedup, List.mem_flatMap]
      exact ⟨l, hl, List.mem_map.mpr ⟨e, he, rfl⟩⟩

omit [Field F] in
theorem mem_mergeExprs {T : Type} (ls : List (List (Name × List T))) (l : List (Name × List T))
    (hl : l ∈ ls) (e : Name × List T) (he : e ∈ l) (t : T) (ht : t ∈ e.2) :
    t ∈ (mergeExprs ls).flatMap (·.2) := by
  unfold mergeExprs
  split
  · rename_i hs
    cases ls with
    | nil => simp at hl
    | cons l0 rest =>
      have hlen : l.length = l0.length := by
        rcases List.mem_cons.mp hl with rfl | h
        · rfl
        · simp only [sameShape, List.all_eq_true] at hs
          simpa using hs l h
      obtain ⟨i, hi, hie⟩ := List.getElem_of_mem he
      rw [List.mem_flatMap]
      refine ⟨((l0[i]'(hlen ▸ hi)).1, (l0 :: rest).flatMap (termsAtPos i)), ?_, ?_⟩
      · simp only
        rw [List.mem_filterMap]
        exact ⟨i, List.mem_range.mpr (hlen ▸ hi), by rw [List.getElem?_eq_getElem (hlen ▸ hi)]; rfl⟩
      · simp only
        rw [List.mem_flatMap]
        refine ⟨l, hl, ?_⟩
        unfold termsAtPos
        rw [List.getElem?_eq_getElem hi, hie]
        exact ht
  · rw [List.mem_flatMap]
    refine ⟨(e.1, ls.flatMap (lookup e.1)), List.mem_map.mpr ⟨e.1, ?_, rfl⟩, ?_⟩
    · rw [List.mem_dedup, List.mem_flatMap]
      exact ⟨l, hl, List.mem_map.mpr ⟨e, he, rfl⟩⟩
    · simp only
      rw [List.mem_flatMap]
      refine ⟨l, hl, ?_⟩
      unfold lookup
      rw [List.mem_flatMap]
      exact ⟨e, List.mem_filter.mpr ⟨he, by simp⟩, ht⟩

theorem lookup_groupTerms (cname : Name) (label : Asset F → Name) (as : List (Asset F)) (b : Name) :
    lookup b (groupTerms cname label as) =
      (as.filter (fun a => decide (label a = b))).map (fun a => (1, (cname, a.name))) := by
  unfold groupTerms
  rw [lookup_map _ (sortedLabels_nodup _) (fun b =>
    (as.filter (fun a => decide (label a = b))).map (fun a => ((1 : F), (cname, a.name))))]
  split
  · rfl
  · rename_i h
    rw [mem_sortedLabels] at h
    rw [List.filter_eq_nil_iff.mpr]
    · rfl
    · intro a ha
      simp only [decide_eq_true_eq]
      rintro rfl
      exact h (List.mem_map.mpr ⟨a, ha, rfl⟩)

end merge

/-! ## C53 -/

section tech
variable {F : Type} [Field F] [LinearOrder F]

/-- The assets a limit is about. -/
def Matches (c : Cls F) (carrier : Name) (period : Option Int) (bus : Option Name) (a : Asset F) : Prop :=
  c.hasCarrier = true ∧ a.ext = true ∧ a.carrier = carrier ∧ period.all a.activeIn = true ∧
    (bus = none ∨ bus = some a.bus)

instance (c : Cls F) (carrier : Name) (period : Option Int) (bus : Option Name) :
    DecidablePred (Matches c carrier period bus) := fun a => by
  unfold Matches
  infer_instance

/-- Their capacity. -/
def capacityOf (cs : List (Cls F)) (carrier : Name) (period : Option Int) (bus : Option Name)
    (val : Var → F) : F :=
  (cs.map (fun c => sumIf c.assets (Matches c carrier period bus) (fun a => val (c.cname, a.name)))).sum

/-- The buses of the matching assets of a class. -/
def matchedBuses (c : Cls F) (carrier : Name) (period : Option Int) : List Name :=
  (c.assets.filter (fun a => decide (Matches c carrier period none a))).map (·.bus)

/-- The classes that have matching assets have them at the same buses, or not all at equally many
buses. -/
def BusesAligned (cs : List (Cls F)) (carrier : Name) (period : Option Int) : Prop :=
  (∀ c ∈ cs, ∀ c' ∈ cs, matchedBuses c carrier period ≠ [] → matchedBuses c' carrier period ≠ [] →
    ∀ b, b ∈ matchedBuses c carrier period ↔ b ∈ matchedBuses c' carrier period) ∨
  ∃ c ∈ cs, ∃ c' ∈ cs, matchedBuses c carrier period ≠ [] ∧ matchedBuses c' carrier period ≠ [] ∧
    (matchedBuses c carrier period).dedup.length ≠ (matchedBuses c' carrier period).dedup.length

omit [Field F] [LinearOrder F] in
theorem mem_matching {c : Cls F} {carrier : Name} {period : Option Int} {a : Asset F}
    (hc : c.hasCarrier = true) :
    a ∈ matching c carrier period ↔ a ∈ c.assets ∧ Matches c carrier period none a := by
  unfold matching Matches
  cases period <;> simp [List.mem_filter, inPeriod, hc, and_assoc]

omit [Field F] [LinearOrder F] in
theorem matchedBuses_eq {c : Cls F} {carrier : Name} {period : Option Int} (hc : c.hasCarrier = true) :
    matchedBuses c carrier period = (matching c carrier period).map (·.bus) := by
  unfold matchedBuses matching
  congr 1
  apply List.filter_congr
  intro a _
  rw [Bool.eq_iff_iff]
  cases period <;> simp [Matches, inPeriod, hc, and_assoc]

omit [Field F] [LinearOrder F] in
theorem matchedBuses_none {c : Cls F} {carrier : Name} {period : Option Int} (hc : c.hasCarrier = false) :
    matchedBuses c carrier period = [] := by
  unfold matchedBuses
  rw [List.filter_eq_nil_iff.mpr]
  · rfl
  · intro a _; simp [Matches, hc]

omit [LinearOrder F] in
theorem techExprs_sum (cs : List (Cls F)) (carrier : Name) (period : Option Int)
    (h : List (Name × List (F × Var)) → F) (h' : Cls F → F)
    (h1 : ∀ c ∈ cs, c.hasCarrier = true → matching c carrier period ≠ [] →
      h (groupTerms c.cname (·.bus) (matching c carrier period)) = h' c)
    (h2 : ∀ c ∈ cs, (c.hasCarrier = false ∨ matching c carrier period = []) → h' c = 0) :
    ((techExprs cs carrier period).map h).sum = (cs.map h').sum := by
  unfold techExprs
  induction cs with
  | nil => rfl
  | cons c t ih =>
    have ih := ih (fun c hc => h1 c (by simp [hc])) (fun c hc => h2 c (by simp [hc]))
    rw [List.map_cons (l := t), List.sum_cons, ← ih]
    by_cases hc : c.hasCarrier = true
    · by_cases hm : matching c carrier period = []
      · rw [List.filter_cons_of_neg (by simp [hm]), h2 c (by simp) (Or.inr hm), zero_add]
      · rw [List.filter_cons_of_pos (by simp [hc, hm]), List.map_cons, List.map_cons, List.sum_cons,
          h1 c (by simp) hc hm]
    · rw [List.filter_cons_of_neg (by simp [hc]), h2 c (by simp) (Or.inl (by simpa using hc)), zero_add]

omit [Field F] [LinearOrder F] in
theorem groupTerms_labels [Field F] (cname : Name) (label : Asset F → Name) (as : List (Asset F)) :
    (groupTerms cname label as).map (·.1) = sortedLabels (as.map label) := by
  unfold groupTerms
  rw [List.map_map]
  exact List.map_id _

omit [LinearOrder F] in
theorem techExprs_nodup (cs : List (Cls F)) (carrier : Name) (period : Option Int) :
    ∀ l ∈ techExprs cs carrier period, (l.map (·.1)).Nodup := by
  intro l hl
  obtain ⟨c, -, rfl⟩ := List.mem_map.mp hl
  rw [groupTerms_labels]
  exact sortedLabels_nodup _

omit [LinearOrder F] in
theorem techExprs_aligned (cs : List (Cls F)) (carrier : Name) (period : Option Int)
    (h : BusesAligned cs carrier period) : Aligned (techExprs cs carrier period) := by
  have hne : ∀ c ∈ cs.filter (fun c => c.hasCarrier && !(matching c carrier period).isEmpty),
      c ∈ cs ∧ c.hasCarrier = true ∧ matchedBuses c carrier period ≠ [] := by
    intro c hc
    obtain ⟨hc, h1⟩ := List.mem_filter.mp hc
    simp only [Bool.and_eq_true, Bool.not_eq_true', ← Bool.not_eq_true, List.isEmpty_iff] at h1
    refine ⟨hc, h1.1, ?_⟩
    rw [matchedBuses_eq h1.1]
    simpa using h1.2
  have hin : ∀ c ∈ cs, matchedBuses c carrier period ≠ [] → c.hasCarrier = true ∧
      c ∈ cs.filter (fun c => c.hasCarrier && !(matching c carrier period).isEmpty) := by
    intro c hc h1
    have hcc : c.hasCarrier = true := by
      cases hh : c.hasCarrier with
      | true => rfl
      | false => exact absurd (matchedBuses_none hh) h1
    refine ⟨hcc, List.mem_filter.mpr ⟨hc, ?_⟩⟩
    rw [matchedBuses_eq hcc] at h1
    simpa [hcc] using h1
  rcases h with h | ⟨c, hc, c', hc', h1, h2, h3⟩
  · left
    intro l hl l' hl'
    obtain ⟨c, hc, rfl⟩ := List.mem_map.mp hl
    obtain ⟨c', hc', rfl⟩ := List.mem_map.mp hl'
    obtain ⟨a1, a2, a3⟩ := hne c hc
    obtain ⟨b1, b2, b3⟩ := hne c' hc'
    rw [groupTerms_labels, groupTerms_labels]
    apply sortedLabels_eq
    intro b
    have := h c a1 c' b1 a3 b3 b
    rwa [matchedBuses_eq a2, matchedBuses_eq b2] at this
  · right
    obtain ⟨a1, a2⟩ := hin c hc h1
    obtain ⟨b1, b2⟩ := hin c' hc' h2
    refine ⟨_, List.mem_map.mpr ⟨c, a2, rfl⟩, _, List.mem_map.mpr ⟨c', b2, rfl⟩, ?_⟩
    rw [matchedBuses_eq a1, matchedBuses_eq b1] at h3
    unfold groupTerms sortedLabels
    simpa using h3

omit [LinearOrder F] in
theorem lin_ones (val : Var → F) (cname : Name) (as : List (Asset F)) :
    lin val (as.map (fun a => ((1 : F), (cname, a.name)))) = (as.map (fun a => val (cname, a.name))).sum := by
  unfold lin; rw [List.map_map]; simp [Function.comp_def]

/-- C53 (partial): a limit on the capacity of a carrier in a period, with or without bus, if at
least one asset matches, says exactly that the capacity of the matching extendable assets active
in that period is on the right side of the constant. For a limit with a bus it is assumed that the
buses of the component classes do not get mixed up.  Missing: limits without period are ignored
(`tech_limit_ignored`), classes with equally many but different buses are mixed up
(`tech_limit_mixed`), and limits for which no asset matches are not enforced. -/
theorem tech_limit_partial (cs : List (Cls F)) (carrier : Name) (sense : Sense) (p : Int)
    (bus : Option Name) (constant : F)
    (hmatch : ∃ c ∈ cs, ∃ a ∈ c.assets, Matches c carrier (some p) bus a)
    (hal : bus ≠ none → BusesAligned cs carrier (some p)) :
    ∃ rows, techLimit cs ⟨carrier, sense, some p, bus, constant⟩ = .ok rows ∧
      ∀ val, Feasible val rows ↔ Right sense (capacityOf cs carrier (some p) bus val) constant := by
  obtain ⟨c0, hc0, a0, ha0, hm0⟩ := hmatch
  have hm0' : Matches c0 carrier (some p) none a0 := ⟨hm0.1, hm0.2.1, hm0.2.2.1, hm0.2.2.2.1, Or.inl rfl⟩
  have hin0 : a0 ∈ matching c0 carrier (some p) := (mem_matching hm0.1).mpr ⟨ha0, hm0'⟩
  have hl0 : groupTerms c0.cname (·.bus) (matching c0 carrier (some p)) ∈ techExprs cs carrier (some p) := by
    refine List.mem_map.mpr ⟨c0, List.mem_filter.mpr ⟨hc0, ?_⟩, rfl⟩
    simp only [hm0.1, Bool.true_and, Bool.not_eq_true', ← Bool.not_eq_true, List.isEmpty_iff]
    exact List.ne_nil_of_mem hin0
  have hne : (techExprs cs carrier (some p)).isEmpty = false := by
    rw [← Bool.not_eq_true, List.isEmpty_iff]
    exact List.ne_nil_of_mem hl0
  unfold techLimit
  simp only [hne, Bool.false_eq_true, if_false]
  cases bus with
  | none =>
    simp only
    refine ⟨_, rfl, fun val => ?_⟩
    rw [rowOf_feasible]
    · rw [mergeExprs_total]
      unfold capacityOf
      rw [techExprs_sum cs carrier (some p) _ (fun c => sumIf c.assets (Matches c carrier (some p) none)
        (fun a => val (c.cname, a.name)))]
      · intro c _ hcc _
        have h1 : ((groupTerms c.cname (·.bus) (matching c carrier (some p))).map (fun e => lin val e.2)).sum =
            lin val ((matching c carrier (some p)).map (fun a => ((1 : F), (c.cname, a.name)))) := by
          have := sum_lookup val (groupTerms c.cname (·.bus) (matching c carrier (some p)))
            (sortedLabels ((matching c carrier (some p)).map (·.bus))) (sortedLabels_nodup _) (by
              intro e he
              rw [← groupTerms_labels c.cname (·.bus)]
              exact List.mem_map.mpr ⟨e, he, rfl⟩)
          rw [← this]
          simp only [lookup_groupTerms]
          have h2 := sum_lookup val ((matching c carrier (some p)).map
            (fun a => (a.bus, [((1 : F), (c.cname, a.name))])))
            (sortedLabels ((matching c carrier (some p)).map (·.bus))) (sortedLabels_nodup _) (by
              intro e he
              obtain ⟨a, ha, rfl⟩ := List.mem_map.mp he
              rw [mem_sortedLabels]
              exact List.mem_map.mpr ⟨a, ha, rfl⟩)
          rw [lin_ones]
          rw [List.map_map] at h2
          simp only [Function.comp_def, lin_cons, lin_nil, one_mul, add_zero] at h2
          rw [← h2]
          congr 1
          apply List.map_congr_left
          intro b _
          congr 1
          unfold lookup
          induction matching c carrier (some p) with
          | nil => rfl
          | cons a t ih => by_cases h : a.bus = b <;> simp [h, ih]
        rw [h1, lin_ones]
        unfold matching
        rw [sum_filter_map]
        apply sumIf_congr
        · intro a ha
          have := mem_matching (carrier := carrier) (period := some p) (a := a) hcc
          unfold matching at this
          rw [List.mem_filter] at this
          exact ⟨fun h => (this.mp ⟨ha, h⟩).2, fun h => (this.mpr ⟨ha, h⟩).2⟩
        · intros; rfl
      · intro c _ hcc
        unfold sumIf
        apply List.sum_eq_zero
        intro x hx
        obtain ⟨a, ha, rfl⟩ := List.mem_map.mp hx
        rw [if_neg]
        intro hM
        rcases hcc with h | h
        · rw [hM.1] at h; cases h
        · have := (mem_matching hM.1).mpr ⟨ha, hM⟩
          rw [h] at this; simp at this
    · -- the row has a term
      intro hnil
      have hmem : (a0.bus, ((matching c0 carrier (some p)).filter (fun a => decide (a.bus = a0.bus))).map
          (fun a => ((1 : F), (c0.cname, a.name)))) ∈ groupTerms c0.cname (·.bus) (matching c0 carrier (some p)) :=
        List.mem_map.mpr ⟨a0.bus, mem_sortedLabels.mpr (List.mem_map.mpr ⟨a0, hin0, rfl⟩), rfl⟩
      have := mem_mergeExprs _ _ hl0 _ hmem (1, (c0.cname, a0.name))
        (List.mem_map.mpr ⟨a0, List.mem_filter.mpr ⟨hin0, by simp⟩, rfl⟩)
      rw [hnil] at this
      simp at this
  | some b =>
    have hb : a0.bus = b := by
      rcases hm0.2.2.2.2 with h | h
      · cases h
      · injection h with h; exact h.symm
    obtain ⟨-, hlab, hval⟩ := mergeExprs_aligned _ (techExprs_aligned cs carrier (some p) (hal (by simp)))
      (techExprs_nodup cs carrier (some p))
    have hbin : b ∈ (mergeExprs (techExprs cs carrier (some p))).map (·.1) := by
      rw [hlab]
      refine ⟨_, hl0, ?_⟩
      rw [groupTerms_labels, mem_sortedLabels, ← hb]
      exact List.mem_map.mpr ⟨a0, hin0, rfl⟩
    obtain ⟨e, he, heb⟩ := List.mem_map.mp hbin
    obtain ⟨e', he'⟩ : ∃ e', (mergeExprs (techExprs cs carrier (some p))).find?
        (fun e => decide (e.1 = b)) = some e' := by
      rw [← Option.isSome_iff_exists, List.find?_isSome]
      exact ⟨e, he, by simpa using heb⟩
    simp only [he']
    refine ⟨_, rfl, fun val => ?_⟩
    have h1 := List.find?_some he'
    simp only [decide_eq_true_eq] at h1
    have h2 := hval e' (List.mem_of_find?_eq_some he')
    rw [h1] at h2
    rw [rowOf_feasible]
    · rw [h2, lin_flatMap]
      unfold capacityOf
      rw [techExprs_sum cs carrier (some p) _ (fun c => sumIf c.assets (Matches c carrier (some p) (some b))
        (fun a => val (c.cname, a.name)))]
      · intro c _ hcc _
        rw [lookup_groupTerms, lin_ones]
        unfold matching
        rw [List.filter_filter, sum_filter_map]
        apply sumIf_congr
        · intro a ha
          simp only [Matches, hcc, inPeriod, Bool.and_eq_true, decide_eq_true_eq, true_and,
            Option.all_some, reduceCtorEq, Option.some.injEq, false_or]
          tauto
        · intros; rfl
      · intro c _ hcc
        unfold sumIf
        apply List.sum_eq_zero
        intro x hx
        obtain ⟨a, ha, rfl⟩ := List.mem_map.mp hx
        rw [if_neg]
        intro hM
        rcases hcc with h | h
        · rw [hM.1] at h; cases h
        · have := (mem_matching hM.1).mpr ⟨ha, ⟨hM.1, hM.2.1, hM.2.2.1, hM.2.2.2.1, Or.inl rfl⟩⟩
          rw [h] at this; simp at this
    · rw [h2]
      intro hnil
      have : (1, (c0.cname, a0.name)) ∈ (techExprs cs carrier (some p)).flatMap (lookup b) := by
        rw [List.mem_flatMap]
        refine ⟨_, hl0, ?_⟩
        rw [lookup_groupTerms]
        exact List.mem_map.mpr ⟨a0, List.mem_filter.mpr ⟨hin0, by simpa using hb⟩, rfl⟩
      rw [hnil] at this
      simp at this

/-- The three prefixes. -/
def pre : Sense → List Char
  | .ge => ['n', 'o', 'm', '_', 'm', 'i', 'n', '_']
  | .le => ['n', 'o', 'm', '_', 'm', 'a', 'x', '_']
  | .eq => []

theorem rsplit_some {s a b : List Char} (h : rsplit s = some (a, b)) : s = a ++ '_' :: b ∧ '_' ∉ b := by
  unfold rsplit at h
  split at h
  · rename_i hm
    simp only [Option.some.injEq, Prod.mk.injEq] at h
    obtain ⟨rfl, rfl⟩ := h
    have hd : ∃ r, s.reverse.dropWhile (· ≠ '_') = '_' :: r := by
      have hne : s.reverse.dropWhile (· ≠ '_') ≠ [] := by
        intro hnil
        rw [List.dropWhile_eq_nil_iff] at hnil
        have := hnil '_' (by simpa using hm)
        simp at this
      obtain ⟨x, r, hx⟩ := List.exists_cons_of_ne_nil hne
      have := List.head_dropWhile_not (fun c => decide (c ≠ '_')) (l := s.reverse) (by simpa using hne)
      simp only [hx, List.head_cons] at this
      refine ⟨r, ?_⟩
      rw [hx]
      simpa using this
    obtain ⟨r, hr⟩ := hd
    refine ⟨?_, ?_⟩
    · have h1 := List.takeWhile_append_dropWhile (p := (· ≠ '_')) (l := s.reverse)
      have h2 := congrArg List.reverse h1
      rw [List.reverse_reverse, List.reverse_append, hr] at h2
      rw [hr, List.tail_cons]
      conv_lhs => rw [← h2]
      simp
    · intro hmem
      rw [List.mem_reverse] at hmem
      have := List.mem_takeWhile_imp hmem
      simp at this
  · cases h

theorem rsplit_mk (a b : List Char) (hb : '_' ∉ b) : rsplit (a ++ '_' :: b) = some (a, b) := by
  obtain ⟨x, hx⟩ : ∃ x, rsplit (a ++ '_' :: b) = some x := by
    unfold rsplit; rw [if_pos (by simp)]; exact ⟨_, rfl⟩
  rw [hx]
  obtain ⟨a', b'⟩ := x
  obtain ⟨h1, h2⟩ := rsplit_some hx
  have : a = a' ∧ b = b' := by
    have h3 : b.reverse ++ '_' :: a.reverse = b'.reverse ++ '_' :: a'.reverse := by
      have := congrArg List.reverse h1
      simpa using this
    have hb' : ∀ (l m r r' : List Char), '_' ∉ l → '_' ∉ m → l ++ '_' :: r = m ++ '_' :: r' → l = m ∧ r = r' := by
      intro l
      induction l with
      | nil =>
        intro m r r' _ hm h
        cases m with
        | nil => simpa using h
        | cons c m => simp at h; exact absurd h.1 (by rintro rfl; simp at hm)
      | cons c l ih =>
        intro m r r' hl hm h
        cases m with
        | nil => simp at h; exact absurd h.1 (by rintro rfl; simp at hl)
        | cons d m =>
          simp only [List.cons_append, List.cons.injEq] at h
          simp only [List.mem_cons, not_or] at hl hm
          obtain ⟨h4, h5⟩ := ih m r r' hl.2 hm.2 h.2
          exact ⟨by rw [h.1, h4], h5⟩
    obtain ⟨h4, h5⟩ := hb' _ _ _ _ (by simpa using hb) (by simpa using h2) h3
    exact ⟨List.reverse_injective h5, List.reverse_injective h4⟩
  rw [this.1, this.2]

/-- C53, columns: a column is only ever read as a limit for a known carrier whose name follows
`nom_min_` or `nom_max_`, either to the end or up to an underscore and a period of the horizon. -/
theorem column_sound (pyInt : List Char → Option Int) (carriers : List (List Char))
    (periods : Option (List Int)) (col : List Char) (s : Sense) (c : List Char) (p : Option Int)
    (h : parseCol pyInt carriers periods col = .ok (some (s, c, p))) :
    c ∈ carriers ∧ (s = .ge ∨ s = .le) ∧
    ((p = none ∧ col = pre s ++ c) ∨
      ∃ k ds ps, p = some k ∧ periods = some ps ∧ k ∈ ps ∧ pyInt ds = some k ∧ '_' ∉ ds ∧
        col = pre s ++ c ++ '_' :: ds) := by
  unfold parseCol at h
  have hpre : ∀ s', (if preMin.isPrefixOf col then some Sense.ge
      else if preMax.isPrefixOf col then some Sense.le else none) = some s' →
      col = pre s' ++ col.drop 8 ∧ (s' = .ge ∨ s' = .le) := by
    intro s' hs
    split at hs
    · rename_i hp
      injection hs with hs
      subst hs
      rw [List.isPrefixOf_iff_prefix] at hp
      obtain ⟨t, rfl⟩ := hp
      exact ⟨rfl, Or.inl rfl⟩
    · split at hs
      · rename_i hp
        injection hs with hs
        subst hs
        rw [List.isPrefixOf_iff_prefix] at hp
        obtain ⟨t, rfl⟩ := hp
        exact ⟨rfl, Or.inr rfl⟩
      · cases hs
  simp only at h
  split at h
  · cases h
  · rename_i s' hs
    obtain ⟨hcol, hss⟩ := hpre s' hs
    split at h
    · rename_i hmem
      simp only [Except.ok.injEq, Option.some.injEq, Prod.mk.injEq] at h
      obtain ⟨rfl, rfl, rfl⟩ := h
      exact ⟨hmem, hss, Or.inl ⟨rfl, hcol⟩⟩
    · split at h
      · cases h
      · rename_i ps hps
        split at h
        · cases h
        · rename_i a b hr
          split at h
          · cases h
          · rename_i k hk
            split at h
            · cases h
            · rename_i hnot
              simp only [Except.ok.injEq, Option.some.injEq, Prod.mk.injEq] at h
              obtain ⟨rfl, rfl, rfl⟩ := h
              simp only [not_or, not_not] at hnot
              obtain ⟨h1, h2⟩ := rsplit_some hr
              refine ⟨hnot.1, hss, Or.inr ⟨k, b, _, rfl, rfl, hnot.2, hk, h2, ?_⟩⟩
              rw [List.append_assoc, ← h1, ← hcol]

/-- C53, columns: a column for a known carrier is read so, and a column for a known carrier and a period
of the horizon too, unless another carrier has the whole rest of the name. -/
theorem column_complete (pyInt : List Char → Option Int) (carriers : List (List Char))
    (periods : List Int) (s : Sense) (hs : s = .ge ∨ s = .le) (c : List Char) (hc : c ∈ carriers) :
    (∀ ps, parseCol pyInt carriers ps (pre s ++ c) = .ok (some (s, c, none))) ∧
    ∀ k ∈ periods, ∀ ds, '_' ∉ ds → pyInt ds = some k → c ++ '_' :: ds ∉ carriers →
      parseCol pyInt carriers (some periods) (pre s ++ (c ++ '_' :: ds)) = .ok (some (s, c, some k)) := by
  have hpre : ∀ t, (if preMin.isPrefixOf (pre s ++ t) then some Sense.ge
      else if preMax.isPrefixOf (pre s ++ t) then some Sense.le else none) = some s := by
    intro t
    rcases hs with rfl | rfl <;> rfl
  have hdrop : ∀ t, (pre s ++ t).drop 8 = t := by
    intro t
    rcases hs with rfl | rfl <;> rfl
  constructor
  · intro ps
    unfold parseCol
    simp only [hpre, hdrop, if_pos hc]
  · intro k hk ds hds hint hno
    unfold parseCol
    simp only [hpre, hdrop, if_neg hno, rsplit_mk c ds hds, hint]
    rw [if_neg (by simp [hc, hk])]

/-- C53, columns: the rows of a column say that at every bus with a value and with matching assets
the capacity of the matching extendable one-port assets is on the right side of the value. -/
theorem bus_column (cs : List (Cls F)) (buses : List Name) (value : Name → Option F) (sense : Sense)
    (carrier : Name) (period : Option Int) (val : Var → F) :
    Feasible val (busRows cs buses value sense carrier period) ↔
      ∀ b ∈ buses, ∀ v, value b = some v →
        (∃ c ∈ cs, c.onePort = true ∧ ∃ a ∈ c.assets, Matches c carrier period (some b) a) →
        Right sense (capacityOf (cs.filter (·.onePort)) carrier period (some b) val) v := by
  have key : ∀ b, lin val ((cs.filter (fun c => c.onePort && c.hasCarrier)).flatMap (fun c =>
        ((matching c carrier period).filter (fun a => decide (a.bus = b))).map
          (fun a => ((1 : F), (c.cname, a.name))))) =
        capacityOf (cs.filter (·.onePort)) carrier period (some b) val := by
    intro b
    rw [lin_flatMap]
    unfold capacityOf
    induction cs with
    | nil => rfl
    | cons c t ih =>
      cases ho : c.onePort with
      | false => simpa [ho] using ih
      | true =>
        cases hcc : c.hasCarrier with
        | false =>
          rw [List.filter_cons_of_neg (by simp [hcc]), List.filter_cons_of_pos (by simp [ho]),
            List.map_cons (l := t.filter _), List.sum_cons, ← ih]
          have : sumIf c.assets (Matches c carrier period (some b)) (fun a => val (c.cname, a.name)) = 0 := by
            unfold sumIf
            apply List.sum_eq_zero
            intro x hx
            obtain ⟨a, ha, rfl⟩ := List.mem_map.mp hx
            rw [if_neg]
            intro hM
            rw [hM.1] at hcc; cases hcc
          rw [this, zero_add]
        | true =>
          rw [List.filter_cons_of_pos (by simp [ho, hcc]), List.filter_cons_of_pos (by simp [ho]),
            List.map_cons, List.map_cons, List.sum_cons, List.sum_cons, ih]
          congr 1
          rw [lin_ones]
          unfold matching
          rw [List.filter_filter, sum_filter_map]
          apply sumIf_congr
          · intro a ha
            cases period <;>
            simp only [Matches, hcc, inPeriod, Bool.and_eq_true, decide_eq_true_eq, true_and,
              Option.all_some, Option.all_none, reduceCtorEq, Option.some.injEq, false_or] <;> tauto
          · intros; rfl
  have hnil : ∀ b, ((cs.filter (fun c => c.onePort && c.hasCarrier)).flatMap (fun c =>
        ((matching c carrier period).filter (fun a => decide (a.bus = b))).map
          (fun a => ((1 : F), (c.cname, a.name))))) ≠ [] ↔
      ∃ c ∈ cs, c.onePort = true ∧ ∃ a ∈ c.assets, Matches c carrier period (some b) a := by
    intro b
    constructor
    · intro h
      obtain ⟨x, hx⟩ := List.exists_mem_of_ne_nil _ h
      obtain ⟨c, hc, hx⟩ := List.mem_flatMap.mp hx
      obtain ⟨hc, h1⟩ := List.mem_filter.mp hc
      simp only [Bool.and_eq_true] at h1
      obtain ⟨a, ha, -⟩ := List.mem_map.mp hx
      obtain ⟨ha, hab⟩ := List.mem_filter.mp ha
      obtain ⟨ha, hM⟩ := (mem_matching h1.2).mp ha
      refine ⟨c, hc, h1.1, a, ha, hM.1, hM.2.1, hM.2.2.1, hM.2.2.2.1, Or.inr ?_⟩
      simp only [decide_eq_true_eq] at hab
      rw [hab]
    · rintro ⟨c, hc, ho, a, ha, hM⟩
      apply List.ne_nil_of_mem (a := ((1 : F), (c.cname, a.name)))
      rw [List.mem_flatMap]
      refine ⟨c, List.mem_filter.mpr ⟨hc, by simp [ho, hM.1]⟩, List.mem_map.mpr ⟨a, ?_, rfl⟩⟩
      refine List.mem_filter.mpr ⟨(mem_matching hM.1).mpr ⟨ha, hM.1, hM.2.1, hM.2.2.1, hM.2.2.2.1,
        Or.inl rfl⟩, ?_⟩
      rcases hM.2.2.2.2 with h | h
      · cases h
      · injection h with h; simp [h]
  unfold busRows
  rw [feasible_flatMap]
  constructor
  · intro h b hb v hv hex
    have := h b hb
    rw [hv] at this
    simp only at this
    rw [rowOf_feasible _ _ _ _ ((hnil b).mpr hex), key] at this
    exact this
  · intro h b hb
    cases hv : value b with
    | none => simp
    | some v =>
      simp only
      by_cases hex : ∃ c ∈ cs, c.onePort = true ∧ ∃ a ∈ c.assets, Matches c carrier period (some b) a
      · rw [rowOf_feasible _ _ _ _ ((hnil b).mpr hex), key]
        exact h b hb v hv hex
      · have := mt (hnil b).mp hex
        simp only [ne_eq, not_not] at this
        rw [this]
        simp [rowOf]

end tech

/-! ## C55 -/

section growth
variable {F : Type} [Field F] [LinearOrder F] [IsStrictOrderedRing F]

/-- The asset is active in period number `k` and in no earlier one. -/
def NewIn (ps : List Int) (a : Asset F) (k : Nat) : Prop :=
  ∃ p, ps[k]? = some p ∧ a.activeIn p = true ∧ ∀ q ∈ ps.take k, a.activeIn q = false

/-- The asset, once active, stays so to the end of the horizon. -/
def Stays (ps : List Int) (a : Asset F) : Prop :=
  ∀ i j : Nat, ∀ p q : Int, i ≤ j → ps[i]? = some p → ps[j]? = some q → a.activeIn p = true → a.activeIn q = true

/-- The carrier has a finite growth limit. -/
def Limits (carriers : List (Carrier F)) (b : Name) (g r : F) : Prop :=
  ∃ x ∈ carriers, x.name = b ∧ x.maxGrowth = some g ∧ r = max x.maxRelative 0

open Classical in
/-- Capacity of extendable assets of a carrier newly built in period number `k`. -/
noncomputable def newCapacity (cs : List (Cls F)) (ps : List Int) (b : Name) (k : Nat) (val : Var → F) : F :=
  (cs.map (fun c => sumIf c.assets
    (fun a => c.hasCarrier = true ∧ a.ext = true ∧ a.carrier = b ∧ NewIn ps a k)
    (fun a => val (c.cname, a.name)))).sum

/-- Carriers of the extendable assets of a class that have a limit. -/
def limitedCarriers (carriers : List (Carrier F)) (c : Cls F) (b : Name) : Prop :=
  c.hasCarrier = true ∧ (∃ a ∈ c.assets, a.ext = true ∧ a.carrier = b) ∧ ∃ g r, Limits carriers b g r

theorem absGrowth_some {carriers : List (Carrier F)} (hnd : (carriers.map (·.name)).Nodup) {b : Name} {g : F} :
    absGrowth carriers b = some g ↔ Limits carriers b g (relGrowth carriers b) := by
  unfold absGrowth Limits relGrowth
  cases hf : carriers.find? (fun x => decide (x.name = b)) with
  | none =>
    simp only [Option.bind_none, reduceCtorEq, false_iff]
    rintro ⟨x, hx, h1, -, -⟩
    have := List.find?_eq_none.mp hf x hx
    simp [h1] at this
  | some y =>
    have hy := List.mem_of_find?_eq_some hf
    have hyb := List.find?_some hf
    simp only [decide_eq_true_eq] at hyb
    simp only [Option.bind_some]
    constructor
    · intro h; exact ⟨y, hy, hyb, h, rfl⟩
    · rintro ⟨x, hx, h1, h2, -⟩
      rw [List.inj_on_of_nodup_map hnd hy hx (hyb.trans h1.symm)]; exact h2

theorem limits_rel {carriers : List (Carrier F)} (hnd : (carriers.map (·.name)).Nodup) {b : Name} {g r : F}
    (h : Limits carriers b g r) : r = relGrowth carriers b ∧ absGrowth carriers b = some g := by
  have h2 : r = relGrowth carriers b := by
    obtain ⟨x, hx, h1, -, h3⟩ := h
    unfold relGrowth
    have : carriers.find? (fun y => decide (y.name = b)) = some x := by
      obtain ⟨y, hy⟩ : ∃ y, carriers.find? (fun y => decide (y.name = b)) = some y := by
        rw [← Option.isSome_iff_exists, List.find?_isSome]; exact ⟨x, hx, by simpa using h1⟩
      have hy1 := List.mem_of_find?_eq_some hy
      have hy2 := List.find?_some hy
      simp only [decide_eq_true_eq] at hy2
      rw [hy, List.inj_on_of_nodup_map hnd hy1 hx (hy2.trans h1.symm)]
    rw [this]; exact h3
  refine ⟨h2, (absGrowth_some hnd).mpr ?_⟩
  rw [← h2]; exact h

theorem mem_limited {carriers : List (Carrier F)} (hnd : (carriers.map (·.name)).Nodup) {c : Cls F}
    (hc : c.hasCarrier = true) {b : Name} :
    b ∈ (limited carriers c).map (·.carrier) ↔ limitedCarriers carriers c b := by
  unfold limited limitedCarriers
  simp only [List.mem_map, List.mem_filter, Bool.and_eq_true, Option.isSome_iff_exists, hc, true_and]
  constructor
  · rintro ⟨a, ⟨ha, he, g, hg⟩, rfl⟩
    exact ⟨⟨a, ha, he, rfl⟩, g, _, (absGrowth_some hnd).mp hg⟩
  · rintro ⟨⟨a, ha, he, rfl⟩, g, r, h⟩
    exact ⟨a, ⟨ha, he, g, (limits_rel hnd h).2⟩, rfl⟩

theorem firstActive_iff {ps : List Int} {a : Asset F} (hst : Stays ps a) {k : Nat} (hk : k < ps.length) :
    firstActive ps a k = true ↔ NewIn ps a k := by
  have hk' : ps[k]? = some ps[k] := List.getElem?_eq_getElem hk
  have htake : ps.take (k + 1) = ps.take k ++ [ps[k]] := by
    rw [List.take_succ_eq_append_getElem hk]
  unfold firstActive NewIn
  rw [htake, List.countP_append, beq_iff_eq]
  have hidx : ∀ q ∈ ps.take k, ∃ i < k, ps[i]? = some q := by
    intro q hq
    obtain ⟨i, hi, rfl⟩ := List.getElem_of_mem hq
    rw [List.length_take] at hi
    refine ⟨i, by omega, ?_⟩
    rw [List.getElem_take, List.getElem?_eq_getElem]
  constructor
  · intro h
    cases hact : a.activeIn ps[k] with
    | false =>
      exfalso
      have h0 : (ps.take k).countP a.activeIn = 0 := by
        rw [List.countP_eq_zero]
        intro q hq hqa
        obtain ⟨i, hi, hiq⟩ := hidx q hq
        have := hst i k q _ (by omega) hiq hk' hqa
        rw [hact] at this; cases this
      simp [h0, hact] at h
    | true =>
      refine ⟨_, hk', hact, ?_⟩
      have h0 : (ps.take k).countP a.activeIn = 0 := by
        simp [hact] at h; simpa [List.countP_eq_zero] using h
      rw [List.countP_eq_zero] at h0
      intro q hq
      simpa using h0 q hq
  · rintro ⟨p, hp, hact, hno⟩
    rw [hk'] at hp
    injection hp with hp
    rw [hp]
    have h0 : (ps.take k).countP a.activeIn = 0 := by
      rw [List.countP_eq_zero]
      intro q hq
      simp [hno q hq]
    simp [h0, hact]

/-- Sum of a filtered part of the limited assets. -/
theorem lin_newTerms (carriers : List (Carrier F)) (ps : List Int) (c : Cls F) (hc : c.hasCarrier = true)
    (b : Name) (hb : ∃ g, absGrowth carriers b = some g) (k : Nat) (hk : k < ps.length) (x : F)
    (hst : ∀ a ∈ c.assets, Stays ps a) (val : Var → F) [DecidablePred (fun a : Asset F =>
      c.hasCarrier = true ∧ a.ext = true ∧ a.carrier = b ∧ NewIn ps a k)] :
    lin val (newTerms ps c.cname (limited carriers c) b k x) = x * sumIf c.assets
      (fun a => c.hasCarrier = true ∧ a.ext = true ∧ a.carrier = b ∧ NewIn ps a k)
      (fun a => val (c.cname, a.name)) := by
  have h1 : ∀ as : List (Asset F), lin val (as.map (fun a => (x, (c.cname, a.name)))) =
      x * (as.map (fun a => val (c.cname, a.name))).sum := by
    intro as
    unfold lin
    induction as with
    | nil => simp
    | cons a t ih => simp only [List.map_cons, List.sum_cons] at ih ⊢; rw [ih]; ring
  unfold newTerms
  rw [h1]
  congr 1
  unfold limited
  rw [List.filter_filter, sum_filter_map]
  apply sumIf_congr
  · intro a ha
    simp only [Bool.and_eq_true, decide_eq_true_eq, firstActive_iff (hst a ha) hk, hc, true_and,
      Option.isSome_iff_exists]
    constructor
    · rintro ⟨⟨h1, h2⟩, h3, -⟩; exact ⟨h3, h1, h2⟩
    · rintro ⟨h3, h1, h2⟩; exact ⟨⟨h1, h2⟩, h3, h1 ▸ hb⟩
  · intros; rfl

/-- C55 (partial): with growth limits that are not negative, and assets which stay active to the end
of the horizon, the rows say exactly that for each limited carrier the capacity newly built in a
period is at most the absolute limit plus the relative limit (if positive) times the capacity newly
built in the preceding period.  It is assumed that the carriers of the component classes do not get mixed up.
Missing: an asset that is active in one period only counts as new in all later ones
(`growth_counts_retired`); classes with equally many but different carriers are mixed up
(`growth_mixed`). -/
theorem growth_limit_partial (carriers : List (Carrier F)) (ps : List Int) (cs : List (Cls F))
    (hnd : (carriers.map (·.name)).Nodup) (hpos : ∀ b g r, Limits carriers b g r → 0 ≤ g)
    (hst : ∀ c ∈ cs, ∀ a ∈ c.assets, Stays ps a)
    (hal : ∀ c ∈ cs, ∀ c' ∈ cs, (∃ b, limitedCarriers carriers c b) → (∃ b, limitedCarriers carriers c' b) →
      ∀ b, limitedCarriers carriers c b ↔ limitedCarriers carriers c' b)
    (val : Var → F) :
    Feasible val (growthCons carriers ps cs) ↔
      ∀ k < ps.length, ∀ b g r, Limits carriers b g r →
        newCapacity cs ps b k val ≤ g + r * (if k = 0 then 0 else newCapacity cs ps b (k - 1) val) := by
  classical
  let cls := cs.filter (fun c => c.hasCarrier && !(limited carriers c).isEmpty)
  have hcls : ∀ c, c ∈ cls ↔ c ∈ cs ∧ c.hasCarrier = true ∧ ∃ b, limitedCarriers carriers c b := by
    intro c
    simp only [cls, List.mem_filter, Bool.and_eq_true, Bool.not_eq_true', ← Bool.not_eq_true, List.isEmpty_iff]
    constructor
    · rintro ⟨h1, h2, h3⟩
      obtain ⟨a, ha⟩ := List.exists_mem_of_ne_nil _ h3
      exact ⟨h1, h2, a.carrier, (mem_limited hnd h2).mp (List.mem_map.mpr ⟨a, ha, rfl⟩)⟩
    · rintro ⟨h1, h2, b, hb⟩
      refine ⟨h1, h2, ?_⟩
      obtain ⟨a, ha, -⟩ := List.mem_map.mp ((mem_limited hnd h2).mpr hb)
      exact List.ne_nil_of_mem ha
  -- the merged expressions
  have hlab : ∀ k, ∀ c, (growthExpr carriers ps c k).map (·.1) =
      sortedLabels ((limited carriers c).map (·.carrier)) := by
    intro k c
    unfold growthExpr
    simp only [List.map_map]
    exact List.map_id _
  have hmerge := fun k => mergeExprs_aligned (cls.map (fun c => growthExpr carriers ps c k)) (Or.inl (by
      intro l hl l' hl'
      obtain ⟨c, hc, rfl⟩ := List.mem_map.mp hl
      obtain ⟨c', hc', rfl⟩ := List.mem_map.mp hl'
      rw [hlab, hlab]
      apply sortedLabels_eq
      intro b
      obtain ⟨a1, a2, a3⟩ := (hcls c).mp hc
      obtain ⟨b1, b2, b3⟩ := (hcls c').mp hc'
      rw [mem_limited hnd a2, mem_limited hnd b2]
      exact hal c a1 c' b1 a3 b3 b)) (by
      intro l hl
      obtain ⟨c, hc, rfl⟩ := List.mem_map.mp hl
      rw [hlab]; exact sortedLabels_nodup _)
  -- classes that do not take part contribute nothing
  have hzero : ∀ c ∈ cs, c ∉ cls → ∀ b k, (∃ g r, Limits carriers b g r) → sumIf c.assets
      (fun a => c.hasCarrier = true ∧ a.ext = true ∧ a.carrier = b ∧ NewIn ps a k)
      (fun a => val (c.cname, a.name)) = 0 := by
    intro c hc hnc b k hb
    unfold sumIf
    apply List.sum_eq_zero
    intro x hx
    obtain ⟨a, ha, rfl⟩ := List.mem_map.mp hx
    rw [if_neg]
    rintro ⟨h1, h2, h3, -⟩
    exact hnc ((hcls c).mpr ⟨hc, h1, b, h1, ⟨a, ha, h2, h3⟩, hb⟩)
  have hsum : ∀ b k, (∃ g r, Limits carriers b g r) → newCapacity cs ps b k val = (cls.map (fun c => sumIf c.assets
      (fun a => c.hasCarrier = true ∧ a.ext = true ∧ a.carrier = b ∧ NewIn ps a k)
      (fun a => val (c.cname, a.name)))).sum := by
    intro b k hb
    unfold newCapacity
    have : ∀ l : List (Cls F), (∀ c ∈ l, c ∈ cs) → (l.map (fun c => sumIf c.assets
      (fun a => c.hasCarrier = true ∧ a.ext = true ∧ a.carrier = b ∧ NewIn ps a k)
      (fun a => val (c.cname, a.name)))).sum = ((l.filter (fun c => c.hasCarrier &&
        !(limited carriers c).isEmpty)).map (fun c => sumIf c.assets
      (fun a => c.hasCarrier = true ∧ a.ext = true ∧ a.carrier = b ∧ NewIn ps a k)
      (fun a => val (c.cname, a.name)))).sum := by
      intro l hl
      induction l with
      | nil => rfl
      | cons c t ih =>
        have ih := ih (fun x hx => hl x (by simp [hx]))
        by_cases hp : (c.hasCarrier && !(limited carriers c).isEmpty) = true
        · rw [List.filter_cons, if_pos hp, List.map_cons, List.map_cons, List.sum_cons, List.sum_cons, ih]
        · rw [List.filter_cons, if_neg hp, List.map_cons, List.sum_cons, ih,
            hzero c (hl c (by simp)) (fun h => hp (List.mem_filter.mp h).2) b k hb, zero_add]
    exact this cs (fun _ h => h)
  -- value of the expression of one class
  have hexpr : ∀ k < ps.length, ∀ c ∈ cls, ∀ b g r, Limits carriers b g r →
      lin val (lookup b (growthExpr carriers ps c k)) = sumIf c.assets
        (fun a => c.hasCarrier = true ∧ a.ext = true ∧ a.carrier = b ∧ NewIn ps a k)
        (fun a => val (c.cname, a.name)) - r * (if k = 0 then 0 else sumIf c.assets
        (fun a => c.hasCarrier = true ∧ a.ext = true ∧ a.carrier = b ∧ NewIn ps a (k - 1))
        (fun a => val (c.cname, a.name))) := by
    intro k hk c hc b g r hlim
    obtain ⟨hr, hg⟩ := limits_rel hnd hlim
    obtain ⟨hcs, hcc, -⟩ := (hcls c).mp hc
    unfold growthExpr
    simp only
    rw [lookup_map _ (sortedLabels_nodup _)]
    have hnone : b ∉ sortedLabels ((limited carriers c).map (·.carrier)) → ∀ k, sumIf c.assets
        (fun a => c.hasCarrier = true ∧ a.ext = true ∧ a.carrier = b ∧ NewIn ps a k)
        (fun a => val (c.cname, a.name)) = 0 := by
      intro hnb k
      unfold sumIf
      apply List.sum_eq_zero
      intro x hx
      obtain ⟨a, ha, rfl⟩ := List.mem_map.mp hx
      rw [if_neg]
      rintro ⟨h1, h2, h3, -⟩
      rw [mem_sortedLabels, mem_limited hnd hcc] at hnb
      exact hnb ⟨h1, ⟨a, ha, h2, h3⟩, g, r, hlim⟩
    split
    · rename_i hmem
      rw [lin_append, lin_newTerms carriers ps c hcc b ⟨g, hg⟩ k hk 1 (hst c hcs), one_mul, sub_eq_add_neg]
      congr 1
      split
      · cases k with
        | zero => simp
        | succ k =>
          simp only [Nat.add_sub_cancel, if_neg (Nat.succ_ne_zero k)]
          rw [lin_newTerms carriers ps c hcc b ⟨g, hg⟩ k (by omega) _ (hst c hcs), hr]
          ring
      · rename_i hany
        have h0 : r = 0 := by
          rw [mem_sortedLabels] at hmem
          obtain ⟨a, ha, rfl⟩ := List.mem_map.mp hmem
          have this : relGrowth carriers a.carrier ≤ 0 := by
            by_contra hlt
            exact hany (List.any_eq_true.mpr ⟨a, ha, by simpa using hlt⟩)
          rw [hr]
          refine le_antisymm this ?_
          obtain ⟨x, -, -, -, h3⟩ := hlim
          rw [← hr, h3]; exact le_max_right _ _
        rw [h0]; simp
    · rename_i hmem
      rw [hnone hmem]
      split
      · simp
      · rw [hnone hmem]; simp
  have hrow : ∀ k < ps.length, ∀ b g r, Limits carriers b g r →
      lin val ((cls.map (fun c => growthExpr carriers ps c k)).flatMap (lookup b)) =
        newCapacity cs ps b k val - r * (if k = 0 then 0 else newCapacity cs ps b (k - 1) val) := by
    intro k hk b g r hlim
    rw [lin_flatMap, List.map_map, hsum b k ⟨g, r, hlim⟩, hsum b (k - 1) ⟨g, r, hlim⟩]
    have : (cls.map ((fun l => lin val (lookup b l)) ∘ fun c => growthExpr carriers ps c k)) =
        cls.map (fun c => sumIf c.assets
        (fun a => c.hasCarrier = true ∧ a.ext = true ∧ a.carrier = b ∧ NewIn ps a k)
        (fun a => val (c.cname, a.name)) - r * (if k = 0 then 0 else sumIf c.assets
        (fun a => c.hasCarrier = true ∧ a.ext = true ∧ a.carrier = b ∧ NewIn ps a (k - 1))
        (fun a => val (c.cname, a.name)))) := by
      apply List.map_congr_left
      intro c hc
      exact hexpr k hk c hc b g r hlim
    rw [this]
    clear this
    generalize cls = l
    induction l with
    | nil => simp
    | cons c t ih =>
      simp only [List.map_cons, List.sum_cons, ih]
      split <;> ring
  unfold growthCons
  simp only
  rw [feasible_flatMap]
  change (∀ k ∈ List.range ps.length, Feasible val ((mergeExprs (cls.map
    (fun c => growthExpr carriers ps c k))).flatMap _)) ↔ _
  constructor
  · intro h k hk b g r hlim
    obtain ⟨hr, hg⟩ := limits_rel hnd hlim
    have hk1 := (feasible_flatMap _ _ _).mp (h k (List.mem_range.mpr hk))
    by_cases hmem : b ∈ (mergeExprs (cls.map (fun c => growthExpr carriers ps c k))).map (·.1)
    · obtain ⟨e, he, rfl⟩ := List.mem_map.mp hmem
      have h1 := hk1 e he
      have h2 := (hmerge k).2.2 e he
      have h3 := hrow k hk e.1 g r hlim
      rw [← h2] at h3
      simp only [hg] at h1
      by_cases hnil : e.2 = []
      · rw [hnil, lin_nil] at h3
        have := hpos _ _ _ hlim
        linarith
      · rw [rowOf_feasible _ _ _ _ hnil] at h1
        simp only [Right] at h1
        linarith
    · have h0 : (cls.map (fun c => growthExpr carriers ps c k)).flatMap (lookup b) = [] := by
        rw [List.flatMap_eq_nil_iff]
        intro l hl
        rw [(hmerge k).2.1] at hmem
        unfold lookup
        rw [List.filter_eq_nil_iff.mpr]
        · rfl
        · intro e he
          simp only [decide_eq_true_eq]
          rintro rfl
          exact hmem ⟨l, hl, List.mem_map.mpr ⟨e, he, rfl⟩⟩
      have h3 := hrow k hk b g r hlim
      rw [h0, lin_nil] at h3
      have := hpos _ _ _ hlim
      linarith
  · intro h k hk
    rw [List.mem_range] at hk
    rw [feasible_flatMap]
    intro e he
    cases hg : absGrowth carriers e.1 with
    | none => simp
    | some g =>
      simp only
      by_cases hnil : e.2 = []
      · simp [hnil, rowOf]
      · rw [rowOf_feasible _ _ _ _ hnil]
        simp only [Right]
        have hlim := (absGrowth_some hnd).mp hg
        rw [(hmerge k).2.2 e he, hrow k hk e.1 g _ hlim]
        have := h k hk e.1 g _ hlim
        linarith

end growth

/-! ## Examples and findings -/

/-- A generator class and a storage class. -/
def exCls (genBus storBus : Name) (genCarrier storCarrier : Name) (storActive : Int → Bool) : List (Cls ℚ) :=
  [⟨"Generator", true, true, [⟨"g", genCarrier, genBus, true, fun _ => true, 0, 0⟩]⟩,
   ⟨"Store", true, true, [⟨"s", storCarrier, storBus, true, storActive, 0, 0⟩]⟩]

def exCap : Var → ℚ := fun v => if v.1 = "Generator" then 3 else 4

example : (∃ c ∈ exCls "a" "a" "wind" "wind" (fun _ => true), ∃ a ∈ c.assets,
    Matches c "wind" (some 2030) (some "a") a) ∧
    BusesAligned (exCls "a" "a" "wind" "wind" (fun _ => true)) "wind" (some 2030) ∧
    capacityOf (exCls "a" "a" "wind" "wind" (fun _ => true)) "wind" (some 2030) (some "a") exCap = 7 := by
  refine ⟨by decide +kernel, Or.inl ?_, by decide +kernel⟩
  intro c hc c' hc' _ _ b
  have : ∀ c ∈ exCls "a" "a" "wind" "wind" (fun _ => true), matchedBuses c "wind" (some 2030) = ["a"] := by
    decide +kernel
  rw [this c hc, this c' hc']

/-- **Finding** (global_constraints.py 45-47): a capacity limit without investment period, as in any network
with one period, adds no constraint. -/
theorem tech_limit_ignored : ∃ (cs : List (Cls ℚ)) (g : TechGlc ℚ) (val : Var → ℚ),
    techLimit cs g = .ok [] ∧ g.period = none ∧ g.sense = .le ∧
    g.constant < capacityOf cs g.carrier none none val :=
  ⟨exCls "a" "a" "wind" "wind" (fun _ => true), ⟨"wind", .le, none, none, 1⟩, exCap,
    by decide +kernel, rfl, rfl, by decide +kernel⟩

/-- **Finding** (global_constraints.py 73-82): with generators at one bus and stores at another, the
stores are counted at the bus of the generators, and their own bus is unknown. -/
theorem tech_limit_mixed : ∃ (cs : List (Cls ℚ)) (val : Var → ℚ),
    capacityOf cs "wind" (some 2030) (some "a") val ≤ 3 ∧
    (∃ rows, techLimit cs ⟨"wind", .le, some 2030, some "a", 3⟩ = .ok rows ∧ ¬ Feasible val rows) ∧
    techLimit cs ⟨"wind", .le, some 2030, some "b", 1⟩ = .error .keyError :=
  ⟨exCls "a" "b" "wind" "wind" (fun _ => true), exCap, by decide +kernel,
    ⟨_, rfl, by decide +kernel⟩, by decide +kernel⟩

/-- A column and the way it is read. -/
example : parseCol (fun s => if s = "2030".toList then some 2030 else none) ["wind".toList]
    (some [2030]) "nom_max_wind_2030".toList = .ok (some (.le, "wind".toList, some 2030)) := by
  decide +kernel

/-- Rows of a bus column. -/
example : Feasible exCap (busRows (exCls "a" "b" "wind" "wind" (fun _ => true)) ["a", "b", "c"]
      (fun b => if b = "b" then some 4 else some 3) .le "wind" none) ∧
    ¬ Feasible exCap (busRows (exCls "a" "b" "wind" "wind" (fun _ => true)) ["a", "b", "c"]
      (fun _ => some 3) .le "wind" none) := by decide +kernel

def exCarriers : List (Carrier ℚ) := [⟨"wind", some 2, 1⟩, ⟨"gas", none, 0⟩]

/-- Growth with two periods: 3 in the first, 4 in the second. -/
example : (exCarriers.map (·.name)).Nodup ∧
    Feasible (fun v => if v.1 = "Generator" then (2 : ℚ) else 4)
      (growthCons exCarriers [2020, 2030] (exCls "a" "a" "wind" "wind" (fun p => 2030 ≤ p))) ∧
    ¬ Feasible (fun v => if v.1 = "Generator" then (2 : ℚ) else 5)
      (growthCons exCarriers [2020, 2030] (exCls "a" "a" "wind" "wind" (fun p => 2030 ≤ p))) := by
  decide +kernel

example : (∀ c ∈ exCls "a" "a" "wind" "wind" (fun p => 2030 ≤ p), ∀ a ∈ c.assets, Stays [2020, 2030] a) ∧
    (∀ b g r, Limits exCarriers b g r → 0 ≤ g) := by
  constructor
  · intro c hc a ha i j p q hij hp hq
    have hi : i < 2 := (List.getElem?_eq_some_iff.mp hp).1
    have hj : j < 2 := (List.getElem?_eq_some_iff.mp hq).1
    simp only [exCls, List.mem_cons, List.not_mem_nil, or_false] at hc
    rcases hc with rfl | rfl <;> simp only [List.mem_singleton] at ha <;> subst ha
    · simp
    · interval_cases i <;> interval_cases j <;> simp at hp hq ⊢ <;> omega
  · rintro b g r ⟨x, hx, -, h, -⟩
    simp only [exCarriers, List.mem_cons, List.not_mem_nil, or_false] at hx
    rcases hx with rfl | rfl
    · simp at h; subst h; norm_num
    · cases h

/-- **Finding** (global_constraints.py 219-221): a store in operation in the first period only counts as new
in the second one as well. -/
theorem growth_counts_retired : ∃ (cs : List (Cls ℚ)) (val : Var → ℚ),
    ¬ Feasible val (growthCons [⟨"wind", some 4, 0⟩] [2020, 2030] cs) ∧
    newCapacity cs [2020, 2030] "wind" 0 val = 4 ∧ newCapacity cs [2020, 2030] "wind" 1 val = 3 := by
  refine ⟨[⟨"Generator", true, true, [⟨"g", "wind", "a", true, fun p => 2030 ≤ p, 0, 0⟩]⟩,
    ⟨"Store", true, true, [⟨"s", "wind", "a", true, fun p => p < 2030, 0, 0⟩]⟩], exCap,
    by decide +kernel, ?_, ?_⟩
  · simp [newCapacity, sumIf, NewIn, exCap]
  · simp [newCapacity, sumIf, NewIn, exCap]

/-- **Finding** (global_constraints.py 232): with generators of one carrier and stores of another, both with a
limit, the stores count against the limit of the generators. -/
theorem growth_mixed : ∃ (cs : List (Cls ℚ)) (val : Var → ℚ),
    ¬ Feasible val (growthCons [⟨"wind", some 5, 0⟩, ⟨"battery", some 5, 0⟩] [2020] cs) ∧
    newCapacity cs [2020] "wind" 0 val ≤ 5 ∧ newCapacity cs [2020] "battery" 0 val ≤ 5 := by
  refine ⟨exCls "a" "a" "wind" "battery" (fun _ => true), exCap, by decide +kernel, ?_, ?_⟩
  · simp [newCapacity, sumIf, NewIn, exCap, exCls]; norm_num
  · simp [newCapacity, sumIf, NewIn, exCap, exCls]; norm_num

end Verif.Opt.Global
