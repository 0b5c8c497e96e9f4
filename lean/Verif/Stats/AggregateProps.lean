import Verif.Stats.Aggregate
import Mathlib.Tactic.Linarith
import Mathlib.Tactic.Ring
import Mathlib.Tactic.FieldSimp

/-!
# Aggregation of statistics (C73, C74, C75)
-/

namespace Verif.Stats

variable {F : Type} [Field F] (search : String → String → Bool)

/-- Value of a group in a result: 0 if there is none. -/
def valueAt (rows : List (Row F)) (k : List String) (j : Nat) : F :=
  ((rows.filter (fun r => decide (r.1 = k))).map (fun r => (r.2 j).getD 0)).sum

/-- Total of a column. -/
def total (rows : List (Row F)) (j : Nat) : F := (rows.map (fun r => (r.2 j).getD 0)).sum

@[simp] theorem valueAt_nil (k : List String) (j : Nat) : valueAt ([] : List (Row F)) k j = 0 := rfl

theorem valueAt_append (a b : List (Row F)) (k : List String) (j : Nat) :
    valueAt (a ++ b) k j = valueAt a k j + valueAt b k j := by
  simp [valueAt]

theorem valueAt_cons (r : Row F) (b : List (Row F)) (k : List String) (j : Nat) :
    valueAt (r :: b) k j = (if r.1 = k then (r.2 j).getD 0 else 0) + valueAt b k j := by
  unfold valueAt
  by_cases h : r.1 = k <;> simp [h]

theorem valueAt_flatMap {α : Type} (l : List α) (f : α → List (Row F)) (k : List String) (j : Nat) :
    valueAt (l.flatMap f) k j = (l.map (fun x => valueAt (f x) k j)).sum := by
  induction l with
  | nil => rfl
  | cons x l ih => simp [valueAt_append, ih]

theorem total_append (a b : List (Row F)) (j : Nat) : total (a ++ b) j = total a j + total b j := by simp [total]

theorem total_flatMap {α : Type} (l : List α) (f : α → List (Row F)) (j : Nat) :
    total (l.flatMap f) j = (l.map (fun x => total (f x) j)).sum := by
  induction l with
  | nil => rfl
  | cons x l ih => simp [total_append, ih]

theorem filter_map_nodup {β : Type} (ks : List (List String)) (h : ks.Nodup) (g : List String → β) (k : List String) :
    (ks.map (fun x => (x, g x))).filter (fun r => decide (r.1 = k)) = if k ∈ ks then [(k, g k)] else [] := by
  induction ks with
  | nil => simp
  | cons x ks ih =>
    rw [List.nodup_cons] at h
    rw [List.map_cons, List.filter_cons, ih h.2]
    by_cases hx : x = k
    · subst hx; simp [h.1]
    · have : ¬ k = x := fun h' => hx h'.symm
      simp [hx, this]

theorem regroup_keys (agg : List (Option F) → Option F) (rows : List (Row F)) :
    (regroup agg rows).map (·.1) = (rows.map (·.1)).dedup := by
  simp [regroup, Function.comp_def]

/-- Grouping by sums leaves the value of each group. -/
theorem valueAt_regroup (rows : List (Row F)) (k : List String) (j : Nat) :
    valueAt (regroup sumAgg rows) k j = valueAt rows k j := by
  unfold regroup
  rw [valueAt, filter_map_nodup _ (List.nodup_dedup _) (fun k j => sumAgg ((rows.filter (fun r => decide (r.1 = k))).map (fun r => r.2 j)))]
  split
  · simp [sumAgg, valueAt, Function.comp_def]
  · next h =>
    have : rows.filter (fun r => decide (r.1 = k)) = [] := by
      rw [List.filter_eq_nil_iff]
      intro r hr hk
      apply h
      rw [List.mem_dedup, List.mem_map]
      exact ⟨r, hr, by simpa using hk⟩
    rw [valueAt, this]
    try rfl

theorem sum_filter_eq {α : Type} (l : List α) (p : α → Bool) (f : α → F) :
    ((l.filter p).map f).sum = (l.map (fun x => if p x then f x else 0)).sum := by
  induction l with
  | nil => rfl
  | cons x l ih => by_cases h : p x = true <;> simp [h, ih]

theorem sum_ite_mem {α : Type} [DecidableEq α] (ks : List α) (h : ks.Nodup) (x : α) (hx : x ∈ ks) (v : F) :
    (ks.map (fun k => if x = k then v else 0)).sum = v := by
  induction ks with
  | nil => simp at hx
  | cons k ks ih =>
    rw [List.nodup_cons] at h
    rw [List.map_cons, List.sum_cons]
    by_cases hk : x = k
    · subst hk
      have : (ks.map (fun k => if x = k then v else 0)).sum = 0 := by
        rw [List.sum_eq_zero]
        intro y hy
        obtain ⟨z, hz, rfl⟩ := List.mem_map.mp hy
        rw [if_neg]
        rintro rfl; exact h.1 hz
      rw [this]; simp
    · rw [if_neg hk, zero_add]
      exact ih h.2 ((List.mem_cons.mp hx).resolve_left hk)

/-- The total is the sum over the groups. -/
theorem total_eq_sum (rows : List (Row F)) (ks : List (List String)) (h : ks.Nodup) (hk : ∀ r ∈ rows, r.1 ∈ ks) (j : Nat) :
    (ks.map (fun k => valueAt rows k j)).sum = total rows j := by
  induction rows with
  | nil => simp [total]
  | cons r rows ih =>
    have h1 : (ks.map (fun k => valueAt (r :: rows) k j)) =
        ks.map (fun k => (if r.1 = k then (r.2 j).getD 0 else 0) + valueAt rows k j) := by
      apply List.map_congr_left; intro k _; rw [valueAt_cons]
    rw [h1, List.sum_map_add, ih (fun r' hr' => hk r' (List.mem_cons_of_mem _ hr')),
      sum_ite_mem ks h r.1 (hk r (by simp))]
    simp [total]

theorem total_regroup (rows : List (Row F)) (j : Nat) : total (regroup sumAgg rows) j = total rows j := by
  rw [← total_eq_sum (regroup sumAgg rows) ((rows.map (·.1)).dedup) (List.nodup_dedup _),
    ← total_eq_sum rows ((rows.map (·.1)).dedup) (List.nodup_dedup _)]
  · congr 1; apply List.map_congr_left; intro k _; exact valueAt_regroup rows k j
  · intro r hr; rw [List.mem_dedup]; exact List.mem_map_of_mem hr
  · intro r hr; rw [← regroup_keys sumAgg rows]; exact List.mem_map_of_mem hr

theorem valueAt_concatValues (rows : List (Row F)) (k : List String) (j : Nat) :
    valueAt (concatValues sumAgg rows) k j = valueAt rows k j := by
  unfold concatValues; split
  · rfl
  · exact valueAt_regroup rows k j

theorem total_concatValues (rows : List (Row F)) (j : Nat) : total (concatValues sumAgg rows) j = total rows j := by
  unfold concatValues; split
  · rfl
  · exact total_regroup rows j

theorem concatValues_nodup (agg : List (Option F) → Option F) (rows : List (Row F)) :
    ((concatValues agg rows).map (·.1)).Nodup := by
  unfold concatValues; split
  · assumption
  · rw [regroup_keys]; exact List.nodup_dedup _

/-! ## The result of the aggregation -/

/-- Group of an asset at a port; `none` if the asset is left out. -/
def groupOf (n : Net) (o : Opts F) (c : Comp) (port : String) (a : Asset) : Option (List String) :=
  match o.groupby with
  | none => some [a.name]
  | some gs => labels n o.nice c port gs a

/-- C73: the group of an asset consists of the labels given by all groupers. -/
theorem groupOf_labels (n : Net) (o : Opts F) (gs : List Grouper) (hg : o.groupby = some gs) (c : Comp) (port : String) (a : Asset)
    (l : List String) : groupOf n o c port a = some l ↔ gs.map (fun g => g.label n o.nice c port a) = l.map some := by
  unfold groupOf labels
  rw [hg]
  simp only
  clear hg
  induction gs generalizing l with
  | nil => cases l <;> simp
  | cons g gs ih =>
    rw [List.foldr_cons, List.map_cons]
    cases hl : g.label n o.nice c port a with
    | none => cases l <;> simp
    | some x =>
      simp only [Option.bind_some, Option.map_eq_some_iff]
      cases l with
      | nil => simp
      | cons y l =>
        rw [List.map_cons, List.cons.injEq, ← ih l]
        constructor
        · rintro ⟨k, hk, he⟩
          obtain ⟨rfl, rfl⟩ := List.cons.inj he
          exact ⟨rfl, hk⟩
        · rintro ⟨he, hk⟩
          exact ⟨l, hk, by rw [Option.some.inj he]⟩

/-- What a carrier is called in the result: its nice name if it has one, a dash if it is empty. -/
structure Shown (n : Net) (nice : Bool) (x y : String) : Prop where
  plain : nice = false → y = x
  named : nice = true → n.nice x ≠ "" → y = n.nice x
  same : nice = true → n.nice x = "" → x ≠ "" → y = x
  dash : nice = true → n.nice x = "" → x = "" → y = "-"

/-- The label an asset has at a port by one grouper, as documented. -/
def Labelled (n : Net) (nice : Bool) (c : Comp) (port : String) (a : Asset) (l : String) : Grouper → Prop
  | .carrier => if "carrier" ∈ c.cols then ∃ x, a.col "carrier" = some x ∧ Shown n nice x l else Shown n nice "" l
  | .busCarrier => ∃ b x, a.col ("bus" ++ port) = some b ∧ b ∈ n.buses ∧ n.busCol "carrier" b = some x ∧ Shown n nice x l
  | .bus => a.col ("bus" ++ port) = some l
  | .busAttr attr => ∃ b, a.col ("bus" ++ port) = some b ∧ b ∈ n.buses ∧ n.busCol attr b = some l
  | .name => l = a.name
  | .column key => a.col key = some l
  | .custom f => f c.cname port a = some l

theorem shown_iff (n : Net) (nice : Bool) (x y : String) : n.niceName nice x = y ↔ Shown n nice x y := by
  unfold Net.niceName
  constructor
  · rintro rfl
    constructor <;> intros <;> simp_all
  · intro h
    cases nice
    · simpa using (h.plain rfl).symm
    · by_cases h1 : n.nice x = ""
      · by_cases h2 : x = ""
        · subst h2; simpa [h1] using (h.dash rfl h1 rfl).symm
        · simpa [h1, h2] using (h.same rfl h1 h2).symm
      · simpa [h1] using (h.named rfl h1).symm

theorem busAttr_iff (n : Net) (attr b x : String) : n.busAttr attr b = some x ↔ b ∈ n.buses ∧ n.busCol attr b = some x := by
  unfold Net.busAttr
  by_cases h : b ∈ n.buses <;> simp [h]

/-- C73: the labels are the documented ones. -/
theorem label_iff (n : Net) (nice : Bool) (c : Comp) (port : String) (a : Asset) (g : Grouper) (l : String) :
    g.label n nice c port a = some l ↔ Labelled n nice c port a l g := by
  cases g with
  | carrier =>
    unfold Grouper.label Labelled
    by_cases h : "carrier" ∈ c.cols <;> simp [h, shown_iff]
  | busCarrier =>
    unfold Grouper.label Labelled portCarrier
    simp only [Option.map_eq_some_iff, Option.bind_eq_some_iff, busAttr_iff, shown_iff]
    constructor
    · rintro ⟨x, ⟨b, h1, h2, h3⟩, h4⟩; exact ⟨b, x, h1, h2, h3, h4⟩
    · rintro ⟨b, x, h1, h2, h3, h4⟩; exact ⟨x, ⟨b, h1, h2, h3⟩, h4⟩
  | bus => rfl
  | busAttr attr =>
    unfold Grouper.label Labelled
    simp only [Option.bind_eq_some_iff, busAttr_iff]
  | name => unfold Grouper.label Labelled; simp [eq_comm]
  | column key => rfl
  | custom f => rfl

/-- **Finding** (C73, abstract.py 279): an asset for which some label is missing counts in no group. -/
theorem missing_label_lost (n : Net) (o : Opts F) (gs : List Grouper) (hg : o.groupby = some gs) (c : Comp) (port : String) (a : Asset)
    (g : Grouper) (hm : g ∈ gs) (h : g.label n o.nice c port a = none) : groupOf n o c port a = none := by
  cases hk : groupOf n o c port a with
  | none => rfl
  | some l =>
    rw [groupOf_labels n o gs hg] at hk
    have : none ∈ gs.map (fun g => g.label n o.nice c port a) := List.mem_map.mpr ⟨g, hm, h⟩
    rw [hk] at this
    simp at this

/-- The key of a group in the result. -/
def resultKey (o : Opts F) (c : Comp) (l : List String) : List String := if o.one then l else c.cname :: l

theorem valueAt_filterMap {α : Type} (l : List α) (f : α → Option (List String)) (v : α → Nat → Option F) (k : List String) (j : Nat) :
    valueAt (l.filterMap (fun x => (f x).map (fun y => (y, v x)))) k j =
      (l.map (fun x => if f x = some k then (v x j).getD 0 else 0)).sum := by
  induction l with
  | nil => rfl
  | cons x l ih =>
    cases h : f x with
    | none => rw [List.filterMap_cons]; simp [h, ih]
    | some y => rw [List.filterMap_cons]; simp [h, valueAt_cons, ih]

theorem total_filterMap {α : Type} (l : List α) (f : α → Option (List String)) (v : α → Nat → Option F) (j : Nat) :
    total (l.filterMap (fun x => (f x).map (fun y => (y, v x)))) j =
      (l.map (fun x => if (f x).isSome then (v x j).getD 0 else 0)).sum := by
  induction l with
  | nil => rfl
  | cons x l ih =>
    rw [List.filterMap_cons]
    cases h : f x with
    | none => simpa [h] using ih
    | some y =>
      simp only [total, Option.map_some, List.map_cons, List.sum_cons, h, Option.isSome_some, if_true]
      congr 1

theorem valueAt_portRows (n : Net) (o : Opts F) (ho : o.agg = sumAgg) (func : Comp → String → Option (Vals F)) (c : Comp)
    (port : String) (k : List String) (j : Nat) :
    valueAt (portRows search n o func c port) k j =
      ((portVals search n o func c port).rows.map (fun r => if groupOf n o c port r.1 = some k then (r.2 j).getD 0 else 0)).sum := by
  unfold portRows groupOf
  cases o.groupby with
  | none =>
    generalize (portVals search n o func c port).rows = rs
    simp only [Option.some.injEq]
    induction rs with
    | nil => rfl
    | cons r rs ih => rw [List.map_cons, List.map_cons, valueAt_cons, ih, List.sum_cons]
  | some gs =>
    simp only [ho]
    rw [valueAt_regroup, valueAt_filterMap]

theorem total_portRows (n : Net) (o : Opts F) (ho : o.agg = sumAgg) (func : Comp → String → Option (Vals F)) (c : Comp)
    (port : String) (j : Nat) :
    total (portRows search n o func c port) j =
      ((portVals search n o func c port).rows.map (fun r => if (groupOf n o c port r.1).isSome then (r.2 j).getD 0 else 0)).sum := by
  unfold portRows groupOf
  cases o.groupby with
  | none => simp [total, Function.comp_def]
  | some gs =>
    simp only [ho]
    rw [total_regroup, total_filterMap]

/-- The value a statistic assigns to a group of a component class: the sum over the ports counted and over the assets selected. -/
def compValue (n : Net) (o : Opts F) (func : Comp → String → Option (Vals F)) (c : Comp) (l : List String) (j : Nat) : F :=
  ((usedPorts o.atPort c).map (fun port => ((portVals search n o func c port).rows.map (fun r =>
    if groupOf n o c port r.1 = some l then (r.2 j).getD 0 else 0)).sum)).sum

def compTotal (n : Net) (o : Opts F) (func : Comp → String → Option (Vals F)) (c : Comp) (j : Nat) : F :=
  ((usedPorts o.atPort c).map (fun port => ((portVals search n o func c port).rows.map (fun r =>
    if (groupOf n o c port r.1).isSome then (r.2 j).getD 0 else 0)).sum)).sum

theorem valueAt_compRows (n : Net) (o : Opts F) (ho : o.agg = sumAgg) (func : Comp → String → Option (Vals F)) (c : Comp)
    (l : List String) (j : Nat) :
    valueAt (compRows search n o func c) l j = compValue search n o func c l j := by
  unfold compRows compValue
  rw [ho, valueAt_concatValues, valueAt_flatMap]
  congr 1; apply List.map_congr_left; intro port _
  exact valueAt_portRows search n o ho func c port l j

theorem total_compRows (n : Net) (o : Opts F) (ho : o.agg = sumAgg) (func : Comp → String → Option (Vals F)) (c : Comp)
    (j : Nat) : total (compRows search n o func c) j = compTotal search n o func c j := by
  unfold compRows compTotal
  rw [ho, total_concatValues, total_flatMap]
  congr 1; apply List.map_congr_left; intro port _
  exact total_portRows search n o ho func c port j

theorem valueAt_key (f : List String → List String) (hf : Function.Injective f) (rows : List (Row F)) (k : List String) (j : Nat) :
    valueAt (rows.map (fun r => (f r.1, r.2))) (f k) j = valueAt rows k j := by
  induction rows with
  | nil => rfl
  | cons r rows ih => rw [List.map_cons, valueAt_cons, valueAt_cons, ih]; simp [hf.eq_iff]

theorem valueAt_other (f : List String → List String) (rows : List (Row F)) (k : List String) (hk : ∀ l, f l ≠ k) (j : Nat) :
    valueAt (rows.map (fun r => (f r.1, r.2))) k j = 0 := by
  induction rows with
  | nil => rfl
  | cons r rows ih => rw [List.map_cons, valueAt_cons, ih, if_neg (hk _)]; simp

theorem total_key (f : List String → List String) (rows : List (Row F)) (j : Nat) :
    total (rows.map (fun r => (f r.1, r.2))) j = total rows j := by
  simp [total, Function.comp_def]

/-- Values before rounding, for several component classes with different names. -/
theorem valueAt_concatData (n : Net) (o : Opts F) (ho : o.agg = sumAgg) (h1 : o.one = false)
    (func : Comp → String → Option (Vals F)) (comps : List Comp) (hc : (comps.map (·.cname)).Nodup) (c : Comp) (hm : c ∈ comps)
    (l : List String) (j : Nat) :
    valueAt (concatData search n o func comps) (c.cname :: l) j = compValue search n o func c l j := by
  unfold concatData
  rw [valueAt_flatMap]
  simp only [h1, Bool.false_eq_true, if_false]
  induction comps with
  | nil => simp at hm
  | cons d comps ih =>
    rw [List.map_cons, List.nodup_cons] at hc
    rw [List.map_cons, List.sum_cons]
    rcases List.mem_cons.mp hm with rfl | hm'
    · rw [valueAt_key (c.cname :: ·) (fun a b h => (List.cons.inj h).2), valueAt_compRows search n o ho]
      rw [List.sum_eq_zero, add_zero]
      intro x hx
      obtain ⟨d, hd, rfl⟩ := List.mem_map.mp hx
      apply valueAt_other (d.cname :: ·)
      intro l' h
      exact hc.1 ((List.cons.inj h).1 ▸ List.mem_map_of_mem hd)
    · have : valueAt ((compRows search n o func d).map (fun r => (d.cname :: r.1, r.2))) (c.cname :: l) j = 0 := by
        apply valueAt_other (d.cname :: ·)
        intro l' h
        exact hc.1 ((List.cons.inj h).1.symm ▸ List.mem_map_of_mem hm')
      rw [this, zero_add]
      exact ih hc.2 hm'

theorem valueAt_concatData_one (n : Net) (o : Opts F) (ho : o.agg = sumAgg) (h1 : o.one = true)
    (func : Comp → String → Option (Vals F)) (c : Comp) (l : List String) (j : Nat) :
    valueAt (concatData search n o func [c]) l j = compValue search n o func c l j := by
  unfold concatData
  simp only [h1, if_true, List.flatMap_cons, List.flatMap_nil, List.append_nil]
  have : (compRows search n o func c).map (fun r => (r.1, r.2)) = compRows search n o func c := by simp
  rw [this, valueAt_compRows search n o ho]

theorem total_concatData (n : Net) (o : Opts F) (ho : o.agg = sumAgg) (func : Comp → String → Option (Vals F))
    (comps : List Comp) (j : Nat) :
    total (concatData search n o func comps) j = (comps.map (fun c => compTotal search n o func c j)).sum := by
  unfold concatData
  rw [total_flatMap]
  congr 1; apply List.map_congr_left; intro c _
  rw [total_key (fun l => if o.one then l else c.cname :: l), total_compRows search n o ho]

theorem valueAt_drop [DecidableEq F] (o : Opts F) (frame : Bool) (rows : List (Row F)) (k : List String) (j : Nat)
    (hj : frame = false → j = 0) : valueAt (applyDrop o frame rows) k j = valueAt rows k j := by
  unfold applyDrop
  cases o.dropZero with
  | none => rfl
  | some b =>
    cases frame with
    | true =>
      simp only [if_true]
      induction rows with
      | nil => rfl
      | cons r rows ih =>
        rw [List.map_cons, valueAt_cons, valueAt_cons, ih]
        by_cases h : r.2 j = some 0 <;> simp [h]
    | false =>
      obtain rfl := hj rfl
      simp only [Bool.false_eq_true, if_false]
      induction rows with
      | nil => rfl
      | cons r rows ih =>
        rw [List.filter_cons, valueAt_cons]
        by_cases h : r.2 0 = some 0
        · rw [if_neg (by simp [h]), ih]; simp [h]
        · rw [if_pos (by simpa using h), valueAt_cons, ih]

theorem total_drop [DecidableEq F] (o : Opts F) (frame : Bool) (rows : List (Row F)) (j : Nat)
    (hj : frame = false → j = 0) : total (applyDrop o frame rows) j = total rows j := by
  unfold applyDrop
  cases o.dropZero with
  | none => rfl
  | some b =>
    cases frame with
    | true =>
      simp only [if_true, total, List.map_map]
      congr 1; apply List.map_congr_left; intro r _
      by_cases h : r.2 j = some 0 <;> simp [h]
    | false =>
      obtain rfl := hj rfl
      simp only [Bool.false_eq_true, if_false, total]
      rw [sum_filter_eq]
      congr 1; apply List.map_congr_left; intro r _
      by_cases h : r.2 0 = some 0 <;> simp [h]

theorem concatData_nodup (n : Net) (o : Opts F) (func : Comp → String → Option (Vals F)) (comps : List Comp)
    (hc : (comps.map (·.cname)).Nodup) (h1 : o.one = true → comps.length ≤ 1) :
    ((concatData search n o func comps).map (·.1)).Nodup := by
  unfold concatData
  rw [List.map_flatMap, List.nodup_flatMap]
  constructor
  · intro c _
    simp only [List.map_map, Function.comp_def]
    have : (compRows search n o func c).map (fun r => if o.one = true then r.1 else c.cname :: r.1) =
        ((compRows search n o func c).map (·.1)).map (fun l => if o.one = true then l else c.cname :: l) := by simp
    rw [this]
    apply List.Nodup.map
    · intro a b h; dsimp only at h; split at h
      · exact h
      · exact (List.cons.inj h).2
    · exact concatValues_nodup _ _
  · cases h : o.one with
    | true =>
      match comps, h1 h with
      | [], _ => exact List.Pairwise.nil
      | [c], _ => exact List.pairwise_singleton _ _
    | false =>
      rw [List.Nodup, List.pairwise_map] at hc
      apply hc.imp
      intro c d hcd
      simp only [Function.onFun, List.map_map, Function.comp_def, Bool.false_eq_true, if_false]
      intro x hx hy
      obtain ⟨r, _, rfl⟩ := List.mem_map.mp hx
      obtain ⟨s, _, hs⟩ := List.mem_map.mp hy
      exact hcd (List.cons.inj hs).1.symm

theorem applyRound_keys (o : Opts F) (rows : List (Row F)) : (applyRound o rows).map (·.1) = rows.map (·.1) := by
  unfold applyRound; split <;> simp [Function.comp_def]

theorem applyDrop_sublist [DecidableEq F] (o : Opts F) (frame : Bool) (rows : List (Row F)) :
    ((applyDrop o frame rows).map (·.1)).Sublist (rows.map (·.1)) := by
  unfold applyDrop
  split
  · exact List.Sublist.refl _
  · split
    · simp [Function.comp_def]
    · exact List.filter_sublist.map _

theorem valueAt_round (o : Opts F) (rows : List (Row F)) (hn : (rows.map (·.1)).Nodup) (hr : ∀ f, o.round = some f → f 0 = 0)
    (k : List String) (j : Nat) :
    valueAt (applyRound o rows) k j = match o.round with
      | none => valueAt rows k j
      | some f => f (valueAt rows k j) := by
  unfold applyRound
  cases ho : o.round with
  | none => rfl
  | some f =>
    simp only
    have h0 := hr f ho
    induction rows with
    | nil => simp [h0]
    | cons r rows ih =>
      rw [List.map_cons, List.nodup_cons] at hn
      rw [List.map_cons, valueAt_cons, valueAt_cons, ih hn.2]
      by_cases hk : r.1 = k
      · have : valueAt rows k j = 0 := by
          rw [valueAt, List.filter_eq_nil_iff.mpr]
          · rfl
          · intro s hs h
            apply hn.1
            rw [hk, ← (by simpa using h : s.1 = k)]
            exact List.mem_map_of_mem hs
        simp only [hk, if_true, this, h0, add_zero]
        cases r.2 j <;> simp [h0]
      · simp [hk]

/-- C73: in the result each group occurs once, and its value is the (rounded) sum over the counted ports and
the selected assets of the group; nothing is lost or counted twice. -/
theorem group_value [DecidableEq F] (n : Net) (o : Opts F) (ho : o.agg = sumAgg) (h1 : o.one = false) (ha : o.across = false)
    (hr : ∀ f, o.round = some f → f 0 = 0) (func : Comp → String → Option (Vals F)) (comps : List Comp)
    (hc : (comps.map (·.cname)).Nodup) (res : List (Row F)) (h : aggregate search n o func comps = .ok res) :
    (res.map (·.1)).Nodup ∧
    ∀ c ∈ comps, ∀ l j, (isFrame search n o func comps = false → j = 0) →
      valueAt res (c.cname :: l) j = (o.round.getD id) (compValue search n o func c l j) := by
  unfold aggregate at h
  split at h
  · simp at h
  · obtain rfl := Except.ok.inj h
    have hn := concatData_nodup search n o func comps hc (by simp [h1])
    unfold applyAcross
    simp only [ha, Bool.false_eq_true, if_false]
    constructor
    · exact (applyDrop_sublist o _ _).nodup (by rw [applyRound_keys]; exact hn)
    · intro c hm l j hj
      rw [valueAt_drop o _ _ _ _ hj, valueAt_round o _ hn hr, valueAt_concatData search n o ho h1 func comps hc c hm]
      cases o.round <;> rfl

/-- C73, one component class given by its name. -/
theorem group_value_one [DecidableEq F] (n : Net) (o : Opts F) (ho : o.agg = sumAgg) (h1 : o.one = true) (ha : o.across = false)
    (hr : ∀ f, o.round = some f → f 0 = 0) (func : Comp → String → Option (Vals F)) (c : Comp)
    (res : List (Row F)) (h : aggregate search n o func [c] = .ok res) :
    (res.map (·.1)).Nodup ∧
    ∀ l j, (isFrame search n o func [c] = false → j = 0) →
      valueAt res l j = (o.round.getD id) (compValue search n o func c l j) := by
  unfold aggregate at h
  split at h
  · simp at h
  · obtain rfl := Except.ok.inj h
    have hn := concatData_nodup search n o func [c] (by simp) (by simp)
    unfold applyAcross
    simp only [ha, Bool.false_eq_true, if_false]
    constructor
    · exact (applyDrop_sublist o _ _).nodup (by rw [applyRound_keys]; exact hn)
    · intro l j hj
      rw [valueAt_drop o _ _ _ _ hj, valueAt_round o _ hn hr, valueAt_concatData_one search n o ho h1]
      cases o.round <;> rfl

/-- C73: the total over all groups is the total over component classes, counted ports and selected assets that have a
group, also if component classes are put together; without rounding. -/
theorem grand_total [DecidableEq F] (n : Net) (o : Opts F) (ho : o.agg = sumAgg) (hr : o.round = none)
    (func : Comp → String → Option (Vals F)) (comps : List Comp) (res : List (Row F))
    (h : aggregate search n o func comps = .ok res) (j : Nat) (hj : isFrame search n o func comps = false → j = 0) :
    total res j = (comps.map (fun c => compTotal search n o func c j)).sum := by
  unfold aggregate at h
  split at h
  · simp at h
  · obtain rfl := Except.ok.inj h
    rw [← total_concatData search n o ho]
    unfold applyAcross applyRound
    rw [hr, ho]
    simp only
    split
    · rw [total_regroup]
      split
      · exact total_drop o _ _ j hj
      · rw [total_key List.tail]; exact total_drop o _ _ j hj
    · exact total_drop o _ _ j hj

/-- C73: which assets are selected at a port. -/
theorem selected_rows (n : Net) (o : Opts F) (func : Comp → String → Option (Vals F)) (c : Comp) (port : String) (v : Vals F)
    (h : func c port = some v) (hm : n.multi = none) (hcar : o.carrier = .all) :
    (portVals search n o func c port).rows =
      v.rows.filter (fun r => (v.frame || r.1.active) && busOk search n port o.busCarrier r.1) := by
  unfold portVals filterActive
  simp only [h, hm, hcar]
  have : ∀ (idx : List Asset) (a : Asset), carrierOk search c idx .all a = true := by
    intro idx a; unfold carrierOk; split <;> rfl
  cases hf : v.frame <;> simp [this, List.filter_filter, Bool.and_comm]

/-- **Finding** (abstract.py 250-252): a list of ports is not a selection; all ports are counted. -/
theorem ports_ignored (l : List String) (hl : l ≠ []) (c : Comp) :
    usedPorts (.names l) c = usedPorts (.flag true) c := by
  unfold usedPorts AtPort.truthy
  cases l with
  | nil => exact absurd rfl hl
  | cons x l => rfl

theorem ports_all (c : Comp) : usedPorts (.flag true) c = c.ports ∧ usedPorts (.flag false) c = c.ports.take 1 :=
  ⟨rfl, rfl⟩

/-! ## Dropping zeros -/

/-- **Finding** (C74, expressions.py 254): `drop_zero=False` is the same as `drop_zero=True`. -/
theorem drop_zero_false_drops [DecidableEq F] (n : Net) (o : Opts F) (func : Comp → String → Option (Vals F)) (comps : List Comp) :
    aggregate search n { o with dropZero := some false } func comps =
      aggregate search n { o with dropZero := some true } func comps := rfl

theorem mem_keys_of_valueAt (rows : List (Row F)) (k : List String) (j : Nat) (h : valueAt rows k j ≠ 0) : k ∈ rows.map (·.1) := by
  by_contra hk
  apply h
  have : rows.filter (fun r => decide (r.1 = k)) = [] := by
    rw [List.filter_eq_nil_iff]
    intro r hr h'
    exact hk (List.mem_map.mpr ⟨r, hr, by simpa using h'⟩)
  rw [valueAt, this]; rfl

theorem mem_concatData (n : Net) (o : Opts F) (func : Comp → String → Option (Vals F)) (comps : List Comp) (c : Comp)
    (hc : c ∈ comps) (port : String) (hp : port ∈ usedPorts o.atPort c) (r : Asset × (Nat → Option F))
    (hr : r ∈ (portVals search n o func c port).rows) (l : List String) (hl : groupOf n o c port r.1 = some l) :
    resultKey o c l ∈ (concatData search n o func comps).map (·.1) := by
  have h1 : l ∈ (portRows search n o func c port).map (·.1) := by
    unfold portRows
    unfold groupOf at hl
    cases hg : o.groupby with
    | none =>
      rw [hg] at hl
      simp only [List.map_map, List.mem_map]
      exact ⟨r, hr, by simpa using hl⟩
    | some gs =>
      rw [hg] at hl
      simp only
      rw [regroup_keys, List.mem_dedup, List.mem_map]
      exact ⟨(l, r.2), List.mem_filterMap.mpr ⟨r, hr, by simp only at hl; simp [hl]⟩, rfl⟩
  have h2 : l ∈ (compRows search n o func c).map (·.1) := by
    unfold compRows concatValues
    have : l ∈ ((usedPorts o.atPort c).flatMap (portRows search n o func c)).map (·.1) := by
      rw [List.map_flatMap, List.mem_flatMap]; exact ⟨port, hp, h1⟩
    split
    · exact this
    · rw [regroup_keys, List.mem_dedup]; exact this
  unfold concatData resultKey
  rw [List.map_flatMap, List.mem_flatMap]
  refine ⟨c, hc, ?_⟩
  obtain ⟨x, hx, rfl⟩ := List.mem_map.mp h2
  rw [List.map_map]
  exact List.mem_map.mpr ⟨x, hx, rfl⟩

/-- C74: a series with `drop_zero=True` has no zero, and every group whose value is not zero; if
the module wide option is unset, there is every group that has an asset. -/
theorem drop_zero_partial [DecidableEq F] (n : Net) (o : Opts F) (ho : o.agg = sumAgg) (h1 : o.one = false) (ha : o.across = false)
    (hr : ∀ f, o.round = some f → f 0 = 0) (func : Comp → String → Option (Vals F)) (comps : List Comp)
    (hc : (comps.map (·.cname)).Nodup) (res : List (Row F)) (h : aggregate search n o func comps = .ok res)
    (hf : isFrame search n o func comps = false) :
    (o.dropZero = some true → (∀ r ∈ res, r.2 0 ≠ some 0) ∧
      ∀ c ∈ comps, ∀ l, (o.round.getD id) (compValue search n o func c l 0) ≠ 0 → (c.cname :: l) ∈ res.map (·.1)) ∧
    (o.dropZero = none → ∀ c ∈ comps, ∀ port ∈ usedPorts o.atPort c, ∀ r ∈ (portVals search n o func c port).rows,
      ∀ l, groupOf n o c port r.1 = some l → (c.cname :: l) ∈ res.map (·.1)) := by
  have hv := (group_value search n o ho h1 ha hr func comps hc res h).2
  refine ⟨fun hb => ⟨?_, ?_⟩, fun hb => ?_⟩
  · unfold aggregate at h
    split at h
    · simp at h
    · obtain rfl := Except.ok.inj h
      unfold applyAcross applyDrop
      simp only [ha, hf, hb, Bool.false_eq_true, if_false]
      intro r hr
      simpa using (List.mem_filter.mp hr).2
  · intro c hm l h0
    rw [← hv c hm l 0 (fun _ => rfl)] at h0
    exact mem_keys_of_valueAt res _ 0 h0
  · intro c hm port hp r hr l hl
    have := mem_concatData search n o func comps c hm port hp r hr l hl
    unfold aggregate at h
    split at h
    · simp at h
    · obtain rfl := Except.ok.inj h
      unfold applyAcross applyDrop
      simp only [ha, hb, Bool.false_eq_true, if_false]
      rw [applyRound_keys]
      simpa [resultKey, h1] using this

/-! ## Means over time -/

/-- C73: a statistic is refused if and only if it groups by a column which a class with values does not have. -/
theorem refused_iff [DecidableEq F] (n : Net) (o : Opts F) (func : Comp → String → Option (Vals F)) (comps : List Comp) :
    (∃ e, aggregate search n o func comps = .error e) ↔
      ∃ c ∈ comps, (∃ port ∈ usedPorts o.atPort c, (portVals search n o func c port).rows ≠ []) ∧
        ∃ gs, o.groupby = some gs ∧ ∃ key, Grouper.column key ∈ gs ∧ key ∉ c.cols := by
  have hg : ∀ c : Comp, (o.groupby.getD []).any (Grouper.raises c) = true ↔
      ∃ gs, o.groupby = some gs ∧ ∃ key, Grouper.column key ∈ gs ∧ key ∉ c.cols := by
    intro c
    cases h : o.groupby with
    | none => simp
    | some gs =>
      simp only [Option.getD_some, List.any_eq_true, Option.some.injEq, exists_eq_left']
      constructor
      · rintro ⟨g, hm, hr⟩
        cases g with
        | column key => exact ⟨key, hm, by simpa [Grouper.raises] using hr⟩
        | _ => simp [Grouper.raises] at hr
      · rintro ⟨key, hm, hk⟩
        exact ⟨_, hm, by simpa [Grouper.raises] using hk⟩
  have hb : badGrouper search n o func comps = true ↔
      ∃ c ∈ comps, (∃ port ∈ usedPorts o.atPort c, (portVals search n o func c port).rows ≠ []) ∧
        ∃ gs, o.groupby = some gs ∧ ∃ key, Grouper.column key ∈ gs ∧ key ∉ c.cols := by
    unfold badGrouper
    simp only [List.any_eq_true, Bool.and_eq_true, Bool.not_eq_true', List.isEmpty_eq_false_iff, hg]
    constructor
    · rintro ⟨c, hc, port, hp, h1, h2⟩; exact ⟨c, hc, ⟨port, hp, h1⟩, h2⟩
    · rintro ⟨c, hc, ⟨port, hp, h1⟩, h2⟩; exact ⟨c, hc, port, hp, h1, h2⟩
  rw [← hb]
  unfold aggregate
  split <;> simp_all

section mean
variable [LinearOrder F] [IsStrictOrderedRing F]

omit [LinearOrder F] [IsStrictOrderedRing F] in
theorem weighted_normed (sns : List Nat) (w f : Nat → F) :
    weighted sns (normed sns w) f = weighted sns w f / (sns.map w).sum := by
  unfold weighted normed
  generalize (sns.map w).sum = W
  induction sns with
  | nil => simp
  | cons t sns ih => rw [List.map_cons, List.sum_cons, ih, List.map_cons, List.sum_cons]; ring

omit [LinearOrder F] [IsStrictOrderedRing F] in
theorem weighted_const (sns : List Nat) (w : Nat → F) (x : F) : weighted sns w (fun _ => x) = (sns.map w).sum * x := by
  unfold weighted
  induction sns with
  | nil => simp
  | cons t sns ih => rw [List.map_cons, List.sum_cons, ih, List.map_cons, List.sum_cons]; ring

theorem weighted_mono (sns : List Nat) (w f g : Nat → F) (hw : ∀ t ∈ sns, 0 ≤ w t) (h : ∀ t ∈ sns, f t ≤ g t) :
    weighted sns w f ≤ weighted sns w g := by
  unfold weighted
  induction sns with
  | nil => exact le_refl _
  | cons t sns ih =>
    rw [List.map_cons, List.map_cons, List.sum_cons, List.sum_cons]
    exact add_le_add (mul_le_mul_of_nonneg_left (h t (by simp)) (hw t (by simp)))
      (ih (fun t' ht => hw t' (List.mem_cons_of_mem _ ht)) (fun t' ht => h t' (List.mem_cons_of_mem _ ht)))

omit [LinearOrder F] [IsStrictOrderedRing F] in
theorem part_spec (T : Time F) (multi : Option Nat) (j t : Nat) :
    t ∈ T.part multi j ↔ t ∈ T.sns ∧ (multi.isSome → T.per t = j) := by
  unfold Time.part
  cases multi <;> simp

/-- C75: the mean over time is the weighted sum over the total weight (of the period, if there are several); it lies
between lower and upper bounds of the series and is the constant for a constant series. -/
theorem mean_weighted (T : Time F) (multi : Option Nat) (w f : Nat → F) (j : Nat)
    (hw : ∀ t ∈ T.sns, 0 ≤ w t) (hpos : 0 < ((T.part multi j).map w).sum) :
    timeAgg T multi .mean w f j = timeAgg T multi .sum w f j / ((T.part multi j).map w).sum ∧
    (∀ lo hi, (∀ t ∈ T.part multi j, lo ≤ f t ∧ f t ≤ hi) → lo ≤ timeAgg T multi .mean w f j ∧ timeAgg T multi .mean w f j ≤ hi) ∧
    (∀ x, (∀ t ∈ T.part multi j, f t = x) → timeAgg T multi .mean w f j = x) := by
  have h1 : timeAgg T multi .mean w f j = timeAgg T multi .sum w f j / ((T.part multi j).map w).sum :=
    weighted_normed _ w f
  have h2 : ∀ lo hi, (∀ t ∈ T.part multi j, lo ≤ f t ∧ f t ≤ hi) →
      lo ≤ timeAgg T multi .mean w f j ∧ timeAgg T multi .mean w f j ≤ hi := by
    intro lo hi h
    have hw' : ∀ t ∈ T.part multi j, 0 ≤ w t := fun t ht => hw t ((part_spec T multi j t).mp ht).1
    rw [h1]
    constructor
    · rw [le_div_iff₀ hpos]
      have := weighted_mono (T.part multi j) w (fun _ => lo) f hw' (fun t ht => (h t ht).1)
      rw [weighted_const] at this
      calc lo * _ = _ * lo := mul_comm _ _
        _ ≤ _ := this
    · rw [div_le_iff₀ hpos]
      have := weighted_mono (T.part multi j) w f (fun _ => hi) hw' (fun t ht => (h t ht).2)
      rw [weighted_const] at this
      calc _ ≤ _ * hi := this
        _ = _ := mul_comm _ _
  refine ⟨h1, h2, fun x hx => ?_⟩
  have := h2 x x (fun t ht => by rw [hx t ht]; exact ⟨le_refl _, le_refl _⟩)
  exact le_antisymm this.2 this.1

end mean

/-- Two periods of two snapshots: means per period. -/
example : let T : Time ℚ := ⟨[0, 1, 2, 3], fun t => t / 2⟩
    timeAgg T (some 2) .mean (fun t => if t = 0 then 3 else 1) (fun t => (t : ℚ)) 0 = 1 / 4 ∧
    timeAgg T (some 2) .mean (fun t => if t = 0 then 3 else 1) (fun t => (t : ℚ)) 1 = 5 / 2 ∧
    timeAgg T none .mean (fun t => if t = 0 then 3 else 1) (fun t => (t : ℚ)) 0 = 1 := by
  decide +kernel

end Verif.Stats
