import Verif.Graph.Model
import Mathlib.Logic.Relation
import Mathlib.Data.List.Nodup

/-!
# Lemmas about the graph model
-/

namespace Verif.Graph

theorem collect_ok {α β : Type} (f : α → Except Err β) (g : α → β) (l : List α)
    (h : ∀ a ∈ l, f a = .ok (g a)) : collect f l = .ok (l.map g) := by
  induction l with
  | nil => rfl
  | cons a l ih =>
    simp only [collect, h a (by simp), ih (fun b hb => h b (by simp [hb])), List.map_cons]

theorem ends_ok {order : List Name} {b : Branch} (h0 : b.bus0 ∈ order) (h1 : b.bus1 ∈ order) :
    ends order b = .ok (order.idxOf b.bus0, order.idxOf b.bus1) := by
  simp [ends, indexer, h0, h1]

/-- All rows of all tables with their class. -/
def allBranches (ts : List Table) : List (String × Branch) :=
  ts.flatMap (fun t => t.rows.map (fun b => (t.cls, b)))

theorem activeBranches_eq (period : Option Int) (ts : List Table) :
    activeBranches period ts = (allBranches ts).filter (fun b => b.2.isActive period) := by
  induction ts with
  | nil => rfl
  | cons t ts ih =>
    have hmap : (List.map (fun b => (t.cls, b)) t.rows).filter (fun b => b.2.isActive period) =
        (t.rows.filter (·.isActive period)).map (fun b => (t.cls, b)) := by
      rw [List.filter_map]; rfl
    unfold activeBranches allBranches nonEmpty at *
    rw [List.flatMap_cons, List.filter_append, ← ih, hmap]
    by_cases h : t.rows = []
    · simp [h]
    · have : (!t.rows.isEmpty) = true := by simpa using h
      rw [List.filter_cons_of_pos (by simpa using this), List.flatMap_cons]

theorem mem_allBranches {ts : List Table} {e : String × Branch} :
    e ∈ allBranches ts ↔ ∃ t ∈ ts, t.cls = e.1 ∧ e.2 ∈ t.rows := by
  obtain ⟨c, b⟩ := e
  simp only [allBranches, List.mem_flatMap, List.mem_map, Prod.mk.injEq]
  constructor
  · rintro ⟨t, ht, b', hb, rfl, rfl⟩; exact ⟨t, ht, rfl, hb⟩
  · rintro ⟨t, ht, rfl, hb⟩; exact ⟨t, ht, b, hb, rfl, rfl⟩

theorem adjacency_ok {F : Type} (order : List Name) (ts : List Table) (period : Option Int)
    (weight : String × Branch → F)
    (hends : ∀ t ∈ ts, ∀ b ∈ t.rows, b.isActive period = true → b.bus0 ∈ order ∧ b.bus1 ∈ order)
    (hlast : lastCount period ts = 0 → ∀ t ∈ ts, ∀ b ∈ t.rows, b.isActive period = false) :
    adjacency order ts period weight = .ok ((activeBranches period ts).map
      (fun b => (order.idxOf b.2.bus0, order.idxOf b.2.bus1, weight b))) := by
  unfold adjacency
  split
  · rename_i h
    have : activeBranches period ts = [] := by
      rw [activeBranches_eq, List.filter_eq_nil_iff]
      intro e he
      obtain ⟨t, ht, _, hb⟩ := mem_allBranches.1 he
      simp [hlast h t ht e.2 hb]
    rw [this]; rfl
  · apply collect_ok
    intro e he
    rw [activeBranches_eq, List.mem_filter] at he
    obtain ⟨t, ht, _, hb⟩ := mem_allBranches.1 he.1
    obtain ⟨h0, h1⟩ := hends t ht e.2 hb he.2
    rw [ends_ok h0 h1]

theorem idxOf_eq_iff {order : List Name} (hnd : order.Nodup) {x : Name} (hx : x ∈ order) {i : Nat}
    (hi : i < order.length) : order.idxOf x = i ↔ x = order[i] := by
  constructor
  · rintro rfl; simp
  · rintro rfl; exact hnd.idxOf_getElem i hi

/-! ### Connected components -/

/-- The relation that holds within classes of `lab` and along edges. -/
def Gen' (lab : Nat → Nat) (edges : List (Nat × Nat)) (a b : Nat) : Prop :=
  lab a = lab b ∨ (a, b) ∈ edges

theorem eqvGen_le {α : Type} {r s : α → α → Prop} (h : ∀ a b, r a b → Relation.EqvGen s a b)
    {a b : α} (hab : Relation.EqvGen r a b) : Relation.EqvGen s a b := by
  induction hab with
  | rel a b h' => exact h a b h'
  | refl a => exact .refl a
  | symm a b _ ih => exact .symm _ _ ih
  | trans a b c _ _ h1 h2 => exact .trans _ _ _ h1 h2

theorem merged_spec (edges : List (Nat × Nat)) (lab : Nat → Nat) (a b : Nat) :
    (edges.foldl (fun lab e => fun k => if lab k = lab e.2 then lab e.1 else lab k) lab) a =
    (edges.foldl (fun lab e => fun k => if lab k = lab e.2 then lab e.1 else lab k) lab) b ↔
      Relation.EqvGen (Gen' lab edges) a b := by
  induction edges generalizing lab with
  | nil =>
    simp only [List.foldl_nil]
    constructor
    · intro h; exact .rel _ _ (Or.inl h)
    · intro h
      induction h with
      | rel a b h => simpa [Gen'] using h
      | refl a => rfl
      | symm a b _ ih => exact ih.symm
      | trans a b c _ _ h1 h2 => exact h1.trans h2
  | cons e edges ih =>
    rw [List.foldl_cons, ih]
    have he : Relation.EqvGen (Gen' lab (e :: edges)) e.1 e.2 := .rel _ _ (Or.inr (by simp))
    have hlab : ∀ x y, lab x = lab y → Relation.EqvGen (Gen' lab (e :: edges)) x y :=
      fun x y h => .rel _ _ (Or.inl h)
    constructor
    · apply eqvGen_le
      rintro x y (h | h)
      · simp only at h
        split at h <;> split at h
        · rename_i h1 h2; exact hlab x y (h1.trans h2.symm)
        · rename_i h1 h2
          exact .trans _ _ _ (hlab x e.2 h1) (.trans _ _ _ (.symm _ _ he) (hlab e.1 y h))
        · rename_i h1 h2
          exact .trans _ _ _ (hlab x e.1 h) (.trans _ _ _ he (hlab e.2 y h2.symm))
        · exact hlab x y h
      · exact .rel _ _ (Or.inr (by simp [h]))
    · apply eqvGen_le
      rintro x y (h | h)
      · exact .rel _ _ (Or.inl (by simp only [h]))
      · rcases List.mem_cons.1 h with h | h
        · refine .rel _ _ (Or.inl ?_)
          have h1 : x = e.1 := by rw [← h]
          have h2 : y = e.2 := by rw [← h]
          subst h1 h2
          simp
        · exact .rel _ _ (Or.inr h)

theorem merged_iff (edges : List (Nat × Nat)) (a b : Nat) :
    merged edges a = merged edges b ↔ Relation.EqvGen (fun x y => (x, y) ∈ edges) a b := by
  unfold merged
  rw [merged_spec]
  constructor
  · apply eqvGen_le
    rintro x y (h | h)
    · have : x = y := h
      subst this; exact .refl _
    · exact .rel _ _ h
  · apply eqvGen_le
    intro x y h
    exact .rel _ _ (Or.inr h)

theorem mem_uniq {l : List Nat} {a : Nat} : a ∈ uniq l ↔ a ∈ l := by
  induction l with
  | nil => simp [uniq]
  | cons b l ih =>
    simp only [uniq, List.mem_cons, List.mem_filter, ih, ne_eq, decide_not, Bool.not_eq_eq_eq_not,
      Bool.not_true, decide_eq_false_iff_not]
    tauto

theorem uniq_nodup (l : List Nat) : (uniq l).Nodup := by
  induction l with
  | nil => simp [uniq]
  | cons b l ih =>
    simp only [uniq, List.nodup_cons]
    exact ⟨by simp, ih.filter _⟩

theorem labels_iff {n : Nat} {edges : List (Nat × Nat)} {a b : Nat} (ha : a < n) :
    labels n edges a = labels n edges b ↔ Relation.EqvGen (fun x y => (x, y) ∈ edges) a b := by
  rw [← merged_iff]
  unfold labels
  have hm : merged edges a ∈ uniq ((List.range n).map (merged edges)) := by
    rw [mem_uniq]; exact List.mem_map.2 ⟨a, by simpa using ha, rfl⟩
  exact List.idxOf_inj hm

theorem labels_lt {n : Nat} {edges : List (Nat × Nat)} {a : Nat} (ha : a < n) :
    labels n edges a < componentCount n edges := by
  unfold labels componentCount
  apply List.idxOf_lt_length_of_mem
  rw [mem_uniq]; exact List.mem_map.2 ⟨a, by simpa using ha, rfl⟩

theorem labels_surj {n : Nat} {edges : List (Nat × Nat)} {s : Nat}
    (hs : s < componentCount n edges) : ∃ a, a < n ∧ labels n edges a = s := by
  unfold componentCount at hs
  have hm : (uniq ((List.range n).map (merged edges)))[s] ∈ (List.range n).map (merged edges) := by
    rw [← mem_uniq]; exact List.getElem_mem _
  obtain ⟨a, ha, hval⟩ := List.mem_map.1 hm
  refine ⟨a, by simpa using ha, ?_⟩
  unfold labels
  rw [hval]
  exact (uniq_nodup _).idxOf_getElem s hs

end Verif.Graph
