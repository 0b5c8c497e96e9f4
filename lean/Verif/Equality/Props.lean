import Verif.Equality.Model
import Mathlib.Tactic.NormNum
import Mathlib.Data.List.Forall2

/-!
# Property C15: `equals` is an equivalence on content
-/

namespace Verif.Equality

/-! ### Specification -/

/-- One step into an object. -/
inductive Step where
  | key (k : String)
  | idx (i : Nat)

def Objs.nth : Objs → Nat → Option Obj
  | .nil, _ => none
  | .cons a _, 0 => some a
  | .cons _ l, i + 1 => l.nth i

/-- The object found by following a path. -/
def Obj.at : Obj → List Step → Option Obj
  | a, [] => some a
  | .dict d, .key k :: p =>
    match d.get? k with
    | some v => v.at p
    | none => none
  | .list l, .idx i :: p =>
    match l.nth i with
    | some v => v.at p
    | none => none
  | _, _ :: _ => none

/-- Cells agree: both missing, or within the documented tolerance
`|a - b| ≤ max(1e-5 * max(|a|, |b|), 1e-8)`. -/
def Near : Option ℚ → Option ℚ → Prop
  | none, none => True
  | some a, some b => |a - b| ≤ max ((1 / 100000) * max |a| |b|) (1 / 100000000)
  | _, _ => False

/-- Leaves agree. -/
def Agree : Obj → Obj → Prop
  | .bool a, .bool b => a = b
  | .bool a, .int b => (if a then 1 else 0) = b
  | .int a, .int b => a = b
  | .float a, .float b => a = b
  | .str a, .str b => a = b
  | .table t, .table u =>
    ((t.index = [] ∨ t.columns = []) ∧ (u.index = [] ∨ u.columns = [])) ∨
    (t.index = u.index ∧ t.columns = u.columns ∧
      List.Forall₂ (List.Forall₂ Near) t.cells u.cells)
  | _, _ => False

def Obj.IsLeaf : Obj → Prop
  | .list _ => False
  | .dict _ => False
  | _ => True

mutual
/-- Every dictionary has distinct keys (as Python dictionaries do). -/
def Obj.Wf : Obj → Prop
  | .list l => l.Wf
  | .dict d => d.Wf
  | _ => True
def Objs.Wf : Objs → Prop
  | .nil => True
  | .cons a l => a.Wf ∧ l.Wf
def Items.Wf : Items → Prop
  | .nil => True
  | .cons k v d => k ∉ d.keys ∧ v.Wf ∧ d.Wf
end

mutual
/-- No boolean occurs in the object. -/
def Obj.NoBool : Obj → Prop
  | .bool _ => False
  | .list l => l.NoBool
  | .dict d => d.NoBool
  | _ => True
def Objs.NoBool : Objs → Prop
  | .nil => True
  | .cons a l => a.NoBool ∧ l.NoBool
def Items.NoBool : Items → Prop
  | .nil => True
  | .cons _ v d => v.NoBool ∧ d.NoBool
end

mutual
/-- No data frame occurs in the object. -/
def Obj.NoTable : Obj → Prop
  | .table _ => False
  | .list l => l.NoTable
  | .dict d => d.NoTable
  | _ => True
def Objs.NoTable : Objs → Prop
  | .nil => True
  | .cons a l => a.NoTable ∧ l.NoTable
def Items.NoTable : Items → Prop
  | .nil => True
  | .cons _ v d => v.NoTable ∧ d.NoTable
end

/-- `(k, v)` is an item. -/
def Items.Mem (k : String) (v : Obj) : Items → Prop
  | .nil => False
  | .cons k' v' d => (k' = k ∧ v' = v) ∨ d.Mem k v

/-! ### Frames -/

theorem isClose_comm (a b : ℚ) : isClose a b = isClose b a := by
  simp only [isClose, abs_sub_comm a b, max_comm |a| |b|]

theorem isClose_self (a : ℚ) : isClose a a = true := by
  simp only [isClose, sub_self, abs_zero, decide_eq_true_eq]
  exact le_max_of_le_right (by norm_num)

theorem cellClose_comm (a b : Option ℚ) : cellClose a b = cellClose b a := by
  cases a <;> cases b <;> simp [cellClose, isClose_comm]

theorem cellClose_iff (a b : Option ℚ) : cellClose a b = true ↔ Near a b := by
  cases a <;> cases b <;> simp [cellClose, Near, isClose]

theorem near_self (a : Option ℚ) : Near a a := by
  rw [← cellClose_iff]
  cases a <;> simp [cellClose, isClose_self]

theorem near_comm {a b : Option ℚ} (h : Near a b) : Near b a := by
  rw [← cellClose_iff] at *
  rwa [cellClose_comm]

theorem rowClose_iff (r q : List (Option ℚ)) :
    (r.length = q.length ∧ (r.zip q).all (fun e => cellClose e.1 e.2) = true) ↔
      List.Forall₂ Near r q := by
  induction r generalizing q with
  | nil => cases q <;> simp
  | cons a r ih =>
    cases q with
    | nil => simp
    | cons b q =>
      simp only [List.length_cons, Nat.add_right_cancel_iff, List.zip_cons_cons, List.all_cons,
        Bool.and_eq_true, List.forall₂_cons, ← ih q, cellClose_iff]
      tauto

theorem rowsClose_iff (r q : List (List (Option ℚ))) :
    rowsClose r q = true ↔ List.Forall₂ (List.Forall₂ Near) r q := by
  induction r generalizing q with
  | nil => cases q <;> simp [rowsClose]
  | cons a r ih =>
    cases q with
    | nil => simp [rowsClose]
    | cons b q =>
      simp only [rowsClose, Bool.and_eq_true, decide_eq_true_eq, rowClose_iff, ih,
        List.forall₂_cons]

theorem rows_self (r : List (List (Option ℚ))) : List.Forall₂ (List.Forall₂ Near) r r := by
  induction r with
  | nil => simp
  | cons a r ih =>
    refine List.Forall₂.cons ?_ ih
    induction a with
    | nil => simp
    | cons x a ih' => exact List.Forall₂.cons (near_self x) ih'

theorem tableEq_iff (t u : Table) : tableEq t u = true ↔ Agree (.table t) (.table u) := by
  unfold tableEq Agree Table.empty
  simp only [Bool.and_eq_true, Bool.or_eq_true, List.isEmpty_iff]
  split
  · rename_i h; simp [h]
  · rename_i h
    split
    · rename_i h2
      simp only [true_iff]
      right
      exact ⟨h2.1, h2.2.1, h2.2.2 ▸ rows_self _⟩
    · simp only [Bool.and_eq_true, decide_eq_true_eq, rowsClose_iff, h, false_or, and_assoc]

theorem forall₂_near_comm {r q : List (List (Option ℚ))}
    (h : List.Forall₂ (List.Forall₂ Near) r q) : List.Forall₂ (List.Forall₂ Near) q r := by
  apply List.Forall₂.flip
  refine List.Forall₂.imp ?_ h
  intro a b hab
  apply List.Forall₂.flip
  exact List.Forall₂.imp (fun _ _ => near_comm) hab

theorem tableEq_comm (t u : Table) : tableEq t u = tableEq u t := by
  have : ∀ t u, tableEq t u = true → tableEq u t = true := by
    intro t u h
    rw [tableEq_iff] at *
    rcases h with h | ⟨h1, h2, h3⟩
    · exact Or.inl ⟨h.2, h.1⟩
    · exact Or.inr ⟨h1.symm, h2.symm, forall₂_near_comm h3⟩
  rw [Bool.eq_iff_iff]
  exact ⟨this t u, this u t⟩

theorem tableEq_self (t : Table) : tableEq t t = true := by
  rw [tableEq_iff]; exact Or.inr ⟨rfl, rfl, rows_self _⟩

/-! ### Dictionaries -/

@[elab_as_elim]
theorem Items.ind {P : Items → Prop} (nil : P .nil)
    (cons : ∀ k v d, P d → P (.cons k v d)) : ∀ d, P d
  | .nil => nil
  | .cons k v d => cons k v d (Items.ind nil cons d)

theorem get?_mem {d : Items} {k : String} {v : Obj} (h : d.get? k = some v) : d.Mem k v := by
  induction d using Items.ind with
  | nil => simp [Items.get?] at h
  | cons k' v' d ih =>
    simp only [Items.get?] at h
    split at h
    · rename_i hk; simp only [Option.some.injEq] at h; exact Or.inl ⟨hk, h⟩
    · exact Or.inr (ih h)

theorem mem_keys {d : Items} {k : String} {v : Obj} (h : d.Mem k v) : k ∈ d.keys := by
  induction d using Items.ind with
  | nil => exact h.elim
  | cons k' v' d ih =>
    rcases h with ⟨h1, _⟩ | h
    · simp [Items.keys, h1]
    · simp [Items.keys, ih h]

theorem mem_keys_iff {d : Items} {k : String} : k ∈ d.keys ↔ ∃ v, d.get? k = some v := by
  induction d using Items.ind with
  | nil => simp [Items.keys, Items.get?]
  | cons k' v' d ih =>
    simp only [Items.keys, List.mem_cons, Items.get?, ih]
    by_cases h : k' = k
    · simp [h]
    · simp [h, Ne.symm h]

theorem get?_of_mem {d : Items} (hw : d.Wf) {k : String} {v : Obj} (h : d.Mem k v) :
    d.get? k = some v := by
  induction d using Items.ind with
  | nil => exact h.elim
  | cons k' v' d ih =>
    simp only [Items.Wf] at hw
    simp only [Items.get?]
    rcases h with ⟨h1, h2⟩ | h
    · simp [h1, h2]
    · have : k' ≠ k := by rintro rfl; exact hw.1 (mem_keys h)
      simp [this, ih hw.2.2 h]

/-- What a successful pass over the items says. -/
theorem equalsDict_true {all d e : Items} : equalsDict all d e = .ok true ↔
    (∀ k v, d.Mem k v → ∃ w, e.get? k = some w ∧ equals v w = .ok true) ∧
      ∀ k ∈ e.keys, k ∈ all.keys := by
  induction d using Items.ind with
  | nil => simp [equalsDict, Items.Mem]
  | cons k v d ih =>
    unfold equalsDict
    constructor
    · intro h
      cases hg : e.get? k with
      | none => rw [hg] at h; simp at h
      | some w =>
        rw [hg] at h
        simp only at h
        cases he : equals v w with
        | error x => rw [he] at h; simp at h
        | ok b =>
          cases b with
          | false => rw [he] at h; simp at h
          | true =>
            rw [he] at h
            simp only at h
            obtain ⟨h1, h2⟩ := ih.1 h
            refine ⟨?_, h2⟩
            rintro k' v' (⟨rfl, rfl⟩ | hm)
            · exact ⟨w, hg, he⟩
            · exact h1 k' v' hm
    · rintro ⟨h1, h2⟩
      obtain ⟨w, hg, he⟩ := h1 k v (Or.inl ⟨rfl, rfl⟩)
      rw [hg]
      simp only [he]
      exact ih.2 ⟨fun k' v' hm => h1 k' v' (Or.inr hm), h2⟩

theorem equalsDict_not_false {all d e : Items}
    (h1 : ∀ k v, d.Mem k v → ∃ w, e.get? k = some w ∧ equals v w ≠ .ok false)
    (h2 : ∀ k ∈ e.keys, k ∈ all.keys) : equalsDict all d e ≠ .ok false := by
  induction d using Items.ind with
  | nil =>
    have : e.keys.all (fun k => decide (k ∈ all.keys)) = true := by simpa using h2
    simp only [equalsDict, this]
    simp
  | cons k v d ih =>
    unfold equalsDict
    obtain ⟨w, hg, he⟩ := h1 k v (Or.inl ⟨rfl, rfl⟩)
    rw [hg]
    simp only
    cases hr : equals v w with
    | error x => simp
    | ok b =>
      cases b with
      | false => exact absurd hr he
      | true => exact ih (fun k' v' hm => h1 k' v' (Or.inr hm))

theorem equalsList_true_cons {a : Obj} {l : Objs} {m : Objs} :
    equalsList (.cons a l) m = .ok true ↔
      ∃ b m', m = .cons b m' ∧ equals a b = .ok true ∧ equalsList l m' = .ok true := by
  cases m with
  | nil => simp [equalsList]
  | cons b m =>
    simp only [equalsList, Objs.cons.injEq]
    constructor
    · intro h
      cases hr : equals a b with
      | error x => rw [hr] at h; simp at h
      | ok r =>
        cases r with
        | false => rw [hr] at h; simp at h
        | true => rw [hr] at h; exact ⟨b, m, ⟨rfl, rfl⟩, hr, h⟩
    · rintro ⟨b', m', ⟨rfl, rfl⟩, h1, h2⟩
      simp [h1, h2]

theorem Items.keys_length_zero {d : Items} (h : d.keys.length = 0) : d = .nil := by
  cases d with
  | nil => rfl
  | cons k v d => simp [Items.keys] at h

theorem Objs.length_zero {l : Objs} (h : l.length = 0) : l = .nil := by
  cases l with
  | nil => rfl
  | cons a l => simp [Objs.length] at h

/-! ### Reflexivity -/

mutual
theorem equals_self : ∀ a : Obj, a.Wf → equals a a = .ok true
  | .bool _, _ => by simp [equals]
  | .int _, _ => by simp [equals]
  | .float _, _ => by simp [equals]
  | .str _, _ => by simp [equals]
  | .table t, _ => by simp [equals, tableEq_self]
  | .list l, h => by
    have := equalsList_self l (by simpa only [Obj.Wf] using h)
    simp [equals, this]
  | .dict d, h => by
    have hd : d.Wf := by simpa only [Obj.Wf] using h
    simp only [equals]
    rw [equalsDict_true]
    exact ⟨fun k v hm => ⟨v, get?_of_mem hd hm, equalsItems_self d hd k v hm⟩, fun k hk => hk⟩
theorem equalsList_self : ∀ l : Objs, l.Wf → equalsList l l = .ok true
  | .nil, _ => by simp [equalsList]
  | .cons a l, h => by
    simp only [Objs.Wf] at h
    simp [equalsList, equals_self a h.1, equalsList_self l h.2]
theorem equalsItems_self : ∀ d : Items, d.Wf → ∀ k v, d.Mem k v → equals v v = .ok true
  | .nil, _, _, _, hm => hm.elim
  | .cons k v d, h, k', v', hm => by
    simp only [Items.Wf] at h
    rcases hm with ⟨_, h2⟩ | hm
    · rw [← h2]; exact equals_self v h.2.1
    · exact equalsItems_self d h.2.2 k' v' hm
end

/-! ### Symmetry -/

theorem mem_wf : ∀ {d : Items}, d.Wf → ∀ {k v}, d.Mem k v → v.Wf
  | .nil, _, _, _, hm => hm.elim
  | .cons k v d, h, k', v', hm => by
    simp only [Items.Wf] at h
    rcases hm with ⟨_, h2⟩ | hm
    · rw [← h2]; exact h.2.1
    · exact mem_wf h.2.2 hm

/-- A positive answer between containers of different classes. -/
theorem crossEq_symm {a b : Obj} (hab : a.ty ≠ b.ty) (h : crossEq a b = .ok true) :
    crossEq b a ≠ .ok false := by
  cases a <;> cases b <;> simp only [Obj.ty, ne_eq, not_true_eq_false] at hab <;>
    simp only [crossEq] at h ⊢ <;> (try simp at h)
  · split at h <;> simp at h
  · split at h <;> simp at h
  · rename_i l t
    split at h
    swap
    · simp at h
    · split at h
      · rename_i h1 h2
        have : t.empty = true := by
          have h3 : t.index.length = 0 := by omega
          simp [Table.empty, List.length_eq_zero_iff.1 h3]
        simp [this]
      · simp at h
  · rename_i l d
    split at h
    swap
    · simp at h
    · split at h
      · rename_i h1 h2
        have h3 : d.keys.length = 0 := by omega
        rw [Items.keys_length_zero h3]
        simp [h2]
      · simp at h
  · rename_i d t
    cases d with
    | nil =>
      simp only [crossEq, Except.ok.injEq] at h
      have : t.empty = true := by simp [Table.empty, h]
      simp [this]
    | cons k v d =>
      simp only [crossEq] at h
      split at h <;> simp at h
  · rename_i d l
    cases d with
    | nil =>
      simp only [crossEq, Except.ok.injEq, decide_eq_true_eq] at h
      simp [Items.keys, h]
    | cons k v d =>
      simp only [crossEq] at h
      split at h <;> simp at h

mutual
theorem symm_obj : ∀ a b : Obj, a.NoBool → b.Wf → equals a b = .ok true → equals b a ≠ .ok false
  | .bool _, _, hn, _, _ => by simp [Obj.NoBool] at hn
  | .int i, b, _, _, h => by
    cases b <;> simp [equals, typesPass, Ty.isInstance, Ty.numpy, Obj.ty] at h ⊢
    exact h.symm
  | .float i, b, _, _, h => by
    cases b <;> simp [equals, typesPass, Ty.isInstance, Ty.numpy, Obj.ty] at h ⊢
    exact h.symm
  | .str i, b, _, _, h => by
    cases b <;> simp [equals, typesPass, Ty.isInstance, Ty.numpy, Obj.ty] at h ⊢
    exact h.symm
  | .table t, b, _, _, h => by
    cases b with
    | table u =>
      simp only [equals, Except.ok.injEq] at h
      simp [equals, tableEq_comm u t, h]
    | list l =>
      simp [equals, typesPass, Ty.isInstance, Ty.numpy, Obj.ty] at h ⊢
      exact crossEq_symm (by simp [Obj.ty]) h
    | dict l =>
      simp [equals, typesPass, Ty.isInstance, Ty.numpy, Obj.ty] at h ⊢
      exact crossEq_symm (by simp [Obj.ty]) h
    | _ => simp [equals, typesPass, Ty.isInstance, Ty.numpy, Obj.ty] at h
  | .list l, b, hn, hw, h => by
    cases b with
    | list m =>
      simp only [equals] at h ⊢
      by_cases hl : l.length = m.length
      · simp only [hl, ne_eq, not_true_eq_false, if_false] at h ⊢
        exact symm_list l m (by simpa only [Obj.NoBool] using hn)
          (by simpa only [Obj.Wf] using hw) hl h
      · simp [hl] at h
    | table u =>
      simp [equals, typesPass, Ty.isInstance, Ty.numpy, Obj.ty] at h ⊢
      exact crossEq_symm (by simp [Obj.ty]) h
    | dict u =>
      simp [equals, typesPass, Ty.isInstance, Ty.numpy, Obj.ty] at h ⊢
      exact crossEq_symm (by simp [Obj.ty]) h
    | _ => simp [equals, typesPass, Ty.isInstance, Ty.numpy, Obj.ty] at h
  | .dict d, b, hn, hw, h => by
    cases b with
    | dict e =>
      have he : e.Wf := by simpa only [Obj.Wf] using hw
      have hd : d.NoBool := by simpa only [Obj.NoBool] using hn
      simp only [equals] at h ⊢
      obtain ⟨h1, h2⟩ := equalsDict_true.1 h
      apply equalsDict_not_false
      · intro k w hm
        obtain ⟨v, hv⟩ := mem_keys_iff.1 (h2 k (mem_keys hm))
        refine ⟨v, hv, ?_⟩
        obtain ⟨w', hw1, hw2⟩ := h1 k v (get?_mem hv)
        rw [get?_of_mem he hm] at hw1
        simp only [Option.some.injEq] at hw1
        subst hw1
        exact symm_items d hd k v w (get?_mem hv) (mem_wf he hm) hw2
      · intro k hk
        obtain ⟨v, hv⟩ := mem_keys_iff.1 hk
        obtain ⟨w, hw1, _⟩ := h1 k v (get?_mem hv)
        exact mem_keys_iff.2 ⟨w, hw1⟩
    | table u =>
      simp [equals, typesPass, Ty.isInstance, Ty.numpy, Obj.ty] at h ⊢
      exact crossEq_symm (by simp [Obj.ty]) h
    | list u =>
      simp [equals, typesPass, Ty.isInstance, Ty.numpy, Obj.ty] at h ⊢
      exact crossEq_symm (by simp [Obj.ty]) h
    | _ => simp [equals, typesPass, Ty.isInstance, Ty.numpy, Obj.ty] at h
theorem symm_list : ∀ l m : Objs, l.NoBool → m.Wf → l.length = m.length →
    equalsList l m = .ok true → equalsList m l ≠ .ok false
  | .nil, m, _, _, hl, _ => by
    rw [Objs.length_zero (l := m) (by simpa [Objs.length] using hl.symm)]
    simp [equalsList]
  | .cons a l, m, hn, hw, hl, h => by
    obtain ⟨b, m', rfl, h1, h2⟩ := equalsList_true_cons.1 h
    simp only [Objs.NoBool] at hn
    simp only [Objs.Wf] at hw
    have e1 := symm_obj a b hn.1 hw.1 h1
    have e2 := symm_list l m' hn.2 hw.2 (by simpa [Objs.length] using hl) h2
    simp only [equalsList]
    cases hr : equals b a with
    | error x => simp
    | ok r =>
      cases r with
      | false => exact absurd hr e1
      | true => exact e2
theorem symm_items : ∀ d : Items, d.NoBool → ∀ k v w, d.Mem k v → w.Wf →
    equals v w = .ok true → equals w v ≠ .ok false
  | .nil, _, _, _, _, hm, _, _ => hm.elim
  | .cons k v d, hn, k', v', w, hm, hw, h => by
    simp only [Items.NoBool] at hn
    rcases hm with ⟨_, h2⟩ | hm
    · rw [← h2] at h ⊢; exact symm_obj v w hn.1 hw h
    · exact symm_items d hn.2 k' v' w hm hw h
end

/-! ### Transitivity -/

theorem crossEq_empty {a b : Obj} (hb : b.NoTable) (hab : a.ty ≠ b.ty)
    (hp : typesPass a.ty b.ty = true) (hbool : a.ty ≠ .bool) (h : crossEq a b = .ok true) :
    (a = .list .nil ∧ b = .dict .nil) ∨ (a = .dict .nil ∧ b = .list .nil) := by
  cases a <;> cases b <;> simp only [Obj.ty, ne_eq, not_true_eq_false, Obj.NoTable] at hab hb hbool <;>
    simp [typesPass, Ty.isInstance, Ty.numpy, Obj.ty] at hp <;>
    simp only [crossEq] at h <;> (try simp at h)
  · split at h <;> simp at h
  · split at h <;> simp at h
  · rename_i l d
    split at h
    swap
    · simp at h
    · split at h
      · rename_i h1 h2
        have h3 : d.keys.length = 0 := by omega
        left; rw [Items.keys_length_zero h3, Objs.length_zero h2]; simp
      · simp at h
  · rename_i d l
    cases d with
    | nil =>
      simp only [crossEq, Except.ok.injEq, decide_eq_true_eq] at h
      right; rw [Objs.length_zero h]; simp
    | cons k v d =>
      simp only [crossEq] at h
      split at h <;> simp at h

theorem equals_list_iff (l : Objs) (b : Obj) (hb : b.NoTable) : equals (.list l) b = .ok true ↔
    (∃ m, b = .list m ∧ l.length = m.length ∧ equalsList l m = .ok true) ∨
      (l = .nil ∧ b = .dict .nil) := by
  cases b with
  | list m =>
    simp only [equals, Obj.list.injEq, exists_eq_left']
    by_cases hl : l.length = m.length <;> simp [hl]
  | table t => simp [Obj.NoTable] at hb
  | dict d =>
    simp [equals, typesPass, Ty.isInstance, Ty.numpy, Obj.ty]
    constructor
    · intro h
      rcases crossEq_empty (a := .list l) (b := .dict d) hb (by simp [Obj.ty])
        (by simp [typesPass, Ty.isInstance, Ty.numpy, Obj.ty]) (by simp [Obj.ty]) h with h' | h'
      · simpa using h'
      · simp at h'
    · rintro ⟨rfl, rfl⟩; simp [crossEq, Objs.length, Items.keys]
  | _ => simp [equals, typesPass, Ty.isInstance, Ty.numpy, Obj.ty]

theorem equals_dict_iff (d : Items) (b : Obj) (hb : b.NoTable) : equals (.dict d) b = .ok true ↔
    (∃ e, b = .dict e ∧ equalsDict d d e = .ok true) ∨ (d = .nil ∧ b = .list .nil) := by
  cases b with
  | dict m => simp only [equals, Obj.dict.injEq, exists_eq_left']; simp
  | table t => simp [Obj.NoTable] at hb
  | list m =>
    simp [equals, typesPass, Ty.isInstance, Ty.numpy, Obj.ty]
    constructor
    · intro h
      rcases crossEq_empty (a := .dict d) (b := .list m) hb (by simp [Obj.ty])
        (by simp [typesPass, Ty.isInstance, Ty.numpy, Obj.ty]) (by simp [Obj.ty]) h with h' | h'
      · simp at h'
      · simpa using h'
    · rintro ⟨rfl, rfl⟩; simp [crossEq, Objs.length]
  | _ => simp [equals, typesPass, Ty.isInstance, Ty.numpy, Obj.ty]

theorem mem_noTable : ∀ {d : Items}, d.NoTable → ∀ {k v}, d.Mem k v → v.NoTable
  | .nil, _, _, _, hm => hm.elim
  | .cons k v d, h, k', v', hm => by
    simp only [Items.NoTable] at h
    rcases hm with ⟨_, h2⟩ | hm
    · rw [← h2]; exact h.1
    · exact mem_noTable h.2 hm

theorem equalsDict_nil {all e : Items} (h : equalsDict all .nil e = .ok true) (ha : all = .nil) :
    e = .nil := by
  subst ha
  obtain ⟨_, h2⟩ := equalsDict_true.1 h
  cases e with
  | nil => rfl
  | cons k v d => have := h2 k (by simp [Items.keys]); simp [Items.keys] at this

theorem equalsDict_to_nil {all d : Items} (h : equalsDict all d .nil = .ok true) : d = .nil := by
  obtain ⟨h1, _⟩ := equalsDict_true.1 h
  cases d with
  | nil => rfl
  | cons k v d =>
    obtain ⟨w, hw, _⟩ := h1 k v (Or.inl ⟨rfl, rfl⟩)
    simp [Items.get?] at hw

mutual
theorem trans_obj : ∀ a b c : Obj, b.NoTable → c.NoTable →
    equals a b = .ok true → equals b c = .ok true → equals a c = .ok true
  | .bool x, b, c, _, _, h1, h2 => by
    cases b <;> simp [equals, typesPass, Ty.isInstance, Ty.numpy, Obj.ty] at h1 <;>
      cases c <;> simp [equals, typesPass, Ty.isInstance, Ty.numpy, Obj.ty] at h2 ⊢ <;>
      simp_all
  | .int x, b, c, _, _, h1, h2 => by
    cases b <;> simp [equals, typesPass, Ty.isInstance, Ty.numpy, Obj.ty] at h1 <;>
      cases c <;> simp [equals, typesPass, Ty.isInstance, Ty.numpy, Obj.ty] at h2 ⊢ <;>
      simp_all
  | .float x, b, c, _, _, h1, h2 => by
    cases b <;> simp [equals, typesPass, Ty.isInstance, Ty.numpy, Obj.ty] at h1 <;>
      cases c <;> simp [equals, typesPass, Ty.isInstance, Ty.numpy, Obj.ty] at h2 ⊢ <;>
      simp_all
  | .str x, b, c, _, _, h1, h2 => by
    cases b <;> simp [equals, typesPass, Ty.isInstance, Ty.numpy, Obj.ty] at h1 <;>
      cases c <;> simp [equals, typesPass, Ty.isInstance, Ty.numpy, Obj.ty] at h2 ⊢ <;>
      simp_all
  | .table t, b, c, hb, _, h1, h2 => by
    cases b with
    | table u => simp [Obj.NoTable] at hb
    | list l =>
      simp [equals, typesPass, Ty.isInstance, Ty.numpy, Obj.ty, crossEq] at h1
      split at h1 <;> simp at h1
    | dict l =>
      simp [equals, typesPass, Ty.isInstance, Ty.numpy, Obj.ty, crossEq] at h1
      split at h1 <;> simp at h1
    | _ => simp [equals, typesPass, Ty.isInstance, Ty.numpy, Obj.ty] at h1
  | .list l, b, c, hb, hc, h1, h2 => by
    rw [equals_list_iff l c hc]
    rcases (equals_list_iff l b hb).1 h1 with ⟨m, rfl, hl, h1'⟩ | ⟨rfl, rfl⟩
    · rcases (equals_list_iff m c hc).1 h2 with ⟨p, rfl, hm, h2'⟩ | ⟨rfl, rfl⟩
      · exact Or.inl ⟨p, rfl, hl.trans hm, trans_list l m p (by simpa only [Obj.NoTable] using hb)
          (by simpa only [Obj.NoTable] using hc) h1' h2'⟩
      · exact Or.inr ⟨Objs.length_zero (by simpa [Objs.length] using hl), rfl⟩
    · rcases (equals_dict_iff .nil c hc).1 h2 with ⟨p, rfl, h2'⟩ | ⟨_, rfl⟩
      · exact Or.inr ⟨rfl, by rw [equalsDict_nil h2' rfl]⟩
      · exact Or.inl ⟨.nil, rfl, rfl, by simp [equalsList]⟩
  | .dict d, b, c, hb, hc, h1, h2 => by
    rw [equals_dict_iff d c hc]
    rcases (equals_dict_iff d b hb).1 h1 with ⟨e, rfl, h1'⟩ | ⟨rfl, rfl⟩
    · rcases (equals_dict_iff e c hc).1 h2 with ⟨f, rfl, h2'⟩ | ⟨rfl, rfl⟩
      · refine Or.inl ⟨f, rfl, equalsDict_true.2 ⟨?_, ?_⟩⟩
        · intro k v hm
          obtain ⟨w, hw, e1⟩ := (equalsDict_true.1 h1').1 k v hm
          obtain ⟨u, hu, e2⟩ := (equalsDict_true.1 h2').1 k w (get?_mem hw)
          have hb' : e.NoTable := by simpa only [Obj.NoTable] using hb
          have hc' : f.NoTable := by simpa only [Obj.NoTable] using hc
          exact ⟨u, hu, trans_items d k v w u hm (mem_noTable hb' (get?_mem hw))
            (mem_noTable hc' (get?_mem hu)) e1 e2⟩
        · intro k hk
          exact (equalsDict_true.1 h1').2 k ((equalsDict_true.1 h2').2 k hk)
      · rw [equalsDict_to_nil h1']; exact Or.inr ⟨rfl, rfl⟩
    · rcases (equals_list_iff .nil c hc).1 h2 with ⟨p, rfl, hl, h2⟩ | ⟨_, rfl⟩
      · right
        exact ⟨rfl, by rw [Objs.length_zero (l := p) (by simpa [Objs.length] using hl.symm)]⟩
      · exact Or.inl ⟨.nil, rfl, by simp [equalsDict, Items.keys]⟩
theorem trans_list : ∀ l m p : Objs, m.NoTable → p.NoTable →
    equalsList l m = .ok true → equalsList m p = .ok true → equalsList l p = .ok true
  | .nil, _, _, _, _, _, _ => by simp [equalsList]
  | .cons a l, m, p, hm, hp, h1, h2 => by
    obtain ⟨b, m', rfl, e1, e2⟩ := equalsList_true_cons.1 h1
    obtain ⟨c, p', rfl, f1, f2⟩ := equalsList_true_cons.1 h2
    simp only [Objs.NoTable] at hm hp
    exact equalsList_true_cons.2 ⟨c, p', rfl, trans_obj a b c hm.1 hp.1 e1 f1,
      trans_list l m' p' hm.2 hp.2 e2 f2⟩
theorem trans_items : ∀ (d : Items) k v w u, d.Mem k v → w.NoTable → u.NoTable →
    equals v w = .ok true → equals w u = .ok true → equals v u = .ok true
  | .nil, _, _, _, _, hm, _, _, _, _ => hm.elim
  | .cons k v d, k', v', w, u, hm, hw, hu, h1, h2 => by
    rcases hm with ⟨_, h'⟩ | hm
    · rw [← h'] at h1 ⊢; exact trans_obj v w u hw hu h1 h2
    · exact trans_items d k' v' w u hm hw hu h1 h2
end

/-! ### Soundness -/

theorem equalsList_nth {l m : Objs} (h : equalsList l m = .ok true) {i : Nat} {v : Obj}
    (hv : l.nth i = some v) : ∃ w, m.nth i = some w ∧ equals v w = .ok true := by
  induction i generalizing l m with
  | zero =>
    cases l with
    | nil => simp [Objs.nth] at hv
    | cons a l =>
      obtain ⟨b, m', rfl, e1, _⟩ := equalsList_true_cons.1 h
      simp only [Objs.nth, Option.some.injEq] at hv
      subst hv
      exact ⟨b, rfl, e1⟩
  | succ i ih =>
    cases l with
    | nil => simp [Objs.nth] at hv
    | cons a l =>
      obtain ⟨b, m', rfl, _, e2⟩ := equalsList_true_cons.1 h
      exact ih e2 (by simpa [Objs.nth] using hv)

theorem equals_sound (p : List Step) : ∀ a b x : Obj, equals a b = .ok true → a.at p = some x →
    x.IsLeaf → ∃ y, b.at p = some y ∧ Agree x y := by
  induction p with
  | nil =>
    intro a b x h ha hx
    simp only [Obj.at, Option.some.injEq] at ha
    subst ha
    refine ⟨b, by simp [Obj.at], ?_⟩
    cases a <;> cases b <;>
      simp_all [equals, typesPass, Ty.isInstance, Ty.numpy, Obj.ty, Agree, Obj.IsLeaf, crossEq]
    · rename_i t u; exact (tableEq_iff t u).1 h
    · split at h <;> simp at h
    · split at h <;> simp at h
  | cons s p ih =>
    intro a b x h ha hx
    cases s with
    | key k =>
      cases a with
      | dict d =>
        simp only [Obj.at] at ha
        cases hg : d.get? k with
        | none => rw [hg] at ha; simp at ha
        | some v =>
          rw [hg] at ha
          simp only at ha
          have hne : d ≠ .nil := by rintro rfl; simp [Items.get?] at hg
          cases b with
          | dict e =>
            simp only [equals] at h
            obtain ⟨w, hw, e1⟩ := (equalsDict_true.1 h).1 k v (get?_mem hg)
            obtain ⟨y, hy, hxy⟩ := ih v w x e1 ha hx
            exact ⟨y, by simp only [Obj.at, hw, hy], hxy⟩
          | list l =>
            cases d with
            | nil => exact absurd rfl hne
            | cons k' v' d =>
              simp [equals, typesPass, Ty.isInstance, Ty.numpy, Obj.ty, crossEq] at h
              split at h <;> simp at h
          | table t =>
            cases d with
            | nil => exact absurd rfl hne
            | cons k' v' d =>
              simp [equals, typesPass, Ty.isInstance, Ty.numpy, Obj.ty, crossEq] at h
              split at h <;> simp at h
          | _ => simp [equals, typesPass, Ty.isInstance, Ty.numpy, Obj.ty] at h
      | _ => simp [Obj.at] at ha
    | idx i =>
      cases a with
      | list l =>
        simp only [Obj.at] at ha
        cases hg : l.nth i with
        | none => rw [hg] at ha; simp at ha
        | some v =>
          rw [hg] at ha
          simp only at ha
          have hne : l.length ≠ 0 := by
            intro h0; rw [Objs.length_zero h0] at hg; simp [Objs.nth] at hg
          cases b with
          | list m =>
            simp only [equals] at h
            split at h
            · simp at h
            · obtain ⟨w, hw, e1⟩ := equalsList_nth h hg
              obtain ⟨y, hy, hxy⟩ := ih v w x e1 ha hx
              exact ⟨y, by simp only [Obj.at, hw, hy], hxy⟩
          | dict e =>
            simp [equals, typesPass, Ty.isInstance, Ty.numpy, Obj.ty, crossEq, hne] at h
            split at h <;> simp at h
          | table t =>
            simp [equals, typesPass, Ty.isInstance, Ty.numpy, Obj.ty, crossEq, hne] at h
            split at h <;> simp at h
          | _ => simp [equals, typesPass, Ty.isInstance, Ty.numpy, Obj.ty] at h
      | _ => simp [Obj.at] at ha

/-! ### Networks -/

theorem networkEquals_true {d e : Items} : networkEquals d e = .ok true ↔
    ∀ k v, d.Mem k v → ∃ w, e.get? k = some w ∧ equals v w = .ok true := by
  induction d using Items.ind with
  | nil => simp [networkEquals, Items.Mem]
  | cons k v d ih =>
    unfold networkEquals
    constructor
    · intro h
      cases hg : e.get? k with
      | none => rw [hg] at h; simp at h
      | some w =>
        rw [hg] at h
        simp only at h
        cases he : equals v w with
        | error x => rw [he] at h; simp at h
        | ok b =>
          rw [he] at h
          simp only at h
          cases hr : networkEquals d e with
          | error x => rw [hr] at h; simp at h
          | ok r =>
            rw [hr] at h
            simp only [Except.ok.injEq, Bool.and_eq_true] at h
            rintro k' v' (⟨rfl, rfl⟩ | hm)
            · exact ⟨w, hg, by rw [he, h.1]⟩
            · exact ih.1 (by rw [hr, h.2]) k' v' hm
    · intro h1
      obtain ⟨w, hg, he⟩ := h1 k v (Or.inl ⟨rfl, rfl⟩)
      rw [hg]
      simp only [he]
      rw [ih.2 (fun k' v' hm => h1 k' v' (Or.inr hm))]
      simp

/-- A returned `False` names a differing attribute. -/
theorem networkEquals_false {d e : Items} (h : networkEquals d e = .ok false) :
    ∃ k v w, d.Mem k v ∧ e.get? k = some w ∧ equals v w = .ok false := by
  induction d using Items.ind with
  | nil => simp [networkEquals] at h
  | cons k v d ih =>
    unfold networkEquals at h
    cases hg : e.get? k with
    | none => rw [hg] at h; simp at h
    | some w =>
      rw [hg] at h
      simp only at h
      cases he : equals v w with
      | error x => rw [he] at h; simp at h
      | ok b =>
        rw [he] at h
        simp only at h
        cases hr : networkEquals d e with
        | error x => rw [hr] at h; simp at h
        | ok r =>
          rw [hr] at h
          simp only [Except.ok.injEq, Bool.and_eq_false_iff] at h
          rcases h with h | h
          · exact ⟨k, v, w, Or.inl ⟨rfl, rfl⟩, hg, by rw [he, h]⟩
          · obtain ⟨k', v', w', a1, a2, a3⟩ := ih (by rw [hr, h])
            exact ⟨k', v', w', Or.inr a1, a2, a3⟩

theorem mem_noBool : ∀ {d : Items}, d.NoBool → ∀ {k v}, d.Mem k v → v.NoBool
  | .nil, _, _, _, hm => hm.elim
  | .cons k v d, h, k', v', hm => by
    simp only [Items.NoBool] at h
    rcases hm with ⟨_, h2⟩ | hm
    · rw [← h2]; exact h.1
    · exact mem_noBool h.2 hm

/-- **C15, reflexivity.** A network equals itself. -/
theorem network_equals_refl (n : Items) (h : n.Wf) : networkEquals n n = .ok true :=
  networkEquals_true.2 fun k v hm =>
    ⟨v, get?_of_mem h hm, equals_self v (mem_wf h hm)⟩

/-- **C15, symmetry (partial: no booleans in the compared data, both calls return).** If both `n.equals(m)` and `m.equals(n)` return, they return the same.
Missing: booleans compared with integers (`equals_bool_int_asymmetric`), attributes only one
of the networks has, for which one direction raises (`network_equals_asymmetric`) — the
claim is false there — and containers of different classes, where one direction may raise. -/
theorem network_equals_symm_partial (n m : Items) (hn : n.Wf) (hm : m.Wf) (bn : n.NoBool)
    (bm : m.NoBool) (r s : Bool)
    (h1 : networkEquals n m = .ok r) (h2 : networkEquals m n = .ok s) : r = s := by
  have key : ∀ n m : Items, n.Wf → m.Wf → n.NoBool →
      networkEquals n m = .ok true → networkEquals m n ≠ .ok false := by
    intro n m hn hm bn h1 h2
    obtain ⟨k, w, v, a1, a2, a3⟩ := networkEquals_false h2
    obtain ⟨w', b1, b2⟩ := networkEquals_true.1 h1 k v (get?_mem a2)
    rw [get?_of_mem hm a1] at b1
    simp only [Option.some.injEq] at b1
    subst b1
    exact symm_obj v w (mem_noBool bn (get?_mem a2)) (mem_wf hm a1) b2 a3
  cases r <;> cases s
  · rfl
  · exact absurd h1 (key m n hm hn bm h2)
  · exact absurd h2 (key n m hn hm bn h1)
  · rfl

/-- **C15, transitivity (partial: no data frames).** Missing: data frames, which are compared
up to a tolerance (`frames_not_transitive`). -/
theorem network_equals_trans_partial (n m p : Items) (hm : m.NoTable) (hp : p.NoTable)
    (h1 : networkEquals n m = .ok true) (h2 : networkEquals m p = .ok true) :
    networkEquals n p = .ok true := by
  rw [networkEquals_true] at *
  intro k v hv
  obtain ⟨w, hw, e1⟩ := h1 k v hv
  obtain ⟨u, hu, e2⟩ := h2 k w (get?_mem hw)
  exact ⟨u, hu, trans_obj v w u (mem_noTable hm (get?_mem hw)) (mem_noTable hp (get?_mem hu)) e1 e2⟩

/-- **C15, content.** If `n.equals(m)`, then whatever leaf is found in an attribute of `n`, at
any depth, is found at the same place in `m` and agrees: the same number or string, and
for frames the same labels and values within the tolerance (or both frames are empty). -/
theorem network_equals_content (n m : Items) (h : networkEquals n m = .ok true) (k : String)
    (p : List Step) (v x : Obj) (hv : n.get? k = some v) (hx : v.at p = some x)
    (hl : x.IsLeaf) : ∃ w y, m.get? k = some w ∧ w.at p = some y ∧ Agree x y := by
  obtain ⟨w, hw, e⟩ := networkEquals_true.1 h k v (get?_mem hv)
  obtain ⟨y, hy, hxy⟩ := equals_sound p v w x e hx hl
  exact ⟨w, y, hw, hy, hxy⟩

/-! ### Examples and witnesses -/

def exFrame (x : ℚ) : Table :=
  { index := ["b1", "b2"], columns := ["v_nom"], cells := [[some x], [none]] }

def exN (x : ℚ) : Items :=
  .cons "name" (.str "n") (.cons "meta" (.dict (.cons "years" (.list (.cons (.int 2030) .nil)) .nil))
    (.cons "buses" (.table (exFrame x)) .nil))

/-- Non-vacuity: two networks that are equal though written down with different values. -/
example : networkEquals (exN 380) (exN (380 + 1 / 1000)) = .ok true ∧ (exN 380).Wf ∧
    (exN 380).NoBool := by
  refine ⟨?_, ?_, ?_⟩
  · rw [networkEquals_true]
    intro k v hv
    simp only [exN, Items.Mem, or_false] at hv
    rcases hv with ⟨rfl, rfl⟩ | ⟨rfl, rfl⟩ | ⟨rfl, rfl⟩
    · exact ⟨.str "n", by simp [exN, Items.get?], by simp [equals]⟩
    · exact ⟨_, rfl, equals_self _ (by simp [Obj.Wf, Items.Wf, Objs.Wf, Items.keys])⟩
    · refine ⟨_, rfl, ?_⟩
      simp only [equals, Except.ok.injEq]
      decide +kernel
  · simp [exN, Items.Wf, Obj.Wf, Objs.Wf, Items.keys]
  · simp [exN, Items.NoBool, Obj.NoBool, Objs.NoBool]

/-- **Finding**: `equals` is not symmetric. `meta = {"x": True}` equals `meta = {"x": 1}`, but
not the other way round (`isinstance(True, int)` holds, `isinstance(1, bool)` does not). -/
theorem equals_bool_int_asymmetric :
    networkEquals (.cons "_meta" (.dict (.cons "x" (.bool true) .nil)) .nil)
        (.cons "_meta" (.dict (.cons "x" (.int 1) .nil)) .nil) = .ok true ∧
    networkEquals (.cons "_meta" (.dict (.cons "x" (.int 1) .nil)) .nil)
        (.cons "_meta" (.dict (.cons "x" (.bool true) .nil)) .nil) = .ok false := by
  constructor <;>
    simp [networkEquals, Items.get?, equals, equalsDict, Items.keys, typesPass, Ty.isInstance,
      Ty.numpy, Obj.ty]

/-- **Finding**: an attribute only the second network has (such as `objective` after an
optimisation) is ignored, while the reversed call raises `KeyError`. -/
theorem network_equals_asymmetric :
    networkEquals (.cons "name" (.str "n") .nil)
        (.cons "name" (.str "n") (.cons "objective" (.float (some 1)) .nil)) = .ok true ∧
    networkEquals (.cons "name" (.str "n") (.cons "objective" (.float (some 1)) .nil))
        (.cons "name" (.str "n") .nil) = .error .keyError := by
  constructor
  · simp [networkEquals, Items.get?, equals]
  · simp [networkEquals, Items.get?, equals]

/-- **Finding**: equality of frames is not transitive. -/
theorem frames_not_transitive : ∃ t u v : Table, equals (.table t) (.table u) = .ok true ∧
    equals (.table u) (.table v) = .ok true ∧ equals (.table t) (.table v) = .ok false := by
  refine ⟨exFrame 100000, exFrame 100001, exFrame 100002, ?_, ?_, ?_⟩ <;>
    simp only [equals, Except.ok.injEq] <;> decide +kernel

/-- **Finding**: frames without columns compare equal whatever their rows are. -/
theorem empty_frames_equal : equals (.table { index := ["0", "1"], columns := [], cells := [[], []] })
    (.table { index := ["a"], columns := [], cells := [[]] }) = .ok true := by
  simp only [equals, Except.ok.injEq]; decide +kernel

end Verif.Equality
