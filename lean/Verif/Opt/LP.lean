import Mathlib.Algebra.Order.Field.Basic
import Mathlib.Algebra.BigOperators.Group.List.Basic
import Mathlib.Algebra.BigOperators.Ring.List

/-!
# Linear constraints

The part of `linopy` which the optimisation modules use: a linear expression is a list of
coefficient/variable pairs; `Model.add_constraints` adds rows; a variable or row excluded by a
mask does not exist, and terms with a variable that does not exist (also those introduced by
`shift` and `rolling` before the first snapshot) are dropped.  This is an assumption about
`linopy`, which is not part of the repository.  Coefficients are elements of a field.
-/

namespace Verif.Opt

inductive Sense | le | ge | eq
deriving DecidableEq, Repr

structure Con (V F : Type) where
  terms : List (F × V)
  sense : Sense
  rhs : F
deriving DecidableEq, Repr

variable {V F : Type} [Field F] [LinearOrder F]

/-- Value of a linear expression. -/
def lin (val : V → F) (ts : List (F × V)) : F := (ts.map (fun e => e.1 * val e.2)).sum

/-- A row holds at a point. -/
def Con.holds (val : V → F) (c : Con V F) : Prop :=
  match c.sense with
  | .le => lin val c.terms ≤ c.rhs
  | .ge => c.rhs ≤ lin val c.terms
  | .eq => lin val c.terms = c.rhs

/-- A point satisfies all rows. -/
def Feasible (val : V → F) (cs : List (Con V F)) : Prop := ∀ c ∈ cs, c.holds val

instance (val : V → F) (c : Con V F) : Decidable (c.holds val) := by
  unfold Con.holds; split <;> infer_instance

instance (val : V → F) (cs : List (Con V F)) : Decidable (Feasible val cs) :=
  inferInstanceAs (Decidable (∀ c ∈ cs, c.holds val))

/-- A term, if its variable exists. -/
def tm (present : V → Bool) (a : F) (v : V) : List (F × V) := if present v then [(a, v)] else []

/-- Value of a variable, counting a variable that does not exist as 0. -/
def orZero (present : V → Bool) (val : V → F) (v : V) : F := if present v then val v else 0

omit [LinearOrder F] in
@[simp] theorem lin_nil (val : V → F) : lin val [] = 0 := rfl

omit [LinearOrder F] in
@[simp] theorem lin_append (val : V → F) (a b : List (F × V)) :
    lin val (a ++ b) = lin val a + lin val b := by simp [lin]

omit [LinearOrder F] in
@[simp] theorem lin_cons (val : V → F) (a : F × V) (b : List (F × V)) :
    lin val (a :: b) = a.1 * val a.2 + lin val b := by simp [lin]

omit [LinearOrder F] in
@[simp] theorem lin_tm (present : V → Bool) (val : V → F) (a : F) (v : V) :
    lin val (tm present a v) = a * orZero present val v := by
  unfold tm orZero; split <;> simp

omit [LinearOrder F] in
theorem lin_flatMap {α : Type} (val : V → F) (l : List α) (f : α → List (F × V)) :
    lin val (l.flatMap f) = (l.map (fun a => lin val (f a))).sum := by
  induction l with
  | nil => rfl
  | cons a t ih => simp [List.flatMap_cons, ih]

theorem feasible_append (val : V → F) (a b : List (Con V F)) :
    Feasible val (a ++ b) ↔ Feasible val a ∧ Feasible val b := by
  simp only [Feasible, List.mem_append]
  exact ⟨fun h => ⟨fun c hc => h c (Or.inl hc), fun c hc => h c (Or.inr hc)⟩,
    fun h c hc => hc.elim (h.1 c) (h.2 c)⟩

theorem feasible_flatMap {α : Type} (val : V → F) (l : List α) (f : α → List (Con V F)) :
    Feasible val (l.flatMap f) ↔ ∀ a ∈ l, Feasible val (f a) := by
  simp only [Feasible, List.mem_flatMap]
  exact ⟨fun h a ha c hc => h c ⟨a, ha, hc⟩, fun h c ⟨a, ha, hc⟩ => h a ha c hc⟩

theorem feasible_cons (val : V → F) (c : Con V F) (cs : List (Con V F)) :
    Feasible val (c :: cs) ↔ c.holds val ∧ Feasible val cs := by
  simp [Feasible]

@[simp] theorem feasible_nil (val : V → F) : Feasible val ([] : List (Con V F)) := by
  simp [Feasible]

@[simp] theorem feasible_ite (val : V → F) (p : Prop) [Decidable p] (a b : List (Con V F)) :
    Feasible val (if p then a else b) ↔ (p → Feasible val a) ∧ (¬p → Feasible val b) := by
  split <;> simp_all

end Verif.Opt
