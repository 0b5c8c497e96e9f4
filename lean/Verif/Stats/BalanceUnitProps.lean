import Verif.Stats.BalanceUnit

/-!
# The unit of an energy balance is that of all its buses (C161)
-/

namespace Verif.Stats.BalanceUnit

/-! ## Specification -/

/-- The bus has one of the carriers that are asked for by name. -/
def Named (n : Net) (s : Sel) (b : String) : Prop :=
  b ∈ n.buses ∧ ∃ c, n.busCol "carrier" b = some c ∧ (match s with
    | .all => True
    | .str p => c = p
    | .list l => c ∈ l)

/-- All that is asked for are carriers of buses, and there is something. -/
def Proper (n : Net) : Sel → Prop
  | .all => True
  | .str p => ∃ b ∈ n.buses, n.busCol "carrier" b = some p
  | .list l => l ≠ [] ∧ ∀ c ∈ l, ∃ b ∈ n.buses, n.busCol "carrier" b = some c

/-! ## Theorems -/

variable {n : Net} {s : Sel}

def missingOf (n : Net) (s : Sel) : List String := (asked s).filter (fun c => !(n.buses.map (n.busCol "carrier")).contains (some c))

def unitsOf (n : Net) (s : Sel) : List (Option String) := ((n.buses.filter (fun b => match n.busCol "carrier" b with
      | none => false
      | some c => (asked s).contains c)).map (n.busCol "unit")).dedup

theorem shown_eq (hs : s ≠ .all) : shown n s = if !(missingOf n s).isEmpty then .error (.unknown (missingOf n s)) else
    match unitsOf n s with
    | [] => .error .item
    | [u] => .ok (.unit u)
    | _ => .ok .dependent := by
  cases s with
  | all => exact absurd rfl hs
  | _ => rfl

theorem mem_units (hs : s ≠ .all) (u : Option String) : u ∈ unitsOf n s ↔ ∃ b, Named n s b ∧ n.busCol "unit" b = u := by
  unfold unitsOf
  rw [List.mem_dedup, List.mem_map]
  refine exists_congr (fun b => and_congr_left (fun _ => ?_))
  rw [List.mem_filter]
  unfold Named
  cases h : n.busCol "carrier" b with
  | none => simp
  | some c => cases s <;> simp [asked] at hs ⊢

theorem missing_iff : (missingOf n s).isEmpty = true ↔ ∀ c ∈ asked s, ∃ b ∈ n.buses, n.busCol "carrier" b = some c := by
  unfold missingOf
  rw [List.isEmpty_iff, List.filter_eq_nil_iff]
  simp

theorem proper_iff (hs : s ≠ .all) : Proper n s ↔ asked s ≠ [] ∧ (missingOf n s).isEmpty = true := by
  rw [missing_iff]
  cases s <;> simp [Proper, asked] at hs ⊢

theorem some_named (hs : s ≠ .all) (hp : Proper n s) : ∃ b, Named n s b := by
  cases s with
  | all => exact absurd rfl hs
  | str p =>
    obtain ⟨b, hb, hc⟩ := hp
    exact ⟨b, hb, p, hc, rfl⟩
  | list l =>
    obtain ⟨hne, h⟩ := hp
    obtain ⟨c, l', rfl⟩ := List.exists_cons_of_ne_nil hne
    obtain ⟨b, hb, hc⟩ := h c List.mem_cons_self
    exact ⟨b, hb, c, hc, List.mem_cons_self⟩

/-- The balance has a unit exactly if all that is asked for are carriers of buses. -/
theorem accepted : (∃ u, shown n s = .ok u) ↔ Proper n s := by
  by_cases hs : s = .all
  · subst hs
    simp [shown, Proper]
  rw [shown_eq hs]
  constructor
  · rintro ⟨u, hu⟩
    split at hu
    · cases hu
    · rename_i h
      simp only [Bool.not_eq_true', Bool.not_eq_false] at h
      refine (proper_iff hs).mpr ⟨fun he => ?_, h⟩
      have : unitsOf n s = [] := by
        unfold unitsOf
        rw [he]
        have : (n.buses.filter (fun b => match n.busCol "carrier" b with
            | none => false
            | some c => ([] : List String).contains c)) = [] := by
          rw [List.filter_eq_nil_iff]
          intro b _
          cases n.busCol "carrier" b <;> simp
        rw [this]
        rfl
      rw [this] at hu
      cases hu
  · intro hp
    obtain ⟨b, hb⟩ := some_named hs hp
    have hm := (mem_units hs _).mpr ⟨b, hb, rfl⟩
    rw [((proper_iff hs).mp hp).2]
    simp only [Bool.not_true, Bool.false_eq_true, if_false]
    split
    · rename_i hu
      rw [hu] at hm
      cases hm
    · exact ⟨_, rfl⟩
    · exact ⟨_, rfl⟩

/-- The unit shown is that of every bus asked for, of which there is one. -/
theorem unit_named {u : Option String} (h : shown n s = .ok (.unit u)) : (∀ b, Named n s b → n.busCol "unit" b = u) ∧ ∃ b, Named n s b := by
  by_cases hs : s = .all
  · subst hs
    simp [shown] at h
  have hp := accepted.mp ⟨_, h⟩
  rw [shown_eq hs] at h
  split at h
  · cases h
  split at h <;> rename_i hu
  · cases h
  · injection h with h
    injection h with h
    refine ⟨fun b hb => ?_, some_named hs hp⟩
    have := (mem_units hs _).mpr ⟨b, hb, rfl⟩
    rw [hu] at this
    exact (List.mem_singleton.mp this).trans h
  · cases h

/-- No unit is shown exactly if buses with different units are asked for, or all. -/
theorem dependent_iff (hp : Proper n s) : shown n s = .ok .dependent ↔
    s = .all ∨ ∃ b b', Named n s b ∧ Named n s b' ∧ n.busCol "unit" b ≠ n.busCol "unit" b' := by
  obtain ⟨r, hr⟩ := accepted.mpr hp
  constructor
  · intro h
    by_cases hs : s = .all
    · exact Or.inl hs
    refine Or.inr ?_
    have nd : (unitsOf n s).Nodup := List.nodup_dedup _
    rw [shown_eq hs] at h
    split at h
    · cases h
    split at h
    · cases h
    · cases h
    · rename_i h1 h2
      have hm := fun u => mem_units (n := n) hs u
      generalize unitsOf n s = d at h1 h2 nd hm
      match d with
      | [] => exact absurd rfl h1
      | [u] => exact absurd rfl (h2 u)
      | u :: v :: l =>
        obtain ⟨b, hb, e⟩ := (hm u).mp (by simp)
        obtain ⟨b', hb', e'⟩ := (hm v).mp (by simp)
        refine ⟨b, b', hb, hb', fun he => ?_⟩
        rw [e, e'] at he
        simp [he] at nd
  · rintro (rfl | ⟨b, b', h1, h2, h3⟩)
    · rfl
    · rw [hr]
      cases r with
      | dependent => rfl
      | unit u =>
        have := (unit_named hr).1
        exact absurd ((this b h1).trans (this b' h2).symm) h3

/-- What is summed up in a balance with a unit has this unit, whatever the pattern search is. -/
theorem unit_of_ports (search : String → String → Bool) {u : Option String} (h : shown n s = .ok (.unit u)) {port : String} {a : Asset} {b : String}
    (hb : a.col ("bus" ++ port) = some b) (ha : busOk search n port s a = true) : n.busAttr "unit" b = u := by
  have hs : s ≠ .all := by
    rintro rfl
    simp [shown] at h
  have hp := accepted.mp ⟨_, h⟩
  have hc : ∃ c, n.busAttr "carrier" b = some c ∧ s.holds search (n.buses.filterMap (n.busCol "carrier")) c = true := by
    cases s with
    | all => exact absurd rfl hs
    | _ =>
      unfold busOk at ha
      simp only [portCarrier, hb, Option.bind_some] at ha
      split at ha
      · cases ha
      · rename_i c hc
        exact ⟨c, hc, ha⟩
  obtain ⟨c, h1, h2⟩ := hc
  have hm : b ∈ n.buses := by
    unfold Net.busAttr at h1
    split at h1
    · rename_i hm
      exact List.contains_iff_mem.mp hm
    · cases h1
  have hcont : n.buses.contains b = true := List.contains_iff_mem.mpr hm
  unfold Net.busAttr at h1 ⊢
  rw [if_pos hcont] at h1 ⊢
  refine (unit_named h).1 b ⟨hm, c, h1, ?_⟩
  cases s with
  | all => exact absurd rfl hs
  | str p =>
    obtain ⟨b', hb', hp⟩ := hp
    have : (n.buses.filterMap (n.busCol "carrier")).contains p = true := List.contains_iff_mem.mpr (List.mem_filterMap.mpr ⟨b', hb', hp⟩)
    simp only [Sel.holds, this, if_true, beq_iff_eq] at h2
    exact h2
  | list l => exact List.contains_iff_mem.mp h2

/-- What the other statistics accept: a pattern, of which at least one bus has the carrier. -/
def AcceptsPatterns : Prop := ∀ (search : String → String → Bool) (n : Net) (p : String), (∃ b ∈ n.buses, ∃ c, n.busCol "carrier" b = some c ∧ search p c = true) →
  ∃ u, shown n (.str p) = .ok u

def exNet : Net where
  buses := ["b0", "b1", "b2"]
  busCol a b := if a = "carrier" then some (if b = "b2" then "heat" else "AC") else if a = "unit" then some (if b = "b2" then "MWh_th" else "MWh_el") else none
  nice x := x
  multi := none

/-- A pattern that is no carrier makes the balance fail, although it selects buses. -/
theorem not_patterns : ¬ AcceptsPatterns := by
  intro h
  obtain ⟨u, hu⟩ := h (fun p c => p == "A" && c == "AC") exNet "A" ⟨"b0", by decide, "AC", by decide, by decide⟩
  revert hu
  have : shown exNet (.str "A") = .error (.unknown ["A"]) := by decide +kernel
  rw [this]
  intro hu
  cases hu

/-- It fails for every string that is no carrier of a bus … -/
theorem pattern_raises {p : String} (h : ∀ b ∈ n.buses, n.busCol "carrier" b ≠ some p) : shown n (.str p) = .error (.unknown [p]) := by
  unfold shown
  have : (n.buses.map (n.busCol "carrier")).contains (some p) = false := by
    rw [Bool.eq_false_iff]
    intro hc
    obtain ⟨b, hb, e⟩ := List.mem_map.mp (List.contains_iff_mem.mp hc)
    exact h b hb e
  have hm : (asked (.str p)).filter (fun c => !(n.buses.map (n.busCol "carrier")).contains (some c)) = [p] := by
    show List.filter _ [p] = [p]
    exact List.filter_cons_of_pos (by rw [this]; rfl)
  simp only [hm]
  rfl

/-- … and for every list with such a string. -/
theorem list_raises {l : List String} {c : String} (hc : c ∈ l) (h : ∀ b ∈ n.buses, n.busCol "carrier" b ≠ some c) : ∀ u, shown n (.list l) ≠ .ok u := by
  intro u hu
  obtain ⟨-, hp⟩ := accepted.mp ⟨u, hu⟩
  obtain ⟨b, hb, e⟩ := hp c hc
  exact h b hb e

/-! ## Examples -/

example : shown exNet (.str "AC") = .ok (.unit (some "MWh_el")) ∧ shown exNet (.list ["AC", "heat"]) = .ok .dependent ∧ shown exNet .all = .ok .dependent ∧
    shown exNet (.list ["AC", "H2"]) = .error (.unknown ["H2"]) ∧ shown exNet (.list []) = .error .item := by decide +kernel

def exLink : Asset := ⟨"l", fun c => if c = "bus0" then some "b1" else if c = "bus1" then some "b2" else none, true, fun _ => true⟩

example : exNet.busAttr "unit" "b1" = some "MWh_el" :=
  unit_of_ports (fun _ _ => true) (s := .str "AC") (u := some "MWh_el") (by decide +kernel) (port := "0") (a := exLink) (by decide +kernel) (by decide +kernel)

end Verif.Stats.BalanceUnit
