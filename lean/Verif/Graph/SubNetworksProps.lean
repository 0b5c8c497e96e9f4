import Verif.Graph.SubNetworks
import Verif.Graph.Props
import Mathlib.Data.List.Perm.Basic
import Mathlib.Algebra.BigOperators.Group.List.Basic

/-!
# C139: the tables of the sub-networks split the tables of the network
-/

namespace Verif.Graph.Sub

open Verif.Graph

variable {V : Type}

/-! ## What the user means -/

/-- The table of class `c` of sub-network `s` has a row named `x`. -/
def Shows (n : Net V) (s : Nat) (c : String) (x : Name) : Prop := ∃ r, static n s c = .ok r ∧ x ∈ r.index

/-- The classes a network has are known by their names. -/
structure Wf (n : Net V) : Prop where
  classes : (allClasses n).Nodup
  buses : (n.buses.map (·.name)).Nodup
  branches : ∀ t ∈ n.passive, (t.rows.map (·.branch.name)).Nodup
  ports : ∀ t ∈ n.ports, (t.rows.map (·.name)).Nodup

/-- In one sub-network and in no other. -/
def InOne (subs : List Nat) (P : Nat → Prop) : Prop := ∃ s ∈ subs, P s ∧ ∀ s' ∈ subs, P s' → s' = s

/-! ## What `determine_network_topology` leaves -/

theorem topology_labels {buses : List Name} {ts : List Table} {period : Option Int} {skip : Bool} {T : Topology}
    (h : topology buses ts period skip = .ok T) :
    T.subNetworks.Nodup ∧ (skip = false → ∀ x ∈ buses, T.bus x ∈ T.subNetworks) ∧
      ∀ b, T.branch b = if period.isSome && !b.isActive period then none else some (T.bus b.bus0) := by
  unfold topology at h
  split at h
  · simp at h
  · simp only [Except.ok.injEq] at h
    subst h
    refine ⟨List.Nodup.filter _ List.nodup_range, ?_, fun b => rfl⟩
    rintro rfl x hx
    simp only [Bool.false_and, Bool.not_false, List.filter_true, List.mem_range]
    exact labels_lt (List.idxOf_lt_length_of_mem hx)

/-- The parts of a network whose sub-networks were determined. -/
theorem determine_parts {n n' : Net V} {period : Option Int} {skip : Bool} {subs : List Nat}
    (h : determine n period skip = .ok (subs, n')) :
    ∃ T, topology (n.buses.map (·.name)) (tables n) period skip = .ok T ∧ subs = T.subNetworks ∧
      n'.buses = n.buses.map (fun b => { b with sub := some (T.bus b.name) }) ∧
      n'.passive = n.passive.map (fun t => { t with rows := t.rows.map (fun b =>
        { b with sub := if b.branch.bus0 ∈ n.buses.map (·.name) then T.branch b.branch else none }) }) ∧
      n'.ports = n.ports ∧ n'.others = n.others ∧ n'.series = n.series := by
  unfold determine at h
  split at h
  · simp at h
  · rename_i T hT
    simp only [Except.ok.injEq, Prod.mk.injEq] at h
    obtain ⟨rfl, rfl⟩ := h
    exact ⟨T, hT, rfl, rfl, rfl, rfl, rfl, rfl⟩

theorem find_unique {R : Type} {l : List (Of R)} (hnd : (l.map (·.cls)).Nodup) {t : Of R} (ht : t ∈ l) :
    l.find? (fun u => u.cls = t.cls) = some t := by
  induction l with
  | nil => cases ht
  | cons a l ih =>
    rw [List.map_cons, List.nodup_cons] at hnd
    rcases List.mem_cons.mp ht with rfl | ht
    · simp
    · have : a.cls ≠ t.cls := fun h => hnd.1 (h ▸ List.mem_map_of_mem (f := (·.cls)) ht)
      rw [List.find?_cons_of_neg (by simpa using this)]
      exact ih hnd.2 ht

theorem find_none {R : Type} {l : List (Of R)} {c : String} (h : c ∉ l.map (·.cls)) : l.find? (fun u => u.cls = c) = none := by
  rw [List.find?_eq_none]
  intro u hu hc
  exact h (List.mem_map.mpr ⟨u, hu, by simpa using hc⟩)

theorem static_bus (n : Net V) (s : Nat) : static n s "Bus" = .ok (.buses (busView n s)) := by simp [static]

theorem static_passive {n : Net V} (hw : (allClasses n).Nodup) {t : Of BranchRow} (ht : t ∈ n.passive) (s : Nat) :
    static n s t.cls = .ok (.branches (branchView t s)) := by
  unfold allClasses at hw
  rw [List.nodup_cons, List.nodup_append, List.nodup_append] at hw
  have hb : t.cls ≠ "Bus" := fun h => hw.1 (by
    rw [← h]; exact List.mem_append_left _ (List.mem_append_left _ (List.mem_map_of_mem (f := (·.cls)) ht)))
  unfold static
  rw [if_neg hb, find_unique hw.2.1.1 ht]

theorem static_port {n : Net V} (hw : (allClasses n).Nodup) {t : Of PortRow} (ht : t ∈ n.ports) (s : Nat) :
    static n s t.cls = .ok (.ports (portView n t s)) := by
  unfold allClasses at hw
  rw [List.nodup_cons, List.nodup_append, List.nodup_append] at hw
  have hm := List.mem_map_of_mem (f := (·.cls)) ht
  have hb : t.cls ≠ "Bus" := fun h => hw.1 (by
    rw [← h]; exact List.mem_append_left _ (List.mem_append_right _ hm))
  have hp : t.cls ∉ n.passive.map (·.cls) := fun h => hw.2.1.2.2 _ h _ hm rfl
  unfold static
  rw [if_neg hb, find_none hp, find_unique hw.2.1.2.1 ht]

/-- No other class can be looked at through a sub-network. -/
theorem static_other {n : Net V} (hw : (allClasses n).Nodup) {t : Of Name} (ht : t ∈ n.others) (s : Nat) :
    static n s t.cls = .error .valueError := by
  unfold allClasses at hw
  rw [List.nodup_cons, List.nodup_append, List.nodup_append] at hw
  have hm := List.mem_map_of_mem (f := (·.cls)) ht
  have hb : t.cls ≠ "Bus" := fun h => hw.1 (by rw [← h]; exact List.mem_append_right _ hm)
  have hp : t.cls ∉ n.passive.map (·.cls) := fun h => hw.2.2.2 _ (List.mem_append_left _ h) _ hm rfl
  have hq : t.cls ∉ n.ports.map (·.cls) := fun h => hw.2.2.2 _ (List.mem_append_right _ h) _ hm rfl
  have ho : n.others.any (fun u => u.cls = t.cls) = true := List.any_eq_true.mpr ⟨t, ht, by simp⟩
  unfold static
  rw [if_neg hb, find_none hp, find_none hq, ho]
  rfl

theorem determine_classes {n n' : Net V} {period : Option Int} {skip : Bool} {subs : List Nat}
    (h : determine n period skip = .ok (subs, n')) : allClasses n' = allClasses n := by
  obtain ⟨T, -, -, -, hp, hq, ho, -⟩ := determine_parts h
  unfold allClasses
  rw [hp, hq, ho, List.map_map]
  rfl

theorem shows_bus {n : Net V} {s : Nat} {x : Name} : Shows n s "Bus" x ↔ ∃ b ∈ n.buses, b.name = x ∧ b.sub = some s := by
  unfold Shows
  rw [static_bus]
  simp only [Except.ok.injEq, exists_eq_left', Rows.index, busView, List.mem_map, List.mem_filter, beq_iff_eq]
  constructor
  · rintro ⟨b, ⟨hb, hs⟩, rfl⟩; exact ⟨b, hb, rfl, hs⟩
  · rintro ⟨b, hb, rfl, hs⟩; exact ⟨b, ⟨hb, hs⟩, rfl⟩

theorem shows_port {n : Net V} (hw : (allClasses n).Nodup) {t : Of PortRow} (ht : t ∈ n.ports) {s : Nat} {x : Name} :
    Shows n s t.cls x ↔ ∃ r ∈ t.rows, r.name = x ∧ Shows n s "Bus" r.bus := by
  unfold Shows
  rw [static_port hw ht, static_bus]
  simp only [Except.ok.injEq, exists_eq_left', Rows.index, portView, List.mem_map, List.mem_filter, decide_eq_true_eq]
  constructor
  · rintro ⟨b, ⟨hb, hs⟩, rfl⟩; exact ⟨b, hb, rfl, hs⟩
  · rintro ⟨b, hb, rfl, hs⟩; exact ⟨b, ⟨hb, hs⟩, rfl⟩

theorem shows_branch {n : Net V} (hw : (allClasses n).Nodup) {t : Of BranchRow} (ht : t ∈ n.passive) {s : Nat} {x : Name} :
    Shows n s t.cls x ↔ ∃ b ∈ t.rows, b.branch.name = x ∧ b.sub = some s := by
  unfold Shows
  rw [static_passive hw ht]
  simp only [Except.ok.injEq, exists_eq_left', Rows.index, branchView, List.mem_map, List.mem_filter, beq_iff_eq]
  constructor
  · rintro ⟨b, ⟨hb, hs⟩, rfl⟩; exact ⟨b, hb, rfl, hs⟩
  · rintro ⟨b, hb, rfl, hs⟩; exact ⟨b, ⟨hb, hs⟩, rfl⟩

/-- Where buses are shown. -/
theorem determined_bus {n n' : Net V} {T : Topology}
    (hb : n'.buses = n.buses.map (fun b => { b with sub := some (T.bus b.name) })) {s : Nat} {x : Name} :
    Shows n' s "Bus" x ↔ x ∈ n.buses.map (·.name) ∧ T.bus x = s := by
  rw [shows_bus, hb]
  simp only [List.mem_map]
  constructor
  · rintro ⟨b, ⟨a, ha, rfl⟩, rfl, hs⟩
    exact ⟨⟨a, ha, rfl⟩, by simpa using hs⟩
  · rintro ⟨⟨a, ha, rfl⟩, hs⟩
    exact ⟨_, ⟨a, ha, rfl⟩, rfl, by simpa using hs⟩

/-! ## Every row in one sub-network -/

/-- **C139.** Every bus is shown by one sub-network and no other. -/
theorem bus_once {n n' : Net V} {period : Option Int} {subs : List Nat} (h : determine n period false = .ok (subs, n')) :
    ∀ b ∈ n.buses, InOne subs (fun s => Shows n' s "Bus" b.name) := by
  obtain ⟨T, hT, rfl, hb, -⟩ := determine_parts h
  obtain ⟨-, hin, -⟩ := topology_labels hT
  intro b hbm
  have hm : b.name ∈ n.buses.map (·.name) := List.mem_map_of_mem (f := (·.name)) hbm
  refine ⟨T.bus b.name, hin rfl _ hm, (determined_bus hb).mpr ⟨hm, rfl⟩, fun s' _ hs' => ((determined_bus hb).mp hs').2.symm⟩

/-- **C139.** Every one-port at a bus of the network is shown by one sub-network and no other: by that of its bus. -/
theorem port_once {n n' : Net V} {period : Option Int} {subs : List Nat} (hw : Wf n) (h : determine n period false = .ok (subs, n')) :
    ∀ t ∈ n.ports, ∀ r ∈ t.rows, r.bus ∈ n.buses.map (·.name) → InOne subs (fun s => Shows n' s t.cls r.name) ∧
      ∀ s, Shows n' s t.cls r.name ↔ Shows n' s "Bus" r.bus := by
  have hcl := determine_classes h
  obtain ⟨T, hT, rfl, hb, -, hq, -⟩ := determine_parts h
  obtain ⟨-, hin, -⟩ := topology_labels hT
  intro t ht r hr hbus
  have ht' : t ∈ n'.ports := hq ▸ ht
  have hiff : ∀ s, Shows n' s t.cls r.name ↔ Shows n' s "Bus" r.bus := by
    intro s
    rw [shows_port (hcl ▸ hw.classes) ht']
    constructor
    · rintro ⟨r', hr', hn, hs⟩
      rwa [← List.inj_on_of_nodup_map (hw.ports t ht) hr' hr hn]
    · exact fun hs => ⟨r, hr, rfl, hs⟩
  refine ⟨⟨T.bus r.bus, hin rfl _ hbus, (hiff _).mpr ((determined_bus hb).mpr ⟨hbus, rfl⟩), ?_⟩, hiff⟩
  intro s' _ hs'
  exact ((determined_bus hb).mp ((hiff s').mp hs')).2.symm

/-- **C139.** A one-port at a bus the network does not have is shown by none. -/
theorem port_lost {n n' : Net V} {period : Option Int} {skip : Bool} {subs : List Nat} (hw : Wf n)
    (h : determine n period skip = .ok (subs, n')) :
    ∀ t ∈ n.ports, ∀ r ∈ t.rows, r.bus ∉ n.buses.map (·.name) → ∀ s, ¬ Shows n' s t.cls r.name := by
  have hcl := determine_classes h
  obtain ⟨T, hT, rfl, hb, -, hq, -⟩ := determine_parts h
  intro t ht r hr hbus s hs
  rw [shows_port (hcl ▸ hw.classes) (hq ▸ ht)] at hs
  obtain ⟨r', hr', hn, hs⟩ := hs
  rw [List.inj_on_of_nodup_map (hw.ports t ht) hr' hr hn] at hs
  exact hbus ((determined_bus hb).mp hs).1

/-- Where branches are shown. -/
theorem determined_branch {n n' : Net V} {period : Option Int} {skip : Bool} {subs : List Nat} (hw : Wf n)
    (h : determine n period skip = .ok (subs, n')) {t : Of BranchRow} (ht : t ∈ n.passive) {b : BranchRow} (hb : b ∈ t.rows) (s : Nat) :
    Shows n' s t.cls b.branch.name ↔ (period = none ∨ ActiveIn period b.branch) ∧ Shows n' s "Bus" b.branch.bus0 := by
  have hcl := determine_classes h
  obtain ⟨T, hT, rfl, hbus, hp, -⟩ := determine_parts h
  obtain ⟨-, -, hbr⟩ := topology_labels hT
  have ht' := List.mem_map_of_mem (f := fun t : Of BranchRow => { t with rows := t.rows.map (fun b : BranchRow =>
        { b with sub := if b.branch.bus0 ∈ n.buses.map (fun x : BusRow => x.name) then T.branch b.branch else none }) }) ht
  rw [← hp] at ht'
  have hsh := shows_branch (hcl ▸ hw.classes) ht' (s := s) (x := b.branch.name)
  simp only at hsh
  rw [hsh, determined_bus hbus]
  have hcase : (if b.branch.bus0 ∈ n.buses.map (fun x : BusRow => x.name) then T.branch b.branch else none) = some s ↔
      (period = none ∨ ActiveIn period b.branch) ∧ b.branch.bus0 ∈ n.buses.map (·.name) ∧ T.bus b.branch.bus0 = s := by
    rw [hbr, ← isActive_iff]
    cases period with
    | none => simp
    | some p => cases b.branch.isActive (some p) <;> simp
  rw [← hcase]
  constructor
  · rintro ⟨b', hb', hn, hs⟩
    obtain ⟨a, ha, rfl⟩ := List.mem_map.mp hb'
    have : a = b := List.inj_on_of_nodup_map (hw.branches t ht) ha hb hn
    subst this
    exact hs
  · exact fun hs => ⟨_, List.mem_map_of_mem hb, rfl, hs⟩

/-- **C139.** Every line and transformer is shown by one sub-network and no other: by that of its `bus0`; one that is not in service in
the investment period asked for is shown by none. -/
theorem branch_once {n n' : Net V} {period : Option Int} {subs : List Nat} (hw : Wf n) (h : determine n period false = .ok (subs, n')) :
    ∀ t ∈ n.passive, ∀ b ∈ t.rows,
      ((period = none ∨ ActiveIn period b.branch) → b.branch.bus0 ∈ n.buses.map (·.name) →
        InOne subs (fun s => Shows n' s t.cls b.branch.name)) ∧
      (period ≠ none → ¬ ActiveIn period b.branch → ∀ s, ¬ Shows n' s t.cls b.branch.name) := by
  intro t ht b hb
  have hd := fun s => determined_branch hw h ht hb s
  constructor
  · intro ha hbus
    obtain ⟨a, ham, han⟩ := List.mem_map.mp hbus
    obtain ⟨s, hs, hsh, hu⟩ := bus_once h a ham
    rw [han] at hsh hu
    exact ⟨s, hs, (hd s).mpr ⟨ha, hsh⟩, fun s' hs' h' => hu s' hs' ((hd s').mp h').2⟩
  · intro hp hna s hs
    rcases ((hd s).mp hs).1 with h | h
    · exact hp h
    · exact hna h

/-! ## The tables put together -/

theorem flat_perm {R : Type} (subs : List Nat) (hnd : subs.Nodup) (l : List R) (f : R → Option Nat)
    (h : ∀ a ∈ l, ∃ s ∈ subs, f a = some s) : (subs.flatMap (fun s => l.filter (fun a => f a == some s))).Perm l := by
  classical
  rw [List.perm_iff_count]
  intro a
  rw [List.count_flatMap]
  by_cases ha : a ∈ l
  · obtain ⟨s, hs, hf⟩ := h a ha
    have : (subs.map (List.count a ∘ fun s => l.filter (fun a => f a == some s))) =
        subs.map (fun u => if u = s then l.count a else 0) := by
      apply List.map_congr_left
      intro u _
      simp only [Function.comp_apply]
      split
      · rename_i hu
        subst hu
        exact List.count_filter (by simp [hf])
      · rename_i hu
        rw [List.count_eq_zero]
        intro hm
        rw [List.mem_filter, hf] at hm
        simp only [beq_iff_eq, Option.some.injEq] at hm
        exact hu hm.2.symm
    rw [this]
    clear this h
    induction subs with
    | nil => cases hs
    | cons u subs ih =>
      rw [List.nodup_cons] at hnd
      rw [List.map_cons, List.sum_cons]
      rcases List.mem_cons.mp hs with rfl | hs
      · have : (subs.map (fun u => if u = s then l.count a else 0)).sum = 0 := by
          apply List.sum_eq_zero
          intro x hx
          obtain ⟨u, hu, rfl⟩ := List.mem_map.mp hx
          rw [if_neg]
          rintro rfl
          exact hnd.1 hu
        simp [this]
      · rw [ih hnd.2 hs, if_neg, Nat.zero_add]
        rintro rfl
        exact hnd.1 hs
  · rw [List.count_eq_zero.mpr ha, List.sum_eq_zero]
    intro x hx
    obtain ⟨u, _, rfl⟩ := List.mem_map.mp hx
    simp only [Function.comp_apply]
    rw [List.count_eq_zero]
    exact fun hm => ha (List.mem_of_mem_filter hm)

/-- **C139.** The bus tables of all sub-networks together are the bus table of the network, and every one is in its order. -/
theorem buses_together {n n' : Net V} {period : Option Int} {subs : List Nat} (h : determine n period false = .ok (subs, n')) :
    (subs.flatMap (busView n')).Perm n'.buses ∧ ∀ s, (busView n' s).Sublist n'.buses := by
  obtain ⟨T, hT, rfl, hb, -⟩ := determine_parts h
  obtain ⟨hnd, hin, -⟩ := topology_labels hT
  refine ⟨flat_perm _ hnd _ (fun b : BusRow => b.sub) ?_, fun s => List.filter_sublist⟩
  intro b hbm
  rw [hb] at hbm
  obtain ⟨a, ha, rfl⟩ := List.mem_map.mp hbm
  exact ⟨_, hin rfl _ (List.mem_map_of_mem (f := (·.name)) ha), rfl⟩

/-- **C139.** So it is with every class of one-ports, if all stand at buses of the network. -/
theorem ports_together {n n' : Net V} {period : Option Int} {subs : List Nat} (h : determine n period false = .ok (subs, n'))
    {t : Of PortRow} (hk : ∀ r ∈ t.rows, r.bus ∈ n.buses.map (·.name)) :
    (subs.flatMap (portView n' t)).Perm t.rows ∧ ∀ s, (portView n' t s).Sublist t.rows := by
  obtain ⟨T, hT, rfl, hb, -⟩ := determine_parts h
  obtain ⟨hnd, hin, -⟩ := topology_labels hT
  refine ⟨?_, fun s => List.filter_sublist⟩
  have hv : ∀ s, portView n' t s = t.rows.filter (fun r => some (T.bus r.bus) == some s) := by
    intro s
    unfold portView
    apply List.filter_congr
    intro r hr
    have := determined_bus (n := n) hb (s := s) (x := r.bus)
    unfold Shows at this
    rw [static_bus] at this
    simp only [Except.ok.injEq, exists_eq_left', Rows.index] at this
    rw [Bool.eq_iff_iff, decide_eq_true_iff, this, beq_iff_eq, Option.some.injEq]
    exact ⟨fun h => h.2, fun h => ⟨hk r hr, h⟩⟩
  rw [show portView n' t = _ from funext hv]
  exact flat_perm _ hnd _ (fun r : PortRow => some (T.bus r.bus)) (fun r hr => ⟨_, hin rfl _ (hk r hr), rfl⟩)

/-- **C139.** And with every class of passive branches. -/
theorem branches_together {n n' : Net V} {subs : List Nat} (h : determine n none false = .ok (subs, n'))
    (hk : ∀ t ∈ n.passive, ∀ b ∈ t.rows, b.branch.bus0 ∈ n.buses.map (·.name)) :
    ∀ t ∈ n'.passive, (subs.flatMap (branchView t)).Perm t.rows ∧ ∀ s, (branchView t s).Sublist t.rows := by
  obtain ⟨T, hT, rfl, hb, hp, -⟩ := determine_parts h
  obtain ⟨hnd, hin, hbr⟩ := topology_labels hT
  intro t' ht'
  rw [hp] at ht'
  obtain ⟨t, ht, rfl⟩ := List.mem_map.mp ht'
  refine ⟨flat_perm _ hnd _ (fun b : BranchRow => b.sub) ?_, fun s => List.filter_sublist⟩
  intro b hbm
  obtain ⟨a, ha, rfl⟩ := List.mem_map.mp hbm
  have hm := hk t ht a ha
  refine ⟨T.bus a.branch.bus0, hin rfl _ hm, ?_⟩
  simp only [hm, if_true, hbr]
  simp

/-! ## What is shown together -/

/-- **C139 (partial: the class visited last has a branch in service, as in C20).** Two buses are shown by one sub-network iff branches
in service join them, and a branch in service is shown together with both its ends. With `skip_isolated_buses` the buses joined to no
other are shown by none. -/
theorem shown_together_partial {n : Net V} (hw : Wf n) (period : Option Int) (skip : Bool)
    (hends : KnownEnds (n.buses.map (·.name)) (tables n) period) (hlast : LastTableActive (tables n) period) :
    ∃ subs n', determine n period skip = .ok (subs, n') ∧
      (∀ a ∈ n.buses, ∀ b ∈ n.buses, (∃ s, Shows n' s "Bus" a.name ∧ Shows n' s "Bus" b.name) ↔ Path (tables n) period a.name b.name) ∧
      (∀ t ∈ n.passive, ∀ b ∈ t.rows, ActiveIn period b.branch → ∀ s,
        (Shows n' s t.cls b.branch.name ↔ Shows n' s "Bus" b.branch.bus0) ∧
        (Shows n' s t.cls b.branch.name ↔ Shows n' s "Bus" b.branch.bus1)) ∧
      (∀ a ∈ n.buses, (∃ s ∈ subs, Shows n' s "Bus" a.name) ↔
        (skip = true → ∃ y ∈ n.buses, y.name ≠ a.name ∧ Path (tables n) period a.name y.name)) := by
  obtain ⟨T, hT, hpath, -, hsubs, hbr⟩ := topology_components_partial _ hw.buses (tables n) period skip hends hlast
  have hdet : ∃ subs n', determine n period skip = .ok (subs, n') := by
    unfold determine
    rw [hT]
    exact ⟨_, _, rfl⟩
  obtain ⟨subs, n', hdet⟩ := hdet
  obtain ⟨T', hT', rfl, hb, -⟩ := determine_parts hdet
  rw [hT, Except.ok.injEq] at hT'
  subst hT'
  have hin : ∀ a ∈ n.buses, a.name ∈ n.buses.map (·.name) := fun a ha => List.mem_map_of_mem (f := (·.name)) ha
  refine ⟨_, n', hdet, ?_, ?_, ?_⟩
  · intro a ha b hbm
    rw [← hpath _ (hin a ha) _ (hin b hbm)]
    constructor
    · rintro ⟨s, h1, h2⟩
      rw [((determined_bus hb).mp h1).2, ((determined_bus hb).mp h2).2]
    · intro he
      exact ⟨T.bus a.name, (determined_bus hb).mpr ⟨hin a ha, rfl⟩, (determined_bus hb).mpr ⟨hin b hbm, he.symm⟩⟩
  · intro t ht b hbm hact s
    have htab : (⟨t.cls, t.rows.map (·.branch)⟩ : Table) ∈ tables n := List.mem_map_of_mem ht
    have hrow : b.branch ∈ t.rows.map (·.branch) := List.mem_map_of_mem (f := (·.branch)) hbm
    obtain ⟨e0, e1⟩ := hends _ htab _ hrow hact
    obtain ⟨h0, h1⟩ := (hbr _ htab _ hrow).1 hact
    have hsame : T.bus b.branch.bus0 = T.bus b.branch.bus1 := by
      rw [h0] at h1
      exact Option.some.inj h1
    have hd := determined_branch hw hdet ht hbm s
    rw [determined_bus hb] at hd ⊢
    rw [determined_bus hb, hd, hsame]
    exact ⟨⟨fun h => h.2, fun h => ⟨.inr hact, h⟩⟩, ⟨fun h => ⟨e1, h.2.2⟩, fun h => ⟨.inr hact, e0, h.2⟩⟩⟩
  · intro a ha
    constructor
    · rintro ⟨s, hs, hsh⟩ hskip
      obtain ⟨x, hx, hxs, hsk⟩ := (hsubs s).mp hs
      have hax := (determined_bus hb).mp hsh
      obtain ⟨y, hy, hyx, hp⟩ := hsk hskip
      have hap : Path (tables n) period a.name x := (hpath _ (hin a ha) _ hx).mp (hax.2.trans hxs.symm)
      by_cases hxa : x = a.name
      · subst hxa
        obtain ⟨b, hbm, rfl⟩ := List.mem_map.mp hy
        exact ⟨b, hbm, hyx, hp⟩
      · obtain ⟨b, hbm, rfl⟩ := List.mem_map.mp hx
        exact ⟨b, hbm, hxa, hap⟩
    · intro hsk
      refine ⟨T.bus a.name, (hsubs _).mpr ⟨a.name, hin a ha, rfl, fun hskip => ?_⟩, (determined_bus hb).mpr ⟨hin a ha, rfl⟩⟩
      obtain ⟨y, hy, hya, hp⟩ := hsk hskip
      exact ⟨y.name, hin y hy, hya, hp⟩

/-! ## Series -/

/-- **C139.** The series of a sub-network: every attribute has the columns of the network whose component the sub-network shows, with
the values of the network, in the order of the rows. -/
theorem series_shown {n : Net V} {s : Nat} {c : String} {r : Rows} (hr : static n s c = .ok r) :
    ∃ fs, dynamic n s c = .ok fs ∧ fs.map (·.attr) = (n.series c).map (·.attr) ∧
      ∀ i (h : i < fs.length) (h' : i < (n.series c).length), ((n.series c)[i].cols.map (·.1)).Nodup →
        (∀ e, e ∈ fs[i].cols ↔ e ∈ (n.series c)[i].cols ∧ Shows n s c e.1) ∧ (fs[i].cols.map (·.1)).Sublist r.index := by
  refine ⟨(n.series c).map (pick r.index), by simp [dynamic, hr], by simp [pick, Function.comp_def], ?_⟩
  intro i h h' hnd
  rw [List.getElem_map]
  generalize (n.series c)[i] = f at hnd
  have hfind : ∀ x e, f.cols.find? (fun e => e.1 = x) = some e ↔ e ∈ f.cols ∧ e.1 = x := by
    intro x e
    constructor
    · intro hf
      exact ⟨List.mem_of_find?_eq_some hf, by simpa using List.find?_some hf⟩
    · rintro ⟨he, rfl⟩
      cases hf : f.cols.find? (fun e' => e'.1 = e.1) with
      | none =>
        rw [List.find?_eq_none] at hf
        exact absurd (by simp) (hf e he)
      | some e' =>
        have h1 : e'.1 = e.1 := by simpa using List.find?_some hf
        rw [List.inj_on_of_nodup_map hnd (List.mem_of_find?_eq_some hf) he h1]
  constructor
  · intro e
    unfold pick Shows
    simp only [List.mem_filterMap, List.mem_filter, decide_eq_true_eq]
    rw [hr]
    simp only [Except.ok.injEq, exists_eq_left']
    constructor
    · rintro ⟨x, ⟨hx, -⟩, hf⟩
      obtain ⟨he, rfl⟩ := (hfind x e).mp hf
      exact ⟨he, hx⟩
    · rintro ⟨he, hx⟩
      exact ⟨e.1, ⟨hx, List.mem_map_of_mem (f := (·.1)) he⟩, (hfind _ e).mpr ⟨he, rfl⟩⟩
  · unfold pick
    simp only
    have : (((r.index.filter (fun x => decide (x ∈ f.cols.map (·.1)))).filterMap (fun x => f.cols.find? (fun e => e.1 = x))).map (·.1)) =
        r.index.filter (fun x => decide (x ∈ f.cols.map (·.1))) := by
      rw [List.map_filterMap]
      have hall : ∀ x ∈ r.index.filter (fun x => decide (x ∈ f.cols.map (·.1))),
          (f.cols.find? (fun e => e.1 = x)).map (·.1) = some x := by
        intro x hx
        have hx := (List.mem_filter.mp hx).2
        simp only [decide_eq_true_eq] at hx
        obtain ⟨e, he, rfl⟩ := List.mem_map.mp hx
        rw [(hfind _ e).mpr ⟨he, rfl⟩]
        rfl
      rw [List.filterMap_congr hall, List.filterMap_some]
    rw [this]
    exact List.filter_sublist

/-! ## Branches -/

/-- **C139.** `branches` are the rows of the passive branches a sub-network shows, and `branches_i` their names; with `active_only`
those of the rows marked active. -/
theorem branches_shown {n : Net V} (s : Nat) :
    branches n s = n.passive.flatMap (fun t => (branchView t s).map (fun b => (t.cls, b))) ∧
    branchesIndex n s false = (branches n s).map (fun b => (b.1, b.2.branch.name)) ∧
    branchesIndex n s true = ((branches n s).filter (fun b => b.2.branch.active)).map (fun b => (b.1, b.2.branch.name)) := by
  have hb : branches n s = n.passive.flatMap (fun t => (branchView t s).map (fun b => (t.cls, b))) := by
    unfold branches passiveBranches branchView
    rw [List.filter_flatMap]
    congr 1
    funext t
    rw [List.filter_map]
    rfl
  refine ⟨hb, ?_, ?_⟩
  · rw [hb]
    unfold branchesIndex
    simp [List.map_flatMap, Function.comp_def]
  · rw [hb]
    unfold branchesIndex
    rw [List.filter_flatMap, List.map_flatMap]
    congr 1
    funext t
    rw [List.filter_map, List.map_map]
    simp [Function.comp_def]

/-! ## Walking over the classes -/

/-- **C139.** A walk over classes of buses, passive branches and one-ports gives those with a row in the sub-network. -/
theorem iterate_supported {n : Net V} {s : Nat} (cs : List String) (h : ∀ c ∈ cs, ∃ r, static n s c = .ok r) :
    (iterate n s true cs).2 = none ∧ ∀ c, c ∈ (iterate n s true cs).1 ↔ c ∈ cs ∧ ∃ x, Shows n s c x := by
  induction cs with
  | nil => simp [iterate]
  | cons c cs ih =>
    obtain ⟨r, hr⟩ := h c List.mem_cons_self
    obtain ⟨ih1, ih2⟩ := ih (fun c hc => h c (List.mem_cons_of_mem _ hc))
    have hshow : (∃ x, Shows n s c x) ↔ r.index ≠ [] := by
      unfold Shows
      rw [hr]
      simp only [Except.ok.injEq, exists_eq_left']
      constructor
      · rintro ⟨x, hx⟩ he; rw [he] at hx; cases hx
      · exact fun he => List.exists_mem_of_ne_nil _ he
    unfold iterate
    simp only [if_true, hr]
    by_cases hi : r.index = []
    · have : ¬ ∃ x, Shows n s c x := fun hx => (hshow.mp hx) hi
      simp only [hi, List.isEmpty_nil, if_true, ih1, ih2, true_and]
      intro d
      constructor
      · exact fun hd => ⟨List.mem_cons_of_mem _ hd.1, hd.2⟩
      · rintro ⟨hd, hx⟩
        rcases List.mem_cons.mp hd with rfl | hd
        · exact absurd hx this
        · exact ⟨hd, hx⟩
    · have he : r.index.isEmpty = false := by simpa using hi
      simp only [he, Bool.false_eq_true, if_false, ih1, true_and]
      intro d
      rw [List.mem_cons, List.mem_cons, ih2]
      constructor
      · rintro (rfl | hd)
        · exact ⟨.inl rfl, hshow.mpr hi⟩
        · exact ⟨.inr hd.1, hd.2⟩
      · rintro ⟨rfl | hd, hx⟩
        · exact .inl rfl
        · exact .inr ⟨hd, hx⟩

theorem iterate_stops {n : Net V} {s : Nat} {c : String} (cs : List String) (hc : c ∈ cs) (h : ∃ e, static n s c = .error e) :
    (iterate n s true cs).2 ≠ none := by
  induction cs with
  | nil => cases hc
  | cons d cs ih =>
    unfold iterate
    simp only [if_true]
    split
    · simp
    · rename_i r hr
      have hcd : c ≠ d := by
        rintro rfl
        obtain ⟨e, he⟩ := h
        rw [hr] at he
        cases he
      have := ih (List.mem_of_ne_of_mem hcd hc)
      split <;> simpa using this

/-- **C139 is violated by the default of `iterate_components`** (finding): over all classes, in whatever order they come, it ends with
an error as soon as the network has classes beside buses, passive branches and one-ports, and every network has them (carriers,
links, types). -/
theorem iterate_all_fails {n : Net V} (hw : Wf n) (s : Nat) (ho : n.others ≠ []) (cs : List String) (hcs : cs.Perm (allClasses n)) :
    (iterate n s true cs).2 ≠ none := by
  obtain ⟨t, ht⟩ := List.exists_mem_of_ne_nil _ ho
  apply iterate_stops (c := t.cls) _ _ ⟨_, static_other hw.classes ht s⟩
  rw [hcs.mem_iff]
  unfold allClasses
  exact List.mem_cons_of_mem _ (List.mem_append_right _ (List.mem_map_of_mem (f := (·.cls)) ht))

/-! ## Views -/

/-- **C139.** What a sub-network gives cannot be replaced or deleted through it. -/
theorem read_only (key : String) : delAttr key = .error .attributeError ∧
    (key = "static" ∨ key = "dynamic" → setAttr key = .error .attributeError) := by
  refine ⟨rfl, ?_⟩
  rintro (rfl | rfl) <;> decide

/-- **C139.** The tables are looked up when they are asked for: a one-port added at a bus a sub-network shows is shown at once. -/
theorem new_port {n : Net V} (hw : (allClasses n).Nodup) {t : Of PortRow} {ps qs : List (Of PortRow)} (hp : n.ports = ps ++ t :: qs)
    (r : PortRow) (s : Nat) (hb : Shows n s "Bus" r.bus) :
    Shows { n with ports := ps ++ { t with rows := t.rows ++ [r] } :: qs } s t.cls r.name := by
  have hcl : allClasses { n with ports := ps ++ { t with rows := t.rows ++ [r] } :: qs } = allClasses n := by
    unfold allClasses
    rw [hp]
    simp
  rw [shows_port (t := { t with rows := t.rows ++ [r] }) (by rw [hcl]; exact hw) (by simp)]
  refine ⟨r, by simp, rfl, ?_⟩
  rw [shows_bus] at hb ⊢
  exact hb

/-- **C139.** A bus added later has no sub-network until the topology is determined again: no sub-network shows it, and the others
show what they did. -/
theorem new_bus {n : Net V} (x : Name) (hx : x ∉ n.buses.map (·.name)) (s : Nat) :
    ¬ Shows { n with buses := n.buses ++ [⟨x, none⟩] } s "Bus" x ∧
    ∀ y, Shows { n with buses := n.buses ++ [⟨x, none⟩] } s "Bus" y ↔ Shows n s "Bus" y := by
  constructor
  · rw [shows_bus]
    rintro ⟨b, hb, rfl, hs⟩
    rcases List.mem_append.mp hb with hb | hb
    · exact hx (List.mem_map_of_mem (f := (·.name)) hb)
    · rw [List.mem_singleton] at hb
      rw [hb] at hs
      cases hs
  · intro y
    rw [shows_bus, shows_bus]
    constructor
    · rintro ⟨b, hb, rfl, hs⟩
      rcases List.mem_append.mp hb with hb | hb
      · exact ⟨b, hb, rfl, hs⟩
      · rw [List.mem_singleton] at hb
        subst hb
        cases hs
    · rintro ⟨b, hb, rfl, hs⟩
      exact ⟨b, List.mem_append_left _ hb, rfl, hs⟩

/-! ## An example -/

/-- Three buses, a line in service between the first two, a line out of service from the second to the third. -/
def exNet : Net Nat :=
  { buses := [⟨"a", none⟩, ⟨"b", none⟩, ⟨"c", none⟩]
    passive := [⟨"Line", [⟨{ name := "l", bus0 := "a", bus1 := "b" }, none⟩,
      ⟨{ name := "k", bus0 := "b", bus1 := "c", active := false }, none⟩]⟩, ⟨"Transformer", []⟩]
    ports := [⟨"Generator", [⟨"g", "c"⟩, ⟨"h", "a"⟩]⟩, ⟨"Load", [⟨"d", "b"⟩]⟩]
    others := [⟨"Carrier", ["AC"]⟩, ⟨"Link", []⟩]
    series := fun c => if c = "Generator" then [⟨"p_set", [("h", 5), ("g", 7)]⟩, ⟨"p", []⟩] else [] }

theorem exWf : Wf exNet := by
  constructor
  · decide
  · decide
  · decide
  · decide

def exSubs : List Nat := [0, 1]

/-- The network after `determine_network_topology`. -/
def exAfter : Net Nat :=
  { exNet with
    buses := [⟨"a", some 0⟩, ⟨"b", some 0⟩, ⟨"c", some 1⟩]
    passive := [⟨"Line", [⟨{ name := "l", bus0 := "a", bus1 := "b" }, some 0⟩,
      ⟨{ name := "k", bus0 := "b", bus1 := "c", active := false }, some 0⟩]⟩, ⟨"Transformer", []⟩] }

theorem ex_determine : determine exNet none false = .ok (exSubs, exAfter) := by rfl

example : InOne exSubs (fun s => Shows exAfter s "Generator" "g") :=
  (port_once exWf ex_determine _ List.mem_cons_self ⟨"g", "c"⟩ List.mem_cons_self (by decide)).1

example : KnownEnds (exNet.buses.map (·.name)) (tables exNet) none ∧ LastTableActive (tables exNet) none := by
  constructor
  · intro t ht b hb ha
    simp only [tables, exNet, List.map_cons, List.map_nil, List.mem_cons, List.not_mem_nil, or_false] at ht
    rcases ht with rfl | rfl
    · simp only [List.mem_cons, List.not_mem_nil, or_false] at hb
      rcases hb with rfl | rfl <;> decide
    · cases hb
  · unfold LastTableActive; decide

example : dynamic exAfter 0 "Generator" = .ok [⟨"p_set", [("h", 5)]⟩, ⟨"p", []⟩] := by decide +kernel

/-- **Finding.** Without an investment period, a line out of service is shown by the sub-network of its `bus0`, though this does not
show its other end. -/
theorem out_of_service_shown : Shows exAfter 0 "Line" "k" ∧ ¬ Shows exAfter 0 "Bus" "c" ∧
    ("Line", "k") ∈ branchesIndex exAfter 0 false ∧ ("Line", "k") ∉ branchesIndex exAfter 0 true := by
  refine ⟨⟨_, rfl, by decide⟩, ?_, by decide, by decide⟩
  rintro ⟨r, hr, hx⟩
  cases hr
  revert hx
  decide

end Verif.Graph.Sub
