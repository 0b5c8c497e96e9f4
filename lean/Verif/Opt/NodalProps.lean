import Verif.Opt.Nodal
import Mathlib.Tactic.Linarith
import Mathlib.Tactic.Ring
import Mathlib.Tactic.LinearCombination
import Mathlib.Data.List.Dedup
import Mathlib.Data.Rat.Defs
import Mathlib.Algebra.Order.Ring.Rat

/-!
# Nodal balance (C38, C39)
-/

namespace Verif.Opt.Nodal

variable {F : Type} [Field F] [LinearOrder F]

/-! ## Specification -/

/-- Contribution of a quantity at a bus. -/
def contrib (b at' : Name) (active : Bool) (x : F) : F := if at' = b ∧ active = true then x else 0

/-- Net power the components other than loads bring to bus `b`. -/
def supplied (n : Net F) (losses : Bool) (val : NVar → F) (b : Name) : F :=
  (n.gens.map (fun g => contrib b g.bus g.active (g.sign * val (.gen g.name)))).sum +
  (n.stores.map (fun g => contrib b g.bus g.active (g.sign * val (.store g.name)))).sum +
  (n.units.map (fun g => contrib b g.bus g.active
    (g.sign * (val (.dispatch g.name) - val (.charge g.name))))).sum +
  (n.lines.map (fun l =>
    contrib b l.bus0 l.active (- val (.line l.name) - if losses then val (.lineLoss l.name) / 2 else 0) +
    contrib b l.bus1 l.active (val (.line l.name) - if losses then val (.lineLoss l.name) / 2 else 0))).sum +
  (n.trafos.map (fun l =>
    contrib b l.bus0 l.active (- val (.trafo l.name) - if losses then val (.trafoLoss l.name) / 2 else 0) +
    contrib b l.bus1 l.active (val (.trafo l.name) - if losses then val (.trafoLoss l.name) / 2 else 0))).sum +
  (n.links.map (fun l =>
    contrib b l.bus0 l.active (- val (.link l.name)) +
    contrib b l.bus1 l.active (l.eff * val (.link l.name)) +
    (l.extra.map (fun e => contrib b e.1 l.active (e.2 * val (.link l.name)))).sum)).sum

/-- Power the active loads draw from bus `b` (the sign of a load is -1 by default). -/
def demanded (n : Net F) (b : Name) : F :=
  (n.loads.map (fun l => contrib b l.bus l.active (- (l.sign * l.pSet)))).sum

/-- Something other than a load in service is connected to the bus. -/
def Connected (n : Net F) (b : Name) : Prop :=
  (∃ g ∈ n.gens, g.bus = b ∧ g.active = true) ∨ (∃ g ∈ n.stores, g.bus = b ∧ g.active = true) ∨
  (∃ g ∈ n.units, g.bus = b ∧ g.active = true) ∨
  (∃ l ∈ n.lines, (l.bus0 = b ∨ l.bus1 = b) ∧ l.active = true) ∨
  (∃ l ∈ n.trafos, (l.bus0 = b ∨ l.bus1 = b) ∧ l.active = true) ∨
  (∃ l ∈ n.links, (l.bus0 = b ∨ l.bus1 = b ∨ ∃ e ∈ l.extra, e.1 = b) ∧ l.active = true)

/-! ## Sums -/

/-- Value of the terms at a bus, entry by entry. -/
def entryVal (val : NVar → F) (b : Name) (e : Entry F) : F := contrib b e.bus e.present (e.coef * val e.var)

omit [LinearOrder F] in
theorem lin_filter (val : NVar → F) (b : Name) (l : List (Entry F)) :
    lin val ((l.filter (fun e => decide (e.bus = b) && e.present)).map (fun e => (e.coef, e.var))) =
      (l.map (entryVal val b)).sum := by
  induction l with
  | nil => rfl
  | cons e t ih =>
    by_cases h : e.bus = b <;> cases hp : e.present <;>
      simp [h, hp, ih, entryVal, contrib]

omit [LinearOrder F] in
theorem sum_flatMap_map {α β : Type} (l : List α) (f : α → List β) (g : β → F) :
    ((l.flatMap f).map g).sum = (l.map (fun a => ((f a).map g).sum)).sum := by
  induction l with
  | nil => rfl
  | cons a t ih => simp [List.flatMap_cons, ih]

omit [LinearOrder F] in
theorem sum_map_add' {α : Type} (l : List α) (f g : α → F) :
    (l.map (fun a => f a + g a)).sum = (l.map f).sum + (l.map g).sum := by
  induction l with
  | nil => simp
  | cons a t ih => simp only [List.map_cons, List.sum_cons, ih]; ring

omit [LinearOrder F] in
theorem contrib_add (b c : Name) (a : Bool) (x y : F) :
    contrib b c a x + contrib b c a y = contrib b c a (x + y) := by
  unfold contrib; split <;> simp

omit [LinearOrder F] in
theorem extra_sum (val : NVar → F) (b : Name) (hb : b ≠ "") (nm : Name) (act : Bool)
    (l : List (Name × F)) :
    (((l.filter (fun e => decide (e.1 ≠ ""))).map
        (fun e => (⟨e.1, e.2, .link nm, act⟩ : Entry F))).map (entryVal val b)).sum =
      (l.map (fun e => contrib b e.1 act (e.2 * val (.link nm)))).sum := by
  induction l with
  | nil => rfl
  | cons e t ih =>
    by_cases h : e.1 = ""
    · have : contrib b e.1 act (e.2 * val (.link nm)) = 0 := by
        unfold contrib; rw [if_neg]; rintro ⟨h1, -⟩; exact hb (h1.symm.trans h)
      simp only [List.map_cons, List.sum_cons, this, zero_add, ← ih]
      rw [List.filter_cons_of_neg (by simp [h])]
    · rw [List.filter_cons_of_pos (by simp [h])]
      simp only [List.map_cons, List.sum_cons, ih]
      rfl

omit [LinearOrder F] in
theorem lin_termsAt (n : Net F) (losses : Bool) (val : NVar → F) (b : Name) (hb : b ≠ "") :
    lin val (termsAt n losses b) = supplied n losses val b := by
  unfold termsAt
  rw [lin_filter]
  have hunits : (n.units.map (fun g => contrib b g.bus g.active
      (g.sign * (val (.dispatch g.name) - val (.charge g.name))))).sum =
      (n.units.map (fun g => contrib b g.bus g.active (1 * g.sign * val (.dispatch g.name)))).sum +
      (n.units.map (fun g => contrib b g.bus g.active (-1 * g.sign * val (.charge g.name)))).sum := by
    rw [← sum_map_add']
    congr 1
    apply List.map_congr_left
    intro g _
    rw [contrib_add]; congr 1; ring
  have hbranch : ∀ (ls : List Branch) (mk mk' : Name → NVar),
      (ls.map (fun l =>
        contrib b l.bus0 l.active (- val (mk l.name) - if losses then val (mk' l.name) / 2 else 0) +
        contrib b l.bus1 l.active (val (mk l.name) - if losses then val (mk' l.name) / 2 else 0))).sum =
      ((ls.flatMap (branchEntries mk)).map (entryVal val b)).sum +
      (if losses then ((ls.flatMap (lossEntries mk')).map (entryVal val b)).sum else 0) := by
    intro ls mk mk'
    rw [sum_flatMap_map, sum_flatMap_map]
    cases losses with
    | false =>
      simp only [Bool.false_eq_true, if_false, add_zero, sub_zero]
      congr 1
      apply List.map_congr_left
      intro l _
      simp [branchEntries, entryVal]
    | true =>
      simp only [if_true]
      rw [← sum_map_add']
      congr 1
      apply List.map_congr_left
      intro l _
      simp only [branchEntries, lossEntries, entryVal, List.map_cons, List.map_nil, List.sum_cons,
        List.sum_nil, add_zero]
      unfold contrib
      split_ifs <;> ring
  have hlink : (n.links.map (fun l =>
      contrib b l.bus0 l.active (- val (.link l.name)) +
      contrib b l.bus1 l.active (l.eff * val (.link l.name)) +
      (l.extra.map (fun e => contrib b e.1 l.active (e.2 * val (.link l.name)))).sum)).sum =
      ((n.links.flatMap linkEntries).map (entryVal val b)).sum := by
    rw [sum_flatMap_map]
    congr 1
    apply List.map_congr_left
    intro l _
    unfold linkEntries
    rw [List.map_cons, List.map_cons, List.sum_cons, List.sum_cons, extra_sum val b hb]
    simp only [entryVal]
    rw [add_assoc]
    congr 2
    · ring
  unfold supplied
  rw [hunits, hbranch n.lines .line .lineLoss, hbranch n.trafos .trafo .trafoLoss, hlink]
  unfold entries
  simp only [List.map_append, List.sum_append, List.map_map]
  have e1 : ∀ (l : List (OnePort F)) (mk : Name → NVar),
      (l.map (entryVal val b ∘ fun g => ⟨g.bus, 1 * g.sign, mk g.name, g.active⟩)).sum =
      (l.map (fun g => contrib b g.bus g.active (1 * g.sign * val (mk g.name)))).sum := by
    intro l mk; rfl
  have e2 : ∀ (l : List (OnePort F)) (mk : Name → NVar),
      (l.map (entryVal val b ∘ fun g => ⟨g.bus, -1 * g.sign, mk g.name, g.active⟩)).sum =
      (l.map (fun g => contrib b g.bus g.active (-1 * g.sign * val (mk g.name)))).sum := by
    intro l mk; rfl
  rw [e1, e1, e1, e2]
  cases losses with
  | false => simp; ring
  | true => simp; ring

omit [LinearOrder F] in
theorem loadAt_eq (n : Net F) (b : Name) : loadAt n b = demanded n b := by
  unfold loadAt demanded
  induction n.loads with
  | nil => rfl
  | cons l t ih =>
    rw [List.map_cons, List.sum_cons, ← ih]
    by_cases h : l.bus = b <;> cases hp : l.active <;> simp [h, hp, contrib]
    ring

omit [LinearOrder F] in
theorem connected_iff (n : Net F) (losses : Bool) (b : Name) (hb : b ≠ "") :
    (termsAt n losses b).isEmpty = false ↔ Connected n b := by
  have h1 : (termsAt n losses b).isEmpty = false ↔
      ∃ e ∈ entries n losses, e.bus = b ∧ e.present = true := by
    unfold termsAt
    rw [← Bool.not_eq_true, List.isEmpty_iff, List.map_eq_nil_iff, List.filter_eq_nil_iff]
    simp
  rw [h1]
  unfold entries Connected
  simp only [List.mem_append, List.mem_map, List.mem_flatMap]
  constructor
  · rintro ⟨e, he, h2, h3⟩
    rcases he with ((((((he | he) | he) | he) | he) | he) | he) | he
    · obtain ⟨g, hg, rfl⟩ := he; exact Or.inl ⟨g, hg, h2, h3⟩
    · obtain ⟨g, hg, rfl⟩ := he; exact Or.inr (Or.inl ⟨g, hg, h2, h3⟩)
    · obtain ⟨g, hg, rfl⟩ := he; exact Or.inr (Or.inr (Or.inl ⟨g, hg, h2, h3⟩))
    · obtain ⟨g, hg, rfl⟩ := he; exact Or.inr (Or.inr (Or.inl ⟨g, hg, h2, h3⟩))
    · obtain ⟨l, hl, hm⟩ := he
      simp only [branchEntries, List.mem_cons, List.not_mem_nil, or_false] at hm
      refine Or.inr (Or.inr (Or.inr (Or.inl ⟨l, hl, ?_⟩)))
      rcases hm with rfl | rfl
      · exact ⟨Or.inl h2, h3⟩
      · exact ⟨Or.inr h2, h3⟩
    · obtain ⟨l, hl, hm⟩ := he
      simp only [branchEntries, List.mem_cons, List.not_mem_nil, or_false] at hm
      refine Or.inr (Or.inr (Or.inr (Or.inr (Or.inl ⟨l, hl, ?_⟩))))
      rcases hm with rfl | rfl
      · exact ⟨Or.inl h2, h3⟩
      · exact ⟨Or.inr h2, h3⟩
    · obtain ⟨l, hl, hm⟩ := he
      simp only [linkEntries, List.mem_cons, List.mem_map, List.mem_filter] at hm
      refine Or.inr (Or.inr (Or.inr (Or.inr (Or.inr ⟨l, hl, ?_⟩))))
      rcases hm with rfl | rfl | ⟨x, ⟨hx, -⟩, rfl⟩
      · exact ⟨Or.inl h2, h3⟩
      · exact ⟨Or.inr (Or.inl h2), h3⟩
      · exact ⟨Or.inr (Or.inr ⟨x, hx, h2⟩), h3⟩
    · cases losses with
      | false => simp at he
      | true =>
        simp only [if_true, List.mem_append, List.mem_flatMap] at he
        rcases he with ⟨l, hl, hm⟩ | ⟨l, hl, hm⟩ <;>
          simp only [lossEntries, List.mem_cons, List.not_mem_nil, or_false] at hm
        · refine Or.inr (Or.inr (Or.inr (Or.inl ⟨l, hl, ?_⟩)))
          rcases hm with rfl | rfl
          · exact ⟨Or.inl h2, h3⟩
          · exact ⟨Or.inr h2, h3⟩
        · refine Or.inr (Or.inr (Or.inr (Or.inr (Or.inl ⟨l, hl, ?_⟩))))
          rcases hm with rfl | rfl
          · exact ⟨Or.inl h2, h3⟩
          · exact ⟨Or.inr h2, h3⟩
  · rintro (⟨g, hg, h2, h3⟩ | ⟨g, hg, h2, h3⟩ | ⟨g, hg, h2, h3⟩ | ⟨l, hl, h2, h3⟩ | ⟨l, hl, h2, h3⟩ |
      ⟨l, hl, h2, h3⟩)
    · exact ⟨_, Or.inl (Or.inl (Or.inl (Or.inl (Or.inl (Or.inl (Or.inl ⟨g, hg, rfl⟩)))))), h2, h3⟩
    · exact ⟨_, Or.inl (Or.inl (Or.inl (Or.inl (Or.inl (Or.inl (Or.inr ⟨g, hg, rfl⟩)))))), h2, h3⟩
    · exact ⟨_, Or.inl (Or.inl (Or.inl (Or.inl (Or.inl (Or.inr ⟨g, hg, rfl⟩))))), h2, h3⟩
    · rcases h2 with h2 | h2
      · exact ⟨⟨l.bus0, -1, .line l.name, l.active⟩, Or.inl (Or.inl (Or.inl (Or.inr
          ⟨l, hl, by simp [branchEntries]⟩))), h2, h3⟩
      · exact ⟨⟨l.bus1, 1, .line l.name, l.active⟩, Or.inl (Or.inl (Or.inl (Or.inr
          ⟨l, hl, by simp [branchEntries]⟩))), h2, h3⟩
    · rcases h2 with h2 | h2
      · exact ⟨⟨l.bus0, -1, .trafo l.name, l.active⟩, Or.inl (Or.inl (Or.inr
          ⟨l, hl, by simp [branchEntries]⟩)), h2, h3⟩
      · exact ⟨⟨l.bus1, 1, .trafo l.name, l.active⟩, Or.inl (Or.inl (Or.inr
          ⟨l, hl, by simp [branchEntries]⟩)), h2, h3⟩
    · rcases h2 with h2 | h2 | ⟨x, hx, h2⟩
      · exact ⟨⟨l.bus0, -1, .link l.name, l.active⟩, Or.inl (Or.inr
          ⟨l, hl, by simp [linkEntries]⟩), h2, h3⟩
      · exact ⟨⟨l.bus1, l.eff, .link l.name, l.active⟩, Or.inl (Or.inr
          ⟨l, hl, by simp [linkEntries]⟩), h2, h3⟩
      · refine ⟨⟨x.1, x.2, .link l.name, l.active⟩, Or.inl (Or.inr ⟨l, hl, ?_⟩), h2, h3⟩
        simp only [linkEntries, List.mem_cons, List.mem_map, List.mem_filter]
        exact Or.inr (Or.inr ⟨x, ⟨hx, by simp [h2, hb]⟩, rfl⟩)

omit [LinearOrder F] in
theorem supplied_unconnected (n : Net F) (losses : Bool) (val : NVar → F) (b : Name) (hb : b ≠ "")
    (h : (termsAt n losses b).isEmpty = true) : supplied n losses val b = 0 := by
  rw [← lin_termsAt n losses val b hb, List.isEmpty_iff.mp h, lin_nil]

/-! ## C38 -/

/-- C38: if the nodal balance rows can be built, a dispatch satisfies them exactly if at every bus
what the components in service bring in equals what the loads in service draw; and they cannot be
built exactly if there is no component at any of the buses, or a bus has a nonzero load and nothing
else in service. -/
theorem nodal_balance (n : Net F) (losses : Bool) (buses : List Name) (hb : "" ∉ buses) :
    (∀ rows, balance n losses buses = .ok rows → ∀ val,
      (Feasible val (rows.map (·.2)) ↔ ∀ b ∈ buses, supplied n losses val b = demanded n b)) ∧
    ((∃ b ∈ buses, ¬ Connected n b ∧ demanded n b ≠ 0) → ∀ rows, balance n losses buses ≠ .ok rows) ∧
    ((∃ b ∈ buses, Connected n b) → (∀ b ∈ buses, Connected n b ∨ demanded n b = 0) →
      ∃ rows, balance n losses buses = .ok rows) := by
  have hne : ∀ b ∈ buses, b ≠ "" := fun b h e => hb (e ▸ h)
  have hconn : ∀ b ∈ buses, ((termsAt n losses b).isEmpty = true ↔ ¬ Connected n b) := by
    intro b h
    rw [← connected_iff n losses b (hne b h)]; simp
  have hany : buses.any (fun b => (termsAt n losses b).isEmpty && decide (loadAt n b ≠ 0)) = true ↔
      ∃ b ∈ buses, ¬ Connected n b ∧ demanded n b ≠ 0 := by
    rw [List.any_eq_true]
    constructor
    · rintro ⟨b, h, hh⟩
      simp only [Bool.and_eq_true, decide_eq_true_eq] at hh
      exact ⟨b, h, (hconn b h).mp hh.1, by rw [← loadAt_eq]; exact hh.2⟩
    · rintro ⟨b, h, h1, h2⟩
      refine ⟨b, h, ?_⟩
      simp only [Bool.and_eq_true, decide_eq_true_eq]
      exact ⟨(hconn b h).mpr h1, by rw [loadAt_eq]; exact h2⟩
  refine ⟨?_, ?_, ?_⟩
  · intro rows hrows val
    unfold balance at hrows
    split at hrows
    · cases hrows
    split at hrows
    · cases hrows
    rename_i hno
    injection hrows with hrows
    subst hrows
    rw [hany] at hno
    push Not at hno
    simp only [List.map_map, Feasible, List.mem_map, List.mem_filter]
    constructor
    · intro h b hbm
      by_cases he : (termsAt n losses b).isEmpty = true
      · rw [supplied_unconnected n losses val b (hne b hbm) he]
        exact (hno b hbm ((hconn b hbm).mp he)).symm
      · have := h _ ⟨b, ⟨hbm, by simpa using he⟩, rfl⟩
        simp only [Function.comp, Con.holds] at this
        rwa [lin_termsAt n losses val b (hne b hbm), loadAt_eq] at this
    · rintro h _ ⟨b, ⟨hbm, -⟩, rfl⟩
      simp only [Function.comp, Con.holds]
      rw [lin_termsAt n losses val b (hne b hbm), loadAt_eq]
      exact h b hbm
  · intro hex rows
    unfold balance
    split
    · simp
    · rw [if_pos (hany.mpr hex)]; simp
  · rintro ⟨b, hbm, hc⟩ hall
    unfold balance
    rw [if_neg, if_neg]
    · exact ⟨_, rfl⟩
    · rw [hany]
      rintro ⟨b, h, h1, h2⟩
      rcases hall b h with h3 | h3
      · exact h1 h3
      · exact h2 h3
    · intro hall
      have h1 := (connected_iff n losses b (hne b hbm)).mpr hc
      have : ∃ e ∈ entries n losses, e.bus = b := by
        unfold termsAt at h1
        rw [← Bool.not_eq_true, List.isEmpty_iff, List.map_eq_nil_iff, List.filter_eq_nil_iff] at h1
        simp only [not_forall, Bool.and_eq_true, decide_eq_true_eq, not_not] at h1
        obtain ⟨e, he, h2, -⟩ := h1
        exact ⟨e, he, h2⟩
      obtain ⟨e, he, h2⟩ := this
      rw [List.all_eq_true] at hall
      have := hall e he
      rw [h2] at this
      simp [hbm] at this

/-! ## C39 -/

omit [LinearOrder F] in
theorem mem_meshed (n : Net F) (threshold : Nat) (b : Name) :
    b ∈ meshed n threshold ↔ b ∈ busRefs n ∧ threshold < (busRefs n).count b := by
  simp [meshed, List.mem_filter, List.mem_dedup]

/-- C39: whatever the threshold, if the components refer to buses of the network and the balance can
be built, it has one row for each bus that has a row when built in one part, the same row, and
the same solutions.  If every bus has a component in service (or no component and no load, and
both parts have one with a component) it can be built.  Missing from the full claim: a weakly meshed
part in which no component is connected at all raises (`split_raises`). -/
theorem split_same_partial (n : Net F) (losses : Bool) (threshold : Nat) (hb : "" ∉ n.buses)
    (hnd : n.buses.Nodup) (href : ∀ b ∈ busRefs n, b ∈ n.buses) :
    (∀ rows, createBalance n losses threshold = .ok rows →
      (rows.map (·.1)).Nodup ∧
      ∃ rows', balance n losses n.buses = .ok rows' ∧ (∀ r, r ∈ rows ↔ r ∈ rows') ∧
        ∀ val, Feasible val (rows.map (·.2)) ↔
          ∀ b ∈ n.buses, supplied n losses val b = demanded n b) ∧
    ((∀ b ∈ n.buses, Connected n b ∨ demanded n b = 0) →
      (∃ b ∈ n.buses, Connected n b) →
      (∀ b ∈ n.buses, threshold < (busRefs n).count b → ∃ b ∈ n.buses, threshold < (busRefs n).count b ∧ Connected n b) →
      (∀ b ∈ n.buses, (busRefs n).count b ≤ threshold → ∃ b ∈ n.buses, (busRefs n).count b ≤ threshold ∧ Connected n b) →
      ∃ rows, createBalance n losses threshold = .ok rows) := by
  have hmesh : ∀ b, b ∈ meshed n threshold → b ∈ n.buses :=
    fun b h => href b ((mem_meshed n threshold b).mp h).1
  have hcount : ∀ b ∈ n.buses, (b ∈ meshed n threshold ↔ threshold < (busRefs n).count b) := by
    intro b _
    rw [mem_meshed]
    constructor
    · exact fun h => h.2
    · intro h
      exact ⟨List.count_pos_iff.mp (by omega), h⟩
  have hndm : (meshed n threshold).Nodup := by
    unfold meshed; exact (List.nodup_dedup _).filter _
  constructor
  · intro rows hrows
    unfold createBalance at hrows
    simp only at hrows
    split at hrows
    · -- two parts
      split at hrows
      · cases hrows
      · rename_i r1 h1
        split at hrows
        · cases hrows
        · rename_i r2 h2
          injection hrows with hrows
          subst hrows
          unfold balance at h1 h2
          split at h1
          · cases h1
          split at h1
          · cases h1
          split at h2
          · cases h2
          split at h2
          · cases h2
          rename_i g1 g2 g3 g4
          injection h1 with h1
          injection h2 with h2
          have hset : ∀ b, b ∈ n.buses ↔
              b ∈ n.buses.filter (fun b => !(meshed n threshold).contains b) ∨ b ∈ meshed n threshold := by
            intro b
            simp only [List.mem_filter, Bool.not_eq_true', List.contains_eq_mem,
              decide_eq_false_iff_not]
            constructor
            · intro h
              by_cases hm : b ∈ meshed n threshold
              · exact Or.inr hm
              · exact Or.inl ⟨h, hm⟩
            · rintro (h | h)
              · exact h.1
              · exact hmesh b h
          have hok : balance n losses n.buses =
              .ok ((n.buses.filter (fun b => !(termsAt n losses b).isEmpty)).map
                (fun b => (b, ⟨termsAt n losses b, .eq, loadAt n b⟩))) := by
            unfold balance
            rw [if_neg, if_neg]
            · intro hany
              rw [List.any_eq_true] at hany
              obtain ⟨b, hbm, hh⟩ := hany
              rcases (hset b).mp hbm with h | h
              · exact g2 (List.any_eq_true.mpr ⟨b, h, hh⟩)
              · exact g4 (List.any_eq_true.mpr ⟨b, h, hh⟩)
            · intro hall
              apply g1
              rw [List.all_eq_true] at hall ⊢
              intro e he
              have := hall e he
              rw [Bool.not_eq_true', List.contains_eq_mem, decide_eq_false_iff_not] at this ⊢
              intro hm
              exact this ((hset _).mpr (Or.inl hm))
          have hiff : ∀ r, r ∈ r1 ++ r2 ↔ r ∈ (n.buses.filter (fun b => !(termsAt n losses b).isEmpty)).map
                (fun b => (b, (⟨termsAt n losses b, .eq, loadAt n b⟩ : Con NVar F))) := by
            intro r
            rw [← h1, ← h2]
            simp only [List.mem_append, List.mem_map, List.mem_filter]
            constructor
            · rintro (⟨b, ⟨hb1, hb2⟩, rfl⟩ | ⟨b, ⟨hb1, hb2⟩, rfl⟩)
              · exact ⟨b, ⟨hb1.1, hb2⟩, rfl⟩
              · exact ⟨b, ⟨hmesh b hb1, hb2⟩, rfl⟩
            · rintro ⟨b, ⟨hb1, hb2⟩, rfl⟩
              rcases (hset b).mp hb1 with h | h
              · exact Or.inl ⟨b, ⟨List.mem_filter.mp h, hb2⟩, rfl⟩
              · exact Or.inr ⟨b, ⟨h, hb2⟩, rfl⟩
          refine ⟨?_, _, hok, hiff, ?_⟩
          · rw [← h1, ← h2]
            simp only [List.map_append, List.map_map, Function.comp_def, List.map_id']
            refine List.Nodup.append ((hnd.filter _).filter _) (hndm.filter _) ?_
            intro b hb1 hb2
            have hb1 := (List.mem_filter.mp (List.mem_filter.mp hb1).1).2
            have hb2 := (List.mem_filter.mp hb2).1
            simp [hb2] at hb1
          · intro val
            rw [← ((nodal_balance n losses n.buses hb).1 _ hok val)]
            unfold Feasible
            constructor
            · intro h c hc
              obtain ⟨r, hr, rfl⟩ := List.mem_map.mp hc
              exact h _ (List.mem_map.mpr ⟨r, (hiff r).mpr hr, rfl⟩)
            · intro h c hc
              obtain ⟨r, hr, rfl⟩ := List.mem_map.mp hc
              exact h _ (List.mem_map.mpr ⟨r, (hiff r).mp hr, rfl⟩)
    · refine ⟨?_, rows, hrows, fun r => Iff.rfl, (nodal_balance n losses n.buses hb).1 rows hrows⟩
      unfold balance at hrows
      split at hrows
      · cases hrows
      split at hrows
      · cases hrows
      injection hrows with hrows
      subst hrows
      simp only [List.map_map, Function.comp_def, List.map_id']
      exact hnd.filter _
  · intro hall hone hm hw
    unfold createBalance
    simp only
    split
    · rename_i hsp
      simp only [Bool.and_eq_true, Bool.not_eq_true', ← Bool.not_eq_true, List.isEmpty_iff] at hsp
      obtain ⟨hm0, hw0⟩ := hsp
      have hweak : ∃ rows, balance n losses
          (n.buses.filter (fun b => !(meshed n threshold).contains b)) = .ok rows := by
        refine (nodal_balance n losses _ (fun h => hb (List.mem_filter.mp h).1)).2.2 ?_ ?_
        · obtain ⟨b, hbw⟩ := List.exists_mem_of_ne_nil _ hw0
          obtain ⟨hb1, hb2⟩ := List.mem_filter.mp hbw
          simp only [Bool.not_eq_true', List.contains_eq_mem, decide_eq_false_iff_not] at hb2
          rw [hcount b hb1] at hb2
          obtain ⟨c, hc1, hc2, hc3⟩ := hw b hb1 (by omega)
          refine ⟨c, List.mem_filter.mpr ⟨hc1, ?_⟩, hc3⟩
          simp only [Bool.not_eq_true', List.contains_eq_mem, decide_eq_false_iff_not]
          rw [hcount c hc1]; omega
        · exact fun b h => hall b (List.mem_filter.mp h).1
      have hmes : ∃ rows, balance n losses (meshed n threshold) = .ok rows := by
        refine (nodal_balance n losses _ (fun h => hb (hmesh _ h))).2.2 ?_ ?_
        · obtain ⟨b, hbm⟩ := List.exists_mem_of_ne_nil _ hm0
          obtain ⟨c, hc1, hc2, hc3⟩ := hm b (hmesh b hbm) ((hcount b (hmesh b hbm)).mp hbm)
          exact ⟨c, (hcount c hc1).mpr hc2, hc3⟩
        · exact fun b h => hall b (hmesh b h)
      obtain ⟨r1, h1⟩ := hweak
      obtain ⟨r2, h2⟩ := hmes
      rw [h1, h2]
      exact ⟨_, rfl⟩
    · exact (nodal_balance n losses n.buses hb).2.2 hone hall

/-! ## Examples -/

def exNet : Net ℚ :=
  { buses := ["a", "b", "c"],
    gens := [⟨"g", "a", 1, true⟩, ⟨"off", "b", 1, false⟩],
    stores := [], units := [⟨"u", "b", 1, true⟩],
    lines := [⟨"l", "a", "b", true⟩], trafos := [],
    links := [⟨"k", "a", "b", 1 / 2, [("c", 1 / 4), ("", 1)], true⟩],
    loads := [⟨"b", -1, 7, true⟩, ⟨"c", -1, 1, true⟩, ⟨"a", -1, 100, false⟩] }

def exVal : NVar → ℚ
  | .gen "g" => 9 | .gen "off" => 50
  | .link "k" => 4 | .line "l" => 5 | .lineLoss "l" => 0
  | .dispatch "u" => 1 | .charge "u" => 1 | _ => 0

example : ∃ rows, balance exNet true exNet.buses = .ok rows ∧ Feasible exVal (rows.map (·.2)) ∧
    rows.length = 3 := by
  refine ⟨_, rfl, by decide +kernel, by decide +kernel⟩

example : ∃ rows, createBalance exNet true 2 = .ok rows ∧ rows.length = 3 ∧
    meshed exNet 2 ≠ [] := by
  refine ⟨_, rfl, by decide +kernel, by decide +kernel⟩

/-- A load at a bus without anything else raises. -/
example : balance { exNet with buses := ["a", "b", "c", "d"], loads := [⟨"d", -1, 1, true⟩] } false
    ["a", "b", "c", "d"] = .error .emptyLhs := by decide +kernel

/-- C39 fails for a network with a strongly meshed bus and a bus without components: the balance
can be built in one part, but not in two. -/
theorem split_raises : ∃ n : Net ℚ, (∃ rows, balance n false n.buses = .ok rows) ∧
    createBalance n false 2 = .error .noExpressions := by
  refine ⟨{ exNet with
    buses := ["a", "b"], gens := [⟨"g", "a", 1, true⟩, ⟨"h", "a", 1, true⟩, ⟨"i", "a", 1, true⟩],
    units := [], lines := [], links := [], loads := [⟨"a", -1, 1, true⟩] }, ⟨_, rfl⟩, by decide +kernel⟩

end Verif.Opt.Nodal
