import Verif.IO.Pandapower
import Mathlib.Logic.Relation
import Mathlib.Data.List.Nodup
import Mathlib.Tactic.FieldSimp
import Mathlib.Tactic.Ring
import Mathlib.Tactic.NormNum
import Mathlib.Tactic.Positivity

/-!
# Properties of the import of pandapower nets (C105, C106)
-/

namespace Verif.IO.Pandapower

open Verif.PowerFlow

/-! ## C105: closed switches -/

/-- Buses joined by closed switches, directly or through other buses. -/
def Joined (sw : List Switch) : String → String → Prop :=
  Relation.EqvGen (fun a b => ∃ s ∈ sw, s.busBus = true ∧ s.closed = true ∧ s.bus = a ∧ s.element = b)

theorem removeAll_ok (is buses : List String) (hn : is.Nodup) (hs : ∀ i ∈ is, i ∈ buses) :
    removeAll buses is = .ok (buses.filter (fun b => b ∉ is)) := by
  induction is generalizing buses with
  | nil => simp [removeAll]
  | cons i is ih =>
    rw [List.nodup_cons] at hn
    have hi : i ∈ buses := hs i (by simp)
    simp only [removeAll, removeBus, hi, if_true, Except.bind]
    rw [ih _ hn.2]
    · rw [List.filter_filter]
      congr 1
      apply List.filter_congr
      intro b _
      simp only [List.mem_cons, not_or, Bool.decide_and]
      rw [Bool.and_comm]
    · intro j hj
      rw [List.mem_filter]
      refine ⟨hs j (by simp [hj]), ?_⟩
      simp only [ne_eq, decide_not, Bool.not_eq_eq_eq_not, Bool.not_true, decide_eq_false_iff_not]
      rintro rfl
      exact hn.1 hj

theorem replaced_not_mem (rep : List (String × String)) (b : String) (h : b ∉ rep.map (·.1)) :
    replaced rep b = b := by
  unfold replaced
  have : rep.find? (fun r => r.1 = b) = none := by
    rw [List.find?_eq_none]
    intro r hr
    simp only [decide_eq_true_eq]
    rintro rfl
    exact h (List.mem_map.2 ⟨r, hr, rfl⟩)
  rw [this]

theorem replaced_mem (rep : List (String × String)) (hn : (rep.map (·.1)).Nodup) (r : String × String)
    (hr : r ∈ rep) : replaced rep r.1 = r.2 := by
  induction rep with
  | nil => simp at hr
  | cons a rep ih =>
    simp only [List.map_cons, List.nodup_cons] at hn
    rcases List.mem_cons.1 hr with rfl | hr'
    · simp [replaced]
    · have hne : a.1 ≠ r.1 := fun h => hn.1 (h ▸ List.mem_map.2 ⟨r, hr', rfl⟩)
      have := ih hn.2 hr'
      unfold replaced at this ⊢
      rw [List.find?_cons_of_neg (by simpa using hne)]
      exact this

theorem mem_toReplace (sw : List Switch) (a b : String) :
    (b, a) ∈ toReplace sw ↔ ∃ s ∈ sw, s.busBus = true ∧ s.closed = true ∧ s.bus = a ∧ s.element = b := by
  unfold toReplace
  simp only [List.mem_map, List.mem_filter, Bool.and_eq_true, Prod.mk.injEq]
  constructor
  · rintro ⟨s, ⟨hs, h1, h2⟩, h3, h4⟩; exact ⟨s, hs, h1, h2, h4, h3⟩
  · rintro ⟨s, hs, h1, h2, h3, h4⟩; exact ⟨s, ⟨hs, h1, h2⟩, h4, h3⟩

theorem replaced_const (sw : List Switch) (hn : ((toReplace sw).map (·.1)).Nodup)
    (hst : ∀ s ∈ sw, s.busBus = true → s.closed = true → ∀ s' ∈ sw, s'.busBus = true →
      s'.closed = true → s'.element ≠ s.bus) (a b : String) (h : Joined sw a b) :
    replaced (toReplace sw) a = replaced (toReplace sw) b := by
  induction h with
  | rel a b h =>
    have hb := replaced_mem _ hn (b, a) ((mem_toReplace sw a b).2 h)
    obtain ⟨s, hs, h1, h2, rfl, rfl⟩ := h
    rw [hb]
    apply replaced_not_mem
    intro hm
    obtain ⟨⟨e, st⟩, hr, he⟩ := List.mem_map.1 hm
    simp only at he
    subst he
    obtain ⟨s', hs', h1', h2', _, h4'⟩ := (mem_toReplace sw st _).1 hr
    exact hst s hs h1 h2 s' hs' h1' h2' h4'
  | refl => rfl
  | symm _ _ _ ih => exact ih.symm
  | trans _ _ _ _ _ ih1 ih2 => exact ih1.trans ih2

theorem joined_replaced (sw : List Switch) (b : String) : Joined sw b (replaced (toReplace sw) b) := by
  unfold replaced
  split
  · rename_i r hr
    have hm := List.mem_of_find?_eq_some hr
    have he : r.1 = b := by simpa using List.find?_some hr
    subst he
    exact Relation.EqvGen.symm _ _ (Relation.EqvGen.rel _ _ ((mem_toReplace sw r.2 r.1).1 hm))
  · exact Relation.EqvGen.refl _

/-- C105 (partial: only if no bus that stays at one closed switch goes at another and no bus goes
twice, so that switches form stars): the buses left are one of each group of buses joined by closed
switches, and every component is attached to the bus that is left of its group, so that components
meet exactly if they met through closed switches. -/
theorem pandapower_switches_partial (n : Net) (sw : List Switch)
    (hn : ((sw.filter (fun s => s.busBus && s.closed)).map (·.element)).Nodup)
    (hst : ∀ s ∈ sw, s.busBus = true → s.closed = true → ∀ s' ∈ sw, s'.busBus = true →
      s'.closed = true → s'.element ≠ s.bus)
    (hb : ∀ s ∈ sw, s.busBus = true → s.closed = true → s.element ∈ n.buses ∧ s.bus ∈ n.buses)
    (h1 : ∀ c ∈ n.onePorts, c.2 ∈ n.buses)
    (h2 : ∀ c ∈ n.branches, c.2.1 ∈ n.buses ∧ c.2.2 ∈ n.buses) :
    ∃ n', mergeSwitches n sw = .ok n' ∧
      (∀ b ∈ n'.buses, b ∈ n.buses) ∧
      (∀ b ∈ n.buses, ∃ b' ∈ n'.buses, Joined sw b b') ∧
      (∀ b ∈ n'.buses, ∀ b' ∈ n'.buses, Joined sw b b' → b = b') ∧
      List.Forall₂ (fun c c' => c'.1 = c.1 ∧ c'.2 ∈ n'.buses ∧ Joined sw c.2 c'.2)
        n.onePorts n'.onePorts ∧
      List.Forall₂ (fun c c' => c'.1 = c.1 ∧ c'.2.1 ∈ n'.buses ∧ c'.2.2 ∈ n'.buses ∧
        Joined sw c.2.1 c'.2.1 ∧ Joined sw c.2.2 c'.2.2) n.branches n'.branches := by
  have hn' : ((toReplace sw).map (·.1)).Nodup := by
    unfold toReplace; rw [List.map_map]; exact hn
  have hmem : ∀ i, i ∈ (toReplace sw).map (·.1) → i ∈ n.buses := by
    intro i hi
    obtain ⟨⟨e, st⟩, hr, he⟩ := List.mem_map.1 hi
    obtain ⟨s, hs, c1, c2, _, c4⟩ := (mem_toReplace sw st e).1 hr
    simp only at he
    rw [← he, ← c4]
    exact (hb s hs c1 c2).1
  have hrem := removeAll_ok _ n.buses hn' hmem
  have hrepl : ∀ b ∈ n.buses, replaced (toReplace sw) b ∈
      n.buses.filter (fun b => b ∉ (toReplace sw).map (·.1)) := by
    intro b hbm
    by_cases hgo : b ∈ (toReplace sw).map (·.1)
    · obtain ⟨⟨e, st⟩, hr, he⟩ := List.mem_map.1 hgo
      simp only at he
      subst he
      rw [replaced_mem _ hn' _ hr]
      obtain ⟨s, hs, c1, c2, c3, c4⟩ := (mem_toReplace sw st e).1 hr
      rw [List.mem_filter]
      refine ⟨c3 ▸ (hb s hs c1 c2).2, ?_⟩
      simp only [decide_eq_true_eq]
      intro hm
      obtain ⟨⟨e', st'⟩, hr', he'⟩ := List.mem_map.1 hm
      obtain ⟨s', hs', d1, d2, _, d4⟩ := (mem_toReplace sw st' e').1 hr'
      simp only at he'
      exact hst s hs c1 c2 s' hs' d1 d2 (by rw [d4, he', c3])
    · rw [replaced_not_mem _ _ hgo, List.mem_filter]
      exact ⟨hbm, by simpa using hgo⟩
  refine ⟨_, by unfold mergeSwitches; simp only [hrem, Except.map]; rfl, ?_, ?_, ?_, ?_, ?_⟩
  · intro b hb'; exact (List.mem_filter.1 hb').1
  · intro b hbm; exact ⟨_, hrepl b hbm, joined_replaced sw b⟩
  · intro b hb1 b' hb2 hj
    have e := replaced_const sw hn' hst b b' hj
    rwa [replaced_not_mem _ _ (by simpa using (List.mem_filter.1 hb1).2),
      replaced_not_mem _ _ (by simpa using (List.mem_filter.1 hb2).2)] at e
  · rw [List.forall₂_map_right_iff]
    exact List.forall₂_same.2 (fun c hc => ⟨rfl, hrepl _ (h1 c hc), joined_replaced sw _⟩)
  · rw [List.forall₂_map_right_iff]
    exact List.forall₂_same.2 (fun c hc => ⟨rfl, hrepl _ (h2 c hc).1, hrepl _ (h2 c hc).2,
      joined_replaced sw _, joined_replaced sw _⟩)

/-- A star of three buses and an open switch meet the hypotheses. -/
example : let n : Net := ⟨["a", "b", "c", "d"], [("g", "b"), ("l", "d")], [("k", "c", "d")]⟩
    let sw : List Switch := [⟨"a", "b", true, true⟩, ⟨"a", "c", true, true⟩, ⟨"c", "d", true, false⟩]
    ((sw.filter (fun s => s.busBus && s.closed)).map (·.element)).Nodup ∧
    mergeSwitches n sw = .ok ⟨["a", "d"], [("g", "a"), ("l", "d")], [("k", "a", "d")]⟩ := by
  decide +kernel

/-- Finding (C105): with two closed switches in a row the generator at the far end is attached to a
bus that was removed. -/
theorem pandapower_switch_chain :
    mergeSwitches ⟨["a", "b", "c"], [("g", "c")], []⟩ [⟨"a", "b", true, true⟩, ⟨"b", "c", true, true⟩] =
      .ok ⟨["a"], [("g", "b")], []⟩ := by decide +kernel

/-- Finding (C105): a bus that is the element of two closed switches makes the import fail, so does
every ring of closed switches over three buses listed in this way. -/
theorem pandapower_switch_twice (n : Net) :
    mergeSwitches n [⟨"a", "c", true, true⟩, ⟨"b", "c", true, true⟩] = .error .keyError := by
  unfold mergeSwitches toReplace
  simp only [List.filter, Bool.and_self, List.map_cons, List.map_nil, removeAll, removeBus]
  by_cases h : "c" ∈ n.buses
  · rw [if_pos h]
    simp [Except.bind, Except.map]
  · rw [if_neg h]
    rfl

/-! ## C106: parameters of lines and transformers -/

/-- What reaches the power flow for a line whose own data are those of its type: with
`extra_line_data=True` the impedances of a single circuit, whatever the number of circuits, with
`extra_line_data=False` those of all circuits. -/
theorem pandapower_line_circuits (f : ℝ) (l : PLine) (t : Types.LineType) (hp : l.parallel ≠ 0)
    (hr : t.rPerLength = l.rPerKm) (hx : t.xPerLength = l.xPerKm) (hc : t.cPerLength = l.cPerKm)
    (hf : t.fNom = f) :
    (lineByData f l).r = l.parallel * (Types.setLine (lineByType l) t).r ∧
    (lineByData f l).x = l.parallel * (Types.setLine (lineByType l) t).x ∧
    l.parallel * (lineByData f l).b = (Types.setLine (lineByType l) t).b := by
  subst hf
  simp only [lineByData, Types.setLine, lineByType, hr, hx, hc]
  refine ⟨by field_simp, by field_simp, by ring⟩

/-- C106 (partial: lines of one circuit): both ways of importing a line whose data are those of its
standard type give the same impedances, through `apply_line_types`. -/
theorem pandapower_line_partial (f : ℝ) (l : PLine) (types : List Types.LineType) (t : Types.LineType)
    (hp : l.parallel = 1) (hne : l.stdType ≠ "") (ht : types.find? (fun t => t.name = l.stdType) = some t)
    (hr : t.rPerLength = l.rPerKm) (hx : t.xPerLength = l.xPerKm) (hc : t.cPerLength = l.cPerKm)
    (hf : t.fNom = f) :
    ∃ l1 l2, Types.applyLineTypes types [lineByType l] = .ok [l1] ∧
      Types.applyLineTypes types [lineByData f l] = .ok [l2] ∧
      l1.r = l2.r ∧ l1.x = l2.x ∧ l1.b = l2.b ∧ l1.g = l2.g ∧ l1.length = l2.length := by
  have hm : types.any (fun t => t.name = l.stdType) = true := by
    rw [List.any_eq_true]
    exact ⟨t, List.mem_of_find?_eq_some ht, by simpa using List.find?_some ht⟩
  have e1 : Types.applyLineTypes types [lineByType l] = .ok [Types.setLine (lineByType l) t] := by
    unfold Types.applyLineTypes
    rw [if_neg (by simp [lineByType, hne]), if_neg (by simpa [lineByType, hne] using hm)]
    simp [Types.applyLine, lineByType, hne, Types.lookup, ht]
  have e2 : Types.applyLineTypes types [lineByData f l] = .ok [lineByData f l] := by
    unfold Types.applyLineTypes
    rw [if_pos (by simp [lineByData])]
  obtain ⟨a, b, c⟩ := pandapower_line_circuits f l t (by rw [hp]; norm_num) hr hx hc hf
  rw [hp, one_mul] at a b c
  exact ⟨_, _, e1, e2, a.symm, b.symm, c.symm, rfl, rfl⟩

/-- A line and a list of types that meet the hypotheses. -/
example : ∃ (l : PLine) (types : List Types.LineType) (t : Types.LineType), l.parallel = 1 ∧
    l.stdType ≠ "" ∧ types.find? (fun t => t.name = l.stdType) = some t ∧ t.rPerLength = l.rPerKm ∧
    t.xPerLength = l.xPerKm ∧ t.cPerLength = l.cPerKm ∧ t.fNom = 50 :=
  ⟨⟨"l", "t", 10, 1, 1, 2, 3, 1, 110⟩, [⟨"s", 50, 0, 0, 0⟩, ⟨"t", 50, 1, 2, 3⟩], ⟨"t", 50, 1, 2, 3⟩,
    rfl, by decide, by simp, rfl, rfl, rfl, rfl⟩

/-- Finding (C106): a double circuit imported with its data has twice the impedance that it has when
imported with its type. -/
theorem pandapower_double_circuit : ∃ (l : PLine) (t : Types.LineType),
    t.rPerLength = l.rPerKm ∧ t.xPerLength = l.xPerKm ∧ t.cPerLength = l.cPerKm ∧ t.fNom = 50 ∧
    (lineByData 50 l).x = 2 * (Types.setLine (lineByType l) t).x ∧ (lineByData 50 l).x ≠ 0 := by
  refine ⟨⟨"l", "t", 10, 2, 1, 1, 1, 1, 110⟩, ⟨"t", 50, 1, 1, 1⟩, rfl, rfl, rfl, rfl, ?_, ?_⟩
  · norm_num [lineByData, Types.setLine, lineByType]
  · simp [lineByData]

theorem npSqrt_scale (a s : ℝ) (hs : 0 < s) :
    (Types.npSqrt (a / s ^ 2)).getD 0 = (Types.npSqrt a).getD 0 / s := by
  unfold Types.npSqrt
  have h2 : 0 < s ^ 2 := by positivity
  by_cases h : a < 0
  · rw [if_pos h, if_pos (div_neg_of_neg_of_pos h h2)]; simp
  · rw [if_neg h, if_neg (by rw [not_lt] at h ⊢; positivity)]
    simp only [Option.getD_some]
    rw [Real.sqrt_div (not_lt.1 h), Real.sqrt_sq hs.le]

/-- What reaches the power flow for a transformer without standard type: resistance, reactance and
conductance are those of the standard type with the same parameters divided once more by the rated
power `sn` (both are taken as per unit of `s_nom`).  The sign of the susceptance is the opposite. -/
theorem pandapower_trafo_scale (t : PTrafo) (hs : 0 < t.sn) (hv : t.vkr ^ 2 ≤ t.vk ^ 2) :
    let a := trafoByData t
    let b := Types.setTrafo (trafoByType t) (typeOf t)
    a.sNom = b.sNom ∧ a.phaseShift = b.phaseShift ∧ a.tapRatio = b.tapRatio ∧ a.tapSide = b.tapSide ∧
    a.r = b.r / t.sn ∧ (∃ xa xb, a.x = some xa ∧ b.x = some xb ∧ xa = xb / t.sn) ∧ a.g = b.g / t.sn ∧
    0 ≤ a.b ∧ b.b ≤ 0 := by
  simp only [trafoByData, Types.setTrafo, trafoByType, typeOf]
  have hx : ¬ (t.vk / 100) ^ 2 - (t.vkr / 100) ^ 2 < 0 := by
    rw [not_lt, div_pow, div_pow, ← sub_div]
    exact div_nonneg (sub_nonneg.2 hv) (by norm_num)
  refine ⟨trivial, trivial, by ring, trivial, by ring, ?_, ?_, ?_, ?_⟩
  · refine ⟨_, _, rfl, by rw [Types.npSqrt, if_neg hx]; rfl, ?_⟩
    have e : (t.vk / 100 / t.sn) ^ 2 - (t.vkr / 100 / t.sn) ^ 2 =
        ((t.vk / 100) ^ 2 - (t.vkr / 100) ^ 2) / t.sn ^ 2 := by ring
    rw [e, npSqrt_scale _ _ hs, Types.npSqrt, if_neg hx]
    simp
  · field_simp
  · unfold Types.npSqrt
    split <;> simp
  · simp

/-- C106 (partial: rated power 1 MVA, no open-loop current): both ways of importing a transformer give
the same parameters.  For any other rated power they differ, see `pandapower_trafo_scale`. -/
theorem pandapower_trafo_partial (t : PTrafo) (hs : t.sn = 1) (hv : t.vkr ^ 2 ≤ t.vk ^ 2)
    (hi : t.i0 = t.pfe / 10) :
    let a := trafoByData t
    let b := Types.setTrafo (trafoByType t) (typeOf t)
    a.sNom = b.sNom ∧ a.phaseShift = b.phaseShift ∧ a.tapRatio = b.tapRatio ∧ a.r = b.r ∧ a.x = b.x ∧
    a.g = b.g ∧ a.b = b.b := by
  obtain ⟨h1, h2, h3, h4, h5, ⟨xa, xb, h6, h7, h8⟩, h9, -, -⟩ :=
    pandapower_trafo_scale t (by rw [hs]; norm_num) hv
  refine ⟨h1, h2, h3, by rw [h5, hs, div_one], by rw [h6, h7, h8, hs, div_one],
    by rw [h9, hs, div_one], ?_⟩
  simp only [trafoByData, Types.setTrafo, trafoByType, typeOf, hs, hi]
  have e : (t.pfe / 10 / 100) ^ 2 - (t.pfe / 1 / 1000 / 1) ^ 2 = 0 := by ring
  have e' : (t.pfe / 10 / 100) ^ 2 - (t.pfe / (1000 * 1)) ^ 2 = 0 := by ring
  rw [e, e']
  simp [Types.npSqrt]

example : ∃ t : PTrafo, t.sn = 1 ∧ t.vkr ^ 2 ≤ t.vk ^ 2 ∧ t.i0 = t.pfe / 10 :=
  ⟨⟨"t", "type", 1, 16, 1 / 2, 1, 10, 150, 0⟩, rfl, by norm_num, by norm_num⟩

/-- Finding (C106): a transformer of 40 MVA imported with its data has a fortieth of the impedance that it
has when imported with a standard type of the same parameters. -/
theorem pandapower_trafo_wrong_base : ∃ t : PTrafo, 0 < t.sn ∧ t.vkr ^ 2 ≤ t.vk ^ 2 ∧
    (trafoByData t).r * 40 = (Types.setTrafo (trafoByType t) (typeOf t)).r ∧ (trafoByData t).r ≠ 0 := by
  refine ⟨⟨"t", "type", 40, 16, 1 / 2, 0, 0, 150, 0⟩, by norm_num, by norm_num, ?_, ?_⟩
  · simp [trafoByData, Types.setTrafo, trafoByType, typeOf]
  · simp [trafoByData]

/-- Finding (C106): the susceptance has the opposite sign. -/
theorem pandapower_trafo_sign : ∃ t : PTrafo, t.sn = 1 ∧
    (trafoByData t).b = - (Types.setTrafo (trafoByType t) (typeOf t)).b ∧ 0 < (trafoByData t).b := by
  refine ⟨⟨"t", "type", 1, 16, 0, 100, 0, 150, 0⟩, rfl, ?_, ?_⟩ <;>
    norm_num [trafoByData, Types.setTrafo, trafoByType, typeOf, Types.npSqrt]

end Verif.IO.Pandapower
