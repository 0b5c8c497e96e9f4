import Verif.PowerFlow.Results
import Verif.PowerFlow.SlackProps

/-! # Lemmas about the results of `n.pf()` -/

namespace Verif.PowerFlow.Results

open AC

/-- Active power that a component feeds into bus `x`, from its own recorded values. -/
noncomputable def giveP (x : Name) (o : Port) : ℝ := if o.active = true ∧ o.bus = x then o.sign * o.p.getD 0 else 0

noncomputable def giveQ (x : Name) (o : Port) : ℝ := if o.active = true ∧ o.bus = x then o.sign * o.q else 0

/-- Everything but the dispatch is the same. -/
structure Same (o o' : Port) : Prop where
  isGen : o'.isGen = o.isGen
  name : o'.name = o.name
  bus : o'.bus = o.bus
  sign : o'.sign = o.sign
  active : o'.active = o.active
  pSet : o'.pSet = o.pSet
  qSet : o'.qSet = o.qSet
  pNom : o'.pNom = o.pNom
  pNomOpt : o'.pNomOpt = o.pNomOpt

theorem Same.refl (o : Port) : Same o o := ⟨rfl, rfl, rfl, rfl, rfl, rfl, rfl, rfl, rfl⟩

theorem Same.trans {a b c : Port} (h : Same a b) (h' : Same b c) : Same a c :=
  ⟨h'.isGen.trans h.isGen, h'.name.trans h.name, h'.bus.trans h.bus, h'.sign.trans h.sign, h'.active.trans h.active,
    h'.pSet.trans h.pSet, h'.qSet.trans h.qSet, h'.pNom.trans h.pNom, h'.pNomOpt.trans h.pNomOpt⟩

theorem same_set (bs : List Name) (o : Port) : Same o (setPoint bs o) := by
  unfold setPoint; split <;> exact ⟨rfl, rfl, rfl, rfl, rfl, rfl, rfl, rfl, rfl⟩

theorem same_addP (g : Name) (x : ℝ) (o : Port) : Same o (addP g x o) := by
  unfold addP; split <;> exact ⟨rfl, rfl, rfl, rfl, rfl, rfl, rfl, rfl, rfl⟩

theorem same_addQ1 (g : Name) (x : ℝ) (o : Port) : Same o (addQ1 g x o) := by
  unfold addQ1; split <;> exact ⟨rfl, rfl, rfl, rfl, rfl, rfl, rfl, rfl, rfl⟩

theorem same_addAll (out : List (Slack.Gen ℝ × Option ℝ)) (o : Port) : Same o (addAll out o) := by
  unfold addAll
  split
  · split <;> exact ⟨rfl, rfl, rfl, rfl, rfl, rfl, rfl, rfl, rfl⟩
  · exact Same.refl o

theorem same_addQ {nb m : Nat} (S : Sub nb m) (P : Problem (nb + 1) m) (gs : Guess (nb + 1)) (g : Name) (o : Port) :
    Same o (addQ S P gs g o) := by
  unfold addQ; split <;> exact ⟨rfl, rfl, rfl, rfl, rfl, rfl, rfl, rfl, rfl⟩

theorem sum_filter {α : Type} (l : List α) (P : α → Bool) (h : α → ℝ) :
    ((l.filter P).map h).sum = (l.map (fun o => if P o then h o else 0)).sum := by
  induction l with
  | nil => rfl
  | cons a l ih => by_cases hP : P a = true <;> simp [hP, ih]

theorem sum_neg_list {α : Type} (l : List α) (f : α → ℝ) : (l.map (fun o => - f o)).sum = - (l.map f).sum := by
  induction l with
  | nil => simp
  | cons a l ih => simp only [List.map_cons, List.sum_cons, ih]; ring

theorem filter_one {α : Type} [DecidableEq α] (l : List α) (h : l.Nodup) (a : α) (ha : a ∈ l) :
    l.filter (fun b => decide (b = a)) = [a] := by
  induction l with
  | nil => cases ha
  | cons b l ih =>
    obtain ⟨h1, h2⟩ := List.nodup_cons.mp h
    rcases List.mem_cons.mp ha with rfl | ha
    · have : l.filter (fun b => decide (b = a)) = [] := by
        rw [List.filter_eq_nil_iff]
        intro c hc hca
        exact h1 (by simpa using (of_decide_eq_true hca) ▸ hc)
      simp [this]
    · have hne : ¬ b = a := fun he => h1 (he ▸ ha)
      rw [List.filter_cons_of_neg (by simpa using hne)]
      exact ih h2 ha

theorem sum_one {α : Type} (l : List α) (P : α → Bool) (h : α → ℝ) (a : α) (ha : l.filter P = [a]) :
    (l.map (fun o => if P o then h o else 0)).sum = h a := by
  rw [← sum_filter, ha]; simp

theorem sum_add_list {α : Type} (l : List α) (f g d : α → ℝ) (h : ∀ o ∈ l, f o = g o + d o) :
    (l.map f).sum = (l.map g).sum + (l.map d).sum := by
  induction l with
  | nil => simp
  | cons a l ih =>
    simp only [List.map_cons, List.sum_cons, h a List.mem_cons_self, ih (fun o ho => h o (List.mem_cons_of_mem _ ho))]
    ring

/-- Generators have distinct names. -/
def Distinct (ports : List Port) : Prop := ((ports.filter (·.isGen)).map (·.name)).Nodup

theorem distinct_eq {ports : List Port} (h : Distinct ports) {o o' : Port} (ho : o ∈ ports) (ho' : o' ∈ ports)
    (hg : o.isGen = true) (hg' : o'.isGen = true) (hn : o.name = o'.name) : o = o' :=
  List.inj_on_of_nodup_map h (List.mem_filter.mpr ⟨ho, hg⟩) (List.mem_filter.mpr ⟨ho', hg'⟩) hn

theorem filter_gen {ports : List Port} (h : Distinct ports) {o : Port} (ho : o ∈ ports) (hg : o.isGen = true) :
    ports.filter (fun o' => o'.isGen && decide (o'.name = o.name)) = [o] := by
  unfold Distinct at h
  have e : ports.filter (fun o' => o'.isGen && decide (o'.name = o.name)) =
      (ports.filter (·.isGen)).filter (fun o' => decide (o'.name = o.name)) := by
    rw [List.filter_filter]
    apply List.filter_congr
    intro a _
    rw [Bool.and_comm]
  rw [e]
  have hm : o ∈ ports.filter (·.isGen) := List.mem_filter.mpr ⟨ho, hg⟩
  generalize ports.filter (·.isGen) = l at h hm
  induction l with
  | nil => cases hm
  | cons a l ih =>
    simp only [List.map_cons, List.nodup_cons] at h
    rcases List.mem_cons.mp hm with rfl | hm
    · have : l.filter (fun o' => decide (o'.name = o.name)) = [] := by
        rw [List.filter_eq_nil_iff]
        intro b hb hbn
        exact h.1 (List.mem_map.mpr ⟨b, hb, by simpa using hbn⟩)
      simp [this]
    · have hne : ¬ a.name = o.name := fun he => h.1 (List.mem_map.mpr ⟨o, hm, he.symm⟩)
      rw [List.filter_cons_of_neg (by simpa using hne)]
      exact ih h.2 hm

theorem distinct_map {ports : List Port} (h : Distinct ports) (u : Port → Port) (hu : ∀ o ∈ ports, Same o (u o)) :
    Distinct (ports.map u) := by
  unfold Distinct at h ⊢
  have : ((ports.map u).filter (·.isGen)).map (·.name) = (ports.filter (·.isGen)).map (·.name) := by
    clear h
    induction ports with
    | nil => rfl
    | cons a l ih =>
      have ha := hu a List.mem_cons_self
      have ih := ih (fun o ho => hu o (List.mem_cons_of_mem _ ho))
      simp only [List.map_cons, List.filter_cons, ha.isGen]
      split
      · simp only [List.map_cons, ih, ha.name]
      · exact ih
  rw [this]; exact h

/-- Total of one-ports at a bus. -/
noncomputable def portsP (ports : List Port) (x : Name) : ℝ := (ports.map (giveP x)).sum
noncomputable def portsQ (ports : List Port) (x : Name) : ℝ := (ports.map (giveQ x)).sum

/-- What flows into links at a bus. -/
noncomputable def intoLinks (flows : List (List (Name × ℝ))) (x : Name) : ℝ :=
  (flows.map (fun k => (k.map (fun q => if q.1 = x then q.2 else 0)).sum)).sum

theorem feedP_eq (ports : List Port) (links : List (LinkRow ℝ)) (x : Name) :
    feedP ports links x = portsP ports x - intoLinks (links.map LinkRow.flows) x := by
  unfold feedP portsP intoLinks
  rw [sum_filter, sub_eq_add_neg]
  congr 1
  · congr 1
    apply List.map_congr_left
    intro o _
    simp only [giveP, Bool.and_eq_true, decide_eq_true_eq, mul_comm]
  · rw [List.map_map, sum_neg_list]
    congr 2
    apply List.map_congr_left
    intro k _
    simp only [Function.comp]
    rw [sum_filter]
    simp

theorem feedQ_eq (ports : List Port) (x : Name) : feedQ ports x = portsQ ports x := by
  unfold feedQ portsQ
  rw [sum_filter]
  congr 1
  apply List.map_congr_left
  intro o _
  simp only [giveQ, Bool.and_eq_true, decide_eq_true_eq, mul_comm]

/-- All components in service at a bus have a number as dispatch. -/
def Finite (ports : List Port) (x : Name) : Prop := ∀ o ∈ ports, o.active = true → o.bus = x → ∃ p, o.p = some p

theorem set_finite (ports : List Port) (bs : List Name) (x : Name) (hx : x ∈ bs) : Finite (ports.map (setPoint bs)) x := by
  intro o ho ha hb
  obtain ⟨o', _, rfl⟩ := List.mem_map.mp ho
  have hs := same_set bs o'
  rw [hs.active] at ha
  rw [hs.bus] at hb
  exact ⟨o'.pSet, by simp [setPoint, ha, hb, hx]⟩

/-- The dispatch of one generator changes the power at its bus only. -/
theorem portsP_addP (ports : List Port) (h : Distinct ports) (o : Port) (ho : o ∈ ports) (hg : o.isGen = true) (d : ℝ) (x : Name)
    (hf : Finite ports x) :
    portsP (ports.map (addP o.name d)) x = portsP ports x + if o.active = true ∧ o.bus = x then o.sign * d else 0 := by
  unfold portsP
  rw [List.map_map, sum_add_list ports _ (giveP x)
    (fun o' => if (o'.isGen && decide (o'.name = o.name)) then (if o'.active = true ∧ o'.bus = x then o'.sign * d else 0) else 0),
    sum_one _ _ _ o (filter_gen h ho hg)]
  intro o' ho'
  simp only [Function.comp, giveP, (same_addP o.name d o').active, (same_addP o.name d o').bus, (same_addP o.name d o').sign]
  by_cases hc : o'.active = true ∧ o'.bus = x
  · obtain ⟨p, hp⟩ := hf o' ho' hc.1 hc.2
    simp only [hc, and_self, if_true, addP]
    split
    · simp only [hp, Option.map_some, Option.getD_some]
      ring
    · simp
  · simp [hc]

theorem finite_addP (ports : List Port) (g : Name) (d : ℝ) (x : Name) (hf : Finite ports x) :
    Finite (ports.map (addP g d)) x := by
  intro o ho ha hb
  obtain ⟨o', ho', rfl⟩ := List.mem_map.mp ho
  rw [(same_addP g d o').active] at ha
  rw [(same_addP g d o').bus] at hb
  obtain ⟨p, hp⟩ := hf o' ho' ha hb
  unfold addP
  split
  · exact ⟨p + d, by simp [hp]⟩
  · exact ⟨p, hp⟩

theorem portsQ_addQ1 (ports : List Port) (h : Distinct ports) (o : Port) (ho : o ∈ ports) (hg : o.isGen = true) (d : ℝ) (x : Name) :
    portsQ (ports.map (addQ1 o.name d)) x = portsQ ports x + if o.active = true ∧ o.bus = x then o.sign * d else 0 := by
  unfold portsQ
  rw [List.map_map, sum_add_list ports _ (giveQ x)
    (fun o' => if (o'.isGen && decide (o'.name = o.name)) then (if o'.active = true ∧ o'.bus = x then o'.sign * d else 0) else 0),
    sum_one _ _ _ o (filter_gen h ho hg)]
  intro o' ho'
  simp only [Function.comp, giveQ, (same_addQ1 o.name d o').active, (same_addQ1 o.name d o').bus, (same_addQ1 o.name d o').sign]
  by_cases hc : o'.active = true ∧ o'.bus = x
  · simp only [hc, and_self, if_true, addQ1]
    split
    · simp only []
      ring
    · simp
  · simp [hc]

/-- Changes of `p` leave the sums of `q`, and the other way round. -/
theorem portsQ_of_q (ports : List Port) (u : Port → Port) (hu : ∀ o, Same o (u o)) (hq : ∀ o, (u o).q = o.q) (x : Name) :
    portsQ (ports.map u) x = portsQ ports x := by
  unfold portsQ
  rw [List.map_map]
  congr 1
  apply List.map_congr_left
  intro o _
  simp only [Function.comp, giveQ, (hu o).active, (hu o).bus, (hu o).sign, hq o]

theorem portsP_of_p (ports : List Port) (u : Port → Port) (hu : ∀ o, Same o (u o)) (hp : ∀ o, (u o).p = o.p) (x : Name) :
    portsP (ports.map u) x = portsP ports x := by
  unfold portsP
  rw [List.map_map]
  congr 1
  apply List.map_congr_left
  intro o _
  simp only [Function.comp, giveP, (hu o).active, (hu o).bus, (hu o).sign, hp o]

theorem finite_of_p (ports : List Port) (u : Port → Port) (hu : ∀ o, Same o (u o)) (hp : ∀ o, (u o).p = o.p) (x : Name)
    (hf : Finite ports x) : Finite (ports.map u) x := by
  intro o ho ha hb
  obtain ⟨o', ho', rfl⟩ := List.mem_map.mp ho
  rw [(hu o').active] at ha
  rw [(hu o').bus] at hb
  rw [hp]
  exact hf o' ho' ha hb

/-! ## Generators of several buses -/

variable {nb m : Nat}

/-- The generators that hold voltages: the slack generator and one per PV bus, at their buses, in service, with sign 1. -/
structure Holds (S : Sub nb m) (ports : List Port) : Prop where
  bus : Function.Injective S.bus
  names : Distinct ports
  slack : ∃ o ∈ ports, o.isGen = true ∧ S.slackGen = some o.name ∧ o.bus = S.bus 0 ∧ o.active = true ∧ o.sign = 1
  pv : ∀ i, 0 < i.val → i.val < 1 + S.npv →
    ∃ o ∈ ports, o.isGen = true ∧ o.name = S.pvGen i ∧ o.bus = S.bus i ∧ o.active = true ∧ o.sign = 1

theorem Holds.map {S : Sub nb m} {ports : List Port} (h : Holds S ports) (u : Port → Port) (hu : ∀ o ∈ ports, Same o (u o)) :
    Holds S (ports.map u) := by
  refine ⟨h.bus, distinct_map h.names u hu, ?_, ?_⟩
  · obtain ⟨o, ho, h1, h2, h3, h4, h5⟩ := h.slack
    have hs := hu o ho
    exact ⟨u o, List.mem_map.mpr ⟨o, ho, rfl⟩, hs.isGen ▸ h1, hs.name ▸ h2, hs.bus ▸ h3, hs.active ▸ h4, hs.sign ▸ h5⟩
  · intro i hi hi'
    obtain ⟨o, ho, h1, h2, h3, h4, h5⟩ := h.pv i hi hi'
    have hs := hu o ho
    exact ⟨u o, List.mem_map.mpr ⟨o, ho, rfl⟩, hs.isGen ▸ h1, hs.name ▸ h2, hs.bus ▸ h3, hs.active ▸ h4, hs.sign ▸ h5⟩

/-- The change of `q` of a generator at bus `i`. -/
theorem addQ_term {S : Sub nb m} {ports : List Port} (h : Holds S ports) (P : Problem (nb + 1) m) (gs : Guess (nb + 1)) (g : Name)
    (hg : S.slackGen = some g) (i : Fin (nb + 1)) (o : Port) (ho : o ∈ ports) (hgen : o.isGen = true) (hb : o.bus = S.bus i) :
    (addQ S P gs g o).q = o.q + if (i.val = 0 ∧ o.name = g) ∨ (0 < i.val ∧ i.val < 1 + S.npv ∧ o.name = S.pvGen i) then
      busQ P gs i - (P.s i).im else 0 := by
  have hfil : ∀ j : Fin (nb + 1), 0 < j.val → j.val < 1 + S.npv → S.pvGen j = o.name → j = i := by
    intro j h1 h2 h3
    obtain ⟨o', ho', g1, g2, g3, -⟩ := h.pv j h1 h2
    have := distinct_eq h.names ho' ho g1 hgen (g2.trans h3)
    subst this
    exact h.bus (g3.symm.trans hb)
  have hslack : o.name = g → i = 0 := by
    intro hn
    obtain ⟨o', ho', g1, g2, g3, -⟩ := h.slack
    have := distinct_eq h.names ho' ho g1 hgen (by
      have : some o'.name = some o.name := by rw [← g2, hg, hn]
      exact Option.some.inj this)
    subst this
    exact h.bus (hb.symm.trans g3)
  have hsum : (((List.finRange (nb + 1)).filter (fun j => decide (0 < j.val ∧ j.val < 1 + S.npv ∧ S.pvGen j = o.name))).map
      (fun j => busQ P gs j - (P.s j).im)).sum =
      if 0 < i.val ∧ i.val < 1 + S.npv ∧ o.name = S.pvGen i then busQ P gs i - (P.s i).im else 0 := by
    split
    · rename_i hc
      have : (List.finRange (nb + 1)).filter (fun j => decide (0 < j.val ∧ j.val < 1 + S.npv ∧ S.pvGen j = o.name)) = [i] := by
        have e : (List.finRange (nb + 1)).filter (fun j => decide (0 < j.val ∧ j.val < 1 + S.npv ∧ S.pvGen j = o.name)) =
            (List.finRange (nb + 1)).filter (fun j => decide (j = i)) := by
          apply List.filter_congr
          intro j _
          rw [decide_eq_decide]
          constructor
          · rintro ⟨h1, h2, h3⟩
            exact hfil j h1 h2 h3
          · rintro rfl
            exact ⟨hc.1, hc.2.1, hc.2.2.symm⟩
        rw [e]
        exact filter_one _ (List.nodup_finRange (nb + 1)) i (List.mem_finRange i)
      rw [this]; simp
    · rename_i hc
      have : (List.finRange (nb + 1)).filter (fun j => decide (0 < j.val ∧ j.val < 1 + S.npv ∧ S.pvGen j = o.name)) = [] := by
        rw [List.filter_eq_nil_iff]
        intro j _ hj
        have hj' : 0 < j.val ∧ j.val < 1 + S.npv ∧ S.pvGen j = o.name := by simpa using hj
        have := hfil j hj'.1 hj'.2.1 hj'.2.2
        subst this
        exact hc ⟨hj'.1, hj'.2.1, hj'.2.2.symm⟩
      rw [this]; simp
  unfold addQ
  rw [if_pos hgen]
  simp only [hsum]
  by_cases hn : o.name = g
  · have h0 := hslack hn
    subst h0
    simp [hn]
  · simp [hn]

theorem portsQ_addQ {S : Sub nb m} {ports : List Port} (h : Holds S ports) (P : Problem (nb + 1) m) (gs : Guess (nb + 1)) (g : Name)
    (hg : S.slackGen = some g) (i : Fin (nb + 1)) :
    portsQ (ports.map (addQ S P gs g)) (S.bus i) = portsQ ports (S.bus i) +
      if i.val < 1 + S.npv then busQ P gs i - (P.s i).im else 0 := by
  -- the generator that holds the voltage of the bus
  have hkey : i.val < 1 + S.npv → ∃ o ∈ ports, o.isGen = true ∧ o.bus = S.bus i ∧ o.active = true ∧ o.sign = 1 ∧
      ∀ n, ((i.val = 0 ∧ n = g) ∨ (0 < i.val ∧ i.val < 1 + S.npv ∧ n = S.pvGen i)) ↔ n = o.name := by
    intro hi
    by_cases h0 : i.val = 0
    · obtain ⟨o, ho, h1, h2, h3, h4, h5⟩ := h.slack
      have hi0 : i = 0 := Fin.ext h0
      subst hi0
      have : o.name = g := Option.some.inj (h2.symm.trans hg)
      exact ⟨o, ho, h1, h3, h4, h5, fun n => by simp [this]⟩
    · obtain ⟨o, ho, h1, h2, h3, h4, h5⟩ := h.pv i (by omega) hi
      exact ⟨o, ho, h1, h3, h4, h5, fun n => by rw [h2]; exact ⟨fun h => by
        rcases h with h | h
        · exact absurd h.1 h0
        · exact h.2.2, fun hn => Or.inr ⟨by omega, hi, hn⟩⟩⟩
  unfold portsQ
  rw [List.map_map]
  by_cases hi : i.val < 1 + S.npv
  · rw [if_pos hi]
    obtain ⟨o, ho, hog, hob, hoa, hos, hk⟩ := hkey hi
    rw [sum_add_list ports _ (giveQ (S.bus i))
      (fun o' => if (o'.isGen && decide (o'.name = o.name)) then
        (if o'.active = true ∧ o'.bus = S.bus i then o'.sign * (busQ P gs i - (P.s i).im) else 0) else 0),
      sum_one _ _ _ o (filter_gen h.names ho hog)]
    · simp [hoa, hob, hos]
    · intro o' ho'
      have hs := same_addQ S P gs g o'
      simp only [Function.comp, giveQ, hs.active, hs.bus, hs.sign]
      by_cases hc : o'.active = true ∧ o'.bus = S.bus i
      · simp only [hc, and_self, if_true]
        by_cases hgen : o'.isGen = true
        · rw [addQ_term h P gs g hg i o' ho' hgen hc.2]
          simp only [hk o'.name, hgen, Bool.true_and, decide_eq_true_eq]
          split <;> ring
        · simp [addQ, hgen]
      · simp [hc]
  · rw [if_neg hi, add_zero]
    congr 1
    apply List.map_congr_left
    intro o' ho'
    have hs := same_addQ S P gs g o'
    simp only [Function.comp, giveQ, hs.active, hs.bus, hs.sign]
    by_cases hc : o'.active = true ∧ o'.bus = S.bus i
    · by_cases hgen : o'.isGen = true
      · have hno : ¬ ((i.val = 0 ∧ o'.name = g) ∨ (0 < i.val ∧ i.val < 1 + S.npv ∧ o'.name = S.pvGen i)) := by
          rintro (⟨h1, -⟩ | ⟨-, h1, -⟩) <;> omega
        rw [addQ_term h P gs g hg i o' ho' hgen hc.2, if_neg hno, add_zero]
      · simp [addQ, hgen]
    · simp [hc]

end Verif.PowerFlow.Results
