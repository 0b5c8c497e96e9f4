import Verif.PowerFlow.Slack
import Verif.PowerFlow.AdmittanceProps
import Mathlib.Algebra.Order.Ring.Rat
import Mathlib.Algebra.BigOperators.Ring.List

/-! # Properties of the distributed slack (C34) -/

namespace Verif.PowerFlow.Slack

variable {F : Type} [Field F] [DecidableEq F]

/-- The weight of `n` in a series: its entry, or 0 if there is none. -/
def WeightIn (w : List (Name × F)) (n : Name) (x : F) : Prop :=
  (n, x) ∈ w ∨ ((∀ y, (n, y) ∉ w) ∧ x = 0)

/-- All keys are generators of the sub-network. -/
def OnGenerators (w : List (Name × F)) (gens : List (Gen F)) (buses : List Name) : Prop :=
  ∀ e ∈ w, ∃ g ∈ gens, g.bus ∈ buses ∧ g.name = e.1

/-- Documented weight of a bus. -/
inductive BusWeight (gens : List (Gen F)) (buses : List Name) : Weights F → (Name → F) → Prop
  | pSet : BusWeight gens buses .pSet
      (fun b => (gens.map (fun g => if g.bus = b then g.pSet else 0)).sum)
  | pNom : BusWeight gens buses .pNom
      (fun b => (gens.map (fun g => if g.bus = b then g.pNom else 0)).sum)
  | pNomOpt : BusWeight gens buses .pNomOpt
      (fun b => (gens.map (fun g => if g.bus = b then g.pNomOpt else 0)).sum)
  | generators (named w) (val : Gen F → F) (hw : OnGenerators w gens buses)
      (hval : ∀ g ∈ gens, WeightIn w g.name (val g)) :
      BusWeight gens buses (.series named w)
        (fun b => (gens.map (fun g => if g.bus = b then val g else 0)).sum)
  | buses (named w) (val : Name → F) (hw : ¬ OnGenerators w gens buses)
      (hval : ∀ b ∈ buses, WeightIn w b (val b)) : BusWeight gens buses (.series named w) val

theorem weightOf_eq (w : List (Name × F)) (hn : (w.map Prod.fst).Nodup) (n : Name) (x : F)
    (h : WeightIn w n x) : weightOf w n = x := by
  unfold weightOf
  rcases h with h | ⟨h, rfl⟩
  · cases hf : w.find? (fun e => e.1 = n) with
    | none =>
      have := List.find?_eq_none.mp hf _ h
      simp at this
    | some e =>
      have h1 : e.1 = n := by simpa using List.find?_some hf
      have h2 := List.mem_of_find?_eq_some hf
      obtain ⟨e1, e2⟩ := e
      simp only at h1
      subst h1
      by_contra hne
      have hp := List.inj_on_of_nodup_map hn h2 h rfl
      exact hne (by simpa using hp)
  · cases hf : w.find? (fun e => e.1 = n) with
    | none => rfl
    | some e =>
      have h1 : e.1 = n := by simpa using List.find?_some hf
      have h2 := List.mem_of_find?_eq_some hf
      exact absurd (by rw [← h1]; exact h2) (h e.2)

theorem sumAt_eq (gens : List (Gen F)) (val val' : Gen F → F) (b : Name)
    (h : ∀ g ∈ gens, val g = val' g) :
    sumAt gens val b = (gens.map (fun g => if g.bus = b then val' g else 0)).sum := by
  unfold sumAt
  induction gens with
  | nil => rfl
  | cons g t ih =>
    have ht := ih (fun g hg => h g (List.mem_cons_of_mem _ hg))
    by_cases hb : g.bus = b
    · rw [List.filter_cons_of_pos (by simpa using hb)]
      simp [hb, ht, h g (by simp)]
    · rw [List.filter_cons_of_neg (by simpa using hb)]
      simp [hb, ht]

theorem onGen_iff (w : List (Name × F)) (gens : List (Gen F)) (buses : List Name) :
    (w.all (fun e => gens.any (fun g => g.bus ∈ buses && g.name = e.1)) = true) ↔
      OnGenerators w gens buses := by
  simp [OnGenerators]

theorem normedOver_eq (buses : List Name) (val bw : Name → F) (h : ∀ b ∈ buses, val b = bw b)
    (htot : (buses.map bw).sum ≠ 0) (b : Name) (hb : b ∈ buses) :
    normedOver buses val b = some (bw b / (buses.map bw).sum) := by
  have : buses.map val = buses.map bw := List.map_congr_left h
  unfold normedOver share
  rw [this, if_neg htot, h b hb]

/-- C34 (bus weights): whenever the weights are accepted and do not sum to zero over the
sub-network, every bus takes a share proportional to its documented weight, and the shares sum
to one. -/
theorem bus_shares (sw : Weights F) (gens : List (Gen F)) (buses : List Name) (f : Name → Option F)
    (hok : busWeights sw gens buses = .ok f)
    (hn : ∀ named w, sw = .series named w → (w.map Prod.fst).Nodup)
    (bw : Name → F) (hbw : BusWeight gens buses sw bw) (htot : (buses.map bw).sum ≠ 0) :
    (∀ b ∈ buses, ∃ x, f b = some x ∧ x * (buses.map bw).sum = bw b) ∧
    (buses.map (fun b => (f b).getD 0)).sum = 1 := by
  have key : ∀ b ∈ buses, f b = some (bw b / (buses.map bw).sum) := by
    cases hbw with
    | pSet =>
      simp only [busWeights, Except.ok.injEq] at hok
      subst hok
      exact fun b hb => normedOver_eq buses _ _
        (fun b _ => sumAt_eq gens _ _ b (fun _ _ => rfl)) htot b hb
    | pNom =>
      simp only [busWeights] at hok
      split at hok
      · simp at hok
      · simp only [Except.ok.injEq] at hok
        subst hok
        exact fun b hb => normedOver_eq buses _ _
          (fun b _ => sumAt_eq gens _ _ b (fun _ _ => rfl)) htot b hb
    | pNomOpt =>
      simp only [busWeights] at hok
      split at hok
      · simp at hok
      · simp only [Except.ok.injEq] at hok
        subst hok
        exact fun b hb => normedOver_eq buses _ _
          (fun b _ => sumAt_eq gens _ _ b (fun _ _ => rfl)) htot b hb
    | generators named w val hw hval =>
      have hnd := hn named w rfl
      simp only [busWeights, (onGen_iff w gens buses).mpr hw, if_true] at hok
      split at hok
      · simp only [Except.ok.injEq] at hok
        subst hok
        exact fun b hb => normedOver_eq buses _ _ (fun b _ => sumAt_eq gens _ _ b
          (fun g hg => weightOf_eq w hnd _ _ (hval g hg))) htot b hb
      · simp at hok
    | buses named w val hw hval =>
      have hnd := hn named w rfl
      simp only [busWeights] at hok
      rw [if_neg (fun h => hw ((onGen_iff w gens buses).mp h))] at hok
      split at hok
      · simp only [Except.ok.injEq] at hok
        subst hok
        exact fun b hb => normedOver_eq buses _ _
          (fun b hb => weightOf_eq w hnd _ _ (hval b hb)) htot b hb
      · simp at hok
  refine ⟨fun b hb => ⟨_, key b hb, by field_simp⟩, ?_⟩
  have : buses.map (fun b => (f b).getD 0) = buses.map (fun b => bw b * ((buses.map bw).sum)⁻¹) :=
    List.map_congr_left (fun b hb => by rw [key b hb]; simp [div_eq_mul_inv])
  rw [this, List.sum_map_mul_right]
  exact mul_inv_cancel₀ htot

/-- Documented weight of a generator among those of its bus. -/
inductive GenWeight (gens : List (Gen F)) (buses : List Name) : Weights F → (Gen F → F) → Prop
  | pSet : GenWeight gens buses .pSet Gen.pSet
  | pNom : GenWeight gens buses .pNom Gen.pNom
  | pNomOpt : GenWeight gens buses .pNomOpt Gen.pNom
  | generators (named w) (val : Gen F → F) (hw : OnGenerators w gens buses)
      (hval : ∀ g ∈ gens, WeightIn w g.name (val g)) : GenWeight gens buses (.series named w) val
  | buses (named w) (hw : ¬ OnGenerators w gens buses) :
      GenWeight gens buses (.series named w) Gen.pNom

theorem groupShares_eq (sw : Weights F) (gens : List (Gen F)) (buses : List Name)
    (group : List (Gen F)) (hsub : ∀ g ∈ group, g ∈ gens) (f : Gen F → Option F)
    (hok : groupShares sw gens buses group = .ok f)
    (hn : ∀ named w, sw = .series named w → (w.map Prod.fst).Nodup)
    (gw : Gen F → F) (hgw : GenWeight gens buses sw gw) (htot : (group.map gw).sum ≠ 0) :
    ∀ g ∈ group, f g = some (gw g / (group.map gw).sum) := by
  have hpnom : groupShares.byPNom group = .ok f → (group.map Gen.pNom).sum ≠ 0 →
      ∀ g ∈ group, f g = some (g.pNom / (group.map Gen.pNom).sum) := by
    intro h ht
    unfold groupShares.byPNom at h
    split at h
    · simp only [Except.ok.injEq] at h
      subst h
      intro g _; simp [share, ht]
    · simp at h
  cases hgw with
  | pSet =>
    simp only [groupShares, Except.ok.injEq] at hok
    subst hok
    intro g _; simp [share, htot]
  | pNom => exact hpnom hok htot
  | pNomOpt => exact hpnom hok htot
  | generators named w _ hw hval =>
    have hnd := hn named w rfl
    simp only [groupShares, (onGen_iff w gens buses).mpr hw, if_true] at hok
    split at hok
    · simp only [Except.ok.injEq] at hok
      subst hok
      have e : ∀ g ∈ group, weightOf w g.name = gw g :=
        fun g hg => weightOf_eq w hnd _ _ (hval g (hsub g hg))
      intro g hg
      simp only [share]
      rw [List.map_congr_left e, if_neg htot, e g hg]
    · simp at hok
  | buses named w hw =>
    simp only [groupShares] at hok
    rw [if_neg (fun h => hw ((onGen_iff w gens buses).mp h))] at hok
    exact hpnom hok htot

/-- C34 (generators): whenever the distribution over the generators succeeds, then at every bus
with generators whose weights do not sum to zero, each of them is adjusted in proportion to its
weight and the adjustments sum to the adjustment of the bus.  Missing for the full claim: weights
which are not accepted, see the counterexamples below. -/
theorem generator_adjustments_partial (sw : Weights F) (gens : List (Gen F)) (buses : List Name)
    (adj : Name → F) (bs : List Name) (hbs : bs.Nodup) (out : List (Gen F × Option F))
    (hok : adjustAll sw gens buses adj bs = .ok out)
    (hn : ∀ named w, sw = .series named w → (w.map Prod.fst).Nodup)
    (gw : Gen F → F) (hgw : GenWeight gens buses sw gw) :
    (∀ e ∈ out, e.1 ∈ gens ∧ e.1.bus ∈ bs) ∧
    ∀ b ∈ bs, (∃ g ∈ gens, g.bus = b) →
      ((gens.filter (fun g => g.bus = b)).map gw).sum ≠ 0 →
      (∀ g ∈ gens, g.bus = b → ∃ a, (g, some a) ∈ out ∧
        a * ((gens.filter (fun g => g.bus = b)).map gw).sum = adj b * gw g) ∧
      ((out.filter (fun e => e.1.bus = b)).map (fun e => e.2.getD 0)).sum = adj b := by
  induction bs generalizing out with
  | nil => simp only [adjustAll, Except.ok.injEq] at hok; subst hok; simp
  | cons b rest ih =>
    obtain ⟨hnb, hrest⟩ := List.nodup_cons.mp hbs
    unfold adjustAll at hok
    cases hg : gens.filter (fun g => decide (g.bus = b)) with
    | nil =>
      rw [hg] at hok
      obtain ⟨h1, h2⟩ := ih hrest out hok
      refine ⟨fun e he => ⟨(h1 e he).1, List.mem_cons_of_mem _ (h1 e he).2⟩, ?_⟩
      intro b' hb' hex
      rcases List.mem_cons.mp hb' with rfl | hb'
      · obtain ⟨g, hg1, hg2⟩ := hex
        have : g ∈ gens.filter (fun g => decide (g.bus = b')) := by simp [hg1, hg2]
        rw [hg] at this; simp at this
      · exact h2 b' hb' hex
    | cons g0 gs =>
      simp only [hg] at hok
      cases ha : adjustGroup sw gens buses (adj b) (g0 :: gs) with
      | error e => simp [ha] at hok
      | ok o =>
        cases hr : adjustAll sw gens buses adj rest with
        | error e => simp [ha, hr] at hok
        | ok o' =>
          simp only [ha, hr, Except.ok.injEq] at hok
          subst hok
          obtain ⟨h1, h2⟩ := ih hrest o' hr
          unfold adjustGroup at ha
          cases hs : groupShares sw gens buses (g0 :: gs) with
          | error e => simp [hs] at ha
          | ok f =>
            simp only [hs, Except.ok.injEq] at ha
            have hmem : ∀ g, g ∈ g0 :: gs ↔ g ∈ gens ∧ g.bus = b := by
              intro g; rw [← hg]; simp
            have ho : ∀ e ∈ o, e.1 ∈ gens ∧ e.1.bus = b := by
              intro e he
              rw [← ha] at he
              obtain ⟨g, hgm, rfl⟩ := List.mem_map.mp he
              exact (hmem g).mp hgm
            refine ⟨?_, ?_⟩
            · intro e he
              rcases List.mem_append.mp he with he | he
              · exact ⟨(ho e he).1, by simp [(ho e he).2]⟩
              · exact ⟨(h1 e he).1, List.mem_cons_of_mem _ (h1 e he).2⟩
            · intro b' hb' hex htot
              rcases List.mem_cons.mp hb' with rfl | hb'
              · rw [hg] at htot
                have hsh := groupShares_eq sw gens buses (g0 :: gs)
                  (fun g hgm => ((hmem g).mp hgm).1) f hs hn gw hgw htot
                rw [hg]
                refine ⟨?_, ?_⟩
                · intro g hg1 hg2
                  have hgm := (hmem g).mpr ⟨hg1, hg2⟩
                  refine ⟨adj b' * (gw g / (((g0 :: gs).map gw).sum)), ?_, by field_simp⟩
                  apply List.mem_append_left
                  rw [← ha]
                  refine List.mem_map.mpr ⟨g, hgm, ?_⟩
                  rw [hsh g hgm]; rfl
                · rw [List.filter_append]
                  have f1 : o.filter (fun e => decide (e.1.bus = b')) = o :=
                    List.filter_eq_self.mpr (fun e he => by simp [(ho e he).2])
                  have f2 : o'.filter (fun e => decide (e.1.bus = b')) = [] := by
                    refine List.filter_eq_nil_iff.mpr (fun e he => ?_)
                    have := (h1 e he).2
                    simp only [decide_eq_true_eq]
                    intro hc; rw [hc] at this; exact hnb this
                  rw [f1, f2, List.append_nil, ← ha, List.map_map]
                  have : List.map ((fun e : Gen F × Option F => e.2.getD 0) ∘
                      fun g => (g, (f g).map (adj b' * ·))) (g0 :: gs) =
                      List.map (fun g => gw g * (adj b' * (((g0 :: gs).map gw).sum)⁻¹)) (g0 :: gs) := by
                    refine List.map_congr_left (fun g hgm => ?_)
                    simp only [Function.comp, hsh g hgm, Option.map_some, Option.getD_some]
                    rw [div_eq_mul_inv]; ring
                  rw [this, List.sum_map_mul_right]
                  field_simp
              · obtain ⟨h3, h4⟩ := h2 b' hb' hex htot
                have hne : b' ≠ b := fun h => hnb (h ▸ hb')
                refine ⟨?_, ?_⟩
                · intro g hg1 hg2
                  obtain ⟨a, ha1, ha2⟩ := h3 g hg1 hg2
                  exact ⟨a, List.mem_append_right _ ha1, ha2⟩
                · rw [List.filter_append]
                  have f1 : o.filter (fun e => decide (e.1.bus = b')) = [] :=
                    List.filter_eq_nil_iff.mpr (fun e he => by simp [(ho e he).2, hne.symm])
                  rw [f1, List.nil_append, h4]

/-! ### Example and counterexamples -/

def g1 : Gen ℚ := ⟨"g1", "a", 30, 30, 10⟩
def g2 : Gen ℚ := ⟨"g2", "a", 10, 50, 20⟩
def g3 : Gen ℚ := ⟨"g3", "b", 60, 60, 30⟩
def g4 : Gen ℚ := ⟨"g4", "a", 0, 40, 5⟩

example : adjustAll .pNom [g1, g2, g3] ["a", "b", "c"] (fun b => if b = "a" then 8 else 12)
    ["a", "b", "c"] = .ok [(g1, some 6), (g2, some 2), (g3, some 12)] := by decide +kernel
example : busWeights .pNom [g1, g2, g3] ["a", "b", "c"] = .ok
    (normedOver ["a", "b", "c"] (sumAt [g1, g2, g3] Gen.pNom)) ∧
    ["a", "b", "c"].map (normedOver ["a", "b", "c"] (sumAt [g1, g2, g3] Gen.pNom)) =
      [some (2 / 5), some (3 / 5), some 0] := ⟨rfl, by decide +kernel⟩

/-- Finding (C34): one generator without nominal capacity makes the distribution by nominal
capacity raise an `AttributeError`, although the others at its bus have a capacity. -/
theorem zero_p_nom_raises :
    adjustAll .pNom [g1, g4] ["a", "b"] (fun _ => 8) ["a", "b"] = .error .attributeError ∧
    adjustAll (.series true [("a", 1)]) [g1, g4] ["a", "b"] (fun _ => 8) ["a", "b"] =
      .error .attributeError := by
  constructor <;> decide +kernel

/-- Finding (C34): weights for generators given as a dictionary (an index without a name) are
rejected for all networks. -/
theorem dict_generator_weights_raise (w : List (Name × F)) (gens : List (Gen F))
    (buses : List Name) (hw : OnGenerators w gens buses) :
    busWeights (.series false w) gens buses = .error .typeError := by
  simp [busWeights, (onGen_iff w gens buses).mpr hw]

/-- Finding (C34): named generator weights must list every generator of a bus. -/
theorem missing_generator_weight_raises :
    adjustAll (.series true [("g1", 1)]) [g1, g2] ["a", "b"] (fun _ => 8) ["a", "b"] =
      .error .keyError := by decide +kernel

/-- Finding (C34): by optimised capacity, the generators of a bus are adjusted in proportion to
their nominal capacity instead. -/
theorem p_nom_opt_uses_p_nom :
    adjustAll .pNomOpt [g1, g2] ["a", "b"] (fun _ => 8) ["a", "b"] =
      .ok [(g1, some 6), (g2, some 2)] ∧ g1.pNomOpt < g2.pNomOpt := by decide +kernel

/-- Finding (C34): a sub-network whose generators all have weight zero gives all its buses the
share zero, so no bus can take up slack power. -/
theorem zero_weights_accepted :
    ∃ f, busWeights .pNom [g4, g3] ["a", "c"] = .ok f ∧ ["a", "c"].map f = [some 0, some 0] :=
  ⟨_, rfl, by decide +kernel⟩

/-- Finding (C34): in a sub-network with a single bus, distribution by capacity turns the dispatch
of all its generators into NaN, for all networks; only `p_set` works. -/
theorem single_bus_capacity_nan (gens group : List (Gen F)) (adj : F) (out : List (Gen F × Option F))
    (h : singleBus .pNom gens group adj = .ok out) : ∀ e ∈ out, e.2 = none := by
  simp only [singleBus] at h
  split at h
  · simp at h
  · simp only [Except.ok.injEq] at h
    subst h
    simp

/-- C34 (single bus, `p_set`): the adjustments are proportional to `p_set` and sum to the
adjustment of the bus. -/
theorem single_bus_p_set_partial (gens group : List (Gen F)) (adj : F)
    (out : List (Gen F × Option F)) (h : singleBus .pSet gens group adj = .ok out)
    (htot : (group.map Gen.pSet).sum ≠ 0) :
    out.map Prod.fst = group ∧
    (∀ e ∈ out, ∃ a, e.2 = some a ∧ a * (group.map Gen.pSet).sum = adj * e.1.pSet) ∧
    (out.map (fun e => e.2.getD 0)).sum = adj := by
  simp only [singleBus] at h
  split at h
  · simp at h
  · simp only [Except.ok.injEq] at h
    subst h
    refine ⟨by simp [Function.comp_def], ?_, ?_⟩
    · intro e he
      obtain ⟨g, hg, rfl⟩ := List.mem_map.mp he
      exact ⟨adj * (g.pSet / (group.map Gen.pSet).sum), by simp [share, htot], by field_simp⟩
    · rw [List.map_map]
      have : List.map ((fun e : Gen F × Option F => e.2.getD 0) ∘ fun g =>
          (g, (share g.pSet ((group.map Gen.pSet).sum)).map (adj * ·))) group =
          group.map (fun g => g.pSet * (adj * ((group.map Gen.pSet).sum)⁻¹)) := by
        refine List.map_congr_left (fun g _ => ?_)
        simp [share, htot, div_eq_mul_inv]; ring
      rw [this, List.sum_map_mul_right]
      field_simp

end Verif.PowerFlow.Slack

namespace Verif.PowerFlow.AC

/-- C34 (bus adjustments): in a converged power flow with distributed slack, the change of every
bus's active power against its set point is its weight times one common slack power, up to the
tolerance; with shares summing to one the changes sum to the slack power, up to the tolerance
times the number of buses. -/
theorem distributed_bus_adjustments {nb m : Nat} (P : Problem nb m) (next : Guess nb → Guess nb)
    (tol : ℝ) (guess : Guess nb) (hc : (solvePF P next tol guess).converged = true)
    (w : Fin nb → ℝ) (hw : P.weights = some w) (hsum : ∑ i, w i = 1) :
    let gs := (solvePF P next tol guess).root
    (∀ i, |(busP P gs i - (P.s i).re) - w i * (-gs.slack)| ≤ tol) ∧
    |(∑ i, (busP P gs i - (P.s i).re)) - (-gs.slack)| ≤ nb * tol := by
  intro gs
  have h1 : ∀ i, |(busP P gs i - (P.s i).re) - w i * (-gs.slack)| ≤ tol := by
    intro i
    have := solvePF_residual P next tol guess hc _ (residual_re P gs i (Or.inl (by simp [hw])))
    rw [mismatch, hw] at this
    simp only [Complex.add_re, Complex.sub_re, Complex.ofReal_re] at this
    have e : busP P gs i = (power P gs i).re := by simp [busP, hw]
    rw [e]
    convert this using 2
    ring
  refine ⟨h1, ?_⟩
  have : (∑ i, (busP P gs i - (P.s i).re)) - (-gs.slack) =
      ∑ i, ((busP P gs i - (P.s i).re) - w i * (-gs.slack)) := by
    rw [Finset.sum_sub_distrib _ (fun i => w i * (-gs.slack)), ← Finset.sum_mul, hsum, one_mul]
  rw [this]
  refine le_trans (Finset.abs_sum_le_sum_abs _ _) ?_
  refine le_trans (Finset.sum_le_card_nsmul _ _ tol (fun i _ => h1 i)) ?_
  simp

end Verif.PowerFlow.AC
