import Verif.PowerFlow.ResultsLemmas

/-!
# C113: the recorded results of `n.pf()` balance at every bus, component by component

C82 is about `buses_t.p`; here the sums are over the recorded values of the components themselves.
-/

namespace Verif.PowerFlow.Results

open AC

variable {nb m : Nat}

/-! ## Specification -/

/-- Net power that generators, loads, stores, storage units and links leave at a bus. -/
noncomputable def supplyP (ports : List Port) (flows : List (List (Name × ℝ))) (x : Name) : ℝ :=
  portsP ports x - intoLinks flows x

noncomputable def supplyQ (ports : List Port) (x : Name) : ℝ := portsQ ports x

/-- Net power that goes into lines, transformers and shunts. -/
noncomputable def drawP (out : Out) (i : Fin (out.nb + 1)) : ℝ :=
  (∑ l with out.bus0 l = i, (out.s0 l).re) + (∑ l with out.bus1 l = i, (out.s1 l).re) +
    (out.shunts.map (fun e => if e.1 = i then e.2.1 else 0)).sum

/-- Reactive power of shunts is recorded as generation. -/
noncomputable def drawQ (out : Out) (i : Fin (out.nb + 1)) : ℝ :=
  (∑ l with out.bus0 l = i, (out.s0 l).im) + (∑ l with out.bus1 l = i, (out.s1 l).im) -
    (out.shunts.map (fun e => if e.1 = i then e.2.2 else 0)).sum

/-- The recorded values balance at all buses of the sub-network and agree with those of the buses. -/
structure Balanced (tol : ℝ) (out : Out) (ports : List Port) (flows : List (List (Name × ℝ))) : Prop where
  finite : ∀ i, Finite ports (out.bus i)
  active : ∀ i, |supplyP ports flows (out.bus i) - drawP out i| ≤ tol
  reactive : ∀ i, |supplyQ ports (out.bus i) - drawQ out i| ≤ tol
  busP : ∀ i, |supplyP ports flows (out.bus i) - out.busP i| ≤ tol
  busQ : ∀ i, supplyQ ports (out.bus i) = out.busQ i

/-- A generator seen by the distribution of slack. -/
def toGen (o : Port) : Slack.Gen ℝ := ⟨o.name, o.bus, o.pNom, o.pNomOpt, o.pSet⟩

/-- Sum of the weights of the generators at a bus. -/
noncomputable def weightAt (ports : List Port) (gw : Slack.Gen ℝ → ℝ) (b : Name) : ℝ :=
  (ports.map (fun o => if o.isGen = true ∧ o.bus = b then gw (toGen o) else 0)).sum

/-- With distributed slack: generators are in service with sign 1, and a bus has a weight only if its generators have. -/
structure Shares (S : Sub nb m) (ports : List Port) (sw : Slack.Weights ℝ) : Prop where
  keys : ∀ named w, sw = .series named w → (w.map Prod.fst).Nodup
  on : ∀ o ∈ ports, o.isGen = true → o.bus ∈ S.buses → o.active = true ∧ o.sign = 1
  weights : ∃ bw gw, Slack.BusWeight (gens ports) S.buses sw bw ∧ Slack.GenWeight (gens ports) S.buses sw gw ∧
    (S.buses.map bw).sum ≠ 0 ∧ ∀ b ∈ S.buses, weightAt ports gw b ≠ 0 ∨
      (bw b = 0 ∧ ∀ o ∈ ports, o.isGen = true → o.bus = b → gw (toGen o) = 0)
  /-- at a single bus only `p_set` works -/
  single : nb = 0 → sw = .pSet

/-! ## Distribution -/

theorem groupShares_value (sw : Slack.Weights ℝ) (gs : List (Slack.Gen ℝ)) (buses : List Name)
    (group : List (Slack.Gen ℝ)) (hsub : ∀ g ∈ group, g ∈ gs) (f : Slack.Gen ℝ → Option ℝ)
    (hok : Slack.groupShares sw gs buses group = .ok f)
    (hn : ∀ named w, sw = .series named w → (w.map Prod.fst).Nodup)
    (gw : Slack.Gen ℝ → ℝ) (hgw : Slack.GenWeight gs buses sw gw) :
    ∀ g ∈ group, ((group.map gw).sum ≠ 0 ∨ gw g = 0) → f g = some (gw g / (group.map gw).sum) := by
  have hshare : ∀ x t : ℝ, (t ≠ 0 ∨ x = 0) → Slack.share x t = some (x / t) := by
    intro x t h
    unfold Slack.share
    by_cases ht : t = 0
    · have hx : x = 0 := h.resolve_left (fun h => h ht)
      simp [ht, hx]
    · simp [ht]
  have hpnom : Slack.groupShares.byPNom group = .ok f →
      ∀ g ∈ group, ((group.map Slack.Gen.pNom).sum ≠ 0 ∨ g.pNom = 0) → f g = some (g.pNom / (group.map Slack.Gen.pNom).sum) := by
    intro h g _ ht
    unfold Slack.groupShares.byPNom at h
    split at h
    · simp only [Except.ok.injEq] at h
      subst h
      exact hshare _ _ ht
    · simp at h
  cases hgw with
  | pSet =>
    simp only [Slack.groupShares, Except.ok.injEq] at hok
    subst hok
    exact fun g _ h => hshare _ _ h
  | pNom => exact hpnom hok
  | pNomOpt => exact hpnom hok
  | generators named w _ hw hval =>
    have hnd := hn named w rfl
    simp only [Slack.groupShares, (Slack.onGen_iff w gs buses).mpr hw, if_true] at hok
    split at hok
    · simp only [Except.ok.injEq] at hok
      subst hok
      have e : ∀ g ∈ group, Slack.weightOf w g.name = gw g :=
        fun g hg => Slack.weightOf_eq w hnd _ _ (hval g (hsub g hg))
      intro g hg h
      simp only
      rw [List.map_congr_left e, e g hg]
      exact hshare _ _ h
    · simp at hok
  | buses named w hw =>
    simp only [Slack.groupShares] at hok
    rw [if_neg (fun h => hw ((Slack.onGen_iff w gs buses).mp h))] at hok
    exact hpnom hok

/-- Which generators are adjusted and by how much. -/
theorem adjustAll_value (sw : Slack.Weights ℝ) (gs : List (Slack.Gen ℝ)) (buses : List Name)
    (adj : Name → ℝ) (bs : List Name) (out : List (Slack.Gen ℝ × Option ℝ))
    (hok : Slack.adjustAll sw gs buses adj bs = .ok out)
    (hn : ∀ named w, sw = .series named w → (w.map Prod.fst).Nodup)
    (gw : Slack.Gen ℝ → ℝ) (hgw : Slack.GenWeight gs buses sw gw) :
    (∀ e ∈ out, e.1 ∈ gs ∧ e.1.bus ∈ bs ∧
      ((((gs.filter (fun g => g.bus = e.1.bus)).map gw).sum ≠ 0 ∨ gw e.1 = 0) →
        e.2 = some (adj e.1.bus * (gw e.1 / ((gs.filter (fun g => g.bus = e.1.bus)).map gw).sum)))) ∧
    ∀ g ∈ gs, g.bus ∈ bs → ∃ e ∈ out, e.1 = g := by
  induction bs generalizing out with
  | nil => simp only [Slack.adjustAll, Except.ok.injEq] at hok; subst hok; simp
  | cons b rest ih =>
    unfold Slack.adjustAll at hok
    cases hg : gs.filter (fun g => decide (g.bus = b)) with
    | nil =>
      rw [hg] at hok
      obtain ⟨h1, h2⟩ := ih out hok
      refine ⟨fun e he => ⟨(h1 e he).1, List.mem_cons_of_mem _ (h1 e he).2.1, (h1 e he).2.2⟩, ?_⟩
      intro g hgm hb
      rcases List.mem_cons.mp hb with hb | hb
      · have : g ∈ gs.filter (fun g => decide (g.bus = b)) := by simp [hgm, hb]
        rw [hg] at this; simp at this
      · exact h2 g hgm hb
    | cons g0 gs' =>
      simp only [hg] at hok
      cases ha : Slack.adjustGroup sw gs buses (adj b) (g0 :: gs') with
      | error e => simp [ha] at hok
      | ok o =>
        cases hr : Slack.adjustAll sw gs buses adj rest with
        | error e => simp [ha, hr] at hok
        | ok o' =>
          simp only [ha, hr, Except.ok.injEq] at hok
          subst hok
          obtain ⟨h1, h2⟩ := ih o' hr
          unfold Slack.adjustGroup at ha
          cases hs : Slack.groupShares sw gs buses (g0 :: gs') with
          | error e => simp [hs] at ha
          | ok f =>
            simp only [hs, Except.ok.injEq] at ha
            have hmem : ∀ g, g ∈ g0 :: gs' ↔ g ∈ gs ∧ g.bus = b := by
              intro g; rw [← hg]; simp
            refine ⟨?_, ?_⟩
            · intro e he
              rcases List.mem_append.mp he with he | he
              · rw [← ha] at he
                obtain ⟨g, hgm, rfl⟩ := List.mem_map.mp he
                obtain ⟨g1, g2⟩ := (hmem g).mp hgm
                refine ⟨g1, by simp [g2], ?_⟩
                simp only [g2, hg]
                intro h
                rw [groupShares_value sw gs buses (g0 :: gs') (fun g h => ((hmem g).mp h).1) f hs hn gw hgw g hgm h]
                rfl
              · exact ⟨(h1 e he).1, List.mem_cons_of_mem _ (h1 e he).2.1, (h1 e he).2.2⟩
            · intro g hgm hb
              by_cases hgb : g.bus = b
              · exact ⟨(g, (f g).map (adj b * ·)), List.mem_append_left _ (by
                  rw [← ha]; exact List.mem_map.mpr ⟨g, (hmem g).mpr ⟨hgm, hgb⟩, rfl⟩), rfl⟩
              · obtain ⟨e, he, heq⟩ := h2 g hgm ((List.mem_cons.mp hb).resolve_left hgb)
                exact ⟨e, List.mem_append_right _ he, heq⟩

theorem mem_gens {ports : List Port} {g : Slack.Gen ℝ} : g ∈ gens ports ↔ ∃ o ∈ ports, o.isGen = true ∧ toGen o = g := by
  unfold gens
  simp only [List.mem_map, List.mem_filter]
  exact ⟨fun ⟨o, ⟨h1, h2⟩, h3⟩ => ⟨o, h1, h2, h3⟩, fun ⟨o, h1, h2, h3⟩ => ⟨o, ⟨h1, h2⟩, h3⟩⟩

theorem weightAt_eq (ports : List Port) (gw : Slack.Gen ℝ → ℝ) (b : Name) :
    (((gens ports).filter (fun g => g.bus = b)).map gw).sum = weightAt ports gw b := by
  unfold gens weightAt
  induction ports with
  | nil => rfl
  | cons o l ih =>
    by_cases hg : o.isGen = true
    · by_cases hb : o.bus = b
      · simp only [List.filter_cons, hg, if_true, List.map_cons, hb, decide_true, List.sum_cons, ih, and_self, toGen]
      · simp only [List.filter_cons, hg, if_true, List.map_cons, hb, decide_false, Bool.false_eq_true, if_false, List.sum_cons, ih,
          and_false, zero_add]
    · simp only [List.filter_cons, hg, Bool.false_eq_true, if_false, ih, List.map_cons, false_and, List.sum_cons, zero_add]

/-- What a list of adjustments has to satisfy. -/
structure Adjusts (ports : List Port) (gw : Slack.Gen ℝ → ℝ) (adj : Name → ℝ) (bs : List Name)
    (out : List (Slack.Gen ℝ × Option ℝ)) : Prop where
  mem : ∀ e ∈ out, e.1 ∈ gens ports ∧ e.1.bus ∈ bs
  value : ∀ e ∈ out, (weightAt ports gw e.1.bus ≠ 0 ∨ gw e.1 = 0) →
    e.2 = some (adj e.1.bus * (gw e.1 / weightAt ports gw e.1.bus))
  all : ∀ g ∈ gens ports, g.bus ∈ bs → ∃ e ∈ out, e.1 = g

theorem gen_unique {ports : List Port} (h : Distinct ports) {o : Port} (ho : o ∈ ports) (hg : o.isGen = true) {g : Slack.Gen ℝ}
    (hm : g ∈ gens ports) (hn : g.name = o.name) : g = toGen o := by
  obtain ⟨o', ho', hg', rfl⟩ := mem_gens.mp hm
  rw [distinct_eq h ho' ho hg' hg hn]

theorem addAll_p {ports : List Port} (h : Distinct ports) {gw : Slack.Gen ℝ → ℝ} {adj : Name → ℝ} {bs : List Name}
    {out : List (Slack.Gen ℝ × Option ℝ)} (ha : Adjusts ports gw adj bs out) {o : Port} (ho : o ∈ ports) (hg : o.isGen = true)
    (hb : o.bus ∈ bs) (hw : weightAt ports gw o.bus ≠ 0 ∨ gw (toGen o) = 0) :
    (addAll out o).p = o.p.map (· + adj o.bus * (gw (toGen o) / weightAt ports gw o.bus)) := by
  unfold addAll
  rw [if_pos hg]
  obtain ⟨e0, he0, heq0⟩ := ha.all (toGen o) (mem_gens.mpr ⟨o, ho, hg, rfl⟩) hb
  split
  · rename_i e he
    have hm := List.mem_of_find?_eq_some he
    have hname : e.1.name = o.name := by simpa using List.find?_some he
    have hgen := gen_unique h ho hg (ha.mem e hm).1 hname
    have hv := ha.value e hm (by rw [hgen]; exact hw)
    simp only [hv, hgen]
    rw [Option.map_eq_bind]
    rfl
  · rename_i he
    have := List.find?_eq_none.mp he e0 he0
    rw [heq0] at this
    simp [toGen] at this

theorem portsP_addAll {ports : List Port} (h : Distinct ports) {gw : Slack.Gen ℝ → ℝ} {adj : Name → ℝ} {bs : List Name}
    {out : List (Slack.Gen ℝ × Option ℝ)} (ha : Adjusts ports gw adj bs out) (b : Name) (hb : b ∈ bs)
    (hon : ∀ o ∈ ports, o.isGen = true → o.bus = b → o.active = true ∧ o.sign = 1)
    (hw : weightAt ports gw b ≠ 0 ∨ ∀ o ∈ ports, o.isGen = true → o.bus = b → gw (toGen o) = 0) (hf : Finite ports b) :
    Finite (ports.map (addAll out)) b ∧ portsP (ports.map (addAll out)) b = portsP ports b +
      if weightAt ports gw b = 0 then 0 else adj b := by
  have hp : ∀ o ∈ ports, o.isGen = true → o.bus = b →
      (addAll out o).p = o.p.map (· + adj b * (gw (toGen o) / weightAt ports gw b)) := by
    intro o ho hg hob
    have := addAll_p h ha ho hg (hob ▸ hb) (by
      rw [hob]
      exact hw.imp_right (fun h => h o ho hg hob))
    rw [hob] at this
    exact this
  refine ⟨?_, ?_⟩
  · intro o' ho' hact hbus
    obtain ⟨o, ho, rfl⟩ := List.mem_map.mp ho'
    have hs := same_addAll out o
    obtain ⟨p, hpo⟩ := hf o ho (hs.active ▸ hact) (hs.bus ▸ hbus)
    by_cases hg : o.isGen = true
    · rw [hp o ho hg (hs.bus ▸ hbus), hpo]
      exact ⟨_, rfl⟩
    · simp [addAll, hg, hpo]
  · unfold portsP
    rw [List.map_map, sum_add_list ports _ (giveP b)
      (fun o => (if o.isGen = true ∧ o.bus = b then gw (toGen o) else 0) * (adj b / weightAt ports gw b))]
    · rw [List.sum_map_mul_right]
      congr 1
      change weightAt ports gw b * _ = _
      by_cases h0 : weightAt ports gw b = 0
      · simp [h0]
      · rw [if_neg h0]
        field_simp
    · intro o ho
      have hs := same_addAll out o
      simp only [Function.comp, giveP, hs.active, hs.bus, hs.sign]
      by_cases hg : o.isGen = true
      · by_cases hob : o.bus = b
        · obtain ⟨h1, h2⟩ := hon o ho hg hob
          obtain ⟨p, hpo⟩ := hf o ho h1 hob
          simp only [h1, hob, hg, and_self, if_true, h2, hp o ho hg hob, hpo, Option.map_some, Option.getD_some]
          ring
        · simp [hob]
      · simp [addAll, hg]

theorem gens_map (ports : List Port) (u : Port → Port) (hu : ∀ o, Same o (u o)) : gens (ports.map u) = gens ports := by
  unfold gens
  induction ports with
  | nil => rfl
  | cons o l ih =>
    have hs := hu o
    simp only [List.map_cons, List.filter_cons, hs.isGen]
    split
    · simp only [List.map_cons, ih, hs.name, hs.bus, hs.pNom, hs.pNomOpt, hs.pSet]
    · exact ih

theorem toGen_same {o o' : Port} (hs : Same o o') : toGen o' = toGen o := by
  simp only [toGen, hs.name, hs.bus, hs.pNom, hs.pNomOpt, hs.pSet]

theorem weightAt_map (ports : List Port) (u : Port → Port) (hu : ∀ o, Same o (u o)) (gw : Slack.Gen ℝ → ℝ) (b : Name) :
    weightAt (ports.map u) gw b = weightAt ports gw b := by
  unfold weightAt
  rw [List.map_map]
  congr 1
  apply List.map_congr_left
  intro o _
  simp only [Function.comp, (hu o).isGen, (hu o).bus, toGen_same (hu o)]

theorem Shares.map {S : Sub nb m} {ports : List Port} {sw : Slack.Weights ℝ} (h : Shares S ports sw) (u : Port → Port)
    (hu : ∀ o, Same o (u o)) : Shares S (ports.map u) sw := by
  refine ⟨h.keys, ?_, ?_, h.single⟩
  · intro o ho hg hb
    obtain ⟨o', ho', rfl⟩ := List.mem_map.mp ho
    have hs := hu o'
    rw [hs.active, hs.sign]
    exact h.on o' ho' (hs.isGen ▸ hg) (hs.bus ▸ hb)
  · obtain ⟨bw, gw, h1, h2, h3, h4⟩ := h.weights
    refine ⟨bw, gw, by rw [gens_map _ u hu]; exact h1, by rw [gens_map _ u hu]; exact h2, h3, ?_⟩
    intro b hb
    rw [weightAt_map _ u hu]
    refine (h4 b hb).imp_right (fun ⟨h5, h6⟩ => ⟨h5, ?_⟩)
    intro o ho hg hbus
    obtain ⟨o', ho', rfl⟩ := List.mem_map.mp ho
    have hs := hu o'
    rw [toGen_same hs]
    exact h6 o' ho' (hs.isGen ▸ hg) (hs.bus ▸ hbus)

/-! ## One sub-network -/

theorem power_draw (S : Sub nb m) (P : Problem (nb + 1) m) (hbr : P.br = S.br) (hsh : P.shunts = S.shunts)
    (r : NewtonResult (Guess (nb + 1)) ℝ) (i : Fin (nb + 1)) :
    (power P r.root i).re = drawP (written S P r) i ∧ (power P r.root i).im = drawQ (written S P r) i := by
  have hsplit := power_split P r.root i
  have hsumre : ∀ L : List (Shunt (nb + 1)), ((L.map
      (fun s => ((shuntP P r.root s : ℂ) - Complex.I * shuntQ P r.root s))).sum).re =
        (L.map (fun s => shuntP P r.root s)).sum := by
    intro L; induction L with
    | nil => simp
    | cons a t ih => simp [ih]
  have hsumim : ∀ L : List (Shunt (nb + 1)), ((L.map
      (fun s => ((shuntP P r.root s : ℂ) - Complex.I * shuntQ P r.root s))).sum).im =
        - (L.map (fun s => shuntQ P r.root s)).sum := by
    intro L; induction L with
    | nil => simp
    | cons a t ih => simp [ih]; ring
  have hre := congrArg Complex.re hsplit
  have him := congrArg Complex.im hsplit
  simp only [Complex.add_re, Complex.add_im, Complex.re_sum, Complex.im_sum, hsumre, hsumim] at hre him
  rw [hre, him, hbr, hsh]
  unfold drawP drawQ written
  simp only [List.map_map, Function.comp_def]
  rw [sum_filter, sum_filter]
  simp only [decide_eq_true_eq, sub_eq_add_neg, and_self]

theorem mem_buses (S : Sub nb m) (i : Fin (nb + 1)) : S.bus i ∈ S.buses := by
  unfold Sub.buses; rw [List.mem_ofFn]; exact ⟨i, rfl⟩

theorem slackPower_bus (S : Sub nb m) (hS : Function.Injective S.bus) (P : Problem (nb + 1) m) (gs : Guess (nb + 1))
    (i : Fin (nb + 1)) : slackPower S P gs (S.bus i) = busP P gs i - (P.s i).re := by
  unfold slackPower
  split
  · rename_i j hj
    have : S.bus j = S.bus i := by simpa using List.find?_some hj
    rw [hS this]
  · rename_i hn
    have := List.find?_eq_none.mp hn i (List.mem_finRange i)
    simp at this

theorem adjusts_of_all (S : Sub nb m) {ports : List Port} {sw : Slack.Weights ℝ} {adj : Name → ℝ}
    {out : List (Slack.Gen ℝ × Option ℝ)} (hok : Slack.adjustAll sw (gens ports) S.buses adj S.buses = .ok out)
    (hn : ∀ named w, sw = .series named w → (w.map Prod.fst).Nodup) {gw : Slack.Gen ℝ → ℝ}
    (hgw : Slack.GenWeight (gens ports) S.buses sw gw) : Adjusts ports gw adj S.buses out := by
  obtain ⟨h1, h2⟩ := adjustAll_value sw (gens ports) S.buses adj S.buses out hok hn gw hgw
  refine ⟨fun e he => ⟨(h1 e he).1, (h1 e he).2.1⟩, ?_, h2⟩
  intro e he hw
  have := (h1 e he).2.2
  rw [weightAt_eq] at this
  exact this hw

theorem addAll_q (out : List (Slack.Gen ℝ × Option ℝ)) (o : Port) : (addAll out o).q = o.q := by
  unfold addAll
  split
  · split <;> rfl
  · rfl

theorem addP_q (g : Name) (x : ℝ) (o : Port) : (addP g x o).q = o.q := by unfold addP; split <;> rfl

theorem addQ_p (S : Sub nb m) (P : Problem (nb + 1) m) (gs : Guess (nb + 1)) (g : Name) (o : Port) : (addQ S P gs g o).p = o.p := by
  unfold addQ; split <;> rfl

theorem addQ1_p (g : Name) (x : ℝ) (o : Port) : (addQ1 g x o).p = o.p := by unfold addQ1; split <;> rfl

/-- C113 for one sub-network with several buses. -/
theorem sub_balanced (S : Sub nb m) (dist : Option (Slack.Weights ℝ)) (tol : ℝ) (links : List (LinkRow ℝ)) (ports ports' : List Port)
    (out : Out) (hok : subPf S dist tol links ports = .ok (out, ports')) (hS : Holds S ports)
    (hd : ∀ sw, dist = some sw → Shares S ports sw) (hc : out.converged = true) :
    Balanced tol out ports' (links.map LinkRow.flows) := by
  unfold subPf at hok
  cases hw : weightsOf S ports dist with
  | error e => simp [hw, Except.bind] at hok
  | ok w =>
    simp only [hw, Except.bind] at hok
    have hsetsame := same_set S.buses
    have hS1 : Holds S (ports.map (setPoint S.buses)) := hS.map _ (fun o _ => hsetsame o)
    have hfin : ∀ i, Finite (ports.map (setPoint S.buses)) (S.bus i) := fun i => set_finite _ _ _ (mem_buses S i)
    have hd1 : ∀ sw, dist = some sw → Shares S (ports.map (setPoint S.buses)) sw := fun sw h => (hd sw h).map _ hsetsame
    have hgens : gens (ports.map (setPoint S.buses)) = gens ports := gens_map _ _ hsetsame
    generalize ports.map (setPoint S.buses) = set at hok hS1 hfin hd1 hgens
    generalize hP : problem S set links w = P at hok
    have hPs : ∀ i, P.s i = ⟨feedP set links (S.bus i), feedQ set (S.bus i)⟩ := by intro i; rw [← hP]; rfl
    have hPw : P.weights = w := by rw [← hP]; rfl
    have hPbr : P.br = S.br := by rw [← hP]; rfl
    have hPsh : P.shunts = S.shunts := by rw [← hP]; rfl
    have hPnpv : P.npv = S.npv := by rw [← hP]; rfl
    generalize hr : solvePF P S.next tol S.guess = r at hok
    cases hp1 : finishP S P r.root dist set with
    | error e => simp [hp1] at hok
    | ok ports1 =>
      cases hp2 : finishQ S P r.root ports1 with
      | error e => simp [hp1, hp2, Except.map] at hok
      | ok ports2 =>
        simp only [hp1, hp2, Except.map, Except.ok.injEq, Prod.mk.injEq] at hok
        obtain ⟨rfl, rfl⟩ := hok
        have hc' : (solvePF P S.next tol S.guess).converged = true := by rw [hr]; exact hc
        have htol : 0 ≤ tol := solvePF_tol P S.next tol S.guess hc'
        have hres := solvePF_residual P S.next tol S.guess hc'
        rw [hr] at hres
        -- the first step changes `p` only
        have hstep : ∃ u : Port → Port, (∀ o, Same o (u o)) ∧ (∀ o, (u o).q = o.q) ∧ ports1 = set.map u ∧
            ∀ i, Finite ports1 (S.bus i) ∧ (portsP ports1 (S.bus i) - intoLinks (links.map LinkRow.flows) (S.bus i) =
              busP P r.root i ∨ (w.isSome = true ∧
                |(portsP ports1 (S.bus i) - intoLinks (links.map LinkRow.flows) (S.bus i)) - busP P r.root i| ≤ tol)) := by
          unfold finishP at hp1
          cases dist with
          | none =>
            have hwn : w = none := by simpa [weightsOf] using hw.symm
            obtain ⟨o, ho, hog, hos, hob, hoa, hsg⟩ := hS1.slack
            simp only [hos, Except.ok.injEq] at hp1
            subst hp1
            refine ⟨addP o.name (busP P r.root 0 - (P.s 0).re), same_addP _ _, addP_q _ _, rfl, ?_⟩
            intro i
            refine ⟨finite_addP _ _ _ _ (hfin i), Or.inl ?_⟩
            rw [portsP_addP set hS1.names o ho hog _ _ (hfin i)]
            have hfe := feedP_eq set links (S.bus i)
            have hre : (P.s i).re = feedP set links (S.bus i) := by rw [hPs]
            by_cases hi : i = 0
            · subst hi
              simp only [hoa, hob, and_self, if_true, hsg]
              rw [hre, hfe]; ring
            · have hne : ¬ o.bus = S.bus i := fun h => hi (hS1.bus (h.symm.trans hob))
              have hv : i.val ≠ 0 := fun h => hi (Fin.ext h)
              simp only [hne, and_false, if_false, add_zero, busP, hPw, hwn, Option.isSome_none, Bool.false_eq_true, hv]
              rw [hre, hfe]
          | some sw =>
            have hsh := hd1 sw rfl
            obtain ⟨bw, gw, hbw, hgw, htot, hval⟩ := hsh.weights
            simp only [weightsOf] at hw
            rw [← hgens] at hw
            cases hbwok : Slack.busWeights sw (gens set) S.buses with
            | error e => simp [hbwok] at hw
            | ok f =>
              simp only [hbwok] at hw
              split at hw
              · simp only [Except.ok.injEq] at hw
                subst hw
                cases hadj : Slack.adjustAll sw (gens set) S.buses (slackPower S P r.root) S.buses with
                | error e => simp [hadj] at hp1
                | ok o =>
                  simp only [hadj, Except.ok.injEq] at hp1
                  subst hp1
                  refine ⟨addAll o, same_addAll o, addAll_q o, rfl, ?_⟩
                  intro i
                  have hA := adjusts_of_all S hadj hsh.keys hgw
                  have hb := mem_buses S i
                  obtain ⟨hf, hsum⟩ := portsP_addAll hS1.names hA (S.bus i) hb
                    (fun o ho hg h => hsh.on o ho hg (h ▸ hb)) ((hval _ hb).imp_right (fun h => h.2)) (hfin i)
                  refine ⟨hf, ?_⟩
                  have hfe := feedP_eq set links (S.bus i)
                  have hre : (P.s i).re = feedP set links (S.bus i) := by rw [hPs]
                  rw [hsum]
                  by_cases h0 : weightAt set gw (S.bus i) = 0
                  · right
                    refine ⟨rfl, ?_⟩
                    obtain ⟨hbw0, -⟩ := (hval _ hb).resolve_left (fun h => h h0)
                    obtain ⟨x, hx, hxm⟩ := (Slack.bus_shares sw (gens set) S.buses f hbwok hsh.keys bw hbw htot).1 _ hb
                    rw [hbw0] at hxm
                    have hx0 : x = 0 := by
                      rcases mul_eq_zero.mp hxm with h | h
                      · exact h
                      · exact absurd h htot
                    have hm := hres _ (residual_re P r.root i (Or.inl (by simp [hPw])))
                    rw [mismatch, hPw] at hm
                    simp only [hx, hx0, Option.getD_some, zero_mul, Complex.ofReal_zero, add_zero, Complex.sub_re] at hm
                    rw [if_pos h0, add_zero, ← hfe, ← hre, abs_sub_comm]
                    simpa [busP, hPw] using hm
                  · left
                    rw [if_neg h0, slackPower_bus S hS1.bus, hre, hfe]
                    ring
              · cases hw
        obtain ⟨u, hu, huq, rfl, hsup⟩ := hstep
        obtain ⟨o, ho, hog, hos, hob, hoa, hsg⟩ := hS1.slack
        unfold finishQ at hp2
        simp only [hos, Except.ok.injEq] at hp2
        subst hp2
        have hS2 : Holds S (set.map u) := hS1.map u (fun o _ => hu o)
        have hsame := same_addQ S P r.root o.name
        have hpp := addQ_p S P r.root o.name
        have hQ : ∀ i, supplyQ ((set.map u).map (addQ S P r.root o.name)) (S.bus i) = busQ P r.root i := by
          intro i
          unfold supplyQ
          rw [portsQ_addQ hS2 P r.root o.name hos i, portsQ_of_q set u hu huq]
          have him : (P.s i).im = portsQ set (S.bus i) := by rw [hPs, ← feedQ_eq]
          unfold busQ
          rw [hPnpv]
          split
          · rw [him]; ring
          · rw [him, add_zero]
        have hPsum : ∀ i, supplyP ((set.map u).map (addQ S P r.root o.name)) (links.map LinkRow.flows) (S.bus i) =
            portsP (set.map u) (S.bus i) - intoLinks (links.map LinkRow.flows) (S.bus i) := by
          intro i
          unfold supplyP
          rw [portsP_of_p _ _ hsame hpp]
        have hdraw := power_draw S P hPbr hPsh r
        have hbalP : ∀ i, |busP P r.root i - drawP (written S P r) i| ≤ tol := by
          intro i
          rw [← (hdraw i).1]
          unfold busP
          by_cases hs : P.weights.isSome = true
          · simp [hs, htol]
          · rw [if_neg hs]
            by_cases h0 : i.val = 0
            · simp [h0, htol]
            · rw [if_neg h0]
              have := hres _ (residual_re P r.root i (Or.inr h0))
              have hnone : P.weights = none := by simpa using hs
              rw [mismatch, hnone] at this
              simp only [Complex.sub_re] at this
              rw [abs_sub_comm]; exact this
        have hbalQ : ∀ i, |busQ P r.root i - drawQ (written S P r) i| ≤ tol := by
          intro i
          rw [← (hdraw i).2]
          unfold busQ
          by_cases h0 : i.val < 1 + P.npv
          · simp [h0, htol]
          · rw [if_neg h0]
            have := hres _ (residual_im P r.root i (by omega))
            rw [mismatch] at this
            rw [abs_sub_comm]
            cases hw : P.weights with
            | none => simpa [hw] using this
            | some w => simpa [hw] using this
        have hA : ∀ i, |supplyP ((set.map u).map (addQ S P r.root o.name)) (links.map LinkRow.flows) (S.bus i) -
            drawP (written S P r) i| ≤ tol := by
          intro i
          rw [hPsum]
          rcases (hsup i).2 with h | ⟨hs, h⟩
          · rw [h]; exact hbalP i
          · have : busP P r.root i = drawP (written S P r) i := by
              rw [← (hdraw i).1]; simp [busP, hPw, hs]
            rw [this] at h; exact h
        have hR : ∀ i, |supplyQ ((set.map u).map (addQ S P r.root o.name)) (S.bus i) - drawQ (written S P r) i| ≤ tol := by
          intro i
          rw [hQ]
          exact hbalQ i
        have hB : ∀ i, |supplyP ((set.map u).map (addQ S P r.root o.name)) (links.map LinkRow.flows) (S.bus i) -
            busP P r.root i| ≤ tol := by
          intro i
          rw [hPsum]
          rcases (hsup i).2 with h | ⟨-, h⟩
          · rw [h]; simpa using htol
          · exact h
        exact ⟨fun i => finite_of_p _ _ hsame hpp _ (hsup i).1, hA, hR, hB, hQ⟩

/-! ## One sub-network with a single bus -/

theorem single_adjusts (S : Sub 0 m) {ports : List Port} {x : ℝ} {out : List (Slack.Gen ℝ × Option ℝ)}
    (hok : Slack.singleBus .pSet (gens ports) ((gens ports).filter (fun o => o.bus = S.bus 0)) x = .ok out) :
    Adjusts ports Slack.Gen.pSet (fun _ => x) S.buses out := by
  have hb : S.buses = [S.bus 0] := rfl
  unfold Slack.singleBus at hok
  simp only at hok
  split at hok
  · cases hok
  · simp only [Except.ok.injEq] at hok
    subst hok
    refine ⟨?_, ?_, ?_⟩
    · intro e he
      obtain ⟨g, hg, rfl⟩ := List.mem_map.mp he
      obtain ⟨h1, h2⟩ := List.mem_filter.mp hg
      exact ⟨h1, by rw [hb]; simpa using h2⟩
    · intro e he hw
      obtain ⟨g, hg, rfl⟩ := List.mem_map.mp he
      obtain ⟨h1, h2⟩ := List.mem_filter.mp hg
      have h2' : g.bus = S.bus 0 := by simpa using h2
      simp only [h2'] at hw ⊢
      rw [weightAt_eq]
      unfold Slack.share
      by_cases h0 : weightAt ports Slack.Gen.pSet (S.bus 0) = 0
      · have hx : g.pSet = 0 := hw.resolve_left (fun h => h h0)
        simp [h0, hx]
      · simp [h0]
    · intro g hg hgb
      rw [hb] at hgb
      exact ⟨_, List.mem_map.mpr ⟨g, List.mem_filter.mpr ⟨hg, by simpa using hgb⟩, rfl⟩, rfl⟩

/-- C113 for a sub-network with one bus. -/
theorem single_balanced (S : Sub 0 m) (dist : Option (Slack.Weights ℝ)) (tol : ℝ) (htol : 0 ≤ tol) (links : List (LinkRow ℝ))
    (ports ports' : List Port) (out : Out) (hok : singleBusPf S dist links ports = .ok (out, ports')) (hS : Holds S ports)
    (hd : ∀ sw, dist = some sw → Shares S ports sw) : Balanced tol out ports' (links.map LinkRow.flows) := by
  unfold singleBusPf at hok
  have hsetsame := same_set S.buses
  have hS1 : Holds S (ports.map (setPoint S.buses)) := hS.map _ (fun o _ => hsetsame o)
  have hfin : Finite (ports.map (setPoint S.buses)) (S.bus 0) := set_finite _ _ _ (mem_buses S 0)
  have hd1 : ∀ sw, dist = some sw → Shares S (ports.map (setPoint S.buses)) sw := fun sw h => (hd sw h).map _ hsetsame
  generalize ports.map (setPoint S.buses) = set at hok hS1 hfin hd1
  obtain ⟨o, ho, hog, hos, hob, hoa, hsg⟩ := hS1.slack
  simp only [hos] at hok
  cases hp : singleP S dist o.name (feedP set links (S.bus 0)) set with
  | error e => simp [hp, Except.map] at hok
  | ok ports1 =>
    simp only [hp, Except.map, Except.ok.injEq, Prod.mk.injEq] at hok
    obtain ⟨rfl, rfl⟩ := hok
    have hstep : ∃ u : Port → Port, (∀ o, Same o (u o)) ∧ (∀ o, (u o).q = o.q) ∧ ports1 = set.map u ∧
        Finite ports1 (S.bus 0) ∧ portsP ports1 (S.bus 0) - intoLinks (links.map LinkRow.flows) (S.bus 0) = 0 := by
      unfold singleP at hp
      cases dist with
      | none =>
        simp only [Except.ok.injEq] at hp
        subst hp
        refine ⟨_, same_addP _ _, addP_q _ _, rfl, finite_addP _ _ _ _ hfin, ?_⟩
        rw [portsP_addP set hS1.names o ho hog _ _ hfin, feedP_eq]
        simp [hoa, hob, hsg]
      | some sw =>
        have hsh := hd1 sw rfl
        have hsw := hsh.single rfl
        subst hsw
        simp only at hp
        cases hadj : Slack.singleBus .pSet (gens set) ((gens set).filter (fun o => o.bus = S.bus 0)) (-feedP set links (S.bus 0)) with
        | error e => simp [hadj] at hp
        | ok out =>
          simp only [hadj, Except.ok.injEq] at hp
          subst hp
          have hA := single_adjusts S hadj
          obtain ⟨bw, gw, hbw, hgw, htot, hval⟩ := hsh.weights
          have hb := mem_buses S 0
          have hne : weightAt set Slack.Gen.pSet (S.bus 0) ≠ 0 := by
            cases hbw
            have hsum : (S.buses.map (fun b => ((gens set).map (fun g => if g.bus = b then g.pSet else 0)).sum)).sum =
                weightAt set Slack.Gen.pSet (S.bus 0) := by
              rw [← weightAt_eq, sum_filter]
              have : S.buses = [S.bus 0] := rfl
              simp [this]
            rw [hsum] at htot
            exact htot
          obtain ⟨hf, hsum⟩ := portsP_addAll hS1.names hA (S.bus 0) hb (fun o ho hg h => hsh.on o ho hg (h ▸ hb)) (Or.inl hne) hfin
          refine ⟨_, same_addAll out, addAll_q out, rfl, hf, ?_⟩
          rw [hsum, if_neg hne, feedP_eq]
          ring
    obtain ⟨u, hu, huq, rfl, hf, hsup⟩ := hstep
    have hsame := same_addQ1 o.name (- feedQ set (S.bus 0))
    have hpp := addQ1_p o.name (- feedQ set (S.bus 0))
    have hP : supplyP ((set.map u).map (addQ1 o.name (- feedQ set (S.bus 0)))) (links.map LinkRow.flows) (S.bus 0) = 0 := by
      unfold supplyP
      rw [portsP_of_p _ _ hsame hpp, hsup]
    have hQ : supplyQ ((set.map u).map (addQ1 o.name (- feedQ set (S.bus 0)))) (S.bus 0) = 0 := by
      unfold supplyQ
      have h1 := portsQ_addQ1 (set.map u) (distinct_map hS1.names u (fun o _ => hu o)) (u o) (List.mem_map.mpr ⟨o, ho, rfl⟩)
        ((hu o).isGen ▸ hog) (- feedQ set (S.bus 0)) (S.bus 0)
      rw [(hu o).name, (hu o).active, (hu o).bus, (hu o).sign, portsQ_of_q set u hu huq, feedQ_eq] at h1
      rw [feedQ_eq, h1]
      simp [hoa, hob, hsg]
    have hz : ∀ i : Fin 1, i = 0 := fun i => Subsingleton.elim _ _
    refine ⟨?_, ?_, ?_, ?_, ?_⟩
    · intro i
      have hi : i = (0 : Fin 1) := hz i
      subst hi
      exact finite_of_p _ _ hsame hpp _ hf
    · intro i
      have hi : i = (0 : Fin 1) := hz i
      subst hi
      change |supplyP _ _ (S.bus 0) - _| ≤ tol
      rw [hP]
      simpa [drawP] using htol
    · intro i
      have hi : i = (0 : Fin 1) := hz i
      subst hi
      change |supplyQ _ (S.bus 0) - _| ≤ tol
      rw [hQ]
      simpa [drawQ] using htol
    · intro i
      have hi : i = (0 : Fin 1) := hz i
      subst hi
      change |supplyP _ _ (S.bus 0) - _| ≤ tol
      rw [hP]
      simpa using htol
    · intro i
      have hi : i = (0 : Fin 1) := hz i
      subst hi
      exact hQ

/-! ## All sub-networks -/

/-- A sub-network changes nothing elsewhere. -/
def Frame (bs : List Name) (ports ports' : List Port) : Prop :=
  ∃ u : Port → Port, ports' = ports.map u ∧ (∀ o, Same o (u o)) ∧ ∀ o ∈ ports, o.bus ∉ bs → u o = o

theorem Frame.trans {bs bs' : List Name} {a b c : List Port} (h : Frame bs a b) (h' : Frame bs' b c) : Frame (bs ++ bs') a c := by
  obtain ⟨u, rfl, h1, h2⟩ := h
  obtain ⟨u', rfl, h3, h4⟩ := h'
  refine ⟨u' ∘ u, by simp, fun o => (h1 o).trans (h3 (u o)), ?_⟩
  intro o ho hb
  simp only [List.mem_append, not_or] at hb
  have := h2 o ho hb.1
  simp only [Function.comp, this]
  have h5 := h4 (u o) (List.mem_map.mpr ⟨o, ho, rfl⟩) (by rw [this]; exact hb.2)
  rw [this] at h5
  exact h5

theorem frame_set (bs : List Name) (ports : List Port) : Frame bs ports (ports.map (setPoint bs)) :=
  ⟨_, rfl, same_set bs, fun o _ hb => by simp [setPoint, hb]⟩

theorem frame_addP {bs : List Name} {ports : List Port} (h : Distinct ports) {o : Port} (ho : o ∈ ports) (hg : o.isGen = true)
    (hb : o.bus ∈ bs) (x : ℝ) : Frame bs ports (ports.map (addP o.name x)) := by
  refine ⟨_, rfl, same_addP _ _, ?_⟩
  intro o' ho' hb'
  unfold addP
  rw [if_neg]
  intro hc
  simp only [Bool.and_eq_true, decide_eq_true_eq] at hc
  exact hb' ((distinct_eq h ho' ho hc.1 hg hc.2) ▸ hb)

theorem frame_addQ1 {bs : List Name} {ports : List Port} (h : Distinct ports) {o : Port} (ho : o ∈ ports) (hg : o.isGen = true)
    (hb : o.bus ∈ bs) (x : ℝ) : Frame bs ports (ports.map (addQ1 o.name x)) := by
  refine ⟨_, rfl, same_addQ1 _ _, ?_⟩
  intro o' ho' hb'
  unfold addQ1
  rw [if_neg]
  intro hc
  simp only [Bool.and_eq_true, decide_eq_true_eq] at hc
  exact hb' ((distinct_eq h ho' ho hc.1 hg hc.2) ▸ hb)

theorem frame_addAll {bs : List Name} {ports : List Port} (h : Distinct ports) {out : List (Slack.Gen ℝ × Option ℝ)}
    (hm : ∀ e ∈ out, e.1 ∈ gens ports ∧ e.1.bus ∈ bs) : Frame bs ports (ports.map (addAll out)) := by
  refine ⟨_, rfl, same_addAll _, ?_⟩
  intro o ho hb
  unfold addAll
  split
  · rename_i hg
    split
    · rename_i e he
      have h1 := List.mem_of_find?_eq_some he
      have h2 : e.1.name = o.name := by simpa using List.find?_some he
      have h3 := gen_unique h ho hg (hm e h1).1 h2
      have h4 := (hm e h1).2
      rw [h3] at h4
      exact absurd h4 hb
    · rfl
  · rfl

theorem frame_addQ {S : Sub nb m} {ports : List Port} (hS : Holds S ports) (P : Problem (nb + 1) m) (gs : Guess (nb + 1)) {g : Name}
    (hg : S.slackGen = some g) : Frame S.buses ports (ports.map (addQ S P gs g)) := by
  refine ⟨_, rfl, same_addQ S P gs g, ?_⟩
  intro o ho hb
  unfold addQ
  split
  · rename_i hgen
    have h1 : ¬ o.name = g := by
      intro hn
      obtain ⟨o', ho', g1, g2, g3, -⟩ := hS.slack
      have := distinct_eq hS.names ho' ho g1 hgen (by
        have : some o'.name = some o.name := by rw [← g2, hg, hn]
        exact Option.some.inj this)
      subst this
      exact hb (g3 ▸ mem_buses S 0)
    have h2 : (List.finRange (nb + 1)).filter (fun j => decide (0 < j.val ∧ j.val < 1 + S.npv ∧ S.pvGen j = o.name)) = [] := by
      rw [List.filter_eq_nil_iff]
      intro j _ hj
      have hj' : 0 < j.val ∧ j.val < 1 + S.npv ∧ S.pvGen j = o.name := by simpa using hj
      obtain ⟨o', ho', g1, g2, g3, -⟩ := hS.pv j hj'.1 hj'.2.1
      have := distinct_eq hS.names ho' ho g1 hgen (g2.trans hj'.2.2)
      subst this
      exact hb (g3 ▸ mem_buses S j)
    rw [h2]
    simp [h1]
  · rfl

theorem sub_frame (S : Sub nb m) (dist : Option (Slack.Weights ℝ)) (tol : ℝ) (links : List (LinkRow ℝ)) (ports ports' : List Port)
    (out : Out) (hok : subPf S dist tol links ports = .ok (out, ports')) (hS : Holds S ports)
    (hd : ∀ sw, dist = some sw → Shares S ports sw) :
    out.nb = nb ∧ HEq out.bus S.bus ∧ ∃ bs, (∀ b ∈ bs, b ∈ S.buses) ∧ Frame bs ports ports' := by
  unfold subPf at hok
  cases hw : weightsOf S ports dist with
  | error e => simp [hw, Except.bind] at hok
  | ok w =>
    simp only [hw, Except.bind] at hok
    have hsetsame := same_set S.buses
    have hS1 : Holds S (ports.map (setPoint S.buses)) := hS.map _ (fun o _ => hsetsame o)
    have hd1 : ∀ sw, dist = some sw → Shares S (ports.map (setPoint S.buses)) sw := fun sw h => (hd sw h).map _ hsetsame
    have hfr := frame_set S.buses ports
    generalize ports.map (setPoint S.buses) = set at hok hS1 hd1 hfr
    generalize hP : problem S set links w = P at hok
    generalize hr : solvePF P S.next tol S.guess = r at hok
    obtain ⟨o, ho, hog, hos, hob, hoa, hsg⟩ := hS1.slack
    have hob' : o.bus ∈ S.buses := hob ▸ mem_buses S 0
    cases hp1 : finishP S P r.root dist set with
    | error e => simp [hp1] at hok
    | ok ports1 =>
      cases hp2 : finishQ S P r.root ports1 with
      | error e => simp [hp1, hp2, Except.map] at hok
      | ok ports2 =>
        simp only [hp1, hp2, Except.map, Except.ok.injEq, Prod.mk.injEq] at hok
        obtain ⟨rfl, rfl⟩ := hok
        have hfr1 : Frame S.buses set ports1 := by
          unfold finishP at hp1
          cases dist with
          | none =>
            simp only [hos, Except.ok.injEq] at hp1
            subst hp1
            exact frame_addP hS1.names ho hog hob' _
          | some sw =>
            simp only at hp1
            cases hadj : Slack.adjustAll sw (gens set) S.buses (slackPower S P r.root) S.buses with
            | error e => simp [hadj] at hp1
            | ok o =>
              simp only [hadj, Except.ok.injEq] at hp1
              subst hp1
              obtain ⟨bw, gw, hbw, hgw, -⟩ := (hd1 sw rfl).weights
              exact frame_addAll hS1.names (adjusts_of_all S hadj (hd1 sw rfl).keys hgw).mem
        have hS2 : Holds S ports1 := by
          obtain ⟨u, rfl, hu, -⟩ := hfr1
          exact hS1.map u (fun o _ => hu o)
        unfold finishQ at hp2
        simp only [hos, Except.ok.injEq] at hp2
        subst hp2
        refine ⟨rfl, HEq.rfl, _, ?_, (hfr.trans hfr1).trans (frame_addQ hS2 P r.root hos)⟩
        intro b hb
        simpa using hb

theorem single_frame (S : Sub 0 m) (dist : Option (Slack.Weights ℝ)) (links : List (LinkRow ℝ))
    (ports ports' : List Port) (out : Out) (hok : singleBusPf S dist links ports = .ok (out, ports')) (hS : Holds S ports)
    (hd : ∀ sw, dist = some sw → Shares S ports sw) :
    out.nb = 0 ∧ HEq out.bus S.bus ∧ ∃ bs, (∀ b ∈ bs, b ∈ S.buses) ∧ Frame bs ports ports' := by
  unfold singleBusPf at hok
  have hsetsame := same_set S.buses
  have hS1 : Holds S (ports.map (setPoint S.buses)) := hS.map _ (fun o _ => hsetsame o)
  have hd1 : ∀ sw, dist = some sw → Shares S (ports.map (setPoint S.buses)) sw := fun sw h => (hd sw h).map _ hsetsame
  have hfr := frame_set S.buses ports
  generalize ports.map (setPoint S.buses) = set at hok hS1 hd1 hfr
  obtain ⟨o, ho, hog, hos, hob, hoa, hsg⟩ := hS1.slack
  have hob' : o.bus ∈ S.buses := hob ▸ mem_buses S 0
  simp only [hos] at hok
  cases hp : singleP S dist o.name (feedP set links (S.bus 0)) set with
  | error e => simp [hp, Except.map] at hok
  | ok ports1 =>
    simp only [hp, Except.map, Except.ok.injEq, Prod.mk.injEq] at hok
    obtain ⟨rfl, rfl⟩ := hok
    have hfr1 : Frame S.buses set ports1 := by
      unfold singleP at hp
      cases dist with
      | none =>
        simp only [Except.ok.injEq] at hp
        subst hp
        exact frame_addP hS1.names ho hog hob' _
      | some sw =>
        have hsw := (hd1 sw rfl).single rfl
        subst hsw
        simp only at hp
        cases hadj : Slack.singleBus .pSet (gens set) ((gens set).filter (fun o => o.bus = S.bus 0)) (-feedP set links (S.bus 0)) with
        | error e => simp [hadj] at hp
        | ok out =>
          simp only [hadj, Except.ok.injEq] at hp
          subst hp
          exact frame_addAll hS1.names (single_adjusts S hadj).mem
    have hfr2 : Frame S.buses ports1 (ports1.map (addQ1 o.name (- feedQ set (S.bus 0)))) := by
      obtain ⟨u, rfl, hu, -⟩ := hfr1
      have := frame_addQ1 (bs := S.buses) (distinct_map hS1.names u (fun o _ => hu o)) (List.mem_map.mpr ⟨o, ho, rfl⟩)
        ((hu o).isGen ▸ hog) ((hu o).bus ▸ hob') (- feedQ set (S.bus 0))
      rw [(hu o).name] at this
      exact this
    refine ⟨rfl, HEq.rfl, _, ?_, (hfr.trans hfr1).trans hfr2⟩
    intro b hb
    simpa using hb

/-- Names of the buses. -/
def Out.buses (o : Out) : List Name := List.ofFn o.bus

theorem balanced_frame {tol : ℝ} {out : Out} {bs : List Name} {ports ports' : List Port} {flows : List (List (Name × ℝ))}
    (h : Balanced tol out ports flows) (hf : Frame bs ports ports') (hd : ∀ b ∈ out.buses, b ∉ bs) : Balanced tol out ports' flows := by
  obtain ⟨u, rfl, hu, hk⟩ := hf
  have hdi : ∀ i, out.bus i ∉ bs := fun i => hd _ (by unfold Out.buses; rw [List.mem_ofFn]; exact ⟨i, rfl⟩)
  have hP : ∀ i, portsP (ports.map u) (out.bus i) = portsP ports (out.bus i) := by
    intro i
    unfold portsP
    rw [List.map_map]
    congr 1
    apply List.map_congr_left
    intro o ho
    by_cases hb : o.bus = out.bus i
    · simp only [Function.comp, hk o ho (hb ▸ hdi i)]
    · simp [Function.comp, giveP, (hu o).bus, hb]
  have hQ : ∀ i, portsQ (ports.map u) (out.bus i) = portsQ ports (out.bus i) := by
    intro i
    unfold portsQ
    rw [List.map_map]
    congr 1
    apply List.map_congr_left
    intro o ho
    by_cases hb : o.bus = out.bus i
    · simp only [Function.comp, hk o ho (hb ▸ hdi i)]
    · simp [Function.comp, giveQ, (hu o).bus, hb]
  refine ⟨?_, ?_, ?_, ?_, ?_⟩
  · intro i o' ho' ha hb
    obtain ⟨o, ho, rfl⟩ := List.mem_map.mp ho'
    rw [(hu o).bus] at hb
    rw [hk o ho (hb ▸ hdi i)] at ha ⊢
    exact h.finite i o ho ha hb
  · intro i; unfold supplyP; rw [hP]; exact h.active i
  · intro i; unfold supplyQ; rw [hQ]; exact h.reactive i
  · intro i; unfold supplyP; rw [hP]; exact h.busP i
  · intro i; unfold supplyQ; rw [hQ]; exact h.busQ i

/-- What a sub-network needs. -/
structure Ready (t : Task) (ports : List Port) : Prop where
  holds : Holds t.sub ports
  shares : ∀ sw, t.dist = some sw → Shares t.sub ports sw

theorem run_sub (t : Task) (tol : ℝ) (htol : 0 ≤ tol) (links : List (LinkRow ℝ)) (ports ports' : List Port) (out : Out)
    (hok : runSub t tol links ports = .ok (out, ports')) (hR : Ready t ports) :
    out.buses = t.sub.buses ∧ (out.converged = true → Balanced tol out ports' (links.map LinkRow.flows)) ∧
      ∃ bs, (∀ b ∈ bs, b ∈ t.sub.buses) ∧ Frame bs ports ports' := by
  have hbus : ∀ (nb m : Nat) (S : Sub nb m), out.nb = nb → HEq out.bus S.bus → out.buses = S.buses := by
    intro nb m S h1 h2
    obtain ⟨onb, om, obus, _, _, _, _, _, _, _, _⟩ := out
    simp only at h1 h2
    subst h1
    rw [eq_of_heq h2.symm.symm] at *
    rfl
  obtain ⟨nb, m, S, dist⟩ := t
  cases nb with
  | zero =>
    simp only [runSub] at hok
    obtain ⟨h1, h2, h3⟩ := single_frame S dist links ports ports' out hok hR.holds hR.shares
    exact ⟨hbus _ _ S h1 h2, fun _ => single_balanced S dist tol htol links ports ports' out hok hR.holds hR.shares, h3⟩
  | succ nb =>
    simp only [runSub] at hok
    obtain ⟨h1, h2, h3⟩ := sub_frame S dist tol links ports ports' out hok hR.holds hR.shares
    exact ⟨hbus _ _ S h1 h2, fun hc => sub_balanced S dist tol links ports ports' out hok hR.holds hR.shares hc, h3⟩

/-- C113: after `n.pf()`, at every bus of every sub-network that is reported as converged, the recorded powers of the
components add up within the tolerance: what generators, loads, stores, storage units and links leave at the bus goes into
lines, transformers and shunts, active and reactive, and agrees with what is recorded for the bus.  Missing (see below):
generators that take up power must be in service with sign 1, each sub-network must have one, and weights must be usable. -/
theorem components_balance_partial (tol : ℝ) (htol : 0 ≤ tol) (links : List (LinkRow ℝ)) (tasks : List Task)
    (hdis : tasks.Pairwise (fun t t' => ∀ b ∈ t.sub.buses, b ∉ t'.sub.buses)) (ports ports' : List Port) (outs : List Out)
    (hok : runAll tol links tasks ports = .ok (outs, ports')) (hR : ∀ t ∈ tasks, Ready t ports) :
    outs.map Out.buses = tasks.map (fun t => t.sub.buses) ∧
    ∀ out ∈ outs, out.converged = true → Balanced tol out ports' (links.map LinkRow.flows) := by
  have main : ∀ (tasks : List Task) (ports ports' : List Port) (outs : List Out),
      tasks.Pairwise (fun t t' => ∀ b ∈ t.sub.buses, b ∉ t'.sub.buses) →
      runAll tol links tasks ports = .ok (outs, ports') → (∀ t ∈ tasks, Ready t ports) →
      outs.map Out.buses = tasks.map (fun t => t.sub.buses) ∧
      (∀ out ∈ outs, out.converged = true → Balanced tol out ports' (links.map LinkRow.flows)) ∧
      ∃ bs, (∀ b ∈ bs, ∃ t ∈ tasks, b ∈ t.sub.buses) ∧ Frame bs ports ports' := by
    intro tasks
    induction tasks with
    | nil =>
      intro ports ports' outs _ hok _
      simp only [runAll, Except.ok.injEq, Prod.mk.injEq] at hok
      obtain ⟨rfl, rfl⟩ := hok
      exact ⟨rfl, fun _ h => (by cases h), [], fun _ h => (by cases h), id, by simp, Same.refl, fun _ _ _ => rfl⟩
    | cons t ts ih =>
      intro ports ports' outs hdis hok hR
      obtain ⟨hd1, hd2⟩ := List.pairwise_cons.mp hdis
      unfold runAll at hok
      cases hr : runSub t tol links ports with
      | error e => simp [hr, Except.bind] at hok
      | ok r =>
        obtain ⟨out, ports1⟩ := r
        simp only [hr, Except.bind] at hok
        cases hrest : runAll tol links ts ports1 with
        | error e => simp [hrest, Except.map] at hok
        | ok rest =>
          obtain ⟨outs1, ports2⟩ := rest
          simp only [hrest, Except.map, Except.ok.injEq, Prod.mk.injEq] at hok
          obtain ⟨rfl, rfl⟩ := hok
          obtain ⟨hb, hbal, bs, hbs, hfr⟩ := run_sub t tol htol links ports ports1 out hr (hR t List.mem_cons_self)
          have hR1 : ∀ t' ∈ ts, Ready t' ports1 := by
            intro t' ht'
            obtain ⟨u, rfl, hu, -⟩ := hfr
            have := hR t' (List.mem_cons_of_mem _ ht')
            exact ⟨this.holds.map u (fun o _ => hu o), fun sw h => (this.shares sw h).map u hu⟩
          obtain ⟨ib, ibal, bs', hbs', hfr'⟩ := ih ports1 ports2 outs1 hd2 hrest hR1
          refine ⟨by simp [hb, ib], ?_, bs ++ bs', ?_, hfr.trans hfr'⟩
          · intro out' hout' hc
            rcases List.mem_cons.mp hout' with rfl | hout'
            · refine balanced_frame (hbal hc) hfr' ?_
              intro b hbm hb'
              obtain ⟨t', ht', hbt'⟩ := hbs' b hb'
              exact hd1 t' ht' b (hb ▸ hbm) hbt'
            · exact ibal out' hout' hc
          · intro b hbm
            rcases List.mem_append.mp hbm with h | h
            · exact ⟨t, List.mem_cons_self, hbs b h⟩
            · obtain ⟨t', ht', h'⟩ := hbs' b h
              exact ⟨t', List.mem_cons_of_mem _ ht', h'⟩
  obtain ⟨h1, h2, -⟩ := main tasks ports ports' outs hdis hok hR
  exact ⟨h1, h2⟩

/-! ## Set points -/

/-- What a sub-network records for a component at one of its buses: everything runs at its set points but the slack
generator, with distributed slack the generators, and for reactive power the generators of PV buses.  Components out of
service keep what they had. -/
structure After (S : Sub nb m) (dist : Option (Slack.Weights ℝ)) (o o' : Port) : Prop where
  off : o.isGen = false → o.active = false → o' = o
  onP : o.isGen = false → o.active = true → o'.p = some o.pSet
  onQ : o.isGen = false → o.active = true → o'.q = o.qSet
  genP : o.isGen = true → o.active = true → dist = none → S.slackGen ≠ some o.name → o'.p = some o.pSet
  genQ : o.isGen = true → o.active = true → S.slackGen ≠ some o.name →
    (∀ i, 0 < i.val → i.val < 1 + S.npv → S.pvGen i ≠ o.name) → o'.q = o.qSet

theorem after_sub (S : Sub nb m) (dist : Option (Slack.Weights ℝ)) (tol : ℝ) (links : List (LinkRow ℝ)) (ports ports' : List Port)
    (out : Out) (hok : subPf S dist tol links ports = .ok (out, ports')) :
    ∃ u : Port → Port, ports' = ports.map u ∧ ∀ o ∈ ports, o.bus ∈ S.buses → After S dist o (u o) := by
  unfold subPf at hok
  cases hw : weightsOf S ports dist with
  | error e => simp [hw, Except.bind] at hok
  | ok w =>
    simp only [hw, Except.bind] at hok
    generalize hset : ports.map (setPoint S.buses) = set at hok
    generalize problem S set links w = P at hok
    generalize solvePF P S.next tol S.guess = r at hok
    cases hp1 : finishP S P r.root dist set with
    | error e => simp [hp1] at hok
    | ok ports1 =>
      cases hp2 : finishQ S P r.root ports1 with
      | error e => simp [hp1, hp2, Except.map] at hok
      | ok ports2 =>
        simp only [hp1, hp2, Except.map, Except.ok.injEq, Prod.mk.injEq] at hok
        obtain ⟨-, rfl⟩ := hok
        unfold finishQ at hp2
        cases hg : S.slackGen with
        | none => simp [hg] at hp2
        | some g =>
          simp only [hg, Except.ok.injEq] at hp2
          subst hp2
          have h1 : ∃ v : Port → Port, ports1 = set.map v ∧ (∀ o, Same o (v o)) ∧ (∀ o, o.isGen = false → v o = o) ∧
              (∀ o, (v o).q = o.q) ∧ (dist = none → ∀ o, o.name ≠ g → v o = o) := by
            unfold finishP at hp1
            cases dist with
            | none =>
              simp only [hg, Except.ok.injEq] at hp1
              exact ⟨_, hp1.symm, same_addP _ _, fun o h => by simp [addP, h], addP_q _ _, fun _ o h => by simp [addP, h]⟩
            | some sw =>
              simp only at hp1
              split at hp1
              · cases hp1
              · simp only [Except.ok.injEq] at hp1
                exact ⟨_, hp1.symm, same_addAll _, fun o h => by simp [addAll, h], addAll_q _, fun h => by cases h⟩
          obtain ⟨v, rfl, hv, hv1, hv2, hv3⟩ := h1
          subst hset
          refine ⟨fun o => addQ S P r.root g (v (setPoint S.buses o)), by simp [List.map_map, Function.comp_def], ?_⟩
          intro o _ hb
          have hs := same_set S.buses o
          refine ⟨?_, ?_, ?_, ?_, ?_⟩
          · intro h1 h2
            simp only
            rw [hv1 _ (hs.isGen ▸ h1)]
            simp [addQ, hs.isGen, h1]
            simp [setPoint, h2]
          · intro h1 h2
            simp only
            rw [addQ_p, hv1 _ (hs.isGen ▸ h1)]
            simp [setPoint, h2, hb]
          · intro h1 h2
            simp only
            rw [hv1 _ (hs.isGen ▸ h1)]
            simp [addQ, hs.isGen, h1]
            simp [setPoint, h2, hb]
          · intro h1 h2 h3 h4
            simp only
            rw [addQ_p, hv3 h3 _ (fun hn => h4 (by rw [hg, ← hn, hs.name]))]
            simp [setPoint, h2, hb]
          · intro h1 h2 h4 h5
            simp only
            have hn : (v (setPoint S.buses o)).name = o.name := by rw [(hv _).name, hs.name]
            have hgn : (v (setPoint S.buses o)).isGen = true := by rw [(hv _).isGen, hs.isGen, h1]
            have hf : (List.finRange (nb + 1)).filter (fun j => decide (0 < j.val ∧ j.val < 1 + S.npv ∧ S.pvGen j = o.name)) = [] := by
              rw [List.filter_eq_nil_iff]
              intro j _ hj
              have hj' : 0 < j.val ∧ j.val < 1 + S.npv ∧ S.pvGen j = o.name := by simpa using hj
              exact h5 j hj'.1 hj'.2.1 hj'.2.2
            have hg' : ¬ o.name = g := fun h => h4 (by rw [hg, h])
            unfold addQ
            rw [if_pos hgn]
            simp only [hn, hf, hg', if_false, hv2]
            simp [setPoint, h2, hb]

theorem after_single (S : Sub 0 m) (dist : Option (Slack.Weights ℝ)) (links : List (LinkRow ℝ))
    (ports ports' : List Port) (out : Out) (hok : singleBusPf S dist links ports = .ok (out, ports')) :
    ∃ u : Port → Port, ports' = ports.map u ∧ ∀ o ∈ ports, o.bus ∈ S.buses → After S dist o (u o) := by
  unfold singleBusPf at hok
  cases hg : S.slackGen with
  | none => simp [hg] at hok
  | some g =>
    simp only [hg] at hok
    generalize hset : ports.map (setPoint S.buses) = set at hok
    cases hp : singleP S dist g (feedP set links (S.bus 0)) set with
    | error e => simp [hp, Except.map] at hok
    | ok ports1 =>
      simp only [hp, Except.map, Except.ok.injEq, Prod.mk.injEq] at hok
      obtain ⟨-, rfl⟩ := hok
      have h1 : ∃ v : Port → Port, ports1 = set.map v ∧ (∀ o, Same o (v o)) ∧ (∀ o, o.isGen = false → v o = o) ∧
          (∀ o, (v o).q = o.q) ∧ (dist = none → ∀ o, o.name ≠ g → v o = o) := by
        unfold singleP at hp
        cases dist with
        | none =>
          simp only [Except.ok.injEq] at hp
          exact ⟨_, hp.symm, same_addP _ _, fun o h => by simp [addP, h], addP_q _ _, fun _ o h => by simp [addP, h]⟩
        | some sw =>
          simp only at hp
          split at hp
          · cases hp
          · simp only [Except.ok.injEq] at hp
            exact ⟨_, hp.symm, same_addAll _, fun o h => by simp [addAll, h], addAll_q _, fun h => by cases h⟩
      obtain ⟨v, rfl, hv, hv1, hv2, hv3⟩ := h1
      generalize - feedQ set (S.bus 0) = x
      subst hset
      refine ⟨fun o => addQ1 g x (v (setPoint S.buses o)), by simp [List.map_map, Function.comp_def], ?_⟩
      intro o _ hb
      have hs := same_set S.buses o
      have hn : (v (setPoint S.buses o)).name = o.name := by rw [(hv _).name, hs.name]
      refine ⟨?_, ?_, ?_, ?_, ?_⟩
      · intro h1 h2
        simp only
        rw [hv1 _ (hs.isGen ▸ h1)]
        simp [addQ1, hs.isGen, h1]
        simp [setPoint, h2]
      · intro h1 h2
        simp only
        rw [addQ1_p, hv1 _ (hs.isGen ▸ h1)]
        simp [setPoint, h2, hb]
      · intro h1 h2
        simp only
        rw [hv1 _ (hs.isGen ▸ h1)]
        simp [addQ1, hs.isGen, h1]
        simp [setPoint, h2, hb]
      · intro h1 h2 h3 h4
        simp only
        rw [addQ1_p, hv3 h3 _ (fun hn => h4 (by rw [hg, ← hn, hs.name]))]
        simp [setPoint, h2, hb]
      · intro h1 h2 h4 _
        simp only
        have hg' : ¬ o.name = g := fun h => h4 (by rw [hg, h])
        simp [addQ1, hn, hg', hv2]
        simp [setPoint, h2, hb]

/-- C113: what is recorded are the set points but for the generators that take up the slack. -/
theorem set_points_kept (tol : ℝ) (htol : 0 ≤ tol) (links : List (LinkRow ℝ)) (tasks : List Task)
    (hdis : tasks.Pairwise (fun t t' => ∀ b ∈ t.sub.buses, b ∉ t'.sub.buses)) (ports ports' : List Port) (outs : List Out)
    (hok : runAll tol links tasks ports = .ok (outs, ports')) (hR : ∀ t ∈ tasks, Ready t ports) :
    ∃ u : Port → Port, ports' = ports.map u ∧ (∀ o, Same o (u o)) ∧
      ∀ o ∈ ports, ((∀ t ∈ tasks, o.bus ∉ t.sub.buses) → u o = o) ∧
        ∀ t ∈ tasks, o.bus ∈ t.sub.buses → After t.sub t.dist o (u o) := by
  induction tasks generalizing ports ports' outs with
  | nil =>
    simp only [runAll, Except.ok.injEq, Prod.mk.injEq] at hok
    obtain ⟨rfl, rfl⟩ := hok
    exact ⟨id, by simp, Same.refl, fun o _ => ⟨fun _ => rfl, fun _ h => (by cases h)⟩⟩
  | cons t ts ih =>
    obtain ⟨hd1, hd2⟩ := List.pairwise_cons.mp hdis
    unfold runAll at hok
    cases hr : runSub t tol links ports with
    | error e => simp [hr, Except.bind] at hok
    | ok r =>
      obtain ⟨out, ports1⟩ := r
      simp only [hr, Except.bind] at hok
      cases hrest : runAll tol links ts ports1 with
      | error e => simp [hrest, Except.map] at hok
      | ok rest =>
        obtain ⟨outs1, ports2⟩ := rest
        simp only [hrest, Except.map, Except.ok.injEq, Prod.mk.injEq] at hok
        obtain ⟨rfl, rfl⟩ := hok
        obtain ⟨-, -, bs, hbs, u1, hu1, hs1, hk1⟩ := run_sub t tol htol links ports ports1 out hr (hR t List.mem_cons_self)
        obtain ⟨v, hv, hav⟩ : ∃ u : Port → Port, ports1 = ports.map u ∧ ∀ o ∈ ports, o.bus ∈ t.sub.buses → After t.sub t.dist o (u o) := by
          obtain ⟨nb, m, S, dist⟩ := t
          cases nb with
          | zero => exact after_single S dist links ports ports1 out hr
          | succ nb => exact after_sub S dist tol links ports ports1 out hr
        have huv : ∀ o ∈ ports, u1 o = v o := List.map_inj_left.mp (hu1.symm.trans hv)
        have hR1 : ∀ t' ∈ ts, Ready t' ports1 := by
          intro t' ht'
          subst hu1
          have := hR t' (List.mem_cons_of_mem _ ht')
          exact ⟨this.holds.map u1 (fun o _ => hs1 o), fun sw h => (this.shares sw h).map u1 hs1⟩
        obtain ⟨u2, hu2, hs2, hk2⟩ := ih hd2 ports1 ports2 outs1 hrest hR1
        refine ⟨u2 ∘ u1, by rw [hu2, hu1, List.map_map], fun o => (hs1 o).trans (hs2 (u1 o)), ?_⟩
        intro o ho
        have ho1 : u1 o ∈ ports1 := by rw [hu1]; exact List.mem_map.mpr ⟨o, ho, rfl⟩
        obtain ⟨hk3, hk4⟩ := hk2 (u1 o) ho1
        rw [(hs1 o).bus] at hk3 hk4
        refine ⟨?_, ?_⟩
        · intro hno
          have e1 : u1 o = o := hk1 o ho (fun h => hno t List.mem_cons_self (hbs _ h))
          have e2 := hk3 (fun t' ht' => hno t' (List.mem_cons_of_mem _ ht'))
          change u2 (u1 o) = o
          rw [e2, e1]
        · intro t' ht' hb
          rcases List.mem_cons.mp ht' with rfl | ht'
          · have e2 := hk3 (fun t'' ht'' => hd1 t'' ht'' _ hb)
            change After _ _ o (u2 (u1 o))
            rw [e2, huv o ho]
            exact hav o ho hb
          · have e1 : u1 o = o := hk1 o ho (fun h => hd1 t' ht' _ (hbs _ h) hb)
            have := hk4 t' ht' hb
            simp only [Function.comp, e1] at this ⊢
            exact this

/-! ## An example: a line from `a` to `b`, and a link that brings power from `c` to `b` -/

noncomputable def exSub : Sub 1 1 :=
  { bus := fun i => if i = 0 then "a" else "b", npv := 0, br := fun _ => ⟨0, 1, 1, 0, 0, 0, none, none, none⟩, shunts := []
    vSet := fun _ => 1, slackGen := some "g", pvGen := fun _ => "", guess := exGuess, next := id }

noncomputable def exSingle : Sub 0 0 :=
  { bus := fun _ => "c", npv := 0, br := fun l => l.elim0, shunts := [], vSet := fun _ => 1, slackGen := some "h"
    pvGen := fun _ => "", guess := ⟨fun _ => 0, fun _ => 1, 0⟩, next := id }

noncomputable def exPorts : List Port :=
  [⟨true, "g", "a", 1, true, 0, 0, 0, 0, none, 0⟩, ⟨false, "g", "b", -1, true, 1 / 2, 0, 0, 0, none, 0⟩,
   ⟨true, "h", "c", 1, true, 1, 0, 0, 0, none, 0⟩]

noncomputable def exLinks : List (LinkRow ℝ) := [⟨"c", [("b", 1 / 2)], true, 1 / 2⟩]

theorem ex_distinct : Distinct exPorts := by simp [Distinct, exPorts]

theorem ex_ready1 : Ready ⟨1, 1, exSub, none⟩ exPorts where
  holds :=
    { bus := by
        intro i j h
        fin_cases i <;> fin_cases j <;> simp_all [exSub]
      names := ex_distinct
      slack := ⟨⟨true, "g", "a", 1, true, 0, 0, 0, 0, none, 0⟩, by simp [exPorts], rfl, rfl, rfl, rfl, rfl⟩
      pv := fun i h h' => by simp only [exSub] at h'; omega }
  shares := fun _ h => by simp at h

theorem ex_ready2 : Ready ⟨0, 0, exSingle, some .pSet⟩ exPorts where
  holds :=
    { bus := fun i j _ => (Subsingleton.elim (α := Fin 1) i j)
      names := ex_distinct
      slack := ⟨⟨true, "h", "c", 1, true, 1, 0, 0, 0, none, 0⟩, by simp [exPorts], rfl, rfl, rfl, rfl, rfl⟩
      pv := fun i h h' => by simp only [exSingle] at h'; omega }
  shares := by
    intro sw h
    simp only [Option.some.injEq] at h
    subst h
    refine ⟨fun _ _ h => (by simp at h), ?_, ⟨_, _, .pSet, .pSet, ?_, ?_⟩, fun _ => rfl⟩
    · intro o ho _ _
      simp only [exPorts, List.mem_cons, List.not_mem_nil, or_false] at ho
      rcases ho with rfl | rfl | rfl <;> simp_all [Sub.buses, exSingle]
    · simp [Sub.buses, exSingle, gens, exPorts]
    · intro b hb
      left
      have : b = "c" := by simpa [Sub.buses, exSingle] using hb
      subst this
      simp [weightAt, exPorts, toGen]

theorem ex_problem : problem exSub (exPorts.map (setPoint exSub.buses)) exLinks none = exPF := by
  have hs : ∀ i : Fin 2, (problem exSub (exPorts.map (setPoint exSub.buses)) exLinks none).s i = exPF.s i := by
    intro i
    fin_cases i
    · simp [problem, exSub, exPF, exPorts, exLinks, setPoint, Sub.buses, feedP, feedQ, LinkRow.flows, Complex.ext_iff]
    · simp [problem, exSub, exPF, exPorts, exLinks, setPoint, Sub.buses, feedP, feedQ, LinkRow.flows, Complex.ext_iff]
      norm_num
  have := funext hs
  simp only [problem, exPF] at this ⊢
  rw [this]
  rfl

theorem sub_runs (S : Sub nb m) {g : Name} (hg : S.slackGen = some g) (tol : ℝ) (links : List (LinkRow ℝ)) (ports : List Port) :
    ∃ ports', subPf S none tol links ports = .ok (written S (problem S (ports.map (setPoint S.buses)) links none)
      (solvePF (problem S (ports.map (setPoint S.buses)) links none) S.next tol S.guess), ports') := by
  unfold subPf weightsOf finishP finishQ
  simp only [Except.bind, hg, Except.map]
  exact ⟨_, rfl⟩

/-- The hypotheses of `components_balance_partial` are met by two sub-networks that both converge. -/
example : ∃ outs ports', runAll (1 / 10) exLinks [⟨1, 1, exSub, none⟩, ⟨0, 0, exSingle, some .pSet⟩] exPorts = .ok (outs, ports') ∧
    outs.length = 2 ∧ (∀ out ∈ outs, out.converged = true) ∧
    (∀ t ∈ ([⟨1, 1, exSub, none⟩, ⟨0, 0, exSingle, some .pSet⟩] : List Task), Ready t exPorts) ∧
    ([⟨1, 1, exSub, none⟩, ⟨0, 0, exSingle, some .pSet⟩] : List Task).Pairwise
      (fun t t' => ∀ b ∈ t.sub.buses, b ∉ t'.sub.buses) := by
  have hc : (solvePF exPF exSub.next (1 / 10) exSub.guess).converged = true := exPF_converged
  obtain ⟨ports1, h1⟩ := sub_runs exSub (show exSub.slackGen = some "g" from rfl) (1 / 10) exLinks exPorts
  rw [ex_problem] at h1
  obtain ⟨-, -, bs, -, u, rfl, hu, -⟩ := sub_frame exSub none (1 / 10) exLinks exPorts ports1 _ h1 ex_ready1.holds ex_ready1.shares
  obtain ⟨out2, ports2, h2, hc2⟩ : ∃ out ports', singleBusPf exSingle (some .pSet) exLinks (exPorts.map u) = .ok (out, ports') ∧
      out.converged = true := by
    have hg : gens ((exPorts.map u).map (setPoint exSingle.buses)) = gens exPorts := by
      rw [gens_map _ _ (same_set _), gens_map _ _ hu]
    unfold singleBusPf singleP
    simp only [show exSingle.slackGen = some "h" from rfl, hg]
    have hno : (gens exPorts).all (fun g => decide (g.pSet = 0)) = false := by simp [gens, exPorts]
    simp only [Slack.singleBus, hno, Bool.false_eq_true, if_false, Except.map]
    exact ⟨_, _, rfl, rfl⟩
  refine ⟨[written exSub exPF (solvePF exPF exSub.next (1 / 10) exSub.guess), out2], ports2, ?_, rfl, ?_, ?_, ?_⟩
  · simp only [runAll, runSub, h1, h2, Except.bind, Except.map]
  · intro out ho
    simp only [List.mem_cons, List.not_mem_nil, or_false] at ho
    rcases ho with rfl | rfl
    · exact hc
    · exact hc2
  · intro t ht
    simp only [List.mem_cons, List.not_mem_nil, or_false] at ht
    rcases ht with rfl | rfl
    · exact ex_ready1
    · exact ex_ready2
  · simp [Sub.buses, exSub, exSingle]

/-! ## What is missing -/

/-- A sub-network without generators, for example a hydrogen bus with a store and a link, makes `n.pf()` fail for the whole
network, although its power may be balanced. -/
theorem no_generator_raises (tol : ℝ) (links : List (LinkRow ℝ)) (tasks : List Task) (t : Task) (ht : t ∈ tasks)
    (hs : t.sub.slackGen = none) (ports : List Port) (r : List Out × List Port) : runAll tol links tasks ports ≠ .ok r := by
  have one : ∀ ports r, runSub t tol links ports ≠ .ok r := by
    intro ports r hok
    obtain ⟨nb, m, S, dist⟩ := t
    simp only at hs
    cases nb with
    | zero => simp [runSub, singleBusPf, hs] at hok
    | succ nb =>
      simp only [runSub, subPf] at hok
      cases hw : weightsOf S ports dist with
      | error e => simp [hw, Except.bind] at hok
      | ok w =>
        simp only [hw, Except.bind] at hok
        split at hok
        · cases hok
        · simp [finishQ, hs, Except.map] at hok
  induction tasks generalizing ports r with
  | nil => cases ht
  | cons t' ts ih =>
    intro hok
    unfold runAll at hok
    cases hr : runSub t' tol links ports with
    | error e => simp [hr, Except.bind] at hok
    | ok x =>
      simp only [hr, Except.bind] at hok
      rcases List.mem_cons.mp ht with rfl | ht
      · exact one _ _ hr
      · cases hrest : runAll tol links ts x.2 with
        | error e => simp [hrest, Except.map] at hok
        | ok rest => exact ih ht x.2 rest hrest

/-- A slack generator that is out of service or has another sign: the power that is taken up differs from what is missing,
and nothing reports it. -/
theorem slack_mismatch (S : Sub 0 m) (links : List (LinkRow ℝ)) (ports : List Port) (hn : Distinct ports) (o : Port)
    (ho : o ∈ ports) (hg : o.isGen = true) (hs : S.slackGen = some o.name) (hb : o.bus = S.bus 0) :
    ∃ out ports', singleBusPf S none links ports = .ok (out, ports') ∧ out.converged = true ∧
      supplyP ports' (links.map LinkRow.flows) (S.bus 0) =
        (1 - if o.active = true then o.sign else 0) *
          supplyP (ports.map (setPoint S.buses)) (links.map LinkRow.flows) (S.bus 0) := by
  unfold singleBusPf singleP
  simp only [hs, Except.map]
  refine ⟨_, _, rfl, rfl, ?_⟩
  have hsame := same_set S.buses
  have hfin : Finite (ports.map (setPoint S.buses)) (S.bus 0) := set_finite _ _ _ (mem_buses S 0)
  have h1 := portsP_addP (ports.map (setPoint S.buses)) (distinct_map hn _ (fun o _ => hsame o)) (setPoint S.buses o)
    (List.mem_map.mpr ⟨o, ho, rfl⟩) ((hsame o).isGen ▸ hg)
    (- feedP (ports.map (setPoint S.buses)) links (S.bus 0)) (S.bus 0) hfin
  rw [(hsame o).name, (hsame o).active, (hsame o).bus, (hsame o).sign] at h1
  unfold supplyP
  rw [portsP_of_p _ _ (same_addQ1 _ _) (addQ1_p _ _), h1, feedP_eq]
  by_cases ha : o.active = true
  · simp only [ha, hb, and_self, if_true]; ring
  · simp only [ha, false_and, if_false]; simp

/-- Shunts of a sub-network with one bus are not looked at: their power is missing. -/
theorem single_ignores_shunts (S : Sub 0 m) (sh : List (Shunt 1)) (dist : Option (Slack.Weights ℝ)) (links : List (LinkRow ℝ))
    (ports : List Port) : singleBusPf { S with shunts := sh } dist links ports = singleBusPf S dist links ports := rfl

/-- A bus without generators that is given a weight: whatever slack it was assigned, nobody takes it up. -/
theorem bus_without_generators (S : Sub nb m) (P : Problem (nb + 1) m) (gs : Guess (nb + 1)) (sw : Slack.Weights ℝ)
    (ports ports' : List Port) (hok : finishP S P gs (some sw) ports = .ok ports') (b : Name)
    (hno : ∀ o ∈ ports, o.isGen = true → o.bus ≠ b) : portsP ports' b = portsP ports b := by
  unfold finishP at hok
  simp only at hok
  split at hok
  · cases hok
  · rename_i out _
    simp only [Except.ok.injEq] at hok
    subst hok
    unfold portsP
    rw [List.map_map]
    congr 1
    apply List.map_congr_left
    intro o ho
    cases hg : o.isGen with
    | false => simp [Function.comp, addAll, hg]
    | true => simp [Function.comp, giveP, (same_addAll out o).bus, hno o ho hg]

/-- A slack generator out of service: a load of 1/2 is not met by anybody, and the result counts as converged. -/
example : ∃ out ports', singleBusPf { exSingle with slackGen := some "x" } none []
      [⟨true, "x", "c", 1, false, 0, 0, 0, 0, none, 0⟩, ⟨false, "l", "c", -1, true, 1 / 2, 0, 0, 0, none, 0⟩] = .ok (out, ports') ∧
    out.converged = true ∧ supplyP ports' [] "c" = -1 / 2 := by
  obtain ⟨out, ports', h1, h2, h3⟩ := slack_mismatch { exSingle with slackGen := some "x" } []
    [⟨true, "x", "c", 1, false, 0, 0, 0, 0, none, 0⟩, ⟨false, "l", "c", -1, true, 1 / 2, 0, 0, 0, none, 0⟩]
    (by simp [Distinct]) _ List.mem_cons_self rfl rfl rfl
  refine ⟨out, ports', h1, h2, ?_⟩
  have : ({ exSingle with slackGen := some "x" } : Sub 0 0).bus 0 = "c" := rfl
  rw [this] at h3
  simp only [List.map_nil] at h3
  rw [h3]
  simp [supplyP, portsP, intoLinks, giveP, setPoint, Sub.buses, exSingle]
  norm_num

/-- A hydrogen bus without generators stops the power flow of the whole network. -/
example : ∀ r, runAll (1 / 10) exLinks [⟨1, 1, exSub, none⟩, ⟨0, 0, { exSingle with slackGen := none }, none⟩] exPorts ≠ .ok r :=
  fun r => no_generator_raises _ _ _ ⟨0, 0, { exSingle with slackGen := none }, none⟩ (by simp) rfl _ r

end Verif.PowerFlow.Results
