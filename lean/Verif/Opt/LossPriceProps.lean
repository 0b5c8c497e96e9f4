import Verif.Opt.RentProps
import Verif.Opt.LossesProps

/-!
# C145: what losses are worth

Losses of lines and transformers at an optimum of the whole problem (`Whole.lean`), and the prices at their ends.
-/

namespace Verif.Opt.Whole.LossPrice

open Verif.Opt Verif.Opt.Whole Rent

variable {F : Type} [Field F] [LinearOrder F]

/-! ## Specification -/

/-- The loss of a branch. -/
def lost (b : Name × BranchW F) (t : Nat) : WVar := .of b.1 b.2.name (.op "loss" t)

/-- What the branch earns: it buys at its first bus and sells at its second, and pays half of its losses at each end. -/
def earned (w : WNet F) (old lam : Name → Nat → F) (val : WVar → F) (t : Nat) (b : Name × BranchW F) : F :=
  if b.2.active t then (price w old lam t b.2.bus1 - price w old lam t b.2.bus0) * val (flow b t) -
    (price w old lam t b.2.bus0 + price w old lam t b.2.bus1) / 2 * val (lost b t) else 0

/-- The row says nothing about the loss at the snapshot. -/
def SilentLoss (r : Con WVar F) (b : Name × BranchW F) (t : Nat) : Prop := ∀ e ∈ r.terms, e.2 ≠ lost b t

/-- The largest capacity which a branch may have. -/
def Largest (b : BranchW F) (S : F) : Prop := (b.ext = true ∧ b.invest.nomMax = some S) ∨ (b.ext = false ∧ b.nom = S)

/-! ## Other operation of one branch -/

/-- The operation of a branch with other flow and loss at one snapshot. -/
def operate (x : Loc → F) (t : Nat) (s l : F) (v : Loc) : F := if v = .op "s" t then s else if v = .op "loss" t then l else x v

/-- The change. -/
def shift (t : Nat) (δ ε : F) (v : Loc) : F := if v = .op "s" t then δ else if v = .op "loss" t then ε else 0

section gain
variable [IsStrictOrderedRing F]

omit [LinearOrder F] [IsStrictOrderedRing F] in
theorem lin_add' {V : Type} (x d : V → F) (ts : List (F × V)) : lin (fun v => x v + d v) ts = lin x ts + lin d ts := by
  induction ts with
  | nil => simp [lin]
  | cons e ts ih =>
    simp only [lin_cons, ih]
    ring

theorem admissible_of_holds {x y d : Loc → F} (hy : ∀ v, y v = x v + d v) {q : Con Loc F} (h : q.holds y) : Admissible x d q := by
  intro hb
  rw [show y = fun v => x v + d v from funext hy] at h
  unfold Con.holds at h
  rw [lin_add', hb] at h
  cases hq : q.sense <;> rw [hq] at h <;> simp only at h ⊢ <;> linarith

omit [IsStrictOrderedRing F] in
omit [LinearOrder F] in
theorem operate_eq (x : Loc → F) (t : Nat) (s l : F) (v : Loc) : operate x t s l v = x v + shift t (s - x (.op "s" t)) (l - x (.op "loss" t)) v := by
  unfold operate shift
  split
  · rename_i h
    rw [h]
    ring
  · split
    · rename_i h
      rw [h]
      ring
    · ring

/-- The own variables of a branch. -/
def own (val : WVar → F) (b : Name × BranchW F) (v : Loc) : F := val (.of b.1 b.2.name v)

/-- No other operation that the rules of a branch allow is worth more. -/
theorem branch_gain {w : WNet F} (hw : Sound w) (hl : LinearCosts w) (hloss : w.tangents ≠ 0) {other : List (Con WVar F)} {P : Program F}
    (hP : createModel w other = some P) {val : WVar → F} {lam : Name → Nat → F} {mu : List F} (hs : Solved P val lam mu)
    (hwt : ∀ t < w.len, weight w t ≠ 0) (old : Name → Nat → F) {t : Nat} (ht : t < w.len) {b : Name × BranchW F} (hb : b ∈ passive w) {s l : F}
    (hy : Doc.BranchRule w b.2 (operate (own val b) t s l)) :
    (if b.2.active t then (lam b.2.bus1 t - lam b.2.bus0 t) * (s - val (flow b t)) - (lam b.2.bus0 t + lam b.2.bus1 t) / 2 * (l - val (lost b t)) else 0) +
      coupled other mu b.1 b.2.name (spread (shift t (s - val (flow b t)) (l - val (lost b t)))) ≤ 0 := by
  set d := shift t (s - val (flow b t)) (l - val (lost b t)) with hd
  have hadm : ∀ c, Accessor.passive c = true → ∀ rs, branchRows w c b.2 = some rs → ∀ q ∈ rs, Admissible (own val b) d q := fun c hc rs hrs q hq =>
    admissible_of_holds (operate_eq (own val b) t s l) ((Doc.branch_rule hc hrs _).mpr hy q hq)
  have hrev : ∀ comp : Name, branchRevenue w comp b.2 (atPrice w old lam) (spread d) =
      if b.2.active t then (lam b.2.bus1 t - lam b.2.bus0 t) * (s - val (flow b t)) - (lam b.2.bus0 t + lam b.2.bus1 t) / 2 * (l - val (lost b t)) else 0 := by
    intro comp
    unfold branchRevenue
    rw [single_time ht _ (fun r hrt => by simp [spread, hd, shift, hrt])]
    simp [spread, hd, shift, hloss, atPrice_eq old lam _ t (hwt t ht)]
  have hcost : ∀ comp : Name, branchCost w comp b.2 (spread d) = 0 := by
    intro comp
    simp [branchCost, spread, hd, shift]
  unfold passive at hb
  rcases List.mem_append.mp hb with hb' | hb'
  · obtain ⟨g, hg, rfl⟩ := List.mem_map.mp hb'
    have := gain_line hw hl hP hs hwt old g hg d (hadm .line rfl)
    have e1 := hrev "Line"
    have e2 := hcost "Line"
    simp only at e1 e2 ⊢
    rw [e1, e2] at this
    exact this
  · obtain ⟨g, hg, rfl⟩ := List.mem_map.mp hb'
    have := gain_trafo hw hl hP hs hwt old g hg d (hadm .transformer rfl)
    have e1 := hrev "Transformer"
    have e2 := hcost "Transformer"
    simp only at e1 e2 ⊢
    rw [e1, e2] at this
    exact this

theorem branch_ok {w : WNet F} {other : List (Con WVar F)} {P : Program F}
    (hP : createModel w other = some P) {val : WVar → F} {lam : Name → Nat → F} {mu : List F} (hs : Solved P val lam mu)
    {b : Name × BranchW F} (hb : b ∈ passive w) : Doc.BranchRule w b.2 (own val b) := by
  obtain ⟨rows, bal, o, h1, -, -, -, -, -, h6⟩ := createModel_parts hP
  have hfeas : ∀ r ∈ rows, r.holds val := by
    intro r hr
    have hmem : r ∈ P.rows := by rw [h6]; exact List.mem_append_left _ hr
    obtain ⟨i, hi, rfl⟩ := List.mem_iff_getElem.mp hmem
    have hi' : i < mu.length := by rw [hs.len]; exact hi
    exact hs.answer.feasible (P.rows[i], mu[i]) (List.mem_append_right _ (by
      rw [List.mem_iff_getElem]
      exact ⟨i, by simp [List.length_zip, hi, hi'], by simp⟩))
  have key : ∀ (comp : Name) (c : Accessor.Cls) (g : BranchW F), Accessor.passive c = true →
      (∃ rs, branchRows w c g = some rs ∧ ∀ q ∈ rs, remap (WVar.of comp g.name) q ∈ rows) → Doc.BranchRule w g (own val (comp, g)) := by
    rintro comp c g hp ⟨rs, hrs, hq⟩
    exact (Doc.branch_rule hp hrs _).mp (fun q hq' => (holds_remap (WVar.of comp g.name) val q).mp (hfeas _ (hq q hq')))
  have hm := ownRows_mem h1
  unfold passive at hb
  rcases List.mem_append.mp hb with hb' | hb'
  · obtain ⟨g, hg, rfl⟩ := List.mem_map.mp hb'
    exact key "Line" .line g rfl (hm.2.2.2.2.1 g hg)
  · obtain ⟨g, hg, rfl⟩ := List.mem_map.mp hb'
    exact key "Transformer" .transformer g rfl (hm.2.2.2.2.2 g hg)

/-- What a branch may do at one snapshot with its capacity. -/
theorem operate_ok {w : WNet F} {b : BranchW F} {x : Loc → F} (hx : Doc.BranchRule w b x) (hloss : w.tangents ≠ 0) {t : Nat} {s l : F}
    (hset : b.active t = true → b.sSet t = none ∨ s = x (.op "s" t))
    (hlim : b.active t = true → - (b.maxPu t * (if b.ext then x .cap else b.nom)) ≤ s - l ∧ s + l ≤ b.maxPu t * (if b.ext then x .cap else b.nom))
    (hl : b.active t = true → ∀ S, Largest b S → 0 ≤ l ∧ l ≤ b.rPuEff * (b.maxPu t * S) ^ 2 ∧
      ∀ k : Nat, 1 ≤ k → k ≤ w.tangents → ∀ p, p = (k : F) / (w.tangents : F) * b.maxPu t * S →
        b.rPuEff * p ^ 2 + 2 * b.rPuEff * p * (s - p) ≤ l ∧ b.rPuEff * p ^ 2 + 2 * b.rPuEff * p * (- s - p) ≤ l) :
    Doc.BranchRule w b (operate x t s l) := by
  have hr : ∀ S, (if b.ext then b.invest.nomMax else some b.nom) = some S → Largest b S := by
    intro S h
    cases he : b.ext with
    | true => exact .inl ⟨he, by simpa [he] using h⟩
    | false => exact .inr ⟨he, by simpa [he] using h⟩
  have hc : operate x t s l .cap = x .cap := by simp [operate]
  refine ⟨?_, fun r hr' ha => ?_, fun r hr' ha v hv => ?_, fun h0 r hr' ha S hS => ?_⟩
  · have : operate x t s l .mod = x .mod := by simp [operate]
    rw [hc, this]
    exact hx.cap
  · simp only [hc, if_neg hloss]
    by_cases h : r = t
    · subst h
      simpa [operate] using hlim ha
    · have := hx.limits r hr' ha
      simp only [if_neg hloss] at this
      simpa [operate, h] using this
  · by_cases h : r = t
    · subst h
      rcases hset ha with h1 | h1
      · rw [h1] at hv
        cases hv
      · have := hx.set r hr' ha v hv
        simp only [operate, if_true]
        rw [h1]
        exact this
    · have := hx.set r hr' ha v hv
      simpa [operate, h] using this
  · by_cases h : r = t
    · subst h
      have := hl ha S (hr S hS)
      simpa [operate] using this
    · have := hx.loss h0 r hr' ha S hS
      simpa [operate, h] using this

omit [Field F] [LinearOrder F] [IsStrictOrderedRing F] in
theorem largest_eq {b : BranchW F} {S S' : F} (h : Largest b S) (h' : Largest b S') : S' = S := by
  rcases h with ⟨h1, h2⟩ | ⟨h1, h2⟩ <;> rcases h' with ⟨h3, h4⟩ | ⟨h3, h4⟩
  · rw [h2] at h4
    exact (Option.some.inj h4).symm
  · rw [h1] at h3
    cases h3
  · rw [h1] at h3
    cases h3
  · rw [← h2, ← h4]

omit [IsStrictOrderedRing F] in
theorem loss_rule {w : WNet F} {b : BranchW F} {x : Loc → F} (hx : Doc.BranchRule w b x) (hloss : w.tangents ≠ 0) {t : Nat} (ht : t < w.len) (ha : b.active t = true)
    {S : F} (hS : Largest b S) : 0 ≤ x (.op "loss" t) ∧ x (.op "loss" t) ≤ b.rPuEff * (b.maxPu t * S) ^ 2 ∧
      ∀ k : Nat, 1 ≤ k → k ≤ w.tangents → ∀ p, p = (k : F) / (w.tangents : F) * b.maxPu t * S →
        b.rPuEff * p ^ 2 + 2 * b.rPuEff * p * (x (.op "s" t) - p) ≤ x (.op "loss" t) ∧ b.rPuEff * p ^ 2 + 2 * b.rPuEff * p * (- x (.op "s" t) - p) ≤ x (.op "loss" t) := by
  refine hx.loss hloss t ht ha S ?_
  rcases hS with ⟨h1, h2⟩ | ⟨h1, h2⟩ <;> simp [h1, h2]

omit [LinearOrder F] [IsStrictOrderedRing F] in
theorem coupled_silent {other : List (Con WVar F)} {mu : List F} {b : Name × BranchW F} {t : Nat} {δ ε : F} (h1 : δ = 0 ∨ ∀ r ∈ other, Silent r b t)
    (h2 : ε = 0 ∨ ∀ r ∈ other, SilentLoss r b t) : coupled other mu b.1 b.2.name (spread (shift t δ ε)) = 0 := by
  unfold coupled
  refine sum_zero _ _ (fun r hr => ?_)
  rw [lin_zero, mul_zero]
  intro e he
  have hr' := mem_zip_left hr
  cases hv : e.2 with
  | const => simp [only, ofAsset]
  | of c a v =>
    simp only [only, ofAsset, ← Bool.decide_and, decide_eq_true_eq]
    split
    · rename_i h
      simp only [spread, shift]
      split
      · rename_i hv'
        rcases h1 with h1 | h1
        · exact h1
        · exact absurd (by rw [hv, h.1, h.2, hv']; rfl) (h1 r.1 hr' e he)
      · split
        · rename_i hv'
          rcases h2 with h2 | h2
          · exact h2
          · exact absurd (by rw [hv, h.1, h.2, hv']; rfl) (h2 r.1 hr' e he)
        · rfl
    · rfl

/-! ## How large losses are -/

/-- The tangent at the `k`-th of `n` points up to the rating `R`. -/
def tangent (r R : F) (n k : Nat) (s : F) : F := r * (2 * ((k : F) / (n : F) * R) * s - ((k : F) / (n : F) * R) ^ 2)

omit [IsStrictOrderedRing F] in
/-- The tangent line with the largest value. -/
theorem highest (r R : F) (n : Nat) (s : F) : ∃ k ≤ n, ∀ j ≤ n, tangent r R n j s ≤ tangent r R n k s := by
  have key : ∀ m ≤ n, ∃ k ≤ n, ∀ j ≤ m, tangent r R n j s ≤ tangent r R n k s := by
    intro m
    induction m with
    | zero => exact fun _ => ⟨0, by omega, fun j hj => by rw [Nat.le_zero.mp hj]⟩
    | succ m ih =>
      intro hm
      obtain ⟨k, hk, h⟩ := ih (by omega)
      rcases le_total (tangent r R n (m + 1) s) (tangent r R n k s) with h1 | h1
      · refine ⟨k, hk, fun j hj => ?_⟩
        rcases Nat.lt_or_ge m j with h2 | h2
        · rw [show j = m + 1 by omega]
          exact h1
        · exact h j h2
      · refine ⟨m + 1, hm, fun j hj => ?_⟩
        rcases Nat.lt_or_ge m j with h2 | h2
        · rw [show j = m + 1 by omega]
        · exact (h j h2).trans h1
  exact key n le_rfl

theorem tangent_zero (r R : F) (n : Nat) (s : F) : tangent r R n 0 s = 0 := by simp [tangent]

theorem tangent_le {r R : F} (hr : 0 ≤ r) (n k : Nat) (s : F) : tangent r R n k s ≤ r * s ^ 2 := by
  unfold tangent
  refine mul_le_mul_of_nonneg_left ?_ hr
  nlinarith [sq_nonneg (s - (k : F) / (n : F) * R)]

theorem sided {r R : F} (hr : 0 ≤ r) (hR : 0 ≤ R) (n k : Nat) {s : F} : tangent r R n k s ≤ tangent r R n k |s| ∧ tangent r R n k (-s) ≤ tangent r R n k |s| := by
  have hp : 0 ≤ (k : F) / (n : F) * R := mul_nonneg (div_nonneg (Nat.cast_nonneg k) (Nat.cast_nonneg n)) hR
  unfold tangent
  refine ⟨mul_le_mul_of_nonneg_left ?_ hr, mul_le_mul_of_nonneg_left ?_ hr⟩ <;>
    nlinarith [le_abs_self s, neg_le_abs s]

/-- **C145.** Where power has a value at the ends of a branch, its losses are not overstated: they are on the tangents, and so never above the
losses of the flow. -/
theorem losses_tight {w : WNet F} (hw : Sound w) (hl : LinearCosts w) (hloss : w.tangents ≠ 0) {other : List (Con WVar F)} {P : Program F}
    (hP : createModel w other = some P) {val : WVar → F} {lam : Name → Nat → F} {mu : List F} (hs : Solved P val lam mu)
    (hwt : ∀ t < w.len, 0 < weight w t) (old : Name → Nat → F) {t : Nat} (ht : t < w.len) {b : Name × BranchW F} (hb : b ∈ passive w) (ha : b.2.active t = true)
    (hother : ∀ r ∈ other, SilentLoss r b t) {S : F} (hS : Largest b.2 S) (hr : 0 ≤ b.2.rPuEff) (hR : 0 ≤ b.2.maxPu t * S)
    (hprice : 0 < price w old lam t b.2.bus0 + price w old lam t b.2.bus1) :
    (∃ k ≤ w.tangents, val (lost b t) = tangent b.2.rPuEff (b.2.maxPu t * S) w.tangents k |val (flow b t)| ∧
      ∀ j ≤ w.tangents, tangent b.2.rPuEff (b.2.maxPu t * S) w.tangents j |val (flow b t)| ≤ val (lost b t)) ∧
    val (lost b t) ≤ b.2.rPuEff * val (flow b t) ^ 2 := by
  have hx := branch_ok hP hs hb
  obtain ⟨l0, l1, l2⟩ := loss_rule hx hloss ht ha hS
  obtain ⟨m0, m1⟩ := hx.limits t ht ha
  simp only [if_neg hloss] at m0 m1
  obtain ⟨k, hk, hbest⟩ := highest b.2.rPuEff (b.2.maxPu t * S) w.tangents |val (flow b t)|
  set T := tangent b.2.rPuEff (b.2.maxPu t * S) w.tangents k |val (flow b t)| with hT
  have e : ∀ j : Nat, ∀ s p : F, p = (j : F) / (w.tangents : F) * b.2.maxPu t * S →
      b.2.rPuEff * p ^ 2 + 2 * b.2.rPuEff * p * (s - p) = tangent b.2.rPuEff (b.2.maxPu t * S) w.tangents j s := by
    intro j s p hp
    rw [hp]
    unfold tangent
    ring
  have T0 : 0 ≤ T := by
    have := hbest 0 (by omega)
    rwa [tangent_zero] at this
  have Tle : T ≤ val (lost b t) := by
    rcases Nat.eq_zero_or_pos k with h0 | h0
    · rw [hT, h0, tangent_zero]
      exact l0
    · have := l2 k h0 hk _ rfl
      rw [e k _ _ rfl, e k _ _ rfl] at this
      rcases abs_cases (val (flow b t)) with ⟨h, -⟩ | ⟨h, -⟩
      · rw [hT, h]
        exact this.1
      · rw [hT, h]
        exact this.2
  have hT2 : T ≤ b.2.rPuEff * val (flow b t) ^ 2 := by
    have := tangent_le hr w.tangents k (R := b.2.maxPu t * S) |val (flow b t)|
    rwa [sq_abs] at this
  have heq : val (lost b t) = T := by
    by_contra hne
    have hlt : T < val (lost b t) := lt_of_le_of_ne Tle (Ne.symm hne)
    have hy : Doc.BranchRule w b.2 (operate (own val b) t (val (flow b t)) T) := by
      refine operate_ok hx hloss (fun _ => .inr rfl) (fun _ => ⟨?_, ?_⟩) (fun _ S' hS' => ?_)
      · have h1 : own val b (.op "s" t) = val (flow b t) := rfl
        have h2 : own val b (.op "loss" t) = val (lost b t) := rfl
        rw [h1, h2] at m0
        linarith
      · have h1 : own val b (.op "s" t) = val (flow b t) := rfl
        have h2 : own val b (.op "loss" t) = val (lost b t) := rfl
        rw [h1, h2] at m1
        linarith
      · obtain rfl := largest_eq hS hS'
        refine ⟨T0, Tle.trans l1, fun j _ hj p hp => ?_⟩
        rw [e j _ p hp, e j _ p hp]
        obtain ⟨s1, s2⟩ := sided hr hR w.tangents j (s := val (flow b t))
        exact ⟨s1.trans (hbest j hj), s2.trans (hbest j hj)⟩
    have hg := branch_gain hw hl hloss hP hs (fun t ht => (hwt t ht).ne') old ht hb hy
    rw [if_pos ha, coupled_silent (.inl (sub_self _)) (.inr hother)] at hg
    rw [price_eq old lam t _ (hwt t ht), price_eq old lam t _ (hwt t ht), ← add_div] at hprice
    have hsum : 0 < lam b.2.bus0 t + lam b.2.bus1 t := by
      by_contra hneg
      have := div_nonpos_of_nonpos_of_nonneg (not_lt.mp hneg) (hwt t ht).le
      linarith
    nlinarith
  exact ⟨⟨k, hk, heq, fun j hj => heq ▸ hbest j hj⟩, heq ▸ hT2⟩

/-- The flow and its loss are within the largest rating. -/
theorem flow_within {w : WNet F} (hloss : w.tangents ≠ 0) {b : BranchW F} {x : Loc → F} (hx : Doc.BranchRule w b x) {t : Nat} (ht : t < w.len) (ha : b.active t = true)
    {S : F} (hS : Largest b S) (hm : 0 ≤ b.maxPu t) : |x (.op "s" t)| + x (.op "loss" t) ≤ b.maxPu t * S := by
  obtain ⟨m0, m1⟩ := hx.limits t ht ha
  simp only [if_neg hloss] at m0 m1
  have hcap : b.maxPu t * (if b.ext then x .cap else b.nom) ≤ b.maxPu t * S := by
    refine mul_le_mul_of_nonneg_left ?_ hm
    rcases hS with ⟨h1, h2⟩ | ⟨h1, h2⟩
    · rw [if_pos h1]
      exact hx.cap.most h1 S h2
    · rw [h1]
      exact h2.le
  rcases abs_cases (x (.op "s" t)) with ⟨h, -⟩ | ⟨h, -⟩ <;> rw [h] <;> linarith

/-- **C145.** There losses are those of the flow, up to what the number of tangents decides. -/
theorem losses_close [FloorSemiring F] {w : WNet F} (hw : Sound w) (hl : LinearCosts w) (hloss : w.tangents ≠ 0) {other : List (Con WVar F)} {P : Program F}
    (hP : createModel w other = some P) {val : WVar → F} {lam : Name → Nat → F} {mu : List F} (hs : Solved P val lam mu)
    (hwt : ∀ t < w.len, 0 < weight w t) (old : Name → Nat → F) {t : Nat} (ht : t < w.len) {b : Name × BranchW F} (hb : b ∈ passive w) (ha : b.2.active t = true)
    (hother : ∀ r ∈ other, SilentLoss r b t) {S : F} (hS : Largest b.2 S) (hr : 0 ≤ b.2.rPuEff) (hm : 0 ≤ b.2.maxPu t)
    (hprice : 0 < price w old lam t b.2.bus0 + price w old lam t b.2.bus1) :
    b.2.rPuEff * val (flow b t) ^ 2 - b.2.rPuEff * (b.2.maxPu t * S / (2 * w.tangents)) ^ 2 ≤ val (lost b t) ∧
    val (lost b t) ≤ b.2.rPuEff * val (flow b t) ^ 2 := by
  have hx := branch_ok hP hs hb
  have hlr := loss_rule hx hloss ht ha hS
  have h1 := flow_within hloss hx ht ha hS hm
  have hf : |val (flow b t)| ≤ b.2.maxPu t * S := by
    have h2 : own val b (.op "s" t) = val (flow b t) := rfl
    rw [h2] at h1
    linarith [hlr.1]
  refine ⟨?_, (losses_tight hw hl hloss hP hs hwt old ht hb ha hother hS hr ((abs_nonneg _).trans hf) hprice).2⟩
  have hrat : lossRating (branchLoss b.2 t) = some S := by
    unfold lossRating branchLoss
    rcases hS with ⟨h1, h2⟩ | ⟨h1, h2⟩ <;> simp [h1, h2]
  cases hc : lossCons (branchLoss b.2 t) w.tangents with
  | error e =>
    unfold lossCons at hc
    rw [hrat] at hc
    cases hc
  | ok rows =>
    refine loss_lower_bound (branchLoss b.2 t) w.tangents (Nat.one_le_iff_ne_zero.mpr hloss) rows S hrat hc ha hr (val (lost b t)) (val (flow b t)) hf ?_
    rw [loss_rows (branchLoss b.2 t) w.tangents rows S hrat hc ha]
    refine ⟨hlr.1, hlr.2.1, fun k k1 k2 => ?_⟩
    have := hlr.2.2 k k1 k2 _ rfl
    have e1 : own val b (.op "s" t) = val (flow b t) := rfl
    have e2 : own val b (.op "loss" t) = val (lost b t) := rfl
    rw [e1, e2] at this
    simp only [branchLoss]
    constructor
    · refine le_of_eq_of_le ?_ this.1
      ring
    · refine le_of_eq_of_le ?_ this.2
      ring

/-- **C145.** Where power is worth less than nothing, lines burn it: losses are as large as the rows allow, whatever the flow. -/
theorem losses_burn {w : WNet F} (hw : Sound w) (hl : LinearCosts w) (hloss : w.tangents ≠ 0) {other : List (Con WVar F)} {P : Program F}
    (hP : createModel w other = some P) {val : WVar → F} {lam : Name → Nat → F} {mu : List F} (hs : Solved P val lam mu)
    (hwt : ∀ t < w.len, 0 < weight w t) (old : Name → Nat → F) {t : Nat} (ht : t < w.len) {b : Name × BranchW F} (hb : b ∈ passive w) (ha : b.2.active t = true)
    (hother : ∀ r ∈ other, SilentLoss r b t) {S : F} (hS : Largest b.2 S)
    (hprice : price w old lam t b.2.bus0 + price w old lam t b.2.bus1 < 0) :
    val (lost b t) = b.2.rPuEff * (b.2.maxPu t * S) ^ 2 ∨ |val (flow b t)| + val (lost b t) = rating val b t := by
  have hx := branch_ok hP hs hb
  obtain ⟨l0, l1, l2⟩ := loss_rule hx hloss ht ha hS
  obtain ⟨m0, m1⟩ := hx.limits t ht ha
  simp only [if_neg hloss] at m0 m1
  have h1 : own val b (.op "s" t) = val (flow b t) := rfl
  have h2 : own val b (.op "loss" t) = val (lost b t) := rfl
  have h3 : b.2.maxPu t * (if b.2.ext then own val b .cap else b.2.nom) = rating val b t := rfl
  rw [h1, h2] at l2
  rw [h2] at l0 l1
  rw [h1, h2, h3] at m0 m1
  by_contra hne
  rw [not_or] at hne
  have hlt1 : val (lost b t) < b.2.rPuEff * (b.2.maxPu t * S) ^ 2 := lt_of_le_of_ne l1 hne.1
  have habs : |val (flow b t)| + val (lost b t) ≤ rating val b t := by
    rcases abs_cases (val (flow b t)) with ⟨h, -⟩ | ⟨h, -⟩ <;> rw [h] <;> linarith
  have hlt2 := lt_of_le_of_ne habs hne.2
  set L := min (b.2.rPuEff * (b.2.maxPu t * S) ^ 2) (rating val b t - |val (flow b t)|) with hL
  have hLl : val (lost b t) < L := lt_min hlt1 (by linarith)
  have hL1 : L ≤ b.2.rPuEff * (b.2.maxPu t * S) ^ 2 := min_le_left _ _
  have hL2 : L ≤ rating val b t - |val (flow b t)| := min_le_right _ _
  have hy : Doc.BranchRule w b.2 (operate (own val b) t (val (flow b t)) L) := by
    refine operate_ok hx hloss (fun _ => .inr rfl) (fun _ => ⟨?_, ?_⟩) (fun _ S' hS' => ?_)
    · rw [h3]
      linarith [neg_le_abs (val (flow b t))]
    · rw [h3]
      linarith [le_abs_self (val (flow b t))]
    · obtain rfl := largest_eq hS hS'
      refine ⟨l0.trans hLl.le, hL1, fun j j1 hj p hp => ?_⟩
      have := l2 j j1 hj p hp
      exact ⟨this.1.trans hLl.le, this.2.trans hLl.le⟩
  have hg := branch_gain hw hl hloss hP hs (fun t ht => (hwt t ht).ne') old ht hb hy
  rw [if_pos ha, coupled_silent (.inl (sub_self _)) (.inr hother)] at hg
  rw [price_eq old lam t _ (hwt t ht), price_eq old lam t _ (hwt t ht), ← add_div] at hprice
  have hsum : lam b.2.bus0 t + lam b.2.bus1 t < 0 := by
    by_contra hneg
    have := div_nonneg (not_lt.mp hneg) (hwt t ht).le
    linarith
  nlinarith

/-! ## What branches earn -/

/-- Changes of flows and losses of all branches. -/
def movedBoth (w : WNet F) (δ ε : Name × BranchW F → F) (t : Nat) (v : WVar) : F :=
  ((passive w).map (fun b => only (ofAsset b.1 b.2.name) (spread (shift t (δ b) (ε b))) v)).sum

omit [LinearOrder F] [IsStrictOrderedRing F] in
theorem movedBoth_flow {w : WNet F} (hw : Sound w) (δ ε : Name × BranchW F → F) (t : Nat) (b : Name × BranchW F) (hb : b ∈ passive w) :
    movedBoth w δ ε t (flow b t) = δ b := by
  unfold movedBoth
  rw [sum_single (passive w) (fun b => (b.1, b.2.name)) _ (keys_nodup hw) b hb]
  · simp [only, flow, ofAsset, spread, shift]
  · intro c _ hc
    simp only [only, flow, ofAsset, Bool.and_eq_true, decide_eq_true_eq]
    split
    · rename_i h
      exact absurd (by rw [h.1, h.2]) hc
    · rfl

omit [LinearOrder F] [IsStrictOrderedRing F] in
theorem movedBoth_other {w : WNet F} (δ ε : Name × BranchW F → F) (t : Nat) (v : WVar) (hv : ∀ b ∈ passive w, v ≠ flow b t ∧ v ≠ lost b t) :
    movedBoth w δ ε t v = 0 := by
  unfold movedBoth
  refine sum_zero _ _ (fun b hb => ?_)
  cases v with
  | const => simp [only, ofAsset]
  | of c a l =>
    simp only [only, ofAsset, ← Bool.decide_and, decide_eq_true_eq]
    split
    · rename_i h
      simp only [spread, shift]
      split
      · rename_i hl
        exact absurd (by rw [flow, h.1, h.2, hl]) (hv b hb).1
      · split
        · rename_i hl
          exact absurd (by rw [lost, h.1, h.2, hl]) (hv b hb).2
        · rfl
    · rfl

/-- **C145.** At every snapshot the lines and transformers together earn no less than nothing, even after paying for their losses. -/
theorem earned_nonneg {w : WNet F} (hw : Sound w) (hl : LinearCosts w) (hloss : w.tangents ≠ 0) {other : List (Con WVar F)} {P : Program F}
    (hP : createModel w other = some P) {val : WVar → F} {lam : Name → Nat → F} {mu : List F} (hs : Solved P val lam mu)
    (hwt : ∀ t < w.len, 0 < weight w t) (old : Name → Nat → F) {t : Nat} (ht : t < w.len) (hr : ∀ b ∈ passive w, 0 ≤ b.2.rPuEff)
    (hfin : ∀ b ∈ passive w, ∃ S, Largest b.2 S) (hset : ∀ b ∈ passive w, b.2.active t = true → b.2.sSet t = none)
    (hother : ∀ r ∈ other, (∀ b ∈ passive w, Silent r b t ∧ SilentLoss r b t) ∨ Homogeneous w r t) :
    0 ≤ ((passive w).map (earned w old lam val t)).sum := by
  have one : ∀ b ∈ passive w, (if b.2.active t then (lam b.2.bus1 t - lam b.2.bus0 t) * (0 - val (flow b t)) - (lam b.2.bus0 t + lam b.2.bus1 t) / 2 * (0 - val (lost b t)) else 0) +
      coupled other mu b.1 b.2.name (spread (shift t (0 - val (flow b t)) (0 - val (lost b t)))) ≤ 0 := by
    intro b hb
    have hx := branch_ok hP hs hb
    refine branch_gain hw hl hloss hP hs (fun t ht => (hwt t ht).ne') old ht hb (operate_ok hx hloss (fun ha => .inl (hset b hb ha)) (fun ha => ?_) (fun ha S hS => ?_))
    · obtain ⟨m0, m1⟩ := hx.limits t ht ha
      simp only [if_neg hloss] at m0 m1
      obtain ⟨S, hS⟩ := hfin b hb
      have h0 := (loss_rule hx hloss ht ha hS).1
      constructor <;> linarith
    · refine ⟨le_rfl, mul_nonneg (hr b hb) (sq_nonneg _), fun k _ _ p _ => ?_⟩
      have := mul_nonneg (hr b hb) (sq_nonneg p)
      constructor <;> nlinarith
  have all : ((passive w).map (fun b => (if b.2.active t then (lam b.2.bus1 t - lam b.2.bus0 t) * (0 - val (flow b t)) - (lam b.2.bus0 t + lam b.2.bus1 t) / 2 * (0 - val (lost b t)) else 0) +
      coupled other mu b.1 b.2.name (spread (shift t (0 - val (flow b t)) (0 - val (lost b t)))))).sum ≤ 0 := by
    have := List.sum_nonneg (l := (passive w).map (fun b => - ((if b.2.active t then (lam b.2.bus1 t - lam b.2.bus0 t) * (0 - val (flow b t)) - (lam b.2.bus0 t + lam b.2.bus1 t) / 2 * (0 - val (lost b t)) else 0) +
        coupled other mu b.1 b.2.name (spread (shift t (0 - val (flow b t)) (0 - val (lost b t))))))) (fun y hy => by
      obtain ⟨b, hb, rfl⟩ := List.mem_map.mp hy
      exact neg_nonneg.mpr (one b hb))
    rw [sum_neg_map _ (fun b => (if b.2.active t then (lam b.2.bus1 t - lam b.2.bus0 t) * (0 - val (flow b t)) - (lam b.2.bus0 t + lam b.2.bus1 t) / 2 * (0 - val (lost b t)) else 0) +
      coupled other mu b.1 b.2.name (spread (shift t (0 - val (flow b t)) (0 - val (lost b t))))) _ (fun b _ => rfl)] at this
    linarith
  rw [List.sum_map_add] at all
  have zero : ((passive w).map (fun b => coupled other mu b.1 b.2.name (spread (shift t (0 - val (flow b t)) (0 - val (lost b t)))))).sum = 0 := by
    unfold coupled
    rw [sum_swap]
    refine sum_zero _ _ (fun r hr => ?_)
    rw [List.sum_map_mul_left, ← lin_sum]
    have : lin (movedBoth w (fun b => 0 - val (flow b t)) (fun b => 0 - val (lost b t)) t) r.1.terms = 0 := by
      rcases hother r.1 (mem_zip_left hr) with h | ⟨h1, h2, h3⟩
      · exact lin_zero _ _ (fun e he => movedBoth_other _ _ t e.2 (fun b hb => ⟨(h b hb).1 e he, (h b hb).2 e he⟩))
      · rw [lin_congr _ (fun v => - val v) _ (fun e he => by
          obtain ⟨b, hb, hv⟩ := h3 e he
          rw [hv, movedBoth_flow hw _ _ t b hb, zero_sub]), lin_neg]
        have := other_holds hP hs r.1 (mem_zip_left hr)
        unfold Con.holds at this
        rw [h1] at this
        simp only at this
        rw [this, h2, neg_zero]
    unfold movedBoth at this
    rw [this, mul_zero]
  have e : ((passive w).map (fun b => if b.2.active t then (lam b.2.bus1 t - lam b.2.bus0 t) * (0 - val (flow b t)) - (lam b.2.bus0 t + lam b.2.bus1 t) / 2 * (0 - val (lost b t)) else 0)).sum =
      - weight w t * ((passive w).map (earned w old lam val t)).sum := by
    rw [← List.sum_map_mul_left]
    congr 1
    refine List.map_congr_left (fun b _ => ?_)
    unfold earned
    split
    · rw [price_eq old lam t _ (hwt t ht), price_eq old lam t _ (hwt t ht)]
      have := (hwt t ht).ne'
      field_simp
      ring
    · simp
  rw [zero, add_zero, e] at all
  have := hwt t ht
  by_contra hneg
  rw [not_le] at hneg
  nlinarith

/-! ## Prices along a branch -/

/-- Between the midpoints to its neighbours a tangent is the highest. -/
theorem nearest {r R : F} (hr : 0 ≤ r) (hR : 0 ≤ R) {n k : Nat} {σ : F} (hσ : σ = 1 ∨ σ = -1) {s : F}
    (hs : |σ * s - (k : F) / (n : F) * R| ≤ R / n / 2) (j : Nat) : tangent r R n j |s| ≤ tangent r R n k (σ * s) := by
  have hd : 0 ≤ R / n := div_nonneg hR (Nat.cast_nonneg n)
  have e : ∀ i : Nat, (i : F) / (n : F) * R = i * (R / n) := fun i => by ring
  obtain ⟨a1, a2⟩ := abs_le.mp hs
  rw [e] at a1 a2
  unfold tangent
  rw [e, e]
  set D := R / n with hD
  refine mul_le_mul_of_nonneg_left ?_ hr
  rcases Nat.eq_zero_or_pos k with h0 | h0
  · subst h0
    have hu : |s| ≤ D / 2 := by
      rcases hσ with rfl | rfl <;> simp only [Nat.cast_zero, zero_mul, sub_zero, one_mul, neg_mul] at a1 a2 <;> exact abs_le.mpr ⟨by linarith, by linarith⟩
    rcases Nat.eq_zero_or_pos j with h1 | h1
    · subst h1
      simp
    · have hj : (1 : F) ≤ j := by exact_mod_cast h1
      have h2 : D ≤ j * D := by nlinarith
      have h3 : 0 ≤ (j : F) * D := by linarith
      simp only [Nat.cast_zero, zero_mul, mul_zero]
      nlinarith
  · have hk : (1 : F) ≤ k := by exact_mod_cast h0
    have h2 : D ≤ k * D := by nlinarith
    have hu : |s| = σ * s := by
      have h3 : 0 ≤ σ * s := by linarith
      rcases hσ with rfl | rfl
      · rw [one_mul] at h3 ⊢
        exact abs_of_nonneg h3
      · rw [neg_one_mul] at h3 ⊢
        exact abs_of_nonpos (by linarith)
    rw [hu]
    rcases Nat.lt_trichotomy j k with h | h | h
    · have h3 : (j : F) + 1 ≤ k := by exact_mod_cast h
      have h4 : (j : F) * D + D ≤ k * D := by nlinarith
      nlinarith
    · subst h
      exact le_rfl
    · have h3 : (k : F) + 1 ≤ j := by exact_mod_cast h
      have h4 : (k : F) * D + D ≤ j * D := by nlinarith
      nlinarith

/-- **C145.** Along a branch that no further row is about and that is not at its rating, the price rises by the marginal losses: by twice the resistance
times the flow, rounded to the points of the tangents, of the price half-way. -/
theorem price_rises {w : WNet F} (hw : Sound w) (hl : LinearCosts w) (hloss : w.tangents ≠ 0) {other : List (Con WVar F)} {P : Program F}
    (hP : createModel w other = some P) {val : WVar → F} {lam : Name → Nat → F} {mu : List F} (hs : Solved P val lam mu)
    (hwt : ∀ t < w.len, 0 < weight w t) (old : Name → Nat → F) {t : Nat} (ht : t < w.len) {b : Name × BranchW F} (hb : b ∈ passive w) (ha : b.2.active t = true)
    (hother : ∀ r ∈ other, Silent r b t ∧ SilentLoss r b t) (hset : b.2.sSet t = none) {S : F} (hS : Largest b.2 S) (hr : 0 ≤ b.2.rPuEff) (hm : 0 ≤ b.2.maxPu t)
    (hprice : 0 < price w old lam t b.2.bus0 + price w old lam t b.2.bus1) (hfree : |val (flow b t)| + val (lost b t) < rating val b t)
    {σ : F} (hσ : σ = 1 ∨ σ = -1) {k : Nat} (hk : k ≤ w.tangents) {p : F} (hp : p = (k : F) / (w.tangents : F) * (b.2.maxPu t * S))
    (hnear : |σ * val (flow b t) - p| < b.2.maxPu t * S / w.tangents / 2) :
    price w old lam t b.2.bus1 - price w old lam t b.2.bus0 =
      σ * (2 * b.2.rPuEff * p) * ((price w old lam t b.2.bus0 + price w old lam t b.2.bus1) / 2) := by
  have hx := branch_ok hP hs hb
  have hin := flow_within hloss hx ht ha hS hm
  have e1 : own val b (.op "s" t) = val (flow b t) := rfl
  have e2 : own val b (.op "loss" t) = val (lost b t) := rfl
  have e3 : b.2.maxPu t * (if b.2.ext then own val b .cap else b.2.nom) = rating val b t := rfl
  rw [e1, e2] at hin
  have hl0 := (loss_rule hx hloss ht ha hS).1
  rw [e2] at hl0
  have hR : 0 ≤ b.2.maxPu t * S := by linarith [abs_nonneg (val (flow b t))]
  have hn0 : (0 : F) < w.tangents := by exact_mod_cast Nat.pos_of_ne_zero hloss
  have hp0 : 0 ≤ p := by
    rw [hp]
    exact mul_nonneg (div_nonneg (Nat.cast_nonneg k) hn0.le) hR
  obtain ⟨⟨k', hk', hlk, hmax⟩, -⟩ := losses_tight hw hl hloss hP hs hwt old ht hb ha (fun r hr' => (hother r hr').2) hS hr hR hprice
  have hσs : σ * val (flow b t) ≤ |val (flow b t)| := by
    rcases hσ with rfl | rfl
    · rw [one_mul]
      exact le_abs_self _
    · rw [neg_one_mul]
      exact neg_le_abs _
  have hT : val (lost b t) = tangent b.2.rPuEff (b.2.maxPu t * S) w.tangents k (σ * val (flow b t)) := by
    apply le_antisymm
    · rw [hlk]
      exact nearest hr hR hσ (by rw [← hp]; exact hnear.le) k'
    · refine le_trans ?_ (hmax k hk)
      unfold tangent
      rw [← hp]
      refine mul_le_mul_of_nonneg_left ?_ hr
      nlinarith
  have move : ∀ h : F, |h| ≤ b.2.maxPu t * S / w.tangents / 2 - |σ * val (flow b t) - p| →
      |h| * (1 + 2 * b.2.rPuEff * p) ≤ rating val b t - (|val (flow b t)| + val (lost b t)) →
      (lam b.2.bus1 t - lam b.2.bus0 t) * h - (lam b.2.bus0 t + lam b.2.bus1 t) / 2 * (2 * b.2.rPuEff * p * (σ * h)) ≤ 0 := by
    intro h h1 h2
    have hc : |σ * h| = |h| := by
      rcases hσ with rfl | rfl
      · rw [one_mul]
      · rw [neg_one_mul, abs_neg]
    have hrp : 0 ≤ 2 * b.2.rPuEff * p := mul_nonneg (mul_nonneg (by norm_num) hr) hp0
    have hTl : val (lost b t) + 2 * b.2.rPuEff * p * (σ * h) = tangent b.2.rPuEff (b.2.maxPu t * S) w.tangents k (σ * (val (flow b t) + h)) := by
      rw [hT]
      unfold tangent
      rw [← hp]
      ring
    have hnew : |σ * (val (flow b t) + h) - (k : F) / (w.tangents : F) * (b.2.maxPu t * S)| ≤ b.2.maxPu t * S / w.tangents / 2 := by
      rw [← hp]
      have e : σ * (val (flow b t) + h) - p = (σ * val (flow b t) - p) + σ * h := by ring
      rw [e]
      refine (abs_add_le _ _).trans ?_
      rw [hc]
      linarith
    have hlim : |val (flow b t) + h| + (val (lost b t) + 2 * b.2.rPuEff * p * (σ * h)) ≤ rating val b t := by
      have a1 := abs_add_le (val (flow b t)) h
      have a2 : 2 * b.2.rPuEff * p * (σ * h) ≤ 2 * b.2.rPuEff * p * |h| := mul_le_mul_of_nonneg_left (by rw [← hc]; exact le_abs_self _) hrp
      linarith
    have hl0' : 0 ≤ val (lost b t) + 2 * b.2.rPuEff * p * (σ * h) := by
      rw [hTl]
      have := nearest hr hR hσ hnew 0
      rwa [tangent_zero] at this
    have hrat : rating val b t ≤ b.2.maxPu t * S := by
      rw [← e3]
      refine mul_le_mul_of_nonneg_left ?_ hm
      rcases hS with ⟨h1, h2⟩ | ⟨h1, h2⟩
      · rw [if_pos h1]
        exact hx.cap.most h1 S h2
      · rw [h1]
        exact h2.le
    have hy : Doc.BranchRule w b.2 (operate (own val b) t (val (flow b t) + h) (val (lost b t) + 2 * b.2.rPuEff * p * (σ * h))) := by
      refine operate_ok hx hloss (fun _ => .inl hset) (fun _ => ⟨?_, ?_⟩) (fun _ S' hS' => ?_)
      · rw [e3]
        linarith [neg_le_abs (val (flow b t) + h)]
      · rw [e3]
        linarith [le_abs_self (val (flow b t) + h)]
      · obtain rfl := largest_eq hS hS'
        refine ⟨hl0', ?_, fun j _ _ q hq => ?_⟩
        · rw [hTl]
          refine (tangent_le hr _ _ _).trans (mul_le_mul_of_nonneg_left ?_ hr)
          have e : (σ * (val (flow b t) + h)) ^ 2 = |val (flow b t) + h| ^ 2 := by
            rw [sq_abs]
            rcases hσ with rfl | rfl <;> ring
          rw [e]
          exact pow_le_pow_left₀ (abs_nonneg _) (by linarith) 2
        · have e : ∀ u : F, b.2.rPuEff * q ^ 2 + 2 * b.2.rPuEff * q * (u - q) = tangent b.2.rPuEff (b.2.maxPu t * S') w.tangents j u := by
            intro u
            rw [hq]
            unfold tangent
            ring
          rw [e, e, hTl]
          obtain ⟨s1, s2⟩ := sided hr hR w.tangents j (s := val (flow b t) + h)
          exact ⟨s1.trans (nearest hr hR hσ hnew j), s2.trans (nearest hr hR hσ hnew j)⟩
    have hg := branch_gain hw hl hloss hP hs (fun t ht => (hwt t ht).ne') old ht hb hy
    rw [if_pos ha, coupled_silent (.inr (fun r hr' => (hother r hr').1)) (.inr (fun r hr' => (hother r hr').2))] at hg
    have e4 : val (flow b t) + h - val (flow b t) = h := by ring
    have e5 : val (lost b t) + 2 * b.2.rPuEff * p * (σ * h) - val (lost b t) = 2 * b.2.rPuEff * p * (σ * h) := by ring
    rw [e4, e5, add_zero] at hg
    exact hg
  have hrp : 0 ≤ 2 * b.2.rPuEff * p := mul_nonneg (mul_nonneg (by norm_num) hr) hp0
  set h := min (b.2.maxPu t * S / w.tangents / 2 - |σ * val (flow b t) - p|) ((rating val b t - (|val (flow b t)| + val (lost b t))) / (1 + 2 * b.2.rPuEff * p)) with hh
  have hpos : 0 < h := lt_min (by linarith) (div_pos (by linarith) (by linarith))
  have h1 : h ≤ b.2.maxPu t * S / w.tangents / 2 - |σ * val (flow b t) - p| := min_le_left _ _
  have h2 : h * (1 + 2 * b.2.rPuEff * p) ≤ rating val b t - (|val (flow b t)| + val (lost b t)) := by
    rw [← le_div_iff₀ (by linarith)]
    exact min_le_right _ _
  have m1 := move h (by rwa [abs_of_pos hpos]) (by rwa [abs_of_pos hpos])
  have m2 := move (-h) (by rwa [abs_neg, abs_of_pos hpos]) (by rwa [abs_neg, abs_of_pos hpos])
  have hz : h * ((lam b.2.bus1 t - lam b.2.bus0 t) - (lam b.2.bus0 t + lam b.2.bus1 t) / 2 * (2 * b.2.rPuEff * p * σ)) = 0 := by
    apply le_antisymm <;> nlinarith
  have hz' := (mul_eq_zero.mp hz).resolve_left hpos.ne'
  rw [price_eq old lam t _ (hwt t ht), price_eq old lam t _ (hwt t ht)]
  have hwn := (hwt t ht).ne'
  field_simp
  linarith

/-! ## Who pays whom -/

omit [IsStrictOrderedRing F] in
omit [LinearOrder F] in
theorem pay_supply {w : WNet F} (hw : Sound w) (hloss : w.tangents ≠ 0) (old lam : Name → Nat → F) (x : WVar → F) (t : Nat) :
    (w.buses.map (fun b => price w old lam t b * Doc.supply w x t b)).sum =
      income w (price w old lam t) x t + ((passive w).map (earned w old lam x t)).sum := by
  generalize hp : price w old lam t = p
  unfold Doc.supply
  rw [pay_add, pay_add, pay_add, pay_add, pay_add, pay_sum w.buses p w.gens _ _ (fun g hg => pay_at w.buses hw.buses p g.bus (hw.genBus g hg) _ _),
    pay_sum w.buses p w.stores _ _ (fun g hg => pay_at w.buses hw.buses p g.bus (hw.storeBus g hg) _ _),
    pay_sum w.buses p w.units _ _ (fun g hg => pay_at w.buses hw.buses p g.bus (hw.unitBus g hg) _ _),
    pay_sum w.buses p w.lines _ (fun l => earned w old lam x t ("Line", l)) (fun l hl => ?_),
    pay_sum w.buses p w.trafos _ (fun l => earned w old lam x t ("Transformer", l)) (fun l hl => ?_),
    pay_sum w.buses p w.links _ (fun l => pay p l.bus0 (l.unit.active t) (- x (.of "Link" l.name (.op "p" t))) +
      pay p l.bus1 (l.unit.active t) (l.eff t * x (.of "Link" l.name (.op "p" t))) +
      (l.extra.map (fun e => if e.1 = "" then 0 else pay p e.1 (l.unit.active t) (e.2 t * x (.of "Link" l.name (.op "p" t))))).sum) (fun l hl => ?_)]
  · unfold income passive
    rw [List.map_append, List.map_map, List.map_map, List.sum_append]
    simp only [Function.comp_def]
    ring
  · obtain ⟨h0, h1, h2⟩ := hw.linkBus l hl
    rw [pay_add, pay_add, pay_at _ hw.buses p _ h0, pay_at _ hw.buses p _ h1, pay_sum w.buses p l.extra]
    intro e he
    split
    · rename_i h
      exact pay_none _ p _ (h ▸ hw.noEmpty) _ _
    · rename_i h
      exact pay_at _ hw.buses p _ ((h2 e he).resolve_left h) _ _
  · obtain ⟨h0, h1⟩ := hw.trafoBus l hl
    rw [pay_add, pay_at _ hw.buses p _ h0, pay_at _ hw.buses p _ h1]
    unfold pay earned Doc.halfLoss
    rw [if_neg hloss, hp]
    cases l.active t
    · simp
    · simp only [if_true, flow, lost]; ring
  · obtain ⟨h0, h1⟩ := hw.lineBus l hl
    rw [pay_add, pay_at _ hw.buses p _ h0, pay_at _ hw.buses p _ h1]
    unfold pay earned Doc.halfLoss
    rw [if_neg hloss, hp]
    cases l.active t
    · simp
    · simp only [if_true, flow, lost]; ring

/-- **C145.** At every snapshot what the loads pay is what the other assets are paid and what lines and transformers earn after paying for their
losses; so never less is paid than received. -/
theorem surplus {w : WNet F} (hw : Sound w) (hl : LinearCosts w) (hloss : w.tangents ≠ 0) {other : List (Con WVar F)} {P : Program F}
    (hP : createModel w other = some P) {val : WVar → F} {lam : Name → Nat → F} {mu : List F} (hs : Solved P val lam mu)
    (hwt : ∀ t < w.len, 0 < weight w t) (old : Name → Nat → F) {t : Nat} (ht : t < w.len) (hr : ∀ b ∈ passive w, 0 ≤ b.2.rPuEff)
    (hfin : ∀ b ∈ passive w, ∃ S, Largest b.2 S) (hset : ∀ b ∈ passive w, b.2.active t = true → b.2.sSet t = none)
    (hother : ∀ r ∈ other, (∀ b ∈ passive w, Silent r b t ∧ SilentLoss r b t) ∨ Homogeneous w r t) :
    spending w (price w old lam t) t = income w (price w old lam t) val t + ((passive w).map (earned w old lam val t)).sum ∧
    income w (price w old lam t) val t ≤ spending w (price w old lam t) t := by
  have h1 : spending w (price w old lam t) t = income w (price w old lam t) val t + ((passive w).map (earned w old lam val t)).sum := by
    rw [← pay_supply hw hloss]
    obtain ⟨own, bal, o, -, h2, -, -, -, h5, h6⟩ := createModel_parts hP
    have hbal : Feasible val (bal.map (·.2)) := fun c hc => by
      obtain ⟨r, hr, rfl⟩ := List.mem_map.mp hc
      exact hs.answer.feasible (r.2, lam r.1.1 r.1.2) (List.mem_append.mpr (Or.inl (List.mem_map.mpr ⟨r, h5 ▸ hr, rfl⟩)))
    have hb := (balance_iff hw h2 val).mp hbal t ht
    have : (w.buses.map (fun b => price w old lam t b * Doc.supply w val t b)).sum =
        (w.buses.map (fun b => price w old lam t b * Doc.demand w t b)).sum := by
      congr 1
      refine List.map_congr_left (fun b hbm => ?_)
      rw [← Doc.supply_rule, hb b hbm, Doc.demand_rule]
    rw [this]
    unfold spending Doc.demand
    rw [pay_sum w.buses _ w.loads _ _ (fun g hg => pay_at w.buses hw.buses _ g.bus (hw.loadBus g hg) _ _)]
  refine ⟨h1, ?_⟩
  rw [h1]
  linarith [earned_nonneg hw hl hloss hP hs hwt old ht hr hfin hset hother]

end gain

/-! ## Examples -/

namespace Demo

def wire (name bus0 bus1 : Name) (nom r : ℚ) : BranchW ℚ := ⟨name, bus0, bus1, fun _ => true, false, nom, fun _ => 1, r, exInvest 0, fun _ => none⟩

/-- A plant at "a" and a load at "b", with a line between them whose losses are bounded by the tangents at a half of its rating and at its rating. -/
def net (cost load : ℚ) : WNet ℚ where
  len := 1
  multi := false
  period := fun _ => 0
  rolling := false
  linearized := false
  tangents := 2
  threshold := 45
  sw := fun _ => 2
  gw := fun _ => 1
  periods := none
  buses := ["a", "b"]
  gens := [Rent.Demo.gen "plant" "a" cost]
  links := []
  stores := []
  units := []
  lines := [wire "ab" "a" "b" 12 (1 / 72)]
  trafos := []
  loads := [⟨"b", -1, fun _ => load, fun _ => true⟩]

def line : Name × BranchW ℚ := ("Line", wire "ab" "a" "b" 12 (1 / 72))

def val (p s loss : ℚ) (v : WVar) : ℚ :=
  if v = .of "Generator" "plant" (.op "p" 0) then p else if v = .of "Line" "ab" (.op "s" 0) then s else if v = .of "Line" "ab" (.op "loss" 0) then loss else 0

def names : List WVar := [.of "Generator" "plant" (.op "p" 0), .of "Line" "ab" (.op "s" 0), .of "Line" "ab" (.op "loss" 0), .const]

theorem sound (c d : ℚ) : Sound (net c d) := by
  constructor <;> simp [net, Rent.Demo.gen, wire]

theorem linear (c d : ℚ) : LinearCosts (net c d) where
  gens := by intro g hg t; simp [net, Rent.Demo.gen] at hg; subst hg; rfl
  links := by intro g hg t; simp [net] at hg
  stores := by intro g hg t; simp [net] at hg
  units := by intro g hg t; simp [net] at hg
  genEvents := by intro g hg; simp [net, Rent.Demo.gen] at hg; subst hg; exact ⟨rfl, rfl⟩
  linkEvents := by intro g hg; simp [net] at hg

theorem weights (c d : ℚ) : ∀ t < (net c d).len, 0 < weight (net c d) t := by
  intro t _
  simp [weight, net]

theorem mem (c d : ℚ) : line ∈ passive (net c d) := by simp [passive, net, line]

theorem only (c d : ℚ) : ∀ b ∈ passive (net c d), b = line := by simp [passive, net, line]

theorem largest : Largest line.2 12 := .inr ⟨rfl, rfl⟩

/-- Power costs 11. -/
theorem some : (createModel (net 11 (23 / 4)) []).isSome = true := by decide +kernel

def program : Program ℚ := (createModel (net 11 (23 / 4)) []).get some

theorem program_eq : createModel (net 11 (23 / 4)) [] = Option.some program := (Option.some_get some).symm

def lam (b : Name) (_ : Nat) : ℚ := if b = "a" then 22 else 26

theorem solved : Solved program (val (25 / 4) 6 (1 / 2)) lam [0, 0, 0, 0, 0, 0, 24, 0, 0, 0, 0] where
  len := by decide +kernel
  answer := {
    feasible := by decide +kernel
    upper := by decide +kernel
    lower := by decide +kernel
    stationary := stationary_of _ _ names (by decide +kernel) (by decide +kernel) (by decide +kernel)
    noGap := by decide +kernel }

/-- Half of the rating flows, the losses are those of the flow, and the price rises from 11 to 13: by the marginal losses of one sixth of 12. -/
example : |val (25 / 4) 6 (1 / 2) (flow line 0)| = 6 ∧ val (25 / 4) 6 (1 / 2) (lost line 0) = 1 / 72 * 6 ^ 2 ∧
    price (net 11 (23 / 4)) (fun _ _ => 0) lam 0 "b" - price (net 11 (23 / 4)) (fun _ _ => 0) lam 0 "a" = 1 / 6 * 12 := by
  have hp : 0 < price (net 11 (23 / 4)) (fun _ _ => 0) lam 0 line.2.bus0 + price (net 11 (23 / 4)) (fun _ _ => 0) lam 0 line.2.bus1 := by decide +kernel
  have h1 := losses_close (sound 11 (23 / 4)) (linear _ _) (by decide) program_eq solved (weights _ _) (fun _ _ => 0) (t := 0) (by decide) (mem _ _) rfl
    (by simp) largest (by decide +kernel) (by decide +kernel) hp
  have h2 := price_rises (sound 11 (23 / 4)) (linear _ _) (by decide) program_eq solved (weights _ _) (fun _ _ => 0) (t := 0) (by decide) (mem _ _) rfl
    (by simp) rfl largest (by decide +kernel) (by decide +kernel) hp (by decide +kernel) (.inl rfl) (k := 1) (by decide) (p := 6) (by decide +kernel)
    (by decide +kernel)
  have h3 : val (25 / 4) 6 (1 / 2) (lost line 0) ≤ 1 / 72 * 6 ^ 2 := h1.2
  refine ⟨by decide +kernel, le_antisymm h3 (by decide +kernel), ?_⟩
  refine h2.trans ?_
  decide +kernel

/-- The load pays 13 · 23/4, the plant receives 11 · 25/4; the line keeps the rest. -/
example : spending (net 11 (23 / 4)) (price (net 11 (23 / 4)) (fun _ _ => 0) lam 0) 0 = 11 * (25 / 4) + 6 := by
  rw [(surplus (sound 11 (23 / 4)) (linear _ _) (by decide) program_eq solved (weights _ _) (fun _ _ => 0) (t := 0) (by decide)
    (fun b hb => by rw [only _ _ b hb]; decide +kernel) (fun b hb => ⟨12, by rw [only _ _ b hb]; exact largest⟩)
    (fun b hb _ => by rw [only _ _ b hb]; rfl) (by simp)).1]
  decide +kernel

/-- Power is given away with a payment of 1, as a subsidised plant does. -/
theorem someLess : (createModel (net (-1) 8) []).isSome = true := by decide +kernel

def programLess : Program ℚ := (createModel (net (-1) 8) []).get someLess

theorem programLess_eq : createModel (net (-1) 8) [] = Option.some programLess := (Option.some_get someLess).symm

theorem solvedLess : Solved programLess (val 10 9 2) (fun _ _ => -2) [0, 0, 0, 0, 0, -2, 0, 0, 0, 0, 0] where
  len := by decide +kernel
  answer := {
    feasible := by decide +kernel
    upper := by decide +kernel
    lower := by decide +kernel
    stationary := stationary_of _ _ names (by decide +kernel) (by decide +kernel) (by decide +kernel)
    noGap := by decide +kernel }

example : val 10 9 2 (lost line 0) = 1 / 72 * (1 * 12) ^ 2 ∨ |val 10 9 2 (flow line 0)| + val 10 9 2 (lost line 0) = rating (val 10 9 2) line 0 :=
  losses_burn (sound (-1) 8) (linear _ _) (by decide) programLess_eq solvedLess (weights _ _) (fun _ _ => 0) (t := 0) (by decide) (mem _ _) rfl (by simp)
    largest (by decide +kernel)

/-- **C145, refuted as stated for every price.** At an optimum the losses of a line can be above those of its flow: here 2, where the flow of 9 loses 9/8. -/
theorem losses_overstated : Solved programLess (val 10 9 2) (fun _ _ => -2) [0, 0, 0, 0, 0, -2, 0, 0, 0, 0, 0] ∧
    line.2.rPuEff * val 10 9 2 (flow line 0) ^ 2 < val 10 9 2 (lost line 0) := ⟨solvedLess, by decide +kernel⟩

end Demo

end Verif.Opt.Whole.LossPrice
