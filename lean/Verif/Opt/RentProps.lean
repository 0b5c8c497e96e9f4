import Verif.Opt.RulesProps
import Verif.Opt.TurnProps
import Verif.Opt.WholeExample

/-!
# C135: congestion

Prices at the ends of lines and transformers at an optimum of the whole problem (`Whole.lean`) with the voltage law (`Kvl.lean`).
-/

namespace Verif.Opt.Whole.Rent

open Verif.Opt Verif.Opt.Whole

variable {F : Type} [Field F] [LinearOrder F]

/-! ## Specification -/

/-- Lines and transformers with their classes. -/
def passive (w : WNet F) : List (Name × BranchW F) :=
  w.lines.map (fun b => ("Line", b)) ++ w.trafos.map (fun b => ("Transformer", b))

/-- The flow of a branch. -/
def flow (b : Name × BranchW F) (t : Nat) : WVar := .of b.1 b.2.name (.op "s" t)

/-- The rating of a branch. -/
def rating (val : WVar → F) (b : Name × BranchW F) (t : Nat) : F := b.2.maxPu t * (if b.2.ext then val (.of b.1 b.2.name .cap) else b.2.nom)

/-- Recorded price. -/
def price (w : WNet F) (old lam : Name → Nat → F) (t : Nat) (b : Name) : F := busPrice w (old b t) (lam b t) t

/-- What the branch earns: it buys at its first bus and sells at its second. -/
def rent (w : WNet F) (old lam : Name → Nat → F) (val : WVar → F) (t : Nat) (b : Name × BranchW F) : F :=
  if b.2.active t then (price w old lam t b.2.bus1 - price w old lam t b.2.bus0) * val (flow b t) else 0

/-- The row says nothing about the flow at the snapshot. -/
def Silent (r : Con WVar F) (b : Name × BranchW F) (t : Nat) : Prop := ∀ e ∈ r.terms, e.2 ≠ flow b t

/-- The row is about flows at the snapshot alone, and allows no flow: such are those of the voltage law. -/
def Homogeneous (w : WNet F) (r : Con WVar F) (t : Nat) : Prop :=
  r.sense = .eq ∧ r.rhs = 0 ∧ ∀ e ∈ r.terms, ∃ b ∈ passive w, e.2 = flow b t

/-! ## Changes of flows -/

/-- A change of the flow of one branch. -/
def step (δ : F) (t : Nat) (v : Loc) : F := if v = .op "s" t then δ else 0

/-- Changes of the flows of all branches at one snapshot. -/
def moved (w : WNet F) (dir : Name × BranchW F → F) (t : Nat) (v : WVar) : F :=
  ((passive w).map (fun b => only (ofAsset b.1 b.2.name) (spread (step (dir b) t)) v)).sum

omit [LinearOrder F] in
theorem keys_nodup {w : WNet F} (hw : Sound w) : ((passive w).map (fun b => (b.1, b.2.name))).Nodup := by
  unfold passive
  rw [List.map_append, List.map_map, List.map_map, List.nodup_append]
  refine ⟨?_, ?_, ?_⟩
  · have : (w.lines.map (fun b => ("Line", b.name))) = (w.lines.map (·.name)).map (fun n => ("Line", n)) := by simp [Function.comp_def]
    show (w.lines.map (fun b => ("Line", b.name))).Nodup
    rw [this]
    exact hw.lines.map (fun a b h => by simpa using h)
  · have : (w.trafos.map (fun b => ("Transformer", b.name))) = (w.trafos.map (·.name)).map (fun n => ("Transformer", n)) := by simp [Function.comp_def]
    show (w.trafos.map (fun b => ("Transformer", b.name))).Nodup
    rw [this]
    exact hw.trafos.map (fun a b h => by simpa using h)
  · intro x hx y hy hxy
    obtain ⟨a, -, rfl⟩ := List.mem_map.mp hx
    obtain ⟨b, -, rfl⟩ := List.mem_map.mp hy
    simp at hxy

omit [LinearOrder F] in
theorem moved_flow {w : WNet F} (hw : Sound w) (dir : Name × BranchW F → F) (t : Nat) (b : Name × BranchW F) (hb : b ∈ passive w) :
    moved w dir t (flow b t) = dir b := by
  unfold moved
  rw [sum_single (passive w) (fun b => (b.1, b.2.name)) _ (keys_nodup hw) b hb]
  · simp [only, flow, ofAsset, spread, step]
  · intro c _ hc
    simp only [only, flow, ofAsset, Bool.and_eq_true, decide_eq_true_eq]
    split
    · rename_i h
      exact absurd (by rw [h.1, h.2]) hc
    · rfl

omit [LinearOrder F] in
theorem moved_other {w : WNet F} (dir : Name × BranchW F → F) (t : Nat) (v : WVar) (hv : ∀ b ∈ passive w, dir b ≠ 0 → v ≠ flow b t) :
    moved w dir t v = 0 := by
  unfold moved
  refine sum_zero _ _ (fun b hb => ?_)
  cases v with
  | const => simp [only, ofAsset]
  | of c a l =>
    simp only [only, ofAsset, ← Bool.decide_and, decide_eq_true_eq]
    split
    · rename_i h
      simp only [spread, step]
      split
      · rename_i hl
        by_contra hne
        exact hv b hb hne (by rw [flow, h.1, h.2, hl])
      · rfl
    · rfl

theorem lin_sum {V A : Type} (l : List A) (f : A → V → F) (ts : List (F × V)) :
    lin (fun v => (l.map (fun a => f a v)).sum) ts = (l.map (fun a => lin (f a) ts)).sum := by
  induction ts with
  | nil => simp [lin]
  | cons e ts ih =>
    simp only [lin_cons, ih]
    rw [← List.sum_map_mul_left, ← List.sum_map_add]

section gain
variable [IsStrictOrderedRing F]

omit [LinearOrder F] [IsStrictOrderedRing F] in
theorem set_rows {len : Nat} {var : Name} {active : Nat → Bool} {value : Nat → Option F} (q : Con Loc F)
    (hq : q ∈ setRows len var active value) : ∃ t x, active t = true ∧ value t = some x ∧ q = ⟨[(1, .op var t)], .eq, x⟩ := by
  unfold setRows at hq
  obtain ⟨c, hc, rfl⟩ := List.mem_map.mp hq
  unfold Capacity.fixedOperationCons at hc
  simp only [List.flatMap_cons, List.flatMap_nil, List.append_nil, List.mem_flatMap, List.mem_range] at hc
  obtain ⟨t, ht, hc⟩ := hc
  cases hv : value t with
  | none => simp [hv] at hc
  | some x =>
    simp only [hv] at hc
    split at hc
    · rename_i ha
      rw [List.mem_singleton.mp hc]
      exact ⟨t, x, ha, hv, rfl⟩
    · cases hc

/-- The rows of a branch allow a change of its flow that does not leave the rating. -/
theorem step_admissible {w : WNet F} (hloss : w.tangents = 0) {c : Accessor.Cls} (hcl : c = .line ∨ c = .transformer) {g : BranchW F} {rs : List (Con Loc F)}
    (h : branchRows w c g = some rs) (x : Loc → F) (t : Nat) (δ : F) (hset : g.active t = true → g.sSet t = none ∨ δ = 0)
    (hup : g.active t = true → x (.op "s" t) = g.maxPu t * (if g.ext then x .cap else g.nom) → δ ≤ 0)
    (hlo : g.active t = true → x (.op "s" t) = - (g.maxPu t * (if g.ext then x .cap else g.nom)) → 0 ≤ δ) (q : Con Loc F) (hq : q ∈ rs) :
    Admissible x (step δ t) q := by
  obtain ⟨cap, hc, rfl⟩ := branch_parts hloss h
  simp only [List.mem_append] at hq
  rcases hq with (hq | hq) | hq
  · exact admissible_absent _ _ _ (cap_absent hc (step δ t) (by simp [step]) (by simp [step]) q hq)
  · obtain ⟨s, -, r, hr, rfl⟩ := mem_boundRows q hq
    by_cases hst : s = t
    · subst hst
      have hbp : Accessor.boundsPu c .s (branchBound g s) = (- g.maxPu s, g.maxPu s) := by rcases hcl with rfl | rfl <;> rfl
      have htan : (w.tangents != 0) = false := by simp [hloss]
      rw [htan] at hr
      unfold Accessor.opRows Accessor.fixRows Accessor.extRows Accessor.lossTm at hr
      rw [hbp] at hr
      intro hb
      cases he : g.ext with
      | true =>
        simp only [branchBound, he, Bool.true_or, if_true, List.nil_append, Bool.not_true, Bool.false_or] at hr
        split at hr
        · cases hr
        · rename_i hact
          simp only [Bool.not_eq_true', Bool.not_eq_false] at hact
          simp only [List.mem_cons, List.not_mem_nil, or_false, Bool.and_false, Bool.false_eq_true, if_false] at hr
          rw [he] at hup hlo
          rcases hr with rfl | rfl <;>
            simp only [remap, lin, boundLoc, step, List.map_cons, List.map_nil, List.sum_cons, List.sum_nil, if_true, reduceCtorEq, if_false] at hb ⊢
          · have := hlo hact (by rw [if_pos rfl]; linarith)
            linarith
          · have := hup hact (by rw [if_pos rfl]; linarith)
            linarith
      | false =>
        simp only [branchBound, he, Bool.not_false, Bool.true_or, if_true, List.append_nil, Bool.false_or] at hr
        split at hr
        · cases hr
        · rename_i hact
          simp only [Bool.not_eq_true', Bool.not_eq_false] at hact
          simp only [List.mem_cons, List.not_mem_nil, or_false, Bool.and_false, Bool.false_eq_true, if_false] at hr
          rw [he] at hup hlo
          rcases hr with rfl | rfl <;>
            simp only [remap, lin, boundLoc, step, List.map_cons, List.map_nil, List.sum_cons, List.sum_nil, if_true] at hb ⊢
          · have := hlo hact (by simp only [Bool.false_eq_true, if_false]; linarith)
            linarith
          · have := hup hact (by simp only [Bool.false_eq_true, if_false]; linarith)
            linarith
    · refine admissible_absent _ _ _ (fun e he => ?_)
      simp only [remap, List.mem_map] at he
      obtain ⟨e', -, rfl⟩ := he
      cases e'.2 <;> simp [boundLoc, step, hst]
  · obtain ⟨s, y, hact, hv, rfl⟩ := set_rows q hq
    refine admissible_absent _ _ _ (fun e he => ?_)
    rw [List.mem_singleton.mp he]
    by_cases hst : s = t
    · subst hst
      rcases hset hact with hset | hset
      · rw [hset] at hv; cases hv
      · simp [step, hset]
    · simp [step, hst]

/-- No change of flows that stays within the ratings and keeps the rows which couple branches is worth anything. -/
theorem passive_gain {w : WNet F} (hw : Sound w) (hl : LinearCosts w) (hloss : w.tangents = 0) {other : List (Con WVar F)} {P : Program F}
    (hP : createModel w other = some P) {val : WVar → F} {lam : Name → Nat → F} {mu : List F} (hs : Solved P val lam mu)
    (hwt : ∀ t < w.len, weight w t ≠ 0) (old : Name → Nat → F) (t : Nat) (ht : t < w.len) (dir : Name × BranchW F → F)
    (hset : ∀ b ∈ passive w, b.2.active t = true → b.2.sSet t = none ∨ dir b = 0)
    (hup : ∀ b ∈ passive w, b.2.active t = true → val (flow b t) = rating val b t → dir b ≤ 0)
    (hlo : ∀ b ∈ passive w, b.2.active t = true → val (flow b t) = - rating val b t → 0 ≤ dir b)
    (hother : ∀ r ∈ other, lin (moved w dir t) r.terms = 0) :
    ((passive w).map (fun b => if b.2.active t then (lam b.2.bus1 t - lam b.2.bus0 t) * dir b else 0)).sum ≤ 0 := by
  have one : ∀ b ∈ passive w, (if b.2.active t then (lam b.2.bus1 t - lam b.2.bus0 t) * dir b else 0) +
      coupled other mu b.1 b.2.name (spread (step (dir b) t)) ≤ 0 := by
    intro b hb
    have hrev : ∀ comp : Name, branchRevenue w comp b.2 (atPrice w old lam) (spread (step (dir b) t)) =
        if b.2.active t then (lam b.2.bus1 t - lam b.2.bus0 t) * dir b else 0 := by
      intro comp
      unfold branchRevenue
      rw [single_time ht _ (fun s hst => by simp [spread, step, hst, hloss])]
      simp [spread, step, hloss, atPrice_eq old lam _ t (hwt t ht)]
    have hcost : ∀ comp : Name, branchCost w comp b.2 (spread (step (dir b) t)) = 0 := by
      intro comp
      simp [branchCost, spread, step]
    unfold passive at hb
    rcases List.mem_append.mp hb with hb' | hb'
    · obtain ⟨g, hg, rfl⟩ := List.mem_map.mp hb'
      have := gain_line hw hl hP hs hwt old g hg (step (dir ("Line", g)) t) (fun rs hrs q hq =>
        step_admissible hloss (Or.inl rfl) hrs _ t _ (hset _ hb) (hup _ hb) (hlo _ hb) q hq)
      have e1 := hrev "Line"
      have e2 := hcost "Line"
      simp only at e1 e2 ⊢
      rw [e1, e2] at this
      exact this
    · obtain ⟨g, hg, rfl⟩ := List.mem_map.mp hb'
      have := gain_trafo hw hl hP hs hwt old g hg (step (dir ("Transformer", g)) t) (fun rs hrs q hq =>
        step_admissible hloss (Or.inr rfl) hrs _ t _ (hset _ hb) (hup _ hb) (hlo _ hb) q hq)
      have e1 := hrev "Transformer"
      have e2 := hcost "Transformer"
      simp only at e1 e2 ⊢
      rw [e1, e2] at this
      exact this
  have all : ((passive w).map (fun b => (if b.2.active t then (lam b.2.bus1 t - lam b.2.bus0 t) * dir b else 0) +
      coupled other mu b.1 b.2.name (spread (step (dir b) t)))).sum ≤ 0 := by
    have := List.sum_nonneg (l := (passive w).map (fun b => - ((if b.2.active t then (lam b.2.bus1 t - lam b.2.bus0 t) * dir b else 0) +
        coupled other mu b.1 b.2.name (spread (step (dir b) t))))) (fun y hy => by
      obtain ⟨b, hb, rfl⟩ := List.mem_map.mp hy
      exact neg_nonneg.mpr (one b hb))
    rw [sum_neg_map _ (fun b => (if b.2.active t then (lam b.2.bus1 t - lam b.2.bus0 t) * dir b else 0) +
      coupled other mu b.1 b.2.name (spread (step (dir b) t))) _ (fun b _ => rfl)] at this
    linarith
  rw [List.sum_map_add] at all
  have zero : ((passive w).map (fun b => coupled other mu b.1 b.2.name (spread (step (dir b) t)))).sum = 0 := by
    unfold coupled
    rw [sum_swap]
    refine sum_zero _ _ (fun r hr => ?_)
    rw [List.sum_map_mul_left, ← lin_sum]
    have := hother r.1 (mem_zip_left hr)
    unfold moved at this
    rw [this, mul_zero]
  linarith

end gain

/-! ## The rents of all branches -/

section main
variable [IsStrictOrderedRing F]

theorem price_eq {w : WNet F} (old lam : Name → Nat → F) (t : Nat) (b : Name) (h : 0 < weight w t) : price w old lam t b = lam b t / weight w t := by
  have := atPrice_eq (w := w) old lam b t h.ne'
  unfold atPrice at this
  unfold price
  rw [eq_div_iff h.ne', mul_comm]
  exact this

/-- The flows of an optimum are within the ratings. -/
theorem within {w : WNet F} (hloss : w.tangents = 0) {other : List (Con WVar F)} {P : Program F}
    (hP : createModel w other = some P) {val : WVar → F} {lam : Name → Nat → F} {mu : List F} (hs : Solved P val lam mu)
    (b : Name × BranchW F) (hb : b ∈ passive w) (t : Nat) (ht : t < w.len) (ha : b.2.active t = true) :
    - rating val b t ≤ val (flow b t) ∧ val (flow b t) ≤ rating val b t := by
  obtain ⟨own, bal, o, h1, -, -, -, -, -, h6⟩ := createModel_parts hP
  have hfeas : ∀ r ∈ own, r.holds val := by
    intro r hr
    have hmem : r ∈ P.rows := by rw [h6]; exact List.mem_append_left _ hr
    obtain ⟨i, hi, rfl⟩ := List.mem_iff_getElem.mp hmem
    have hi' : i < mu.length := by rw [hs.len]; exact hi
    exact hs.answer.feasible (P.rows[i], mu[i]) (List.mem_append_right _ (by
      rw [List.mem_iff_getElem]
      exact ⟨i, by simp [List.length_zip, hi, hi'], by simp⟩))
  have key : ∀ (comp : Name) (c : Accessor.Cls) (g : BranchW F), Accessor.passive c = true → g.active t = true →
      (∃ rs, branchRows w c g = some rs ∧ ∀ q ∈ rs, remap (WVar.of comp g.name) q ∈ own) →
      - rating val (comp, g) t ≤ val (flow (comp, g) t) ∧ val (flow (comp, g) t) ≤ rating val (comp, g) t := by
    rintro comp c g hp hag ⟨rs, hrs, hq⟩
    have := ((Doc.branch_rule hp hrs (fun v => val (.of comp g.name v))).mp (fun q hq' =>
      (holds_remap (WVar.of comp g.name) val q).mp (hfeas _ (hq q hq')))).limits t ht hag
    simp only [hloss, if_true, sub_zero, add_zero] at this
    exact this
  have hm := ownRows_mem h1
  unfold passive at hb
  rcases List.mem_append.mp hb with hb' | hb'
  · obtain ⟨g, hg, rfl⟩ := List.mem_map.mp hb'
    exact key "Line" .line g rfl ha (hm.2.2.2.2.1 g hg)
  · obtain ⟨g, hg, rfl⟩ := List.mem_map.mp hb'
    exact key "Transformer" .transformer g rfl ha (hm.2.2.2.2.2 g hg)

/-- Rows other than those of assets hold at the optimum. -/
theorem other_holds {w : WNet F} {other : List (Con WVar F)} {P : Program F}
    (hP : createModel w other = some P) {val : WVar → F} {lam : Name → Nat → F} {mu : List F} (hs : Solved P val lam mu)
    (r : Con WVar F) (hr : r ∈ other) : r.holds val := by
  obtain ⟨own, bal, o, -, -, -, -, -, -, h6⟩ := createModel_parts hP
  have hmem : r ∈ P.rows := by rw [h6]; simp [hr]
  obtain ⟨i, hi, rfl⟩ := List.mem_iff_getElem.mp hmem
  have hi' : i < mu.length := by rw [hs.len]; exact hi
  exact hs.answer.feasible (P.rows[i], mu[i]) (List.mem_append_right _ (by
    rw [List.mem_iff_getElem]
    exact ⟨i, by simp [List.length_zip, hi, hi'], by simp⟩))

/-- **C135.** At every snapshot the lines and transformers together earn no less than nothing: with what they transport, energy goes on the whole
from where it is cheap to where it is dear.  (A single one may go against the prices, `Demo.against_prices`.) -/
theorem rent_nonneg {w : WNet F} (hw : Sound w) (hl : LinearCosts w) (hloss : w.tangents = 0) {other : List (Con WVar F)} {P : Program F}
    (hP : createModel w other = some P) {val : WVar → F} {lam : Name → Nat → F} {mu : List F} (hs : Solved P val lam mu)
    (hwt : ∀ t < w.len, 0 < weight w t) (old : Name → Nat → F) (t : Nat) (ht : t < w.len)
    (hset : ∀ b ∈ passive w, b.2.active t = true → b.2.sSet t = none)
    (hother : ∀ r ∈ other, (∀ b ∈ passive w, Silent r b t) ∨ Homogeneous w r t) :
    0 ≤ ((passive w).map (rent w old lam val t)).sum := by
  have h := passive_gain hw hl hloss hP hs (fun t ht => (hwt t ht).ne') old t ht (fun b => - val (flow b t))
    (fun b hb ha => Or.inl (hset b hb ha))
    (fun b hb ha he => by
      obtain ⟨h1, h2⟩ := within hloss hP hs b hb t ht ha
      linarith)
    (fun b hb ha he => by
      obtain ⟨h1, h2⟩ := within hloss hP hs b hb t ht ha
      linarith)
    (fun r hr => by
      rcases hother r hr with h | ⟨h1, h2, h3⟩
      · exact lin_zero _ _ (fun e he => moved_other _ t e.2 (fun b hb _ => h b hb e he))
      · rw [lin_congr _ (fun v => - val v) _ (fun e he => by
          obtain ⟨b, hb, hv⟩ := h3 e he
          rw [hv, moved_flow hw _ t b hb]), lin_neg]
        have := other_holds hP hs r hr
        unfold Con.holds at this
        rw [h1] at this
        simp only at this
        rw [this, h2, neg_zero])
  have e : ((passive w).map (fun b => if b.2.active t then (lam b.2.bus1 t - lam b.2.bus0 t) * - val (flow b t) else 0)).sum =
      - weight w t * ((passive w).map (rent w old lam val t)).sum := by
    rw [← List.sum_map_mul_left]
    congr 1
    refine List.map_congr_left (fun b _ => ?_)
    unfold rent
    split
    · rw [price_eq old lam t _ (hwt t ht), price_eq old lam t _ (hwt t ht)]
      have := (hwt t ht).ne'
      field_simp
    · simp
  rw [e] at h
  have := hwt t ht
  by_contra hneg
  rw [not_le] at hneg
  nlinarith

/-! ## One price -/

/-- The branches of a sub-network in the order of its rows. -/
def edges (br : List (Name × BranchW F)) (t : Nat) : List Graph.Edge := br.map (fun b => ⟨b.2.bus0, b.2.bus1, false, b.2.active t⟩)

/-- Their reactances. -/
def reactances (br : List (Name × BranchW F)) (x : Name × Name → F) (i : Nat) : F := ((br[i]?).map (fun b => x (b.1, b.2.name))).getD 0

/-- Their flows. -/
def flows (br : List (Name × BranchW F)) (t : Nat) (i : Nat) : WVar := ((br[i]?).map (fun b => flow b t)).getD .const

omit [LinearOrder F] [IsStrictOrderedRing F] in
theorem law_terms (br : List (Name × BranchW F)) (z : Nat → F) (cycles : List (List Name)) (s : Nat) (r : Con WVar F)
    (hr : r ∈ lawRows (edges br s) z cycles (flows br s)) :
    r.sense = .eq ∧ r.rhs = 0 ∧ ∀ e ∈ r.terms, ∃ b ∈ br, e.2 = flow b s := by
  unfold lawRows at hr
  obtain ⟨q, hq, rfl⟩ := List.mem_map.mp hr
  unfold Kvl.kvlCons at hq
  split at hq
  · cases hq
  · simp only [Except.toOption, Option.getD_some] at hq
    obtain ⟨col, -, rfl⟩ := List.mem_map.mp hq
    refine ⟨rfl, rfl, fun e he => ?_⟩
    simp only [remap, Kvl.kvlRow, List.mem_map, List.mem_flatMap, List.mem_range] at he
    obtain ⟨e', ⟨i, hi, he'⟩, rfl⟩ := he
    split at he'
    · cases he'
    · unfold tm at he'
      split at he'
      · rw [List.mem_singleton.mp he']
        have hi' : i < br.length := by simpa [edges] using hi
        exact ⟨br[i], List.getElem_mem hi', by simp [flows, hi']⟩
      · cases he'

omit [LinearOrder F] [IsStrictOrderedRing F] in
/-- `rent_nonneg` can be used with the rows of the voltage law at the snapshot, whatever is in service. -/
theorem law_homogeneous {w : WNet F} {br : List (Name × BranchW F)} (hbr : ∀ b ∈ br, b ∈ passive w) {z : Nat → F} {cycles : List (List Name)}
    {t : Nat} {r : Con WVar F} (hr : r ∈ lawRows (edges br t) z cycles (flows br t)) : Homogeneous w r t := by
  obtain ⟨h1, h2, h3⟩ := law_terms br z cycles t r hr
  exact ⟨h1, h2, fun e he => by obtain ⟨b, hb, h⟩ := h3 e he; exact ⟨b, hbr b hb, h⟩⟩

omit [LinearOrder F] [IsStrictOrderedRing F] in
/-- And at other snapshots. -/
theorem law_silent {br : List (Name × BranchW F)} {z : Nat → F} {cycles : List (List Name)} {s t : Nat} (hst : s ≠ t) {r : Con WVar F}
    (hr : r ∈ lawRows (edges br s) z cycles (flows br s)) (b : Name × BranchW F) : Silent r b t := by
  obtain ⟨-, -, h3⟩ := law_terms br z cycles s r hr
  intro e he h
  obtain ⟨c, -, hc⟩ := h3 e he
  rw [h] at hc
  unfold flow at hc
  injection hc with _ _ h4
  injection h4 with _ h5
  exact hst h5.symm

omit [LinearOrder F] [IsStrictOrderedRing F] in
/-- And of other sub-networks. -/
theorem law_elsewhere {br : List (Name × BranchW F)} {z : Nat → F} {cycles : List (List Name)} {s t : Nat} {r : Con WVar F}
    (hr : r ∈ lawRows (edges br s) z cycles (flows br s)) (b : Name × BranchW F) (hb : ∀ c ∈ br, (c.1, c.2.name) ≠ (b.1, b.2.name)) : Silent r b t := by
  obtain ⟨-, -, h3⟩ := law_terms br z cycles s r hr
  intro e he h
  obtain ⟨c, hc', hc⟩ := h3 e he
  rw [h] at hc
  unfold flow at hc
  injection hc with h1 h2 _
  exact hb c hc' (by rw [h1, h2])

/-- **C135.** In a sub-network of which no branch is at its rating, both ends of every branch have the same price. -/
theorem same_price {w : WNet F} (hw : Sound w) (hl : LinearCosts w) (hloss : w.tangents = 0) {other : List (Con WVar F)} {P : Program F}
    (hP : createModel w other = some P) {val : WVar → F} {lam : Name → Nat → F} {mu : List F} (hs : Solved P val lam mu)
    (hwt : ∀ t < w.len, 0 < weight w t) (old : Name → Nat → F) (t : Nat) (ht : t < w.len)
    (br : List (Name × BranchW F)) (hbr : ∀ b ∈ br, b ∈ passive w) (x : Name × Name → F) (hx : ∀ b ∈ br, 0 < x (b.1, b.2.name))
    (hact : ∀ b ∈ br, b.2.active t = true ∧ b.2.sSet t = none)
    (hfree : ∀ b ∈ br, |val (flow b t)| < rating val b t)
    (cycles : List (List Name)) (hb : Graph.CycleBasis F (edges br t) cycles)
    (hother : ∀ r ∈ other, (∀ b ∈ br, Silent r b t) ∨
      r ∈ lawRows (edges br t) (reactances br x) cycles (flows br t)) :
    ∀ b ∈ br, price w old lam t b.2.bus0 = price w old lam t b.2.bus1 := by
  classical
  let S : Name × BranchW F → Prop := fun b => (b.1, b.2.name) ∈ br.map (fun b => (b.1, b.2.name))
  have hS : ∀ b ∈ passive w, S b → b ∈ br := by
    intro b hb hS
    obtain ⟨b', hb', he⟩ := List.mem_map.mp hS
    have : b' = b := List.inj_on_of_nodup_map (keys_nodup hw) (hbr b' hb') hb he
    exact this ▸ hb'
  let dir : Name × BranchW F → F := fun b => if S b then (lam b.2.bus1 t - lam b.2.bus0 t) / x (b.1, b.2.name) else 0
  have hin : ∀ b ∈ br, dir b = (lam b.2.bus1 t - lam b.2.bus0 t) / x (b.1, b.2.name) :=
    fun b hb => if_pos (List.mem_map_of_mem hb)
  have hbound : ∀ b ∈ passive w, S b → val (flow b t) ≠ rating val b t ∧ val (flow b t) ≠ - rating val b t := by
    intro b hb hSb
    have := abs_lt.mp (hfree b (hS b hb hSb))
    exact ⟨this.2.ne, this.1.ne'⟩
  have h := passive_gain hw hl hloss hP hs (fun t ht => (hwt t ht).ne') old t ht dir
    (fun b hb ha => by
      by_cases hSb : S b
      · exact Or.inl (hact b (hS b hb hSb)).2
      · exact Or.inr (if_neg hSb))
    (fun b hb ha he => by
      by_cases hSb : S b
      · exact absurd he (hbound b hb hSb).1
      · exact (if_neg hSb).le)
    (fun b hb ha he => by
      by_cases hSb : S b
      · exact absurd he (hbound b hb hSb).2
      · exact (if_neg hSb).ge)
    (fun r hr => by
      rcases hother r hr with h | h
      · refine lin_zero _ _ (fun e he => moved_other _ t e.2 (fun b hb hne => ?_))
        by_cases hSb : S b
        · exact h b (hS b hb hSb) e he
        · exact absurd (if_neg hSb) hne
      · obtain ⟨rows, hrows, -, hiff⟩ := Kvl.kvl_angles_partial (edges br t) (reactances br x) cycles hb
        unfold lawRows at h
        rw [hrows] at h
        simp only [Except.toOption, Option.getD_some, List.mem_map] at h
        obtain ⟨q, hq, rfl⟩ := h
        have hf : Feasible (fun i => moved w dir t (flows br t i)) rows := by
          rw [hiff (fun e he => by
            unfold edges at he
            obtain ⟨b, hb, rfl⟩ := List.mem_map.mp he
            exact (hact b hb).1)]
          refine ⟨fun b => - lam b t, fun i e he _ _ => ?_⟩
          unfold edges at he
          rw [List.getElem?_map, Option.map_eq_some_iff] at he
          obtain ⟨b, hbi, rfl⟩ := he
          have hbm : b ∈ br := List.mem_of_getElem? hbi
          simp only [hbi, flows, reactances, Option.map_some, Option.getD_some]
          rw [moved_flow hw dir t b (hbr b hbm), hin b hbm]
          have := (hx b hbm).ne'
          field_simp
          ring
        have := hf q hq
        have hsense : q.sense = .eq ∧ q.rhs = 0 := by
          unfold Kvl.kvlCons at hrows
          split at hrows
          · cases hrows
          · injection hrows with hrows
            rw [← hrows] at hq
            obtain ⟨col, -, rfl⟩ := List.mem_map.mp hq
            exact ⟨rfl, rfl⟩
        unfold Con.holds at this
        rw [hsense.1] at this
        simp only at this
        rw [lin_remap, this, hsense.2])
  have hz := eq_zero_of_sum (passive w) (fun b => if b.2.active t then (lam b.2.bus1 t - lam b.2.bus0 t) * dir b else 0)
    (fun b hb => by
      split
      · by_cases hSb : S b
        · have := hx b (hS b hb hSb)
          rw [hin b (hS b hb hSb), ← mul_div_assoc]
          exact div_nonneg (mul_self_nonneg _) this.le
        · rw [show dir b = 0 from if_neg hSb, mul_zero]
      · exact le_refl _)
    (le_antisymm h (List.sum_nonneg (fun y hy => by
      obtain ⟨b, hb, rfl⟩ := List.mem_map.mp hy
      split
      · by_cases hSb : S b
        · have := hx b (hS b hb hSb)
          rw [hin b (hS b hb hSb), ← mul_div_assoc]
          exact div_nonneg (mul_self_nonneg _) this.le
        · rw [show dir b = 0 from if_neg hSb, mul_zero]
      · exact le_refl _)))
  intro b hbm
  have h1 := hz b (hbr b hbm)
  simp only [(hact b hbm).1, if_true, hin b hbm] at h1
  have h2 := (hx b hbm).ne'
  rw [← mul_div_assoc, div_eq_zero_iff] at h1
  rcases h1 with h1 | h1
  · have h3 : lam b.2.bus1 t = lam b.2.bus0 t := sub_eq_zero.mp (mul_self_eq_zero.mp h1)
    rw [price_eq old lam t _ (hwt t ht), price_eq old lam t _ (hwt t ht), h3]
  · exact absurd h1 h2

/-- Hence the buses which the branches connect have all the same price. -/
theorem one_price (br : List (Name × BranchW F)) (p : Name → F) (h : ∀ b ∈ br, p b.2.bus0 = p b.2.bus1) (u v : Name)
    (huv : Relation.EqvGen (fun u v => ∃ b ∈ br, b.2.bus0 = u ∧ b.2.bus1 = v) u v) : p u = p v := by
  induction huv with
  | rel u v h' => obtain ⟨b, hb, rfl, rfl⟩ := h'; exact h b hb
  | refl u => rfl
  | symm u v _ ih => exact ih.symm
  | trans u v w _ _ ih1 ih2 => exact ih1.trans ih2

/-- **C135.** A branch that lies on no cycle: power goes from the cheaper to the dearer end, and unless it is at its rating both have the same price. -/
theorem radial_price {w : WNet F} (hw : Sound w) (hl : LinearCosts w) (hloss : w.tangents = 0) {other : List (Con WVar F)} {P : Program F}
    (hP : createModel w other = some P) {val : WVar → F} {lam : Name → Nat → F} {mu : List F} (hs : Solved P val lam mu)
    (hwt : ∀ t < w.len, 0 < weight w t) (old : Name → Nat → F) (t : Nat) (ht : t < w.len)
    (b : Name × BranchW F) (hb : b ∈ passive w) (ha : b.2.active t = true) (hset : b.2.sSet t = none) (hother : ∀ r ∈ other, Silent r b t) :
    (val (flow b t) < rating val b t → price w old lam t b.2.bus1 ≤ price w old lam t b.2.bus0) ∧
    (- rating val b t < val (flow b t) → price w old lam t b.2.bus0 ≤ price w old lam t b.2.bus1) := by
  classical
  have gain : ∀ δ : F, (val (flow b t) = rating val b t → δ ≤ 0) → (val (flow b t) = - rating val b t → 0 ≤ δ) →
      (lam b.2.bus1 t - lam b.2.bus0 t) * δ ≤ 0 := by
    intro δ h1 h2
    let dir : Name × BranchW F → F := fun c => if (c.1, c.2.name) = (b.1, b.2.name) then δ else 0
    have hdir : ∀ c ∈ passive w, dir c ≠ 0 → c = b := by
      intro c hc hne
      have : (c.1, c.2.name) = (b.1, b.2.name) := by
        by_contra hcon
        exact hne (if_neg hcon)
      exact List.inj_on_of_nodup_map (keys_nodup hw) hc hb this
    have hb' : dir b = δ := if_pos rfl
    have h := passive_gain hw hl hloss hP hs (fun t ht => (hwt t ht).ne') old t ht dir
      (fun c hc _ => by
        by_cases hd : dir c = 0
        · exact Or.inr hd
        · rw [hdir c hc hd]; exact Or.inl hset)
      (fun c hc _ he => by
        by_cases hd : dir c = 0
        · exact hd.le
        · have := hdir c hc hd
          subst this
          rw [hb']
          exact h1 he)
      (fun c hc _ he => by
        by_cases hd : dir c = 0
        · exact hd.ge
        · have := hdir c hc hd
          subst this
          rw [hb']
          exact h2 he)
      (fun r hr => lin_zero _ _ (fun e he => moved_other _ t e.2 (fun c hc hne => by
        rw [hdir c hc hne]; exact hother r hr e he)))
    rw [sum_single (passive w) (fun b => (b.1, b.2.name)) _ (keys_nodup hw) b hb (fun c hc hne => by
      have : dir c = 0 := if_neg hne
      simp [this])] at h
    simp only [ha, if_true, hb'] at h
    exact h
  have hw' := hwt t ht
  rw [price_eq old lam t _ hw', price_eq old lam t _ hw']
  constructor
  · intro hlt
    have := gain 1 (fun h => absurd h hlt.ne) (fun _ => zero_le_one)
    exact div_le_div_of_nonneg_right (by linarith) hw'.le
  · intro hlt
    have := gain (-1) (fun _ => by linarith [zero_lt_one (α := F)]) (fun h => absurd h hlt.ne')
    exact div_le_div_of_nonneg_right (by linarith) hw'.le

/-! ## Who pays whom -/

/-- What an asset in service is paid at its bus. -/
def pay (p : Name → F) (bus : Name) (active : Bool) (x : F) : F := if active then p bus * x else 0

/-- What generators, stores, storage units and links are paid for what they put in, less what they pay for what they take out. -/
def income (w : WNet F) (p : Name → F) (x : WVar → F) (t : Nat) : F :=
  (w.gens.map (fun g => pay p g.bus (g.unit.active t) (g.sign * x (.of "Generator" g.name (.op "p" t))))).sum +
  (w.stores.map (fun s => pay p s.bus (s.storage.active t) (s.sign * x (.of "Store" s.name (.op "p" t))))).sum +
  (w.units.map (fun s => pay p s.bus (s.storage.active t)
    (s.sign * (x (.of "StorageUnit" s.name (.op "p_dispatch" t)) - x (.of "StorageUnit" s.name (.op "p_store" t)))))).sum +
  (w.links.map (fun l =>
    pay p l.bus0 (l.unit.active t) (- x (.of "Link" l.name (.op "p" t))) +
    pay p l.bus1 (l.unit.active t) (l.eff t * x (.of "Link" l.name (.op "p" t))) +
    (l.extra.map (fun e => if e.1 = "" then 0 else pay p e.1 (l.unit.active t) (e.2 t * x (.of "Link" l.name (.op "p" t))))).sum)).sum

/-- What loads pay. -/
def spending (w : WNet F) (p : Name → F) (t : Nat) : F := (w.loads.map (fun l => pay p l.bus (l.active t) (- (l.sign * l.pSet t)))).sum

omit [LinearOrder F] [IsStrictOrderedRing F] in
theorem pay_at (l : List Name) (hnd : l.Nodup) (p : Name → F) (b : Name) (hb : b ∈ l) (act : Bool) (x : F) :
    (l.map (fun c => p c * Doc.atBus c b act x)).sum = pay p b act x := by
  rw [sum_single l id _ (by simpa using hnd) b hb]
  · unfold Doc.atBus pay
    cases act <;> simp
  · intro c _ hc
    unfold Doc.atBus
    rw [if_neg (fun h => hc h.1.symm), mul_zero]

omit [LinearOrder F] [IsStrictOrderedRing F] in
theorem pay_none (l : List Name) (p : Name → F) (b : Name) (hb : b ∉ l) (act : Bool) (x : F) :
    (l.map (fun c => p c * Doc.atBus c b act x)).sum = 0 := by
  refine sum_zero _ _ (fun c hc => ?_)
  unfold Doc.atBus
  rw [if_neg (fun h : b = c ∧ act = true => hb (h.1.symm ▸ hc)), mul_zero]

omit [LinearOrder F] [IsStrictOrderedRing F] in
/-- Prices times sums over assets. -/
theorem pay_sum {α : Type} (l : List Name) (p : Name → F) (as : List α) (f : Name → α → F) (g : α → F)
    (h : ∀ a ∈ as, (l.map (fun c => p c * f c a)).sum = g a) :
    (l.map (fun c => p c * (as.map (f c)).sum)).sum = (as.map g).sum := by
  simp only [← List.sum_map_mul_left]
  rw [sum_swap]
  congr 1
  exact List.map_congr_left h

omit [LinearOrder F] [IsStrictOrderedRing F] in
theorem pay_add (l : List Name) (p f g : Name → F) :
    (l.map (fun c => p c * (f c + g c))).sum = (l.map (fun c => p c * f c)).sum + (l.map (fun c => p c * g c)).sum := by
  rw [← List.sum_map_add]
  congr 1
  exact List.map_congr_left (fun c _ => mul_add _ _ _)

omit [IsStrictOrderedRing F] in
theorem pay_supply {w : WNet F} (hw : Sound w) (hloss : w.tangents = 0) (old lam : Name → Nat → F) (x : WVar → F) (t : Nat) :
    (w.buses.map (fun b => price w old lam t b * Doc.supply w x t b)).sum =
      income w (price w old lam t) x t + ((passive w).map (rent w old lam x t)).sum := by
  generalize hp : price w old lam t = p
  unfold Doc.supply
  rw [pay_add, pay_add, pay_add, pay_add, pay_add, pay_sum w.buses p w.gens _ _ (fun g hg => pay_at w.buses hw.buses p g.bus (hw.genBus g hg) _ _),
    pay_sum w.buses p w.stores _ _ (fun g hg => pay_at w.buses hw.buses p g.bus (hw.storeBus g hg) _ _),
    pay_sum w.buses p w.units _ _ (fun g hg => pay_at w.buses hw.buses p g.bus (hw.unitBus g hg) _ _),
    pay_sum w.buses p w.lines _ (fun l => rent w old lam x t ("Line", l)) (fun l hl => ?_),
    pay_sum w.buses p w.trafos _ (fun l => rent w old lam x t ("Transformer", l)) (fun l hl => ?_),
    pay_sum w.buses p w.links _ (fun l => pay p l.bus0 (l.unit.active t) (- x (.of "Link" l.name (.op "p" t))) +
      pay p l.bus1 (l.unit.active t) (l.eff t * x (.of "Link" l.name (.op "p" t))) +
      (l.extra.map (fun e => if e.1 = "" then 0 else pay p e.1 (l.unit.active t) (e.2 t * x (.of "Link" l.name (.op "p" t))))).sum) (fun l hl => ?_)]
  · unfold income passive
    rw [List.map_append, List.map_map, List.map_map, List.sum_append]
    simp only [Function.comp_def]
    ring
  · obtain ⟨h0, h1, h2⟩ := hw.linkBus l hl
    rw [pay_add, pay_add, pay_at _ hw.buses p _ h0, pay_at _ hw.buses p _ h1, pay_sum w.buses p l.extra]
    intro e he
    split
    · rename_i h
      exact pay_none _ p _ (h ▸ hw.noEmpty) _ _
    · rename_i h
      exact pay_at _ hw.buses p _ ((h2 e he).resolve_left h) _ _
  · obtain ⟨h0, h1⟩ := hw.trafoBus l hl
    rw [pay_add, pay_at _ hw.buses p _ h0, pay_at _ hw.buses p _ h1]
    unfold pay rent Doc.halfLoss
    rw [if_pos hloss, hp]
    cases l.active t
    · simp
    · simp only [if_true, flow]; ring
  · obtain ⟨h0, h1⟩ := hw.lineBus l hl
    rw [pay_add, pay_at _ hw.buses p _ h0, pay_at _ hw.buses p _ h1]
    unfold pay rent Doc.halfLoss
    rw [if_pos hloss, hp]
    cases l.active t
    · simp
    · simp only [if_true, flow]; ring

/-- **C135.** At every snapshot what the loads pay is what the other assets are paid and the earnings of lines and transformers; so there is
never less paid than received. -/
theorem surplus {w : WNet F} (hw : Sound w) (hl : LinearCosts w) (hloss : w.tangents = 0) {other : List (Con WVar F)} {P : Program F}
    (hP : createModel w other = some P) {val : WVar → F} {lam : Name → Nat → F} {mu : List F} (hs : Solved P val lam mu)
    (hwt : ∀ t < w.len, 0 < weight w t) (old : Name → Nat → F) (t : Nat) (ht : t < w.len)
    (hset : ∀ b ∈ passive w, b.2.active t = true → b.2.sSet t = none)
    (hother : ∀ r ∈ other, (∀ b ∈ passive w, Silent r b t) ∨ Homogeneous w r t) :
    spending w (price w old lam t) t = income w (price w old lam t) val t + ((passive w).map (rent w old lam val t)).sum ∧
    income w (price w old lam t) val t ≤ spending w (price w old lam t) t := by
  have h1 : spending w (price w old lam t) t = income w (price w old lam t) val t + ((passive w).map (rent w old lam val t)).sum := by
    rw [← pay_supply hw hloss]
    obtain ⟨own, bal, o, -, h2, -, -, -, h5, h6⟩ := createModel_parts hP
    have hbal : Feasible val (bal.map (·.2)) := fun c hc => by
      obtain ⟨r, hr, rfl⟩ := List.mem_map.mp hc
      exact hs.answer.feasible (r.2, lam r.1.1 r.1.2) (List.mem_append.mpr (Or.inl (List.mem_map.mpr ⟨r, h5 ▸ hr, rfl⟩)))
    have hb := (balance_iff hw h2 val).mp hbal t ht
    have : (w.buses.map (fun b => price w old lam t b * Doc.supply w val t b)).sum =
        (w.buses.map (fun b => price w old lam t b * Doc.demand w t b)).sum := by
      congr 1
      refine List.map_congr_left (fun b hbm => ?_)
      rw [← Doc.supply_rule, hb b hbm, Doc.demand_rule]
    rw [this]
    unfold spending Doc.demand
    rw [pay_sum w.buses _ w.loads _ _ (fun g hg => pay_at w.buses hw.buses _ g.bus (hw.loadBus g hg) _ _)]
  refine ⟨h1, ?_⟩
  rw [h1]
  linarith [rent_nonneg hw hl hloss hP hs hwt old t ht hset hother]

end main

/-! ## A meshed network -/

namespace Demo

def gen (name bus : Name) (cost : ℚ) : GenW ℚ := ⟨name, bus, 1, exUnit' false 200, exInvest 0, exCosts cost 0, fun _ => none, none, none⟩

def wire (name bus0 bus1 : Name) (nom : ℚ) : BranchW ℚ := ⟨name, bus0, bus1, fun _ => true, false, nom, fun _ => 1, 0, exInvest 0, fun _ => none⟩

/-- Cheap power at "a", dear power at "b", demand at "c".  Of the two branches between "a" and "b" the line has a small rating. -/
def net : WNet ℚ where
  len := 2
  multi := false
  period := fun _ => 0
  rolling := false
  linearized := false
  tangents := 0
  threshold := 45
  sw := fun t => if t = 0 then 2 else 1
  gw := fun _ => 1
  periods := none
  buses := ["a", "b", "c"]
  gens := [gen "cheap" "a" 10, gen "dear" "b" 40]
  links := []
  stores := []
  units := []
  lines := [wire "ab" "a" "b" (5 / 2), wire "bc" "b" "c" 100, wire "ac" "a" "c" 100]
  trafos := [wire "ba" "b" "a" 100]
  loads := [⟨"c", -1, fun t => if t = 0 then 90 else 12, fun _ => true⟩]

def reactance (k : Name × Name) : ℚ := if k = ("Line", "ab") ∨ k = ("Transformer", "ba") then 2 else 1

def law (t : Nat) : List (Con WVar ℚ) :=
  lawRows (edges (passive net) t) (reactances (passive net) reactance) [["a", "b", "c"]] (flows (passive net) t)

def other : List (Con WVar ℚ) := law 0 ++ law 1

theorem some : (createModel net other).isSome = true := by decide +kernel

def program : Program ℚ := (createModel net other).get some

theorem program_eq : createModel net other = Option.some program := (Option.some_get some).symm

/-- The optimum. -/
def table : List (WVar × ℚ) :=
  [(.of "Generator" "cheap" (.op "p" 0), 105 / 2), (.of "Generator" "cheap" (.op "p" 1), 12), (.of "Generator" "dear" (.op "p" 0), 75 / 2),
   (.of "Generator" "dear" (.op "p" 1), 0), (.of "Line" "ab" (.op "s" 0), 5 / 2), (.of "Line" "ab" (.op "s" 1), 2),
   (.of "Line" "bc" (.op "s" 0), 85 / 2), (.of "Line" "bc" (.op "s" 1), 4), (.of "Line" "ac" (.op "s" 0), 95 / 2),
   (.of "Line" "ac" (.op "s" 1), 8), (.of "Transformer" "ba" (.op "s" 0), -5 / 2), (.of "Transformer" "ba" (.op "s" 1), -2), (.const, 0)]

def val (v : WVar) : ℚ := ((table.find? (fun e => decide (e.1 = v))).map (·.2)).getD 0

def lam (b : Name) (t : Nat) : ℚ := if t = 0 then (if b = "a" then 20 else if b = "b" then 80 else 50) else 10

def mu : List ℚ := [0, 0, 0, 0, 0, 0, 30, 0, 0, -180, 0, 0, 0, 0, 0, 0, 0, 0, 0, 0, 0, 0, 0, 0, 0, 3 / 10000, 3 / 10000, 0, 0]

theorem solved : Solved program val lam mu where
  len := by decide +kernel
  answer := {
    feasible := by decide +kernel
    upper := by decide +kernel
    lower := by decide +kernel
    stationary := stationary_of _ _ (table.map (·.1)) (by decide +kernel) (by decide +kernel) (by decide +kernel)
    noGap := by decide +kernel }

theorem sound : Sound net := by
  constructor <;> decide +kernel

theorem linear : LinearCosts net where
  gens := by intro g hg t; simp [net, gen] at hg; rcases hg with rfl | rfl <;> rfl
  links := by intro g hg t; simp [net] at hg
  stores := by intro g hg t; simp [net] at hg
  units := by intro g hg t; simp [net] at hg
  genEvents := by decide +kernel
  linkEvents := by decide +kernel

theorem weights : ∀ t < net.len, 0 < weight net t := by decide +kernel

theorem noSet (t : Nat) : ∀ b ∈ passive net, b.2.active t = true → b.2.sSet t = none := by
  intro b hb _
  simp [passive, net, wire] at hb
  rcases hb with rfl | rfl | rfl | rfl <;> rfl

theorem rows (t : Nat) : ∀ r ∈ other, (∀ b ∈ passive net, Silent r b t) ∨ r ∈ law t := by
  intro r hr
  have key : ∀ s, r ∈ law s → (∀ b ∈ passive net, Silent r b t) ∨ r ∈ law t := by
    intro s h
    by_cases hst : s = t
    · exact Or.inr (hst ▸ h)
    · exact Or.inl (fun b _ => law_silent hst h b)
  rcases List.mem_append.mp hr with h | h
  · exact key 0 h
  · exact key 1 h

/-- The rent is 225, the sum of 75, -1275/2, 1425/2 and 75: the line from "b" to "c" goes from 40 to 25. -/
theorem against_prices :
    (passive net).map (rent net (fun _ _ => 0) lam val 0) = [75, -1275 / 2, 1425 / 2, 75] ∧
    spending net (price net (fun _ _ => 0) lam 0) 0 = 2250 ∧ income net (price net (fun _ _ => 0) lam 0) val 0 = 2025 := by
  decide +kernel

example : income net (price net (fun _ _ => 0) lam 0) val 0 ≤ spending net (price net (fun _ _ => 0) lam 0) 0 :=
  (surplus sound linear rfl program_eq solved weights _ 0 (by decide) (noSet 0)
    (fun r hr => (rows 0 r hr).imp_right (fun h => law_homogeneous (fun _ h => h) h))).2

/-- At the second snapshot no branch is at its rating. -/
example : ∀ b ∈ passive net, price net (fun _ _ => 0) lam 1 b.2.bus0 = price net (fun _ _ => 0) lam 1 b.2.bus1 :=
  same_price sound linear rfl program_eq solved weights _ 1 (by decide) (passive net) (fun _ h => h) reactance (by decide +kernel)
    (by decide +kernel) (by decide +kernel) [["a", "b", "c"]] (Graph.exEdges_basis true) (rows 1)

example : price net (fun _ _ => 0) lam 1 "c" = price net (fun _ _ => 0) lam 1 "b" :=
  one_price (passive net) _ (same_price sound linear rfl program_eq solved weights _ 1 (by decide) (passive net) (fun _ h => h) reactance
    (by decide +kernel) (by decide +kernel) (by decide +kernel) [["a", "b", "c"]] (Graph.exEdges_basis true) (rows 1)) _ _
    (.symm _ _ (.rel _ _ ⟨("Line", wire "bc" "b" "c" 100), by simp [passive, net], rfl, rfl⟩))

/-- The two lines of a chain: `radial_price` for the network of `WholeExample.lean`. -/
example : price exNet (fun _ _ => 0) exLam 0 "A" = price exNet (fun _ _ => 0) exLam 0 "C" ∧
    price exNet (fun _ _ => 0) exLam 1 "A" ≤ price exNet (fun _ _ => 0) exLam 1 "C" ∧
    price exNet (fun _ _ => 0) exLam 1 "A" ≠ price exNet (fun _ _ => 0) exLam 1 "C" :=
  ⟨by decide +kernel, (radial_price exSound exLinear rfl exModel_eq exSolved (by decide +kernel) _ 1 (by decide) ("Line", exLine)
    (by simp [passive, exNet]) rfl rfl (by intro r hr e he; simp [exOther] at hr; subst hr; simp at he; rcases he with rfl | rfl <;> simp [flow])).2
      (by decide +kernel), by decide +kernel⟩

end Demo

end Verif.Opt.Whole.Rent
