import Verif.Opt.Results
import Verif.Opt.NodalProps
import Verif.PowerFlow.LinearProps

/-!
# Recorded results (C57, C89, C90)
-/

namespace Verif.Opt.Results

open Verif.Opt.Nodal

section balance
variable {F : Type} [Field F] [LinearOrder F] [IsStrictOrderedRing F]

/-- Power leaving bus `b` over a branch with the given values at its ends. -/
def leaving (b : Name) (br : Branch) (p0 p1 : F) : F :=
  (if br.bus0 = b then p0 else 0) + (if br.bus1 = b then p1 else 0)

omit [LinearOrder F] [IsStrictOrderedRing F] in
theorem sum_filter_at {α : Type} (l : List α) (at' : α → Name) (x : α → F) (b : Name) :
    (((l.map (fun a => (at' a, x a))).filter (fun c => decide (c.1 = b))).map (·.2)).sum =
      (l.map (fun a => if at' a = b then x a else 0)).sum := by
  induction l with
  | nil => rfl
  | cons a t ih =>
    by_cases h : at' a = b
    · simp only [List.map_cons, List.filter_cons, decide_eq_true_eq, h, if_true, List.sum_cons, ih]
    · simp only [List.map_cons, List.filter_cons, decide_eq_true_eq, h, if_false, List.sum_cons, ih, zero_add]

omit [LinearOrder F] [IsStrictOrderedRing F] in
theorem sum_filter_at2 {α β : Type} (l : List α) (f : α → List β) (at' : α → β → Name) (x : α → β → F) (b : Name) :
    (((l.flatMap (fun a => (f a).map (fun e => (at' a e, x a e)))).filter (fun c => decide (c.1 = b))).map (·.2)).sum =
      (l.map (fun a => ((f a).map (fun e => if at' a e = b then x a e else 0)).sum)).sum := by
  induction l with
  | nil => rfl
  | cons a t ih =>
    rw [List.flatMap_cons, List.filter_append, List.map_append, List.sum_append, ih,
      sum_filter_at (f a) (at' a) (x a) b, List.map_cons, List.sum_cons]

omit [LinearOrder F] [IsStrictOrderedRing F] in
theorem busP_eq (n : Net F) (val : NVar → F) (b : Name) :
    busP n val b =
      (n.gens.map (fun g => if g.bus = b then genP val g * g.sign else 0)).sum +
      (n.stores.map (fun g => if g.bus = b then storeP val g * g.sign else 0)).sum +
      (n.loads.map (fun l => if l.bus = b then loadP l * l.sign else 0)).sum +
      (n.units.map (fun g => if g.bus = b then unitP val g * g.sign else 0)).sum +
      (n.links.map (fun l => if l.bus0 = b then linkP0 val l * -1 else 0)).sum +
      (n.links.map (fun l => if l.bus1 = b then linkP1 val l * -1 else 0)).sum +
      (n.links.map (fun l => (l.extra.map (fun e => if e.1 = b then linkPort val l e * -1 else 0)).sum)).sum := by
  unfold busP columns
  simp only [List.filter_append, List.map_append, List.sum_append]
  rw [sum_filter_at n.gens, sum_filter_at n.stores, sum_filter_at n.loads, sum_filter_at n.units,
    sum_filter_at n.links, sum_filter_at n.links, sum_filter_at2 n.links (·.extra) (fun _ e => e.1)]

omit [LinearOrder F] [IsStrictOrderedRing F] in
theorem map_sum_congr {α : Type} {l : List α} {f g : α → F} (h : ∀ a ∈ l, f a = g a) :
    (l.map f).sum = (l.map g).sum := by
  rw [List.map_congr_left h]

omit [LinearOrder F] [IsStrictOrderedRing F] in
theorem map_sum_neg {α : Type} (l : List α) (f : α → F) : - (l.map f).sum = (l.map (fun a => - f a)).sum := by
  induction l with
  | nil => simp
  | cons a t ih => simp only [List.map_cons, List.sum_cons, ← ih]; ring

/-- C57 (partial): for every solution of the nodal balance, the recorded injection of every bus is what
leaves it over the recorded flows of lines and transformers; both ends of a line add up to its losses, those of a
transformer to zero; link outputs are minus efficiency times the input.  All loads are in service, all lines are if
losses are modelled, and transformers do not have losses.
Missing: loads out of service count as injection (`inactive_load_counts`), losses of transformers are
not recorded (`transformer_losses_missing`), flows of lines out of service become NaN with losses
(`inactive_line_nan`). -/
theorem results_balance_partial (n : Net F) (losses : Bool) (hb : "" ∉ n.buses)
    (rows : List (Name × Con NVar F)) (hrows : balance n losses n.buses = .ok rows) (val : NVar → F)
    (hval : Feasible val (rows.map (·.2))) (hload : ∀ l ∈ n.loads, l.active = true)
    (htr : losses = true → ∀ l ∈ n.trafos, l.active = true → val (.trafoLoss l.name) = 0)
    (hact : losses = true → ∀ l ∈ n.lines, l.active = true) :
    ∃ p0 p1 : Branch → F, (∀ l ∈ n.lines, lineP0 losses val l = some (p0 l) ∧ lineP1 losses val l = some (p1 l)) ∧
      (∀ b ∈ n.buses, busP n val b = (n.lines.map (fun l => leaving b l (p0 l) (p1 l))).sum +
        (n.trafos.map (fun l => leaving b l (trafoP0 val l) (trafoP1 val l))).sum) ∧
      (∀ l ∈ n.lines, p0 l + p1 l = if losses then val (.lineLoss l.name) else 0) ∧
      (∀ l ∈ n.trafos, trafoP0 val l + trafoP1 val l = 0) ∧
      (∀ l ∈ n.links, linkP1 val l = - (l.eff * linkP0 val l) ∧
        ∀ e ∈ l.extra, e.1 ≠ "" → linkPort val l e = - (e.2 * linkP0 val l)) ∧
      (∀ g ∈ n.units, g.active = true → unitP val g = val (.dispatch g.name) - val (.charge g.name)) := by
  have hsup := ((nodal_balance n losses n.buses hb).1 rows hrows val).mp hval
  refine ⟨fun l => branchS .line val l + if losses then val (.lineLoss l.name) / 2 else 0,
    fun l => - branchS .line val l + if losses then val (.lineLoss l.name) / 2 else 0, ?_, ?_, ?_, ?_, ?_, ?_⟩
  · intro l hl
    unfold lineP0 lineP1
    cases losses with
    | true => simp [hact rfl l hl]
    | false => simp
  · intro b hbm
    have hs := hsup b hbm
    have hbne : b ≠ "" := fun e => hb (e ▸ hbm)
    rw [busP_eq]
    unfold supplied demanded at hs
    have e1 : (n.gens.map (fun g => contrib b g.bus g.active (g.sign * val (.gen g.name)))).sum =
        (n.gens.map (fun g => if g.bus = b then genP val g * g.sign else 0)).sum := by
      apply map_sum_congr; intro g _
      unfold contrib genP recorded
      cases g.active <;> by_cases h : g.bus = b <;> simp [h, mul_comm]
    have e2 : (n.stores.map (fun g => contrib b g.bus g.active (g.sign * val (.store g.name)))).sum =
        (n.stores.map (fun g => if g.bus = b then storeP val g * g.sign else 0)).sum := by
      apply map_sum_congr; intro g _
      unfold contrib storeP recorded
      cases g.active <;> by_cases h : g.bus = b <;> simp [h, mul_comm]
    have e3 : (n.units.map (fun g => contrib b g.bus g.active
        (g.sign * (val (.dispatch g.name) - val (.charge g.name))))).sum =
        (n.units.map (fun g => if g.bus = b then unitP val g * g.sign else 0)).sum := by
      apply map_sum_congr; intro g _
      unfold contrib unitP recorded
      cases g.active <;> by_cases h : g.bus = b <;> simp [h, mul_comm]
    have e4 : (n.loads.map (fun l => contrib b l.bus l.active (- (l.sign * l.pSet)))).sum =
        - (n.loads.map (fun l => if l.bus = b then loadP l * l.sign else 0)).sum := by
      rw [map_sum_neg]
      apply map_sum_congr; intro l hl
      unfold contrib loadP
      by_cases h : l.bus = b <;> simp [h, hload l hl, mul_comm]
    have e5 : (n.links.map (fun l =>
        contrib b l.bus0 l.active (- val (.link l.name)) +
        contrib b l.bus1 l.active (l.eff * val (.link l.name)) +
        (l.extra.map (fun e => contrib b e.1 l.active (e.2 * val (.link l.name)))).sum)).sum =
        (n.links.map (fun l => if l.bus0 = b then linkP0 val l * -1 else 0)).sum +
        (n.links.map (fun l => if l.bus1 = b then linkP1 val l * -1 else 0)).sum +
        (n.links.map (fun l => (l.extra.map (fun e => if e.1 = b then linkPort val l e * -1 else 0)).sum)).sum := by
      rw [← List.sum_map_add, ← List.sum_map_add]
      apply map_sum_congr; intro l _
      congr 1
      · congr 1
        · unfold contrib linkP0 recorded
          cases l.active <;> by_cases h : l.bus0 = b <;> simp [h]
        · unfold contrib linkP1 recorded
          cases l.active <;> by_cases h : l.bus1 = b <;> simp [h, mul_comm]
      · apply map_sum_congr; intro e _
        unfold contrib linkPort recorded
        cases l.active <;> by_cases h : e.1 = b <;> simp [h, hbne, mul_comm]
    have e6 : (n.lines.map (fun l =>
        contrib b l.bus0 l.active (- val (.line l.name) - if losses then val (.lineLoss l.name) / 2 else 0) +
        contrib b l.bus1 l.active (val (.line l.name) - if losses then val (.lineLoss l.name) / 2 else 0))).sum =
        - (n.lines.map (fun l => leaving b l (branchS .line val l + if losses then val (.lineLoss l.name) / 2 else 0)
          (- branchS .line val l + if losses then val (.lineLoss l.name) / 2 else 0))).sum := by
      rw [map_sum_neg]
      apply map_sum_congr; intro l hl
      unfold contrib leaving branchS recorded
      cases losses with
      | true =>
        have := hact rfl l hl
        by_cases h0 : l.bus0 = b <;> by_cases h1 : l.bus1 = b <;> simp [h0, h1, this] <;> ring
      | false =>
        cases l.active <;> by_cases h0 : l.bus0 = b <;> by_cases h1 : l.bus1 = b <;> simp [h0, h1]
    have e7 : (n.trafos.map (fun l =>
        contrib b l.bus0 l.active (- val (.trafo l.name) - if losses then val (.trafoLoss l.name) / 2 else 0) +
        contrib b l.bus1 l.active (val (.trafo l.name) - if losses then val (.trafoLoss l.name) / 2 else 0))).sum =
        - (n.trafos.map (fun l => leaving b l (trafoP0 val l) (trafoP1 val l))).sum := by
      rw [map_sum_neg]
      apply map_sum_congr; intro l hl
      unfold contrib leaving trafoP0 trafoP1 branchS recorded
      cases ha : l.active with
      | false => by_cases h0 : l.bus0 = b <;> by_cases h1 : l.bus1 = b <;> simp [h0, h1]
      | true =>
        cases losses with
        | true =>
          have := htr rfl l hl ha
          by_cases h0 : l.bus0 = b <;> by_cases h1 : l.bus1 = b <;> simp [h0, h1, this]
        | false =>
          by_cases h0 : l.bus0 = b <;> by_cases h1 : l.bus1 = b <;> simp [h0, h1]
    rw [e1, e2, e3, e4, e5, e6, e7] at hs
    linear_combination hs
  · intro l _
    simp only
    cases losses
    · simp
    · simp only [if_true]; field_simp; ring
  · intro l _
    unfold trafoP0 trafoP1; ring
  · intro l _
    refine ⟨?_, ?_⟩
    · unfold linkP1 linkP0 recorded
      cases l.active <;> simp [mul_comm]
    · intro e _ he
      unfold linkPort linkP0 recorded
      rw [if_neg he]
      cases l.active <;> simp [mul_comm]
  · intro g _ hg
    unfold unitP recorded
    simp [hg]

end balance

/-! ## Windows -/

section windows
variable {F : Type} [Field F]

/-- C89: recording a window leaves the recorded values of other snapshots alone and records its own; values
not available are 0. -/
theorem window_keeps (old : Nat → Option F) (sns : List Nat) (df : Nat → Option F) :
    (∀ t ∈ sns, ∀ x, df t = some x → setFrame (some old) sns df t = some x) ∧
    (∀ t ∉ sns, ∀ x, old t = some x → setFrame (some old) sns df t = some x) := by
  constructor
  · intro t ht x hx; simp [setFrame, ht, hx]
  · intro t ht x hx; simp [setFrame, ht, hx]

/-- Without line losses any number of disjoint windows, recorded one after the other, are all kept. -/
theorem windows_keep (ws : List (List Nat × (Nat → Option F))) (old : Nat → Option F)
    (hdisj : ws.Pairwise (fun a b => ∀ t ∈ a.1, t ∉ b.1)) (w : List Nat × (Nat → Option F)) (hw : w ∈ ws)
    (t : Nat) (ht : t ∈ w.1) (x : F) (hx : w.2 t = some x) :
    ws.foldl (fun o w => setFrame (some o) w.1 w.2) old t = some x := by
  induction ws generalizing old with
  | nil => cases hw
  | cons a rest ih =>
    rw [List.foldl_cons]
    rw [List.pairwise_cons] at hdisj
    rcases List.mem_cons.mp hw with rfl | hw
    · have h0 := (window_keeps old w.1 w.2).1 t ht x hx
      have hrest : ∀ b ∈ rest, t ∉ b.1 := fun b hb => hdisj.1 b hb t ht
      clear ih hdisj hw
      generalize setFrame (some old) w.1 w.2 = o at h0
      induction rest generalizing o with
      | nil => exact h0
      | cons b r ih =>
        rw [List.foldl_cons]
        exact ih (fun c hc => hrest c (List.mem_cons_of_mem _ hc)) _
          ((window_keeps o b.1 b.2).2 t (hrest b (by simp)) x h0)
    · exact ih _ hdisj.2 hw

/-- With line losses, the ends of a line of the snapshots of the window add up to the losses. -/
theorem losses_added (col : Nat → Option F) (sns : List Nat) (loss : Nat → Option F) (t : Nat) (ht : t ∈ sns) (x y : F)
    (hx : col t = some x) (hy : loss t = some y) : addLosses col sns loss t = some (x + y / 2) := by
  simp [addLosses, ht, hx, hy]

/-- C90: price times weight of the snapshot is the dual variable of the balance. -/
theorem price_is_dual (old d w : F) (hw : w ≠ 0) : price old (some d) w * w = d := by
  unfold price; simp [hw]

end windows

/-! ## Voltage angles -/

section angles
variable {F : Type} [Field F] [LinearOrder F] [IsStrictOrderedRing F] {n m : Nat}

open Matrix in
/-- C91 (partial): without phase shifts, if the flows obey the voltage law and carry the injections away, the
angles recorded after the optimisation explain the flows.  `hZ` is one of the defining equations of the pseudo
inverse.  Missing: the angle of the slack bus is not zero (`slack_angle_not_zero`), and phase
shifts are not taken into account. -/
theorem angles_explain_flows_partial (g : PowerFlow.Grid F n m) (hz : ∀ l, 0 < g.z l) (hshift : ∀ l, g.shift l = 0)
    (Z : Matrix (Fin (n + 1)) (Fin (n + 1)) F) (hZ : g.B * Z * g.B = g.B)
    (p : Fin (n + 1) → F) (f : Fin m → F) (hbal : ∀ i, PowerFlow.outflow g f i = p i)
    (θ : Fin (n + 1) → F) (hθ : PowerFlow.FromAngles g f θ) :
    PowerFlow.FromAngles g f (vAng Z p) := by
  have hf : f = g.H *ᵥ θ := by
    funext l
    rw [PowerFlow.H_mulVec, PowerFlow.Grid.b]
    have h1 := hθ l
    rw [hshift l] at h1
    have h2 := (hz l).ne'
    field_simp
    linear_combination h1
  have hp : p = g.B *ᵥ θ := by
    funext i
    rw [PowerFlow.B_mulVec, ← hf, PowerFlow.K_mulVec, hbal]
  have hsum : ∑ i, p i = 0 := by
    rw [← PowerFlow.outflow_sum g f]
    exact Finset.sum_congr rfl (fun i _ => (hbal i).symm)
  have hsym : g.B.transpose = g.B := by
    unfold PowerFlow.Grid.B PowerFlow.Grid.H
    rw [Matrix.transpose_mul, Matrix.transpose_mul, Matrix.transpose_transpose, Matrix.diagonal_transpose,
      Matrix.mul_assoc]
  have hv : vAng Z p = Z.transpose *ᵥ p := by
    funext j
    unfold vAng
    simp only [mul_sub, Finset.sum_sub_distrib, ← Finset.sum_mul, hsum, zero_mul, sub_zero]
    simp only [Matrix.mulVec, dotProduct, Matrix.transpose_apply]
    exact Finset.sum_congr rfl (fun i _ => mul_comm _ _)
  have hB : g.B *ᵥ (vAng Z p) = p := by
    have h1 : g.B * Z.transpose * g.B = g.B := by
      have := congrArg Matrix.transpose hZ
      rw [Matrix.transpose_mul, Matrix.transpose_mul, hsym, ← Matrix.mul_assoc] at this
      exact this
    rw [hv, hp, Matrix.mulVec_mulVec, Matrix.mulVec_mulVec, h1]
  have hfv : PowerFlow.FromAngles g (g.H *ᵥ vAng Z p) (vAng Z p) := by
    intro l
    rw [PowerFlow.H_mulVec, PowerFlow.Grid.b, hshift l]
    have h2 := (hz l).ne'
    field_simp
    ring
  have : f = g.H *ᵥ vAng Z p := by
    apply PowerFlow.flows_unique g hz f _ θ (vAng Z p) hθ hfv
    intro i
    rw [hbal i, ← PowerFlow.K_mulVec, ← PowerFlow.B_mulVec, hB]
  rw [this]
  exact hfv

end angles

/-! ## Examples and findings -/

def exNet : Net ℚ where
  buses := ["a", "b"]
  gens := [⟨"g", "a", 1, true⟩]
  stores := []
  units := [⟨"s", "b", 1, true⟩]
  lines := [⟨"l", "a", "b", true⟩]
  trafos := [⟨"t", "a", "b", true⟩]
  links := [⟨"k", "a", "b", 1 / 2, [("", 1)], true⟩]
  loads := [⟨"b", -1, 10, true⟩]

def exVal : NVar → ℚ
  | .gen _ => 12
  | .dispatch _ => 3
  | .charge _ => 1
  | .line _ => 4
  | .trafo _ => 3
  | .link _ => 4
  | .lineLoss _ => 2
  | _ => 0

/-- 12 at `a`: 4 + 1 (half of the losses), 3, 4; at `b`: 4 - 1, 3, 2, 2 against 10. -/
example : (∃ rows, balance exNet true exNet.buses = .ok rows ∧ Feasible exVal (rows.map (·.2))) ∧
    busP exNet exVal "a" = 8 ∧ busP exNet exVal "b" = -6 ∧
    exNet.lines.map (lineP0 true exVal) = [some 5] ∧ exNet.lines.map (lineP1 true exVal) = [some (-3)] :=
  ⟨⟨_, rfl, by decide +kernel⟩, by decide +kernel, by decide +kernel, by decide +kernel, by decide +kernel⟩

/-- **Finding** (optimize.py 468-469): a load out of service counts in the recorded injection. -/
theorem inactive_load_counts : ∃ (n : Net ℚ) (val : NVar → ℚ) (rows : List (Name × Con NVar ℚ)),
    balance n false n.buses = .ok rows ∧ Feasible val (rows.map (·.2)) ∧ n.lines = [] ∧ n.trafos = [] ∧
    busP n val "a" ≠ 0 :=
  ⟨⟨["a"], [⟨"g", "a", 1, true⟩], [], [], [], [], [], [⟨"a", -1, 10, false⟩]⟩, fun _ => 0, _, rfl, by decide +kernel,
    rfl, rfl, by decide +kernel⟩

/-- **Finding** (optimize.py 471-475): losses of transformers are not recorded, so that injections and
flows do not match. -/
theorem transformer_losses_missing : ∃ (n : Net ℚ) (val : NVar → ℚ) (rows : List (Name × Con NVar ℚ)),
    balance n true n.buses = .ok rows ∧ Feasible val (rows.map (·.2)) ∧ (∀ l ∈ n.loads, l.active = true) ∧
    n.lines = [] ∧
    busP n val "a" ≠ (n.trafos.map (fun l => leaving "a" l (trafoP0 val l) (trafoP1 val l))).sum :=
  ⟨⟨["a", "b"], [⟨"g", "a", 1, true⟩], [], [], [], [⟨"t", "a", "b", true⟩], [], [⟨"b", -1, 8, true⟩]⟩,
    fun v => match v with
      | .gen _ => 10
      | .trafo _ => 9
      | .trafoLoss _ => 2
      | _ => 0, _, rfl, by decide +kernel, by decide +kernel, rfl, by decide +kernel⟩

/-- **Finding** (optimize.py 473-475): with losses the flow of a line out of service is NaN. -/
theorem inactive_line_nan (val : NVar → ℚ) (l : Branch) (h : l.active = false) : lineP0 true val l = none := by
  simp [lineP0, h]

/-- **Finding** (optimize.py 474): with line losses, recording the second window makes the line flows of the first one
NaN. -/
theorem window_loses_line_flows : ∃ (first second loss : Nat → Option ℚ),
    setFrame none [0] first 0 = some 7 ∧
    addLosses (setFrame (some (setFrame none [0] first)) [1] second) [1] loss 0 = none :=
  ⟨fun _ => some 7, fun _ => some 7, fun _ => some 0, by decide +kernel, by decide +kernel⟩

/-- **Finding** (optimize.py 403-405, 464-466): if the solver returns no duals, prices recorded earlier are divided by the
weights once more. -/
theorem stale_price_rescaled : price (10 : ℚ) none 2 = 5 := by norm_num [price]

/-- A line between two buses. -/
def exGrid : PowerFlow.Grid ℚ 1 1 := ⟨fun _ => 0, fun _ => 1, fun _ => 1, fun _ => 0⟩

def exZ : Matrix (Fin 2) (Fin 2) ℚ := !![1 / 4, -1 / 4; -1 / 4, 1 / 4]

theorem exB : exGrid.B = !![1, -1; -1, 1] := by
  ext i j
  fin_cases i <;> fin_cases j <;>
    simp [PowerFlow.Grid.B, PowerFlow.Grid.H, PowerFlow.Grid.K, PowerFlow.Grid.b, exGrid, Matrix.mul_apply]

/-- `exZ` is the pseudo inverse. -/
theorem exZ_pinv : exGrid.B * exZ * exGrid.B = exGrid.B ∧ exZ * exGrid.B * exZ = exZ ∧
    (exGrid.B * exZ).transpose = exGrid.B * exZ ∧ (exZ * exGrid.B).transpose = exZ * exGrid.B := by
  rw [exB, exZ]
  refine ⟨?_, ?_, ?_, ?_⟩ <;> ext i j <;> fin_cases i <;> fin_cases j <;>
    norm_num [Matrix.mul_apply, Fin.sum_univ_two]

example : (∀ i, PowerFlow.outflow exGrid (fun _ => 1) i = ![1, -1] i) ∧
    PowerFlow.FromAngles exGrid (fun _ => 1) ![1, 0] ∧ (∀ l, 0 < exGrid.z l) := by
  refine ⟨?_, ?_, ?_⟩
  · intro i; fin_cases i <;> simp [PowerFlow.outflow, exGrid]
  · intro l; simp [exGrid]
  · intro l; simp [exGrid]

/-- **Finding** (optimize.py 508-510): the angle of the slack bus is not zero. -/
theorem slack_angle_not_zero : vAng exZ ![1, -1] 0 = 1 / 2 := by
  have h : vAng exZ ![1, -1] 0 = 1 * (exZ 0 0 - exZ 0 0) + -1 * (exZ 1 0 - exZ 0 0) := Fin.sum_univ_two _
  rw [h]; norm_num [exZ]

end Verif.Opt.Results
