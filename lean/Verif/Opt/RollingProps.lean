import Verif.Opt.Rolling
import Verif.Opt.StorageProps

/-!
# Rolling horizon (C63)
-/

namespace Verif.Opt.Rolling

theorem mem_starts (len step : Nat) (hstep : 0 < step) (start x : Nat) :
    x ∈ starts len step start ↔ x < len ∧ ∃ k, x = start + k * step := by
  fun_induction starts len step start with
  | case1 start h ih =>
    rw [List.mem_cons, ih]
    constructor
    · rintro (rfl | ⟨h1, k, rfl⟩)
      · exact ⟨h.1, 0, by simp⟩
      · exact ⟨h1, k + 1, by rw [Nat.add_mul]; omega⟩
    · rintro ⟨h1, k, rfl⟩
      cases k with
      | zero => left; simp
      | succ k => right; exact ⟨h1, k, by rw [Nat.add_mul]; omega⟩
  | case2 start h =>
    simp only [List.not_mem_nil, false_iff, not_and, not_exists]
    rintro h1 k rfl
    apply h
    refine ⟨?_, hstep⟩
    have : start ≤ start + k * step := Nat.le_add_right _ _
    omega

/-- Windows in the order of time: each begins `step` after the one before, and the first one at `s`. -/
def Consecutive (step : Nat) : Nat → List (Nat × Nat) → Prop
  | _, [] => True
  | s, w :: rest => w.1 = s ∧ Consecutive step (s + step) rest

theorem starts_consecutive (len step start : Nat) (f : Nat → Nat) :
    Consecutive step start ((starts len step start).map (fun s => (s, f s))) := by
  fun_induction starts len step start with
  | case1 start h ih => exact ⟨rfl, ih⟩
  | case2 start h => trivial

/-- C63: an overlap not less than the horizon raises; otherwise, if the overlap is not negative, the windows are in
order, begin at the first snapshot, each `horizon - overlap` after the one before, hold at most `horizon` snapshots
(exactly that many unless they reach the end), overlap by exactly `overlap` snapshots unless they reach the end, cover
every snapshot, and the snapshot before each window belongs to the window before. -/
theorem rolling_windows (len horizon overlap : Nat) :
    (horizon ≤ overlap → windows len horizon overlap = .error ()) ∧
    (overlap < horizon → ∃ ws, windows len horizon overlap = .ok ws ∧
      Consecutive (horizon - overlap) 0 ws ∧
      (∀ w ∈ ws, w.1 < w.2 ∧ w.2 ≤ len ∧ w.2 ≤ w.1 + horizon ∧ (w.2 = w.1 + horizon ∨ w.2 = len)) ∧
      (∀ t < len, ∃ w ∈ ws, w.1 ≤ t ∧ t < w.2) ∧
      (∀ w ∈ ws, 0 < w.1 → ∃ v ∈ ws, v.1 + (horizon - overlap) = w.1 ∧ v.1 ≤ w.1 - 1 ∧ w.1 - 1 < v.2 ∧
        (v.2 < len → v.2 = w.1 + overlap))) := by
  constructor
  · intro h
    unfold windows
    rw [if_pos (by exact_mod_cast h)]
  · intro h
    have hstep : ((horizon : Int) - (overlap : Int)).toNat = horizon - overlap := by omega
    have hpos : 0 < horizon - overlap := by omega
    refine ⟨(starts len (horizon - overlap) 0).map (fun s => (s, min len (s + horizon))), ?_, ?_, ?_, ?_, ?_⟩
    · unfold windows
      rw [if_neg (by omega), hstep]
    · exact starts_consecutive _ _ _ _
    · intro w hw
      obtain ⟨s, hs, rfl⟩ := List.mem_map.mp hw
      have := (mem_starts len _ hpos 0 s).mp hs
      refine ⟨?_, ?_, ?_, ?_⟩ <;> simp only <;> omega
    · intro t ht
      refine ⟨(t / (horizon - overlap) * (horizon - overlap), _), List.mem_map.mpr ⟨t / (horizon - overlap) * (horizon - overlap), ?_, rfl⟩, ?_, ?_⟩
      · rw [mem_starts _ _ hpos]
        refine ⟨lt_of_le_of_lt (Nat.div_mul_le_self _ _) ht, t / (horizon - overlap), by simp⟩
      · exact Nat.div_mul_le_self _ _
      · show t < min len _
        have := Nat.lt_div_mul_add (a := t) hpos
        omega
    · intro w hw hw0
      obtain ⟨s, hs, rfl⟩ := List.mem_map.mp hw
      obtain ⟨hlt, k, hk⟩ := (mem_starts len _ hpos 0 s).mp hs
      simp only at hw0 ⊢
      cases k with
      | zero => omega
      | succ k =>
        have hs' : k * (horizon - overlap) + (horizon - overlap) = s := by rw [hk, Nat.add_mul]; omega
        refine ⟨(k * (horizon - overlap), min len (k * (horizon - overlap) + horizon)),
          List.mem_map.mpr ⟨_, (mem_starts len _ hpos 0 _).mpr ⟨by omega, k, by simp⟩, rfl⟩, ?_, ?_, ?_, ?_⟩ <;> simp only <;> omega

variable {F : Type} [Field F] [LinearOrder F] [IsStrictOrderedRing F]

/-- The solution of one window. -/
theorem window_chain (a : Storage F) (hact : ∀ t, a.active t = true) (hc : a.cyclic = false) (s len : Nat) (init : F)
    (per : Nat → Nat) (val : EVar → F) (h : Feasible val (storeCons (shiftTo a s init) ⟨len, false, per⟩)) (t : Nat) (ht : t < len) :
    val (.e t) = (if t = 0 then init else a.keep (s + t) * val (.e (t - 1))) - a.eh (s + t) * val (.p t) := by
  have hpp : perPeriod (shiftTo a s init) ⟨len, false, per⟩ = false := by simp [perPeriod]
  have hb : Balanced (shiftTo a s init).active (fun _ _ => True) (shiftTo a s init).cyclic init (shiftTo a s init).keep
      (fun t => val (.e t)) (fun t => - ((shiftTo a s init).eh t * val (.p t))) len :=
    balanced_of_rows (a := shiftTo a s init) (w := ⟨len, false, per⟩) (fun t ht ha => store_row h t ht ha)
      (fun t ht ha => by simpa only [and_true] using previous_whole (shiftTo a s init) _ hpp t ht ha)
  obtain ⟨h1, h2⟩ := hb t ht (hact _)
  cases t with
  | zero =>
    have := h2 (by rintro ⟨s, hs, -⟩; omega)
    have hc' : (shiftTo a s init).cyclic = false := hc
    rw [hc'] at this
    simp only [Bool.false_eq_true, if_false] at this
    rw [if_pos rfl, this]
    show init + - (a.eh (s + 0) * _) = _
    ring
  | succ t =>
    have := h1 t ⟨by omega, ⟨hact _, trivial⟩, fun r h1 h2 => absurd h2 (by omega)⟩
    beta_reduce at this
    rw [if_neg (by omega), this]
    show a.keep (s + (t + 1)) * _ + - (a.eh (s + (t + 1)) * _) = _
    rw [Nat.add_sub_cancel]
    ring

/-- C63 (partial): after a rolling horizon with any overlap the recorded levels of a store that is
not cyclic follow from each other over the whole horizon, beginning with the given initial level: what is recorded for the
snapshot before a window is what the window begins with.
Missing: no standing losses are counted for the first snapshot of a window (`standing_loss_skipped`); a cyclic store closes
its cycle in every window (`cyclic_per_window`); a negative overlap leaves snapshots out (`negative_overlap`). -/
theorem rolling_levels_partial (a : Storage F) (hact : ∀ t, a.active t = true) (hc : a.cyclic = false)
    (len horizon overlap : Nat) (ws : List (Nat × Nat)) (ho : overlap < horizon)
    (hws : windows len horizon overlap = .ok ws) (R R' : Rec F) (hrun : Run a ws true R R') (t : Nat) (ht : t < len) :
    R'.e t = (if t = 0 then a.initial else (if t % (horizon - overlap) = 0 then 1 else a.keep t) * R'.e (t - 1)) -
      a.eh t * R'.p t := by
  have hstep : ((horizon : Int) - (overlap : Int)).toNat = horizon - overlap := by omega
  have hpos : 0 < horizon - overlap := by omega
  have hws' : ws = (starts len (horizon - overlap) 0).map (fun s => (s, min len (s + horizon))) := by
    unfold windows at hws
    rw [if_neg (by omega), hstep] at hws
    injection hws with hws
    exact hws.symm
  generalize hst : horizon - overlap = step at *
  have hsh : step ≤ horizon := by omega
  have key : ∀ n s (first : Bool) (R : Rec F), len - s = n → s % step = 0 → (first = true ↔ s = 0) →
      Run a ((starts len step s).map (fun s => (s, min len (s + horizon)))) first R R' →
      (∀ k < s, R'.e k = R.e k ∧ R'.p k = R.p k) ∧
      (∀ t, s ≤ t → t < len → R'.e t = (if t = 0 then a.initial else
        (if t % step = 0 then 1 else a.keep t) * R'.e (t - 1)) - a.eh t * R'.p t) := by
    intro n
    induction n using Nat.strong_induction_on with
    | _ n ih =>
      intro s first R hn hmod hfirst hr
      unfold starts at hr
      by_cases hlt : s < len
      · rw [if_pos ⟨hlt, hpos⟩, List.map_cons] at hr
        cases hr with
        | cons _ _ _ _ _ _ val per hval hrest =>
          have hch := window_chain a hact hc s _ _ per val hval
          have ihr := ih (len - (s + step)) (by omega) (s + step) false _ rfl
            (by rw [Nat.add_mod_right]; exact hmod) (by constructor; simp; omega) hrest
          simp only [record] at ihr
          have hin : ∀ k, s ≤ k → k < s + step → k < len →
              R'.e k = val (.e (k - s)) ∧ R'.p k = val (.p (k - s)) := by
            intro k h1 h2 h3
            have := ihr.1 k h2
            rw [if_pos ⟨h1, by omega⟩, if_pos ⟨h1, by omega⟩] at this
            exact this
          have hbefore : ∀ k < s, R'.e k = R.e k ∧ R'.p k = R.p k := by
            intro k hk
            have := ihr.1 k (by omega)
            rw [if_neg (by omega), if_neg (by omega)] at this
            exact this
          refine ⟨hbefore, ?_⟩
          intro t h1 h2
          by_cases h3 : t < s + step
          · rw [(hin t h1 h3 h2).1, (hin t h1 h3 h2).2, hch (t - s) (by omega)]
            have hst' : s + (t - s) = t := by omega
            rw [hst']
            congr 1
            by_cases hts : t = s
            · subst hts
              rw [Nat.sub_self, if_pos rfl]
              unfold initialOf
              by_cases h0 : t = 0
              · rw [if_pos h0, if_pos (hfirst.mpr h0)]
              · rw [if_neg h0, if_neg (fun h => h0 (hfirst.mp h)), if_pos hmod, one_mul,
                  (hbefore (t - 1) (by omega)).1]
            · have hnm : ¬ t % step = 0 := by
                intro hm
                obtain ⟨q, rfl⟩ := Nat.dvd_of_mod_eq_zero hmod
                obtain ⟨r, rfl⟩ := Nat.dvd_of_mod_eq_zero hm
                have h4 : step * q < step * r := by omega
                have h5 : q < r := Nat.lt_of_mul_lt_mul_left h4
                have h6 : step * (q + 1) ≤ step * r := Nat.mul_le_mul_left _ h5
                rw [Nat.mul_add] at h6
                omega
              rw [if_neg (by omega), if_neg (by omega), if_neg hnm, (hin (t - 1) (by omega) (by omega) (by omega)).1]
              congr 2
              congr 1
              omega
          · exact ihr.2 t (by omega) h2
      · rw [if_neg (fun h => hlt h.1), List.map_nil] at hr
        cases hr
        exact ⟨fun k _ => ⟨rfl, rfl⟩, fun t h1 h2 => absurd h2 (by omega)⟩
  rw [hws'] at hrun
  exact (key _ 0 true R rfl (by simp) (by simp) hrun).2 t (by omega) ht

/-! ## Examples and findings -/

example : windows 10 6 2 = .ok [(0, 6), (4, 10), (8, 10)] ∧ windows 10 6 6 = .error () := by
  constructor
  · unfold windows
    rw [if_neg (by decide)]
    have : ((6 : Nat) : Int) - 2 = 4 := by decide
    rw [this]
    simp [starts]
  · rfl

/-- **Finding** (abstract.py 484): a negative overlap is accepted and leaves snapshots out. -/
theorem negative_overlap : windows 5 2 (-1) = .ok [(0, 2), (3, 5)] := by
  unfold windows
  rw [if_neg (by decide)]
  have : ((2 : Nat) : Int) - (-1) = 3 := by decide
  rw [this]
  simp [starts]

/-- A store that loses half of its content in every snapshot, initially filled with 8, not used. -/
def exStore : Storage ℚ :=
  { active := fun _ => true, cyclic := false, cyclicPerPeriod := false, initialPerPeriod := false, initial := 8,
    eh := fun _ => 1, keep := fun _ => 1 / 2 }

def exSol (x y : ℚ) : EVar → ℚ
  | .e 0 => x
  | .e _ => y
  | .p _ => 0

/-- **Finding** (abstract.py 497, constraints.py 958-969): standing losses are not counted for the first snapshot of a
window: with two windows of two snapshots 2 are left after the fourth snapshot, in one optimisation 1. -/
theorem standing_loss_skipped :
    (∃ R', Run exStore [(0, 2), (2, 4)] true ⟨fun _ => 0, fun _ => 0⟩ R' ∧ R'.e 3 = 2) ∧
    Feasible (fun v : EVar => match v with
      | .e 0 => 8 | .e 1 => 4 | .e 2 => 2 | .e _ => 1 | .p _ => 0) (storeCons exStore ⟨4, false, fun _ => 0⟩) := by
  refine ⟨⟨_, Run.cons _ _ _ _ _ _ (exSol 8 4) (fun _ => 0) (by decide +kernel)
    (Run.cons _ _ _ _ _ _ (exSol 4 2) (fun _ => 0) (by decide +kernel) (Run.nil _ _)), ?_⟩, by decide +kernel⟩
  decide +kernel

/-- **Finding** (abstract.py 496-503): a cyclic store closes its cycle in each window, whatever has been recorded before; here
the level jumps from 8 to 0. -/
theorem cyclic_per_window : ∃ R', Run { exStore with cyclic := true, keep := fun _ => 1 } [(0, 2), (2, 4)] true
    ⟨fun _ => 0, fun _ => 0⟩ R' ∧ R'.e 1 = 8 ∧ R'.e 2 = 0 ∧ R'.p 2 = 0 := by
  refine ⟨_, Run.cons _ _ _ _ _ _ (exSol 8 8) (fun _ => 0) (by decide +kernel)
    (Run.cons _ _ _ _ _ _ (exSol 0 0) (fun _ => 0) (by decide +kernel) (Run.nil _ _)), ?_, ?_, ?_⟩ <;>
  decide +kernel

end Verif.Opt.Rolling
