import Verif.Opt.RollingWhole
import Verif.Opt.RollingProps
import Verif.Opt.ExtendProps

/-!
# C116: what a rolling horizon records is a feasible operation of the whole horizon
-/

namespace Verif.Opt.Whole

variable {F : Type} [Field F] [LinearOrder F]

/-! ## The window that fixes a snapshot -/

/-- The window whose solution stands for snapshot `t` in the end. -/
structure Part (w : WNet F) (rows : Nat → List (Con (Name × Name × Name) F)) (step : Nat) (R' : WVar → F) (t s n : Nat)
    (first : Bool) (R : WVar → F) (P : Program F) (x : WVar → F) : Prop where
  le : s ≤ t
  lt : t < s + n
  isFirst : first = true ↔ s = 0
  mod : s % step = 0
  model : createModel (windowNet w R first s n) (otherRows rows s n) = some P
  feasible : FeasibleIn P x
  same : ∀ k, s ≤ k → k ≤ t → ∀ c a v, R' (.of c a (.op v k)) = x (.of c a (.op v (k - s)))
  before : 0 < s → ∀ c a v, R (.of c a (.op v (s - 1))) = R' (.of c a (.op v (s - 1)))

theorem part_exists {w : WNet F} {rows : Nat → List (Con (Name × Name × Name) F)} {horizon overlap : Nat} (ho : overlap < horizon)
    {ws : List (Nat × Nat)} (hws : Rolling.windows w.len horizon overlap = .ok ws) {R₀ R' : WVar → F}
    (hrun : Rolled w rows ws true R₀ R') (t : Nat) (ht : t < w.len) :
    ∃ s n first R P x, Part w rows (horizon - overlap) R' t s n first R P x := by
  have hstep : ((horizon : Int) - (overlap : Int)).toNat = horizon - overlap := by omega
  have hpos : 0 < horizon - overlap := by omega
  have hws' : ws = (Rolling.starts w.len (horizon - overlap) 0).map (fun s => (s, min w.len (s + horizon))) := by
    unfold Rolling.windows at hws
    rw [if_neg (by omega), hstep] at hws
    injection hws with hws
    exact hws.symm
  have hsh : horizon - overlap ≤ horizon := by omega
  generalize horizon - overlap = step at *
  have key : ∀ n s (first : Bool) (R : WVar → F), w.len - s = n → s % step = 0 → (first = true ↔ s = 0) →
      Rolled w rows ((Rolling.starts w.len step s).map (fun s => (s, min w.len (s + horizon)))) first R R' →
      (∀ k < s, ∀ c a v, R' (.of c a (.op v k)) = R (.of c a (.op v k))) ∧
      (∀ t, s ≤ t → t < w.len → ∃ s n first R P x, Part w rows step R' t s n first R P x) := by
    intro n
    induction n using Nat.strong_induction_on with
    | _ n ih =>
      intro s first R hn hmod hfirst hr
      unfold Rolling.starts at hr
      by_cases hlt : s < w.len
      · rw [if_pos ⟨hlt, hpos⟩, List.map_cons] at hr
        cases hr with
        | cons _ _ _ _ _ _ P x hP hrows hbal hrest =>
          have ihr := ih (w.len - (s + step)) (by omega) (s + step) false _ rfl
            (by rw [Nat.add_mod_right]; exact hmod) (by constructor; simp; omega) hrest
          simp only [recordAll] at ihr
          have hbefore : ∀ k < s, ∀ c a v, R' (.of c a (.op v k)) = R (.of c a (.op v k)) := by
            intro k hk c a v
            have := ihr.1 k (by omega) c a v
            rw [if_neg (by omega)] at this
            exact this
          refine ⟨hbefore, ?_⟩
          intro t h1 h2
          by_cases h3 : t < s + step
          · refine ⟨s, min w.len (s + horizon) - s, first, R, P, x, h1, by omega, hfirst, hmod, hP, ⟨hrows, hbal⟩, ?_, ?_⟩
            · intro k h4 h5 c a v
              have := ihr.1 k (by omega) c a v
              rw [if_pos ⟨h4, by omega⟩] at this
              exact this
            · intro h0 c a v
              exact (hbefore (s - 1) (by omega) c a v).symm
          · exact ihr.2 t (by omega) h2
      · rw [if_neg (fun h => hlt h.1), List.map_nil] at hr
        cases hr
        exact ⟨fun k _ c a v => rfl, fun t h1 h2 => absurd h2 (by omega)⟩
  rw [hws'] at hrun
  exact (key _ 0 true R₀ rfl (by simp) (by simp) hrun).2 t (by omega) ht

/-! ## Rows of one snapshot -/

/-- The record and the solution agree at snapshot `t`. -/
theorem snap_row {B : Type} {loc : Nat → B → Loc} {r : Con B F} (hat : ∀ e ∈ r.terms, ∃ v, ∀ k, loc k e.2 = .op v k) {y x : Loc → F}
    {t s : Nat} (hwin : ∀ v, y (.op v t) = x (.op v (t - s))) (h : (remap (loc (t - s)) r).holds x) : (remap (loc t) r).holds y := by
  rw [holds_remap] at h ⊢
  unfold Con.holds at h ⊢
  have e : lin (fun v => y (loc t v)) r.terms = lin (fun v => x (loc (t - s) v)) r.terms := by
    apply lin_congr
    intro e he
    obtain ⟨v, hv⟩ := hat e he
    rw [hv, hv, hwin]
  rw [e]
  exact h

theorem opRows_at {c : Accessor.Cls} {attr : Accessor.Attr'} {losses : Bool} {a : Accessor.Asset F} (ha : a.ext = false) (var : Name)
    (r : Con Accessor.BVar F) (hr : r ∈ Accessor.opRows c attr losses a) : ∀ e ∈ r.terms, ∃ v, ∀ k, boundLoc var k e.2 = .op v k := by
  unfold Accessor.opRows Accessor.fixRows Accessor.extRows Accessor.lossTm at hr
  intro e he
  have : e.2 = .x ∨ e.2 = .loss := by
    cases hact : a.active <;> simp [ha, hact] at hr
    rcases hr with rfl | rfl <;> split at he <;> simp at he <;> (try rcases he with rfl | rfl) <;> simp_all
  rcases this with h | h <;> rw [h]
  · exact ⟨var, fun _ => rfl⟩
  · exact ⟨"loss", fun _ => rfl⟩

theorem boundRows_rolls {len : Nat} {c : Accessor.Cls} {attr : Accessor.Attr'} {var : Name} {losses : Bool} {a : Nat → Accessor.Asset F}
    (ha : ∀ t, (a t).ext = false) {y : Loc → F}
    (H : ∀ t < len, ∃ s n x, s ≤ t ∧ t < s + n ∧ (∀ v, y (.op v t) = x (.op v (t - s))) ∧
      ∀ q ∈ boundRows n c attr var losses (fun k => a (s + k)), q.holds x) :
    ∀ q ∈ boundRows len c attr var losses a, q.holds y := by
  intro q hq
  obtain ⟨t, ht, r, hr, rfl⟩ := mem_boundRows q hq
  obtain ⟨s, n, x, h1, h2, h3, h4⟩ := H t ht
  refine snap_row (opRows_at (ha t) var r hr) h3 (h4 _ ?_)
  unfold boundRows
  rw [List.mem_flatMap]
  refine ⟨t - s, List.mem_range.mpr (by omega), List.mem_map.mpr ⟨r, ?_, rfl⟩⟩
  have : s + (t - s) = t := by omega
  simp only [this]
  exact hr

theorem mem_setRows_iff {len : Nat} {var : Name} {active : Nat → Bool} {value : Nat → Option F} (q : Con Loc F) :
    q ∈ setRows len var active value ↔
      ∃ t x, t < len ∧ value t = some x ∧ active t = true ∧ q = ⟨[(1, .op var t)], .eq, x⟩ := by
  unfold setRows Capacity.fixedOperationCons
  simp only [List.flatMap_cons, List.flatMap_nil, List.append_nil, List.mem_map, List.mem_flatMap, List.mem_range]
  constructor
  · rintro ⟨c, ⟨t, ht, hc⟩, rfl⟩
    cases hv : value t with
    | none => simp [hv] at hc
    | some x =>
      simp only [hv] at hc
      split at hc
      · simp only [List.mem_singleton] at hc
        subst hc
        exact ⟨t, x, ht, hv, ‹_›, rfl⟩
      · cases hc
  · rintro ⟨t, x, ht, hv, ha, rfl⟩
    exact ⟨⟨[(1, (var, t))], .eq, x⟩, ⟨t, ht, by simp [hv, ha]⟩, rfl⟩

theorem setRows_rolls {len : Nat} {var : Name} {active : Nat → Bool} {value : Nat → Option F} {y : Loc → F}
    (H : ∀ t < len, ∃ s n x, s ≤ t ∧ t < s + n ∧ (∀ v, y (.op v t) = x (.op v (t - s))) ∧
      ∀ q ∈ setRows n var (fun k => active (s + k)) (fun k => value (s + k)), q.holds x) :
    ∀ q ∈ setRows len var active value, q.holds y := by
  intro q hq
  obtain ⟨t, v, ht, hv, ha, rfl⟩ := (mem_setRows_iff q).mp hq
  obtain ⟨s, n, x, h1, h2, h3, h4⟩ := H t ht
  have e : s + (t - s) = t := by omega
  have := h4 ⟨[(1, .op var (t - s))], .eq, v⟩ ((mem_setRows_iff _).mpr ⟨t - s, v, by omega, by simp only [e]; exact hv, by simp only [e]; exact ha, rfl⟩)
  simp only [Con.holds, lin_cons, lin_nil] at this ⊢
  rw [h3]
  exact this

/-! ## Units -/

section units
variable [IsStrictOrderedRing F]

theorem unitCons_fixed {cls : List (Unit' F)} {u : Unit' F} {T : Nat} {rolling lin' : Bool} (hext : u.extendable = false)
    (hcom : u.committable = false) : unitCons cls u T rolling lin' = nonExtCons u T ++ rampCons cls u T rolling := by
  unfold unitCons extCons comCons linearizedCons
  simp [hext, hcom]

theorem unit_bounds {cls : List (Unit' F)} {u : Unit' F} {T : Nat} {rolling lin' : Bool} (hext : u.extendable = false)
    (hcom : u.committable = false) {x : UVar → F} (h : Feasible x (unitCons cls u T rolling lin')) (t : Nat) (ht : t < T)
    (ha : u.active t = true) : u.minPu t * u.nom ≤ x (.p t) ∧ x (.p t) ≤ u.maxPu t * u.nom := by
  rw [unitCons_fixed hext hcom, feasible_append] at h
  have h1 := h.1
  unfold nonExtCons at h1
  simp only [hext, hcom, Bool.or_self, Bool.false_eq_true, if_false] at h1
  have m : ∀ q ∈ [(⟨tm (present u) 1 (.p t), .ge, u.minPu t * u.nom⟩ : Con UVar F), ⟨tm (present u) 1 (.p t), .le, u.maxPu t * u.nom⟩],
      q.holds x := by
    intro q hq
    refine h1 q ?_
    unfold rowsAt
    rw [List.mem_flatMap]
    exact ⟨t, List.mem_range.mpr ht, by rw [if_pos ha]; exact hq⟩
  have a := m _ List.mem_cons_self
  have b := m _ (List.mem_cons_of_mem _ List.mem_cons_self)
  simp only [Con.holds, lin_tm, orZero, Verif.Opt.present, ha, if_true, one_mul] at a b
  exact ⟨a, b⟩

theorem unit_ramps {cls : List (Unit' F)} {u : Unit' F} {T : Nat} {rolling lin' : Bool} (hext : u.extendable = false)
    (hcom : u.committable = false) {x : UVar → F} (h : Feasible x (unitCons cls u T rolling lin'))
    (hs : rampSkip cls T = false) (t : Nat) (ht : t < T) (h0 : rolling = true ∨ 0 < t) (ha : u.active t = true) :
    (∀ r, u.rampUp t = some r → lin x (pDiff u t) ≤ r * u.nom + rampStartRhs u rolling t) ∧
    (∀ r, u.rampDown t = some r → - r * u.nom + rampStartRhs u rolling t ≤ lin x (pDiff u t)) := by
  rw [unitCons_fixed hext hcom, feasible_append] at h
  have h1 := h.2
  unfold rampCons at h1
  rw [hs] at h1
  simp only [Bool.false_eq_true, if_false] at h1
  have m : ∀ q ∈ rampRows u rolling t, q.holds x := by
    intro q hq
    refine h1 q ?_
    unfold rowsAt
    rw [List.mem_flatMap]
    refine ⟨t, ?_, by rw [if_pos ha]; exact hq⟩
    split
    · exact List.mem_range.mpr ht
    · rw [List.mem_range'_1]
      rcases h0 with h0 | h0
      · contradiction
      · omega
  unfold rampRows at m
  simp only [hext, hcom, Bool.not_false, Bool.and_self, if_true, Bool.false_eq_true, if_false, List.append_nil] at m
  constructor
  · intro r hr
    have := m ⟨pDiff u t, .le, r * u.nom + rampStartRhs u rolling t⟩ (by simp [hr])
    exact this
  · intro r hr
    have := m ⟨pDiff u t, .ge, - r * u.nom + rampStartRhs u rolling t⟩ (by simp [hr])
    exact this

/-- A window solution that stands for snapshot `t` of a unit. -/
structure UnitPart (cls : List (Unit' F)) (u : Unit' F) (len : Nat) (lin' : Bool) (y : UVar → F) (t : Nat) (s n : Nat)
    (cls' : List (Unit' F)) (hp : F) (st : List F) (x : UVar → F) : Prop where
  le : s ≤ t
  lt : t < s + n
  feasible : Feasible x (unitCons cls' (unitAt u s hp st) n (decide (s ≠ 0)) lin')
  same : ∀ k, s ≤ k → k ≤ t → y (.p k) = x (.p (k - s))
  before : 0 < s → hp = y (.p (s - 1))
  ramps : rampSkip cls len = false → (u.rampUp t ≠ none ∨ u.rampDown t ≠ none) → rampSkip cls' n = false

theorem unit_diff {cls : List (Unit' F)} {u : Unit' F} {len : Nat} {lin' : Bool} {y : UVar → F} {t s n : Nat} {cls' : List (Unit' F)}
    {hp : F} {st : List F} {x : UVar → F} (h : UnitPart cls u len lin' y t s n cls' hp st x) (ha : ∀ t, u.active t = true) (ht : 0 < t) :
    lin x (pDiff (unitAt u s hp st) (t - s)) - rampStartRhs (unitAt u s hp st) (decide (s ≠ 0)) (t - s) = lin y (pDiff u t) := by
  have ha' : ∀ k, (unitAt u s hp st).active k = true := fun k => ha _
  obtain ⟨t, rfl⟩ : ∃ k, t = k + 1 := ⟨t - 1, by omega⟩
  have hy : lin y (pDiff u (t + 1)) = y (.p (t + 1)) - y (.p t) := by
    simp [pDiff, prevTm, orZero, present, ha]
    ring
  rw [hy, h.same (t + 1) h.le le_rfl]
  by_cases hs : t + 1 = s
  · subst hs
    have hb := h.before (by omega)
    simp only [Nat.sub_self, pDiff, prevTm, rampStartRhs, lin_append, lin_tm, orZero, present, ha', if_true, lin_nil, unitAt]
    simp only [Nat.add_sub_cancel] at hb
    rw [hb]
    simp [ha]
  · have hle := h.le
    obtain ⟨k, hk⟩ : ∃ k, t + 1 - s = k + 1 := ⟨t - s, by omega⟩
    rw [h.same t (by omega) (by omega), hk]
    have : t - s = k := by omega
    rw [this]
    simp [pDiff, prevTm, orZero, present, ha', rampStartRhs]
    ring

theorem unit_rolls {cls : List (Unit' F)} {u : Unit' F} {len : Nat} {lin' : Bool} (hext : u.extendable = false)
    (hcom : u.committable = false) (hact : ∀ t, u.active t = u.active 0) {y : UVar → F}
    (H : ∀ t < len, ∃ s n cls' hp st x, UnitPart cls u len lin' y t s n cls' hp st x) :
    ∀ q ∈ unitCons cls u len false lin', q.holds y := by
  intro q hq
  rw [unitCons_fixed hext hcom, List.mem_append] at hq
  rcases hq with hq | hq
  · unfold nonExtCons rowsAt at hq
    simp only [hext, hcom, Bool.or_self, Bool.false_eq_true, if_false, List.mem_flatMap, List.mem_range] at hq
    obtain ⟨t, ht, hq⟩ := hq
    split at hq
    · rename_i ha
      obtain ⟨s, n, cls', hp, st, x, h⟩ := H t ht
      have hle := h.le
      have hlt := h.lt
      have e : s + (t - s) = t := by omega
      have hb := unit_bounds (u := unitAt u s hp st) hext hcom h.feasible (t - s) (by omega) (by simp only [unitAt, e]; exact ha)
      simp only [unitAt, e] at hb
      rw [← h.same t h.le le_rfl] at hb
      simp only [List.mem_cons, List.not_mem_nil, or_false] at hq
      rcases hq with rfl | rfl
      · simp only [Con.holds, lin_tm, orZero, present, ha, if_true, one_mul]
        exact hb.1
      · simp only [Con.holds, lin_tm, orZero, present, ha, if_true, one_mul]
        exact hb.2
    · cases hq
  · unfold rampCons at hq
    split at hq
    · cases hq
    rename_i hs
    rw [Bool.not_eq_true] at hs
    unfold rowsAt at hq
    simp only [Bool.false_eq_true, if_false, List.mem_flatMap, List.mem_range'_1] at hq
    obtain ⟨t, ht, hq⟩ := hq
    split at hq
    · rename_i ha
      have ha' : ∀ t, u.active t = true := fun k => by rw [hact k, ← hact t]; exact ha
      obtain ⟨s, n, cls', hp, st, x, h⟩ := H t (by omega)
      have hle := h.le
      have hlt := h.lt
      have e : s + (t - s) = t := by omega
      have hd := unit_diff h ha' (by omega)
      have hr : (u.rampUp t ≠ none ∨ u.rampDown t ≠ none) →
          (∀ r, u.rampUp t = some r → lin y (pDiff u t) ≤ r * u.nom) ∧ (∀ r, u.rampDown t = some r → - r * u.nom ≤ lin y (pDiff u t)) := by
        intro hne
        have := unit_ramps (u := unitAt u s hp st) hext hcom h.feasible (h.ramps hs hne) (t - s) (by omega)
          (by by_cases h0 : s = 0
              · right; omega
              · left; simp [h0]) (ha' _)
        constructor
        · intro r hr
          have := this.1 r (by simp only [unitAt, e]; exact hr)
          rw [← hd]
          have e2 : (unitAt u s hp st).nom = u.nom := rfl
          rw [e2] at this
          linarith
        · intro r hr
          have := this.2 r (by simp only [unitAt, e]; exact hr)
          rw [← hd]
          have e2 : (unitAt u s hp st).nom = u.nom := rfl
          rw [e2] at this
          linarith
      have hz : rampStartRhs u false t = 0 := by simp [rampStartRhs]
      unfold rampRows at hq
      simp only [hext, hcom, Bool.not_false, Bool.and_self, if_true, Bool.false_eq_true, if_false, List.append_nil, hz, add_zero,
        List.mem_append] at hq
      rcases hq with hq | hq
      · cases hu : u.rampUp t with
        | none => simp [hu] at hq
        | some r =>
          simp only [hu, List.mem_singleton] at hq
          subst hq
          exact (hr (Or.inl (by simp [hu]))).1 r hu
      · cases hu : u.rampDown t with
        | none => simp [hu] at hq
        | some r =>
          simp only [hu, List.mem_singleton] at hq
          subst hq
          exact (hr (Or.inr (by simp [hu]))).2 r hu
    · cases hq

end units

/-! ## Storage -/

section storage

theorem cum_all {a : Nat → Bool} (h : ∀ t, a t = true) (t : Nat) : cumActive a t = t + 1 := by
  unfold cumActive
  rw [List.filter_eq_self.mpr (fun x _ => h x), List.length_range]

theorem previous_plain {a : Storage F} {n : Nat} {per : Nat → Nat} (hact : ∀ t, a.active t = true) (hc : a.cyclic = false) (t : Nat) :
    previous a ⟨n, false, per⟩ t = (if t = 0 then none else some (t - 1)) ∧ included a ⟨n, false, per⟩ t = decide (t ≠ 0) := by
  have hpp : perPeriod a ⟨n, false, per⟩ = false := by simp [perPeriod]
  have hi : includePrev a t = decide (t ≠ 0) := by
    unfold includePrev
    rw [hc, cum_all hact]
    cases t <;> simp
  refine ⟨?_, by unfold included; rw [hpp]; exact hi⟩
  unfold previous
  rw [hpp]
  simp only [Bool.false_eq_true, if_false]
  unfold prevLabel
  rw [hi]
  have hg : ∀ k, ffill (fun s => if a.active s = true then some s else none) k = some k := by
    intro k
    cases k <;> simp [ffill, hact]
  cases t with
  | zero => simp
  | succ t => simp [ffill, roll, hg]

theorem store_plain {a : Storage F} {n : Nat} {per : Nat → Nat} (hact : ∀ t, a.active t = true) (hc : a.cyclic = false)
    (x : EVar → F) : Feasible x (storeCons a ⟨n, false, per⟩) ↔ ∀ t < n,
      - x (.e t) - a.eh t * x (.p t) + (if t = 0 then 0 else a.keep t * x (.e (t - 1))) = if t = 0 then - a.initial else 0 := by
  unfold storeCons
  rw [feasible_flatMap]
  simp only [List.mem_range, hact, if_true]
  refine forall₂_congr (fun t ht => ?_)
  rw [(previous_plain hact hc t).1, (previous_plain hact hc t).2]
  cases t with
  | zero => simp [Feasible, Con.holds]; constructor <;> intro h <;> linear_combination h
  | succ t => simp [Feasible, Con.holds]; constructor <;> intro h <;> linear_combination h

theorem sunit_plain {a : StorUnit F} {n : Nat} {per : Nat → Nat} (hact : ∀ t, a.active t = true) (hc : a.cyclic = false)
    (x : SVar → F) : Feasible x (storageUnitCons a ⟨n, false, per⟩) ↔ ∀ t < n,
      - x (.soc t) + (-1 / a.effDispatch t * a.eh t) * x (.pDispatch t) + (a.effStore t * a.eh t) * x (.pStore t) +
        (if 0 < a.inflow t then - a.eh t * x (.spill t) else 0) + (if t = 0 then 0 else a.keep t * x (.soc (t - 1))) =
      - (a.inflow t * a.eh t) - if t = 0 then a.initial else 0 := by
  unfold storageUnitCons
  rw [feasible_flatMap]
  simp only [List.mem_range, hact, if_true]
  refine forall₂_congr (fun t ht => ?_)
  rw [(previous_plain (a := a.toStorage) hact hc t).1, (previous_plain (a := a.toStorage) hact hc t).2]
  unfold hasSpill
  cases t with
  | zero => by_cases hi : 0 < a.inflow 0 <;> simp [Feasible, Con.holds, hi, hact] <;> constructor <;> intro h <;> linear_combination h
  | succ t => by_cases hi : 0 < a.inflow (t + 1) <;> simp [Feasible, Con.holds, hi, hact] <;> constructor <;> intro h <;> linear_combination h

theorem store_rolls {a : Storage F} {len : Nat} {per : Nat → Nat} (hc : a.cyclic = false) (hact : ∀ t, a.active t = a.active 0)
    {y : EVar → F} (H : ∀ t < len, ∃ s n init per' x, s ≤ t ∧ t < s + n ∧
      Feasible x (storeCons (Rolling.shiftTo a s init) ⟨n, false, per'⟩) ∧
      (∀ k, s ≤ k → k ≤ t → y (.e k) = x (.e (k - s)) ∧ y (.p k) = x (.p (k - s))) ∧ (s = 0 → init = a.initial) ∧
      (0 < s → init = y (.e (s - 1)) ∧ a.keep s = 1)) : Feasible y (storeCons a ⟨len, false, per⟩) := by
  by_cases h0 : a.active 0 = true
  · have ha : ∀ t, a.active t = true := fun t => by rw [hact t]; exact h0
    rw [store_plain ha hc]
    intro t ht
    obtain ⟨s, n, init, per', x, h1, h2, h3, h4, h5, h6⟩ := H t ht
    have ha' : ∀ k, (Rolling.shiftTo a s init).active k = true := fun k => ha _
    have h := (store_plain (a := Rolling.shiftTo a s init) ha' hc x).mp h3 (t - s) (by omega)
    have e : s + (t - s) = t := by omega
    simp only [Rolling.shiftTo, e] at h
    rw [← (h4 t h1 le_rfl).1, ← (h4 t h1 le_rfl).2] at h
    by_cases hts : t = s
    · subst hts
      simp only [Nat.sub_self, if_true] at h
      by_cases hz : t = 0
      · rw [h5 hz] at h
        simp only [hz, if_true] at h ⊢
        exact h
      · obtain ⟨h7, h8⟩ := h6 (by omega)
        rw [if_neg hz, if_neg hz, h8, ← h7]
        linear_combination h
    · rw [if_neg (by omega), if_neg (by omega)] at h
      rw [if_neg (by omega), if_neg (by omega), (h4 (t - 1) (by omega) (by omega)).1]
      have e2 : t - 1 - s = t - s - 1 := by omega
      rw [e2]
      exact h
  · intro q hq
    unfold storeCons at hq
    simp only [List.mem_flatMap] at hq
    obtain ⟨t, -, hq⟩ := hq
    rw [if_neg (by rw [hact t]; exact h0)] at hq
    cases hq

/-- A storage unit seen from a window. -/
def sunitShift (a : StorUnit F) (s : Nat) (init : F) : StorUnit F :=
  ⟨Rolling.shiftTo a.toStorage s init, fun t => a.effStore (s + t), fun t => a.effDispatch (s + t), fun t => a.inflow (s + t)⟩

theorem sunit_rolls {a : StorUnit F} {len : Nat} {per : Nat → Nat} (hc : a.cyclic = false) (hact : ∀ t, a.active t = a.active 0)
    {y : SVar → F} (H : ∀ t < len, ∃ s n init per' x, s ≤ t ∧ t < s + n ∧
      Feasible x (storageUnitCons (sunitShift a s init) ⟨n, false, per'⟩) ∧
      (∀ k, s ≤ k → k ≤ t → y (.soc k) = x (.soc (k - s)) ∧ y (.pDispatch k) = x (.pDispatch (k - s)) ∧
        y (.pStore k) = x (.pStore (k - s)) ∧ y (.spill k) = x (.spill (k - s))) ∧ (s = 0 → init = a.initial) ∧
      (0 < s → init = y (.soc (s - 1)) ∧ a.keep s = 1)) : Feasible y (storageUnitCons a ⟨len, false, per⟩) := by
  by_cases h0 : a.active 0 = true
  · have ha : ∀ t, a.active t = true := fun t => by rw [hact t]; exact h0
    rw [sunit_plain ha hc]
    intro t ht
    obtain ⟨s, n, init, per', x, h1, h2, h3, h4, h5, h6⟩ := H t ht
    have ha' : ∀ k, (sunitShift a s init).active k = true := fun k => ha _
    have h := (sunit_plain (a := sunitShift a s init) ha' hc x).mp h3 (t - s) (by omega)
    have e : s + (t - s) = t := by omega
    simp only [sunitShift, Rolling.shiftTo, e] at h
    obtain ⟨g1, g2, g3, g4⟩ := h4 t h1 le_rfl
    rw [← g1, ← g2, ← g3, ← g4] at h
    by_cases hts : t = s
    · subst hts
      simp only [Nat.sub_self, if_true] at h
      by_cases hz : t = 0
      · rw [h5 hz] at h
        simp only [hz, if_true] at h ⊢
        exact h
      · obtain ⟨h7, h8⟩ := h6 (by omega)
        rw [if_neg hz, if_neg hz, h8, ← h7]
        linear_combination h
    · rw [if_neg (show ¬ (t - s = 0) by omega), if_neg (show ¬ (t - s = 0) by omega)] at h
      rw [if_neg (show ¬ t = 0 by omega), if_neg (show ¬ t = 0 by omega), (h4 (t - 1) (by omega) (by omega)).1]
      have e2 : t - 1 - s = t - s - 1 := by omega
      rw [e2]
      exact h
  · intro q hq
    unfold storageUnitCons at hq
    simp only [List.mem_flatMap] at hq
    obtain ⟨t, -, hq⟩ := hq
    rw [if_neg (by rw [hact t]; exact h0)] at hq
    cases hq

end storage

/-! ## Losses -/

theorem mem_lossRows {w : WNet F} {b : BranchW F} {rs : List (Con Loc F)} (h : lossRows w b = some rs) (q : Con Loc F) :
    q ∈ rs ↔ w.tangents ≠ 0 ∧ ∃ t < w.len, ∃ r, lossCons (branchLoss b t) w.tangents = .ok r ∧ ∃ c ∈ r, q = remap (lossLoc t) c := by
  unfold lossRows at h
  split at h
  · cases h
    rename_i h0
    simp [h0]
  · rename_i h0
    obtain ⟨ls, hls, rfl⟩ := Option.map_eq_some_iff.mp h
    have hm := mapM_some_eq _ _ ls hls
    have key : ∀ l, l ∈ ls ↔ ∃ t < w.len, ∃ r, lossCons (branchLoss b t) w.tangents = .ok r ∧ l = r.map (remap (lossLoc t)) := by
      intro l
      have e1 : l ∈ ls ↔ some l ∈ ls.map some := by simp
      rw [e1, ← hm, List.mem_map]
      simp only [List.mem_range]
      refine exists_congr (fun t => and_congr_right (fun _ => ?_))
      cases lossCons (branchLoss b t) w.tangents with
      | error e => simp [Except.toOption]
      | ok r => simp [Except.toOption, eq_comm]
    rw [List.mem_flatten]
    constructor
    · rintro ⟨l, hl, hq⟩
      obtain ⟨t, ht, r, hr, rfl⟩ := (key l).mp hl
      obtain ⟨c, hc, rfl⟩ := List.mem_map.mp hq
      exact ⟨h0, t, ht, r, hr, c, hc, rfl⟩
    · rintro ⟨-, t, ht, r, hr, c, hc, rfl⟩
      exact ⟨_, (key _).mpr ⟨t, ht, r, hr, rfl⟩, List.mem_map_of_mem hc⟩

theorem lossLoc_at (v : LVar) : ∃ n, ∀ k, lossLoc k v = .op n k := by
  cases v
  · exact ⟨"loss", fun _ => rfl⟩
  · exact ⟨"s", fun _ => rfl⟩

/-! ## All assets -/

/-- What holds in a feasible problem, with the rows. -/
theorem held {w : WNet F} {other : List (Con WVar F)} {P : Program F} (hP : createModel w other = some P) {x : WVar → F}
    (hx : Feasible x P.rows) :
    (∀ g ∈ w.gens, ∃ rs, genRows w g = some rs ∧ ∀ q ∈ rs, q.holds (fun v => x (.of "Generator" g.name v))) ∧
    (∀ g ∈ w.links, ∃ rs, linkRows w g = some rs ∧ ∀ q ∈ rs, q.holds (fun v => x (.of "Link" g.name v))) ∧
    (∀ g ∈ w.stores, ∃ rs, storeRows w g = some rs ∧ ∀ q ∈ rs, q.holds (fun v => x (.of "Store" g.name v))) ∧
    (∀ g ∈ w.units, ∃ rs, sunitRows w g = some rs ∧ ∀ q ∈ rs, q.holds (fun v => x (.of "StorageUnit" g.name v))) ∧
    (∀ g ∈ w.lines, ∃ rs, branchRows w .line g = some rs ∧ ∀ q ∈ rs, q.holds (fun v => x (.of "Line" g.name v))) ∧
    (∀ g ∈ w.trafos, ∃ rs, branchRows w .transformer g = some rs ∧ ∀ q ∈ rs, q.holds (fun v => x (.of "Transformer" g.name v))) := by
  obtain ⟨own, bal, o, h1, -, -, -, -, -, h6⟩ := createModel_parts hP
  rw [h6, feasible_append] at hx
  obtain ⟨m1, m2, m3, m4, m5, m6⟩ := ownRows_mem h1
  have key : ∀ (c n : Name) (rs : List (Con Loc F)), (∀ q ∈ rs, remap (WVar.of c n) q ∈ own) → ∀ q ∈ rs, q.holds (fun v => x (.of c n v)) :=
    fun c n rs h q hq => (holds_remap _ _ _).mp (hx.1 _ (h q hq))
  exact ⟨fun g hg => (m1 g hg).imp (fun rs h => ⟨h.1, key _ _ rs h.2⟩), fun g hg => (m2 g hg).imp (fun rs h => ⟨h.1, key _ _ rs h.2⟩),
    fun g hg => (m3 g hg).imp (fun rs h => ⟨h.1, key _ _ rs h.2⟩), fun g hg => (m4 g hg).imp (fun rs h => ⟨h.1, key _ _ rs h.2⟩),
    fun g hg => (m5 g hg).imp (fun rs h => ⟨h.1, key _ _ rs h.2⟩), fun g hg => (m6 g hg).imp (fun rs h => ⟨h.1, key _ _ rs h.2⟩)⟩

/-- Ramp limits are the same kind in all windows: none at all, at every snapshot some limit other than 1, or all 1. -/
def RampsUniform (us : List (Unit' F)) (len : Nat) : Prop :=
  (∀ u ∈ us, ∀ t < len, u.rampUp t = none ∧ u.rampDown t = none) ∨
  (∀ t < len, (∃ u ∈ us, u.rampUp t ≠ none ∨ u.rampDown t ≠ none) ∧ ∃ u ∈ us, u.rampUp t ≠ some 1 ∨ u.rampDown t ≠ some 1) ∨
  (∀ u ∈ us, ∀ t < len, u.rampUp t = some 1 ∧ u.rampDown t = some 1)

/-- A unit of fixed capacity without commitment, in service all the time or never. -/
structure FixedUnit (u : Unit' F) : Prop where
  ext : u.extendable = false
  com : u.committable = false
  active : ∀ t, u.active t = u.active 0

/-- A network for which rolling and whole horizon agree on what is feasible: capacities are fixed, units are not committed, storage is not
cyclic and loses nothing at the first snapshot of a window, no sums over snapshots are limited. -/
structure PlainNet (w : WNet F) (step : Nat) : Prop where
  multi : w.multi = false
  rolling : w.rolling = false
  gens : ∀ g ∈ w.gens, FixedUnit g.unit ∧ g.eSumMin = none ∧ g.eSumMax = none
  links : ∀ g ∈ w.links, FixedUnit g.unit
  stores : ∀ g ∈ w.stores, g.ext = false ∧ g.storage.cyclic = false ∧ (∀ t, g.storage.active t = g.storage.active 0) ∧
    ∀ t, 0 < t → t % step = 0 → g.storage.keep t = 1
  units : ∀ g ∈ w.units, g.ext = false ∧ g.storage.cyclic = false ∧ (∀ t, g.storage.active t = g.storage.active 0) ∧
    ∀ t, 0 < t → t % step = 0 → g.storage.keep t = 1
  lines : ∀ g ∈ w.lines, g.ext = false
  trafos : ∀ g ∈ w.trafos, g.ext = false
  genRamps : RampsUniform (w.gens.map (·.unit)) w.len
  linkRamps : RampsUniform (w.links.map (·.unit)) w.len

omit [Field F] [LinearOrder F] in
theorem skip_window [Field F] [LinearOrder F] {us us' : List (Unit' F)} {len s n t : Nat} (h : RampsUniform us len) (hs : rampSkip us len = false)
    (hsn : s ≤ t) (htn : t < s + n) (htl : t < len)
    (hus : ∀ u ∈ us, ∃ u' ∈ us', ∀ k, u'.rampUp k = u.rampUp (s + k) ∧ u'.rampDown k = u.rampDown (s + k))
    {u : Unit' F} (hu : u ∈ us) (hne : u.rampUp t ≠ none ∨ u.rampDown t ≠ none) : rampSkip us' n = false := by
  have e : s + (t - s) = t := by omega
  rcases h with h | h | h
  · obtain ⟨h1, h2⟩ := h u hu t htl
    rcases hne with hne | hne <;> contradiction
  · obtain ⟨⟨a, ha, h1⟩, b, hb, h2⟩ := h t htl
    obtain ⟨a', ha', k1⟩ := hus a ha
    obtain ⟨b', hb', k2⟩ := hus b hb
    refine not_skip ⟨⟨a', ha', t - s, by omega, ?_⟩, b', hb', t - s, by omega, ?_⟩
    · rw [(k1 _).1, (k1 _).2, e]; exact h1
    · rw [(k2 _).1, (k2 _).2, e]; exact h2
  · have : rampSkip us len = true := by
      unfold rampSkip
      rw [Bool.or_eq_true]
      right
      rw [List.all_eq_true]
      intro u hu
      rw [List.all_eq_true]
      intro t ht
      simp only [decide_eq_true_eq]
      exact h u hu t (List.mem_range.mp ht)
    rw [this] at hs
    cases hs

theorem capRows_fixed {name : Name} {i : Invest F} {cap : List (Con Loc F)} (h : capRows name false i = some cap) : cap = [] := by
  have hn : i.nomSet = none := by
    unfold capRows Capacity.capacityCons Capacity.fixedNominalCons at h
    cases hs : i.nomSet with
    | none => rfl
    | some x => simp [capAsset, hs, Except.toOption] at h
  rw [List.eq_nil_iff_forall_not_mem]
  intro q hq
  rcases mem_capRows h q hq with ⟨h, -⟩ | ⟨h, -⟩ | ⟨x, hx, -⟩ | ⟨h, -⟩
  · cases h
  · cases h
  · rw [hn] at hx; cases hx
  · cases h

section main
variable [IsStrictOrderedRing F]

theorem gens_roll {w : WNet F} {step : Nat} (hp : PlainNet w step) {rows : Nat → List (Con (Name × Name × Name) F)} {R' : WVar → F}
    (H : ∀ t < w.len, ∃ s n first R P x, Part w rows step R' t s n first R P x) (g : GenW F) (hg : g ∈ w.gens) (rs : List (Con Loc F))
    (hrs : genRows w g = some rs) (q : Con Loc F) (hq : q ∈ rs) : q.holds (fun v => R' (.of "Generator" g.name v)) := by
  obtain ⟨hf, hmin, hmax⟩ := hp.gens g hg
  have hrs0 := hrs
  obtain ⟨cap, hcap, rfl⟩ := Option.map_eq_some_iff.mp hrs
  have hw : ∀ t < w.len, ∃ s n first R P x, Part w rows step R' t s n first R P x ∧
      ∃ rs', genRows (windowNet w R first s n) (genAt R s g) = some rs' ∧ ∀ q ∈ rs', q.holds (fun v => x (.of "Generator" g.name v)) := by
    intro t ht
    obtain ⟨s, n, first, R, P, x, hpart⟩ := H t ht
    exact ⟨s, n, first, R, P, x, hpart, (held hpart.model hpart.feasible.1).1 (genAt R s g) (List.mem_map_of_mem hg)⟩
  rw [hf.ext] at hcap
  have hc0 := capRows_fixed hcap
  simp only [hmin, hmax, hc0, List.nil_append, List.mem_append] at hq
  rcases hq with ((hq | hq) | hq) | hq
  · obtain ⟨c, hc, rfl⟩ := List.mem_map.mp hq
    rw [holds_remap]
    rw [hp.rolling] at hc
    refine unit_rolls hf.ext hf.com hf.active ?_ c hc
    intro t ht
    obtain ⟨s, n, first, R, P, x, hpart, rs', hr', hh⟩ := hw t ht
    obtain ⟨cap', hcap', rfl⟩ := Option.map_eq_some_iff.mp hr'
    refine ⟨s, n, (windowNet w R first s n).gens.map (·.unit), R (.of "Generator" g.name (.op "p" (s - 1))),
      (List.range s).map (fun t => R (.of "Generator" g.name (.op "status" t))), fun v => x (.of "Generator" g.name (unitLoc v)), hpart.le,
      hpart.lt, ?_, ?_, ?_, ?_⟩
    · intro r hr
      have := hh (remap unitLoc r) (by
        simp only [List.mem_append]
        exact Or.inl (Or.inl (Or.inl (Or.inr (List.mem_map_of_mem hr)))))
      rw [holds_remap] at this
      exact this
    · intro k h1 h2
      exact hpart.same k h1 h2 _ _ _
    · intro h0
      exact hpart.before h0 _ _ _
    · intro hs hne
      refine skip_window hp.genRamps hs hpart.le hpart.lt ht ?_ (List.mem_map_of_mem hg) hne
      intro u hu
      obtain ⟨g', hg', rfl⟩ := List.mem_map.mp hu
      exact ⟨(genAt R s g').unit, List.mem_map.mpr ⟨genAt R s g', List.mem_map_of_mem hg', rfl⟩, fun k => ⟨rfl, rfl⟩⟩
  · simp [commitRows, hf.com] at hq
  · refine setRows_rolls ?_ q hq
    intro t ht
    obtain ⟨s, n, first, R, P, x, hpart, rs', hr', hh⟩ := hw t ht
    obtain ⟨cap', hcap', rfl⟩ := Option.map_eq_some_iff.mp hr'
    refine ⟨s, n, fun v => x (.of "Generator" g.name v), hpart.le, hpart.lt, fun v => hpart.same t hpart.le le_rfl _ _ _, ?_⟩
    intro r hr
    exact hh r (by
      simp only [List.mem_append]
      exact Or.inl (Or.inr hr))
  · simp [Capacity.totalSupplyCons] at hq

theorem links_roll {w : WNet F} {step : Nat} (hp : PlainNet w step) {rows : Nat → List (Con (Name × Name × Name) F)} {R' : WVar → F}
    (H : ∀ t < w.len, ∃ s n first R P x, Part w rows step R' t s n first R P x) (g : LinkW F) (hg : g ∈ w.links) (rs : List (Con Loc F))
    (hrs : linkRows w g = some rs) (q : Con Loc F) (hq : q ∈ rs) : q.holds (fun v => R' (.of "Link" g.name v)) := by
  have hf := hp.links g hg
  obtain ⟨cap, hcap, rfl⟩ := Option.map_eq_some_iff.mp hrs
  have hw : ∀ t < w.len, ∃ s n first R P x, Part w rows step R' t s n first R P x ∧
      ∃ rs', linkRows (windowNet w R first s n) (linkAt R s g) = some rs' ∧ ∀ q ∈ rs', q.holds (fun v => x (.of "Link" g.name v)) := by
    intro t ht
    obtain ⟨s, n, first, R, P, x, hpart⟩ := H t ht
    exact ⟨s, n, first, R, P, x, hpart, (held hpart.model hpart.feasible.1).2.1 (linkAt R s g) (List.mem_map_of_mem hg)⟩
  rw [hf.ext] at hcap
  have hc0 := capRows_fixed hcap
  simp only [hc0, List.nil_append, List.mem_append] at hq
  rcases hq with (hq | hq) | hq
  · obtain ⟨c, hc, rfl⟩ := List.mem_map.mp hq
    rw [holds_remap]
    rw [hp.rolling] at hc
    refine unit_rolls hf.ext hf.com hf.active ?_ c hc
    intro t ht
    obtain ⟨s, n, first, R, P, x, hpart, rs', hr', hh⟩ := hw t ht
    obtain ⟨cap', hcap', rfl⟩ := Option.map_eq_some_iff.mp hr'
    refine ⟨s, n, (windowNet w R first s n).links.map (·.unit), R (.of "Link" g.name (.op "p" (s - 1))),
      (List.range s).map (fun t => R (.of "Link" g.name (.op "status" t))), fun v => x (.of "Link" g.name (unitLoc v)), hpart.le, hpart.lt,
      ?_, ?_, ?_, ?_⟩
    · intro r hr
      have := hh (remap unitLoc r) (by
        simp only [List.mem_append]
        exact Or.inl (Or.inl (Or.inr (List.mem_map_of_mem hr))))
      rw [holds_remap] at this
      exact this
    · intro k h1 h2
      exact hpart.same k h1 h2 _ _ _
    · intro h0
      exact hpart.before h0 _ _ _
    · intro hs hne
      refine skip_window hp.linkRamps hs hpart.le hpart.lt ht ?_ (List.mem_map_of_mem hg) hne
      intro u hu
      obtain ⟨g', hg', rfl⟩ := List.mem_map.mp hu
      exact ⟨(linkAt R s g').unit, List.mem_map.mpr ⟨linkAt R s g', List.mem_map_of_mem hg', rfl⟩, fun k => ⟨rfl, rfl⟩⟩
  · simp [commitRows, hf.com] at hq
  · refine setRows_rolls ?_ q hq
    intro t ht
    obtain ⟨s, n, first, R, P, x, hpart, rs', hr', hh⟩ := hw t ht
    obtain ⟨cap', hcap', rfl⟩ := Option.map_eq_some_iff.mp hr'
    refine ⟨s, n, fun v => x (.of "Link" g.name v), hpart.le, hpart.lt, fun v => hpart.same t hpart.le le_rfl _ _ _, ?_⟩
    intro r hr
    exact hh r (by
      simp only [List.mem_append]
      exact Or.inr hr)

theorem stores_roll {w : WNet F} {step : Nat} (hp : PlainNet w step) {rows : Nat → List (Con (Name × Name × Name) F)} {R' : WVar → F}
    (H : ∀ t < w.len, ∃ s n first R P x, Part w rows step R' t s n first R P x) (g : StoreW F) (hg : g ∈ w.stores) (rs : List (Con Loc F))
    (hrs : storeRows w g = some rs) (q : Con Loc F) (hq : q ∈ rs) : q.holds (fun v => R' (.of "Store" g.name v)) := by
  obtain ⟨hext, hcyc, hact, hkeep⟩ := hp.stores g hg
  obtain ⟨cap, hcap, rfl⟩ := Option.map_eq_some_iff.mp hrs
  have hw : ∀ t < w.len, ∃ s n first R P x, Part w rows step R' t s n first R P x ∧
      ∃ rs', storeRows (windowNet w R first s n) (storeAt R first s g) = some rs' ∧
        ∀ q ∈ rs', q.holds (fun v => x (.of "Store" g.name v)) := by
    intro t ht
    obtain ⟨s, n, first, R, P, x, hpart⟩ := H t ht
    exact ⟨s, n, first, R, P, x, hpart, (held hpart.model hpart.feasible.1).2.2.1 (storeAt R first s g) (List.mem_map_of_mem hg)⟩
  rw [hext] at hcap
  have hc0 := capRows_fixed hcap
  simp only [hc0, List.nil_append, List.mem_append] at hq
  rcases hq with (hq | hq) | hq
  · refine boundRows_rolls (fun _ => hext) ?_ q hq
    intro t ht
    obtain ⟨s, n, first, R, P, x, hpart, rs', hr', hh⟩ := hw t ht
    obtain ⟨cap', hcap', rfl⟩ := Option.map_eq_some_iff.mp hr'
    refine ⟨s, n, fun v => x (.of "Store" g.name v), hpart.le, hpart.lt, fun v => hpart.same t hpart.le le_rfl _ _ _, ?_⟩
    intro r hr
    exact hh r (by
      simp only [List.mem_append]
      exact Or.inl (Or.inl (Or.inr hr)))
  · refine setRows_rolls ?_ q hq
    intro t ht
    obtain ⟨s, n, first, R, P, x, hpart, rs', hr', hh⟩ := hw t ht
    obtain ⟨cap', hcap', rfl⟩ := Option.map_eq_some_iff.mp hr'
    refine ⟨s, n, fun v => x (.of "Store" g.name v), hpart.le, hpart.lt, fun v => hpart.same t hpart.le le_rfl _ _ _, ?_⟩
    intro r hr
    exact hh r (by
      simp only [List.mem_append]
      exact Or.inl (Or.inr hr))
  · obtain ⟨c, hc, rfl⟩ := List.mem_map.mp hq
    rw [holds_remap]
    rw [hp.multi] at hc
    refine store_rolls hcyc hact ?_ c hc
    intro t ht
    obtain ⟨s, n, first, R, P, x, hpart, rs', hr', hh⟩ := hw t ht
    obtain ⟨cap', hcap', rfl⟩ := Option.map_eq_some_iff.mp hr'
    refine ⟨s, n, Rolling.initialOf g.storage.initial (fun t => R (.of "Store" g.name (.op "e" t))) first s,
      fun t => w.period (s + t), fun v => x (.of "Store" g.name (storeLoc v)), hpart.le, hpart.lt, ?_, ?_, ?_, ?_⟩
    · intro r hr
      have := hh (remap storeLoc r) (by
        simp only [List.mem_append]
        refine Or.inr (List.mem_map_of_mem ?_)
        have e : (windowNet w R first s n).multi = false := hp.multi
        rw [e]
        exact hr)
      rw [holds_remap] at this
      exact this
    · intro k h1 h2
      exact ⟨hpart.same k h1 h2 _ _ _, hpart.same k h1 h2 _ _ _⟩
    · intro h0
      rw [hpart.isFirst.mpr h0]
      rfl
    · intro h0
      have hf : first = false := by
        rw [← Bool.not_eq_true, hpart.isFirst]
        omega
      subst hf
      exact ⟨hpart.before h0 _ _ _, hkeep s h0 hpart.mod⟩

theorem sunits_roll {w : WNet F} {step : Nat} (hp : PlainNet w step) {rows : Nat → List (Con (Name × Name × Name) F)} {R' : WVar → F}
    (H : ∀ t < w.len, ∃ s n first R P x, Part w rows step R' t s n first R P x) (g : UnitW F) (hg : g ∈ w.units) (rs : List (Con Loc F))
    (hrs : sunitRows w g = some rs) (q : Con Loc F) (hq : q ∈ rs) : q.holds (fun v => R' (.of "StorageUnit" g.name v)) := by
  obtain ⟨hext, hcyc, hact, hkeep⟩ := hp.units g hg
  obtain ⟨cap, hcap, rfl⟩ := Option.map_eq_some_iff.mp hrs
  have hw : ∀ t < w.len, ∃ s n first R P x, Part w rows step R' t s n first R P x ∧
      ∃ rs', sunitRows (windowNet w R first s n) (sunitAt R first s g) = some rs' ∧
        ∀ q ∈ rs', q.holds (fun v => x (.of "StorageUnit" g.name v)) := by
    intro t ht
    obtain ⟨s, n, first, R, P, x, hpart⟩ := H t ht
    exact ⟨s, n, first, R, P, x, hpart, (held hpart.model hpart.feasible.1).2.2.2.1 (sunitAt R first s g) (List.mem_map_of_mem hg)⟩
  rw [hext] at hcap
  have hc0 := capRows_fixed hcap
  simp only [hc0, List.nil_append, List.mem_append] at hq
  rcases hq with ((((hq | hq) | hq) | hq) | hq) | hq
  · refine boundRows_rolls (fun _ => hext) ?_ q hq
    intro t ht
    obtain ⟨s, n, first, R, P, x, hpart, rs', hr', hh⟩ := hw t ht
    obtain ⟨cap', hcap', rfl⟩ := Option.map_eq_some_iff.mp hr'
    refine ⟨s, n, fun v => x (.of "StorageUnit" g.name v), hpart.le, hpart.lt, fun v => hpart.same t hpart.le le_rfl _ _ _, ?_⟩
    intro r hr
    exact hh r (by
      simp only [List.mem_append]
      exact Or.inl (Or.inl (Or.inl (Or.inl (Or.inl (Or.inr hr))))))
  · refine boundRows_rolls (fun _ => hext) ?_ q hq
    intro t ht
    obtain ⟨s, n, first, R, P, x, hpart, rs', hr', hh⟩ := hw t ht
    obtain ⟨cap', hcap', rfl⟩ := Option.map_eq_some_iff.mp hr'
    refine ⟨s, n, fun v => x (.of "StorageUnit" g.name v), hpart.le, hpart.lt, fun v => hpart.same t hpart.le le_rfl _ _ _, ?_⟩
    intro r hr
    exact hh r (by
      simp only [List.mem_append]
      exact Or.inl (Or.inl (Or.inl (Or.inl (Or.inr hr)))))
  · refine boundRows_rolls (fun _ => hext) ?_ q hq
    intro t ht
    obtain ⟨s, n, first, R, P, x, hpart, rs', hr', hh⟩ := hw t ht
    obtain ⟨cap', hcap', rfl⟩ := Option.map_eq_some_iff.mp hr'
    refine ⟨s, n, fun v => x (.of "StorageUnit" g.name v), hpart.le, hpart.lt, fun v => hpart.same t hpart.le le_rfl _ _ _, ?_⟩
    intro r hr
    exact hh r (by
      simp only [List.mem_append]
      exact Or.inl (Or.inl (Or.inl (Or.inr hr))))
  · refine setRows_rolls ?_ q hq
    intro t ht
    obtain ⟨s, n, first, R, P, x, hpart, rs', hr', hh⟩ := hw t ht
    obtain ⟨cap', hcap', rfl⟩ := Option.map_eq_some_iff.mp hr'
    refine ⟨s, n, fun v => x (.of "StorageUnit" g.name v), hpart.le, hpart.lt, fun v => hpart.same t hpart.le le_rfl _ _ _, ?_⟩
    intro r hr
    exact hh r (by
      simp only [List.mem_append]
      exact Or.inl (Or.inl (Or.inr hr)))
  · obtain ⟨c, hc, rfl⟩ := List.mem_map.mp hq
    rw [holds_remap]
    rw [hp.multi] at hc
    refine sunit_rolls hcyc hact ?_ c hc
    intro t ht
    obtain ⟨s, n, first, R, P, x, hpart, rs', hr', hh⟩ := hw t ht
    obtain ⟨cap', hcap', rfl⟩ := Option.map_eq_some_iff.mp hr'
    refine ⟨s, n, Rolling.initialOf g.storage.initial (fun t => R (.of "StorageUnit" g.name (.op "state_of_charge" t))) first s,
      fun t => w.period (s + t), fun v => x (.of "StorageUnit" g.name (sunitLoc v)), hpart.le, hpart.lt, ?_, ?_, ?_, ?_⟩
    · intro r hr
      have := hh (remap sunitLoc r) (by
        simp only [List.mem_append]
        refine Or.inl (Or.inr (List.mem_map_of_mem ?_))
        have e : (windowNet w R first s n).multi = false := hp.multi
        rw [e]
        exact hr)
      rw [holds_remap] at this
      exact this
    · intro k h1 h2
      exact ⟨hpart.same k h1 h2 _ _ _, hpart.same k h1 h2 _ _ _, hpart.same k h1 h2 _ _ _, hpart.same k h1 h2 _ _ _⟩
    · intro h0
      rw [hpart.isFirst.mpr h0]
      rfl
    · intro h0
      have hf : first = false := by
        rw [← Bool.not_eq_true, hpart.isFirst]
        omega
      subst hf
      exact ⟨hpart.before h0 _ _ _, hkeep s h0 hpart.mod⟩
  · simp only [List.mem_flatMap, List.mem_range] at hq
    obtain ⟨t, ht, hq⟩ := hq
    obtain ⟨s, n, first, R, P, x, hpart, rs', hr', hh⟩ := hw t ht
    obtain ⟨cap', hcap', rfl⟩ := Option.map_eq_some_iff.mp hr'
    have hle := hpart.le
    have hlt := hpart.lt
    have e : s + (t - s) = t := by omega
    split at hq
    · rename_i hsp
      have hm : ∀ r ∈ ([⟨[(1, .op "spill" (t - s))], .ge, 0⟩, ⟨[(1, .op "spill" (t - s))], .le, g.storage.inflow t⟩] : List (Con Loc F)),
          r.holds (fun v => x (.of "StorageUnit" g.name v)) := by
        intro r hr
        refine hh r ?_
        simp only [List.mem_append]
        refine Or.inr (List.mem_flatMap.mpr ⟨t - s, List.mem_range.mpr (by change t - s < n; omega), ?_⟩)
        rw [if_pos (by unfold hasSpill sunitAt Rolling.shiftTo at *; simp only [e]; exact hsp)]
        simp only [sunitAt, e]
        exact hr
      have h1 := hm _ List.mem_cons_self
      have h2 := hm _ (List.mem_cons_of_mem _ List.mem_cons_self)
      simp only [Con.holds, lin_cons, lin_nil] at h1 h2
      simp only [List.mem_cons, List.not_mem_nil, or_false] at hq
      rcases hq with rfl | rfl <;> simp only [Con.holds, lin_cons, lin_nil] <;> rw [hpart.same t hle le_rfl]
      · exact h1
      · exact h2
    · cases hq

theorem branch_roll {w : WNet F} {step : Nat} {cls : Accessor.Cls} {c : Name} {g : BranchW F} (hext : g.ext = false)
    {rows : Nat → List (Con (Name × Name × Name) F)} {R' : WVar → F}
    (hw : ∀ t < w.len, ∃ s n first R P x, Part w rows step R' t s n first R P x ∧
      ∃ rs', branchRows (windowNet w R first s n) cls (branchAt s g) = some rs' ∧
        ∀ q ∈ rs', q.holds (fun v => x (.of c g.name v))) (rs : List (Con Loc F))
    (hrs : branchRows w cls g = some rs) (q : Con Loc F) (hq : q ∈ rs) : q.holds (fun v => R' (.of c g.name v)) := by
  unfold branchRows at hrs
  obtain ⟨cap, hcap, hrs⟩ := Option.bind_eq_some_iff.mp hrs
  obtain ⟨loss, hloss, rfl⟩ := Option.map_eq_some_iff.mp hrs
  have hw' : ∀ t < w.len, ∃ s n first R P x, Part w rows step R' t s n first R P x ∧
      ∃ loss', lossRows (windowNet w R first s n) (branchAt s g) = some loss' ∧
        (∀ q ∈ boundRows n cls .s "s" (w.tangents != 0) (fun k => branchBound g (s + k)), q.holds (fun v => x (.of c g.name v))) ∧
        (∀ q ∈ setRows n "s" (fun k => g.active (s + k)) (fun k => g.sSet (s + k)), q.holds (fun v => x (.of c g.name v))) ∧
        (∀ q ∈ loss', q.holds (fun v => x (.of c g.name v))) := by
    intro t ht
    obtain ⟨s, n, first, R, P, x, hpart, rs', hr', hh⟩ := hw t ht
    unfold branchRows at hr'
    obtain ⟨cap', hcap', hr'⟩ := Option.bind_eq_some_iff.mp hr'
    obtain ⟨loss', hloss', rfl⟩ := Option.map_eq_some_iff.mp hr'
    refine ⟨s, n, first, R, P, x, hpart, loss', hloss', ?_, ?_, ?_⟩ <;> intro q hq <;> refine hh q ?_ <;> simp only [List.mem_append]
    · exact Or.inl (Or.inl (Or.inr hq))
    · exact Or.inl (Or.inr hq)
    · exact Or.inr hq
  rw [hext] at hcap
  have hc0 := capRows_fixed hcap
  simp only [hc0, List.nil_append, List.mem_append] at hq
  rcases hq with (hq | hq) | hq
  · refine boundRows_rolls (fun _ => hext) ?_ q hq
    intro t ht
    obtain ⟨s, n, first, R, P, x, hpart, loss', -, h1, -, -⟩ := hw' t ht
    exact ⟨s, n, fun v => x (.of c g.name v), hpart.le, hpart.lt, fun v => hpart.same t hpart.le le_rfl _ _ _, h1⟩
  · refine setRows_rolls ?_ q hq
    intro t ht
    obtain ⟨s, n, first, R, P, x, hpart, loss', -, -, h1, -⟩ := hw' t ht
    exact ⟨s, n, fun v => x (.of c g.name v), hpart.le, hpart.lt, fun v => hpart.same t hpart.le le_rfl _ _ _, h1⟩
  · obtain ⟨h0, t, ht, r, hr, cc, hcc, rfl⟩ := (mem_lossRows hloss q).mp hq
    obtain ⟨s, n, first, R, P, x, hpart, loss', hl', -, -, h1⟩ := hw' t ht
    have hle := hpart.le
    have hlt := hpart.lt
    have e : s + (t - s) = t := by omega
    refine snap_row (s := s) (x := fun v => x (.of c g.name v)) (fun e _ => lossLoc_at e.2) (fun v => hpart.same t hle le_rfl _ _ _) (h1 _ ?_)
    rw [mem_lossRows hl']
    refine ⟨h0, t - s, by change t - s < n; omega, r, ?_, cc, hcc, rfl⟩
    have : branchLoss (branchAt s g) (t - s) = branchLoss g t := by simp only [branchLoss, branchAt, e]
    rw [this]
    exact hr

/-! ## Balance and further rows -/

theorem window_nodal (w : WNet F) (R : WVar → F) (first : Bool) (s n k : Nat) : nodal (windowNet w R first s n) k = nodal w (s + k) := by
  unfold nodal windowNet
  simp only [List.map_map, Function.comp_def, genAt, linkAt, storeAt, sunitAt, branchAt, loadAt, unitOf, unitAt, Rolling.shiftTo]

theorem window_sound {w : WNet F} (hw : Sound w) (R : WVar → F) (first : Bool) (s n : Nat) : Sound (windowNet w R first s n) := by
  refine ⟨hw.noEmpty, hw.buses, ?_, ?_, ?_, ?_, ?_, ?_, ?_, ?_, ?_, ?_, ?_, ?_, ?_⟩
  · intro g hg
    obtain ⟨g, h, rfl⟩ := List.mem_map.mp hg
    exact hw.genBus g h
  · intro g hg
    obtain ⟨g, h, rfl⟩ := List.mem_map.mp hg
    exact hw.storeBus g h
  · intro g hg
    obtain ⟨g, h, rfl⟩ := List.mem_map.mp hg
    exact hw.unitBus g h
  · intro g hg
    obtain ⟨g, h, rfl⟩ := List.mem_map.mp hg
    exact hw.loadBus g h
  · intro g hg
    obtain ⟨g, h, rfl⟩ := List.mem_map.mp hg
    exact hw.lineBus g h
  · intro g hg
    obtain ⟨g, h, rfl⟩ := List.mem_map.mp hg
    exact hw.trafoBus g h
  · intro g hg
    obtain ⟨g, h, rfl⟩ := List.mem_map.mp hg
    refine ⟨(hw.linkBus g h).1, (hw.linkBus g h).2.1, fun e he => ?_⟩
    obtain ⟨e', he', rfl⟩ := List.mem_map.mp he
    exact (hw.linkBus g h).2.2 e' he'
  · change ((w.gens.map _).map _).Nodup; rw [List.map_map]; exact hw.gens
  · change ((w.links.map _).map _).Nodup; rw [List.map_map]; exact hw.links
  · change ((w.stores.map _).map _).Nodup; rw [List.map_map]; exact hw.stores
  · change ((w.units.map _).map _).Nodup; rw [List.map_map]; exact hw.units
  · change ((w.lines.map _).map _).Nodup; rw [List.map_map]; exact hw.lines
  · change ((w.trafos.map _).map _).Nodup; rw [List.map_map]; exact hw.trafos

theorem balance_rolls {w : WNet F} (hw : Sound w) {step : Nat} {rows : Nat → List (Con (Name × Name × Name) F)} {R' : WVar → F}
    (H : ∀ t < w.len, ∃ s n first R P x, Part w rows step R' t s n first R P x) : Balance w R' := by
  intro t ht b hb
  obtain ⟨s, n, first, R, P, x, hpart⟩ := H t ht
  have hle := hpart.le
  have hlt := hpart.lt
  have e : s + (t - s) = t := by omega
  have h := ((feasible_iff (window_sound hw R first s n) hpart.model x).mp hpart.feasible).2.1 (t - s) (by change t - s < n; omega) b hb
  rw [window_nodal, e] at h
  have hv : (fun v => R' (nodalVar t v)) = fun v => x (nodalVar (t - s) v) := by
    funext v
    cases v <;> exact hpart.same t hle le_rfl _ _ _
  rw [hv]
  exact h

theorem mem_otherRows {rows : Nat → List (Con (Name × Name × Name) F)} {s n : Nat} {q : Con WVar F} :
    q ∈ otherRows rows s n ↔ ∃ t < n, ∃ r ∈ rows (s + t), q = remap (fun v => .of v.1 v.2.1 (.op v.2.2 t)) r := by
  unfold otherRows
  simp only [List.mem_flatMap, List.mem_range, List.mem_map, eq_comm]

theorem other_rolls {w : WNet F} (hw : Sound w) {step : Nat} {rows : Nat → List (Con (Name × Name × Name) F)} {R' : WVar → F}
    (H : ∀ t < w.len, ∃ s n first R P x, Part w rows step R' t s n first R P x) : Feasible R' (otherRows rows 0 w.len) := by
  intro q hq
  obtain ⟨t, ht, r, hr, rfl⟩ := mem_otherRows.mp hq
  rw [Nat.zero_add] at hr
  obtain ⟨s, n, first, R, P, x, hpart⟩ := H t ht
  have hle := hpart.le
  have hlt := hpart.lt
  have e : s + (t - s) = t := by omega
  have h := ((feasible_iff (window_sound hw R first s n) hpart.model x).mp hpart.feasible).2.2.2 _
    (mem_otherRows.mpr ⟨t - s, by omega, r, by rw [e]; exact hr, rfl⟩)
  rw [holds_remap] at h ⊢
  have hv : (fun v : Name × Name × Name => R' (.of v.1 v.2.1 (.op v.2.2 t))) = fun v => x (.of v.1 v.2.1 (.op v.2.2 (t - s))) := by
    funext v
    exact hpart.same t hle le_rfl _ _ _
  rw [hv]
  exact h

/-- C116: what a rolling horizon records, from overlapping windows or not, is an operation that the problem of the whole horizon
allows: limits, ramps, set points and energy balances of all assets hold, power is balanced at all buses, and so do further rows
that concern one snapshot each.  Missing: capacities to be optimised (`capacity_of_last_window`), commitment, storage that is cyclic
or loses energy at the first snapshot of a window (`Rolling.cyclic_per_window`, `Rolling.standing_loss_skipped`), sums over snapshots. -/
theorem rolling_feasible_partial {w : WNet F} (hw : Sound w) {horizon overlap : Nat} (ho : overlap < horizon)
    (hp : PlainNet w (horizon - overlap)) {rows : Nat → List (Con (Name × Name × Name) F)}
    {ws : List (Nat × Nat)} (hws : Rolling.windows w.len horizon overlap = .ok ws) {R₀ R' : WVar → F}
    (hrun : Rolled w rows ws true R₀ R') : AssetsHold w R' ∧ Balance w R' ∧ Feasible R' (otherRows rows 0 w.len) := by
  have H := fun t ht => part_exists ho hws hrun t ht
  refine ⟨⟨gens_roll hp H, links_roll hp H, stores_roll hp H, sunits_roll hp H, ?_, ?_⟩, balance_rolls hw H, other_rolls hw H⟩
  · intro g hg
    refine branch_roll (step := horizon - overlap) (rows := rows) (hp.lines g hg) (fun t ht => ?_)
    obtain ⟨s, n, first, R, P, x, hpart⟩ := H t ht
    exact ⟨s, n, first, R, P, x, hpart, (held hpart.model hpart.feasible.1).2.2.2.2.1 (branchAt s g) (List.mem_map_of_mem hg)⟩
  · intro g hg
    refine branch_roll (step := horizon - overlap) (rows := rows) (hp.trafos g hg) (fun t ht => ?_)
    obtain ⟨s, n, first, R, P, x, hpart⟩ := H t ht
    exact ⟨s, n, first, R, P, x, hpart, (held hpart.model hpart.feasible.1).2.2.2.2.2 (branchAt s g) (List.mem_map_of_mem hg)⟩

/-- The record, with the constant of the whole problem. -/
def withConst (c : F) (x : WVar → F) : WVar → F
  | .const => c
  | v => x v

/-- So a rolling horizon is never cheaper than the optimum of the whole horizon. -/
theorem rolling_not_cheaper_partial {w : WNet F} (hw : Sound w) (hl : LinearCosts w) {horizon overlap : Nat} (ho : overlap < horizon)
    (hp : PlainNet w (horizon - overlap)) {rows : Nat → List (Con (Name × Name × Name) F)}
    {ws : List (Nat × Nat)} (hws : Rolling.windows w.len horizon overlap = .ok ws) {R₀ R' : WVar → F}
    (hrun : Rolled w rows ws true R₀ R') {P : Program F} (hP : createModel w (otherRows rows 0 w.len) = some P) (x : WVar → F)
    (hx : Cheapest w P x) : totalCost w x ≤ totalCost w R' := by
  obtain ⟨h1, h2, h3⟩ := rolling_feasible_partial hw ho hp hws hrun
  have hy : FeasibleIn P (withConst (Objective.constant (objNet w)) R') := by
    refine (feasible_iff hw hP _).mpr ⟨⟨h1.gens, h1.links, h1.stores, h1.units, h1.lines, h1.trafos⟩, ?_, rfl, ?_⟩
    · intro t ht b hb
      have hv : (fun v => withConst (Objective.constant (objNet w)) R' (nodalVar t v)) = fun v => R' (nodalVar t v) := by
        funext v
        cases v <;> rfl
      rw [hv]
      exact h2 t ht b hb
    · intro q hq
      have h := h3 q hq
      obtain ⟨t, ht, r, hr, rfl⟩ := mem_otherRows.mp hq
      rw [holds_remap] at h ⊢
      exact h
  have h := hx.2 _ hy
  rw [cost_total hl hP x hx.1, cost_total hl hP _ hy] at h
  exact h

end main

/-! ## Costs of a window -/

section costs
variable {F : Type} [Field F] [LinearOrder F]

/-- Costs of running an asset. -/
def runs (active : Bool) (weight marginal quadratic p : F) : F := if active then weight * (marginal * p + quadratic * p ^ 2) else 0

/-- Costs of commitment. -/
def commits (active : Bool) (u : Unit' F) (weight standBy status up down : F) : F :=
  if active = true ∧ u.committable = true then weight * standBy * status + u.startUpCost * up + u.shutDownCost * down else 0

/-- What happens at one snapshot of the network costs this much. -/
def snapCost (w : WNet F) (x : WVar → F) (t : Nat) : F :=
  (w.gens.map (fun g => runs (g.unit.active t) (weight w t) (g.costs.marginal t) (g.costs.quadratic t) (x (.of "Generator" g.name (.op "p" t))) +
    commits (g.unit.active t) g.unit (weight w t) (g.costs.standBy t) (x (.of "Generator" g.name (.op "status" t)))
      (x (.of "Generator" g.name (.op "start_up" t))) (x (.of "Generator" g.name (.op "shut_down" t))))).sum +
  (w.links.map (fun g => runs (g.unit.active t) (weight w t) (g.costs.marginal t) (g.costs.quadratic t) (x (.of "Link" g.name (.op "p" t))) +
    commits (g.unit.active t) g.unit (weight w t) (g.costs.standBy t) (x (.of "Link" g.name (.op "status" t)))
      (x (.of "Link" g.name (.op "start_up" t))) (x (.of "Link" g.name (.op "shut_down" t))))).sum +
  (w.stores.map (fun g => runs (g.storage.active t) (weight w t) (g.costs.marginal t) (g.costs.quadratic t) (x (.of "Store" g.name (.op "p" t))) +
    if g.storage.active t then weight w t * g.costs.marginalStorage t * x (.of "Store" g.name (.op "e" t)) else 0)).sum +
  (w.units.map (fun g => runs (g.storage.active t) (weight w t) (g.costs.marginal t) (g.costs.quadratic t)
      (x (.of "StorageUnit" g.name (.op "p_dispatch" t))) +
    if g.storage.active t then weight w t * g.costs.marginalStorage t * x (.of "StorageUnit" g.name (.op "state_of_charge" t)) +
      (if 0 < g.storage.inflow t then weight w t * g.costs.spillCost t * x (.of "StorageUnit" g.name (.op "spill" t)) else 0) else 0)).sum

/-- Costs of the capacities. -/
def capitalCosts (w : WNet F) (x : WVar → F) : F :=
  (w.gens.map (fun g => if g.unit.extendable then lifeWeight w g.invest * g.invest.capitalCost * x (.of "Generator" g.name .cap) else 0)).sum +
  (w.links.map (fun g => if g.unit.extendable then lifeWeight w g.invest * g.invest.capitalCost * x (.of "Link" g.name .cap) else 0)).sum +
  (w.lines.map (fun g => if g.ext then lifeWeight w g.invest * g.invest.capitalCost * x (.of "Line" g.name .cap) else 0)).sum +
  (w.trafos.map (fun g => if g.ext then lifeWeight w g.invest * g.invest.capitalCost * x (.of "Transformer" g.name .cap) else 0)).sum +
  (w.stores.map (fun g => if g.ext then lifeWeight w g.invest * g.invest.capitalCost * x (.of "Store" g.name .cap) else 0)).sum +
  (w.units.map (fun g => if g.ext then lifeWeight w g.invest * g.invest.capitalCost * x (.of "StorageUnit" g.name .cap) else 0)).sum

theorem sum_snapshots {α : Type} (l : List α) (n : Nat) (f : α → Nat → F) :
    (l.map (fun a => ((List.range n).map (f a)).sum)).sum = ((List.range n).map (fun t => (l.map (fun a => f a t)).sum)).sum := by
  induction l with
  | nil => simp
  | cons a l ih =>
    simp only [List.map_cons, List.sum_cons, ih]
    rw [← List.sum_map_add]

theorem total_snapshots (w : WNet F) (c : Name) {α : Type} (l : List α) (mk : α → Objective.Asset F) (hl : (objNet w).assets c = l.map mk)
    (f : Objective.Asset F → Nat → F) (g : α → Nat → F) (h : ∀ a t, (if (mk a).active t then f (mk a) t else 0) = g a t) :
    Objective.total (objNet w) c f = ((List.range w.len).map (fun t => (l.map (fun a => g a t)).sum)).sum := by
  unfold Objective.total
  rw [hl, List.map_map, ← sum_snapshots]
  congr 1
  apply List.map_congr_left
  intro a _
  show ((List.range w.len).map _).sum = _
  congr 1
  apply List.map_congr_left
  intro t _
  exact h a t

/-- The system costs are the costs of all snapshots and those of the capacities. -/
theorem cost_snapshots (w : WNet F) (x : WVar → F) :
    Objective.systemCost (objNet w) (fun v => x (objVar v)) (weight w) =
      ((List.range w.len).map (snapCost w x)).sum + capitalCosts w x := by
  unfold Objective.systemCost
  rw [capital_all w _ _ _ w.gens genAsset (·.invest) (assets_gen w) (fun g => ⟨rfl, rfl, rfl⟩),
    capital_all w _ _ _ w.links linkAsset (·.invest) (assets_link w) (fun g => ⟨rfl, rfl, rfl⟩),
    capital_all w _ _ _ w.stores storeAsset (·.invest) (assets_store w) (fun g => ⟨rfl, rfl, rfl⟩),
    capital_all w _ _ _ w.units sunitAsset (·.invest) (assets_unit w) (fun g => ⟨rfl, rfl, rfl⟩),
    capital_all w _ _ _ w.lines branchAsset (·.invest) (assets_line w) (fun g => ⟨rfl, rfl, rfl⟩),
    capital_all w _ _ _ w.trafos branchAsset (·.invest) (assets_trafo w) (fun g => ⟨rfl, rfl, rfl⟩)]
  rw [total_snapshots w "Generator" w.gens genAsset (assets_gen w) _ (fun g t => runs (g.unit.active t) (weight w t) (g.costs.marginal t)
      (g.costs.quadratic t) (x (.of "Generator" g.name (.op "p" t))) +
      commits (g.unit.active t) g.unit (weight w t) (g.costs.standBy t) (x (.of "Generator" g.name (.op "status" t)))
        (x (.of "Generator" g.name (.op "start_up" t))) (x (.of "Generator" g.name (.op "shut_down" t)))) (fun a t => by
      by_cases ha : a.unit.active t = true <;> by_cases hc : a.unit.committable = true <;>
        simp [runs, commits, Objective.running, Objective.commitment, genAsset, objAsset, objVar, ha, hc]),
    total_snapshots w "Link" w.links linkAsset (assets_link w) _ (fun g t => runs (g.unit.active t) (weight w t) (g.costs.marginal t)
      (g.costs.quadratic t) (x (.of "Link" g.name (.op "p" t))) +
      commits (g.unit.active t) g.unit (weight w t) (g.costs.standBy t) (x (.of "Link" g.name (.op "status" t)))
        (x (.of "Link" g.name (.op "start_up" t))) (x (.of "Link" g.name (.op "shut_down" t)))) (fun a t => by
      by_cases ha : a.unit.active t = true <;> by_cases hc : a.unit.committable = true <;>
        simp [runs, commits, Objective.running, Objective.commitment, linkAsset, objAsset, objVar, ha, hc]),
    total_snapshots w "Store" w.stores storeAsset (assets_store w) _ (fun g t => runs (g.storage.active t) (weight w t) (g.costs.marginal t)
      (g.costs.quadratic t) (x (.of "Store" g.name (.op "p" t))) +
      if g.storage.active t then weight w t * g.costs.marginalStorage t * x (.of "Store" g.name (.op "e" t)) else 0) (fun a t => by
      by_cases ha : a.storage.active t = true <;>
        simp [runs, Objective.running, storeAsset, objAsset, objVar, ha]),
    total_snapshots w "StorageUnit" w.units sunitAsset (assets_unit w) _ (fun g t => runs (g.storage.active t) (weight w t) (g.costs.marginal t)
      (g.costs.quadratic t) (x (.of "StorageUnit" g.name (.op "p_dispatch" t))) +
      if g.storage.active t then weight w t * g.costs.marginalStorage t * x (.of "StorageUnit" g.name (.op "state_of_charge" t)) +
        (if 0 < g.storage.inflow t then weight w t * g.costs.spillCost t * x (.of "StorageUnit" g.name (.op "spill" t)) else 0) else 0)
      (fun a t => by
      by_cases ha : a.storage.active t = true <;>
        simp [runs, Objective.running, sunitAsset, objAsset, objVar, ha, add_assoc]
      rfl)]
  rw [← List.sum_map_add, ← List.sum_map_add, ← List.sum_map_add]
  have e : ∀ a b c d e f g : F, a + b + c + d + e + f + g = a + (b + c + d + e + f + g) := by
    intros
    ring
  rw [e]
  rfl

/-- The solver minimises, for a window, the costs of its snapshots as recorded, with the costs and weightings of these
snapshots; capacities count as in every window. -/
theorem window_costs (w : WNet F) (R : WVar → F) (first : Bool) (s n : Nat) (x : WVar → F) :
    Objective.systemCost (objNet (windowNet w R first s n)) (fun v => x (objVar v)) (weight (windowNet w R first s n)) =
      ((List.range n).map (fun t => snapCost w (recordAll s (s + n) x R) (s + t))).sum + capitalCosts w x := by
  rw [cost_snapshots]
  have hw : ∀ t, weight (windowNet w R first s n) t = weight w (s + t) := by
    intro t
    unfold weight windowNet
    cases w.periods <;> rfl
  have hlf : ∀ i, lifeWeight (windowNet w R first s n) i = lifeWeight w i := by
    intro i
    unfold lifeWeight windowNet
    cases w.periods <;> rfl
  have hr : ∀ t < n, ∀ c a v, recordAll s (s + n) x R (.of c a (.op v (s + t))) = x (.of c a (.op v t)) := by
    intro t ht c a v
    simp [recordAll, ht]
  congr 1
  · congr 1
    apply List.map_congr_left
    intro t ht
    have ht' : t < n := List.mem_range.mp ht
    unfold snapCost
    simp only [hw, hr t ht']
    simp only [windowNet, List.map_map, Function.comp_def, genAt, linkAt, storeAt, sunitAt, unitOf, unitAt, costsAt, Rolling.shiftTo, commits]
    rfl
  · unfold capitalCosts
    simp only [hlf]
    simp only [windowNet, List.map_map, Function.comp_def, genAt, linkAt, storeAt, sunitAt, branchAt, unitOf, unitAt]
    rfl

example : ((List.range 2).map (fun t => snapCost exNet exVal t)).sum + capitalCosts exNet exVal = totalCost exNet exVal := by
  rw [show 2 = exNet.len from rfl, ← cost_snapshots, system_total exLinear]

end costs

/-! ## Examples -/

def rollUnit (ramp : Option ℚ) (nom : ℚ) : Unit' ℚ :=
  { exUnit' false nom with maxPu := fun _ => 1, rampUp := fun _ => ramp, rampDown := fun _ => ramp }

def rollStorage (init : ℚ) : Storage ℚ := ⟨fun _ => true, false, false, false, init, fun _ => 1, fun _ => 1⟩

/-- Three snapshots, two buses. -/
def rollNet : WNet ℚ where
  len := 3
  multi := false
  period := fun _ => 0
  rolling := false
  linearized := false
  tangents := 0
  threshold := 45
  sw := fun _ => 1
  gw := fun _ => 1
  periods := none
  buses := ["A", "B"]
  gens := [⟨"g", "A", 1, rollUnit (some (1 / 5)) 10, exInvest 0, exCosts 1 0, fun _ => none, none, none⟩,
    ⟨"h", "B", 1, rollUnit none 10, exInvest 0, exCosts 3 0, fun _ => none, none, none⟩]
  links := [⟨"link", "A", "B", fun _ => 1 / 2, [], rollUnit none 2, exInvest 0, exCosts 0 0, fun t => if t = 1 then some 1 else none⟩]
  stores := [⟨"tank", "B", 1, rollStorage 2, false, 3, fun _ => 0, fun _ => 1, exInvest 0, exCosts 0 0, fun _ => none⟩]
  units := [⟨"battery", "A", 1, ⟨rollStorage 0, fun _ => 1 / 2, fun _ => 1, fun t => if t = 2 then 1 else 0⟩, false, 1, fun _ => -1,
    fun _ => 1, 3, exInvest 0, exCosts 0 0, fun _ => none⟩]
  lines := [⟨"line", "A", "B", fun _ => true, false, 4, fun _ => 1, 0, exInvest 0, fun _ => none⟩]
  trafos := []
  loads := [⟨"A", -1, fun _ => 2, fun _ => true⟩, ⟨"B", -1, fun _ => 4, fun _ => true⟩]

/-- At each snapshot the line may carry 7/2. -/
def rollOther (_ : Nat) : List (Con (Name × Name × Name) ℚ) := [⟨[(1, ("Line", "line", "s"))], .le, 7 / 2⟩]

def rollTable : List (WVar × ℚ) :=
  [(.of "Generator" "g" (.op "p" 0), 4), (.of "Generator" "g" (.op "p" 1), 6), (.of "Generator" "g" (.op "p" 2), 5),
   (.of "Generator" "h" (.op "p" 0), 5 / 2), (.of "Generator" "h" (.op "p" 1), 3 / 2), (.of "Generator" "h" (.op "p" 2), 0),
   (.of "Link" "link" (.op "p" 0), 1), (.of "Link" "link" (.op "p" 1), 1), (.of "Link" "link" (.op "p" 2), 1),
   (.of "Store" "tank" (.op "p" 0), 1), (.of "Store" "tank" (.op "p" 1), -1), (.of "Store" "tank" (.op "p" 2), 1),
   (.of "Store" "tank" (.op "e" 0), 1), (.of "Store" "tank" (.op "e" 1), 2), (.of "Store" "tank" (.op "e" 2), 1),
   (.of "StorageUnit" "battery" (.op "p_store" 0), 1), (.of "StorageUnit" "battery" (.op "p_dispatch" 2), 1 / 2),
   (.of "StorageUnit" "battery" (.op "state_of_charge" 0), 1 / 2), (.of "StorageUnit" "battery" (.op "state_of_charge" 1), 1 / 2),
   (.of "StorageUnit" "battery" (.op "state_of_charge" 2), 3 / 4), (.of "StorageUnit" "battery" (.op "spill" 2), 1 / 4),
   (.of "Line" "line" (.op "s" 0), 0), (.of "Line" "line" (.op "s" 1), 3), (.of "Line" "line" (.op "s" 2), 5 / 2)]

def rollVal (v : WVar) : ℚ := ((rollTable.find? (fun e => decide (e.1 = v))).map (·.2)).getD 0

/-- The part of a plan that a window sees. -/
def seen (s : Nat) (x : WVar → ℚ) : WVar → ℚ
  | .of c a (.op v t) => x (.of c a (.op v (s + t)))
  | v => x v

def rollRec1 : WVar → ℚ := recordAll 0 2 (seen 0 rollVal) (fun _ => 0)
def rollRec2 : WVar → ℚ := recordAll 1 3 (seen 1 rollVal) rollRec1
def rollRec3 : WVar → ℚ := recordAll 2 3 (seen 2 rollVal) rollRec2

theorem roll_some : (createModel (windowNet rollNet (fun _ => 0) true 0 2) (otherRows rollOther 0 2)).isSome = true ∧
    (createModel (windowNet rollNet rollRec1 false 1 2) (otherRows rollOther 1 2)).isSome = true ∧
    (createModel (windowNet rollNet rollRec2 false 2 1) (otherRows rollOther 2 1)).isSome = true := by decide +kernel

theorem roll_run : Rolled rollNet rollOther [(0, 2), (1, 3), (2, 3)] true (fun _ => 0) rollRec3 :=
  .cons _ _ _ _ _ _ _ (seen 0 rollVal) (Option.some_get roll_some.1).symm (by decide +kernel) (by decide +kernel)
    (.cons _ _ _ _ _ _ _ (seen 1 rollVal) (Option.some_get roll_some.2.1).symm (by decide +kernel) (by decide +kernel)
      (.cons _ _ _ _ _ _ _ (seen 2 rollVal) (Option.some_get roll_some.2.2).symm (by decide +kernel) (by decide +kernel) (.nil _ _)))

theorem roll_windows : Rolling.windows rollNet.len 2 (1 : Nat) = .ok [(0, 2), (1, 3), (2, 3)] := by
  simp [Rolling.windows, rollNet, Rolling.starts]

theorem roll_sound : Sound rollNet := by constructor <;> decide +kernel

theorem roll_plain (step : Nat) : PlainNet rollNet step where
  multi := rfl
  rolling := rfl
  gens := by
    intro g hg
    simp [rollNet] at hg
    rcases hg with rfl | rfl <;> exact ⟨⟨rfl, rfl, fun _ => rfl⟩, rfl, rfl⟩
  links := by
    intro g hg
    simp [rollNet] at hg
    subst hg
    exact ⟨rfl, rfl, fun _ => rfl⟩
  stores := by
    intro g hg
    simp [rollNet] at hg
    subst hg
    exact ⟨rfl, rfl, fun _ => rfl, fun _ _ _ => rfl⟩
  units := by
    intro g hg
    simp [rollNet] at hg
    subst hg
    exact ⟨rfl, rfl, fun _ => rfl, fun _ _ _ => rfl⟩
  lines := by decide +kernel
  trafos := by decide +kernel
  genRamps := by
    right; left
    decide +kernel
  linkRamps := by
    left
    decide +kernel

example : AssetsHold rollNet rollRec3 ∧ Balance rollNet rollRec3 ∧ Feasible rollRec3 (otherRows rollOther 0 3) :=
  rolling_feasible_partial roll_sound (horizon := 2) (overlap := 1) (by decide) (roll_plain _) roll_windows roll_run

example {P : Program ℚ} (hP : createModel rollNet (otherRows rollOther 0 3) = some P) (x : WVar → ℚ) (hx : Cheapest rollNet P x) :
    totalCost rollNet x ≤ 27 := by
  have h := rolling_not_cheaper_partial roll_sound
    (by
      constructor
      · intro g hg t; simp [rollNet] at hg; rcases hg with rfl | rfl <;> rfl
      · intro g hg t; simp [rollNet] at hg; subst hg; rfl
      · intro g hg t; simp [rollNet] at hg; subst hg; rfl
      · intro g hg t; simp [rollNet] at hg; subst hg; rfl
      · decide +kernel
      · decide +kernel)
    (horizon := 2) (overlap := 1) (by decide) (roll_plain _) roll_windows roll_run hP x hx
  have e : totalCost rollNet rollRec3 = 27 := by decide +kernel
  rw [e] at h
  exact h

def buildGen : GenW ℚ := ⟨"g", "A", 1, { rollUnit none 0 with extendable := true }, exInvest 5, exCosts 1 0, fun _ => none, none, none⟩

/-- One bus, a generator of any capacity, 4 and then 1 to be supplied. -/
def buildNet : WNet ℚ where
  len := 2
  multi := false
  period := fun _ => 0
  rolling := false
  linearized := false
  tangents := 0
  threshold := 45
  sw := fun _ => 1
  gw := fun _ => 1
  periods := none
  buses := ["A"]
  gens := [buildGen]
  links := []
  stores := []
  units := []
  lines := []
  trafos := []
  loads := [⟨"A", -1, fun t => if t = 0 then 4 else 1, fun _ => true⟩]

def buildVal (n : ℚ) : WVar → ℚ
  | .of _ _ (.op _ _) => n
  | .of _ _ .cap => n
  | _ => 0

theorem build_some : (createModel (windowNet buildNet (fun _ => 0) true 0 1) (otherRows (fun _ => []) 0 1)).isSome = true ∧
    (createModel (windowNet buildNet (recordAll 0 1 (buildVal 4) (fun _ => 0)) false 1 1) (otherRows (fun _ => []) 1 1)).isSome = true ∧
    (genRows buildNet buildGen).isSome = true := by decide +kernel

/-- Capacities are optimised anew in every window and the last one is recorded, which may be too small for what is recorded in
other windows. -/
theorem capacity_of_last_window : ∃ R', Rolled buildNet (fun _ => []) [(0, 1), (1, 2)] true (fun _ => 0) R' ∧
    R' (.of "Generator" "g" .cap) = 1 ∧ R' (.of "Generator" "g" (.op "p" 0)) = 4 ∧ ¬ AssetsHold buildNet R' := by
  refine ⟨recordAll 1 2 (buildVal 1) (recordAll 0 1 (buildVal 4) (fun _ => 0)),
    .cons _ _ _ _ _ _ _ (buildVal 4) (Option.some_get build_some.1).symm (by decide +kernel) (by decide +kernel)
      (.cons _ _ _ _ _ _ _ (buildVal 1) (Option.some_get build_some.2.1).symm (by decide +kernel) (by decide +kernel) (.nil _ _)), rfl, rfl, ?_⟩
  intro h
  have := h.gens buildGen List.mem_cons_self _ (Option.some_get build_some.2.2).symm
  revert this
  decide +kernel

end Verif.Opt.Whole
