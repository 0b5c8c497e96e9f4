import Verif.Network.TransferLemmas

/-!
# Properties C11-C14: renaming, slicing, copying, merging
-/

namespace Verif.Network

variable {V : Type}

/-! ## C13 and C12 share one argument -/

/-- The values read from a network made by `addStatics`, `set_snapshots` and `copyDyn`. -/
theorem transferred_effective (sch : Schema V) (cols : Cls → List Attr) (n : Network V)
    (h : WF sch n) (hf : Fits sch cols n) (sel : Cls → Name → Bool) (cs : List Cls)
    (hcs : cs.Nodup) (sns : List Snap) (hne : sns ≠ []) :
    ∃ m, addStatics sch cols n sel cs (init sch) = .ok m ∧
      (setSnapshots sch m sns sch.one).2 = none ∧
      (setSnapshots sch m sns sch.one).1.snaps = sns ∧
      ∀ (m2 : Network V), (∀ c, m2.comps c = if c ∈ cs then
          copyDyn sns (n.comps c) ((setSnapshots sch m sns sch.one).1.comps c)
          else (setSnapshots sch m sns sch.one).1.comps c) →
        (∀ c, c ∉ cs → (m2.comps c).names = []) ∧
        ∀ c ∈ cs, (m2.comps c).names = (n.comps c).names.filter (sel c) ∧
          ∀ x ∈ (m2.comps c).names,
            (∀ k ∈ cols c, (m2.comps c).sval x k = (n.comps c).sval x k) ∧
            ∀ k, ∀ s, effective sch m2 c k s x = effective sch n c k s x := by
  obtain ⟨m, a1, a2, a3, a4, a5, a6, a7⟩ := addStatics_spec sch cols n h.names_nodup
    hf.cols_nodup hf.cols_static sel cs hcs (init sch) (init_wf sch) (fun c _ => rfl)
  have he : sns.isEmpty = false := by
    cases sns with
    | nil => exact absurd rfl hne
    | cons _ _ => rfl
  have hset : ∀ c, (setSnapshots sch m sns sch.one).1.comps c =
      { m.comps c with dyn := mapDyn (reindexTable sch c sns) (m.comps c).dyn } := by
    intro c; simp [setSnapshots, he]
  refine ⟨m, a1, by simp [setSnapshots, he], by simp [setSnapshots, he], ?_⟩
  intro m2 hm2
  constructor
  · intro c hc
    rw [hm2 c, if_neg hc, hset]
    simp only [a6 c hc]; rfl
  · intro c hc
    obtain ⟨b1, b2, b3⟩ := a7 c hc
    have hnames : (m2.comps c).names = (n.comps c).names.filter (sel c) := by
      rw [hm2 c, if_pos hc, hset]
      exact b1
    refine ⟨hnames, ?_⟩
    intro x hx
    rw [hnames] at hx
    have hxn : x ∈ (n.comps c).names := (List.mem_filter.1 hx).1
    have hsval : (m2.comps c).sval = (m.comps c).sval := by
      rw [hm2 c, if_pos hc, hset]; rfl
    have hsv : ∀ k ∈ cols c, (m2.comps c).sval x k = (n.comps c).sval x k := by
      intro k hk
      rw [hsval, b3 x hx k]
      simp only [hf.cols_static c k hk, Bool.false_eq_true, if_false, hk, if_true]
      cases hv : (n.comps c).sval x k with
      | some v => rfl
      | none => simp only [Option.none_or]; exact hf.clean c k hk x hxn hv
    refine ⟨hsv, ?_⟩
    intro k s
    have hbase : (if sch.seriesOnly c k then sch.dflt c k else (m2.comps c).sval x k) =
        (if sch.seriesOnly c k then sch.dflt c k else (n.comps c).sval x k) := by
      by_cases hk : k ∈ cols c
      · rw [hsv k hk]
      · by_cases hso : sch.seriesOnly c k = true
        · simp [hso]
        · have hso' : sch.seriesOnly c k = false := by simpa using hso
          have hspec : sch.spec? c k = none := by
            rcases hf.cols_all c k hk with h' | h'
            · exact absurd h' hso
            · exact h'
          simp only [hso', Bool.false_eq_true, if_false]
          rw [hsval, b3 x hx k, hf.outside c k hk x hxn hso']
          simp [hso', hk, Schema.dflt, hspec]
    unfold effective
    rw [hbase]
    have hget : Dict.get? (m2.comps c).dyn k =
        ((Dict.get? (n.comps c).dyn k).map
          (fun f => f.restrict sns ((n.comps c).names.filter (sel c)))).or
        (Dict.get? (mapDyn (reindexTable sch c sns) (m.comps c).dyn) k) := by
      rw [hm2 c, if_pos hc, copyDyn_get? _ _ _ (hf.dyn_keys c), hset]
      simp only [b1]
    rw [hget]
    cases hnk : Dict.get? (n.comps c).dyn k with
    | some f =>
      simp only [Option.map_some, Option.some_or, Frame.restrict, List.mem_filter, decide_eq_true_eq]
      have hsel : sel c x = true := (List.mem_filter.1 hx).2
      simp only [hxn, hsel, and_true]
    | none =>
      simp only [Option.map_none, Option.none_or]
      rw [get?_mapDyn, b2]
      cases hi : Dict.get? ((init sch).comps c).dyn k with
      | none => rfl
      | some g =>
        simp only [Option.map_some]
        rw [(reindexTable_index sch c sns k g).2, init_get? sch c k g hi]
        simp

/-! ## C13 -/

/-- **C13 (partial: the snapshots asked for contain every investment period).**
`n.copy()` is the network itself; `n.copy(snapshots=S)` succeeds and has exactly the
snapshots `S`, the weightings of `n` on them, the same component names, the same static
values and the same value read for every attribute of every component at every snapshot
of `S`.  Missing: selections that leave out an investment period, which raise, see
`copy_without_a_period_raises`. -/
theorem copy_content_partial (sch : Schema V) (lay : Layout) (n : Network V) (h : WF sch n)
    (hf : Fits sch lay.cols n) (hcls : lay.classes.Nodup)
    (hcov : ∀ c, c ∉ lay.classes → (n.comps c).names = [])
    (sns : List Snap) (hne : sns ≠ []) (hsub : ∀ s ∈ sns, s ∈ n.snaps)
    (hper : periodsOf n.snaps = [] ∨
      ((periodsOf n.snaps).Pairwise (· < ·) ∧ periodsOf sns = periodsOf n.snaps ∧
        ∀ p ∈ periodsOf n.snaps, p ∈ n.pw.index)) :
    copy sch lay n none = .ok n ∧
    ∃ m, copy sch lay n (some sns) = .ok m ∧
      m.snaps = sns ∧
      m.w.index = sns ∧ (∀ s ∈ sns, ∀ col, m.w.val s col = n.w.val s col) ∧
      m.pw.index = periodsOf n.snaps ∧ (∀ p ∈ m.pw.index, ∀ col, m.pw.val p col = n.pw.val p col) ∧
      ∀ c, (m.comps c).names = (n.comps c).names ∧
        ∀ x ∈ (n.comps c).names,
          (∀ k ∈ lay.cols c, (m.comps c).sval x k = (n.comps c).sval x k) ∧
          ∀ k, ∀ s ∈ sns, effective sch m c k s x = effective sch n c k s x := by
  refine ⟨rfl, ?_⟩
  obtain ⟨m, a1, a2, a3, a4⟩ := transferred_effective sch lay.cols n h hf (fun _ _ => true)
    lay.classes hcls sns hne
  have he : sns.isEmpty = false := by
    cases sns with
    | nil => exact absurd rfl hne
    | cons _ _ => rfl
  -- the network before the periods are set
  let m1 := (setSnapshots sch m sns sch.one).1
  let m2 : Network V := { m1 with comps := fun c =>
    if c ∈ lay.classes then copyDyn sns (n.comps c) (m1.comps c) else m1.comps c }
  have key : ∀ m3 : Network V, m3.comps = m2.comps →
      ∀ c, (m3.comps c).names = (n.comps c).names ∧
        ∀ x ∈ (n.comps c).names,
          (∀ k ∈ lay.cols c, (m3.comps c).sval x k = (n.comps c).sval x k) ∧
          ∀ k, ∀ s ∈ sns, effective sch m3 c k s x = effective sch n c k s x := by
    intro m3 hm3 c
    obtain ⟨c1, c2⟩ := a4 m3 (fun c => by rw [hm3])
    by_cases hc : c ∈ lay.classes
    · obtain ⟨d1, d2⟩ := c2 c hc
      have d1' : (m3.comps c).names = (n.comps c).names := by rw [d1]; simp
      refine ⟨d1', ?_⟩
      intro x hx
      obtain ⟨e1, e2⟩ := d2 x (by rw [d1']; exact hx)
      exact ⟨e1, fun k s _ => e2 k s⟩
    · refine ⟨by rw [c1 c hc, hcov c hc], ?_⟩
      intro x hx
      rw [hcov c hc] at hx
      simp at hx
  have hs2 : m2.snaps = sns := a3
  rcases hper with hper | ⟨hinc, hps, hpw⟩
  · let res : Network V := { m2 with
      w := { index := sns, val := n.w.val }
      pw := { index := [], val := n.pw.val } }
    refine ⟨res, ?_, hs2, rfl, fun _ _ _ => rfl, hper.symm, fun _ _ _ => rfl, key res rfl⟩
    unfold copy copySnapshots
    simp only [hper]
    rw [if_neg (by simpa using hsub)]
    simp only [a1, he, Bool.false_eq_true, if_false, List.isEmpty_nil, if_true, List.not_mem_nil,
      false_implies, implies_true, not_true_eq_false]
    rfl
  · by_cases hemp : periodsOf n.snaps = []
    · let res : Network V := { m2 with
        w := { index := sns, val := n.w.val }
        pw := { index := [], val := n.pw.val } }
      refine ⟨res, ?_, hs2, rfl, fun _ _ _ => rfl, hemp.symm, fun _ _ _ => rfl, key res rfl⟩
      unfold copy copySnapshots
      simp only [hemp]
      rw [if_neg (by simpa using hsub)]
      simp only [a1, he, Bool.false_eq_true, if_false, List.isEmpty_nil, if_true, List.not_mem_nil,
        false_implies, implies_true, not_true_eq_false]
      rfl
    · have hpe : (periodsOf n.snaps).isEmpty = false := by
        cases hp : periodsOf n.snaps with
        | nil => exact absurd hp hemp
        | cons _ _ => rfl
      have hmulti : isMultiIndex m2.snaps = true := by
        rw [hs2]
        simp only [isMultiIndex, List.any_eq_true]
        by_contra hno
        apply hemp
        rw [← hps]
        unfold periodsOf
        have : sns.filterMap Snap.period? = [] := by
          rw [List.filterMap_eq_nil_iff]
          intro s hs
          cases s with
          | flat t => rfl
          | multi p t => exact absurd ⟨_, hs, rfl⟩ hno
        rw [this]; rfl
      obtain ⟨g1, g2⟩ := set_investment_periods_multi sch m2 hmulti (periodsOf n.snaps) hemp true
      have hperiods : periodsOf m2.snaps = periodsOf n.snaps := by rw [hs2]; exact hps
      obtain ⟨m3, hm3⟩ : ∃ m3, setInvestmentPeriods sch m2 (periodsOf n.snaps) true = .ok m3 := by
        cases hh : setInvestmentPeriods sch m2 (periodsOf n.snaps) true with
        | ok m3 => exact ⟨m3, rfl⟩
        | error e =>
          exact absurd ⟨rfl, hinc, fun p hp => by rw [hperiods]; exact hp,
            by rw [hperiods]; exact Nat.le_refl _⟩ (g1.1 ⟨e, hh⟩)
      obtain ⟨k1, k2, k3, k4, k5, k6⟩ := g2 m3 hm3
      let res : Network V := { m3 with
        w := { index := sns, val := n.w.val }
        pw := { index := periodsOf n.snaps, val := n.pw.val } }
      refine ⟨res, ?_, k1.trans hs2, rfl, fun _ _ _ => rfl, rfl, fun _ _ _ => rfl, key res k3⟩
      simp only [m2, m1] at hm3
      unfold copy copySnapshots
      simp only
      rw [if_neg (by simpa using hsub)]
      simp only [a1, he, Bool.false_eq_true, if_false, hpe, hm3]
      rw [if_neg (by simpa using hpw)]

/-- The call succeeds and its result satisfies `p` (used in examples). -/
def holds {α : Type} (r : Except Err α) (p : α → Prop) [DecidablePred p] : Bool :=
  match r with
  | .ok m => p m
  | .error _ => false

/-- The call raises the given error (used in witnesses). -/
def raises {α : Type} (r : Except Err α) (e : Err) : Bool :=
  match r with
  | .ok _ => false
  | .error e' => e' = e

theorem eq_error_of_raises {α : Type} {r : Except Err α} {e : Err} (h : raises r e = true) :
    r = .error e := by
  cases r with
  | ok _ => simp [raises] at h
  | error e' => simp [raises] at h; rw [h]

/-- The layout of the demo schema. -/
def demoLayout : Layout where
  classes := ["Generator"]
  cols := fun c => if c = "Generator" then ["bus", "p_max_pu"] else []

def demoNet : Network Int := runOps demo (init demo) (demoOps.take 3)

/-- A network with two investment periods. -/
def demoMulti : Network Int := runOps demo (init demo) (demoOps.take 6)

/-- Non-vacuity of C13: a copy restricted to one snapshot. -/
example : holds (copy demo demoLayout demoNet (some [.flat "1"])) (fun m =>
    m.snaps = [.flat "1"] ∧ (m.comps "Generator").names = ["a", "b", "c x"] ∧
    effective demo m "Generator" "p_max_pu" (.flat "1") "b" = some 4 ∧
    effective demo m "Generator" "p" (.flat "1") "c x" = some 5) := by
  decide +kernel

/-- **C13 fails when a period is left out** (finding): copying only the snapshots of the
first of two investment periods raises, because all periods of the original are then set
on the copy (`networks.py` 1519-1520, 1566-1568). -/
theorem copy_without_a_period_raises :
    demoMulti.snaps = [.multi 2020 "0", .multi 2020 "1", .multi 2030 "0", .multi 2030 "1"] ∧
    copy demo demoLayout demoMulti (some [.multi 2020 "0", .multi 2020 "1"]) =
      .error .valueError :=
  ⟨by decide +kernel, eq_error_of_raises (by decide +kernel)⟩

/-! ## A concrete network for the examples below -/

/-- Buses, generators, lines and three-port links. -/
def exSch : Schema Val where
  attrs := fun c =>
    if c = "Bus" then [⟨"carrier", some (.str "AC"), true, false⟩]
    else if c = "Generator" then [⟨"bus", some (.str ""), true, false⟩,
      ⟨"p_max_pu", some (.num 1), true, true⟩, ⟨"p", some (.num 0), false, true⟩]
    else if c = "Line" then [⟨"bus0", some (.str ""), true, false⟩,
      ⟨"bus1", some (.str ""), true, false⟩]
    else if c = "Link" then [⟨"bus0", some (.str ""), true, false⟩,
      ⟨"bus1", some (.str ""), true, false⟩, ⟨"bus2", some (.str ""), true, false⟩]
    else []
  one := .num 1

def exKinds : Kinds where
  classes := ["Bus", "Generator", "Line", "Link"]
  cols := fun c =>
    if c = "Bus" then ["carrier"]
    else if c = "Generator" then ["bus", "p_max_pu"]
    else if c = "Line" then ["bus0", "bus1"]
    else if c = "Link" then ["bus0", "bus1", "bus2"]
    else []
  onePort := ["Generator"]
  branch := ["Line", "Link"]

/-- Three buses in a row, generators at both ends, a link from `b1` to `b2` with a third
port at `b3`. -/
def exNet : Network Val where
  snaps := [.flat "0", .flat "1"]
  w := { index := [.flat "0", .flat "1"], val := fun _ _ => some (.num 1) }
  pw := { index := [], val := fun _ _ => none }
  comps := fun c =>
    if c = "Bus" then
      { names := ["b1", "b2", "b3"]
        sval := fun _ k => if k = "carrier" then some (.str "AC") else none
        dyn := [] }
    else if c = "Generator" then
      { names := ["g1", "g2"]
        sval := fun x k =>
          if k = "bus" then some (.str (if x = "g1" then "b1" else "b3"))
          else if k = "p_max_pu" then some (.num 1) else none
        dyn := [("p_max_pu", { index := [.flat "0", .flat "1"], cols := ["g2"],
                               val := fun s _ => some (.num (if s = .flat "0" then 2 else 3)) }),
                ("p", emptyFrame [.flat "0", .flat "1"])] }
    else if c = "Line" then
      { names := ["l12", "l23"]
        sval := fun x k =>
          if k = "bus0" then some (.str (if x = "l12" then "b1" else "b2"))
          else if k = "bus1" then some (.str (if x = "l12" then "b2" else "b3")) else none
        dyn := [] }
    else if c = "Link" then
      { names := ["k"]
        sval := fun _ k =>
          if k = "bus0" then some (.str "b1") else if k = "bus1" then some (.str "b2")
          else if k = "bus2" then some (.str "b3") else none
        dyn := [] }
    else { names := [], sval := fun _ _ => none, dyn := [] }

theorem exNet_wf : WF exSch exNet := by
  constructor
  · intro c; simp only [exNet]; repeat' split
    all_goals simp
  · intro c k f hf
    simp only [exNet] at hf ⊢
    repeat' split at hf
    all_goals simp only [Dict.get?_nil, reduceCtorEq, Dict.get?_cons] at hf
    repeat' split at hf
    all_goals simp only [Option.some.injEq, reduceCtorEq] at hf
    all_goals subst hf
    all_goals simp_all [emptyFrame]
  · rfl
  · intro c a ha hv
    simp only [exSch] at ha
    simp only [exNet]
    split at ha
    · simp at ha; subst ha; simp at hv
    · split at ha
      · rename_i h1 h2
        subst h2
        simp at ha
        rcases ha with rfl | rfl | rfl
        · simp at hv
        · simp [Dict.get?_cons]
        · simp [Dict.get?_cons]
      · split at ha
        · simp at ha
          rcases ha with rfl | rfl <;> simp at hv
        · split at ha
          · simp at ha
            rcases ha with rfl | rfl | rfl <;> simp at hv
          · simp at ha
  · simp [exNet]
  · left; simp [exNet, Snap.isMulti]
  · simp [exNet]

theorem exNet_fits : Fits exSch exKinds.cols exNet := by
  constructor
  · intro c; simp only [exKinds]; repeat' split
    all_goals simp
  · intro c k hk
    simp only [exKinds] at hk
    repeat' split at hk
    all_goals (subst_vars; simp at hk)
    all_goals (try rcases hk with rfl | rfl | rfl)
    all_goals simp_all [Schema.seriesOnly, Schema.spec?, exSch]
  · intro c k hk
    simp only [exKinds] at hk
    by_cases h1 : c = "Bus"
    · subst h1; right; simp at hk; simp [Schema.spec?, exSch, Ne.symm hk]
    · by_cases h2 : c = "Generator"
      · subst h2
        simp at hk
        by_cases hp : k = "p"
        · subst hp; left; simp [Schema.seriesOnly, Schema.spec?, exSch]
        · right; simp [Schema.spec?, exSch, Ne.symm hk.1, Ne.symm hk.2, Ne.symm hp]
      · by_cases h3 : c = "Line"
        · subst h3; right; simp at hk; simp [Schema.spec?, exSch, Ne.symm hk.1, Ne.symm hk.2]
        · by_cases h4 : c = "Link"
          · subst h4; right; simp at hk
            simp [Schema.spec?, exSch, Ne.symm hk.1, Ne.symm hk.2.1, Ne.symm hk.2.2]
          · right; simp [Schema.spec?, exSch, h1, h2, h3, h4]
  · intro c k hk x _ _
    simp only [exKinds] at hk
    simp only [exNet]
    by_cases h1 : c = "Bus"
    · subst h1; simp at hk; simp [hk]
    · by_cases h2 : c = "Generator"
      · subst h2; simp at hk; simp [hk]
      · by_cases h3 : c = "Line"
        · subst h3; simp at hk; simp [hk]
        · by_cases h4 : c = "Link"
          · subst h4; simp at hk; simp [hk]
          · simp [h1, h2, h3, h4]
  · intro c k hk x hx hv
    simp only [exKinds] at hk
    simp only [exNet] at hv
    by_cases h1 : c = "Bus"
    · subst h1; simp at hk; simp [hk] at hv
    · by_cases h2 : c = "Generator"
      · subst h2; simp at hk; rcases hk with rfl | rfl <;> simp at hv
      · by_cases h3 : c = "Line"
        · subst h3; simp at hk; rcases hk with rfl | rfl <;> simp at hv
        · by_cases h4 : c = "Link"
          · subst h4; simp at hk; rcases hk with rfl | rfl | rfl <;> simp at hv
          · simp [h1, h2, h3, h4] at hk
  · intro c; simp only [exNet]; repeat' split
    all_goals simp [Dict.keys]

/-- The hypotheses of `copy_content_partial` hold for `exNet`. -/
example : exKinds.classes.Nodup ∧ (∀ c, c ∉ exKinds.classes → (exNet.comps c).names = []) ∧
    periodsOf exNet.snaps = [] := by
  refine ⟨by decide, ?_, by decide⟩
  intro c hc
  simp [exKinds] at hc
  simp [exNet, hc]

/-! ## C12 -/

/-- **C12 (partial: the further ports of multi-port links are not considered).**
`n[times, buses]` has exactly the selected buses and snapshots, exactly the one-ports at
selected buses and exactly the branches with both main ends selected, with unchanged
static values and unchanged values read for every attribute and selected snapshot, and
the main bus references all point into the result.  Missing: references of ports
`bus2, bus3, ...`, where the claim is false, see `slice_dangling_third_port`. -/
theorem slice_closed_partial (sch : Schema Val) (kd : Kinds) (n : Network Val) (h : WF sch n)
    (hf : Fits sch kd.cols n) (hcls : kd.classes.Nodup) (hbus : "Bus" ∈ kd.classes)
    (buses : List Name) (hb : ∀ b ∈ buses, b ∈ (n.comps "Bus").names) (keep : Snap → Bool)
    (hk : n.snaps.filter keep ≠ []) :
    ∃ m, slice sch kd n buses keep = .ok m ∧
      m.snaps = n.snaps.filter keep ∧
      (∀ s ∈ m.snaps, ∀ col, m.w.val s col = n.w.val s col) ∧
      (∀ x, x ∈ (m.comps "Bus").names ↔ x ∈ buses) ∧
      (∀ c ∈ kd.classes, c ≠ "Bus" → c ≠ "SubNetwork" →
        (c ∈ kd.onePort → ∀ x, x ∈ (m.comps c).names ↔ x ∈ (n.comps c).names ∧
          ∃ b ∈ buses, (n.comps c).sval x "bus" = some (.str b)) ∧
        (c ∉ kd.onePort → c ∈ kd.branch → ∀ x, x ∈ (m.comps c).names ↔ x ∈ (n.comps c).names ∧
          (∃ b ∈ buses, (n.comps c).sval x "bus0" = some (.str b)) ∧
          (∃ b ∈ buses, (n.comps c).sval x "bus1" = some (.str b))) ∧
        (c ∉ kd.onePort → c ∉ kd.branch → (m.comps c).names = (n.comps c).names)) ∧
      ∀ c ∈ kd.classes, (m.comps c).names.Sublist (n.comps c).names ∧
        ∀ x ∈ (m.comps c).names,
          (∀ k ∈ kd.cols c, (m.comps c).sval x k = (n.comps c).sval x k) ∧
          ∀ k s, effective sch m c k s x = effective sch n c k s x := by
  obtain ⟨m0, a1, a2, a3, a4⟩ := transferred_effective sch kd.cols n h hf (sliceSel kd n buses)
    kd.classes hcls (n.snaps.filter keep) hk
  let m1 := (setSnapshots sch m0 (n.snaps.filter keep) sch.one).1
  let res : Network Val := { m1 with
    comps := fun c => if c ∈ kd.classes then copyDyn (n.snaps.filter keep) (n.comps c) (m1.comps c)
      else m1.comps c
    w := { index := n.snaps.filter keep, val := n.w.val } }
  obtain ⟨b1, b2⟩ := a4 res (fun c => rfl)
  have hisin : ∀ v, isinBuses buses v = true ↔ ∃ b ∈ buses, v = some (.str b) := by
    intro v
    unfold isinBuses
    split
    · rename_i b
      simp
    · rename_i hno
      simp only [Bool.false_eq_true, false_iff, not_exists, not_and]
      intro b _ hv
      exact hno b hv
  refine ⟨res, ?_, a3, fun _ _ _ => rfl, ?_, ?_, ?_⟩
  · unfold slice
    rw [if_neg (by simpa using hb)]
    simp only [a1]
    have : setSnapshots sch m0 (n.snaps.filter keep) sch.one = (m1, none) := Prod.ext rfl a2
    rw [this]
  · intro x
    rw [(b2 "Bus" hbus).1]
    simp only [List.mem_filter, sliceSel, if_true, decide_eq_true_eq]
    exact ⟨fun h' => h'.2, fun h' => ⟨hb x h', h'⟩⟩
  · intro c hc hc1 hc2
    obtain ⟨d1, _⟩ := b2 c hc
    refine ⟨?_, ?_, ?_⟩
    · intro ho x
      rw [d1]
      simp only [List.mem_filter, sliceSel, hc1, hc2, if_false, ho, if_true, hisin]
    · intro ho hbr x
      rw [d1]
      simp only [List.mem_filter, sliceSel, hc1, hc2, if_false, ho, hbr, if_true, Bool.and_eq_true,
        hisin]
    · intro ho hbr
      rw [d1]
      simp [sliceSel, hc1, hc2, ho, hbr]
  · intro c hc
    obtain ⟨d1, d2⟩ := b2 c hc
    refine ⟨by rw [d1]; exact List.filter_sublist, d2⟩

/-- Non-vacuity of C12: the slice `b1, b2` of the example network at snapshot 1. -/
example : "Bus" ∈ exKinds.classes ∧ (∀ b ∈ ["b1", "b2"], b ∈ (exNet.comps "Bus").names) ∧
    holds (slice exSch exKinds exNet ["b1", "b2"] (fun s => s = .flat "1")) (fun m =>
      m.snaps = [.flat "1"] ∧ (m.comps "Generator").names = ["g1"] ∧
      (m.comps "Line").names = ["l12"] ∧ (m.comps "Link").names = ["k"]) := by
  decide +kernel

/-- **C12 fails for links with more than two ports** (finding, `networks.py` 1646-1652
looks at `bus0` and `bus1` only): the slice keeps the link although its third bus is not
selected, so the result refers to a bus it does not have. -/
theorem slice_dangling_third_port :
    ∃ m, slice exSch exKinds exNet ["b1", "b2"] (fun _ => true) = .ok m ∧
      "k" ∈ (m.comps "Link").names ∧
      (m.comps "Link").sval "k" "bus2" = some (.str "b3") ∧
      "b3" ∉ (m.comps "Bus").names := by
  have h : holds (slice exSch exKinds exNet ["b1", "b2"] (fun _ => true)) (fun m =>
      "k" ∈ (m.comps "Link").names ∧
      (m.comps "Link").sval "k" "bus2" = some (.str "b3") ∧
      "b3" ∉ (m.comps "Bus").names) = true := by decide +kernel
  cases hr : slice exSch exKinds exNet ["b1", "b2"] (fun _ => true) with
  | error e => rw [hr] at h; simp [holds] at h
  | ok m => rw [hr] at h; exact ⟨m, rfl, by simpa [holds] using h⟩

end Verif.Network
