import Verif.Plot.Interactive
import Mathlib.Tactic.NormNum
import Mathlib.Tactic.Ring
import Mathlib.Algebra.Field.Rat
import Mathlib.Algebra.Order.Ring.Rat

/-!
# C152: maps show each branch where it is, in its own style, whatever was drawn before
-/

namespace Verif.Plot.Interactive

variable {F : Type} [Field F] [LinearOrder F] {C T : Type}

/-! ## Specification -/

/-- The value the caller gives for a branch. -/
def Gives {A : Type} (a : Arg A) (b : Name) (v : A) : Prop :=
  match a with
  | .one x => v = x
  | .each l => (b, some v) ∈ l

/-- Each label once. -/
def Clear {A : Type} : Arg A → Prop
  | .one _ => True
  | .each l => (l.map (·.1)).Nodup

/-- A table puts a bus at a place, and only there. -/
def Puts (pos : Table F) (b : Name) (x y : Option F) : Prop :=
  (∃ p, pos.lookup b = some p ∧ x = some p.1 ∧ y = some p.2) ∨ (b ∉ pos.map (·.1) ∧ x = none ∧ y = none)

/-- A line shows a branch of a class. -/
structure Depicts (pos : Table F) (styles : Name → Option (Arg C × Arg F)) (cb : Name × Branch) (s : Shape F C) : Prop where
  start : Puts pos cb.2.bus0 s.x0 s.y0
  stop : Puts pos cb.2.bus1 s.x1 s.y1
  style : ∃ a, styles cb.1 = some a ∧ Gives a.1 cb.2.name s.color ∧ Gives a.2 cb.2.name s.width

/-- All branches of the classes. -/
def allBranches (n : MapNet F) (classes : List Name) : List (Name × Branch) := classes.flatMap (fun c => (n.branches c).map (fun b => (c, b)))

/-- Halfway between the least and the greatest of the values there are. -/
def Midway (l : List (Option F)) (m : Option F) : Prop :=
  (∃ a b, m = some ((a + b) / 2) ∧ some a ∈ l ∧ some b ∈ l ∧ ∀ c, some c ∈ l → a ≤ c ∧ c ≤ b) ∨ (m = none ∧ ∀ c, some c ∉ l)

/-- What a caller asks of the view: own values first, then arguments, then the middle of the buses of the network. -/
structure Asked (a : Call F C T) (p q : Params F) : Prop where
  style : q.style = some (p.style.getD a.mapboxStyle)
  token : q.token = if a.mapboxToken ≠ "" then some a.mapboxToken else p.token
  center : ∃ c, q.center = some (p.center.getD c) ∧ Midway (a.net.buses.map (·.2.1)) c.1 ∧ Midway (a.net.buses.map (·.2.2)) c.2
  zoom : q.zoom = some (p.zoom.getD 2)

/-- Views do not depend on earlier calls. -/
def OwnViews (F C T : Type) [Field F] [LinearOrder F] : Prop := ∀ (nx : Nx F) (earlier : List (Call F C T)) (a : Call F C T) (fig : Fig F C T),
  a.mapbox = true → (iplot nx (after nx .none earlier) a).1 = some fig →
  ∃ v, fig.view = some v ∧ Asked a (a.mapboxParameters.getD .none) (v.seen (after nx .none (earlier ++ [a])))

/-- A figure keeps its view when others are drawn. -/
def LastingViews (F C T : Type) [Field F] [LinearOrder F] : Prop := ∀ (nx : Nx F) (a : Call F C T) (fig : Fig F C T) (v : View F) (later : List (Call F C T)),
  (iplot nx .none a).1 = some fig → fig.view = some v → v.seen (after nx .none (a :: later)) = v.seen (after nx .none [a])

/-- Buses are shown at their coordinates, unless a layout is asked for. -/
def AtCoordinates (F C T : Type) [Field F] [LinearOrder F] : Prop := ∀ (nx : Nx F) (a : Call F C T) (fig : Fig F C T) (x y : F) (b : Name),
  a.layouter = none → (iplot nx .none a).1 = some fig → (b, some x, some y) ∈ a.net.buses → ∃ l, Trace.markers l ∈ fig.data ∧ (x, y) ∈ l.map (·.1)

/-- A figure that is built upon keeps what it shows. -/
def Keeps (F C T : Type) [Field F] [LinearOrder F] : Prop := ∀ (nx : Nx F) (a : Call F C T) (old fig : Fig F C T) (l : List (Shape F C)) (s : Shape F C),
  a.fig = some old → (iplot nx .none a).1 = some fig → old.shapes = some l → s ∈ l → ∃ l', fig.shapes = some l' ∧ s ∈ l'

/-! ## Lemmas -/

theorem mapM_forall₂ {A B : Type} {f : A → Option B} : ∀ {l : List A} {r : List B}, l.mapM f = some r → List.Forall₂ (fun a b => f a = some b) l r := by
  intro l
  induction l with
  | nil =>
    intro r h
    simp at h
    subst h
    exact .nil
  | cons a l ih =>
    intro r h
    rw [List.mapM_cons] at h
    cases hf : f a with
    | none => simp [hf] at h
    | some b =>
      cases hr : l.mapM f with
      | none => simp [hf, hr] at h
      | some r' =>
        simp [hf, hr] at h
        subst h
        exact .cons hf (ih hr)

theorem mapM_isSome {A B : Type} {f : A → Option B} (l : List A) : (l.mapM f).isSome = true ↔ ∀ a ∈ l, (f a).isSome = true := by
  induction l with
  | nil => simp
  | cons a l ih =>
    rw [List.mapM_cons]
    cases hf : f a with
    | none => simp [hf]
    | some b =>
      cases hr : l.mapM f with
      | none => simp [hf, hr] at ih ⊢; exact ih
      | some r' => simp [hf, hr] at ih ⊢; exact ih

theorem lookup_mem {A : Type} {l : List (Name × A)} {k : Name} {a : A} (h : l.lookup k = some a) : (k, a) ∈ l := by
  induction l with
  | nil => simp at h
  | cons e l ih =>
    rw [List.lookup_cons] at h
    by_cases hk : k = e.1
    · simp [hk] at h
      subst h
      subst hk
      exact List.mem_cons_self
    · rw [show (k == e.1) = false by simpa using hk] at h
      exact List.mem_cons_of_mem _ (ih h)

theorem lookup_of_mem {A : Type} {l : List (Name × A)} (hd : (l.map (·.1)).Nodup) {k : Name} {a : A} (h : (k, a) ∈ l) : l.lookup k = some a := by
  induction l with
  | nil => simp at h
  | cons e l ih =>
    rw [List.map_cons, List.nodup_cons] at hd
    rw [List.lookup_cons]
    rcases List.mem_cons.mp h with rfl | h'
    · simp
    · have : k ≠ e.1 := fun hk => hd.1 (hk ▸ List.mem_map.mpr ⟨_, h', rfl⟩)
      rw [show (k == e.1) = false by simpa using this]
      exact ih hd.2 h'

theorem lookup_none {A : Type} {l : List (Name × A)} {k : Name} : l.lookup k = none ↔ k ∉ l.map (·.1) := by
  induction l with
  | nil => simp
  | cons e l ih =>
    rw [List.lookup_cons]
    by_cases hk : k = e.1
    · simp [hk]
    · rw [show (k == e.1) = false by simpa using hk, List.map_cons, List.mem_cons, not_or]
      exact ⟨fun h => ⟨hk, ih.mp h⟩, fun h => ih.mpr h.2⟩

theorem puts (pos : Table F) (b : Name) : Puts pos b (xOf pos b) (yOf pos b) := by
  unfold Puts xOf yOf
  cases h : pos.lookup b with
  | none => exact .inr ⟨lookup_none.mp h, rfl, rfl⟩
  | some p => exact .inl ⟨p, rfl, rfl, rfl⟩

theorem series_gives {A : Type} {index : List Name} {a : Arg A} {l : List (Name × A)} (h : branchSeries index a = some l) {b : Name} {v : A} (hv : l.lookup b = some v) : Gives a b v := by
  have hm := lookup_mem hv
  cases a with
  | one x =>
    simp only [branchSeries, Option.some.injEq] at h
    subst h
    obtain ⟨i, -, e⟩ := List.mem_map.mp hm
    simp only [Prod.mk.injEq] at e
    exact e.2.symm
  | each s =>
    simp only [branchSeries] at h
    split_ifs at h with hd
    have h2 := mapM_forall₂ h
    clear h
    induction h2 with
    | nil => simp at hv
    | cons hf hrest ih =>
      rename_i i e is es
      cases hl : (s.lookup i).getD none with
      | none => simp [hl] at hf
      | some w =>
        simp only [hl, Option.map_some, Option.some.injEq] at hf
        subst hf
        rcases List.mem_cons.mp hm with h0 | h0
        · simp only [Prod.mk.injEq] at h0
          obtain ⟨rfl, rfl⟩ := h0
          cases hs : s.lookup b with
          | none => simp [hs] at hl
          | some o =>
            simp only [hs, Option.getD_some] at hl
            subst hl
            exact lookup_mem hs
        · rw [List.lookup_cons] at hv
          by_cases hb : b = i
          · simp [hb] at hv
            subst hv
            subst hb
            cases hs : s.lookup b with
            | none => simp [hs] at hl
            | some o =>
              simp only [hs, Option.getD_some] at hl
              subst hl
              exact lookup_mem hs
          · rw [show (b == i) = false by simpa using hb] at hv
            exact ih hv h0

/-- The table of a class is made exactly if each branch has a value. -/
theorem series_some {A : Type} (index : List Name) (a : Arg A) : (branchSeries index a).isSome = true ↔ Clear a ∧ ∀ i ∈ index, ∃ v, Gives a i v := by
  cases a with
  | one x => simp [branchSeries, Clear, Gives]
  | each s =>
    simp only [branchSeries, Clear]
    split_ifs with hd
    · rw [mapM_isSome]
      simp only [hd, true_and]
      refine forall₂_congr fun i _ => ?_
      constructor
      · intro h
        cases hs : s.lookup i with
        | none => simp [hs] at h
        | some o =>
          cases o with
          | none => simp [hs] at h
          | some v => exact ⟨v, lookup_mem hs⟩
      · rintro ⟨v, hv⟩
        rw [lookup_of_mem hd hv]
        rfl
    · simp [hd]

theorem series_lookup {A : Type} {index : List Name} {a : Arg A} {l : List (Name × A)} (h : branchSeries index a = some l) {i : Name} (hi : i ∈ index) : (l.lookup i).isSome = true := by
  rw [Option.isSome_iff_ne_none, ne_eq, lookup_none, not_not]
  cases a with
  | one x =>
    simp only [branchSeries, Option.some.injEq] at h
    subst h
    simpa using hi
  | each s =>
    simp only [branchSeries] at h
    split_ifs at h with hd
    have h2 := mapM_forall₂ h
    clear h
    induction h2 with
    | nil => simp at hi
    | cons hf hrest ih =>
      rename_i j e is es
      rcases List.mem_cons.mp hi with rfl | h0
      · cases hl : (s.lookup i).getD none with
        | none => simp [hl] at hf
        | some w =>
          simp only [hl, Option.map_some, Option.some.injEq] at hf
          subst hf
          simp
      · simp [ih h0]

/-! ## Branches -/

theorem class_drawn {pos : Table F} {styles : Name → Option (Arg C × Arg F)} {c : Name} {col : Arg C} {wid : Arg F} (hs : styles c = some (col, wid)) {bs : List Branch} {l : List (Shape F C)}
    (h : classShapes pos col wid bs = some l) : List.Forall₂ (Depicts pos styles) (bs.map (fun b => (c, b))) l := by
  unfold classShapes at h
  cases hw : branchSeries (bs.map (·.name)) wid with
  | none => simp [hw] at h
  | some ws =>
    cases hc : branchSeries (bs.map (·.name)) col with
    | none => simp [hw, hc] at h
    | some cs =>
      simp only [hw, hc] at h
      rw [List.forall₂_map_left_iff]
      refine (mapM_forall₂ h).imp fun b s e => ?_
      cases h1 : cs.lookup b.name with
      | none => simp [h1] at e
      | some v =>
        cases h2 : ws.lookup b.name with
        | none => simp [h1, h2] at e
        | some w =>
          simp only [h1, h2, Option.some.injEq] at e
          subst e
          exact ⟨puts _ _, puts _ _, _, hs, series_gives hc h1, series_gives hw h2⟩

theorem branches_shown (n : MapNet F) (classes : List Name) : allBranches n (shown n classes) = allBranches n classes := by
  unfold allBranches shown
  induction classes with
  | nil => rfl
  | cons c cs ih =>
    rw [List.filter_cons, List.flatMap_cons]
    cases hb : n.branches c with
    | nil => simpa [hb] using ih
    | cons b bs => simp [hb, ih]

theorem branches_drawn {n : MapNet F} {pos : Table F} {styles : Name → Option (Arg C × Arg F)} {classes : List Name} {l : List (Shape F C)} (h : drawBranches n pos styles classes = some l) :
    List.Forall₂ (Depicts pos styles) (allBranches n classes) l := by
  rw [← branches_shown]
  unfold drawBranches at h
  unfold allBranches
  revert h l
  induction shown n classes with
  | nil =>
    intro l h
    simp at h
    subst h
    exact .nil
  | cons c cs ih =>
    intro l h
    rw [List.mapM_cons] at h
    cases hc : drawClass n pos styles c with
    | none => simp [hc] at h
    | some r =>
      cases hr : cs.mapM (drawClass n pos styles) with
      | none => simp [hc, hr] at h
      | some r' =>
        simp [hc, hr] at h
        subst h
        rw [List.flatMap_cons]
        refine List.rel_append ?_ (ih (by rw [hr]; rfl))
        unfold drawClass at hc
        cases hs : styles c with
        | none => simp [hs] at hc
        | some a =>
          simp only [hs] at hc
          exact class_drawn hs hc

/-- **C152.** Each branch of the chosen classes is drawn once, between its own buses, in its own colour and width, and nothing else. -/
theorem own_lines {nx : Nx F} {d : Params F} {a : Call F C T} {fig : Fig F C T} (h : (iplot nx d a).1 = some fig) :
    ∃ l, List.Forall₂ (Depicts (applyLayouter nx a.net a.layouter) a.styles) (allBranches a.net a.classes) l ∧
    (a.mapbox = false → fig.shapes = some l) ∧
    (a.mapbox = true → ∃ pre post, fig.data = pre ++ l.map .line ++ post ∧ pre = (a.fig.map (·.data)).getD [] ∧ ∀ s, Trace.line s ∉ post) := by
  unfold iplot at h
  cases hd : drawBranches a.net (applyLayouter nx a.net a.layouter) a.styles a.classes with
  | none => simp [hd] at h
  | some l =>
    refine ⟨l, branches_drawn hd, ?_, ?_⟩
    · intro hm
      simp only [hd, hm] at h
      simp at h
      subst h
      rfl
    · intro hm
      have hp : ((a.fig.getD ⟨[], none, none⟩).data : List (Trace F C T)) = (a.fig.map (·.data)).getD [] := by cases a.fig <;> rfl
      simp only [hd, hm, if_true] at h
      have key : fig.data = (a.fig.getD ⟨[], none, none⟩).data ++ l.map .line ++ (((shown a.net a.classes).map (fun c => Trace.middles (middles (applyLayouter nx a.net a.layouter) (a.net.branches c)))) ++
          [Trace.markers (markers (applyLayouter nx a.net a.layouter) a.texts)]) := by
        cases hpar : a.mapboxParameters with
        | none =>
          simp only [hpar] at h
          split at h
          · simp at h
            subst h
            simp
          · simp at h
        | some p =>
          simp only [hpar] at h
          split at h
          · simp at h
            subst h
            simp
          · simp at h
      exact ⟨_, _, key, hp, by simp⟩

/-- **C152.** When a map is refused: if a class is chosen that is no branch class, or a branch has no colour or width, or a label comes twice. -/
theorem drawn_iff {nx : Nx F} {d : Params F} {a : Call F C T} (hm : a.mapbox = false) : (iplot nx d a).1.isSome = true ↔
    ∀ c ∈ a.classes, a.net.branches c ≠ [] → ∃ s, a.styles c = some s ∧ Clear s.1 ∧ Clear s.2 ∧ ∀ b ∈ a.net.branches c, (∃ v, Gives s.1 b.name v) ∧ ∃ v, Gives s.2 b.name v := by
  have e : (iplot nx d a).1.isSome = (drawBranches a.net (applyLayouter nx a.net a.layouter) a.styles a.classes).isSome := by
    unfold iplot
    cases hd : drawBranches a.net (applyLayouter nx a.net a.layouter) a.styles a.classes with
    | none => simp [hd]
    | some l => simp [hd, hm]
  rw [e, drawBranches, Option.isSome_map, mapM_isSome]
  unfold shown
  simp only [List.mem_filter, Bool.not_eq_true', List.isEmpty_eq_false_iff, and_imp]
  refine forall₂_congr fun c _ => imp_congr_right fun _ => ?_
  unfold drawClass
  cases hs : a.styles c with
  | none => simp
  | some s =>
    simp only [Option.some.injEq, exists_eq_left']
    have h1 := series_some ((a.net.branches c).map (·.name)) s.1
    have h2 := series_some ((a.net.branches c).map (·.name)) s.2
    simp only [List.mem_map, forall_exists_index, and_imp, forall_apply_eq_imp_iff₂] at h1 h2
    unfold classShapes
    constructor
    · intro h
      cases hw : branchSeries ((a.net.branches c).map (·.name)) s.2 with
      | none => simp [hw] at h
      | some ws =>
        cases hc : branchSeries ((a.net.branches c).map (·.name)) s.1 with
        | none => simp [hw, hc] at h
        | some cs =>
          rw [hc] at h1
          rw [hw] at h2
          obtain ⟨p1, p2⟩ := h1.mp rfl
          obtain ⟨q1, q2⟩ := h2.mp rfl
          exact ⟨p1, q1, fun b hb => ⟨p2 b hb, q2 b hb⟩⟩
    · rintro ⟨p1, q1, hb⟩
      obtain ⟨cs, hc⟩ := Option.isSome_iff_exists.mp (h1.mpr ⟨p1, fun b h => (hb b h).1⟩)
      obtain ⟨ws, hw⟩ := Option.isSome_iff_exists.mp (h2.mpr ⟨q1, fun b h => (hb b h).2⟩)
      simp only [hw, hc]
      rw [mapM_isSome]
      intro b hb
      obtain ⟨v, hv⟩ := Option.isSome_iff_exists.mp (series_lookup hc (List.mem_map.mpr ⟨b, hb, rfl⟩))
      obtain ⟨w, hw'⟩ := Option.isSome_iff_exists.mp (series_lookup hw (List.mem_map.mpr ⟨b, hb, rfl⟩))
      simp [hv, hw']

/-! ## Views -/

theorem midway (l : List (Option F)) : Midway l (middle l) := by
  have hm : ∀ c, c ∈ l.filterMap id ↔ some c ∈ l := by simp
  unfold middle
  cases h : l.filterMap id with
  | nil =>
    right
    refine ⟨by simp, fun c hc => ?_⟩
    have := (hm c).mpr hc
    rw [h] at this
    cases this
  | cons x r =>
    left
    rw [← h]
    obtain ⟨a, ha⟩ : ∃ a, (l.filterMap id).min? = some a := by rw [h]; exact ⟨_, rfl⟩
    obtain ⟨b, hb⟩ : ∃ b, (l.filterMap id).max? = some b := by rw [h]; exact ⟨_, rfl⟩
    have ha' := List.min?_eq_some_iff.mp ha
    have hb' := List.max?_eq_some_iff.mp hb
    exact ⟨a, b, by simp only [ha, hb], (hm a).mp ha'.1, (hm b).mp hb'.1, fun c hc => ⟨ha'.2 c ((hm c).mpr hc), hb'.2 c ((hm c).mpr hc)⟩⟩

theorem fill_eq {a : Call F C T} {p q : Params F} (h : fillView p a.mapboxToken a.mapboxStyle (center a.net) = (true, q)) :
    q = ⟨some (p.style.getD a.mapboxStyle), if a.mapboxToken ≠ "" then some a.mapboxToken else p.token, some (p.center.getD (center a.net)), some (p.zoom.getD 2)⟩ := by
  unfold fillView at h
  by_cases h1 : a.mapboxToken = ""
  · simp only [h1] at h
    simp at h
    split_ifs at h with h2
    · simp at h
    · simp only [Prod.mk.injEq, true_and] at h
      rw [← h]
      simp [h1]
  · simp [h1] at h
    rw [← h]
    simp [h1]

theorem fill_asked {a : Call F C T} {p q : Params F} (h : fillView p a.mapboxToken a.mapboxStyle (center a.net) = (true, q)) : Asked a p q := by
  rw [fill_eq h]
  exact ⟨rfl, rfl, ⟨_, rfl, midway _, midway _⟩, rfl⟩

/-- What a call can come to. -/
theorem call_cases (nx : Nx F) (d : Params F) (a : Call F C T) :
    (iplot nx d a = (none, d)) ∨
    (a.mapbox = false ∧ (iplot nx d a).2 = d ∧ ∃ fig, (iplot nx d a).1 = some fig) ∨
    (a.mapbox = true ∧ ∃ p, a.mapboxParameters = some p ∧ (iplot nx d a).2 = d ∧ ∃ q, fillView p a.mapboxToken a.mapboxStyle (center a.net) = (true, q) ∧
      ∃ fig, (iplot nx d a).1 = some fig ∧ fig.view = some (.own q)) ∨
    (a.mapbox = true ∧ a.mapboxParameters = none ∧ ((iplot nx d a).1 = none ∨ ∃ q, fillView d a.mapboxToken a.mapboxStyle (center a.net) = (true, q) ∧
      ∃ fig, (iplot nx d a).1 = some fig ∧ fig.view = some .default) ∧ (iplot nx d a).2 = (fillView d a.mapboxToken a.mapboxStyle (center a.net)).2) := by
  cases hdr : drawBranches a.net (applyLayouter nx a.net a.layouter) a.styles a.classes with
  | none => exact .inl (by simp only [iplot, hdr])
  | some l =>
    cases hm : a.mapbox with
    | false =>
      refine .inr (.inl ⟨rfl, ?_, ?_⟩)
      · simp [iplot, hdr, hm]
      · exact ⟨_, by simp only [iplot, hdr, hm]; rfl⟩
    | true =>
      cases hp : a.mapboxParameters with
      | some p =>
        rcases hq : fillView p a.mapboxToken a.mapboxStyle (center a.net) with ⟨_ | _, q⟩
        · exact .inl (by simp [iplot, hdr, hm, hp, hq])
        · exact .inr (.inr (.inl ⟨rfl, p, rfl, by simp [iplot, hdr, hm, hp, hq], q, hq, _, by simp only [iplot, hdr, hm, hp, hq]; rfl, rfl⟩))
      | none =>
        rcases hq : fillView d a.mapboxToken a.mapboxStyle (center a.net) with ⟨_ | _, q⟩
        · exact .inr (.inr (.inr ⟨rfl, rfl, .inl (by simp [iplot, hdr, hm, hp, hq]), by simp [iplot, hdr, hm, hp, hq]⟩))
        · exact .inr (.inr (.inr ⟨rfl, rfl, .inr ⟨q, rfl, _, by simp only [iplot, hdr, hm, hp, hq]; rfl, rfl⟩, by simp [iplot, hdr, hm, hp, hq]⟩))

theorem after_default {nx : Nx F} {earlier : List (Call F C T)} (h : ∀ b ∈ earlier, b.mapbox = false ∨ b.mapboxParameters.isSome = true) : ∀ d : Params F, after nx d earlier = d := by
  induction earlier with
  | nil => intro d; rfl
  | cons b l ih =>
    intro d
    have hb : (iplot nx d b).2 = d := by
      rcases call_cases nx d b with e | ⟨-, e, -⟩ | ⟨-, p, -, e, -⟩ | ⟨h1, h2, -⟩
      · rw [e]
      · exact e
      · exact e
      · rcases h b List.mem_cons_self with h3 | h3 <;> simp_all
    change after nx (iplot nx d b).2 l = d
    rw [hb]
    exact ih (fun b hb => h b (List.mem_cons_of_mem _ hb)) d

/-- **C152, in part.** A call with view parameters of its own gets the view it asks for, and so does the first call without any. -/
theorem own_view_partial {nx : Nx F} {earlier : List (Call F C T)} {a : Call F C T} {fig : Fig F C T} (hm : a.mapbox = true)
    (h : (iplot nx (after nx .none earlier) a).1 = some fig) (hp : a.mapboxParameters.isSome = true ∨ ∀ b ∈ earlier, b.mapbox = false ∨ b.mapboxParameters.isSome = true) :
    ∃ v, fig.view = some v ∧ Asked a (a.mapboxParameters.getD .none) (v.seen (after nx .none (earlier ++ [a]))) := by
  have hs : after nx .none (earlier ++ [a]) = (iplot nx (after nx .none earlier) a).2 := by simp [after, List.foldl_append]
  rw [hs]
  rcases call_cases nx (after nx .none earlier) a with e | ⟨h1, -⟩ | ⟨-, p, h1, -, q, hq, fig', h2, h3⟩ | ⟨-, h1, h2, h3⟩
  · rw [e] at h
    simp at h
  · simp [h1] at hm
  · rw [h] at h2
    cases h2
    refine ⟨_, h3, ?_⟩
    rw [h1]
    exact fill_asked hq
  · rcases h2 with h2 | ⟨q, hq, fig', h2, h4⟩
    · rw [h] at h2
      cases h2
    · rw [h] at h2
      cases h2
      refine ⟨_, h4, ?_⟩
      rw [h3, hq, h1]
      refine fill_asked ?_
      rcases hp with hp | hp
      · simp [h1] at hp
      · rw [after_default hp] at hq
        exact hq

theorem fill_keeps {p : Params F} {c : Option F × Option F} {s : Name} (hc : p.center = some c) (hs : p.style = some s) (token style : Name) (c' : Option F × Option F) :
    (fillView p token style c').2.center = some c ∧ (fillView p token style c').2.style = some s := by
  unfold fillView
  by_cases h : token = ""
  · simp only [h, ne_eq, not_true_eq_false, if_false]
    split_ifs <;> simp [hc, hs]
  · simp only [ne_eq, h, not_false_eq_true, if_true]
    split_ifs <;> simp [hc, hs]

theorem step_keeps {nx : Nx F} {d : Params F} (a : Call F C T) : (iplot nx d a).2 = d ∨ (iplot nx d a).2 = (fillView d a.mapboxToken a.mapboxStyle (center a.net)).2 := by
  rcases call_cases nx d a with e | ⟨-, e, -⟩ | ⟨-, p, -, e, -⟩ | ⟨-, -, -, e⟩
  · exact .inl (by rw [e])
  · exact .inl e
  · exact .inl e
  · exact .inr e

theorem after_keeps {nx : Nx F} {c : Option F × Option F} {s : Name} (calls : List (Call F C T)) : ∀ {d : Params F}, d.center = some c → d.style = some s →
    (after nx d calls).center = some c ∧ (after nx d calls).style = some s := by
  induction calls with
  | nil => exact fun h1 h2 => ⟨h1, h2⟩
  | cons a l ih =>
    intro d h1 h2
    change (after nx (iplot nx d a).2 l).center = some c ∧ (after nx (iplot nx d a).2 l).style = some s
    rcases step_keeps (nx := nx) (d := d) a with e | e
    · rw [e]
      exact ih h1 h2
    · rw [e]
      exact ih (fill_keeps h1 h2 ..).1 (fill_keeps h1 h2 ..).2

/-- **C152.** After one map without view parameters of its own, every later one shows the same middle in the same style, whatever its network and style are. -/
theorem first_view_stays {nx : Nx F} {first : Call F C T} {fig : Fig F C T} (hm : first.mapbox = true) (hp : first.mapboxParameters = none) (h : (iplot nx .none first).1 = some fig)
    (later : List (Call F C T)) : (after nx .none (first :: later)).style = some first.mapboxStyle ∧
      ∃ c, (after nx .none (first :: later)).center = some c ∧ Midway (first.net.buses.map (·.2.1)) c.1 ∧ Midway (first.net.buses.map (·.2.2)) c.2 := by
  rcases call_cases nx .none first with e | ⟨h1, -⟩ | ⟨-, p, h1, -⟩ | ⟨-, -, h2, h3⟩
  · rw [e] at h
    simp at h
  · simp [h1] at hm
  · simp [h1] at hp
  · rcases h2 with h2 | ⟨q, hq, -⟩
    · rw [h] at h2
      cases h2
    · obtain ⟨hs, -, ⟨c, hc, hx, hy⟩, -⟩ := fill_asked hq
      rw [hq] at h3
      replace h3 : (iplot nx Params.none first).2 = q := h3
      rw [← h3] at hs hc
      have hk := after_keeps (nx := nx) later hc hs
      exact ⟨hk.2, c, hk.1, hx, hy⟩

/-! ## Figures that are built upon -/

/-- **C152.** Traces of a figure that is built upon stay. -/
theorem keeps_data {nx : Nx F} {d : Params F} {a : Call F C T} {old fig : Fig F C T} (ho : a.fig = some old) (h : (iplot nx d a).1 = some fig) : old.data <+: fig.data := by
  cases hm : a.mapbox with
  | true =>
    obtain ⟨l, -, -, h2⟩ := own_lines h
    obtain ⟨pre, post, e, hp, -⟩ := h2 hm
    rw [ho] at hp
    simp only [Option.map_some, Option.getD_some] at hp
    exact ⟨l.map .line ++ post, by rw [e, hp, List.append_assoc]⟩
  | false =>
    unfold iplot at h
    cases hdr : drawBranches a.net (applyLayouter nx a.net a.layouter) a.styles a.classes with
    | none => simp [hdr] at h
    | some l =>
      simp only [hdr, hm] at h
      simp at h
      subst h
      rw [ho]
      exact ⟨_, rfl⟩

/-! ## Positions -/

/-- Other coordinates. -/
def moved (a : Call F C T) (f : Name × Option F × Option F → Option F × Option F) : Call F C T :=
  { a with net := { a.net with buses := a.net.buses.map (fun b => (b.1, f b)) } }

/-- **C152.** Interactive maps do not look at the coordinates of buses: with any others the figure is the same. -/
theorem ignores_coordinates (nx : Nx F) (d : Params F) (a : Call F C T) (hm : a.mapbox = false) (f : Name × Option F × Option F → Option F × Option F) :
    iplot nx d (moved a f) = iplot nx d a := by
  have hg : graph (moved a f).net = graph a.net := by simp [graph, moved, Function.comp_def]
  have hp : applyLayouter nx (moved a f).net (moved a f).layouter = applyLayouter nx a.net a.layouter := by
    unfold applyLayouter
    rw [hg]
    rfl
  have hs : shown (moved a f).net (moved a f).classes = shown a.net a.classes := rfl
  have hdr : drawBranches (moved a f).net (applyLayouter nx (moved a f).net (moved a f).layouter) (moved a f).styles (moved a f).classes =
      drawBranches a.net (applyLayouter nx a.net a.layouter) a.styles a.classes := by
    rw [hp]
    rfl
  simp only [iplot, hdr, hp, hs]
  simp only [show (moved a f).mapbox = false from hm, hm]
  rfl

/-- **C152.** A static map shows buses at their coordinates, if there is one that is neither missing nor zero and no layout is asked for. -/
theorem static_coordinates (nx : Nx F) (n : MapNet F) {b : Name} {x y : Option F} (hb : (b, x, y) ∈ n.buses) (h : x.getD 0 ≠ 0 ∨ y.getD 0 ≠ 0) : staticPlaces nx n none = n.buses := by
  unfold staticPlaces
  rw [if_neg]
  simp only [Option.isSome_none, Bool.false_or, List.all_eq_true, not_forall]
  refine ⟨_, hb, ?_⟩
  rcases h with h | h <;> simp [h]

/-- **C152.** A static map does not use the layout it is handed: any two give the same map. -/
theorem layouts_alike (nx : Nx F) (n : MapNet F) (f g : Graph → Table F) : staticPlaces nx n (some f) = staticPlaces nx n (some g) := rfl

/-- **C152.** Markers show the text of their own bus, if positions and texts come in the same order. -/
theorem own_markers {pos : Table F} {texts : List T} (hl : texts.length = pos.length) (i : Nat) (p : Name × F × F) (t : T) (hp : pos[i]? = some p) (ht : texts[i]? = some t) :
    (markers pos texts)[i]? = some (p.2, some t) := by
  simp [markers, hp, ht]

/-- **C152.** The label of a branch lies halfway between the places of its buses. -/
theorem own_middles {pos : Table F} {bs : List Branch} (i : Nat) (b : Branch) (hb : bs[i]? = some b) : ∃ m, (middles pos bs)[i]? = some m ∧
    ∀ p, m = some p ↔ ∃ x0 y0 x1 y1, Puts pos b.bus0 (some x0) (some y0) ∧ Puts pos b.bus1 (some x1) (some y1) ∧ p = ((x0 + x1) / 2, (y0 + y1) / 2) := by
  have hput : ∀ (c : Name) (x y : F), Puts pos c (some x) (some y) ↔ pos.lookup c = some (x, y) := by
    intro c x y
    unfold Puts
    constructor
    · rintro (⟨p, h, h1, h2⟩ | ⟨-, h, -⟩)
      · cases h1; cases h2; exact h
      · cases h
    · exact fun h => .inl ⟨_, h, rfl, rfl⟩
  refine ⟨_, by simp only [middles, List.getElem?_map, hb, Option.map_some]; rfl, fun p => ?_⟩
  simp only [hput]
  cases h0 : pos.lookup b.bus0 with
  | none => simp
  | some p0 =>
    cases h1 : pos.lookup b.bus1 with
    | none => simp
    | some p1 =>
      simp only [Option.some.injEq]
      constructor
      · rintro rfl
        exact ⟨p0.1, p0.2, p1.1, p1.2, rfl, rfl, by rw [Prod.mk.injEq]; exact ⟨by ring, by ring⟩⟩
      · rintro ⟨x0, y0, x1, y1, rfl, rfl, rfl⟩
        rw [Prod.mk.injEq]
        exact ⟨by ring, by ring⟩

/-! ## Static maps -/

/-- **C152, in part.** Without geometry: the branches named in a Series are drawn, all if there is none, each once, between its own buses with its own colour and width. -/
theorem static_lines_partial {pos : Table F} {bs : List Branch} {widths : Arg F} {colors : Arg C} {l : List (Segment F C)} (hn : (bs.map (·.name)).Nodup)
    (h : staticLines pos bs widths colors .off = some l) :
    (l.map (·.branch)).Nodup ∧ (∀ s ∈ l, ∃ b ∈ bs, s.branch = b.name ∧ s.start = pos.lookup b.bus0 ∧ s.stop = pos.lookup b.bus1 ∧
      (∀ v, s.color = some v → Gives colors b.name v) ∧ (∀ v, s.width = some v → Gives widths b.name v)) ∧
    ∀ b ∈ bs, ((∃ s ∈ l, s.branch = b.name) ↔ (∀ ls, widths.labels = some ls → colors.labels = none → b.name ∈ ls) ∧ (∀ ls, colors.labels = some ls → widths.labels = none → b.name ∈ ls) ∧
      ∀ ls ls', widths.labels = some ls → colors.labels = some ls' → b.name ∈ ls ∨ b.name ∈ ls') := by
  have h2 := mapM_forall₂ h
  have hcell : ∀ {A : Type} (a : Arg A) (i : Name) (v : A), a.cell i = some v → Gives a i v := by
    intro A a i v hv
    cases a with
    | one x => simpa [Arg.cell, Gives, eq_comm] using hv
    | each s =>
      unfold Arg.cell at hv
      simp only at hv
      cases hs : s.lookup i with
      | none => simp [hs] at hv
      | some o =>
        simp only [hs, Option.getD_some] at hv
        subst hv
        exact lookup_mem hs
  have hrow : ∀ i s, lineRow pos bs widths colors i = some s → s.branch = i ∧ ∃ b ∈ bs, i = b.name ∧ s.start = pos.lookup b.bus0 ∧ s.stop = pos.lookup b.bus1 ∧
      (∀ v, s.color = some v → Gives colors b.name v) ∧ (∀ v, s.width = some v → Gives widths b.name v) := by
    intro i s e
    unfold lineRow at e
    cases hf : bs.find? (fun b => b.name = i) with
    | none => simp [hf] at e
    | some b =>
      simp only [hf, Option.some.injEq] at e
      subst e
      have hb := List.mem_of_find?_eq_some hf
      have hi : b.name = i := by simpa using List.find?_some hf
      subst hi
      exact ⟨rfl, b, hb, rfl, rfl, rfl, fun v hv => hcell _ _ _ hv, fun v hv => hcell _ _ _ hv⟩
  have hnames : l.map (·.branch) = rowsOf (bs.map (·.name)) [widths.labels, colors.labels] := by
    clear h
    revert h2
    generalize rowsOf (bs.map (·.name)) [widths.labels, colors.labels] = rows
    intro h2
    induction h2 with
    | nil => rfl
    | cons e hrest ih => rw [List.map_cons, ih, (hrow _ _ e).1]
  have hmem : ∀ i, i ∈ rowsOf (bs.map (·.name)) [widths.labels, colors.labels] ↔ (∃ s ∈ l, s.branch = i) := by
    intro i
    rw [← hnames, List.mem_map]
  refine ⟨?_, ?_, ?_⟩
  · rw [hnames]
    unfold rowsOf
    split
    · exact hn
    · exact List.nodup_dedup _
  · intro s hs
    obtain ⟨i, e⟩ : ∃ i, lineRow pos bs widths colors i = some s := by
      clear h hnames hmem
      revert h2
      generalize rowsOf (bs.map (·.name)) [widths.labels, colors.labels] = rows
      intro h2
      induction h2 with
      | nil => simp at hs
      | cons e hrest ih =>
        rcases List.mem_cons.mp hs with rfl | h0
        · exact ⟨_, e⟩
        · exact ih h0
    obtain ⟨h1, b, hb, rfl, h3⟩ := hrow i s e
    exact ⟨b, hb, h1, h3⟩
  · intro b hb
    rw [← hmem]
    have hbn : b.name ∈ bs.map (·.name) := List.mem_map.mpr ⟨b, hb, rfl⟩
    cases hw : widths.labels with
    | none =>
      cases hc : colors.labels with
      | none => simp [rowsOf, hbn]
      | some ls => simp [rowsOf]
    | some ls =>
      cases hc : colors.labels with
      | none => simp [rowsOf]
      | some ls' => simp [rowsOf]

/-! ## `explore` -/

/-- **C152.** A layer of branches shows exactly the branches of the class whose buses both have coordinates (and whose line is valid), each between its own buses. -/
theorem explore_rows {n : MapNet F} {valid : F × F → F × F → Bool} {netCrs given : Option Nat} {components : List Name} {l : Layer F}
    (hl : l ∈ exploreBranches n valid netCrs given components) (hn : (n.buses.map (·.1)).Nodup) (i : Name) (p q : F × F) :
    (i, p, q) ∈ l.items ↔ ∃ b ∈ n.branches l.component, b.name = i ∧ (b.bus0, some p.1, some p.2) ∈ n.buses ∧ (b.bus1, some q.1, some q.2) ∈ n.buses ∧ valid p q = true := by
  have hplace : ∀ b (r : F × F), place n b = some r ↔ (b, some r.1, some r.2) ∈ n.buses := by
    intro b r
    unfold place
    constructor
    · intro h
      cases hb : n.buses.lookup b with
      | none => simp [hb] at h
      | some e =>
        obtain ⟨x, y⟩ := e
        cases x with
        | none => simp [hb] at h
        | some x =>
          cases y with
          | none => simp [hb] at h
          | some y =>
            simp only [hb, Option.some.injEq] at h
            subst h
            exact lookup_mem hb
    · intro h
      rw [lookup_of_mem hn h]
  obtain ⟨c, crs, hi⟩ : ∃ c crs, l = ⟨c, crs, exploreRows n valid (n.branches c)⟩ := by
    unfold exploreBranches at hl
    obtain ⟨e, -, he⟩ := List.mem_filterMap.mp hl
    split_ifs at he
    exact ⟨e.1, e.2, by simpa using he.symm⟩
  subst hi
  simp only [exploreRows, List.mem_filterMap]
  refine exists_congr fun b => and_congr_right fun _ => ?_
  rw [← hplace, ← hplace]
  cases h0 : place n b.bus0 with
  | none => simp
  | some p' =>
    cases h1 : place n b.bus1 with
    | none => simp
    | some q' =>
      by_cases hv : valid p' q' = true
      · simp only [hv, if_true, Option.some.injEq, Prod.mk.injEq]
        constructor
        · rintro ⟨rfl, rfl, rfl⟩
          exact ⟨rfl, rfl, rfl, hv⟩
        · rintro ⟨rfl, rfl, rfl, -⟩
          exact ⟨rfl, rfl, rfl⟩
      · simp only [hv, Bool.false_eq_true, if_false, Option.some.injEq, reduceCtorEq, false_iff]
        rintro ⟨-, rfl, rfl, h⟩
        exact hv h

/-- **C152.** There is a layer for each class of branches that is chosen and has branches, and one only. -/
theorem explore_layers {n : MapNet F} {valid : F × F → F × F → Bool} {netCrs given : Option Nat} {components : List Name} :
    ((exploreBranches n valid netCrs given components).map (·.component)).Nodup ∧ ∀ c, (∃ l ∈ exploreBranches n valid netCrs given components, l.component = c) ↔
      (c = "Line" ∨ c = "Link" ∨ c = "Transformer") ∧ c ∈ components ∧ ∃ b, b ∈ n.branches c := by
  constructor
  · unfold exploreBranches
    have : (["Transformer", "Line", "Link"] : List Name).Nodup := by decide
    refine List.Nodup.sublist ?_ this
    simp only [List.filterMap_cons, List.filterMap_nil]
    split_ifs <;> simp
  · intro c
    simp only [exploreBranches, List.mem_filterMap]
    constructor
    · rintro ⟨l, ⟨e, he, h⟩, rfl⟩
      split_ifs at h with h1
      simp only [Option.some.injEq] at h
      subst h
      simp only [List.mem_cons, List.not_mem_nil, or_false] at he
      simp only [Bool.and_eq_true, Bool.not_eq_true', List.isEmpty_eq_false_iff_exists_mem, List.contains_iff_mem] at h1
      refine ⟨?_, h1.2, h1.1⟩
      rcases he with rfl | rfl | rfl <;> simp
    · rintro ⟨h1, h2, h3⟩
      obtain ⟨e, he, rfl⟩ : ∃ e ∈ [("Transformer", exploreCrs netCrs given), ("Line", exploreCrs netCrs given), ("Link", 4326)], e.1 = c := by
        rcases h1 with rfl | rfl | rfl <;> simp
      refine ⟨_, ⟨e, he, if_pos ?_⟩, rfl⟩
      simp only [Bool.and_eq_true, Bool.not_eq_true', List.isEmpty_eq_false_iff_exists_mem, List.contains_iff_mem]
      exact ⟨h3, h2⟩

/-- All layers of branches are placed with the system that is given, else with that of the network. -/
def PlacedAs (F : Type) [Field F] [LinearOrder F] : Prop := ∀ (n : MapNet F) (valid : F × F → F × F → Bool) (netCrs : Nat) (given : Option Nat) (components : List Name),
  ∀ l ∈ exploreBranches n valid (some netCrs) given components, l.crs = given.getD netCrs

/-- **C152, in part.** Lines and transformers are placed with the system of the network if none is given. -/
theorem placed_partial {n : MapNet F} {valid : F × F → F × F → Bool} {netCrs : Nat} {components : List Name} {l : Layer F}
    (hl : l ∈ exploreBranches n valid (some netCrs) none components) (hc : l.component ≠ "Link") : l.crs = netCrs := by
  unfold exploreBranches at hl
  obtain ⟨e, he, h⟩ := List.mem_filterMap.mp hl
  split_ifs at h
  simp only [Option.some.injEq] at h
  subst h
  simp only [List.mem_cons, List.not_mem_nil, or_false] at he
  rcases he with rfl | rfl | rfl
  · rfl
  · rfl
  · exact absurd rfl hc

/-- **C152.** A system that is given is never used: all layers are placed with the default. -/
theorem given_unused {n : MapNet F} {valid : F × F → F × F → Bool} {netCrs : Option Nat} {given : Nat} {components : List Name} {l : Layer F}
    (hl : l ∈ exploreBranches n valid netCrs (some given) components) : l.crs = 4326 := by
  unfold exploreBranches at hl
  obtain ⟨e, he, h⟩ := List.mem_filterMap.mp hl
  split_ifs at h
  simp only [Option.some.injEq] at h
  subst h
  simp only [List.mem_cons, List.not_mem_nil, or_false] at he
  rcases he with rfl | rfl | rfl <;> cases netCrs <;> rfl

/-! ## Examples -/

/-- Two buses and a line. -/
def exNet (x : ℚ) : MapNet ℚ := ⟨[("A", some x, some 50), ("B", some (x + 2), some 52)], fun c => if c = "Line" then [⟨"l", "A", "B"⟩] else []⟩

def exNx : Nx ℚ := ⟨fun _ => true, fun g => (g.nodes.zipIdx).map (fun e => (e.1, (e.2 : ℚ), 0)), fun _ => []⟩

def exCall (x : ℚ) (mapbox : Bool) (style : Name) : Call ℚ Name Name where
  net := exNet x
  fig := none
  layouter := none
  texts := ["Bus A", "Bus B"]
  styles := fun c => if c = "Line" then some (.one "red", .each [("k", some 1), ("l", some 3)]) else none
  classes := ["Line", "Link"]
  mapbox := mapbox
  mapboxStyle := style
  mapboxToken := ""
  mapboxParameters := none

example : ((iplot exNx .none (exCall 5 false "")).1.bind (·.shapes)) = some [⟨some 0, some 0, some 1, some 0, "red", 3⟩] := by decide +kernel

example : (iplot exNx .none (exCall 5 false "")).1.isSome = true := (drawn_iff rfl).mpr (by
  intro c hc h
  rcases List.mem_cons.mp hc with rfl | hc
  · refine ⟨_, rfl, trivial, by simp [Clear], fun b hb => ⟨⟨"red", rfl⟩, ⟨3, ?_⟩⟩⟩
    obtain rfl := List.mem_singleton.mp hb
    simp [Gives]
  · obtain rfl := List.mem_singleton.mp hc
    exact absurd rfl h)

/-- **C152, not met.** The second map shows the place of the first network in the style of the first call. -/
theorem not_own_views : ¬ OwnViews ℚ Name Name := by
  intro h
  obtain ⟨v, hv, ha⟩ := h exNx [exCall 5 true "white-bg"] (exCall 20 true "open-street-map") _ rfl rfl
  simp only [Option.some.injEq] at hv
  subst hv
  have := ha.style
  revert this
  decide +kernel

example : (after exNx .none [exCall 5 true "white-bg", exCall 20 true "open-street-map"]).center = some (some 6, some 51) ∧ center (exNet 20) = (some 21, some 51) := by decide +kernel

/-- **C152, not met.** A later call changes the token in a figure that was made before. -/
theorem not_lasting_views : ¬ LastingViews ℚ Name Name := by
  intro h
  have := h exNx (exCall 5 true "white-bg") _ _ [{ exCall 5 true "white-bg" with mapboxToken := "secret" }] rfl rfl
  have := congrArg Params.token this
  revert this
  decide +kernel

/-- **C152, not met.** Buses are not shown at their coordinates. -/
theorem not_at_coordinates : ¬ AtCoordinates ℚ Name Name := by
  intro h
  obtain ⟨l, hl, hm⟩ := h exNx (exCall 5 false "") _ 5 50 "A" rfl rfl (by decide +kernel)
  simp [exCall, exNet, exNx, applyLayouter, graph, markers, shown] at hl
  subst hl
  revert hm
  decide +kernel

/-- **C152, not met.** Lines of a figure that is built upon are lost. -/
theorem not_keeps : ¬ Keeps ℚ Name Name := by
  intro h
  obtain ⟨l, hl, hm⟩ := h exNx { exCall 5 false "" with fig := some ⟨[], some [⟨none, none, none, none, "blue", 1⟩], none⟩ } _ _ _ ⟨none, none, none, none, "blue", 1⟩ rfl
    rfl rfl (by decide +kernel)
  simp only [Option.some.injEq] at hl
  subst hl
  revert hm
  decide +kernel

/-- **C152, not met.** Neither a given system nor, for links, that of the network is used. -/
theorem not_placed : ¬ PlacedAs ℚ := by
  intro h
  have := h ⟨[("A", some 0, some 0), ("B", some 1, some 1)], fun c => if c = "Link" then [⟨"l", "A", "B"⟩] else []⟩ (fun _ _ => true) 3035 none ["Link"] _ List.mem_cons_self
  revert this
  decide +kernel

/-- `explore` leaves a line out if a bus has no coordinates. -/
example : (exploreBranches ⟨[("A", some (0 : ℚ), some 0), ("B", some 1, some 1), ("C", none, some 1)], fun c => if c = "Line" then [⟨"l", "A", "B"⟩, ⟨"m", "B", "C"⟩] else []⟩
    (fun _ _ => true) (some 3035) none ["Line"]).map (fun l => (l.crs, l.items)) = [(3035, [("l", (0, 0), (1, 1))])] := by decide +kernel

/-- The second map with parameters of its own is as asked. -/
example : ((iplot exNx (after exNx .none [exCall 5 true "white-bg"]) { exCall 20 true "open-street-map" with mapboxParameters := some ⟨none, none, none, some 4⟩ }).1.bind (·.view)).map
    (fun v => v.seen .none) = some ⟨some "open-street-map", none, some (some 21, some 51), some 4⟩ := by decide +kernel

/-- Static maps take a layout other than that which was handed over. -/
example : staticPlaces exNx (exNet 5) (some (fun _ => [("A", 7, 7), ("B", 8, 8)])) = [("A", some 0, some 0), ("B", some 1, some 0)] := by decide +kernel

/-- With widths for one of two lines the other one is not drawn. -/
example : (staticLines [("A", (0 : ℚ), 0), ("B", 1, 1)] [⟨"l", "A", "B"⟩, ⟨"m", "B", "A"⟩] (.each [("l", some 2)]) (.one "red") .off).map (·.map (·.branch)) = some ["l"] := by decide +kernel

end Verif.Plot.Interactive
