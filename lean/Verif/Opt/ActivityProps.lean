import Verif.Opt.Activity
import Mathlib.Data.List.Forall2
import Mathlib.Data.List.Nodup
import Mathlib.Tactic.NormNum

/-! # Properties of asset activity (C36) and per-unit bounds (C37) -/

namespace Verif.Opt

/-- The lifetime interval of the asset contains the year. -/
def InLifetime (a : Asset) (p : Int) : Prop :=
  (a.build : ℚ) ≤ p ∧ ∀ l, a.life = some l → (p : ℚ) - a.build < l

theorem alive_iff (a : Asset) (p : Int) : a.alive p = true ↔ InLifetime a p := by
  unfold Asset.alive InLifetime
  cases a.life with
  | none => simp
  | some l => simp [sub_lt_iff_lt_add']

/-- C36: without periods exactly the `active` flags are returned; with periods, for a class with
build years, unknown periods raise, and otherwise an asset is active iff its flag is set and its
lifetime interval contains one of the periods.  Missing from the full claim: unknown periods for
a class without build years (`unknown_period_accepted`). -/
theorem active_assets_partial (known : List Int) (assets : List Asset) :
    (∀ hasYears, getActive hasYears known none assets = .ok (assets.map fun a => (a.name, a.active))) ∧
    (∀ ps, getActive true known (some ps) assets = .error .valueError ↔ ∃ p ∈ ps, p ∉ known) ∧
    (∀ ps out, getActive true known (some ps) assets = .ok out →
      List.Forall₂ (fun a o => o.1 = a.name ∧
        (o.2 = true ↔ a.active = true ∧ ∃ p ∈ ps, InLifetime a p)) assets out) := by
  refine ⟨fun _ => rfl, ?_, ?_⟩
  · intro ps
    simp only [getActive, Bool.not_true, Bool.false_eq_true, if_false]
    split
    · rename_i h; simpa using h
    · rename_i h
      simp only [List.any_eq_true, Bool.not_eq_true', List.contains_eq_mem, decide_eq_false_iff_not,
        not_exists, not_and, not_not] at h
      simpa using h
  · intro ps out h
    simp only [getActive, Bool.not_true, Bool.false_eq_true, if_false] at h
    split at h
    · simp at h
    · simp only [Except.ok.injEq] at h
      subst h
      rw [List.forall₂_map_right_iff, List.forall₂_same]
      intro a _
      refine ⟨rfl, ?_⟩
      simp only [Bool.and_eq_true, List.any_eq_true, alive_iff]
      exact and_comm

/-- C36 (mask): in the optimisation over several investment periods, the entry of an asset at a
snapshot is its activity in the period of the snapshot; otherwise it is the `active` flag. -/
theorem activity_mask {T : Type} (multi : Bool) (known : List Int) (sns : List (Int × T))
    (assets : List Asset) (hs : ∀ s ∈ sns, s.1 ∈ known) :
    ∃ out, activityMask multi true known sns assets = .ok out ∧
      List.Forall₂ (fun s o => o.1 = s ∧ List.Forall₂ (fun a e => e.1 = a.name ∧
        (e.2 = true ↔ a.active = true ∧ (multi = true → InLifetime a s.1))) assets o.2) sns out := by
  cases multi with
  | false =>
    refine ⟨_, rfl, ?_⟩
    rw [List.forall₂_map_right_iff, List.forall₂_same]
    intro s _
    refine ⟨rfl, ?_⟩
    rw [List.forall₂_map_right_iff, List.forall₂_same]
    intro a _; simp
  | true =>
    have hok : ∀ p ∈ known, getActive true known (some [p]) assets =
        .ok (assets.map (fun a => (a.name, [p].any a.alive && a.active))) := by
      intro p hp; simp [getActive, hp]
    have hall : known.all (fun p => (getActive true known (some [p]) assets).isOk) = true := by
      rw [List.all_eq_true]; intro p hp; rw [hok p hp]; rfl
    simp only [activityMask, if_true, hall]
    refine ⟨_, rfl, ?_⟩
    rw [List.forall₂_map_right_iff, List.forall₂_same]
    intro s hs'
    refine ⟨rfl, ?_⟩
    simp only [hok _ (hs s hs')]
    rw [List.forall₂_map_right_iff, List.forall₂_same]
    intro a _
    refine ⟨rfl, ?_⟩
    simp [alive_iff, and_comm]

example : getActive true [2020, 2030, 2040] (some [2030, 2040])
    [⟨"a", true, 2020, some 10⟩, ⟨"b", true, 2020, some 11⟩, ⟨"c", false, 2030, none⟩,
      ⟨"d", true, 2040, none⟩] =
    .ok [("a", false), ("b", true), ("c", false), ("d", true)] := by decide +kernel

/-- Finding (C36): for a class without build years (loads, buses), an unknown period is
accepted. -/
theorem unknown_period_accepted :
    getActive false [2020] (some [1999]) [⟨"load", true, 0, none⟩] = .ok [("load", true)] := by
  decide +kernel

/-- Documented bounds. -/
inductive DocBounds {F : Type} [Neg F] [Zero F] (dense : String → F) (maxHours : F) :
    Cls → String → F × F → Prop
  | line (a) : DocBounds dense maxHours .line a (- dense "s_max_pu", dense "s_max_pu")
  | transformer (a) : DocBounds dense maxHours .transformer a (- dense "s_max_pu", dense "s_max_pu")
  | dispatch : DocBounds dense maxHours .storageUnit "p_dispatch" (0, dense "p_max_pu")
  | store : DocBounds dense maxHours .storageUnit "p_store" (0, - dense "p_min_pu")
  | soc : DocBounds dense maxHours .storageUnit "state_of_charge" (0, maxHours)
  | generator (a) : DocBounds dense maxHours .generator a (dense "p_min_pu", dense "p_max_pu")
  | link (a) : DocBounds dense maxHours .link a (dense "p_min_pu", dense "p_max_pu")
  | energy (a) : DocBounds dense maxHours .store a (dense "e_min_pu", dense "e_max_pu")

/-- C37: the bounds are the documented ones. -/
theorem bounds_documented {F : Type} [Neg F] [Zero F] (dense : String → F) (maxHours : F) (c : Cls)
    (attr : String) (b : F × F) (h : DocBounds dense maxHours c attr b) :
    boundsPu c attr dense maxHours = b := by
  have e1 : replaceNom "s_nom" "max_pu" = "s_max_pu" := by decide
  have e2 : replaceNom "p_nom" "max_pu" = "p_max_pu" := by decide
  have e3 : replaceNom "p_nom" "min_pu" = "p_min_pu" := by decide
  have e4 : replaceNom "e_nom" "max_pu" = "e_max_pu" := by decide
  have e5 : replaceNom "e_nom" "min_pu" = "e_min_pu" := by decide
  cases h <;> simp [boundsPu, nominalAttr, passive, e1, e2, e3, e4, e5]

/-- C37 (subset): restricting to a subset keeps the values, names without a row get NaN. -/
theorem bounds_reindexed {F : Type} (cols : List (Name × F)) (hn : (cols.map Prod.fst).Nodup)
    (ix : List Name) :
    List.Forall₂ (fun n o => o.1 = n ∧ ∀ x, o.2 = some x ↔ (n, x) ∈ cols) ix
      (reindexed (some ix) cols) := by
  unfold reindexed
  simp only
  rw [List.forall₂_map_right_iff, List.forall₂_same]
  intro n _
  refine ⟨rfl, fun x => ?_⟩
  cases hf : cols.find? (fun e => e.1 = n) with
  | none =>
    simp only [Option.map_none, reduceCtorEq, false_iff]
    intro h
    have := List.find?_eq_none.mp hf _ h
    simp at this
  | some e =>
    have h1 : e.1 = n := by simpa using List.find?_some hf
    have h2 := List.mem_of_find?_eq_some hf
    simp only [Option.map_some, Option.some.injEq]
    constructor
    · rintro rfl; rw [← h1]; exact h2
    · intro h
      have := List.inj_on_of_nodup_map hn h2 h (by simpa using h1)
      rw [this]

example : DocBounds (F := ℚ) (fun a => if a = "p_min_pu" then -1 else 1) 6 .storageUnit "p_store"
    (0, 1) := by
  have := DocBounds.store (F := ℚ) (dense := fun a => if a = "p_min_pu" then -1 else 1)
    (maxHours := 6)
  simpa using this

end Verif.Opt
