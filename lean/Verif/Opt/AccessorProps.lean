import Verif.Opt.Accessor
import Verif.Opt.UnitProps
import Verif.Opt.NodalProps
import Verif.Opt.LossesProps
import Mathlib.Algebra.Order.Group.Abs

/-!
# Operational bounds, fixed capacities, load shedding (C58, C59, C92)
-/

namespace Verif.Opt.Accessor

variable {F : Type} [Field F] [LinearOrder F] [IsStrictOrderedRing F]

/-! ## C92 -/

/-- The capacity of an asset in a solution. -/
def capacity (a : Asset F) (val : BVar → F) : F := if a.ext then val .cap else a.nom

/-- Rows of an asset in service, for any bounds. -/
theorem opRows_iff (c : Cls) (attr : Attr') (losses : Bool) (a : Asset F) (ha : a.active = true) (val : BVar → F) :
    Feasible val (opRows c attr losses a) ↔
      (boundsPu c attr a).1 * capacity a val ≤ val .x - (if passive c && losses then val .loss else 0) ∧
      val .x + (if passive c && losses then val .loss else 0) ≤ (boundsPu c attr a).2 * capacity a val := by
  unfold opRows fixRows extRows capacity lossTm
  cases he : a.ext <;> cases hl : (passive c && losses) <;>
    simp only [ha, feasible_append, feasible_cons, feasible_nil, Con.holds, lin_cons, lin_nil, Bool.or_false,
      Bool.or_true, Bool.not_true, Bool.not_false, Bool.false_eq_true, if_true, if_false, and_true, true_and] <;>
    constructor <;> rintro ⟨h1, h2⟩ <;> constructor <;> linarith

/-- C92: the bounds of a passive branch hold exactly if flow plus losses are within the rating, so that also the
power recorded at both ends is. -/
theorem branch_rating (c : Cls) (hc : c = .line ∨ c = .transformer) (attr : Attr') (losses : Bool) (a : Asset F)
    (ha : a.active = true) (val : BVar → F) :
    (Feasible val (opRows c attr losses a) ↔
      |val .x| + (if losses then val .loss else 0) ≤ a.maxPu * capacity a val) ∧
    (Feasible val (opRows c attr losses a) → 0 ≤ val .loss →
      |val .x + (if losses then val .loss / 2 else 0)| ≤ a.maxPu * capacity a val ∧
      |- val .x + (if losses then val .loss / 2 else 0)| ≤ a.maxPu * capacity a val) := by
  have hp : passive c = true := by rcases hc with rfl | rfl <;> rfl
  have hb : boundsPu c attr a = (- a.maxPu, a.maxPu) := by rcases hc with rfl | rfl <;> rfl
  have key : Feasible val (opRows c attr losses a) ↔
      |val .x| + (if losses then val .loss else 0) ≤ a.maxPu * capacity a val := by
    rw [opRows_iff c attr losses a ha, hp, hb, Bool.true_and]
    have habs : ∀ x l R : F, |x| + l ≤ R ↔ -R ≤ x - l ∧ x + l ≤ R := by
      intro x l R
      rw [← le_sub_iff_add_le, abs_le]
      constructor <;> rintro ⟨h1, h2⟩ <;> constructor <;> linarith
    rw [habs, neg_mul]
  refine ⟨key, fun h hl => ?_⟩
  have h' := key.mp h
  have h1 := le_abs_self (val .x)
  have h2 := neg_abs_le (val .x)
  cases losses with
  | false =>
    simp only [Bool.false_eq_true, if_false, add_zero] at h' ⊢
    exact ⟨h', by rw [abs_neg]; exact h'⟩
  | true =>
    simp only [if_true] at h' ⊢
    constructor <;> rw [abs_le] <;> constructor <;> linarith

/-- C92: storage units charge and discharge at most at their rated power, and
their content is within the maximal hours, so that the net dispatch is within its bounds. -/
theorem storage_unit_bounds (losses : Bool) (a : Asset F) (ha : a.active = true)
    (dispatch charge soc : BVar → F) (hcap1 : dispatch .cap = soc .cap) (hcap2 : charge .cap = soc .cap)
    (h1 : Feasible dispatch (opRows .storageUnit .pDispatch losses a))
    (h2 : Feasible charge (opRows .storageUnit .pStore losses a))
    (h3 : Feasible soc (opRows .storageUnit .soc losses a)) :
    (0 ≤ dispatch .x ∧ dispatch .x ≤ a.maxPu * capacity a soc) ∧
    (0 ≤ charge .x ∧ charge .x ≤ - a.minPu * capacity a soc) ∧
    (0 ≤ soc .x ∧ soc .x ≤ a.maxHours * capacity a soc) ∧
    a.minPu * capacity a soc ≤ dispatch .x - charge .x ∧ dispatch .x - charge .x ≤ a.maxPu * capacity a soc := by
  rw [opRows_iff _ _ _ _ ha] at h1 h2 h3
  have e1 : capacity a dispatch = capacity a soc := by unfold capacity; rw [hcap1]
  have e2 : capacity a charge = capacity a soc := by unfold capacity; rw [hcap2]
  simp only [boundsPu, passive, Bool.false_and, Bool.false_eq_true, if_false, sub_zero, add_zero, zero_mul, e1, e2]
    at h1 h2 h3
  refine ⟨h1, h2, h3, ?_, ?_⟩ <;> linarith [h1.1, h1.2, h2.1, h2.2]

/-- C92: content of stores, dispatch of generators and links. -/
theorem plain_bounds (c : Cls) (hc : c = .generator ∨ c = .link ∨ c = .store) (attr : Attr') (losses : Bool)
    (a : Asset F) (ha : a.active = true) (val : BVar → F) :
    Feasible val (opRows c attr losses a) ↔
      a.minPu * capacity a val ≤ val .x ∧ val .x ≤ a.maxPu * capacity a val := by
  rw [opRows_iff _ _ _ _ ha]
  rcases hc with rfl | rfl | rfl <;> simp [boundsPu, passive]

/-- A lossy line at its rating; a storage unit. -/
example : Feasible (fun v : BVar => match v with | .x => (-9 : ℚ) | .loss => 1 | .cap => 0)
      (opRows .line .s true ⟨true, false, 10, 0, 1, 0⟩) ∧
    ¬ Feasible (fun v : BVar => match v with | .x => (-9 : ℚ) | .loss => 2 | .cap => 0)
      (opRows .line .s true ⟨true, false, 10, 0, 1, 0⟩) ∧
    Feasible (fun v : BVar => match v with | .x => (3 : ℚ) | .loss => 0 | .cap => 4)
      (opRows .storageUnit .pStore true ⟨true, true, 0, -1, 1, 6⟩) := by
  refine ⟨by decide +kernel, by decide +kernel, by decide +kernel⟩

/-! ## C58 -/

/-- Bounds of all classes, in every snapshot: the solution stays feasible, and a solution of the fixed model is one of the
original model. -/
theorem fix_keeps_bounds (c : Cls) (attr : Attr') (losses : Bool) (a : Asset F) (val : BVar → F) :
    (fixAsset (val .cap) a).ext = false ∧
    (Feasible val (opRows c attr losses (fixAsset (val .cap) a)) ↔ Feasible val (opRows c attr losses a)) := by
  refine ⟨rfl, ?_⟩
  cases ha : a.active with
  | false =>
    have h : (fixAsset (val .cap) a).active = false := ha
    simp [opRows, fixRows, extRows, ha, h, feasible_nil]
  | true =>
    have h : (fixAsset (val .cap) a).active = true := ha
    rw [opRows_iff _ _ _ _ h, opRows_iff _ _ _ _ ha]
    have hb : boundsPu c attr (fixAsset (val .cap) a) = boundsPu c attr a := by
      cases c <;> cases attr <;> rfl
    have hcap : capacity (fixAsset (val .cap) a) val = capacity a val := by
      unfold capacity fixAsset
      cases a.ext <;> simp
    rw [hb, hcap]

omit [IsStrictOrderedRing F] in
theorem rampSkip_fix (opt : Unit' F → F) (cls : List (Unit' F)) (T : Nat) :
    rampSkip (cls.map (fun u => fixUnit (opt u) u)) T = rampSkip cls T := by
  unfold rampSkip
  rw [List.all_map, List.all_map]
  rfl

theorem present_fix (opt : F) (u : Unit' F) : present (fixUnit opt u) = present u := by
  funext v; cases v <;> rfl

/-- C58 (partial): all rows of a unit that is not both extendable and committable, on the whole window, with
ramping and commitment: the optimal solution stays feasible for the unit fixed at its optimal capacity, and vice versa.
Missing: units that are extendable and committable
(`fix_committable_infeasible`), losses (`fix_losses_infeasible`), set capacities (`fix_set_raises`). -/
theorem fix_keeps_unit_partial (opt : Unit' F → F) (cls : List (Unit' F)) (u : Unit' F) (T : Nat) (rolling lin' : Bool)
    (hu : u.extendable = false ∨ u.committable = false) (val : UVar → F) (hopt : u.extendable = true → val .cap = opt u) :
    (fixUnit (opt u) u).extendable = false ∧
    (Feasible val (unitCons (cls.map (fun u => fixUnit (opt u) u)) (fixUnit (opt u) u) T rolling lin') ↔
      Feasible val (unitCons cls u T rolling lin')) := by
  refine ⟨rfl, ?_⟩
  cases he : u.extendable with
  | false =>
    have hfix : fixUnit (opt u) u = u := by
      unfold fixUnit
      rw [he]
      simp only [Bool.false_eq_true, if_false]
      rw [← he]
    rw [hfix]
    unfold unitCons rampCons
    rw [rampSkip_fix]
  | true =>
    have hcom : u.committable = false := by
      rcases hu with h | h
      · rw [he] at h; cases h
      · exact h
    have hcap := hopt he
    have hcom' : (fixUnit (opt u) u).committable = false := hcom
    have hext' : (fixUnit (opt u) u).extendable = false := rfl
    have hnom : (fixUnit (opt u) u).nom = val .cap := by
      unfold fixUnit; simp [he, hcap]
    have hpres := present_fix (opt u) u
    have hact : (fixUnit (opt u) u).active = u.active := rfl
    unfold unitCons
    have c1 : comCons (fixUnit (opt u) u) T rolling = [] := by unfold comCons; simp [hcom']
    have c2 : comCons u T rolling = [] := by unfold comCons; simp [hcom]
    have l1 : linearizedCons (fixUnit (opt u) u) T = [] := by unfold linearizedCons; simp [hcom']
    have l2 : linearizedCons u T = [] := by unfold linearizedCons; simp [hcom]
    have n1 : nonExtCons u T = [] := by unfold nonExtCons; simp [he]
    have e1 : extCons (fixUnit (opt u) u) T = [] := by unfold extCons; simp [hext']
    rw [c1, c2, l1, l2, n1, e1]
    simp only [ite_self, List.append_nil, List.nil_append, feasible_append]
    apply and_congr
    · unfold nonExtCons extCons
      simp only [hext', hcom', he, Bool.or_self, Bool.false_eq_true, if_false, Bool.not_true]
      rw [feasible_rowsAt, feasible_rowsAt, hact]
      apply forall_congr'; intro t
      apply forall_congr'; intro _
      apply forall_congr'; intro hat
      have hp : present u (.p t) = true := hat
      have hc : present u .cap = true := rfl
      have m1 : (fixUnit (opt u) u).minPu t = u.minPu t := rfl
      have m2 : (fixUnit (opt u) u).maxPu t = u.maxPu t := rfl
      simp only [feasible_cons, feasible_nil, Con.holds, lin_append, lin_tm, orZero, hpres, hp, hc, if_true, hnom, m1, m2,
        one_mul, and_true]
      constructor <;> rintro ⟨h1, h2⟩ <;> constructor <;> linarith
    · unfold rampCons
      rw [rampSkip_fix]
      split
      · exact Iff.rfl
      · rw [feasible_rowsAt, feasible_rowsAt, hact]
        apply forall_congr'; intro t
        apply forall_congr'; intro _
        apply forall_congr'; intro hat
        have hc : present u .cap = true := rfl
        have hd : pDiff (fixUnit (opt u) u) t = pDiff u t := by
          unfold pDiff prevTm
          rw [hpres]
        have hs : rampStartRhs (fixUnit (opt u) u) rolling t = rampStartRhs u rolling t := rfl
        have m1 : (fixUnit (opt u) u).rampUp t = u.rampUp t := rfl
        have m2 : (fixUnit (opt u) u).rampDown t = u.rampDown t := rfl
        unfold rampRows
        simp only [hext', hcom', he, hcom, Bool.not_false, Bool.not_true, Bool.and_self, Bool.false_and, if_true,
          Bool.false_eq_true, if_false, List.append_nil, List.nil_append, hd, hs, m1, m2, hnom]
        rw [feasible_append, feasible_append]
        apply and_congr
        · cases u.rampUp t with
          | none => exact Iff.rfl
          | some r =>
            simp only [feasible_cons, feasible_nil, Con.holds, lin_append, lin_tm, orZero, hc, if_true, and_true]
            constructor <;> intro h <;> linarith
        · cases u.rampDown t with
          | none => exact Iff.rfl
          | some r =>
            simp only [feasible_cons, feasible_nil, Con.holds, lin_append, lin_tm, orZero, hc, if_true, and_true]
            constructor <;> intro h <;> linarith

def exExt : Unit' ℚ :=
  { nom := 0, extendable := true, committable := false, active := fun _ => true, minPu := fun _ => 0,
    maxPu := fun _ => 1 / 2, minUp := 0, minDown := 0, upBefore := 1, downBefore := 0, rampUp := fun _ => some (1 / 4),
    rampDown := fun _ => none, rampUpStatic := some (1 / 4), rampDownStatic := none, rampStart := 1, rampShut := 1,
    startUpCost := 0, shutDownCost := 0, histStatus := [], histP := 0 }

def exExtVal : UVar → ℚ
  | .p 0 => 3
  | .p _ => 5
  | .cap => 10
  | _ => 0

example : Feasible exExtVal (unitCons [exExt] exExt 2 false false) ∧
    Feasible exExtVal (unitCons [fixUnit 10 exExt] (fixUnit 10 exExt) 2 false false) ∧
    ¬ Feasible exExtVal (unitCons [fixUnit 9 exExt] (fixUnit 9 exExt) 2 false false) := by
  refine ⟨by decide +kernel, by decide +kernel, by decide +kernel⟩

/-- A unit with start-up limit that may be built smaller than it was. -/
def exBoth : Unit' ℚ :=
  { exExt with nom := 100, committable := true, maxPu := fun _ => 1, rampUp := fun _ => some 1, rampUpStatic := some 1,
               rampStart := 1 / 2, upBefore := 0 }

def exBothVal : UVar → ℚ
  | .p 0 => 0
  | .p _ => 10
  | .status 0 => 0
  | .status _ => 1
  | .startUp 1 => 1
  | .startUp _ => 0
  | .shutDown _ => 0
  | .cap => 10

/-- **Finding** (constraints.py 523-524, 549-550): start-up limits of a committable unit are relative to the capacity given, not
the optimised one, so the solution of an extendable committable unit need not be feasible after fixing. -/
theorem fix_committable_infeasible :
    BinaryDomain exBothVal ∧ Feasible exBothVal (unitCons [exBoth] exBoth 2 false false) ∧
    ¬ Feasible exBothVal (unitCons [fixUnit 10 exBoth] (fixUnit 10 exBoth) 2 false false) := by
  refine ⟨?_, by decide +kernel, by decide +kernel⟩
  intro t
  refine ⟨?_, ?_, Or.inl rfl⟩
  · cases t with
    | zero => exact Or.inl rfl
    | succ t => exact Or.inr rfl
  · rcases t with _ | _ | t
    · exact Or.inl rfl
    · exact Or.inr rfl
    · exact Or.inl rfl

/-- **Finding** (constraints.py 993-1020): the tangents of the losses depend on the maximal capacity of an extendable
branch, so the solution need not be feasible after fixing. -/
theorem fix_losses_infeasible : ∃ (b : LossBranch ℚ) (opt : ℚ) (val : LVar → ℚ) (rows rows' : List (Con LVar ℚ)),
    lossCons b 1 = .ok rows ∧ Feasible val rows ∧ |val .flow| ≤ b.sMaxPu * opt ∧
    lossCons (fixLoss opt b) 1 = .ok rows' ∧ ¬ Feasible val rows' :=
  ⟨⟨true, true, 0, some 10, 1, 1 / 10⟩, 5, fun v => match v with | .loss => 0 | .flow => 5, _, _, rfl,
    by decide +kernel, by decide +kernel, rfl, by decide +kernel⟩

/-- **Finding** (constraints.py 749-751): after fixing, a set capacity makes the next optimisation raise. -/
theorem fix_set_raises (as : List (Capacity.CapAsset F)) (a : Capacity.CapAsset F) (ha : a ∈ as) (x : F)
    (hx : a.nomSet = some x) : Capacity.capacityCons (as.map fixCap) = .error .keyError := by
  have h : (as.map fixCap).any (fun a => a.nomSet.isSome && !a.ext) = true := by
    rw [List.any_eq_true]
    exact ⟨fixCap a, List.mem_map_of_mem ha, by simp [fixCap, hx]⟩
  unfold Capacity.capacityCons Capacity.fixedNominalCons
  rw [if_pos h]

example : Capacity.capacityCons [(⟨"a", true, 0, none, 0, some 5⟩ : Capacity.CapAsset ℚ)] =
    .ok [⟨[(1, .cap "a")], .ge, 0⟩, ⟨[(1, .cap "a")], .eq, 5⟩] := by decide +kernel

/-! ## C59 -/

open Nodal in
omit [LinearOrder F] [IsStrictOrderedRing F] in
theorem supplied_shed (n : Net F) (losses : Bool) (val : NVar → F) (buses : Option (List String)) (sfx : String) (sign : F)
    (b : Name) : supplied (addShedding n buses sfx sign) losses val b = supplied n losses val b +
      ((shedders n (buses.getD n.buses) sfx sign).map
        (fun g => contrib b g.bus g.active (g.sign * val (.gen g.name)))).sum := by
  unfold supplied addShedding
  simp only [List.map_append, List.sum_append]
  ring

theorem append_cancel {a b s : String} (h : a ++ s = b ++ s) : a = b := by
  have := congrArg String.toList h
  simp only [String.toList_append] at this
  exact String.toList_injective (List.append_cancel_right this)

open Nodal in
/-- C59: whatever the flows and the dispatch, as long as at every selected bus (all by default) what is missing is
between zero and what can be shed, and the other buses are balanced, the balance can be built and met by
shedding within its limits; nothing else changes. -/
theorem load_shedding (n : Net F) (losses : Bool) (buses : Option (List String)) (sfx : String) (sign pNom : F)
    (hs : 0 < sign) (hb : "" ∉ n.buses) (hnd : (buses.getD n.buses).Nodup)
    (hsub : ∀ b ∈ buses.getD n.buses, b ∈ n.buses) (hne : buses.getD n.buses ≠ [])
    (hnew : ∀ b ∈ buses.getD n.buses, ∀ g ∈ n.gens, g.name ≠ b ++ sfx) (val : NVar → F)
    (hdef : ∀ b ∈ buses.getD n.buses, 0 ≤ demanded n b - supplied n losses val b ∧
      demanded n b - supplied n losses val b ≤ sign * pNom)
    (hoth : ∀ b ∈ n.buses, b ∉ buses.getD n.buses → supplied n losses val b = demanded n b ∧
      (Connected n b ∨ demanded n b = 0)) :
    (∃ rows val', balance (addShedding n buses sfx sign) losses n.buses = .ok rows ∧
      Feasible val' (rows.map (·.2)) ∧
      (∀ b ∈ buses.getD n.buses, 0 ≤ val' (.gen (b ++ sfx)) ∧ val' (.gen (b ++ sfx)) ≤ pNom) ∧
      (∀ v, (∀ b ∈ buses.getD n.buses, v ≠ .gen (b ++ sfx)) → val' v = val v)) ∧
    (∃ new, (addShedding n buses sfx sign).gens = n.gens ++ new) := by
  refine ⟨?_, ⟨_, rfl⟩⟩
  generalize hS : buses.getD n.buses = S at *
  classical
  have hfilter : S.filter (fun b => !(n.gens.map (·.name)).contains (b ++ sfx)) = S := by
    rw [List.filter_eq_self]
    intro b hbS
    simp only [Bool.not_eq_true', List.contains_eq_mem, decide_eq_false_iff_not, List.mem_map, not_exists, not_and]
    intro g hg
    exact hnew b hbS g hg
  have hshed : shedders n S sfx sign = S.map (fun b => ⟨b ++ sfx, b, sign, true⟩) := by
    unfold shedders; rw [hfilter]
  have hconn : ∀ b ∈ S, Connected (addShedding n buses sfx sign) b := by
    intro b hbS
    left
    refine ⟨⟨b ++ sfx, b, sign, true⟩, ?_, rfl, rfl⟩
    unfold addShedding
    rw [hS, hshed]
    exact List.mem_append_right _ (List.mem_map_of_mem hbS)
  have hdem : ∀ b, demanded (addShedding n buses sfx sign) b = demanded n b := fun _ => rfl
  obtain ⟨rows, hrows⟩ := (nodal_balance (addShedding n buses sfx sign) losses n.buses hb).2.2
    (by
      obtain ⟨b, hbS⟩ := List.exists_mem_of_ne_nil S hne
      exact ⟨b, hsub b hbS, hconn b hbS⟩)
    (by
      intro b hbm
      by_cases hbS : b ∈ S
      · exact Or.inl (hconn b hbS)
      · rcases (hoth b hbm hbS).2 with h | h
        · left
          rcases h with ⟨g, hg, h1, h2⟩ | h
          · exact Or.inl ⟨g, by unfold addShedding; exact List.mem_append_left _ hg, h1, h2⟩
          · exact Or.inr h
        · exact Or.inr h)
  let val' : NVar → F := fun v => match v with
    | .gen m => if h : ∃ b ∈ S, b ++ sfx = m then
        (demanded n (Classical.choose h) - supplied n losses val (Classical.choose h)) / sign else val (.gen m)
    | v => val v
  have hv : ∀ b ∈ S, val' (.gen (b ++ sfx)) = (demanded n b - supplied n losses val b) / sign := by
    intro b hbS
    have h : ∃ b' ∈ S, b' ++ sfx = b ++ sfx := ⟨b, hbS, rfl⟩
    have hc := append_cancel (Classical.choose_spec h).2
    show (if h : ∃ b' ∈ S, b' ++ sfx = b ++ sfx then _ else _) = _
    rw [dif_pos h, hc]
  have hkeep : ∀ v, (∀ b ∈ S, v ≠ .gen (b ++ sfx)) → val' v = val v := by
    intro v hvn
    cases v with
    | gen m =>
      show (if h : ∃ b' ∈ S, b' ++ sfx = m then _ else _) = _
      rw [dif_neg]
      rintro ⟨b, hbS, rfl⟩
      exact hvn b hbS rfl
    | _ => rfl
  have hold : ∀ b, supplied n losses val' b = supplied n losses val b := by
    intro b
    unfold supplied
    have : n.gens.map (fun g => contrib b g.bus g.active (g.sign * val' (.gen g.name))) =
        n.gens.map (fun g => contrib b g.bus g.active (g.sign * val (.gen g.name))) := by
      apply List.map_congr_left
      intro g hg
      rw [hkeep (.gen g.name)]
      intro b' hb' e
      injection e with e
      exact hnew b' hb' g hg e
    rw [this]
  refine ⟨rows, val', hrows, ?_, ?_, hkeep⟩
  · rw [(nodal_balance _ losses n.buses hb).1 rows hrows val']
    intro b hbm
    rw [supplied_shed, hS, hshed, hold, hdem, List.map_map]
    have hsum : ∀ l : List String, l.Nodup → (∀ x ∈ l, x ∈ S) →
        (l.map ((fun g : OnePort F => contrib b g.bus g.active (g.sign * val' (.gen g.name))) ∘
          (fun b => (⟨b ++ sfx, b, sign, true⟩ : OnePort F)))).sum =
        if b ∈ l then demanded n b - supplied n losses val b else 0 := by
      intro l
      induction l with
      | nil => intros; rfl
      | cons x t ih =>
        intro hn hm
        rw [List.nodup_cons] at hn
        rw [List.map_cons, List.sum_cons, ih hn.2 (fun y hy => hm y (List.mem_cons_of_mem _ hy))]
        simp only [Function.comp]
        rw [hv x (hm x (by simp))]
        unfold contrib
        by_cases hxb : x = b
        · subst hxb
          simp only [and_self, if_true, List.mem_cons, true_or, if_neg hn.1, add_zero]
          field_simp
        · have hbx : ¬ b = x := fun e => hxb e.symm
          simp [hxb, hbx]
    rw [hsum S hnd (fun _ h => h)]
    by_cases hbS : b ∈ S
    · rw [if_pos hbS]; ring
    · rw [if_neg hbS, add_zero, (hoth b hbm hbS).1]
  · intro b hbS
    rw [hv b hbS]
    have := hdef b hbS
    refine ⟨div_nonneg this.1 hs.le, ?_⟩
    rw [div_le_iff₀ hs]
    linarith [this.2]

/-- **Finding** (optimize.py 776-787): the carrier of the new generators is not the one that is added. -/
theorem shedding_carrier_unknown : ∀ carriers : List String, "load" ∉ carriers →
    (sheddingCarriers carriers).2 ∉ (sheddingCarriers carriers).1 := by
  intro cs h
  unfold sheddingCarriers
  split <;> simp [h]

open Nodal in
/-- A bus with 10 MW load and 4 MW generation, 6 MW are shed (in kW). -/
example : ∃ rows, balance (addShedding (⟨["a"], [⟨"g", "a", 1, true⟩], [], [], [], [], [], [⟨"a", -1, 10, true⟩]⟩ : Net ℚ)
      none " load shedding" (1 / 1000)) false ["a"] = .ok rows ∧
    Feasible (fun v => if v = .gen "g" then 4 else 6000) (rows.map (·.2)) :=
  ⟨_, rfl, by decide +kernel⟩

end Verif.Opt.Accessor
