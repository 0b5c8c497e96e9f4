import Verif.IO.Pypower
import Verif.PowerFlow.AdmittanceProps
import Verif.PowerFlow.TypesProps
import Verif.Cluster.LinesProps

/-!
# Properties of the import of PYPOWER cases (C103, C104)
-/

namespace Verif.IO.Pypower

open Verif.PowerFlow Matrix

/-! ## Lists -/

theorem named_mapM {α β γ : Type} (f : String → α → β) (pfx : String) (h : β → Option γ) (g : α → γ)
    (l : List α) (hl : ∀ x ∈ l, ∀ nm, h (f nm x) = some (g x)) :
    (named f pfx l).mapM h = some (l.map g) := by
  unfold named
  generalize 0 = k
  induction l generalizing k with
  | nil => simp
  | cons x l ih =>
    have := ih (fun y hy => hl y (List.mem_cons_of_mem _ hy)) (k + 1)
    simp only [List.zipIdx_cons, List.map_cons, List.mapM_cons, hl x (by simp), this]; rfl

theorem named_map {α β γ : Type} (f : String → α → β) (pfx : String) (h : β → γ) (g : α → γ)
    (l : List α) (hl : ∀ x nm, h (f nm x) = g x) : (named f pfx l).map h = l.map g := by
  unfold named
  generalize 0 = k
  induction l generalizing k with
  | nil => simp
  | cons x l ih => simp only [List.zipIdx_cons, List.map_cons, hl, ih (k + 1)]

theorem named_map_mem {α β γ : Type} (f : String → α → β) (pfx : String) (h : β → γ) (g : α → γ)
    (l : List α) (hl : ∀ x ∈ l, ∀ nm, h (f nm x) = g x) : (named f pfx l).map h = l.map g := by
  unfold named
  generalize 0 = k
  induction l generalizing k with
  | nil => simp
  | cons x l ih =>
    simp only [List.zipIdx_cons, List.map_cons, hl x (by simp),
      ih (fun y hy => hl y (List.mem_cons_of_mem _ hy)) (k + 1)]

theorem mem_named {α β : Type} (f : String → α → β) (pfx : String) (l : List α) (y : β)
    (hy : y ∈ named f pfx l) : ∃ x ∈ l, ∃ nm, y = f nm x := by
  unfold named at hy
  obtain ⟨p, hp, rfl⟩ := List.mem_map.1 hy
  exact ⟨p.1, List.fst_mem_of_mem_zipIdx hp, _, rfl⟩

theorem named_forall₂ {α β : Type} (f : String → α → β) (pfx : String) (R : α → β → Prop)
    (l : List α) (hl : ∀ x ∈ l, ∀ nm, R x (f nm x)) : List.Forall₂ R l (named f pfx l) := by
  unfold named
  generalize 0 = k
  induction l generalizing k with
  | nil => exact .nil
  | cons x l ih =>
    exact .cons (hl x (by simp) _) (ih (fun y hy => hl y (List.mem_cons_of_mem _ hy)) (k + 1))

theorem named_nodup {α β : Type} (f : String → α → β) (pfx : String) (nm : β → String) (l : List α)
    (h : ∀ s x, nm (f s x) = s) : ((named f pfx l).map nm).Nodup := by
  have : (named f pfx l).map nm = (List.range l.length).map (fun i => pfx ++ toString i) := by
    unfold named
    apply List.ext_getElem
    · simp
    · intro i h1 h2
      simp [h]
  rw [this]
  apply List.nodup_range.map
  intro i j hij
  apply Verif.Cluster.Lines.toString_inj
  exact (String.append_right_inj pfx).1 hij

theorem sum_filter_split {α M : Type} [AddCommMonoid M] (p : α → Bool) (G : α → M) (l : List α) :
    ((l.filter (fun x => !p x)).map G).sum + ((l.filter p).map G).sum = (l.map G).sum := by
  induction l with
  | nil => simp
  | cons x l ih =>
    cases h : p x
    · simp [h, ← ih, add_assoc]
    · simp [h, ← ih, add_left_comm]

theorem sum_filter_zero {α M : Type} [AddCommMonoid M] (p : α → Bool) (G : α → M) (l : List α)
    (h : ∀ x ∈ l, p x = false → G x = 0) : ((l.filter p).map G).sum = (l.map G).sum := by
  induction l with
  | nil => simp
  | cons x l ih =>
    have := ih (fun y hy => h y (List.mem_cons_of_mem _ hy))
    cases hp : p x
    · simp [hp, this, h x (by simp) hp]
    · simp [hp, this]

theorem sum_filter_ite {α M : Type} [AddCommMonoid M] (p : α → Prop) [DecidablePred p] (G : α → M)
    (l : List α) : ((l.filter (fun x => decide (p x))).map G).sum =
      (l.map (fun x => if p x then G x else 0)).sum := by
  induction l with
  | nil => simp
  | cons x l ih => by_cases hp : p x <;> simp [hp, ih]

theorem sum_get {α M : Type} [AddCommMonoid M] (l : List α) (G : α → M) :
    (∑ i : Fin l.length, G (l.get i)) = (l.map G).sum := by
  rw [← List.sum_ofFn]
  congr 1
  apply List.ext_get <;> simp

/-! ## Buses of the imported network -/

section Buses
variable {F : Type} [Field F] [DecidableEq F]

theorem mapM_toBus (l : List (PBus F)) (bs : List (Bus F)) (h : l.mapM toBus = .ok bs) :
    bs.map (fun b => (b.name, b.vNom)) = l.map (fun b => (b.num, vFix b.vNom)) := by
  induction l generalizing bs with
  | nil => simp [pure, Except.pure] at h; simp [← h]
  | cons b l ih =>
    rw [List.mapM_cons] at h
    cases hb : toBus b with
    | error e => rw [hb] at h; cases h
    | ok b' =>
      cases hl : l.mapM toBus with
      | error e => rw [hb, hl] at h; cases h
      | ok bs' =>
        rw [hb, hl] at h
        injection h with h
        subst h
        have : b'.name = b.num ∧ b'.vNom = vFix b.vNom := by
          unfold toBus at hb
          cases hc : control b.type with
          | error e => rw [hc] at hb; cases hb
          | ok c => rw [hc] at hb; injection hb with hb; subst hb; exact ⟨rfl, rfl⟩
        simp [ih bs' hl, this]

theorem setV_map (gens : List (PGen F)) (bs : List (Bus F)) :
    (setV gens bs).map (fun b => (b.name, b.vNom, b.control)) =
      bs.map (fun b => (b.name, b.vNom, b.control)) := by
  induction gens generalizing bs with
  | nil => rfl
  | cons g gens ih =>
    simp only [setV, List.foldl_cons] at ih ⊢
    rw [ih, List.map_map]
    apply List.map_congr_left
    intro b _
    simp only [Function.comp]
    split <;> rfl

theorem find_pair {α : Type} (nm : α → Int) (v : α → F) (l : List α) (i : Int) :
    (l.find? (fun b => nm b = i)).map v =
      ((l.map (fun b => (nm b, v b))).find? (fun q => q.1 = i)).map (·.2) := by
  induction l with
  | nil => rfl
  | cons b l ih => by_cases h : nm b = i <;> simp [h, ih]

/-- What a successful import returns. -/
theorem importPpc_ok (c : Case F) (over : Option F) (n : Net F) (h : importPpc c over = .ok n) :
    ∃ bs, c.bus.mapM toBus = .ok bs ∧ (∀ g ∈ c.gen, ∃ b ∈ bs, b.name = g.bus) ∧
      n = { buses := setV c.gen bs
            loads := named toLoad "L" (c.bus.filter (fun b => decide (b.pd ≠ 0) || decide (b.qd ≠ 0)))
            gens := named (toGen bs) "G" c.gen
            lines := named (toLine c.baseMVA over c.bus) "L" (c.branch.filter (fun l => !isTrafo c.bus l))
            trafos := named (toTrafo c.baseMVA over) "T" (c.branch.filter (isTrafo c.bus))
            shunts := named toShunt "S"
              (c.bus.filter (fun b => decide (b.gs ≠ 0) || decide (b.bs ≠ 0))) } := by
  unfold importPpc at h
  cases hb : c.bus.mapM toBus with
  | error e => rw [hb] at h; cases h
  | ok bs =>
    rw [hb] at h
    simp only [Except.bind] at h
    split at h
    · cases h
    · rename_i hg
      injection h with h
      refine ⟨bs, rfl, ?_, h.symm⟩
      intro g hgm
      simp only [List.any_eq_true, not_exists, not_and, Bool.not_eq_true', Bool.not_eq_false] at hg
      simpa using hg g hgm

theorem vNomAt_import (c : Case F) (over : Option F) (n : Net F) (h : importPpc c over = .ok n)
    (m : String) (i : Int) : (n.withModel m).vNomAt i = vNomOf c.bus i := by
  obtain ⟨bs, hbs, -, rfl⟩ := importPpc_ok c over n h
  simp only [Net.vNomAt, Net.withModel, vNomOf]
  rw [find_pair Bus.name Bus.vNom, find_pair PBus.num (fun b => vFix b.vNom), ← mapM_toBus _ _ hbs]
  have := congrArg (List.map (fun q : Int × F × String => (q.1, q.2.1))) (setV_map c.gen bs)
  simp only [List.map_map] at this
  exact congrArg (fun l => (l.find? (fun q : Int × F => q.1 = i)).map (·.2)) this

theorem vFix_ne (v : F) : vFix v ≠ 0 := by
  unfold vFix; split <;> simp_all

theorem vNomOf_ne (bs : List (PBus F)) (i : Int) (v : F) (h : vNomOf bs i = some v) : v ≠ 0 := by
  unfold vNomOf at h
  simp only [Option.map_eq_some_iff] at h
  obtain ⟨b, _, rfl⟩ := h
  exact vFix_ne _

theorem vNomOf_mem (bs : List (PBus F)) (hn : (bs.map (·.num)).Nodup) (b : PBus F) (hb : b ∈ bs) :
    vNomOf bs b.num = some (vFix b.vNom) := by
  induction bs with
  | nil => simp at hb
  | cons a bs ih =>
    simp only [List.map_cons, List.nodup_cons] at hn
    rcases List.mem_cons.1 hb with rfl | hb'
    · simp [vNomOf]
    · have hne : a.num ≠ b.num := fun h => hn.1 (h ▸ List.mem_map.2 ⟨b, hb', rfl⟩)
      have := ih hn.2 hb'
      unfold vNomOf at this ⊢
      rw [List.find?_cons_of_neg (by simpa using hne)]
      exact this

theorem vNomOf_isSome_of_line (bs : List (PBus F)) (l : PBranch F) (h : isTrafo bs l = false) :
    (∃ v, vNomOf bs l.bus0 = some v) ∧ (l.tap = 0 ∨ l.tap = 1) ∧ l.shift = 0 := by
  unfold isTrafo at h
  simp only [Bool.or_eq_false_iff, decide_eq_false_iff_not, ne_eq, not_not,
    Bool.and_eq_false_iff] at h
  refine ⟨?_, h.1.2, h.2⟩
  cases hv : vNomOf bs l.bus0 with
  | none => simp [vDiffer, hv] at h
  | some v => exact ⟨v, rfl⟩

end Buses

/-! ## C104 -/

section Structure
variable {F : Type} [Field F] [DecidableEq F]

theorem control_ok (t : Int) : (∃ s, control t = .ok s) ↔ -4 ≤ t ∧ t < 4 := by
  unfold control
  simp only
  split_ifs <;> simp <;> omega

theorem mapM_toBus_ok (l : List (PBus F)) :
    (∃ bs, l.mapM toBus = .ok bs) ↔ ∀ b ∈ l, -4 ≤ b.type ∧ b.type < 4 := by
  induction l with
  | nil => exact ⟨fun _ => by simp, fun _ => ⟨[], rfl⟩⟩
  | cons b l ih =>
    have hb : (∃ b', toBus b = .ok b') ↔ -4 ≤ b.type ∧ b.type < 4 := by
      rw [← control_ok]
      unfold toBus
      cases control b.type <;> simp [Except.map]
    rw [List.mapM_cons]
    simp only [List.forall_mem_cons, ← hb, ← ih]
    cases toBus b with
    | error e => simp [bind, Except.bind]
    | ok b' =>
      cases l.mapM toBus with
      | error e => simp [bind, Except.bind]
      | ok bs => simp [bind, Except.bind, pure, Except.pure]

/-- C104: the import succeeds exactly if every bus type is a known code and every generator sits at
a bus of the case.  (Negative codes down to -4 are accepted as well; the code 4 of isolated buses is
not.) -/
theorem pypower_import_succeeds (c : Case F) (over : Option F) :
    (∃ n, importPpc c over = .ok n) ↔
      (∀ b ∈ c.bus, -4 ≤ b.type ∧ b.type < 4) ∧ (∀ g ∈ c.gen, ∃ b ∈ c.bus, b.num = g.bus) := by
  rw [← mapM_toBus_ok]
  unfold importPpc
  cases hb : c.bus.mapM toBus with
  | error e => simp [Except.bind]
  | ok bs =>
    have hp := mapM_toBus _ _ hb
    have hn : ∀ i : Int, (∃ b ∈ bs, b.name = i) ↔ ∃ b ∈ c.bus, b.num = i := by
      intro i
      have h1 : (∃ b ∈ bs, b.name = i) ↔ i ∈ (bs.map (fun b => (b.name, b.vNom))).map (·.1) := by
        simp [List.map_map]
      rw [h1, hp]
      simp [List.map_map]
    simp only [Except.bind]
    have e : (∀ g ∈ c.gen, ∃ b ∈ c.bus, b.num = g.bus) ↔
        ¬ (c.gen.any (fun g => !bs.any (fun b => b.name = g.bus)) = true) := by
      simp only [← hn]
      simp
    rw [e]
    by_cases h : c.gen.any (fun g => !bs.any (fun b => b.name = g.bus)) = true
    · rw [if_pos h]; simp [h]
    · rw [if_neg h]; simp [h]

theorem filter_perm {α : Type} (p : α → Bool) (l : List α) :
    (l.filter (fun x => !p x) ++ l.filter p).Perm l := by
  induction l with
  | nil => simp
  | cons x l ih =>
    cases h : p x
    · simpa [h] using ih
    · simp only [List.filter_cons, h, Bool.not_true, if_true]
      exact List.perm_middle.trans (ih.cons x)

/-- The tap ratio of a branch: PYPOWER writes 0 for "none". -/
def tapOf (l : PBranch F) : F := if l.tap = 0 then 1 else l.tap

/-- C103 (linear power flow): every branch of the case becomes exactly one line or one transformer
between the same buses, whose reactance in the linear power flow is PYPOWER's (`x` times the tap
ratio) per 1 MVA and whose phase shift is that of the branch; this needs no assumption on the model
of transformers. -/
theorem pypower_linear (c : Case F) (over : Option F) (n : Net F) (h : importPpc c over = .ok n)
    (hb : c.baseMVA ≠ 0) (hs : ∀ l ∈ c.branch, l.rateA ≠ 0 ∨ ∃ s, over = some s ∧ s ≠ 0) :
    (n.lines.map (fun l => (l.bus0, l.bus1, lineXEff n l, (0 : F))) ++
      n.trafos.map (fun t => (t.bus0, t.bus1, trafoXEff t, t.shift))).Perm
      (c.branch.map (fun l => (l.bus0, l.bus1, some (l.x * tapOf l / c.baseMVA), l.shift))) := by
  obtain ⟨bs, hbs, -, hn⟩ := importPpc_ok c over n h
  have hsn : ∀ l ∈ c.branch, sNomOf over l ≠ 0 := by
    intro l hl
    unfold sNomOf
    rcases hs l hl with h | ⟨s, h1, h2⟩
    · rw [if_neg h]; exact h
    · split
      · simpa [h1] using h2
      · assumption
  have hw : ∀ i, n.vNomAt i = vNomOf c.bus i := fun i => vNomAt_import c over n h "t" i
  have e1 : n.lines.map (fun l => (l.bus0, l.bus1, lineXEff n l, (0 : F))) =
      (c.branch.filter (fun l => !isTrafo c.bus l)).map
        (fun l => (l.bus0, l.bus1, some (l.x * tapOf l / c.baseMVA), l.shift)) := by
    have : n.lines = named (toLine c.baseMVA over c.bus) "L"
        (c.branch.filter (fun l => !isTrafo c.bus l)) := by rw [hn]
    rw [this]
    apply named_map_mem
    intro l hl nm
    obtain ⟨⟨v, hv⟩, ht, hsh⟩ := vNomOf_isSome_of_line c.bus l
      (by simpa using (List.mem_filter.1 hl).2)
    have hv2 : v ^ 2 ≠ 0 := pow_ne_zero _ (vNomOf_ne _ _ _ hv)
    have htap : tapOf l = 1 := by unfold tapOf; rcases ht with h | h <;> simp [h]
    simp only [lineXEff, linePu, toLine, hw, hv, fdiv, hb, hv2, odiv, Option.bind_eq_bind,
      Option.bind_some, if_false, pure, Option.map_some, hsh, htap, mul_one, Prod.mk.injEq, true_and,
      and_true, Option.some.injEq]
    rw [div_div, mul_comm (v ^ 2), mul_div_mul_right _ _ hv2]
  have e2 : n.trafos.map (fun t => (t.bus0, t.bus1, trafoXEff t, t.shift)) =
      (c.branch.filter (isTrafo c.bus)).map
        (fun l => (l.bus0, l.bus1, some (l.x * tapOf l / c.baseMVA), l.shift)) := by
    have : n.trafos = named (toTrafo c.baseMVA over) "T" (c.branch.filter (isTrafo c.bus)) := by
      rw [hn]
    rw [this]
    apply named_map_mem
    intro l hl nm
    have hs' := hsn l (List.mem_filter.1 hl).1
    simp only [trafoXEff, trafoPu, toTrafo, fdiv, hb, hs', odiv, Option.bind_eq_bind,
      Option.bind_some, if_false, pure, Option.map_some, tapOf, Prod.mk.injEq, true_and,
      and_true, Option.some.injEq]
    split <;> field_simp
  rw [e1, e2, ← List.map_append]
  exact (filter_perm (isTrafo c.bus) c.branch).map _

/-- C104: every branch of the case becomes exactly one line or one transformer between the same
buses, with its rating or, if that is zero, the replacement; only branches between buses of equal
nominal voltage without tap ratio and phase shift become lines.  No hypothesis on the case. -/
theorem pypower_branches (c : Case F) (over : Option F) (n : Net F) (h : importPpc c over = .ok n) :
    (n.lines.map (fun l => (l.bus0, l.bus1, l.sNom)) ++
      n.trafos.map (fun t => (t.bus0, t.bus1, t.sNom))).Perm
      (c.branch.map (fun l => (l.bus0, l.bus1,
        if l.rateA = 0 then over.getD 0 else l.rateA))) ∧
    n.lines.length + n.trafos.length = c.branch.length ∧
    (∀ l ∈ n.lines, ∃ b0 ∈ n.buses, ∃ b1 ∈ n.buses, b0.name = l.bus0 ∧ b1.name = l.bus1 ∧
      b0.vNom = b1.vNom) ∧
    (∀ t ∈ n.trafos, t.tap ≠ 0 ∧ (t.tap ≠ 1 ∨ t.shift ≠ 0 ∨ ¬ ∃ v, n.vNomAt t.bus0 = some v ∧
      n.vNomAt t.bus1 = some v)) := by
  have hw : ∀ i, n.vNomAt i = vNomOf c.bus i := fun i => vNomAt_import c over n h "t" i
  obtain ⟨bs, hbs, -, hn⟩ := importPpc_ok c over n h
  have hl : n.lines = named (toLine c.baseMVA over c.bus) "L"
      (c.branch.filter (fun l => !isTrafo c.bus l)) := by rw [hn]
  have ht : n.trafos = named (toTrafo c.baseMVA over) "T" (c.branch.filter (isTrafo c.bus)) := by
    rw [hn]
  have hsn : ∀ l : PBranch F, sNomOf over l =
      if l.rateA = 0 then over.getD 0 else l.rateA := by
    intro l
    unfold sNomOf
    split
    · rename_i h0; rw [h0]
    · rfl
  refine ⟨?_, ?_, ?_, ?_⟩
  · rw [hl, ht, named_map _ _ _ (fun l : PBranch F => (l.bus0, l.bus1, sNomOf over l)) _ (fun _ _ => rfl),
      named_map _ _ _ (fun l : PBranch F => (l.bus0, l.bus1, sNomOf over l)) _ (fun _ _ => rfl),
      ← List.map_append]
    simp only [hsn]
    exact (filter_perm (isTrafo c.bus) c.branch).map _
  · have := (filter_perm (isTrafo c.bus) c.branch).length_eq
    rw [List.length_append] at this
    rw [hl, ht]
    simpa [named] using this
  · intro l hlm
    rw [hl] at hlm
    obtain ⟨l', hl', nm, rfl⟩ := mem_named _ _ _ _ hlm
    have hf : isTrafo c.bus l' = false := by simpa using (List.mem_filter.1 hl').2
    unfold isTrafo at hf
    simp only [Bool.or_eq_false_iff] at hf
    have hv := hf.1.1
    rw [← hw, ← hw] at hv
    unfold Net.vNomAt at hv
    cases h0 : n.buses.find? (fun b => b.name = l'.bus0) with
    | none => rw [h0] at hv; simp [vDiffer] at hv
    | some b0 =>
      cases h1 : n.buses.find? (fun b => b.name = l'.bus1) with
      | none => rw [h0, h1] at hv; simp [vDiffer] at hv
      | some b1 =>
        rw [h0, h1] at hv
        refine ⟨b0, List.mem_of_find?_eq_some h0, b1, List.mem_of_find?_eq_some h1, ?_, ?_, ?_⟩
        · simpa [toLine] using List.find?_some h0
        · simpa [toLine] using List.find?_some h1
        · simpa [vDiffer] using hv
  · intro t htm
    rw [ht] at htm
    obtain ⟨l', hl', nm, rfl⟩ := mem_named _ _ _ _ htm
    have hf : isTrafo c.bus l' = true := (List.mem_filter.1 hl').2
    refine ⟨by simp only [toTrafo]; split <;> simp_all, ?_⟩
    unfold isTrafo at hf
    simp only [Bool.or_eq_true, Bool.and_eq_true, decide_eq_true_eq] at hf
    rcases hf with (hf | hf) | hf
    · right; right
      rintro ⟨v, h0, h1⟩
      rw [hw] at h0 h1
      simp only [toTrafo] at h0 h1
      simp [vDiffer, h0, h1] at hf
    · left; simpa [toTrafo, hf.1] using hf.2
    · right; left; exact hf

/-- What a bus of the case stands for: same name, nominal voltage (1 if it was 0), control by the code of its
type; its set point is that of the last generator at the bus, if there is any. -/
structure BusFrom (c : Case F) (b : PBus F) (b' : Bus F) : Prop where
  name : b'.name = b.num
  vNom : (b.vNom ≠ 0 → b'.vNom = b.vNom) ∧ (b.vNom = 0 → b'.vNom = 1)
  control : (b.type = 1 → b'.control = "PQ") ∧ (b.type = 2 → b'.control = "PV") ∧
    (b.type = 3 → b'.control = "Slack")
  vSet : ∀ pre g post, c.gen = pre ++ g :: post → g.bus = b.num → (∀ g' ∈ post, g'.bus ≠ b.num) →
    b'.vMagSet = g.vSet
  vOwn : (∀ g ∈ c.gen, g.bus ≠ b.num) → b'.vMagSet = b.vm

theorem mapM_toBus_forall (l : List (PBus F)) (bs : List (Bus F)) (h : l.mapM toBus = .ok bs) :
    List.Forall₂ (fun b b' => toBus b = .ok b') l bs := by
  induction l generalizing bs with
  | nil => simp [pure, Except.pure] at h; subst h; exact .nil
  | cons b l ih =>
    rw [List.mapM_cons] at h
    cases hb : toBus b with
    | error e => rw [hb] at h; cases h
    | ok b' =>
      cases hl : l.mapM toBus with
      | error e => rw [hb, hl] at h; cases h
      | ok bs' =>
        rw [hb, hl] at h
        injection h with h
        subst h
        exact .cons hb (ih bs' hl)

/-- The value which a sequence of assignments leaves at one bus. -/
def vAfter (gens : List (PGen F)) (b : Bus F) : Bus F :=
  gens.foldl (fun b g => if b.name = g.bus then { b with vMagSet := g.vSet } else b) b

theorem setV_eq (gens : List (PGen F)) (bs : List (Bus F)) : setV gens bs = bs.map (vAfter gens) := by
  induction gens generalizing bs with
  | nil => exact (List.map_id bs).symm
  | cons g gens ih =>
    have e : setV (g :: gens) bs = setV gens
        (bs.map (fun b => if b.name = g.bus then { b with vMagSet := g.vSet } else b)) := rfl
    rw [e, ih, List.map_map]
    rfl

theorem vAfter_fields (gens : List (PGen F)) (b : Bus F) :
    (vAfter gens b).name = b.name ∧ (vAfter gens b).vNom = b.vNom ∧
    (vAfter gens b).control = b.control ∧
    ((∀ g ∈ gens, g.bus ≠ b.name) → (vAfter gens b).vMagSet = b.vMagSet) := by
  induction gens generalizing b with
  | nil => simp [vAfter]
  | cons g gens ih =>
    have e : vAfter (g :: gens) b =
        vAfter gens (if b.name = g.bus then { b with vMagSet := g.vSet } else b) := rfl
    rw [e]
    obtain ⟨h1, h2, h3, h4⟩ := ih (if b.name = g.bus then { b with vMagSet := g.vSet } else b)
    refine ⟨?_, ?_, ?_, ?_⟩
    · rw [h1]; split <;> rfl
    · rw [h2]; split <;> rfl
    · rw [h3]; split <;> rfl
    · intro hg
      have hne : ¬ b.name = g.bus := fun h => hg g (by simp) h.symm
      rw [if_neg hne] at h4 ⊢
      exact h4 (fun g' hg' => hg g' (List.mem_cons_of_mem _ hg'))

theorem vAfter_last (pre post : List (PGen F)) (g : PGen F) (b : Bus F) (hg : g.bus = b.name)
    (hp : ∀ g' ∈ post, g'.bus ≠ b.name) : (vAfter (pre ++ g :: post) b).vMagSet = g.vSet := by
  have e : vAfter (pre ++ g :: post) b = vAfter post
      (if (vAfter pre b).name = g.bus then { vAfter pre b with vMagSet := g.vSet } else vAfter pre b) := by
    rw [vAfter, List.foldl_append]; rfl
  have hn := (vAfter_fields pre b).1
  rw [e, if_pos (by rw [hn, hg])]
  rw [(vAfter_fields post _).2.2.2 (by intro g' hg'; simpa [hn] using hp g' hg')]

/-- C104: buses, generators and loads.  Buses correspond one to one; every generator keeps its bus,
set points and capacity and takes the control of its bus; every bus with demand has exactly one load with
that demand, other buses have none; names within each class are distinct. -/
theorem pypower_structure (c : Case F) (over : Option F) (n : Net F) (h : importPpc c over = .ok n)
    (hnd : (c.bus.map (·.num)).Nodup) :
    List.Forall₂ (BusFrom c) c.bus n.buses ∧
    List.Forall₂ (fun g g' => g'.bus = g.bus ∧ g'.p = g.p ∧ g'.q = g.q ∧ g'.vSet = g.vSet ∧
      g'.pNom = g.pMax ∧ ∃ b ∈ n.buses, b.name = g.bus ∧ g'.control = some b.control) c.gen n.gens ∧
    (∀ b ∈ c.bus, (n.loads.filter (fun l => l.bus = b.num)).map (fun l => (l.p, l.q)) =
      if b.pd = 0 ∧ b.qd = 0 then [] else [(b.pd, b.qd)]) ∧
    (n.buses.map (·.name)).Nodup ∧ (n.gens.map (·.name)).Nodup ∧ (n.loads.map (·.name)).Nodup ∧
    (n.lines.map (·.name)).Nodup ∧ (n.trafos.map (·.name)).Nodup ∧ (n.shunts.map (·.name)).Nodup := by
  obtain ⟨bs, hbs, hg, hn⟩ := importPpc_ok c over n h
  have hB : List.Forall₂ (BusFrom c) c.bus n.buses := by
    have e : n.buses = bs.map (vAfter c.gen) := by rw [hn]; exact setV_eq _ _
    rw [e, List.forall₂_map_right_iff]
    refine (mapM_toBus_forall _ _ hbs).imp ?_
    intro b b' hb
    have hc : control b.type = .ok b'.control ∧ b'.name = b.num ∧ b'.vNom = vFix b.vNom ∧
        b'.vMagSet = b.vm := by
      unfold toBus at hb
      cases hc : control b.type with
      | error e => rw [hc] at hb; cases hb
      | ok s => rw [hc] at hb; injection hb with hb; subst hb; exact ⟨rfl, rfl, rfl, rfl⟩
    obtain ⟨h0, h1, h2, h3⟩ := hc
    obtain ⟨f1, f2, f3, f4⟩ := vAfter_fields c.gen b'
    refine ⟨f1.trans h1, ?_, ?_, ?_, ?_⟩
    · rw [f2, h2]; unfold vFix; exact ⟨fun h => by rw [if_neg h], fun h => by rw [if_pos h]⟩
    · rw [f3]
      refine ⟨?_, ?_, ?_⟩ <;> intro ht <;> rw [ht] at h0 <;> injection h0 with h0 <;>
        exact h0.symm
    · intro pre g post hgen hgb hpost
      rw [hgen]
      exact vAfter_last pre post g b' (by rw [hgb, h1]) (by rw [h1]; exact hpost)
    · intro hno
      rw [f4 (by rw [h1]; exact hno), h3]
  have hnames : n.buses.map (·.name) = c.bus.map (·.num) := by
    have h1 := congrArg (List.map (fun q : Int × F × String => q.1)) (setV_map c.gen bs)
    have h2 := congrArg (List.map (fun q : Int × F => q.1)) (mapM_toBus _ _ hbs)
    simp only [List.map_map] at h1 h2
    rw [hn]
    exact h1.trans h2
  refine ⟨hB, ?_, ?_, by rw [hnames]; exact hnd, ?_, ?_, ?_, ?_, ?_⟩
  · have e : n.gens = named (toGen bs) "G" c.gen := by rw [hn]
    rw [e]
    apply named_forall₂
    intro g hgm nm
    refine ⟨rfl, rfl, rfl, rfl, rfl, ?_⟩
    obtain ⟨b, hb, hbn⟩ := hg g hgm
    cases hf : bs.find? (fun b => b.name = g.bus) with
    | none => exact absurd hbn (by simpa using (List.find?_eq_none.1 hf) b hb)
    | some b0 =>
      refine ⟨vAfter c.gen b0, ?_, ?_, ?_⟩
      · rw [hn]; simp only; rw [setV_eq]
        exact List.mem_map_of_mem (List.mem_of_find?_eq_some hf)
      · rw [(vAfter_fields _ _).1]; simpa using List.find?_some hf
      · rw [(vAfter_fields _ _).2.2.1]; simp [toGen, hf]
  · intro b hb
    have e : n.loads = named toLoad "L"
        (c.bus.filter (fun b => decide (b.pd ≠ 0) || decide (b.qd ≠ 0))) := by rw [hn]
    have key : ∀ l : List (Load F), (l.filter (fun l => l.bus = b.num)).map (fun l => (l.p, l.q)) =
        ((l.map (fun l => (l.bus, l.p, l.q))).filter (fun q => q.1 = b.num)).map (fun q => q.2) := by
      intro l
      induction l with
      | nil => rfl
      | cons x l ih => by_cases hx : x.bus = b.num <;> simp [hx, ih]
    rw [key, e, named_map toLoad "L" _ (fun b : PBus F => (b.num, b.pd, b.qd)) _ (fun _ _ => rfl)]
    clear key e hnames hB hg hbs hn h
    generalize c.bus = l at *
    induction l with
    | nil => simp at hb
    | cons a l ih =>
      simp only [List.map_cons, List.nodup_cons] at hnd
      rcases List.mem_cons.1 hb with rfl | hb'
      · have hno : ((List.map (fun b : PBus F => (b.num, b.pd, b.qd)) (l.filter
            (fun b => decide (b.pd ≠ 0) || decide (b.qd ≠ 0)))).filter (fun q => q.1 = b.num)) = [] := by
          rw [List.filter_eq_nil_iff]
          intro q hq
          obtain ⟨b', hb', rfl⟩ := List.mem_map.1 hq
          have := (List.mem_filter.1 hb').1
          have hne : b'.num ≠ b.num := fun h => hnd.1 (h ▸ List.mem_map.2 ⟨b', this, rfl⟩)
          simpa using hne
        by_cases hz : b.pd = 0 ∧ b.qd = 0
        · rw [if_pos hz, List.filter_cons, if_neg (by simp [hz.1, hz.2]), hno]; rfl
        · have hz' : ¬ b.pd = 0 ∨ ¬ b.qd = 0 := by tauto
          rw [if_neg hz, List.filter_cons, if_pos (by simpa using hz'), List.map_cons,
            List.filter_cons, if_pos (by simp), hno]; rfl
      · have hne : a.num ≠ b.num := fun h => hnd.1 (h ▸ List.mem_map.2 ⟨b, hb', rfl⟩)
        have := ih hnd.2 hb'
        by_cases ha : (decide (a.pd ≠ 0) || decide (a.qd ≠ 0)) = true
        · rw [List.filter_cons, if_pos ha, List.map_cons, List.filter_cons,
            if_neg (by simpa using hne)]
          exact this
        · rw [List.filter_cons, if_neg ha]
          exact this
  all_goals
    rw [hn]
    simp only
    exact named_nodup _ _ _ _ (fun _ _ => rfl)

/-- A case with all kinds of components; two generators share a bus. -/
def demoQ : Case ℚ where
  baseMVA := 100
  bus := [⟨1, 3, 0, 0, 0, 0, 1, 0⟩, ⟨2, 1, 50, 10, 0, 5, 1, 0⟩, ⟨7, 2, 0, 0, 0, 0, 1, 20⟩]
  gen := [⟨1, 30, 0, 1, 100, true⟩, ⟨7, 20, 5, 1, 40, true⟩, ⟨7, 1, 0, 21 / 20, 4, true⟩]
  branch := [⟨1, 2, 0, 1, 1, 0, 0, 0, true⟩, ⟨2, 7, 0, 1, 0, 60, 2, 30, true⟩]

example : (importPpc demoQ (some 999)).toOption.map (fun n => (n.lines.length, n.trafos.length,
    n.buses.map (·.vMagSet), n.lines.map (·.sNom))) = some (1, 1, [1, 1, 21 / 20], [999]) := by
  decide +kernel

/-- Finding (C104): PYPOWER's code 4 for an isolated bus makes the import fail. -/
theorem pypower_isolated_bus (over : Option F) (c : Case F) (b : PBus F) (hb : b ∈ c.bus)
    (h4 : b.type = 4) : ¬ ∃ n, importPpc c over = .ok n := by
  rw [pypower_import_succeeds]
  rintro ⟨h, _⟩
  have := h b hb
  omega

theorem named_comp {α β γ : Type} (f : String → β → γ) (pfx : String) (g : α → β) (l : List α) :
    named f pfx (l.map g) = named (fun nm x => f nm (g x)) pfx l := by
  unfold named
  generalize 0 = k
  induction l generalizing k with
  | nil => simp
  | cons x l ih => simp only [List.map_cons, List.zipIdx_cons, ih (k + 1)]

/-- Finding (C103): branches and generators out of service are imported like those in service. -/
theorem pypower_status_ignored (c : Case F) (over : Option F) :
    importPpc { c with
      branch := c.branch.map (fun l => { l with status := true })
      gen := c.gen.map (fun g => { g with status := true }) } over = importPpc c over := by
  have e1 : ∀ p : PBranch F → Bool, (∀ l, p { l with status := true } = p l) →
      (c.branch.map (fun l => { l with status := true })).filter p =
        (c.branch.filter p).map (fun l => { l with status := true }) := by
    intro p hp
    rw [List.filter_map]
    congr 1
    apply List.filter_congr
    intro l _
    exact hp l
  have e2 : ∀ bs, setV (c.gen.map (fun g => { g with status := true })) bs = setV c.gen bs := by
    intro bs; simp only [setV, List.foldl_map]
  have e3 : ∀ l : PBranch F, isTrafo c.bus { l with status := true } = isTrafo c.bus l := fun _ => rfl
  unfold importPpc
  simp only [e2]
  rw [e1 (isTrafo c.bus) e3, e1 (fun l => !isTrafo c.bus l) (fun l => by rw [e3])]
  simp only [named_comp, List.any_map]
  rfl

end Structure

/-! ## C103 -/

noncomputable section

open Classical

variable {nb : Nat}

/-- PYPOWER's branch model (`makeYbus`): series admittance, complex tap ratio, currents at the ends
in per unit of `baseMVA`. -/
def ppYs (l : PBranch ℝ) : ℂ := 1 / (l.r + Complex.I * l.x)

def ppTap (l : PBranch ℝ) : ℂ :=
  ((if l.tap = 0 then 1 else l.tap : ℝ) : ℂ) * Complex.exp (Complex.I * (Real.pi / 180 * l.shift : ℝ))

def ppFrom (l : PBranch ℝ) (vf vt : ℂ) : ℂ :=
  (ppYs l + Complex.I * l.b / 2) / (ppTap l * (starRingEnd ℂ) (ppTap l)) * vf -
    ppYs l / (starRingEnd ℂ) (ppTap l) * vt

def ppTo (l : PBranch ℝ) (vf vt : ℂ) : ℂ :=
  - ppYs l / ppTap l * vf + (ppYs l + Complex.I * l.b / 2) * vt

/-- `Ybus V` of PYPOWER: currents into the branches in service and into the shunts. -/
def ppCurrent (c : Case ℝ) (f : Int → Fin nb) (V : Fin nb → ℂ) (i : Fin nb) : ℂ :=
  ((c.branch.filter (fun l => l.status ∧ f l.bus0 = i)).map
    (fun l => ppFrom l (V (f l.bus0)) (V (f l.bus1)))).sum +
  ((c.branch.filter (fun l => l.status ∧ f l.bus1 = i)).map
    (fun l => ppTo l (V (f l.bus0)) (V (f l.bus1)))).sum +
  ((c.bus.filter (fun b => f b.num = i)).map
    (fun b => ((b.gs : ℂ) + Complex.I * b.bs) / c.baseMVA)).sum * V i

/-- `Sbus` of PYPOWER: generators in service minus demand. -/
def ppInjection (c : Case ℝ) (f : Int → Fin nb) (i : Fin nb) : ℂ :=
  (((c.gen.filter (fun g => g.status ∧ f g.bus = i)).map (fun g => (g.p : ℂ) + Complex.I * g.q)).sum -
  ((c.bus.filter (fun b => f b.num = i)).map (fun b => (b.pd : ℂ) + Complex.I * b.qd)).sum) / c.baseMVA

/-- The branch of the power flow which stands for a branch of the case. -/
def stand (f : Int → Fin nb) (base : ℝ) (t : Bool) (l : PBranch ℝ) : AC.Branch nb :=
  { bus0 := f l.bus0, bus1 := f l.bus1, r := l.r / base, x := l.x / base, g := 0, b := l.b * base
    tap := if t then some (if l.tap = 0 then 1 else l.tap) else none
    tapSide := if t then some 0 else none, phase := if t then some l.shift else none }

theorem stand_ySe (f : Int → Fin nb) (base : ℝ) (t : Bool) (l : PBranch ℝ) :
    AC.ySe (stand f base t l) = base * ppYs l := by
  unfold AC.ySe ppYs stand
  simp only [Complex.ofReal_div]
  rw [show (l.r : ℂ) / base + Complex.I * (l.x / base) = (l.r + Complex.I * l.x) / base by ring]
  rw [one_div_div]
  ring

theorem stand_tau (f : Int → Fin nb) (base : ℝ) (t : Bool) (l : PBranch ℝ)
    (h : t = false → (l.tap = 0 ∨ l.tap = 1) ∧ l.shift = 0) :
    AC.tauHv (stand f base t l) = (if l.tap = 0 then 1 else l.tap : ℝ) ∧
    AC.tauLv (stand f base t l) = 1 ∧
    ppTap l = ((AC.tauHv (stand f base t l) : ℝ) : ℂ) * AC.phaseFactor (stand f base t l) := by
  have h1 : AC.tauHv (stand f base t l) = (if l.tap = 0 then 1 else l.tap : ℝ) := by
    cases t with
    | false =>
      rcases (h rfl).1 with h | h <;> simp [AC.tauHv, stand, h]
    | true =>
      by_cases h0 : l.tap = 0 <;> simp [AC.tauHv, AC.tau, stand, h0]
  refine ⟨h1, ?_, ?_⟩
  · cases t <;> simp [AC.tauLv, stand]
  · rw [h1]
    unfold ppTap AC.phaseFactor
    congr 3
    cases t with
    | false => simp [stand, (h rfl).2]
    | true => simp only [stand, if_true, Option.getD_some]; congr 1; ring

theorem stand_from (f : Int → Fin nb) (base : ℝ) (t : Bool) (l : PBranch ℝ)
    (h : t = false → (l.tap = 0 ∨ l.tap = 1) ∧ l.shift = 0) (vf vt : ℂ) :
    AC.y00 (stand f base t l) * vf + AC.y01 (stand f base t l) * vt = base * ppFrom l vf vt ∧
    AC.y10 (stand f base t l) * vf + AC.y11 (stand f base t l) * vt = base * ppTo l vf vt := by
  obtain ⟨_, h2, h3⟩ := stand_tau f base t l h
  have hy : AC.ySh (stand f base t l) = base * (Complex.I * l.b) := by
    simp [AC.ySh, stand]; ring
  have hc := AC.phaseFactor_conj (stand f base t l)
  have n1 := AC.tauHv_ne (stand f base t l)
  have n2 := AC.phaseFactor_ne (stand f base t l)
  have n3 := AC.conj_phaseFactor_ne (stand f base t l)
  unfold AC.y00 AC.y01 AC.y10 AC.y11 ppFrom ppTo
  rw [h2, h3, stand_ySe, hy]
  simp only [map_mul, Complex.conj_ofReal, Complex.ofReal_one]
  generalize AC.phaseFactor (stand f base t l) = e at *
  generalize (starRingEnd ℂ) e = e' at *
  have hd : (AC.tauHv (stand f base t l) : ℂ) * e * ((AC.tauHv (stand f base t l) : ℂ) * e') =
      (AC.tauHv (stand f base t l) : ℂ) ^ 2 := by linear_combination (AC.tauHv (stand f base t l) : ℂ) ^ 2 * hc
  rw [hd]
  constructor
  · field_simp
    ring
  · field_simp

theorem lineBranch_stand (c : Case ℝ) (over : Option ℝ) (n : Net ℝ) (h : importPpc c over = .ok n)
    (hb : c.baseMVA ≠ 0) (m : String) (f : Int → Fin nb) (l : PBranch ℝ)
    (hl : isTrafo c.bus l = false) (nm : String) :
    lineBranch f (n.withModel m) (toLine c.baseMVA over c.bus nm l) =
      some (stand f c.baseMVA false l) := by
  obtain ⟨⟨v, hv⟩, _⟩ := vNomOf_isSome_of_line _ _ hl
  have hv0 := vNomOf_ne _ _ _ hv
  have hv2 : v ^ 2 ≠ 0 := pow_ne_zero _ hv0
  have e := vNomAt_import c over n h m l.bus0
  simp only [lineBranch, linePu, toLine, e, hv, fdiv, hb, hv2, odiv, Option.bind_eq_bind,
    Option.bind_some, if_false, pure, Option.map_some, stand]
  congr 2
  · field_simp
  · field_simp
  · field_simp

theorem trafoBranch_stand (base : ℝ) (over : Option ℝ) (hb : base ≠ 0) (m : String)
    (f : Int → Fin nb) (l : PBranch ℝ) (hs : sNomOf over l ≠ 0) (hm : m = "pi" ∨ l.b = 0)
    (nm : String) :
    trafoBranch f { toTrafo base over nm l with model := m } = some (stand f base true l) := by
  simp only [trafoBranch, trafoPu, toTrafo, fdiv, hb, hs, odiv, Option.bind_eq_bind,
    Option.bind_some, if_false, pure, Option.map_some, stand]
  have e1 : l.r * sNomOf over l / base / sNomOf over l = l.r / base := by field_simp
  have e2 : l.x * sNomOf over l / base / sNomOf over l = l.x / base := by field_simp
  have e3 : l.b * base / sNomOf over l * sNomOf over l = l.b * base := by field_simp
  rw [e1, e2, e3]
  have : Types.tModel ⟨decide (m = "t"), l.r / base, l.x / base, 0, l.b * base⟩ =
      ⟨decide (m = "t"), l.r / base, l.x / base, 0, l.b * base⟩ := by
    rcases hm with rfl | h0
    · simp [Types.tModel]
    · simp [Types.tModel, Types.yShunt, h0]
  rw [this]
  simp

/-- C103: an imported PYPOWER case is the same electrical network.  For every case with all
branches and generators in service and a rating (or a replacement) for every branch, whatever the
numbering of the buses, with the transformers set to the pi model (or without charging of
transformers): all per-unit values are finite, at all voltages the currents of PyPSA's admittance
matrix are those of PYPOWER, and the injections are those of PYPOWER, both rescaled from
`baseMVA` to 1 MVA.  So the two power-flow problems have the same solutions. -/
theorem pypower_same_power_flow (c : Case ℝ) (over : Option ℝ) (n : Net ℝ)
    (h : importPpc c over = .ok n) (hb : c.baseMVA ≠ 0) (hnd : (c.bus.map (·.num)).Nodup)
    (hon : ∀ l ∈ c.branch, l.status = true) (hgon : ∀ g ∈ c.gen, g.status = true)
    (hs : ∀ l ∈ c.branch, l.rateA ≠ 0 ∨ ∃ s, over = some s ∧ s ≠ 0) (m : String)
    (hm : m = "pi" ∨ ∀ l ∈ c.branch, l.b = 0 ∨ ((l.tap = 0 ∨ l.tap = 1) ∧ l.shift = 0 ∧
      ∃ b0 ∈ c.bus, ∃ b1 ∈ c.bus, b0.num = l.bus0 ∧ b1.num = l.bus1 ∧ b0.vNom = b1.vNom))
    (f : Int → Fin nb) :
    ∃ brs shs, branchesOf f (n.withModel m) = some brs ∧ shuntsOf f (n.withModel m) = some shs ∧
      (∀ V i, (AC.matY brs.get shs *ᵥ V) i = c.baseMVA * ppCurrent c f V i) ∧
      (∀ i, injectionOf f (n.withModel m) i = c.baseMVA * ppInjection c f i) := by
  obtain ⟨bs, hbs, hg, hn⟩ := importPpc_ok c over n h
  have hbC : (c.baseMVA : ℂ) ≠ 0 := by exact_mod_cast hb
  have hsn : ∀ l ∈ c.branch, sNomOf over l ≠ 0 := by
    intro l hl
    unfold sNomOf
    rcases hs l hl with h | ⟨s, h1, h2⟩
    · rw [if_neg h]; exact h
    · split
      · simpa [h1] using h2
      · assumption
  have hmb : ∀ l ∈ c.branch, isTrafo c.bus l = true → m = "pi" ∨ l.b = 0 := by
    intro l hl ht
    rcases hm with h | h
    · exact Or.inl h
    · right
      rcases h l hl with h | ⟨h1, h2, b0, hb0, b1, hb1, e0, e1, e⟩
      · exact h
      · exfalso
        have k0 := vNomOf_mem c.bus hnd b0 hb0
        have k1 := vNomOf_mem c.bus hnd b1 hb1
        rw [e0] at k0
        rw [e1] at k1
        unfold isTrafo at ht
        rw [k0, k1, e] at ht
        rcases h1 with h1 | h1 <;> simp [vDiffer, h1, h2] at ht
  have hL : (n.withModel m).lines.mapM (lineBranch f (n.withModel m)) =
      some ((c.branch.filter (fun l => !isTrafo c.bus l)).map (stand f c.baseMVA false)) := by
    have : (n.withModel m).lines = named (toLine c.baseMVA over c.bus) "L"
        (c.branch.filter (fun l => !isTrafo c.bus l)) := by rw [hn]; rfl
    rw [this]
    apply named_mapM
    intro l hl nm
    exact lineBranch_stand c over n h hb m f l (by simpa using (List.mem_filter.1 hl).2) nm
  have hT : (n.withModel m).trafos.mapM (trafoBranch f) =
      some ((c.branch.filter (isTrafo c.bus)).map (stand f c.baseMVA true)) := by
    have : (n.withModel m).trafos = named (fun nm l => { toTrafo c.baseMVA over nm l with model := m })
        "T" (c.branch.filter (isTrafo c.bus)) := by
      rw [hn]; simp [Net.withModel, named, List.map_map, Function.comp]
    rw [this]
    apply named_mapM
    intro l hl nm
    have := List.mem_filter.1 hl
    exact trafoBranch_stand c.baseMVA over hb m f l (hsn l this.1) (hmb l this.1 this.2) nm
  have hS : shuntsOf f (n.withModel m) = some ((c.bus.filter
      (fun b => decide (b.gs ≠ 0) || decide (b.bs ≠ 0))).map
      (fun b => { bus := f b.num, g := b.gs, b := b.bs, active := true })) := by
    have : (n.withModel m).shunts = named toShunt "S"
        (c.bus.filter (fun b => decide (b.gs ≠ 0) || decide (b.bs ≠ 0))) := by rw [hn]; rfl
    unfold shuntsOf
    rw [this]
    apply named_mapM
    intro b hbm nm
    have hv := vNomOf_mem c.bus hnd b (List.mem_filter.1 hbm).1
    have hv2 : vFix b.vNom ^ 2 ≠ 0 := pow_ne_zero _ (vFix_ne _)
    have e := vNomAt_import c over n h m b.num
    simp only [shuntPu, toShunt, e, hv, fdiv, hv2, if_false, Option.bind_eq_bind, Option.bind_some,
      pure, Option.map_some]
    congr 2 <;> exact div_mul_cancel₀ _ hv2
  refine ⟨_, _, by unfold branchesOf; rw [hL, hT]; rfl, hS, ?_, ?_⟩
  · intro V i
    generalize hB : List.map (stand f c.baseMVA false) (c.branch.filter (fun l => !isTrafo c.bus l)) ++
      List.map (stand f c.baseMVA true) (c.branch.filter (isTrafo c.bus)) = brs
    rw [AC.matY_mulVec]
    have key : ∀ G : AC.Branch nb → ℂ, ∀ G' : PBranch ℝ → ℂ,
        (∀ l ∈ c.branch, ∀ t, (t = false → (l.tap = 0 ∨ l.tap = 1) ∧ l.shift = 0) →
          G (stand f c.baseMVA t l) = G' l) →
        (∑ k : Fin brs.length, G (brs.get k)) = (c.branch.map G').sum := by
      intro G G' hG
      rw [sum_get, ← hB, List.map_append, List.sum_append, List.map_map, List.map_map,
        ← sum_filter_split (isTrafo c.bus) G' c.branch]
      congr 2
      · apply List.map_congr_left
        intro l hl
        have := List.mem_filter.1 hl
        exact hG l this.1 false (fun _ => (vNomOf_isSome_of_line c.bus l (by simpa using this.2)).2)
      · apply List.map_congr_left
        intro l hl
        exact hG l (List.mem_filter.1 hl).1 true (by simp)
    have e0 := key (fun l => if l.bus0 = i then AC.y00 l * V l.bus0 + AC.y01 l * V l.bus1 else 0)
      (fun l => c.baseMVA * (if l.status ∧ f l.bus0 = i then ppFrom l (V (f l.bus0)) (V (f l.bus1)) else 0))
      (by
        intro l hl t ht
        have := (stand_from f c.baseMVA t l ht (V (f l.bus0)) (V (f l.bus1))).1
        by_cases hi : f l.bus0 = i
        · simp only [hon l hl, hi, and_self, if_true]
          rw [hi] at this
          simpa [stand, hi] using this
        · simp [stand, hi])
    have e1 := key (fun l => if l.bus1 = i then AC.y10 l * V l.bus0 + AC.y11 l * V l.bus1 else 0)
      (fun l => c.baseMVA * (if l.status ∧ f l.bus1 = i then ppTo l (V (f l.bus0)) (V (f l.bus1)) else 0))
      (by
        intro l hl t ht
        have := (stand_from f c.baseMVA t l ht (V (f l.bus0)) (V (f l.bus1))).2
        by_cases hi : f l.bus1 = i
        · simp only [hon l hl, hi, and_self, if_true]
          rw [hi] at this
          simpa [stand, hi] using this
        · simp [stand, hi])
    simp only [AC.matY0_mulVec, AC.matY1_mulVec]
    rw [e0, e1, List.sum_map_mul_left, List.sum_map_mul_left]
    unfold ppCurrent AC.shuntY
    rw [sum_filter_ite, sum_filter_ite, sum_filter_ite, sum_filter_ite, List.map_map]
    have e2 : ((c.bus.filter (fun b => decide (b.gs ≠ 0) || decide (b.bs ≠ 0))).map
        ((fun s : AC.Shunt nb => if s.bus = i then (s.g : ℂ) + Complex.I * s.b else 0) ∘
          fun b : PBus ℝ => { bus := f b.num, g := b.gs, b := b.bs, active := true })).sum =
        c.baseMVA * (c.bus.map (fun b => if f b.num = i then
          ((b.gs : ℂ) + Complex.I * b.bs) / c.baseMVA else 0)).sum := by
      rw [sum_filter_zero, ← List.sum_map_mul_left]
      · congr 1
        apply List.map_congr_left
        intro b _
        simp only [Function.comp]
        split
        · field_simp
        · simp
      · intro b _ hz
        simp only [Bool.or_eq_false_iff, decide_eq_false_iff_not, ne_eq, not_not] at hz
        simp [hz.1, hz.2]
    rw [e2]
    ring
  · intro i
    unfold injectionOf ppInjection
    have eg : (n.withModel m).gens = named (toGen bs) "G" c.gen := by rw [hn]; rfl
    have el : (n.withModel m).loads = named toLoad "L"
        (c.bus.filter (fun b => decide (b.pd ≠ 0) || decide (b.qd ≠ 0))) := by rw [hn]; rfl
    rw [sum_filter_ite, sum_filter_ite, sum_filter_ite, sum_filter_ite, eg, el]
    rw [named_map (toGen bs) "G" _ (fun g : PGen ℝ => if f g.bus = i then (g.p : ℂ) + Complex.I * g.q else 0)
      _ (fun g nm => rfl)]
    rw [named_map toLoad "L" _ (fun b : PBus ℝ => if f b.num = i then (b.pd : ℂ) + Complex.I * b.qd else 0)
      _ (fun g nm => rfl)]
    rw [sum_filter_zero]
    · have : (c.gen.map (fun g => if f g.bus = i then (g.p : ℂ) + Complex.I * g.q else 0)) =
          c.gen.map (fun g => if g.status = true ∧ f g.bus = i then (g.p : ℂ) + Complex.I * g.q else 0) := by
        apply List.map_congr_left
        intro g hgm
        simp [hgon g hgm]
      rw [this]
      field_simp
    · intro b _ hz
      simp only [Bool.or_eq_false_iff, decide_eq_false_iff_not, ne_eq, not_not] at hz
      simp [hz.1, hz.2]

/-- The balance of PyPSA's power flow at a bus, `V conj(Y V) = s`. -/
def Balanced (brs : List (AC.Branch nb)) (shs : List (AC.Shunt nb)) (s V : Fin nb → ℂ) (i : Fin nb) :
    Prop := V i * (starRingEnd ℂ) ((AC.matY brs.get shs *ᵥ V) i) = s i

/-- C103: hence the voltages which balance a bus in PyPSA are those which balance it in PYPOWER. -/
theorem pypower_same_solutions (c : Case ℝ) (over : Option ℝ) (n : Net ℝ)
    (h : importPpc c over = .ok n) (hb : c.baseMVA ≠ 0) (hnd : (c.bus.map (·.num)).Nodup)
    (hon : ∀ l ∈ c.branch, l.status = true) (hgon : ∀ g ∈ c.gen, g.status = true)
    (hs : ∀ l ∈ c.branch, l.rateA ≠ 0 ∨ ∃ s, over = some s ∧ s ≠ 0) (f : Int → Fin nb) :
    ∃ brs shs, branchesOf f (n.withModel "pi") = some brs ∧ shuntsOf f (n.withModel "pi") = some shs ∧
      ∀ V i, Balanced brs shs (injectionOf f (n.withModel "pi")) V i ↔
        V i * (starRingEnd ℂ) (ppCurrent c f V i) = ppInjection c f i := by
  obtain ⟨brs, shs, h1, h2, h3, h4⟩ :=
    pypower_same_power_flow c over n h hb hnd hon hgon hs "pi" (Or.inl rfl) f
  refine ⟨brs, shs, h1, h2, ?_⟩
  intro V i
  have hbC : (c.baseMVA : ℂ) ≠ 0 := by exact_mod_cast hb
  unfold Balanced
  rw [h3, h4, map_mul, Complex.conj_ofReal]
  constructor
  · intro e
    apply mul_left_cancel₀ hbC
    linear_combination e
  · intro e
    linear_combination (c.baseMVA : ℂ) * e

/-- A case with a line, a transformer with tap and phase shift, a shunt, demand and a rating to be
replaced meets the hypotheses. -/
def demoCase : Case ℝ :=
  { baseMVA := 100
    bus := [⟨1, 3, 0, 0, 0, 0, 1, 0⟩, ⟨2, 1, 50, 10, 0, 5, 1, 0⟩, ⟨7, 2, 0, 0, 0, 0, 1, 20⟩]
    gen := [⟨1, 30, 0, 1, 100, true⟩, ⟨7, 20, 5, 1, 40, true⟩]
    branch := [⟨1, 2, 0, 1, 1, 0, 0, 0, true⟩, ⟨2, 7, 0, 1, 0, 60, 2, 30, true⟩] }

example : ∃ n, importPpc demoCase (some 999) = .ok n ∧ demoCase.baseMVA ≠ 0 ∧
    (demoCase.bus.map (·.num)).Nodup ∧ (∀ l ∈ demoCase.branch, l.status = true) ∧
    (∀ g ∈ demoCase.gen, g.status = true) ∧
    (∀ l ∈ demoCase.branch, l.rateA ≠ 0 ∨ ∃ s, some (999 : ℝ) = some s ∧ s ≠ 0) := by
  obtain ⟨n, hn⟩ := (pypower_import_succeeds demoCase (some 999)).2 (by simp [demoCase])
  exact ⟨n, hn, by norm_num [demoCase], by simp [demoCase], by simp [demoCase], by simp [demoCase],
    fun l _ => Or.inr ⟨999, rfl, by norm_num⟩⟩

/-! ### What the import does not preserve -/

/-- Finding (C103): a transformer whose rating is zero ("unlimited" in PYPOWER) and not replaced gets
no finite per-unit impedance, whatever its impedance. -/
theorem pypower_zero_rating (base : ℝ) (nm : String) (l : PBranch ℝ) (h : l.rateA = 0)
    (f : Int → Fin nb) : trafoBranch f (toTrafo base none nm l) = none := by
  have : sNomOf none l = 0 := by simp [sNomOf, h]
  simp only [trafoBranch, trafoPu, toTrafo, this, odiv, fdiv, if_true]
  simp

/-- Finding (C103): after the import as it is, transformers follow the T model, so that the currents of
a transformer with charging are not those of PYPOWER. -/
theorem pypower_t_model_differs (f : Int → Fin nb) :
    ∃ (l : PBranch ℝ) (b : AC.Branch nb), trafoBranch f (toTrafo 1 none "T0" l) = some b ∧
      ∃ vf vt, AC.y10 b * vf + AC.y11 b * vt ≠ (1 : ℝ) * ppTo l vf vt := by
  have hy : Types.yShunt ⟨true, 0, 1, 0, 1⟩ ≠ 0 := by
    intro h; have := congrArg Complex.im h; simp [Types.yShunt] at this
  have hx : (Types.tModel ⟨true, 0, 1, 0, 1⟩).x = 3 / 4 ∧ (Types.tModel ⟨true, 0, 1, 0, 1⟩).r = 0 := by
    simp only [Types.tModel, hy, ne_eq, not_false_eq_true, and_self, if_true, Types.wyeToDelta,
      Types.zSeries, Types.yShunt]
    simp
    have e : (Complex.I / 2 * (Complex.I / 2) + -(Complex.I / 2 * Complex.I) +
        -(Complex.I * (Complex.I / 2))) / -Complex.I = 3 / 4 * Complex.I := by
      rw [div_eq_iff (neg_ne_zero.2 Complex.I_ne_zero)]
      ring
    rw [e]
    constructor <;> simp
  refine ⟨⟨0, 1, 0, 1, 1, 1, 2, 0, true⟩,
    ⟨f 0, f 1, (Types.tModel ⟨true, 0, 1, 0, 1⟩).r, (Types.tModel ⟨true, 0, 1, 0, 1⟩).x,
      (Types.tModel ⟨true, 0, 1, 0, 1⟩).g, (Types.tModel ⟨true, 0, 1, 0, 1⟩).b, some 2, some 0, some 0⟩,
    by simp [trafoBranch, trafoPu, toTrafo, sNomOf, odiv, fdiv], 1, 0, ?_⟩
  intro h
  have := congrArg Complex.im h
  simp [AC.y10, AC.ySe, AC.tauHv, AC.tauLv, AC.tau, AC.phaseFactor, ppTo, ppYs, ppTap, hx] at this
  norm_num at this

end

end Verif.IO.Pypower
