import Verif.Opt.OnOffProps

/-!
# Load shedding in the whole problem (C157)

`n.optimize.add_load_shedding` (`pypsa/optimization/optimize.py` 748-791) adds one generator to each chosen bus.  C59 is about the balance of one snapshot; here it is put into the
problem of `Whole.lean`.
-/

namespace Verif.Opt.Whole.Exist

open Doc

variable {F : Type} [Field F] [LinearOrder F]

/-! ## Model -/

/-- The generator at a bus: sign, marginal cost and `p_nom` are given (782-791, single values or one per bus), all else are the defaults of
`pypsa/data/component_attrs/generators.csv`. -/
def shedGen (sfx : Name) (sign cost pNom : Name → F) (b : Name) : GenW F where
  name := b ++ sfx
  bus := b
  sign := sign b
  unit := {
    nom := pNom b, extendable := false, committable := false, active := fun _ => true, minPu := fun _ => 0, maxPu := fun _ => 1,
    minUp := 0, minDown := 0, upBefore := 1, downBefore := 0, rampUp := fun _ => none, rampDown := fun _ => none, rampUpStatic := none,
    rampDownStatic := none, rampStart := 1, rampShut := 1, startUpCost := 0, shutDownCost := 0, histStatus := [], histP := 0 }
  invest := ⟨0, none, 0, none, 0, fun _ => true, true⟩
  costs := ⟨fun _ => cost b, fun _ => 0, fun _ => 0, fun _ => 0, fun _ => 0⟩
  pSet := fun _ => none
  eSumMin := none
  eSumMax := none

/-- `buses` defaults to all buses (779-780); `n.add` leaves generators alone whose name exists. -/
def sheddingGens (w : WNet F) (buses : Option (List Name)) (sfx : Name) (sign cost pNom : Name → F) : List (GenW F) :=
  ((buses.getD w.buses).filter (fun b => !(w.gens.map (·.name)).contains (b ++ sfx))).map (shedGen sfx sign cost pNom)

def withShedding (w : WNet F) (buses : Option (List Name)) (sfx : Name) (sign cost pNom : Name → F) : WNet F :=
  { w with gens := w.gens ++ sheddingGens w buses sfx sign cost pNom }

/-! ## What is asked for -/

/-- The buses are known, are chosen once, and their generators are new. -/
structure Shedding (w : WNet F) (buses : Option (List Name)) (sfx : Name) : Prop where
  known : ∀ b ∈ buses.getD w.buses, b ∈ w.buses
  once : (buses.getD w.buses).Nodup
  fresh : ∀ b ∈ buses.getD w.buses, ∀ g ∈ w.gens, g.name ≠ b ++ sfx

/-- What is missing at a bus. -/
def missing (w : WNet F) (x : WVar → F) (t : Nat) (b : Name) : F := demand w t b - supply w x t b

/-- What is shed at a bus. -/
def shedAt (sfx : Name) (x : WVar → F) (t : Nat) (b : Name) : F := x (.of "Generator" (b ++ sfx) (.op "p" t))

/-- What shedding costs. -/
def shedCost (w : WNet F) (S : List Name) (sfx : Name) (cost : Name → F) (x : WVar → F) : F :=
  (S.map (fun b => ((List.range w.len).map (fun t => weight w t * cost b * shedAt sfx x t b)).sum)).sum

variable {w : WNet F} {buses : Option (List Name)} {sfx : Name} {sign cost pNom : Name → F}

/-! ## The larger network -/

omit [Field F] [LinearOrder F] in
theorem append_inj {a b s : String} (h : a ++ s = b ++ s) : a = b := by
  have := congrArg String.toList h
  rw [String.toList_append, String.toList_append] at this
  exact String.toList_inj.mp (List.append_cancel_right this)

theorem gens_eq (hS : Shedding w buses sfx) : (withShedding w buses sfx sign cost pNom).gens = w.gens ++ (buses.getD w.buses).map (shedGen sfx sign cost pNom) := by
  unfold withShedding sheddingGens
  simp only
  congr 2
  rw [List.filter_eq_self]
  intro b hb
  simp only [Bool.not_eq_true', List.contains_eq_mem, decide_eq_false_iff_not, List.mem_map, not_exists, not_and]
  exact fun g hg => hS.fresh b hb g hg

theorem shed_sound (hw : Sound w) (hS : Shedding w buses sfx) : Sound (withShedding w buses sfx sign cost pNom) := by
  refine { noEmpty := hw.noEmpty, buses := hw.buses, genBus := ?_, storeBus := hw.storeBus, unitBus := hw.unitBus, loadBus := hw.loadBus, lineBus := hw.lineBus, trafoBus := hw.trafoBus, linkBus := hw.linkBus, gens := ?_, links := hw.links, stores := hw.stores, units := hw.units, lines := hw.lines, trafos := hw.trafos }
  · intro g hg
    rw [gens_eq hS] at hg
    rcases List.mem_append.mp hg with hg | hg
    · exact hw.genBus g hg
    · obtain ⟨b, hb, rfl⟩ := List.mem_map.mp hg
      exact hS.known b hb
  · rw [gens_eq hS, List.map_append, List.nodup_append]
    refine ⟨hw.gens, ?_, ?_⟩
    · rw [List.map_map]
      exact hS.once.map_on (fun a _ b _ h => append_inj h)
    · intro a ha b hb e
      obtain ⟨g, hg, rfl⟩ := List.mem_map.mp ha
      obtain ⟨g', hg', rfl⟩ := List.mem_map.mp hb
      obtain ⟨c, hc, rfl⟩ := List.mem_map.mp hg'
      exact hS.fresh c hc g hg e

theorem shed_linear (hl : LinearCosts w) (hS : Shedding w buses sfx) : LinearCosts (withShedding w buses sfx sign cost pNom) := by
  refine { gens := ?_, links := hl.links, stores := hl.stores, units := hl.units, genEvents := ?_, linkEvents := hl.linkEvents }
  all_goals
    intro g hg
    rw [gens_eq hS] at hg
    rcases List.mem_append.mp hg with hg | hg
  · exact hl.gens g hg
  · obtain ⟨b, hb, rfl⟩ := List.mem_map.mp hg
    exact fun _ => rfl
  · exact hl.genEvents g hg
  · obtain ⟨b, hb, rfl⟩ := List.mem_map.mp hg
    exact ⟨le_rfl, le_rfl⟩

theorem shed_orderly (hd : Orderly w) (hS : Shedding w buses sfx) : Orderly (withShedding w buses sfx sign cost pNom) := by
  refine { gens := ?_, links := hd.links, stores := hd.stores, units := hd.units }
  intro g hg
  rw [gens_eq hS] at hg
  rcases List.mem_append.mp hg with hg | hg
  · exact hd.gens g hg
  · obtain ⟨b, hb, rfl⟩ := List.mem_map.mp hg
    intro _ h
    cases h

/-- Whatever the names are, no two generators have the same name afterwards, and those that were there are still there. -/
theorem shed_names (hn : (w.gens.map (·.name)).Nodup) (hS : (buses.getD w.buses).Nodup) :
    ((withShedding w buses sfx sign cost pNom).gens.map (·.name)).Nodup ∧ ∀ g ∈ w.gens, g ∈ (withShedding w buses sfx sign cost pNom).gens := by
  refine ⟨?_, fun g hg => List.mem_append_left _ hg⟩
  unfold withShedding sheddingGens
  simp only
  rw [List.map_append, List.nodup_append, List.map_map]
  refine ⟨hn, (hS.filter _).map_on (fun a _ b _ h => append_inj h), ?_⟩
  intro a ha b hb e
  obtain ⟨c, hc, rfl⟩ := List.mem_map.mp hb
  have := (List.mem_filter.mp hc).2
  simp only [Bool.not_eq_true', List.contains_eq_mem, decide_eq_false_iff_not] at this
  rw [e] at ha
  exact this ha

/-- Costs are those of the network and of shedding. -/
theorem shed_total (hS : Shedding w buses sfx) (x : WVar → F) :
    totalCost (withShedding w buses sfx sign cost pNom) x = totalCost w x + shedCost w (buses.getD w.buses) sfx cost x := by
  unfold totalCost
  rw [gens_eq hS, List.map_append, List.sum_append, List.map_map]
  have e : ((buses.getD w.buses).map ((fun g => genCost (withShedding w buses sfx sign cost pNom) g x) ∘ shedGen sfx sign cost pNom)).sum =
      shedCost w (buses.getD w.buses) sfx cost x := by
    unfold shedCost
    congr 1
    refine List.map_congr_left (fun b _ => ?_)
    simp only [Function.comp_def, genCost, shedGen, if_true, Bool.false_eq_true, if_false, add_zero]
    rfl
  rw [e]
  change (w.gens.map (fun g => genCost w g x)).sum + _ + (w.links.map (fun g => linkCost w g x)).sum + (w.stores.map (fun g => storeCost w g x)).sum +
    (w.units.map (fun g => unitCost w g x)).sum + (w.lines.map (fun g => branchCost w "Line" g x)).sum +
    (w.trafos.map (fun g => branchCost w "Transformer" g x)).sum = _
  ring

omit [LinearOrder F] in
theorem sum_at (S : List Name) (hn : S.Nodup) (f : Name → F) (b : Name) :
    (S.map (fun c => atBus b c true (f c))).sum = if b ∈ S then f b else 0 := by
  induction S with
  | nil => simp
  | cons a S ih =>
    obtain ⟨h1, h2⟩ := List.nodup_cons.mp hn
    rw [List.map_cons, List.sum_cons, ih h2]
    unfold atBus
    by_cases e : a = b
    · subst e
      simp [h1]
    · simp [e, Ne.symm e]

/-- At the chosen buses there is more supply by what is shed. -/
theorem shed_supply (hS : Shedding w buses sfx) (x : WVar → F) (t : Nat) (b : Name) :
    supply (withShedding w buses sfx sign cost pNom) x t b =
      supply w x t b + if b ∈ buses.getD w.buses then sign b * shedAt sfx x t b else 0 := by
  unfold supply
  rw [gens_eq hS, List.map_append, List.sum_append, List.map_map]
  have e : ((buses.getD w.buses).map ((fun g : GenW F => atBus b g.bus (g.unit.active t) (g.sign * x (.of "Generator" g.name (.op "p" t)))) ∘
      shedGen sfx sign cost pNom)).sum = if b ∈ buses.getD w.buses then sign b * shedAt sfx x t b else 0 :=
    sum_at _ hS.once (fun c => sign c * shedAt sfx x t c) b
  rw [e]
  change (w.gens.map (fun g => atBus b g.bus (g.unit.active t) (g.sign * x (.of "Generator" g.name (.op "p" t))))).sum + _ +
    (w.stores.map (fun s => atBus b s.bus (s.storage.active t) (s.sign * x (.of "Store" s.name (.op "p" t))))).sum +
    (w.units.map (fun s => atBus b s.bus (s.storage.active t)
    (s.sign * (x (.of "StorageUnit" s.name (.op "p_dispatch" t)) - x (.of "StorageUnit" s.name (.op "p_store" t)))))).sum +
  (w.lines.map (fun l =>
    atBus b l.bus0 (l.active t) (- x (.of "Line" l.name (.op "s" t)) - halfLoss w (x (.of "Line" l.name (.op "loss" t)))) +
    atBus b l.bus1 (l.active t) (x (.of "Line" l.name (.op "s" t)) - halfLoss w (x (.of "Line" l.name (.op "loss" t)))))).sum +
  (w.trafos.map (fun l =>
    atBus b l.bus0 (l.active t) (- x (.of "Transformer" l.name (.op "s" t)) - halfLoss w (x (.of "Transformer" l.name (.op "loss" t)))) +
    atBus b l.bus1 (l.active t) (x (.of "Transformer" l.name (.op "s" t)) - halfLoss w (x (.of "Transformer" l.name (.op "loss" t)))))).sum +
  (w.links.map (fun l =>
    atBus b l.bus0 (l.unit.active t) (- x (.of "Link" l.name (.op "p" t))) +
    atBus b l.bus1 (l.unit.active t) (l.eff t * x (.of "Link" l.name (.op "p" t))) +
    (l.extra.map (fun e => atBus b e.1 (l.unit.active t) (e.2 t * x (.of "Link" l.name (.op "p" t))))).sum)).sum = _
  ring

/-- Rules of a unit if ramp limits count only where they did, or the unit has none. -/
theorem unit_ramps {u : Unit' F} {past : Past F} {linear R R' : Prop} {n : Nat} {p status up down : Nat → F} {cap : F}
    (h : UnitRule u past linear R n p status up down cap)
    (hr : R' → R ∨ ((∀ t, u.rampUp t = none ∧ u.rampDown t = none) ∧ u.rampUpStatic = none ∧ u.rampDownStatic = none)) :
    UnitRule u past linear R' n p status up down cap := by
  refine { h with rampUp := ?_, rampDown := ?_, rampUpCommitted := ?_, rampDownCommitted := ?_, rampUpFirst := ?_, rampDownFirst := ?_ }
  · intro r t ht ha q hq
    rcases hr r with k | ⟨k, -, -⟩
    · exact h.rampUp k t ht ha q hq
    · rw [(k _).1] at hq; cases hq
  · intro r t ht ha q hq
    rcases hr r with k | ⟨k, -, -⟩
    · exact h.rampDown k t ht ha q hq
    · rw [(k _).2] at hq; cases hq
  · intro r hc t ht ha q hq
    rcases hr r with k | ⟨-, k, -⟩
    · exact h.rampUpCommitted k hc t ht ha q hq
    · rw [k] at hq; cases hq
  · intro r hc t ht ha q hq
    rcases hr r with k | ⟨-, -, k⟩
    · exact h.rampDownCommitted k hc t ht ha q hq
    · rw [k] at hq; cases hq
  · intro r hn ha q s hs
    rcases hr r with k | ⟨k1, k2, -⟩
    · exact h.rampUpFirst k hn ha q s hs
    · exact ⟨fun r e => (by rw [(k1 0).1] at e; cases e), fun _ r e => (by rw [k2] at e; cases e)⟩
  · intro r hn ha q s hs
    rcases hr r with k | ⟨k1, -, k2⟩
    · exact h.rampDownFirst k hn ha q s hs
    · exact ⟨fun r e => (by rw [(k1 0).2] at e; cases e), fun _ r e => (by rw [k2] at e; cases e)⟩

/-- Ramp limits count before exactly where they count afterwards, or there are none. -/
theorem ramps_same {us vs : List (Unit' F)} {n : Nat} (h : RampsStay us n) {u : Unit' F} (hu : u ∈ us) :
    (RampsCount us n ∧ RampsCount (us ++ vs) n) ∨ ((∀ t, u.rampUp t = none ∧ u.rampDown t = none) ∧ u.rampUpStatic = none ∧ u.rampDownStatic = none) := by
  rcases h with h | h
  · exact Or.inr (h u hu)
  · refine Or.inl ⟨h, ?_⟩
    obtain ⟨⟨u, hu, t, ht, h1⟩, v, hv, s, hs, h2⟩ := h
    exact ⟨⟨u, List.mem_append_left _ hu, t, ht, h1⟩, v, List.mem_append_left _ hv, s, hs, h2⟩

/-- The rules of the assets are those of the network, and what is shed is between zero and `p_nom`. -/
theorem shed_rules (hS : Shedding w buses sfx) (hr : RampsStay (w.gens.map (·.unit)) w.len) (x : WVar → F) :
    AssetRules (withShedding w buses sfx sign cost pNom) x ↔
      AssetRules w x ∧ ∀ b ∈ buses.getD w.buses, ∀ t < w.len, 0 ≤ shedAt sfx x t b ∧ shedAt sfx x t b ≤ pNom b := by
  have hus : (withShedding w buses sfx sign cost pNom).gens.map (·.unit) =
      w.gens.map (·.unit) ++ ((buses.getD w.buses).map (shedGen sfx sign cost pNom)).map (·.unit) := by rw [gens_eq hS, List.map_append]
  constructor
  · intro h
    refine ⟨⟨fun g hg => ?_, fun g hg => ⟨(h.links g hg).cap, (h.links g hg).unit, (h.links g hg).set⟩, fun g hg => ⟨(h.stores g hg).cap, (h.stores g hg).limits, (h.stores g hg).set, (h.stores g hg).level⟩,
      fun g hg => ⟨(h.units g hg).cap, (h.units g hg).dispatch, (h.units g hg).store, (h.units g hg).charge, (h.units g hg).spill, (h.units g hg).set, (h.units g hg).level⟩,
      fun g hg => ⟨(h.lines g hg).cap, (h.lines g hg).limits, (h.lines g hg).set, (h.lines g hg).loss⟩, fun g hg => ⟨(h.trafos g hg).cap, (h.trafos g hg).limits, (h.trafos g hg).set, (h.trafos g hg).loss⟩⟩, fun b hb t ht => ?_⟩
    · have k := h.gens g (by rw [gens_eq hS]; exact List.mem_append_left _ hg)
      refine ⟨k.cap, unit_ramps k.unit (fun hR => ?_), k.set, k.sumMin, k.sumMax⟩
      rcases ramps_same (vs := ((buses.getD w.buses).map (shedGen sfx sign cost pNom)).map (·.unit)) hr (List.mem_map_of_mem (f := (·.unit)) hg) with e | e
      · left
        rw [hus]
        exact e.2
      · exact Or.inr e
    · have k := h.gens (shedGen sfx sign cost pNom b) (by rw [gens_eq hS]; exact List.mem_append_right _ (List.mem_map_of_mem hb))
      have := k.unit.fixed rfl rfl t ht rfl
      simpa [shedGen, shedAt] using this
  · rintro ⟨h, hs⟩
    refine ⟨fun g hg => ?_, fun g hg => ⟨(h.links g hg).cap, (h.links g hg).unit, (h.links g hg).set⟩, fun g hg => ⟨(h.stores g hg).cap, (h.stores g hg).limits, (h.stores g hg).set, (h.stores g hg).level⟩,
      fun g hg => ⟨(h.units g hg).cap, (h.units g hg).dispatch, (h.units g hg).store, (h.units g hg).charge, (h.units g hg).spill, (h.units g hg).set, (h.units g hg).level⟩,
      fun g hg => ⟨(h.lines g hg).cap, (h.lines g hg).limits, (h.lines g hg).set, (h.lines g hg).loss⟩, fun g hg => ⟨(h.trafos g hg).cap, (h.trafos g hg).limits, (h.trafos g hg).set, (h.trafos g hg).loss⟩⟩
    rw [gens_eq hS] at hg
    rcases List.mem_append.mp hg with hg | hg
    · have k := h.gens g hg
      refine ⟨k.cap, unit_ramps k.unit (fun hR => ?_), k.set, k.sumMin, k.sumMax⟩
      rcases ramps_same (vs := ((buses.getD w.buses).map (shedGen sfx sign cost pNom)).map (·.unit)) hr (List.mem_map_of_mem (f := (·.unit)) hg) with e | e
      · exact Or.inl e.1
      · exact Or.inr e
    · obtain ⟨b, hb, rfl⟩ := List.mem_map.mp hg
      refine ⟨⟨by simp [shedGen], by simp [shedGen], by simp [shedGen], by simp [shedGen]⟩, ?_, by simp [SetRule, shedGen], by simp [shedGen], by simp [shedGen]⟩
      constructor <;> try (simp [shedGen]; done)
      intro _ _ t ht _
      simpa [shedGen, shedAt] using hs b hb t ht

/-! ## Serving what is missing -/

/-- The point in which all that is missing at the chosen buses is shed. -/
def serve (w : WNet F) (S : List Name) (sfx : Name) (sign : Name → F) (x : WVar → F) : WVar → F
  | .of c a l =>
    match (if c = "Generator" then S.find? (fun b => decide (b ++ sfx = a)) else none), l with
    | some b, .op _ t => missing w x t b / sign b
    | _, _ => x (.of c a l)
  | .const => x .const

omit [LinearOrder F] in
theorem serve_old {S : List Name} {c a : Name} (h : c = "Generator" → ∀ b ∈ S, a ≠ b ++ sfx) (x : WVar → F) (l : Loc) :
    serve w S sfx sign x (.of c a l) = x (.of c a l) := by
  unfold serve
  have : (if c = "Generator" then S.find? (fun b => decide (b ++ sfx = a)) else none) = none := by
    split
    · rename_i e
      rw [List.find?_eq_none]
      intro b hb
      simpa using (h e b hb).symm
    · rfl
  simp only [this]

omit [LinearOrder F] in
theorem serve_new {S : List Name} {b : Name} (hb : b ∈ S) (x : WVar → F) (t : Nat) : shedAt sfx (serve w S sfx sign x) t b = missing w x t b / sign b := by
  unfold shedAt serve
  have : S.find? (fun c => decide (c ++ sfx = b ++ sfx)) = some b := by
    have h1 : (S.find? (fun c => decide (c ++ sfx = b ++ sfx))).isSome := by
      rw [List.find?_isSome]
      exact ⟨b, hb, by simp⟩
    obtain ⟨c, hc⟩ := Option.isSome_iff_exists.mp h1
    have h2 := List.find?_some hc
    simp only [decide_eq_true_eq] at h2
    rw [hc, append_inj h2]
  simp only [if_true, this]

/-- Further rows do not look at what is shed. -/
def Blind (S : List Name) (sfx : Name) (other : List (Con WVar F)) : Prop :=
  ∀ r ∈ other, ∀ e ∈ r.terms, ∀ b ∈ S, ∀ l, e.2 ≠ .of "Generator" (b ++ sfx) l

omit [LinearOrder F] in
theorem serve_blind {S : List Name} (v : WVar) (h : ∀ b ∈ S, ∀ l, v ≠ .of "Generator" (b ++ sfx) l) (x : WVar → F) :
    serve w S sfx sign x v = x v := by
  cases v with
  | const => rfl
  | of c a l => exact serve_old (fun e b hb k => h b hb l (by rw [e, k])) x l

/-- Two points that differ in what is shed only. -/
def Off (S : List Name) (sfx : Name) (x y : WVar → F) : Prop := ∀ v, (∀ b ∈ S, ∀ l, v ≠ .of "Generator" (b ++ sfx) l) → y v = x v

omit [LinearOrder F] [Field F] in
theorem off_same (hS : Shedding w buses sfx) {x y : WVar → F} (h : Off (buses.getD w.buses) sfx x y) : ∀ g ∈ w.gens, ∀ l,
    y (.of "Generator" g.name l) = x (.of "Generator" g.name l) :=
  fun g hg l => h _ (fun b hb l' e => hS.fresh b hb g hg (by injection e))

omit [LinearOrder F] [Field F] in
theorem off_cls {S : List Name} {x y : WVar → F} (h : Off S sfx x y) {c : Name} (hc : c ≠ "Generator") (a : Name) (l : Loc) :
    y (.of c a l) = x (.of c a l) := h _ (fun b _ l' e => hc (by injection e))

theorem off_assets (hS : Shedding w buses sfx) {x y : WVar → F} (ho : Off (buses.getD w.buses) sfx x y) (h : AssetRules w x) : AssetRules w y := by
  refine ⟨?_, ?_, ?_, ?_, ?_, ?_⟩
  · intro g hg
    simp only [off_same hS ho g hg]
    exact h.gens g hg
  · intro g hg
    simp only [off_cls ho (show "Link" ≠ "Generator" by decide)]
    exact h.links g hg
  · intro g hg
    simp only [off_cls ho (show "Store" ≠ "Generator" by decide)]
    exact h.stores g hg
  · intro g hg
    simp only [off_cls ho (show "StorageUnit" ≠ "Generator" by decide)]
    exact h.units g hg
  · intro g hg
    simp only [off_cls ho (show "Line" ≠ "Generator" by decide)]
    exact h.lines g hg
  · intro g hg
    simp only [off_cls ho (show "Transformer" ≠ "Generator" by decide)]
    exact h.trafos g hg

omit [LinearOrder F] in
theorem off_supply (hS : Shedding w buses sfx) {x y : WVar → F} (ho : Off (buses.getD w.buses) sfx x y) (t : Nat) (b : Name) :
    supply w y t b = supply w x t b := by
  unfold supply
  simp only [off_cls ho (show "Link" ≠ "Generator" by decide), off_cls ho (show "Store" ≠ "Generator" by decide),
    off_cls ho (show "StorageUnit" ≠ "Generator" by decide), off_cls ho (show "Line" ≠ "Generator" by decide),
    off_cls ho (show "Transformer" ≠ "Generator" by decide)]
  rw [List.map_congr_left (fun g hg => by rw [off_same hS ho g hg])]

theorem off_cost (hS : Shedding w buses sfx) {x y : WVar → F} (ho : Off (buses.getD w.buses) sfx x y) : totalCost w y = totalCost w x := by
  unfold totalCost linkCost storeCost unitCost branchCost
  simp only [off_cls ho (show "Link" ≠ "Generator" by decide), off_cls ho (show "Store" ≠ "Generator" by decide),
    off_cls ho (show "StorageUnit" ≠ "Generator" by decide), off_cls ho (show "Line" ≠ "Generator" by decide),
    off_cls ho (show "Transformer" ≠ "Generator" by decide)]
  congr 5
  congr 1
  refine List.map_congr_left (fun g hg => ?_)
  unfold genCost
  simp only [off_same hS ho g hg]

theorem off_other {S : List Name} {other : List (Con WVar F)} (hbl : Blind S sfx other) {x y : WVar → F} (ho : Off S sfx x y) (h : Feasible x other) :
    Feasible y other :=
  apart_feasible (fun r hr e he => (ho e.2 (fun b hb l => hbl r hr e he b hb l)).symm) h

omit [LinearOrder F] in
theorem off_worth (hS : Shedding w buses sfx) {x y : WVar → F} (ho : Off (buses.getD w.buses) sfx x y) (lam : Name → Nat → F) :
    worth w lam y = worth w lam x := by
  unfold worth
  simp only [off_supply hS ho]

omit [LinearOrder F] in
theorem serve_off (S : List Name) (x : WVar → F) : Off S sfx x (serve w S sfx sign x) := fun v h => serve_blind v h x

variable [IsStrictOrderedRing F]

/-- However the assets are run within their own rules: if at the chosen buses what is missing is between zero and what can be shed, and the other buses are balanced, then
shedding makes it a plan; it costs what it did and what is shed. -/
theorem shed_plan (hS : Shedding w buses sfx) (hr : RampsStay (w.gens.map (·.unit)) w.len) (hsign : ∀ b ∈ buses.getD w.buses, 0 < sign b)
    {other : List (Con WVar F)} (hbl : Blind (buses.getD w.buses) sfx other) {x : WVar → F} (hx : AssetRules w x) (ho : Feasible x other)
    (hin : ∀ b ∈ buses.getD w.buses, ∀ t < w.len, 0 ≤ missing w x t b ∧ missing w x t b ≤ sign b * pNom b)
    (hout : ∀ b ∈ w.buses, b ∉ buses.getD w.buses → ∀ t < w.len, missing w x t b = 0) :
    ∃ y, Plan (withShedding w buses sfx sign cost pNom) other y ∧ Off (buses.getD w.buses) sfx x y ∧
      (∀ b ∈ buses.getD w.buses, ∀ t, sign b * shedAt sfx y t b = missing w x t b) ∧
      totalCost (withShedding w buses sfx sign cost pNom) y = totalCost w x +
        ((buses.getD w.buses).map (fun b => ((List.range w.len).map (fun t => weight w t * (cost b / sign b) * missing w x t b)).sum)).sum := by
  have amount : ∀ b ∈ buses.getD w.buses, ∀ t, sign b * shedAt sfx (serve w (buses.getD w.buses) sfx sign x) t b = missing w x t b := by
    intro b hb t
    rw [serve_new hb]
    field_simp [(hsign b hb).ne']
  refine ⟨serve w (buses.getD w.buses) sfx sign x, ⟨?_, off_other hbl (serve_off _ x) ho⟩, serve_off _ x, amount, ?_⟩
  · have ha := (shed_rules (sign := sign) (cost := cost) (pNom := pNom) hS hr (serve w (buses.getD w.buses) sfx sign x)).mpr ⟨off_assets hS (serve_off _ x) hx, fun b hb t ht => by
      obtain ⟨h1, h2⟩ := hin b hb t ht
      rw [serve_new hb]
      exact ⟨div_nonneg h1 (hsign b hb).le, (div_le_iff₀ (hsign b hb)).mpr (by linarith [mul_comm (sign b) (pNom b)])⟩⟩
    refine ⟨ha.gens, ha.links, ha.stores, ha.units, ha.lines, ha.trafos, fun t ht b hb => ?_⟩
    rw [shed_supply hS, off_supply hS (serve_off _ x)]
    change _ = demand w t b
    split
    · rename_i hbS
      rw [amount b hbS t]
      unfold missing
      ring
    · rename_i hbS
      have := hout b hb hbS t ht
      unfold missing at this
      linarith
  · rw [shed_total hS, off_cost hS (serve_off _ x)]
    congr 1
    unfold shedCost
    congr 1
    refine List.map_congr_left (fun b hb => ?_)
    congr 1
    refine List.map_congr_left (fun t _ => ?_)
    rw [serve_new hb]
    ring

omit [IsStrictOrderedRing F] in
theorem shed_thrifty (ht : Thrifty w) (hS : Shedding w buses sfx) (hc : ∀ b ∈ buses.getD w.buses, 0 ≤ cost b ∧ 0 ≤ pNom b) :
    Thrifty (withShedding w buses sfx sign cost pNom) := by
  refine { weights := ht.weights, genSize := ?_, genRun := ?_, linkSize := ht.linkSize, linkRun := ht.linkRun, storeSize := ht.storeSize, storeRun := ht.storeRun, unitSize := ht.unitSize, unitRun := ht.unitRun, lineSize := ht.lineSize, trafoSize := ht.trafoSize }
  · intro g hg
    rw [gens_eq hS] at hg
    rcases List.mem_append.mp hg with hg | hg
    · exact ht.genSize g hg
    · obtain ⟨b, hb, rfl⟩ := List.mem_map.mp hg
      exact ⟨(hc b hb).2, fun e => by cases e⟩
  · intro g hg
    rw [gens_eq hS] at hg
    rcases List.mem_append.mp hg with hg | hg
    · exact ht.genRun g hg
    · obtain ⟨b, hb, rfl⟩ := List.mem_map.mp hg
      exact fun t _ => ⟨le_rfl, (hc b hb).1, le_rfl⟩

/-! ## Networks that may stand still -/

/-- The network without assets. -/
def bare (w : WNet F) : WNet F := { w with gens := [], links := [], stores := [], units := [], lines := [], trafos := [] }

/-- All its assets. -/
def assetsOf (w : WNet F) : More F := ⟨w.gens, w.links, w.stores, w.units, w.lines, w.trafos⟩

theorem all_still (hw : Sound w) (hd : Orderly w) (hi : (assetsOf w).Idle w) {other : List (Con WVar F)} {P : Program F} (hP : createModel w other = some P) :
    AssetRules w (fun _ => 0) := by
  have e : withMore (bare w) (assetsOf w) = w := rfl
  have h := assets_more (w := bare w) (m := assetsOf w) (x := fun _ => 0) (by rw [e]; exact hw) ⟨fun g hg => ⟨(hi.gens g hg).1, (hi.gens g hg).2,
      (hi.gens g hg).3, (hi.gens g hg).4, (hi.gens g hg).5, (hi.gens g hg).6⟩, fun g hg => ⟨(hi.links g hg).1, (hi.links g hg).2,
      (hi.links g hg).3, (hi.links g hg).4⟩, fun g hg => ⟨(hi.stores g hg).1, (hi.stores g hg).2, (hi.stores g hg).3, (hi.stores g hg).4, (hi.stores g hg).5⟩,
      fun g hg => ⟨(hi.units g hg).1, (hi.units g hg).2, (hi.units g hg).3, (hi.units g hg).4, (hi.units g hg).5, (hi.units g hg).6, (hi.units g hg).7⟩,
      fun g hg => ⟨(hi.lines g hg).1, (hi.lines g hg).2, (hi.lines g hg).3, (hi.lines g hg).4⟩,
      fun g hg => ⟨(hi.trafos g hg).1, (hi.trafos g hg).2, (hi.trafos g hg).3, (hi.trafos g hg).4⟩⟩ (Or.inl (by simp [bare])) (Or.inl (by simp [bare]))
    ⟨by simp [bare], by simp [bare], by simp [bare], by simp [bare], by simp [bare], by simp [bare]⟩
  rw [e] at h
  have hr := rests (bare w) (assetsOf w) (fun _ => 0)
  obtain ⟨own, bal, o, h1, -⟩ := createModel_parts hP
  obtain ⟨m1, m2, m3, m4, m5, m6⟩ := ownRows_mem h1
  refine ⟨?_, ?_, ?_, ?_, ?_, ?_⟩
  · intro g hg
    obtain ⟨rs, e, -⟩ := m1 g hg
    have := (gen_rule (hd.gens g hg) e _).mp (h.gens g hg rs e)
    rwa [show (fun v => rest (bare w) (assetsOf w) (fun _ => 0) (.of "Generator" g.name v)) = fun _ => 0 from funext (hr.gens g hg)] at this
  · intro g hg
    obtain ⟨rs, e, -⟩ := m2 g hg
    have := (link_rule (hd.links g hg) e _).mp (h.links g hg rs e)
    rwa [show (fun v => rest (bare w) (assetsOf w) (fun _ => 0) (.of "Link" g.name v)) = fun _ => 0 from funext (hr.links g hg)] at this
  · intro g hg
    obtain ⟨rs, e, -⟩ := m3 g hg
    have := (store_rule (hd.stores g hg) e _).mp (h.stores g hg rs e)
    rwa [show (fun v => rest (bare w) (assetsOf w) (fun _ => 0) (.of "Store" g.name v)) = fun _ => 0 from funext (hr.stores g hg)] at this
  · intro g hg
    obtain ⟨rs, e, -⟩ := m4 g hg
    have := (storage_rule (hd.units g hg) e _).mp (h.units g hg rs e)
    rwa [show (fun v => rest (bare w) (assetsOf w) (fun _ => 0) (.of "StorageUnit" g.name v)) = fun _ => 0 from funext (hr.units g hg)] at this
  · intro g hg
    obtain ⟨rs, e, -⟩ := m5 g hg
    have := (branch_rule rfl e _).mp (h.lines g hg rs e)
    rwa [show (fun v => rest (bare w) (assetsOf w) (fun _ => 0) (.of "Line" g.name v)) = fun _ => 0 from funext (hr.lines g hg)] at this
  · intro g hg
    obtain ⟨rs, e, -⟩ := m6 g hg
    have := (branch_rule rfl e _).mp (h.trafos g hg rs e)
    rwa [show (fun v => rest (bare w) (assetsOf w) (fun _ => 0) (.of "Transformer" g.name v)) = fun _ => 0 from funext (hr.trafos g hg)] at this

/-- With load shedding at every bus there is always a plan with least costs, and it does not cost more than to shed all loads: the assets may stand still, no cost is
negative, and loads are not negative and not above what can be shed.  Also if units are on or off. -/
theorem shed_always (hw : Sound w) (hlin : LinearCosts w) (hd : Orderly w) (ht : Thrifty w) (hS : Shedding w none sfx) (hr : RampsStay (w.gens.map (·.unit)) w.len)
    (hroll : w.rolling = false) (hsign : ∀ b ∈ w.buses, 0 < sign b) (hc : ∀ b ∈ w.buses, 0 ≤ cost b ∧ 0 ≤ pNom b) (hi : (assetsOf w).Idle w) {other : List (Con WVar F)}
    (ho : ∀ r ∈ other, ∀ e ∈ r.terms, e.2 ≠ .const) (hbl : Blind w.buses sfx other) (hz : Feasible (fun _ => 0) other)
    (hload : ∀ b ∈ w.buses, ∀ t < w.len, 0 ≤ demand w t b ∧ demand w t b ≤ sign b * pNom b) {P : Program F}
    (hP : createModel (withShedding w none sfx sign cost pNom) other = some P) :
    (∃ x lam mu, Best (withShedding w none sfx sign cost pNom) other (fun _ => True) x ∧ Solved P x lam mu ∧
      totalCost (withShedding w none sfx sign cost pNom) x ≤
        (w.buses.map (fun b => ((List.range w.len).map (fun t => weight w t * (cost b / sign b) * demand w t b)).sum)).sum) ∧
    ∃ x, Best (withShedding w none sfx sign cost pNom) other (Commit.OnOff (withShedding w none sfx sign cost pNom)) x := by
  have still : AssetRules w (fun _ => 0) := by
    refine ((shed_rules (sign := sign) (cost := cost) (pNom := pNom) hS hr (fun _ => 0)).mp (all_still (shed_sound hw hS) (shed_orderly hd hS) ⟨?_, ?_, ?_, ?_, ?_, ?_⟩ hP)).1
    · intro g hg
      change g ∈ (withShedding w none sfx sign cost pNom).gens at hg
      rw [gens_eq hS] at hg
      rcases List.mem_append.mp hg with hg | hg
      · exact ⟨(hi.gens g hg).1, (hi.gens g hg).2, (hi.gens g hg).3, (hi.gens g hg).4, (hi.gens g hg).5, (hi.gens g hg).6⟩
      · obtain ⟨b, hb, rfl⟩ := List.mem_map.mp hg
        refine ⟨⟨?_, ?_, by simp [shedGen], by simp [shedGen], by simp [shedGen]⟩, hroll, ⟨by simp [shedGen], by simp [shedGen], by simp [shedGen]⟩, by simp [shedGen],
          by simp [shedGen], by simp [shedGen]⟩
        · simp [shedGen]
        · intro _ _ t _
          simpa [shedGen] using (hc b hb).2
    · exact fun g hg => ⟨(hi.links g hg).1, (hi.links g hg).2, (hi.links g hg).3, (hi.links g hg).4⟩
    · exact fun g hg => ⟨(hi.stores g hg).1, (hi.stores g hg).2, (hi.stores g hg).3, (hi.stores g hg).4, (hi.stores g hg).5⟩
    · exact fun g hg => ⟨(hi.units g hg).1, (hi.units g hg).2, (hi.units g hg).3, (hi.units g hg).4, (hi.units g hg).5, (hi.units g hg).6, (hi.units g hg).7⟩
    · exact fun g hg => ⟨(hi.lines g hg).1, (hi.lines g hg).2, (hi.lines g hg).3, (hi.lines g hg).4⟩
    · exact fun g hg => ⟨(hi.trafos g hg).1, (hi.trafos g hg).2, (hi.trafos g hg).3, (hi.trafos g hg).4⟩
  have none' : ∀ t b, supply w (fun _ => (0 : F)) t b = 0 := by
    intro t b
    simp [supply, atBus, halfLoss]
  have miss : ∀ t b, missing w (fun _ => (0 : F)) t b = demand w t b := fun t b => by rw [missing, none', sub_zero]
  have free : totalCost w (fun _ => (0 : F)) = 0 := by simp [totalCost, genCost, linkCost, storeCost, unitCost, branchCost]
  obtain ⟨y, y1, y0, -, y2⟩ := shed_plan (cost := cost) (pNom := pNom) (sign := sign) (buses := none) hS hr hsign hbl still hz
    (fun b hb t htl => by rw [miss]; exact hload b hb t htl) (fun b hb hn => absurd hb hn)
  constructor
  · obtain ⟨x, lam, mu, hx, hs⟩ := thrifty_best (shed_sound hw hS) (shed_linear hlin hS) (shed_orderly hd hS) ho hP (shed_thrifty ht hS hc) ⟨y, y1⟩
    refine ⟨x, lam, mu, hx, hs, (hx.2.2.2 y y1.1 y1.2 trivial).trans (le_of_eq ?_)⟩
    rw [y2, free, zero_add]
    simp only [miss]
    rfl
  · refine commitment_thrifty (shed_sound hw hS) (shed_linear hlin hS) (shed_orderly hd hS) ho hP (shed_thrifty ht hS hc) ⟨y, y1, ?_, ?_⟩
    · intro g hg hcom t _ _ v _
      rw [gens_eq hS] at hg
      rcases List.mem_append.mp hg with hg | hg
      · exact Or.inl (off_same hS y0 g hg _)
      · obtain ⟨b, hb, rfl⟩ := List.mem_map.mp hg
        cases hcom
    · intro g _ _ t _ _ v _
      exact Or.inl (off_cls y0 (by decide) _ _)

/-! ## Prices -/

/-- Costs of shedding beyond what is shed is worth, at given prices. -/
def beyond (w : WNet F) (S : List Name) (sfx : Name) (sign cost : Name → F) (lam : Name → Nat → F) (x : WVar → F) : F :=
  ∑ b ∈ S.toFinset, ∑ t ∈ Finset.range w.len, (weight w t * cost b - lam b t * sign b) * shedAt sfx x t b

omit [IsStrictOrderedRing F] [LinearOrder F] in
theorem range_sum (f : Nat → F) (n : Nat) : ((List.range n).map f).sum = ∑ t ∈ Finset.range n, f t := by
  rw [← List.sum_toFinset _ List.nodup_range]
  exact Finset.sum_congr (by ext; simp) (fun _ _ => rfl)

omit [IsStrictOrderedRing F] in
theorem shed_net (hw : Sound w) (hS : Shedding w buses sfx) (lam : Name → Nat → F) (x : WVar → F) :
    totalCost (withShedding w buses sfx sign cost pNom) x - worth (withShedding w buses sfx sign cost pNom) lam x =
      totalCost w x - worth w lam x + beyond w (buses.getD w.buses) sfx sign cost lam x := by
  have h1 : shedCost w (buses.getD w.buses) sfx cost x = ∑ b ∈ (buses.getD w.buses).toFinset, ∑ t ∈ Finset.range w.len, weight w t * cost b * shedAt sfx x t b := by
    unfold shedCost
    rw [← List.sum_toFinset _ hS.once]
    exact Finset.sum_congr rfl (fun b _ => range_sum _ _)
  have h2 : worth (withShedding w buses sfx sign cost pNom) lam x = worth w lam x +
      ∑ b ∈ (buses.getD w.buses).toFinset, ∑ t ∈ Finset.range w.len, lam b t * sign b * shedAt sfx x t b := by
    unfold worth
    change ((List.range w.len).map (fun t => (w.buses.map (fun b => lam b t * supply (withShedding w buses sfx sign cost pNom) x t b)).sum)).sum = _
    simp only [shed_supply hS]
    rw [range_sum, range_sum, Finset.sum_comm, ← Finset.sum_add_distrib]
    refine Finset.sum_congr rfl (fun t _ => ?_)
    rw [← List.sum_toFinset _ hw.buses, ← List.sum_toFinset _ hw.buses]
    have e : ∑ b ∈ (buses.getD w.buses).toFinset, lam b t * sign b * shedAt sfx x t b =
        ∑ b ∈ w.buses.toFinset, if b ∈ buses.getD w.buses then lam b t * sign b * shedAt sfx x t b else 0 := by
      rw [← Finset.sum_filter]
      refine Finset.sum_congr ?_ (fun _ _ => rfl)
      ext b
      simp only [List.mem_toFinset, Finset.mem_filter]
      exact ⟨fun h => ⟨hS.known b h, h⟩, fun h => h.2⟩
    rw [e, ← Finset.sum_add_distrib]
    refine Finset.sum_congr rfl (fun b _ => ?_)
    split <;> ring
  rw [shed_total hS, h1, h2]
  unfold beyond
  simp only [sub_mul, Finset.sum_sub_distrib]
  ring

/-- Shed so much more at one bus and snapshot. -/
def bump (sfx : Name) (b : Name) (t : Nat) (d : F) (x : WVar → F) (v : WVar) : F :=
  if v = .of "Generator" (b ++ sfx) (.op "p" t) then x v + d else x v

omit [IsStrictOrderedRing F] [LinearOrder F] in
theorem bump_at (b b' : Name) (t t' : Nat) (d : F) (x : WVar → F) :
    shedAt sfx (bump sfx b t d x) t' b' = shedAt sfx x t' b' + if b' = b ∧ t' = t then d else 0 := by
  unfold shedAt bump
  by_cases h : b' = b ∧ t' = t
  · rw [h.1, h.2]
    simp
  · rw [if_neg h, add_zero, if_neg]
    intro e
    injection e with _ e1 e2
    injection e2 with _ e3
    exact h ⟨append_inj e1, e3⟩

omit [IsStrictOrderedRing F] in
theorem bump_beyond {S : List Name} {b : Name} (hb : b ∈ S) {t : Nat} (ht : t < w.len) (d : F) (lam : Name → Nat → F) (x : WVar → F) :
    beyond w S sfx sign cost lam (bump sfx b t d x) = beyond w S sfx sign cost lam x + (weight w t * cost b - lam b t * sign b) * d := by
  unfold beyond
  simp only [bump_at, mul_add, Finset.sum_add_distrib]
  congr 1
  rw [Finset.sum_eq_single b, Finset.sum_eq_single t]
  · simp
  · intro s _ hs
    simp [hs]
  · intro h
    exact absurd (Finset.mem_range.mpr ht) h
  · intro c _ hc
    simp [hc]
  · intro h
    exact absurd (List.mem_toFinset.mpr hb) h

/-- Prices at which the assets together could not earn more. -/
def Supports (w : WNet F) (other : List (Con WVar F)) (lam : Name → Nat → F) (x : WVar → F) : Prop :=
  ∀ z, AssetRules w z → Feasible z other → totalCost w x - worth w lam x ≤ totalCost w z - worth w lam z

/-- While less is shed than can be, the price is not above the costs of shedding; while something is shed, it is not below them. -/
theorem shed_price (hw : Sound w) (hS : Shedding w buses sfx) (hr : RampsStay (w.gens.map (·.unit)) w.len) {other : List (Con WVar F)}
    (hbl : Blind (buses.getD w.buses) sfx other) {x : WVar → F} (hx : Plan (withShedding w buses sfx sign cost pNom) other x) {lam : Name → Nat → F}
    (hl : Supports (withShedding w buses sfx sign cost pNom) other lam x) (b : Name) (hb : b ∈ buses.getD w.buses) (t : Nat) (ht : t < w.len) :
    (shedAt sfx x t b < pNom b → sign b * lam b t ≤ weight w t * cost b) ∧ (0 < shedAt sfx x t b → weight w t * cost b ≤ sign b * lam b t) := by
  obtain ⟨ha, hs⟩ := (shed_rules hS hr x).mp (Rules.assets hx.1)
  have off : ∀ d, Off (buses.getD w.buses) sfx x (bump sfx b t d x) := fun d v hv => if_neg (hv b hb _)
  have move : ∀ d, 0 ≤ shedAt sfx x t b + d → shedAt sfx x t b + d ≤ pNom b → 0 ≤ (weight w t * cost b - lam b t * sign b) * d := by
    intro d h1 h2
    have := hl (bump sfx b t d x) ((shed_rules hS hr _).mpr ⟨off_assets hS (off d) ha, fun c hc s hsl => by
      rw [bump_at]
      split
      · rename_i e
        rw [e.1, e.2]
        exact ⟨h1, h2⟩
      · rw [add_zero]
        exact hs c hc s hsl⟩) (off_other hbl (off d) hx.2)
    rw [shed_net hw hS, shed_net hw hS, off_cost hS (off d), off_worth hS (off d), bump_beyond hb ht] at this
    linarith
  obtain ⟨s1, s2⟩ := hs b hb t ht
  constructor
  · intro h
    have := move (pNom b - shedAt sfx x t b) (by linarith) (by linarith)
    have := nonneg_of_mul_nonneg_left this (by linarith)
    linarith [mul_comm (lam b t) (sign b)]
  · intro h
    have := move (- shedAt sfx x t b) (by linarith) (by linarith)
    have : (weight w t * cost b - lam b t * sign b) * shedAt sfx x t b ≤ 0 := by linarith [mul_neg (weight w t * cost b - lam b t * sign b) (shedAt sfx x t b)]
    have := nonpos_of_mul_nonpos_left this h
    linarith [mul_comm (lam b t) (sign b)]

/-- The price recorded at a bus is at most the marginal cost of shedding by its sign (100 / 0.001 by default), unless all that can be is shed there. -/
theorem shed_cap (hw : Sound w) (hlin : LinearCosts w) (hd : Orderly w) (hS : Shedding w buses sfx) (hr : RampsStay (w.gens.map (·.unit)) w.len)
    (hsign : ∀ b ∈ buses.getD w.buses, 0 < sign b) (hwt : ∀ t < w.len, 0 < weight w t) {other : List (Con WVar F)} (ho : ∀ r ∈ other, ∀ e ∈ r.terms, e.2 ≠ .const)
    (hbl : Blind (buses.getD w.buses) sfx other) {P : Program F} (hP : createModel (withShedding w buses sfx sign cost pNom) other = some P) {x : WVar → F}
    {lam : Name → Nat → F} {mu : List F} (hs : Solved P x lam mu) (old : F) (b : Name) (hb : b ∈ buses.getD w.buses) (t : Nat) (ht : t < w.len) :
    (shedAt sfx x t b < pNom b → busPrice w old (lam b t) t ≤ cost b / sign b) ∧ (0 < shedAt sfx x t b → cost b / sign b ≤ busPrice w old (lam b t) t) := by
  have hb' := priced_best (shed_sound hw hS) (shed_linear hlin hS) (shed_orderly hd hS) ho hP hs
  obtain ⟨h1, h2⟩ := shed_price hw hS hr hbl ⟨hb'.1, hb'.2.1⟩
    (fun z z1 z2 => joint (shed_sound hw hS) (shed_linear hlin hS) (shed_orderly hd hS) ho hP hs z1 z2) b hb t ht
  have hp : busPrice w old (lam b t) t = lam b t / weight w t := by
    unfold busPrice
    rw [weight_eq]
    rfl
  rw [hp, div_le_div_iff₀ (hwt t ht) (hsign b hb), div_le_div_iff₀ (hsign b hb) (hwt t ht)]
  exact ⟨fun h => by linarith [h1 h, mul_comm (sign b) (lam b t), mul_comm (weight w t) (cost b)],
    fun h => by linarith [h2 h, mul_comm (sign b) (lam b t), mul_comm (weight w t) (cost b)]⟩

/-- Nothing shed. -/
def unshed (S : List Name) (sfx : Name) (x : WVar → F) : WVar → F
  | .of c a l => if c = "Generator" ∧ ∃ b ∈ S, a = b ++ sfx then 0 else x (.of c a l)
  | .const => x .const

omit [IsStrictOrderedRing F] [LinearOrder F] in
theorem unshed_off (S : List Name) (x : WVar → F) : Off S sfx x (unshed S sfx x) := by
  intro v h
  cases v with
  | const => rfl
  | of c a l => exact if_neg (fun ⟨e1, b, hb, e2⟩ => h b hb l (by rw [e1, e2]))

omit [IsStrictOrderedRing F] [LinearOrder F] in
theorem unshed_at {S : List Name} {b : Name} (hb : b ∈ S) (x : WVar → F) (t : Nat) : shedAt sfx (unshed S sfx x) t b = 0 := if_pos ⟨rfl, b, hb, rfl⟩

omit [IsStrictOrderedRing F] in
theorem unshed_beyond (S : List Name) (lam : Name → Nat → F) (x : WVar → F) : beyond w S sfx sign cost lam (unshed S sfx x) = 0 :=
  Finset.sum_eq_zero (fun b hb => Finset.sum_eq_zero (fun t _ => by rw [unshed_at (List.mem_toFinset.mp hb), mul_zero]))

omit [IsStrictOrderedRing F] [LinearOrder F] in
theorem off_symm {S : List Name} {x y : WVar → F} (h : Off S sfx x y) : Off S sfx y x := fun v hv => (h v hv).symm

/-- Load shedding leaves a plan of the network the best one exactly if the plan has prices that are not above the costs of shedding. -/
theorem shed_needless (hw : Sound w) (hlin : LinearCosts w) (hd : Orderly w) (hS : Shedding w buses sfx) (hr : RampsStay (w.gens.map (·.unit)) w.len)
    (hp : ∀ b ∈ buses.getD w.buses, 0 < pNom b) {other : List (Con WVar F)} (ho : ∀ r ∈ other, ∀ e ∈ r.terms, e.2 ≠ .const)
    (hbl : Blind (buses.getD w.buses) sfx other) {P : Program F} (hP : createModel (withShedding w buses sfx sign cost pNom) other = some P) (x : WVar → F) :
    Best (withShedding w buses sfx sign cost pNom) other (fun _ => True) (unshed (buses.getD w.buses) sfx x) ↔
      Plan w other x ∧ ∃ lam, Supports w other lam x ∧ ∀ b ∈ buses.getD w.buses, ∀ t < w.len, sign b * lam b t ≤ weight w t * cost b := by
  have off := unshed_off (sfx := sfx) (buses.getD w.buses) x
  have bal : ∀ t b, supply (withShedding w buses sfx sign cost pNom) (unshed (buses.getD w.buses) sfx x) t b = supply w x t b := by
    intro t b
    rw [shed_supply hS, off_supply hS off]
    split
    · rename_i h
      rw [unshed_at h, mul_zero, add_zero]
    · rw [add_zero]
  rw [market (shed_sound hw hS) (shed_linear hlin hS) (shed_orderly hd hS) ho hP]
  constructor
  · rintro ⟨h, lam, hl⟩
    obtain ⟨ha, -⟩ := (shed_rules hS hr _).mp (Rules.assets h.1)
    have ha' := off_assets hS (off_symm off) ha
    refine ⟨⟨⟨ha'.gens, ha'.links, ha'.stores, ha'.units, ha'.lines, ha'.trafos, fun t ht b hb => (bal t b).symm.trans (h.1.balance t ht b hb)⟩,
      off_other hbl (off_symm off) h.2⟩, lam, fun z hz hzo => ?_, fun b hb t ht => ?_⟩
    · have offz := unshed_off (sfx := sfx) (buses.getD w.buses) z
      have := hl (unshed (buses.getD w.buses) sfx z) ((shed_rules hS hr _).mpr ⟨off_assets hS offz hz, fun b hb t _ => by
        rw [unshed_at hb]
        exact ⟨le_rfl, (hp b hb).le⟩⟩) (off_other hbl offz hzo)
      rw [shed_net hw hS, shed_net hw hS, unshed_beyond, unshed_beyond, off_cost hS off, off_cost hS offz, off_worth hS off, off_worth hS offz] at this
      linarith
    · refine (shed_price hw hS hr hbl h hl b hb t ht).1 ?_
      rw [unshed_at hb]
      exact hp b hb
  · rintro ⟨⟨h1, h2⟩, lam, hl, hcap⟩
    have ha := (shed_rules (sign := sign) (cost := cost) (pNom := pNom) hS hr (unshed (buses.getD w.buses) sfx x)).mpr ⟨off_assets hS off (Rules.assets h1), fun b hb t _ => by
        rw [unshed_at hb]
        exact ⟨le_rfl, (hp b hb).le⟩⟩
    refine ⟨⟨⟨ha.gens, ha.links, ha.stores, ha.units, ha.lines, ha.trafos, fun t ht b hb => (bal t b).trans (h1.balance t ht b hb)⟩, off_other hbl off h2⟩,
      lam, fun z hz hzo => ?_⟩
    obtain ⟨za, zs⟩ := (shed_rules hS hr z).mp hz
    have := hl z za hzo
    rw [shed_net hw hS, shed_net hw hS, unshed_beyond, off_cost hS off, off_worth hS off]
    have hge : 0 ≤ beyond w (buses.getD w.buses) sfx sign cost lam z := by
      unfold beyond
      refine Finset.sum_nonneg (fun b hb => Finset.sum_nonneg (fun t ht => ?_))
      have hb' := List.mem_toFinset.mp hb
      have ht' := Finset.mem_range.mp ht
      exact mul_nonneg (by linarith [hcap b hb' t ht', mul_comm (lam b t) (sign b)]) (zs b hb' t ht').1
    linarith

/-! ## Example -/

/-- Shedding in kW at 100 per kW, as by default. -/
def twoShed : WNet ℚ := withShedding (twoNet 25) none " load shedding" (fun _ => 1 / 1000) (fun _ => 100) (fun _ => 1000000000)

theorem twoShedSome : (createModel twoShed []).isSome = true := by decide +kernel

theorem twoShedding (load : ℚ) : Shedding (twoNet load) none " load shedding" := by
  constructor <;> simp [twoNet, cheap, dear] <;> decide +kernel

theorem twoIdle (load : ℚ) : (assetsOf (twoNet load)).Idle (twoNet load) := by
  constructor <;> simp [assetsOf, twoNet]
  constructor <;> (refine ⟨⟨?_, ?_, ?_, ?_, ?_⟩, rfl, ⟨?_, ?_, ?_⟩, ?_, ?_, ?_⟩ <;> simp [cheap, dear, exUnit', exInvest])

theorem twoThrifty (load : ℚ) : Thrifty (twoNet load) := by
  constructor <;> simp [twoNet, cheap, dear, exUnit', exInvest, exCosts, weight, exNet]

/-- The two generators cannot serve a load of 25, but with load shedding there is an optimum. -/
example : ∃ x lam mu, Best twoShed [] (fun _ => True) x ∧ Solved ((createModel twoShed []).get twoShedSome) x lam mu := by
  obtain ⟨x, lam, mu, h1, h2, -⟩ := (shed_always (twoSound 25) (twoLinear 25) (orderly_single rfl rfl) (twoThrifty 25) (twoShedding 25)
    (Or.inl (by simp [twoNet, cheap, dear, exUnit'])) rfl (by norm_num) (by norm_num) (twoIdle 25) (by simp) (by simp [Blind]) (by simp [Feasible])
    (by
      intro b hb t ht
      simp [twoNet] at hb
      subst hb
      simp [demand, twoNet, atBus]
      norm_num) (Option.some_get twoShedSome).symm).1
  exact ⟨x, lam, mu, h1, h2⟩

def twoShed12 : WNet ℚ := withShedding (twoNet 12) none " load shedding" (fun _ => 1 / 1000) (fun _ => 100) (fun _ => 1000000000)

theorem twoShedSome12 : (createModel twoShed12 []).isSome = true := by decide +kernel

/-- A load of 12 is served as before: its price of 5 is below 100000. -/
example : Best twoShed12 [] (fun _ => True) (unshed ["A"] " load shedding" twoVal) := by
  refine (shed_needless (buses := none) (twoSound 12) (twoLinear 12) (orderly_single rfl rfl) (twoShedding 12) (Or.inl (by simp [twoNet, cheap, dear, exUnit']))
    (by norm_num) (by simp) (by simp [Blind]) (Option.some_get twoShedSome12).symm twoVal).mpr ⟨twoPlan, fun _ _ => 10, fun z hz _ => ?_, ?_⟩
  · obtain ⟨⟨-, a⟩, ⟨-, b⟩⟩ := two_limits hz
    have e : ∀ y : WVar → ℚ, totalCost (twoNet 12) y - worth (twoNet 12) (fun _ _ => 10) y = -6 * y (.of "Generator" "cheap" (.op "p" 0)) := by
      intro y
      simp [totalCost, genCost, worth, supply, atBus, twoNet, cheap, dear, exUnit', weight, exNet, exCosts]
      ring
    rw [e, e]
    have : twoVal (.of "Generator" "cheap" (.op "p" 0)) = 10 := by decide +kernel
    linarith
  · intro b _ t _
    simp [weight, twoNet, exNet]
    split <;> norm_num

end Verif.Opt.Whole.Exist
