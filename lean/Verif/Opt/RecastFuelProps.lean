import Verif.Opt.RecastProps
import Mathlib.Tactic.FieldSimp

/-!
# C146: a generator, and a store of fuel with a link

A generator whose energy is limited is the same as a store of fuel and a link with the efficiency of the plant
(`doc/user-guide/components.rst` 379-391; release notes of 0.6.0).
-/

namespace Verif.Opt.Whole.Recast

open Verif.Opt Verif.Opt.Whole Verif.Opt.Whole.Doc

variable {F : Type} [Field F] [LinearOrder F]

/-! ## Units measured on the other side -/

def scaledUnit (k : F) (u : Unit' F) : Unit' F := { u with nom := k * u.nom, histP := k * u.histP }

def scaledPast (k : F) (p : Past F) : Past F := { p with ramp := p.ramp.map (fun e => (k * e.1, e.2)) }

theorem past_scaled (k : F) (r : Bool) (u : Unit' F) : pastOf r (scaledUnit k u) = scaledPast k (pastOf r u) := by
  cases r <;> rfl

omit [LinearOrder F] in
theorem service_scaled (k : F) (active : Nat → Bool) (p : Nat → F) (t : Nat) : inService active (fun t => k * p t) t = k * inService active p t := by
  unfold inService
  split <;> simp

theorem scaled_le [IsStrictOrderedRing F] {k a b a' b' : F} (hk : 0 < k) (h : a ≤ b) (ha : a' = k * a) (hb : b' = k * b) : a' ≤ b' := by
  rw [ha, hb]
  exact mul_le_mul_of_nonneg_left h hk.le

theorem unit_scaled [IsStrictOrderedRing F] {k : F} (hk : 0 < k) {u : Unit' F} {past : Past F} {linear ramps : Prop} {n : Nat} {p status up down : Nat → F}
    {cap : F} (h : UnitRule u past linear ramps n p status up down cap) :
    UnitRule (scaledUnit k u) (scaledPast k past) linear ramps n (fun t => k * p t) status up down (k * cap) where
  fixed he hc t ht ha := ⟨scaled_le hk (h.fixed he hc t ht ha).1 (by simp only [scaledUnit]; ring) rfl,
    scaled_le hk (h.fixed he hc t ht ha).2 rfl (by simp only [scaledUnit]; ring)⟩
  extendable he t ht ha := ⟨scaled_le hk (h.extendable he t ht ha).1 (by simp only [scaledUnit]; ring) rfl,
    scaled_le hk (h.extendable he t ht ha).2 rfl (by simp only [scaledUnit]; ring)⟩
  committed hc t ht ha := ⟨scaled_le hk (h.committed hc t ht ha).1 (by simp only [scaledUnit]; ring) rfl,
    scaled_le hk (h.committed hc t ht ha).2 rfl (by simp only [scaledUnit]; ring)⟩
  unitInterval := h.unitInterval
  firstSwitch := h.firstSwitch
  switch := h.switch
  minUp := h.minUp
  minDown := h.minDown
  stayUp := h.stayUp
  stayDown := h.stayDown
  rampUp hr t ht ha r e := by
    obtain ⟨h1, h2⟩ := h.rampUp hr t ht ha r e
    refine ⟨fun a b => scaled_le hk (h1 a b) ?_ ?_, fun a => scaled_le hk (h2 a) ?_ ?_⟩ <;>
      (try simp only [scaledUnit, service_scaled]) <;> ring
  rampDown hr t ht ha r e := by
    obtain ⟨h1, h2⟩ := h.rampDown hr t ht ha r e
    refine ⟨fun a b => scaled_le hk (h1 a b) ?_ ?_, fun a => scaled_le hk (h2 a) ?_ ?_⟩ <;>
      (try simp only [scaledUnit, service_scaled]) <;> ring
  rampUpCommitted hr hc t ht ha r e := by
    refine scaled_le hk (h.rampUpCommitted hr hc t ht ha r e) ?_ ?_ <;> simp only [scaledUnit, service_scaled] <;> ring
  rampDownCommitted hr hc t ht ha r e := by
    refine scaled_le hk (h.rampDownCommitted hr hc t ht ha r e) ?_ ?_ <;> simp only [scaledUnit, service_scaled] <;> ring
  rampUpFirst hr hn ha q s e := by
    obtain ⟨⟨q', s'⟩, e1, e2⟩ := Option.map_eq_some_iff.mp e
    obtain ⟨rfl, rfl⟩ := Prod.mk.inj e2
    obtain ⟨h1, h2⟩ := h.rampUpFirst hr hn ha q' s' e1
    refine ⟨fun r er => ⟨fun a b => scaled_le hk ((h1 r er).1 a b) ?_ ?_, fun a => scaled_le hk ((h1 r er).2 a) ?_ ?_⟩,
      fun a r er => scaled_le hk (h2 a r er) ?_ ?_⟩ <;> (try simp only [scaledUnit]) <;> ring
  rampDownFirst hr hn ha q s e := by
    obtain ⟨⟨q', s'⟩, e1, e2⟩ := Option.map_eq_some_iff.mp e
    obtain ⟨rfl, rfl⟩ := Prod.mk.inj e2
    obtain ⟨h1, h2⟩ := h.rampDownFirst hr hn ha q' s' e1
    refine ⟨fun r er => ⟨fun a b => scaled_le hk ((h1 r er).1 a b) ?_ ?_, fun a => scaled_le hk ((h1 r er).2 a) ?_ ?_⟩,
      fun a r er => scaled_le hk (h2 a r er) ?_ ?_⟩ <;> (try simp only [scaledUnit]) <;> ring
  linearised hl hc hs t ht ha most least rise fall start shut before on e1 e2 e3 e4 e5 e6 e7 e8 := by
    obtain ⟨m1, m2, m3, m4⟩ := h.linearised hl hc hs t ht ha _ _ _ _ _ _ _ _ rfl rfl rfl rfl rfl rfl rfl rfl
    subst e1 e2 e3 e4 e5 e6 e7 e8
    refine ⟨scaled_le hk m1 ?_ ?_, scaled_le hk m2 ?_ ?_, scaled_le hk m3 ?_ ?_, scaled_le hk m4 ?_ ?_⟩ <;>
      (try simp only [scaledUnit, service_scaled]) <;> ring

theorem unit_scaled_iff [IsStrictOrderedRing F] {k : F} (hk : 0 < k) {u : Unit' F} {past : Past F} {linear ramps : Prop} {n : Nat} {p status up down : Nat → F}
    {cap : F} : UnitRule u past linear ramps n p status up down cap ↔
    UnitRule (scaledUnit k u) (scaledPast k past) linear ramps n (fun t => k * p t) status up down (k * cap) := by
  refine ⟨unit_scaled hk, fun h => ?_⟩
  have := unit_scaled (inv_pos.mpr hk) h
  have c : ∀ a : F, k⁻¹ * (k * a) = a := fun a => inv_mul_cancel_left₀ hk.ne' a
  have e1 : scaledUnit k⁻¹ (scaledUnit k u) = u := by simp [scaledUnit, c]
  have e2 : scaledPast k⁻¹ (scaledPast k past) = past := by
    cases past with
    | mk a b d r => cases r <;> simp [scaledPast, c]
  rw [e1, e2] at this
  simpa only [c] using this

def scaledInvest (k : F) (i : Invest F) : Invest F :=
  { i with nomMin := k * i.nomMin, nomMax := i.nomMax.map (k * ·), nomMod := k * i.nomMod, nomSet := i.nomSet.map (k * ·), capitalCost := i.capitalCost / k }

theorem cap_scaled [IsStrictOrderedRing F] {k : F} (hk : 0 < k) {ext : Bool} {i : Invest F} {cap mods : F} :
    CapRule ext i cap mods ↔ CapRule ext (scaledInvest k i) (k * cap) mods := by
  constructor
  · intro h
    refine ⟨fun e => mul_le_mul_of_nonneg_left (h.least e) hk.le, fun e u hu => ?_, fun e s hs => ?_, fun e hp => ?_⟩
    · obtain ⟨v, hv, rfl⟩ := Option.map_eq_some_iff.mp hu
      exact mul_le_mul_of_nonneg_left (h.most e v hv) hk.le
    · obtain ⟨v, hv, rfl⟩ := Option.map_eq_some_iff.mp hs
      rw [h.set e v hv]
    · obtain ⟨a, b⟩ := h.modules e ((mul_pos_iff_of_pos_left hk).mp hp)
      refine ⟨a, ?_⟩
      rw [b]
      simp only [scaledInvest]
      ring
  · intro h
    refine ⟨fun e => le_of_mul_le_mul_left (h.least e) hk, fun e u hu => ?_, fun e s hs => ?_, fun e hp => ?_⟩
    · exact le_of_mul_le_mul_left (h.most e (k * u) (by simp [scaledInvest, hu])) hk
    · exact mul_left_cancel₀ hk.ne' (h.set e (k * s) (by simp [scaledInvest, hs]))
    · obtain ⟨a, b⟩ := h.modules e (mul_pos hk hp)
      refine ⟨a, mul_left_cancel₀ hk.ne' ?_⟩
      rw [b]
      simp only [scaledInvest]
      ring

/-! ## Levels without losses -/

/-- What has been gained up to a snapshot. -/
def upTo (active : Nat → Bool) (gain : Nat → F) (t : Nat) : F := ((List.range (t + 1)).map (fun r => if active r then gain r else 0)).sum

omit [LinearOrder F] in
theorem upTo_succ (active : Nat → Bool) (gain : Nat → F) (t : Nat) :
    upTo active gain (t + 1) = upTo active gain t + if active (t + 1) then gain (t + 1) else 0 := by
  unfold upTo
  rw [List.range_succ, List.map_append, List.sum_append]
  simp

omit [LinearOrder F] in
theorem upTo_gap {active : Nat → Bool} (gain : Nat → F) {s : Nat} (d : Nat) (h : ∀ r, s < r → r ≤ s + d → active r = false) :
    upTo active gain (s + d) = upTo active gain s := by
  induction d with
  | zero => rfl
  | succ d ih =>
    rw [← Nat.add_assoc, upTo_succ, ih (fun r h1 h2 => h r h1 (by omega)), h (s + d + 1) (by omega) (by omega)]
    simp

omit [LinearOrder F] in
theorem upTo_next {active : Nat → Bool} (gain : Nat → F) {s t : Nat} (hst : s < t) (ha : active t = true) (h : ∀ r, s < r → r < t → active r = false) :
    upTo active gain t = upTo active gain s + gain t := by
  obtain ⟨d, rfl⟩ : ∃ d, t = s + d + 1 := ⟨t - s - 1, by omega⟩
  rw [upTo_succ, upTo_gap gain d (fun r h1 h2 => h r h1 (by omega)), if_pos ha]

omit [LinearOrder F] in
theorem upTo_first {active : Nat → Bool} (gain : Nat → F) {t : Nat} (ha : active t = true) (h : ∀ r < t, active r = false) : upTo active gain t = gain t := by
  unfold upTo
  rw [List.range_succ, List.map_append, List.sum_append]
  have : ((List.range t).map (fun r => if active r then gain r else 0)).sum = 0 := by
    apply List.sum_eq_zero
    intro z hz
    obtain ⟨r, hr, rfl⟩ := List.mem_map.mp hz
    simp [h r (List.mem_range.mp hr)]
  rw [this]
  simp [ha]

/-- The snapshot in service before, if there is one. -/
theorem before_or_first (active : Nat → Bool) (t : Nat) : (∀ r < t, active r = false) ∨ ∃ s < t, active s = true ∧ ∀ r, s < r → r < t → active r = false := by
  induction t with
  | zero => exact Or.inl (fun r h => absurd h (by omega))
  | succ t ih =>
    cases ha : active t with
    | true => exact Or.inr ⟨t, by omega, ha, fun r h1 h2 => absurd h2 (by omega)⟩
    | false =>
      rcases ih with h | ⟨s, h1, h2, h3⟩
      · refine Or.inl (fun r hr => ?_)
        rcases Nat.lt_succ_iff_lt_or_eq.mp hr with hr | rfl
        · exact h r hr
        · exact ha
      · refine Or.inr ⟨s, by omega, h2, fun r q1 q2 => ?_⟩
        rcases Nat.lt_succ_iff_lt_or_eq.mp q2 with q2 | rfl
        · exact h3 r q1 q2
        · exact ha

omit [LinearOrder F] in
theorem level_sum (n : Nat) (active : Nat → Bool) (initial : F) (level gain : Nat → F) :
    LevelRule n active false initial (fun _ => 1) level gain ↔ ∀ t < n, active t = true → level t = initial + upTo active gain t := by
  constructor
  · intro h t
    induction t using Nat.strong_induction_on with
    | _ t ih =>
      intro ht ha
      rcases before_or_first active t with hf | ⟨s, hs, has, hb⟩
      · rw [h.first rfl t ht ha hf, upTo_first gain ha hf]
      · rw [h.next s t hs ht has ha hb, ih s hs (by omega) has, upTo_next gain hs ha hb]
        ring
  · intro h
    refine ⟨fun s t hst ht hs ha hb => ?_, fun hc => (by cases hc), fun _ t ht ha hf => ?_⟩
    · rw [h t ht ha, h s (by omega) hs, upTo_next gain hst ha hb]
      ring
    · rw [h t ht ha, upTo_first gain ha hf]

/-! ## The plant and its fuel -/

/-- Names of the new bus, link and store. -/
structure FuelNames where
  bus : Name
  link : Name
  store : Name

/-- What is burnt in the link is measured as fuel: `1 / η` for each unit of output. -/
def plant (g : GenW F) (η : F) (n : FuelNames) : LinkW F :=
  ⟨n.link, n.bus, g.bus, fun _ => η, [], scaledUnit η⁻¹ g.unit, scaledInvest η⁻¹ g.invest,
    { g.costs with marginal := fun t => g.costs.marginal t * η }, fun t => (g.pSet t).map (η⁻¹ * ·)⟩

/-- A store that is full at the start. -/
def fuel (w : WNet F) (g : GenW F) (E : F) (n : FuelNames) : StoreW F :=
  ⟨n.store, n.bus, 1, ⟨g.unit.active, false, false, false, E, w.gw, fun _ => 1⟩, false, E, fun _ => 0, fun _ => 1, noInvest, noCosts, fun _ => none⟩

def withPlain (w : WNet F) (g : GenW F) : WNet F := { w with gens := w.gens ++ [g] }

def withFuel (w : WNet F) (g : GenW F) (η E : F) (n : FuelNames) : WNet F :=
  { w with buses := w.buses ++ [n.bus], links := w.links ++ [plant g η n], stores := w.stores ++ [fuel w g E n] }

/-- What is asked of the generator. -/
structure Burns (w : WNet F) (g : GenW F) (η E : F) : Prop where
  sign : g.sign = 1
  eff : 0 < η
  stock : 0 ≤ E
  sumMin : g.eSumMin = none
  sumMax : g.eSumMax = some (η * E)
  minPu : ∀ t < w.len, 0 ≤ g.unit.minPu t
  nom : 0 ≤ g.unit.nom
  nomMin : 0 ≤ g.invest.nomMin
  hours : ∀ t < w.len, 0 ≤ w.gw t

/-- The link burns what the generator would, and the store gives what the link burns. -/
structure GenFuel (w : WNet F) (g : GenW F) (η E : F) (n : FuelNames) (x y : WVar → F) : Prop where
  rest : ∀ c a v, ¬ (c = "Generator" ∧ a = g.name) → ¬ (c = "Link" ∧ a = n.link) → ¬ (c = "Store" ∧ a = n.store) → x (.of c a v) = y (.of c a v)
  burnt : ∀ t, y (.of "Link" n.link (.op "p" t)) = η⁻¹ * x (.of "Generator" g.name (.op "p" t))
  events : ∀ v t, v ≠ "p" → y (.of "Link" n.link (.op v t)) = x (.of "Generator" g.name (.op v t))
  cap : y (.of "Link" n.link .cap) = η⁻¹ * x (.of "Generator" g.name .cap)
  mod : y (.of "Link" n.link .mod) = x (.of "Generator" g.name .mod)
  given : ∀ t < w.len, g.unit.active t = true → y (.of "Store" n.store (.op "p" t)) = y (.of "Link" n.link (.op "p" t))
  left : ∀ t < w.len, g.unit.active t = true →
    y (.of "Store" n.store (.op "e" t)) = E + upTo g.unit.active (fun r => - (w.gw r * y (.of "Link" n.link (.op "p" r)))) t

/-- Output is not negative. -/
theorem unit_nonneg [IsStrictOrderedRing F] {u : Unit' F} {past : Past F} {linear ramps : Prop} {n : Nat} {p status up down : Nat → F} {cap : F}
    (h : UnitRule u past linear ramps n p status up down cap) (hm : ∀ t < n, 0 ≤ u.minPu t) (hn : 0 ≤ u.nom) (hc : u.extendable = true → 0 ≤ cap)
    {t : Nat} (ht : t < n) (ha : u.active t = true) : 0 ≤ p t := by
  cases he : u.extendable with
  | true => exact le_trans (mul_nonneg (hm t ht) (hc he)) (h.extendable he t ht ha).1
  | false =>
    cases hk : u.committable with
    | true => exact le_trans (mul_nonneg (h.unitInterval hk t ht ha).1.1 (mul_nonneg (hm t ht) hn)) (h.committed hk t ht ha).1
    | false => exact le_trans (mul_nonneg (hm t ht) hn) (h.fixed he hk t ht ha).1

theorem upTo_le [IsStrictOrderedRing F] {active : Nat → Bool} {gain : Nat → F} {n : Nat} (h : ∀ r < n, active r = true → gain r ≤ 0) {s t : Nat} (hst : s ≤ t) (ht : t < n) :
    upTo active gain t ≤ upTo active gain s := by
  induction t with
  | zero =>
    obtain rfl : s = 0 := by omega
    exact le_refl _
  | succ t ih =>
    rcases Nat.lt_or_ge s (t + 1) with h1 | h1
    · refine le_trans ?_ (ih (by omega) (by omega))
      rw [upTo_succ]
      cases ha : active (t + 1) with
      | true => simpa using h (t + 1) ht ha
      | false => simp
    · obtain rfl : s = t + 1 := by omega
      exact le_refl _

theorem upTo_nonpos [IsStrictOrderedRing F] {active : Nat → Bool} {gain : Nat → F} {n : Nat} (h : ∀ r < n, active r = true → gain r ≤ 0) {t : Nat} (ht : t < n) :
    upTo active gain t ≤ 0 := by
  refine le_trans (upTo_le h (Nat.zero_le t) ht) ?_
  unfold upTo
  cases ha : active 0 with
  | true => simpa [ha] using h 0 (by omega) ha
  | false => simp [ha]

/-- The stock suffices at all times if it suffices for all that is burnt. -/
theorem stock_iff [IsStrictOrderedRing F] {active : Nat → Bool} {gain : Nat → F} {n : Nat} (h : ∀ r < n, active r = true → gain r ≤ 0) (E : F) :
    (∀ t < n, active t = true → 0 ≤ E + upTo active gain t) ↔
      ((∃ t < n, active t = true) → 0 ≤ E + ((List.range n).map (fun r => if active r then gain r else 0)).sum) := by
  constructor
  · rintro hall ⟨t0, ht0, ha0⟩
    obtain ⟨m, rfl⟩ : ∃ m, n = m + 1 := ⟨n - 1, by omega⟩
    change 0 ≤ E + upTo active gain m
    rcases before_or_first active (m + 1) with hf | ⟨s, hs, has, hb⟩
    · rw [hf t0 ht0] at ha0; cases ha0
    · obtain ⟨d, rfl⟩ : ∃ d, m = s + d := ⟨m - s, by omega⟩
      rw [upTo_gap gain d (fun r h1 h2 => hb r h1 (by omega))]
      exact hall s hs has
  · intro hend t ht ha
    have := hend ⟨t, ht, ha⟩
    obtain ⟨m, rfl⟩ : ∃ m, n = m + 1 := ⟨n - 1, by omega⟩
    change 0 ≤ E + upTo active gain m at this
    have := upTo_le h (s := t) (t := m) (by omega) (by omega)
    linarith

omit [LinearOrder F] in
theorem genFuel_apart {w : WNet F} {g : GenW F} {η E : F} {n : FuelNames} {x y : WVar → F} (h : GenFuel w g η E n x y) {other : List (Con WVar F)}
    (ho : Unnamed other "Generator" g.name) (ho1 : Unnamed other "Link" n.link) (ho2 : Unnamed other "Store" n.store)
    (hc : ∀ r ∈ other, ∀ e ∈ r.terms, e.2 ≠ .const) : ∀ r ∈ other, ∀ e ∈ r.terms, x e.2 = y e.2 := by
  intro r hr e he
  cases hv : e.2 with
  | const => exact absurd hv (hc r hr e he)
  | of c a v => exact h.rest c a v (by rintro ⟨rfl, rfl⟩; exact ho r hr e he v hv) (by rintro ⟨rfl, rfl⟩; exact ho1 r hr e he v hv) (by rintro ⟨rfl, rfl⟩; exact ho2 r hr e he v hv)

theorem genFuel_agree {w : WNet F} {g : GenW F} {η E : F} {n : FuelNames} (h1 : Sound (withPlain w g)) (h2 : Sound (withFuel w g η E n)) {x y : WVar → F}
    (h : GenFuel w g η E n x y) : Agree w x y := by
  refine ⟨?_, ?_, ?_, ?_, ?_, ?_⟩ <;> intro g' hg v <;> refine h.rest _ _ v ?_ ?_ ?_ <;> rintro ⟨hc, hn⟩ <;> try exact absurd hc (by decide)
  · exact fresh_one h1.gens hg (List.mem_singleton.mpr rfl) hn
  · exact fresh_one h2.links hg (List.mem_singleton.mpr rfl) hn
  · exact fresh_one h2.stores hg (List.mem_singleton.mpr rfl) hn

/-- Supply with the generator. -/
theorem supply_plain (w : WNet F) (g : GenW F) (x : WVar → F) (t : Nat) (b : Name) : supply (withPlain w g) x t b =
    supply w x t b + atBus b g.bus (g.unit.active t) (g.sign * x (.of "Generator" g.name (.op "p" t))) := by
  unfold supply withPlain halfLoss
  simp only [List.map_append, List.sum_append, List.map_cons, List.map_nil, List.sum_cons, List.sum_nil]
  ring

/-- Supply with the link and the store. -/
theorem supply_fuel (w : WNet F) (g : GenW F) (η E : F) (n : FuelNames) (y : WVar → F) (t : Nat) (b : Name) : supply (withFuel w g η E n) y t b =
    supply w y t b + atBus b n.bus (g.unit.active t) (y (.of "Store" n.store (.op "p" t))) +
      (atBus b n.bus (g.unit.active t) (- y (.of "Link" n.link (.op "p" t))) + atBus b g.bus (g.unit.active t) (η * y (.of "Link" n.link (.op "p" t)))) := by
  unfold supply withFuel halfLoss
  simp only [List.map_append, List.sum_append, List.map_cons, List.map_nil, List.sum_cons, List.sum_nil, plant, fuel, scaledUnit, one_mul]
  ring

/-- What is asked of the two networks. -/
structure Fresh (w : WNet F) (g : GenW F) (η E : F) (n : FuelNames) : Prop where
  base : Sound w
  plain : Sound (withPlain w g)
  fuelled : Sound (withFuel w g η E n)
  /-- ramp limits of the others count with and without the plant, and its own count among links as they do among generators -/
  gens : RampsKept (w.gens.map (·.unit)) g.unit w.len
  links : RampsKept (w.links.map (·.unit)) (plant g η n).unit w.len
  both : (RampsCount ((w.gens ++ [g]).map (·.unit)) w.len ↔ RampsCount ((w.links ++ [plant g η n]).map (·.unit)) w.len) ∨ Unramped g.unit

theorem Fresh.bus {w : WNet F} {g : GenW F} {η E : F} {n : FuelNames} (h : Fresh w g η E n) : n.bus ∉ w.buses ∧ n.bus ≠ "" ∧ g.bus ≠ n.bus := by
  have hb : n.bus ∉ w.buses := by
    have := h.fuelled.buses
    intro hb
    exact (List.nodup_append.mp this).2.2 _ hb _ (List.mem_singleton.mpr rfl) rfl
  refine ⟨hb, fun e => h.fuelled.noEmpty ?_, fun e => hb ?_⟩
  · rw [← e]; exact List.mem_append_right _ (List.mem_singleton.mpr rfl)
  · rw [← e]; exact h.plain.genBus g (List.mem_append_right _ (List.mem_singleton.mpr rfl))

theorem fuel_rules [IsStrictOrderedRing F] {w : WNet F} {g : GenW F} {η E : F} {n : FuelNames} (hb : Burns w g η E) (hf : Fresh w g η E n)
    {x y : WVar → F} (h : GenFuel w g η E n x y) : Rules (withPlain w g) x ↔ Rules (withFuel w g η E n) y := by
  have hη := hb.eff
  have hi : 0 < η⁻¹ := inv_pos.mpr hη
  have ha := genFuel_agree hf.plain hf.fuelled h
  obtain ⟨nb, ne, ng⟩ := hf.bus
  have hlike : Like w (withPlain w g) (withFuel w g η E n) :=
    ⟨rfl, rfl, rfl, rfl, rfl, rfl, rfl, (kept_gens hf.gens).imp_left Iff.symm, kept_links hf.links⟩
  have hcap : CapRule g.unit.extendable g.invest (x (.of "Generator" g.name .cap)) (x (.of "Generator" g.name .mod)) ↔
      CapRule g.unit.extendable (scaledInvest η⁻¹ g.invest) (y (.of "Link" n.link .cap)) (y (.of "Link" n.link .mod)) := by
    rw [h.cap, h.mod]
    exact cap_scaled hi
  have hunit : UnitRule g.unit (pastOf w.rolling g.unit) (w.linearized = true) (RampsCount ((w.gens ++ [g]).map (·.unit)) w.len) w.len
      (fun t => x (.of "Generator" g.name (.op "p" t))) (fun t => x (.of "Generator" g.name (.op "status" t)))
      (fun t => x (.of "Generator" g.name (.op "start_up" t))) (fun t => x (.of "Generator" g.name (.op "shut_down" t))) (x (.of "Generator" g.name .cap)) ↔
      UnitRule (scaledUnit η⁻¹ g.unit) (pastOf w.rolling (scaledUnit η⁻¹ g.unit)) (w.linearized = true) (RampsCount ((w.links ++ [plant g η n]).map (·.unit)) w.len) w.len
      (fun t => y (.of "Link" n.link (.op "p" t))) (fun t => y (.of "Link" n.link (.op "status" t)))
      (fun t => y (.of "Link" n.link (.op "start_up" t))) (fun t => y (.of "Link" n.link (.op "shut_down" t))) (y (.of "Link" n.link .cap)) := by
    rw [unit_scaled_iff hi, past_scaled, h.cap]
    have hsw : ∀ {ra rb : Prop} (_ : (ra ↔ rb) ∨ Unramped g.unit) {pa : Past F} {li : Prop} {p st up do' : Nat → F} {c : F},
        UnitRule (scaledUnit η⁻¹ g.unit) pa li ra w.len p st up do' c ↔ UnitRule (scaledUnit η⁻¹ g.unit) pa li rb w.len p st up do' c := by
      intro ra rb hab pa li p st up do' c
      rcases hab with hab | hab
      · rw [propext hab]
      · have hs : Unramped (scaledUnit η⁻¹ g.unit) := ⟨hab.up, hab.down, hab.upStatic, hab.downStatic⟩
        exact ⟨unit_unramped hs, unit_unramped hs⟩
    rw [hsw hf.both]
    simp only [h.burnt, h.events "status" _ (by decide), h.events "start_up" _ (by decide), h.events "shut_down" _ (by decide)]
  have hset : SetRule w.len g.unit.active g.pSet (fun t => x (.of "Generator" g.name (.op "p" t))) ↔
      SetRule w.len g.unit.active (plant g η n).pSet (fun t => y (.of "Link" n.link (.op "p" t))) := by
    constructor
    · intro k t ht hac s hs
      obtain ⟨v, hv, rfl⟩ := Option.map_eq_some_iff.mp hs
      change y (.of "Link" n.link (.op "p" t)) = _
      have kv : x (.of "Generator" g.name (.op "p" t)) = v := k t ht hac v hv
      rw [h.burnt, kv]
    · intro k t ht hac s hs
      have := k t ht hac (η⁻¹ * s) (by simp [plant, hs])
      change y (.of "Link" n.link (.op "p" t)) = _ at this
      rw [h.burnt] at this
      exact mul_left_cancel₀ hi.ne' this
  have hlevel : PeriodRule (withFuel w g η E n) (fuel w g E n).storage (fun t => y (.of "Store" n.store (.op "e" t)))
      (fun t => - ((fuel w g E n).storage.eh t * y (.of "Store" n.store (.op "p" t)))) := by
    unfold PeriodRule
    rw [if_neg (by simp [fuel])]
    refine (level_sum w.len g.unit.active E _ _).mpr (fun t ht hac => ?_)
    rw [h.left t ht hac]
    congr 1
    unfold upTo
    congr 1
    apply List.map_congr_left
    intro r hr
    have hr := List.mem_range.mp hr
    split
    · rename_i har
      change - (w.gw r * y (.of "Link" n.link (.op "p" r))) = - (w.gw r * y (.of "Store" n.store (.op "p" r)))
      rw [h.given r (by omega) har]
    · rfl
  have hburn : UnitRule g.unit (pastOf w.rolling g.unit) (w.linearized = true) (RampsCount ((w.gens ++ [g]).map (·.unit)) w.len) w.len
      (fun t => x (.of "Generator" g.name (.op "p" t))) (fun t => x (.of "Generator" g.name (.op "status" t)))
      (fun t => x (.of "Generator" g.name (.op "start_up" t))) (fun t => x (.of "Generator" g.name (.op "shut_down" t))) (x (.of "Generator" g.name .cap)) →
      CapRule g.unit.extendable g.invest (x (.of "Generator" g.name .cap)) (x (.of "Generator" g.name .mod)) →
      ∀ t < w.len, g.unit.active t = true → - (w.gw t * y (.of "Link" n.link (.op "p" t))) ≤ 0 := by
    intro hu hc t ht hac
    have := unit_nonneg hu hb.minPu hb.nom (fun e => le_trans hb.nomMin (hc.least e)) ht hac
    rw [h.burnt]
    exact neg_nonpos.mpr (mul_nonneg (hb.hours t ht) (mul_nonneg hi.le this))
  have hsum : ((List.range w.len).map (fun r => if g.unit.active r then - (w.gw r * y (.of "Link" n.link (.op "p" r))) else 0)).sum =
      - (η⁻¹ * total w.len w.gw g.unit.active (fun t => x (.of "Generator" g.name (.op "p" t)))) := by
    unfold total
    rw [← List.sum_map_mul_left]
    have neg : ∀ l : List F, (l.map (fun a => - a)).sum = - l.sum := by
      intro l
      induction l with
      | nil => simp
      | cons a l ih => rw [List.map_cons, List.sum_cons, List.sum_cons, ih]; ring
    rw [← neg, List.map_map]
    congr 1
    apply List.map_congr_left
    intro r _
    simp only [Function.comp_apply, h.burnt]
    split <;> ring
  have hgen : GenRule (withPlain w g) g (fun v => x (.of "Generator" g.name v)) ↔
      LinkRule (withFuel w g η E n) (plant g η n) (fun v => y (.of "Link" n.link v)) ∧
      StoreRule (withFuel w g η E n) (fuel w g E n) (fun v => y (.of "Store" n.store v)) := by
    constructor
    · intro r
      refine ⟨⟨hcap.mp r.cap, hunit.mp r.unit, hset.mp r.set⟩,
        ⟨⟨fun h => (by cases h), fun h => (by cases h), fun h => (by cases h), fun h => (by cases h)⟩, ?_, fun t _ _ s hs => (by cases hs), hlevel⟩⟩
      have hneg := hburn r.unit r.cap
      have hs := r.sumMax
      intro t ht hac
      have hac : g.unit.active t = true := hac
      change 0 * E ≤ y (.of "Store" n.store (.op "e" t)) ∧ y (.of "Store" n.store (.op "e" t)) ≤ 1 * E
      rw [h.left t ht hac, zero_mul, one_mul]
      refine ⟨(stock_iff hneg E).mpr (fun hex => ?_) t ht hac, ?_⟩
      · rw [hsum]
        have := hs hex (η * E) hb.sumMax
        have := mul_le_mul_of_nonneg_left this hi.le
        rw [inv_mul_cancel_left₀ hη.ne'] at this
        change η⁻¹ * total w.len w.gw g.unit.active _ ≤ E at this
        linarith
      · have := upTo_nonpos hneg ht
        linarith
    · rintro ⟨rl, rs⟩
      have hc := hcap.mpr rl.cap
      have hu := hunit.mpr rl.unit
      refine ⟨hc, hu, hset.mpr rl.set, fun _ e he => ?_, fun hex e he => ?_⟩
      · rw [hb.sumMin] at he; cases he
      · rw [hb.sumMax] at he
        obtain rfl := Option.some.inj he
        have hneg := hburn hu hc
        have := (stock_iff hneg E).mp (fun t ht hac => by
          have := (rs.limits t ht hac).1
          change 0 * E ≤ y (.of "Store" n.store (.op "e" t)) at this
          rwa [h.left t ht hac, zero_mul] at this) hex
        rw [hsum] at this
        have := mul_le_mul_of_nonneg_left (show η⁻¹ * total w.len w.gw g.unit.active (fun t => x (.of "Generator" g.name (.op "p" t))) ≤ E by linarith) hη.le
        rwa [mul_inv_cancel_left₀ hη.ne'] at this
  have hbal : (∀ t < w.len, ∀ b ∈ w.buses, supply (withPlain w g) x t b = demand w t b) ↔
      (∀ t < w.len, ∀ b ∈ w.buses ++ [n.bus], supply (withFuel w g η E n) y t b = demand w t b) := by
    refine forall₂_congr (fun t ht => ?_)
    have old : ∀ b ∈ w.buses, supply (withPlain w g) x t b = supply (withFuel w g η E n) y t b := by
      intro b hbm
      have hne : n.bus ≠ b := fun e => nb (e ▸ hbm)
      rw [supply_plain, supply_fuel, supply_like ha, hb.sign, one_mul, h.burnt, mul_inv_cancel_left₀ hη.ne']
      simp [atBus, hne]
    have new : supply (withFuel w g η E n) y t n.bus = demand w t n.bus := by
      obtain ⟨z1, z2⟩ := supply_off hf.base nb ne y t
      rw [supply_fuel, z1, z2]
      unfold atBus
      cases hac : g.unit.active t with
      | true => simp [ng, h.given t ht hac]
      | false => simp
    constructor
    · intro k b hbm
      rcases List.mem_append.mp hbm with hbm | hbm
      · rw [← old b hbm]; exact k b hbm
      · rw [List.mem_singleton] at hbm
        subst hbm
        exact new
    · intro k b hbm
      rw [old b hbm]
      exact k b (List.mem_append_left _ hbm)
  have split1 : Rules (withPlain w g) x ↔ (Own w (withPlain w g) x ∧ GenRule (withPlain w g) g (fun v => x (.of "Generator" g.name v))) ∧
      ∀ t < w.len, ∀ b ∈ w.buses, supply (withPlain w g) x t b = demand w t b := by
    constructor
    · intro r
      exact ⟨⟨⟨fun g hg => r.gens g (List.mem_append_left _ hg), r.links, r.stores, r.units, r.lines, r.trafos⟩,
        r.gens g (List.mem_append_right _ (List.mem_singleton.mpr rfl))⟩, r.balance⟩
    · rintro ⟨⟨r, ro⟩, rb⟩
      refine ⟨fun g' hg => ?_, r.links, r.stores, r.units, r.lines, r.trafos, rb⟩
      rcases List.mem_append.mp hg with hg | hg
      · exact r.gens g' hg
      · rw [List.mem_singleton] at hg
        subst hg
        exact ro
  have split2 : Rules (withFuel w g η E n) y ↔ (Own w (withFuel w g η E n) y ∧
      (LinkRule (withFuel w g η E n) (plant g η n) (fun v => y (.of "Link" n.link v)) ∧
        StoreRule (withFuel w g η E n) (fuel w g E n) (fun v => y (.of "Store" n.store v)))) ∧
      ∀ t < w.len, ∀ b ∈ w.buses ++ [n.bus], supply (withFuel w g η E n) y t b = demand w t b := by
    constructor
    · intro r
      exact ⟨⟨⟨r.gens, fun g hg => r.links g (List.mem_append_left _ hg), fun g hg => r.stores g (List.mem_append_left _ hg), r.units, r.lines, r.trafos⟩,
        r.links (plant g η n) (List.mem_append_right _ (List.mem_singleton.mpr rfl)),
        r.stores (fuel w g E n) (List.mem_append_right _ (List.mem_singleton.mpr rfl))⟩, r.balance⟩
    · rintro ⟨⟨r, rl, rs⟩, rb⟩
      refine ⟨r.gens, fun g' hg => ?_, fun g' hg => ?_, r.units, r.lines, r.trafos, rb⟩
      · rcases List.mem_append.mp hg with hg | hg
        · exact r.links g' hg
        · rw [List.mem_singleton] at hg
          subst hg
          exact rl
      · rcases List.mem_append.mp hg with hg | hg
        · exact r.stores g' hg
        · rw [List.mem_singleton] at hg
          subst hg
          exact rs
  rw [split1, split2, own_iff hlike ha, hgen, hbal]

def linkOf (g : GenW F) (η : F) (x : WVar → F) : Loc → F
  | .op v t => if v = "p" then η⁻¹ * x (.of "Generator" g.name (.op "p" t)) else x (.of "Generator" g.name (.op v t))
  | .cap => η⁻¹ * x (.of "Generator" g.name .cap)
  | .mod => x (.of "Generator" g.name .mod)

def storeOf (w : WNet F) (g : GenW F) (η E : F) (x : WVar → F) : Loc → F
  | .op v t => if v = "p" then η⁻¹ * x (.of "Generator" g.name (.op "p" t)) else
      E + upTo g.unit.active (fun r => - (w.gw r * (η⁻¹ * x (.of "Generator" g.name (.op "p" r))))) t
  | _ => 0

def genOf (n : FuelNames) (η : F) (y : WVar → F) : Loc → F
  | .op v t => if v = "p" then η * y (.of "Link" n.link (.op "p" t)) else y (.of "Link" n.link (.op v t))
  | .cap => η * y (.of "Link" n.link .cap)
  | .mod => y (.of "Link" n.link .mod)

/-- **C146.** A generator with a limited energy is the same as a full store of fuel with a link of the efficiency of the plant; the link has the
capacity, the set points and the ramp limits in terms of fuel, and costs accordingly. -/
theorem generator_as_fuel [IsStrictOrderedRing F] {w : WNet F} {g : GenW F} {η E : F} {n : FuelNames} (hb : Burns w g η E) (hf : Fresh w g η E n)
    {other : List (Con WVar F)} (ho : Unnamed other "Generator" g.name) (ho1 : Unnamed other "Link" n.link) (ho2 : Unnamed other "Store" n.store)
    (hc : ∀ r ∈ other, ∀ e ∈ r.terms, e.2 ≠ .const) {D D' : (WVar → F) → Prop} (hD : ∀ x y, GenFuel w g η E n x y → (D x ↔ D' y)) :
    Exchange (withPlain w g) (withFuel w g η E n) other D D' (GenFuel w g η E n) where
  there x _ := by
    have s1 : ¬ (("Link" : Name) = "Store" ∧ n.link = n.store) := fun h => absurd h.1 (by decide)
    have L : ∀ v, put "Store" n.store (storeOf w g η E x) (put "Link" n.link (linkOf g η x) x) (.of "Link" n.link v) = linkOf g η x v :=
      fun v => by rw [put_other s1, put_same]
    refine ⟨put "Store" n.store (storeOf w g η E x) (put "Link" n.link (linkOf g η x) x), ?_, ?_, ?_, L .cap, L .mod, ?_, ?_⟩
    · intro c a v _ h2 h3
      rw [put_other h3, put_other h2]
    · intro t; rw [L]; rfl
    · intro v t hv; rw [L]; simp [linkOf, hv]
    · intro t _ _; rw [L, put_same]; rfl
    · intro t _ _
      rw [put_same]
      simp only [L]
      rfl
  back y hy := by
    have hη := hb.eff
    obtain ⟨nb, ne, ng⟩ := hf.bus
    have hgiven : ∀ t < w.len, g.unit.active t = true → y (.of "Store" n.store (.op "p" t)) = y (.of "Link" n.link (.op "p" t)) := by
      intro t ht hac
      have hbal := hy.balance t ht n.bus (List.mem_append_right _ (List.mem_singleton.mpr rfl))
      obtain ⟨z1, z2⟩ := supply_off hf.base nb ne y t
      have e : demand (withFuel w g η E n) t n.bus = demand w t n.bus := rfl
      rw [supply_fuel, e, z1, z2] at hbal
      simp only [atBus, hac, ng, and_self, if_true, false_and, if_false, add_zero, zero_add] at hbal
      linarith
    have hlev := (hy.stores (fuel w g E n) (List.mem_append_right _ (List.mem_singleton.mpr rfl))).level
    unfold PeriodRule at hlev
    rw [if_neg (by simp [fuel])] at hlev
    have hlev := (level_sum w.len g.unit.active E _ _).mp hlev
    refine ⟨put "Generator" g.name (genOf n η y) y, ?_, ?_, ?_, ?_, ?_, hgiven, ?_⟩
    · intro c a v h1 _ _
      exact put_other h1 _ _ _
    · intro t; rw [put_same]; simp [genOf, inv_mul_cancel_left₀ hη.ne']
    · intro v t hv; rw [put_same]; simp [genOf, hv]
    · rw [put_same]; simp [genOf, inv_mul_cancel_left₀ hη.ne']
    · rw [put_same]; rfl
    · intro t ht hac
      refine (hlev t ht hac).trans ?_
      congr 1
      unfold upTo
      congr 1
      apply List.map_congr_left
      intro r hr
      have hr := List.mem_range.mp hr
      split
      · rename_i har
        change - (w.gw r * y (.of "Store" n.store (.op "p" r))) = _
        rw [hgiven r (by omega) har]
      · rfl
  rules x y h := fuel_rules hb hf h
  costs x y h _ := by
    have hη := hb.eff
    have e1 : totalCost (withPlain w g) x = totalCost w x + genCost w g x := cost_more_gen w g x
    have e2 : totalCost (withFuel w g η E n) y = totalCost w y + linkCost w (plant g η n) y + storeCost w (fuel w g E n) y :=
      (cost_more_store { w with links := w.links ++ [plant g η n] } (fuel w g E n) y).trans (by rw [cost_more_link]; rfl)
    have e3 : storeCost w (fuel w g E n) y = 0 := by
      unfold storeCost
      rw [sum_zero (List.range w.len) _ (fun t _ => by simp [fuel, noCosts])]
      simp [fuel]
    rw [e1, e2, e3, cost_agree (genFuel_agree hf.plain hf.fuelled h), add_zero]
    congr 1
    unfold genCost linkCost
    have c1 : ∀ a b c : F, a * (b * η) * (η⁻¹ * c) = a * b * c := by
      intro a b c
      field_simp
    congr 1
    · congr 1
      apply List.map_congr_left
      intro t _
      change _ = if g.unit.active t then weight w t * (g.costs.marginal t * η) * y (.of "Link" n.link (.op "p" t)) +
        (if g.unit.committable then weight w t * g.costs.standBy t * y (.of "Link" n.link (.op "status" t)) +
          g.unit.startUpCost * y (.of "Link" n.link (.op "start_up" t)) + g.unit.shutDownCost * y (.of "Link" n.link (.op "shut_down" t)) else 0) else 0
      rw [h.burnt, h.events "status" _ (by decide), h.events "start_up" _ (by decide), h.events "shut_down" _ (by decide), c1]
    · change _ = if g.unit.extendable then lifeWeight w g.invest * (g.invest.capitalCost / η⁻¹) * y (.of "Link" n.link .cap) else 0
      rw [h.cap, div_inv_eq_mul, c1]
  other x y h := by
    have key := genFuel_apart h ho ho1 ho2 hc
    exact ⟨apart_feasible key, apart_feasible (fun r hr e he => (key r hr e he).symm)⟩
  domain := hD

/-! ## Examples -/

namespace Demo

/-- A gas plant without ramp limits. -/
def gas : GenW ℚ := ⟨"gas", "B", 1, plainUnit false 10 (fun _ => true) (fun _ => 0) (fun _ => 1), exInvest 0, exCosts 5 0, fun _ => none, none, none⟩

/-- Two buses with a line, a gas plant and a load. -/
def base : WNet ℚ := { docNet with gens := [gas] }

/-- No lines, no losses. -/
def bare : WNet ℚ := { docNet with gens := [gas], lines := [], tangents := 0, loads := [] }

def names : FuelNames := ⟨"coal stock", "coal", "coal"⟩

theorem gas_unramped : Unramped gas.unit := ⟨fun _ => rfl, fun _ => rfl, rfl, rfl⟩

theorem gas_kept (u : Unit' ℚ) (n : Nat) : RampsKept [gas.unit] u n := Or.inr (fun v hv => by
  rw [List.mem_singleton] at hv
  exact hv ▸ gas_unramped)

theorem none_kept (u : Unit' ℚ) (n : Nat) : RampsKept [] u n := Or.inr (fun v hv => by cases hv)

/-- The committed coal plant with ramp limits; its efficiency is one half, its stock is enough for 30. -/
theorem burns : Burns base docGen (1 / 2) 60 where
  sign := rfl
  eff := by norm_num
  stock := by norm_num
  sumMin := rfl
  sumMax := by norm_num [docGen]
  minPu t _ := by norm_num [docGen, docUnit]
  nom := by norm_num [docGen, docUnit]
  nomMin := by norm_num [docGen, exInvest]
  hours t _ := by norm_num [base, docNet]

theorem fresh : Fresh base docGen (1 / 2) 60 names where
  base := by constructor <;> simp [base, docNet, gas, docLine]
  plain := by constructor <;> simp [withPlain, base, docNet, gas, docLine, docGen]
  fuelled := by constructor <;> simp [withFuel, base, docNet, gas, docLine, docGen, plant, fuel, names]
  gens := gas_kept _ _
  links := none_kept _ _
  both := Or.inl (by
    have h : ∀ u : Unit' ℚ, u.rampUp 0 = some (1 / 2) → ∀ us, u ∈ us → RampsCount us 4 := fun u hu us hm =>
      ⟨⟨u, hm, 0, by decide, Or.inl (by rw [hu]; simp)⟩, ⟨u, hm, 0, by decide, Or.inl (by rw [hu]; norm_num)⟩⟩
    exact ⟨fun _ => h (plant docGen (1 / 2) names).unit rfl _ (by simp), fun _ => h docGen.unit rfl _ (by simp)⟩)

/-- The plant as a store of coal and a link that takes twice what it gives. -/
example : Exchange (withPlain base docGen) (withFuel base docGen (1 / 2) 60 names) [] (fun _ => True) (fun _ => True) (GenFuel base docGen (1 / 2) 60 names) :=
  generator_as_fuel burns fresh (fun _ h => (by cases h)) (fun _ h => (by cases h)) (fun _ h => (by cases h)) (fun _ h => (by cases h)) (fun _ _ _ => Iff.rfl)

example : (plant docGen (1 / 2) names).unit.nom = 20 := by norm_num [plant, scaledUnit, docGen, docUnit]

/-- The line as a link. -/
example : Exchange (withLine bare docLine) (withLink bare docLine "cable") [] (fun _ => True) (fun _ => True) (LineLink docLine "cable") :=
  line_as_link (w := bare) (l := docLine) (n := "cable") rfl (by constructor <;> simp [withLine, bare, docNet, gas, docLine]) (by constructor <;> simp [withLink, bare, docNet, gas, docLine, asLink])
    (none_kept _ _) (fun _ h => (by cases h)) (fun _ h => (by cases h)) (fun _ h => (by cases h)) (fun _ _ _ => Iff.rfl)

/-- The load as a generator of sign -1. -/
example : Exchange (withLoad bare ⟨"B", -1, fun _ => 5, fun _ => true⟩) (withGen bare ⟨"B", -1, fun _ => 5, fun _ => true⟩ "town" 5) [] (fun _ => True) (fun _ => True)
    (LoadGen bare ⟨"B", -1, fun _ => 5, fun _ => true⟩ "town") :=
  load_as_generator (w := bare) (l := ⟨"B", -1, fun _ => 5, fun _ => true⟩) (n := "town") (nom := 5) (by constructor <;> simp [withGen, bare, docNet, gas, asGen]) (fun _ _ _ => ⟨by norm_num, le_refl _⟩)
    (gas_kept _ _) (fun _ h => (by cases h)) (fun _ h => (by cases h)) (fun _ _ _ => Iff.rfl)

/-- One snapshot with a load of 4. -/
def tiny : WNet ℚ := { docNet with len := 1, buses := ["A"], gens := [], lines := [], tangents := 0, loads := [⟨"A", -1, fun _ => 4, fun _ => true⟩] }

def mill : GenW ℚ := ⟨"mill", "A", 1, plainUnit false 10 (fun _ => true) (fun _ => 0) (fun _ => 1), exInvest 0, exCosts 3 0, fun _ => none, none, some 5⟩

def tinyVal : WVar → ℚ
  | .of _ _ (.op "p" _) => 4
  | _ => 0

theorem tiny_plain : (createModel (withPlain tiny mill) []).isSome = true := by decide +kernel

theorem tiny_fuel : (createModel (withFuel tiny mill (1 / 2) 10 names) []).isSome = true := by decide +kernel

theorem tiny_asked : Asked (withPlain tiny mill) [] (fun _ => True) ((createModel (withPlain tiny mill) []).get tiny_plain) where
  sound := by constructor <;> decide
  linear := by constructor <;> simp [withPlain, tiny, docNet, mill, exCosts, plainUnit]
  orderly := orderly_single rfl rfl
  rows _ h := by cases h
  domain _ _ h := h
  model := (Option.some_get tiny_plain).symm

theorem tiny_asked' : Asked (withFuel tiny mill (1 / 2) 10 names) [] (fun _ => True) ((createModel (withFuel tiny mill (1 / 2) 10 names) []).get tiny_fuel) where
  sound := by constructor <;> decide
  linear := by constructor <;> simp [withFuel, tiny, docNet, mill, exCosts, plainUnit, plant, fuel, noCosts, scaledUnit]
  orderly := orderly_single rfl rfl
  rows _ h := by cases h
  domain _ _ h := h
  model := (Option.some_get tiny_fuel).symm

theorem tiny_rules : Rules (withPlain tiny mill) tinyVal := by
  refine ((rules_iff tiny_asked.sound tiny_asked.orderly tiny_asked.model tinyVal).mp ?_).1
  unfold FeasibleIn
  decide +kernel

theorem tiny_best : Best (withPlain tiny mill) [] (fun _ => True) tinyVal := by
  refine ⟨tiny_rules, fun r h => (by cases h), trivial, fun z hz _ _ => ?_⟩
  have h1 := hz.balance 0 (by decide) "A" (by simp [withPlain, tiny, docNet])
  have e : z (.of "Generator" "mill" (.op "p" 0)) = 4 := by
    simpa [supply, demand, withPlain, tiny, docNet, mill, atBus, plainUnit] using h1
  have c : ∀ x : WVar → ℚ, totalCost (withPlain tiny mill) x = 3 * x (.of "Generator" "mill" (.op "p" 0)) := by
    intro x
    simp [totalCost, genCost, withPlain, tiny, docNet, mill, plainUnit, exCosts, weight]
  rw [c, c, e]
  decide +kernel

/-- The optimum of the solver for the plant, and one for the store with the link at the same costs. -/
example : ∃ x, SolverBest (withPlain tiny mill) ((createModel (withPlain tiny mill) []).get tiny_plain) (fun _ => True) x ∧
    ∃ y, GenFuel tiny mill (1 / 2) 10 names x y ∧
      costOf (withFuel tiny mill (1 / 2) 10 names) ((createModel (withFuel tiny mill (1 / 2) 10 names) []).get tiny_fuel)
        (setConst (Objective.constant (objNet (withFuel tiny mill (1 / 2) 10 names))) y) =
      costOf (withPlain tiny mill) ((createModel (withPlain tiny mill) []).get tiny_plain) x := by
  have hb : Burns tiny mill (1 / 2) 10 :=
    ⟨rfl, by norm_num, by norm_num, rfl, by norm_num [mill], fun _ _ => by norm_num [mill, plainUnit], by norm_num [mill, plainUnit],
      by norm_num [mill, exInvest], fun _ _ => by norm_num [tiny, docNet]⟩
  have hf : Fresh tiny mill (1 / 2) 10 names :=
    ⟨by constructor <;> simp [tiny, docNet], tiny_asked.sound, tiny_asked'.sound, none_kept _ _, none_kept _ _,
      Or.inr ⟨fun _ => rfl, fun _ => rfl, rfl, rfl⟩⟩
  have hx := (best_iff tiny_asked.sound tiny_asked.linear tiny_asked.orderly tiny_asked.rows tiny_asked.model (fun _ => True) tiny_asked.domain tinyVal).2 tiny_best
  obtain ⟨y, h1, -, h3⟩ := exchange_solver (generator_as_fuel hb hf (other := []) (D := fun _ => True) (D' := fun _ => True) (fun _ h => (by cases h)) (fun _ h => (by cases h)) (fun _ h => (by cases h))
    (fun _ h => (by cases h)) (fun _ _ _ => Iff.rfl)) tiny_asked tiny_asked' hx
  exact ⟨_, hx, y, h1, h3⟩

end Demo

end Verif.Opt.Whole.Recast
