import Verif.Stats.Groupers
import Mathlib.Tactic.Common
import Mathlib.Data.List.Nodup

/-!
# Groupers mean the same whichever way they are asked for (C159)
-/

namespace Verif.Stats.Groupers

variable {R : Registry} {n : Net} {c : String} {port : Option String} {nice : Bool}

/-! ## Specification -/

/-- The two methods of the registry itself are still there. -/
structure Tame (R : Registry) : Prop where
  add : own R "add_grouper" = none
  list : own R "list_groupers" = none

/-- Names that can be used for own groupers. -/
def Usable (name : String) : Prop := name.startsWith "_" = false ∧ name ≠ "add_grouper" ∧ name ≠ "list_groupers"

/-- The documented groupers (doc/user-guide/statistics.rst). -/
def documented : List String := ["carrier", "bus_carrier", "name", "bus", "country", "location", "unit"]

/-- What the function says, given the arguments it knows. -/
def Says (f : Func) (n : Net) (c : String) (port : Option String) (nice : Bool) (r : Except Err Ser) : Prop :=
  (f.takesPort = true ∧ f.takesNice = true ∧ f.body n c (some port) (some nice) = r) ∨ (f.takesPort = true ∧ f.takesNice = false ∧ f.body n c (some port) none = r) ∨
  (f.takesPort = false ∧ f.takesNice = true ∧ f.body n c none (some nice) = r) ∨ (f.takesPort = false ∧ f.takesNice = false ∧ f.body n c none none = r)

/-- The answer with one series. -/
def answer : Except Err Ser → Except Err (Option By)
  | .ok s => .ok (some (.ser s))
  | .error e => .error e

/-- Columns have one value for each component. -/
def Full (n : Net) : Prop := ∀ c k vs, n.col c k = some vs → vs.length = (n.index c).length

/-! ## Own groupers -/

theorem own_cons (name key : String) (f : Func) (R : Registry) : own ((name, f) :: R) key = if name = key then some f else own R key := by
  unfold own
  by_cases h : name = key <;> simp [h]

theorem own_filter (name key : String) (R : Registry) : own (R.filter (fun e => e.1 != name)) key = if name = key then none else own R key := by
  unfold own
  by_cases h : name = key
  · subst h
    rw [if_pos rfl, Option.map_eq_none_iff, List.find?_eq_none]
    intro e he
    simpa using (List.mem_filter.mp he).2
  · rw [if_neg h]
    congr 1
    induction R with
    | nil => rfl
    | cons e R ih =>
      by_cases h1 : e.1 = name
      · have h2 : e.1 ≠ key := fun h3 => h (h1 ▸ h3)
        simp [h1, h2, h, ih]
      · by_cases h2 : e.1 = key
        · rw [List.filter_cons_of_pos (by simpa using h1), List.find?_cons_of_pos (by simpa using h2), List.find?_cons_of_pos (by simpa using h2)]
        · rw [List.filter_cons_of_pos (by simpa using h1), List.find?_cons_of_neg (by simpa using h2), List.find?_cons_of_neg (by simpa using h2), ih]

theorem own_add (hR : Tame R) (name key : String) (f : Func) : own (add R name f) key = if name = key then some f else own R key := by
  unfold add
  rw [hR.add]
  simp only [Option.isSome_none, Bool.false_eq_true, if_false, own_cons, own_filter]
  split_ifs <;> rfl

theorem tame_add (hR : Tame R) {name : String} (h : Usable name) (f : Func) : Tame (add R name f) := by
  constructor
  · rw [own_add hR, if_neg h.2.1]; exact hR.add
  · rw [own_add hR, if_neg h.2.2]; exact hR.list

/-- Registering one after the other. -/
def adds (R : Registry) (l : List (String × Func)) : Registry := l.foldl (fun R e => add R e.1 e.2) R

/-- The last function registered under a name counts. -/
def lastOf (l : List (String × Func)) (name : String) : Option Func := ((l.filter (fun e => e.1 == name)).map (·.2)).getLast?

theorem adds_spec (l : List (String × Func)) (hR : Tame R) (h : ∀ e ∈ l, Usable e.1) :
    Tame (adds R l) ∧ ∀ name, own (adds R l) name = (lastOf l name).or (own R name) := by
  induction l generalizing R with
  | nil => exact ⟨hR, fun name => by simp [adds, lastOf]⟩
  | cons e l ih =>
    have hR' := tame_add hR (h e (List.mem_cons_self)) e.2
    obtain ⟨h1, h2⟩ := ih hR' (fun a ha => h a (List.mem_cons_of_mem _ ha))
    refine ⟨h1, fun name => ?_⟩
    change own (adds (add R e.1 e.2) l) name = _
    rw [h2, own_add hR]
    unfold lastOf
    by_cases hn : e.1 = name
    · simp only [hn, beq_self_eq_true, List.filter_cons_of_pos, List.map_cons, if_true]
      cases hl : (l.filter (fun e => e.1 == name)).map (·.2) with
      | nil => simp
      | cons a t => simp [List.getLast?_cons]
    · simp [hn]

theorem fitted_says (f : Func) (n : Net) (c : String) (port : Option String) (nice : Bool) : Says f n c port nice (fitted f n c port nice) := by
  unfold Says fitted Func.call
  cases f.takesPort <;> cases f.takesNice <;> simp

theorem says_unique {f : Func} {r r' : Except Err Ser} (h : Says f n c port nice r) (h' : Says f n c port nice r') : r = r' := by
  unfold Says at h h'
  rcases h with ⟨a, b, e⟩ | ⟨a, b, e⟩ | ⟨a, b, e⟩ | ⟨a, b, e⟩ <;> rcases h' with ⟨a', b', e'⟩ | ⟨a', b', e'⟩ | ⟨a', b', e'⟩ | ⟨a', b', e'⟩ <;>
    simp_all

theorem one_str (s : String) : one R n c port nice (.str s) = if (own R "list_groupers").isSome then .error .type
    else if (attr R s).isSome && !s.startsWith "_" && !(["add_grouper", "list_groupers"].contains s) then
      match attr R s with
      | some f => fitted f n c port nice
      | none => .error (.attribute s)
    else generic n c s := rfl

theorem grouping_str (s : String) : grouping R n c port nice (.str s) = answer (one R n c port nice (.str s)) := by
  simp only [grouping, multi]
  cases one R n c port nice (.str s) <;> rfl

/-- After any history of registrations, an own grouper is found under its name. -/
theorem own_found {l : List (String × Func)} (h : ∀ e ∈ l, Usable e.1) {name : String} {f : Func} (hl : lastOf l name = some f) {r : Except Err Ser}
    (hr : Says f n c port nice r) : grouping (adds [] l) n c port nice (.str name) = answer r := by
  obtain ⟨h1, h2⟩ := adds_spec (R := []) l ⟨rfl, rfl⟩ h
  have hu : Usable name := by
    unfold lastOf at hl
    obtain ⟨e, he, -⟩ := List.mem_map.mp (List.mem_of_getLast? hl)
    have := List.mem_filter.mp he
    rw [← eq_of_beq this.2]
    exact h e this.1
  have ho : own (adds [] l) name = some f := by rw [h2, hl]; rfl
  have ha : attr (adds [] l) name = some f := by unfold attr; rw [ho]; rfl
  rw [grouping_str]
  have hli : listed (adds [] l) name = true := by
    unfold listed
    rw [ha]
    simp [hu.1, hu.2.1, hu.2.2]
  unfold one
  rw [h1.list]
  simp only [Option.isSome_none, Bool.false_eq_true, if_false, hli, if_true, ha]
  rw [says_unique hr (fitted_says f n c port nice)]

/-- Other keys do not notice, but `bus_carrier` notices an own `carrier`. -/
theorem others_same (hR : Tame R) {name : String} (hu : Usable name) (f : Func) {key : String} (hk : key ≠ name) (hc : ¬ (name = "carrier" ∧ key = "bus_carrier")) :
    grouping (add R name f) n c port nice (.str key) = grouping R n c port nice (.str key) := by
  have hl := (tame_add hR hu f).list
  have ho : own (add R name f) key = own R key := by rw [own_add hR, if_neg (Ne.symm hk)]
  have hm : method (add R name f) key = method R key := by
    by_cases hb : key = "bus_carrier"
    · have hn : name ≠ "carrier" := fun h => hc ⟨h, hb⟩
      have hs : selfCarrier (add R name f) = selfCarrier R := by unfold selfCarrier; rw [own_add hR, if_neg hn]
      unfold method busCarrierFn
      rw [hs]
    · unfold method
      simp [hb]
  have ha : attr (add R name f) key = attr R key := by unfold attr; rw [ho, hm]
  rw [grouping_str, grouping_str, one_str, one_str, hl, hR.list, ha]

/-- The claim without the exception. -/
def NoneNotices : Prop := ∀ (R : Registry) (n : Net) (c : String) (port : Option String) (nice : Bool) (name key : String) (f : Func), Tame R → Usable name → key ≠ name →
  grouping (add R name f) n c port nice (.str key) = grouping R n c port nice (.str key)

/-- One generator at a bus with carrier AC in Germany. -/
def exNet : Net where
  index := fun c => if c = "Bus" then ["hub", "b"] else if c = "Generator" then ["g"] else []
  col := fun c k => if c = "Bus" then (if k = "carrier" then some [some "DC", some "AC"] else if k = "country" then some [some "FR", some "DE"] else none)
    else if c = "Generator" then (if k = "bus" then some [some "b"] else if k = "carrier" then some [some "wind"] else if k = "country" then some [some "DK"]
      else if k = "zone" then some [some "north"] else none) else none
  nice := fun x => if x = "wind" then "Wind" else ""

/-- An own grouper for carriers: all the same. -/
def exAll : Func := ⟨false, true, fun n c _ _ => .ok ⟨"carrier", (n.index c).map (fun _ => some "all")⟩⟩

theorem not_none_notices : ¬ NoneNotices := by
  intro h
  have := h [] exNet "Generator" (some "") false "carrier" "bus_carrier" exAll ⟨rfl, rfl⟩ (by unfold Usable; decide +kernel) (by decide +kernel)
  revert this
  decide +kernel

/-- An own grouper called `list_groupers` makes all strings fail … -/
theorem list_broken (hR : own R "add_grouper" = none) (f : Func) (s : String) : grouping (add R "list_groupers" f) n c port nice (.str s) = .error .type := by
  have : own (add R "list_groupers" f) "list_groupers" = some f := by
    unfold add
    rw [hR]
    simp [own_cons]
  rw [grouping_str]
  unfold one
  rw [this]
  rfl

/-- … after one called `add_grouper` nothing can be registered … -/
theorem add_broken (f : Func) (l : List (String × Func)) : adds (add R "add_grouper" f) l = add R "add_grouper" f := by
  have : (own (add R "add_grouper" f) "add_grouper").isSome = true := by
    by_cases h : (own R "add_grouper").isSome
    · unfold add
      rw [if_pos h]
      exact h
    · unfold add
      rw [if_neg h]
      simp [own_cons]
  induction l with
  | nil => rfl
  | cons e l ih =>
    change adds (add (add R "add_grouper" f) e.1 e.2) l = _
    have he : add (add R "add_grouper" f) e.1 e.2 = add R "add_grouper" f := by
      conv_lhs => unfold add
      rw [if_pos]
      · rfl
      · exact this
    rw [he]
    exact ih

/-- … and one whose name begins with an underscore is registered but not found. -/
theorem hidden_lost (hR : Tame R) {name : String} (h : name.startsWith "_" = true) :
    grouping R n c port nice (.str name) = answer (match n.col c name with | none => .error .value | some vs => .ok ⟨name, vs⟩) := by
  rw [grouping_str, one_str, hR.list]
  simp only [Option.isSome_none, Bool.false_eq_true, if_false, h, Bool.not_true, Bool.and_false, Bool.false_and]
  rfl

/-! ## Columns -/

theorem method_none {key : String} (h : key ∉ documented) : method R key = none := by
  simp only [documented, List.mem_cons, List.not_mem_nil, or_false, not_or] at h
  obtain ⟨h1, h2, h3, h4, h5, h6, h7⟩ := h
  simp [method, h1, h2, h3, h4, h5, h6, h7]

theorem method_some {key : String} (h : key ∈ documented) : (method R key).isSome = true := by
  simp only [documented, List.mem_cons, List.not_mem_nil, or_false] at h
  rcases h with rfl | rfl | rfl | rfl | rfl | rfl | rfl <;> simp [method]

/-- Any other string is a column of the class, or refused. -/
theorem column (hR : Tame R) {key : String} (ho : own R key = none) (hk : key ∉ documented) :
    (∀ vs, n.col c key = some vs → grouping R n c port nice (.str key) = .ok (some (.ser ⟨key, vs⟩))) ∧
    (n.col c key = none → grouping R n c port nice (.str key) = .error .value) := by
  have ha : attr R key = none := by unfold attr; rw [ho, method_none hk]; rfl
  have h : grouping R n c port nice (.str key) = answer (generic n c key) := by
    rw [grouping_str, one_str, hR.list, ha]
    simp
  constructor
  · intro vs hv
    rw [h, generic, hv]
    rfl
  · intro hv
    rw [h, generic, hv]
    rfl

theorem one_documented (hR : Tame R) {key : String} (ho : own R key = none) (hk : key ∈ documented) {f : Func} (hf : method R key = some f) :
    one R n c port nice (.str key) = fitted f n c port nice := by
  have ha : attr R key = some f := by unfold attr; rw [ho, hf]; rfl
  have h0 : ∀ k ∈ documented, (!k.startsWith "_" && !(["add_grouper", "list_groupers"].contains k)) = true := by decide +kernel
  have hl := h0 key hk
  rw [one_str, hR.list, ha, Option.isSome_some, Bool.true_and, hl]
  rfl

/-- A column of another class that is called like a documented grouper. -/
def withCol (n : Net) (c key : String) (vs : Option (List (Option String))) : Net :=
  { n with col := fun c' k => if c' = c ∧ k = key then vs else n.col c' k }

/-- A column called `country`, `location`, `unit`, `name` or `bus_carrier` is never used: the grouper hides it. -/
theorem column_hidden (hR : Tame R) {key : String} (ho : own R key = none) (hoc : own R "carrier" = none) (hk : key ∈ ["bus_carrier", "name", "country", "location", "unit"])
    (hc : c ≠ "Bus") (hp : "bus" ++ port.getD "None" ≠ key) (vs : Option (List (Option String))) :
    grouping R (withCol n c key vs) c port nice (.str key) = grouping R n c port nice (.str key) := by
  have hb : ∀ k, (withCol n c key vs).col "Bus" k = n.col "Bus" k := fun k => if_neg (fun h => hc h.1.symm)
  have hbus : (withCol n c key vs).col c (busCol (some port)) = n.col c (busCol (some port)) := if_neg (fun h => hp h.2)
  have hi : (withCol n c key vs).index = n.index := rfl
  have hni : niceLabel (withCol n c key vs) = niceLabel n := rfl
  have hmap : mapBus (withCol n c key vs) = mapBus n := rfl
  rw [grouping_str, grouping_str]
  congr 1
  simp only [List.mem_cons, List.not_mem_nil, or_false] at hk
  rcases hk with rfl | rfl | rfl | rfl | rfl
  · have hs : selfCarrier R = carrierFn := by unfold selfCarrier; rw [hoc]; rfl
    rw [one_documented hR ho (by decide) (f := busCarrierFn R) rfl, one_documented hR ho (by decide) (f := busCarrierFn R) rfl]
    simp only [fitted, Func.call, busCarrierFn, hs, carrierFn, hb, hbus, hi, hni, hmap, if_true]
  · rw [one_documented hR ho (by decide) (f := nameFn) rfl, one_documented hR ho (by decide) (f := nameFn) rfl]
    simp [fitted, Func.call, nameFn, hi]
  · rw [one_documented hR ho (by decide) (f := busAttrFn "country") rfl, one_documented hR ho (by decide) (f := busAttrFn "country") rfl]
    simp only [fitted, Func.call, busAttrFn, hb, hbus, hmap, if_true]
  · rw [one_documented hR ho (by decide) (f := busAttrFn "location") rfl, one_documented hR ho (by decide) (f := busAttrFn "location") rfl]
    simp only [fitted, Func.call, busAttrFn, hb, hbus, hmap, if_true]
  · rw [one_documented hR ho (by decide) (f := busAttrFn "unit") rfl, one_documented hR ho (by decide) (f := busAttrFn "unit") rfl]
    simp only [fitted, Func.call, busAttrFn, hb, hbus, hmap, if_true]

/-! ## What the documented groupers say -/

/-- Position of a bus. -/
theorem mapBus_at (hn : (n.index "Bus").Nodup) {j : Nat} {b : String} (hj : (n.index "Bus")[j]? = some b) (labels : List (Option String)) :
    mapBus n labels (some b) = labels[j]?.join := by
  obtain ⟨hlt, he⟩ := List.getElem?_eq_some_iff.mp hj
  have : (n.index "Bus").idxOf b = j := by rw [← he]; exact hn.idxOf_getElem j hlt
  simp [mapBus, this]

/-- Component number `i`, whose bus at the port is bus number `j`, gets the country, location or unit of this bus. -/
theorem label_attr (hR : Tame R) {key : String} (ho : own R key = none) (hk : key = "country" ∨ key = "location" ∨ key = "unit") (hn : (n.index "Bus").Nodup)
    {p : String} {bs ls : List (Option String)} (hb : n.col c ("bus" ++ p) = some bs) (hl : n.col "Bus" key = some ls) :
    ∃ vals, grouping R n c (some p) nice (.str key) = .ok (some (.ser ⟨key, vals⟩)) ∧ vals.length = bs.length ∧
      ∀ (i j : Nat) b, bs[i]? = some (some b) → (n.index "Bus")[j]? = some b → vals[i]? = some (ls[j]?.join) := by
  have hf : method R key = some (busAttrFn key) := by rcases hk with rfl | rfl | rfl <;> rfl
  have hd : key ∈ documented := by rcases hk with rfl | rfl | rfl <;> decide
  refine ⟨bs.map (mapBus n ls), ?_, by simp, ?_⟩
  · rw [grouping_str, one_documented hR ho hd hf]
    have : busCol (some (some p)) = "bus" ++ p := rfl
    simp [fitted, Func.call, busAttrFn, this, hb, hl, answer]
  · intro i j b hi hj
    rw [List.getElem?_map, hi, Option.map_some, mapBus_at hn hj]

/-- The same for the carrier of the bus; with nice names the nice name, `-` if there is none. -/
theorem label_busCarrier (hR : Tame R) (ho : own R "bus_carrier" = none) (hoc : own R "carrier" = none) (hn : (n.index "Bus").Nodup)
    {p : String} {bs ls : List (Option String)} (hb : n.col c ("bus" ++ p) = some bs) (hl : n.col "Bus" "carrier" = some ls) :
    ∃ vals, grouping R n c (some p) nice (.str "bus_carrier") = .ok (some (.ser ⟨"bus_carrier", vals⟩)) ∧ vals.length = bs.length ∧
      ∀ (i j : Nat) b k, bs[i]? = some (some b) → (n.index "Bus")[j]? = some b → ls[j]? = some (some k) →
        vals[i]? = some (some (if nice = false then k else if n.nice k ≠ "" then n.nice k else if k ≠ "" then k else "-")) := by
  have hs : selfCarrier R = carrierFn := by unfold selfCarrier; rw [hoc]; rfl
  refine ⟨bs.map (mapBus n (if nice then ls.map (·.map (niceLabel n)) else ls)), ?_, by simp, ?_⟩
  · rw [grouping_str, one_documented hR ho (by decide) (f := busCarrierFn R) rfl]
    have : busCol (some (some p)) = "bus" ++ p := rfl
    simp [fitted, Func.call, busCarrierFn, hs, carrierFn, this, hb, hl, answer]
  · intro i j b k hi hj hk
    rw [List.getElem?_map, hi, Option.map_some, mapBus_at hn hj]
    cases nice
    · simp [hk]
    · simp only [if_true, List.getElem?_map, hk, Option.map_some, Option.join_some, Bool.true_eq_false, if_false, niceLabel]
      by_cases h1 : n.nice k = ""
      · by_cases h2 : k = "" <;> simp_all
      · simp [h1]

/-- The carrier, the bus and the name of each component. -/
theorem label_own (hR : Tame R) (h1 : own R "carrier" = none) (h2 : own R "bus" = none) (h3 : own R "name" = none) :
    (∀ vs, n.col c "carrier" = some vs → grouping R n c port false (.str "carrier") = .ok (some (.ser ⟨"carrier", vs⟩))) ∧
    (∀ p bs, n.col c ("bus" ++ p) = some bs → grouping R n c (some p) nice (.str "bus") = .ok (some (.ser ⟨"bus", bs⟩))) ∧
    grouping R n c port nice (.str "name") = .ok (some (.ser ⟨"name", (n.index c).map some⟩)) := by
  refine ⟨fun vs hv => ?_, fun p bs hb => ?_, ?_⟩
  · rw [grouping_str, one_documented hR h1 (by decide) (f := carrierFn) rfl]
    simp [fitted, Func.call, carrierFn, hv, answer]
  · rw [grouping_str, one_documented hR h2 (by decide) (f := busFn) rfl]
    have : busCol (some (some p)) = "bus" ++ p := rfl
    simp [fitted, Func.call, busFn, this, hb, answer]
  · rw [grouping_str, one_documented hR h3 (by decide) (f := nameFn) rfl]
    simp [fitted, Func.call, nameFn, answer]

/-! ## Several keys -/

theorem one_name (hR : Tame R) {key : String} (ho : own R key = none) {s : Ser} (h : one R n c port nice (.str key) = .ok s) : s.name = key := by
  by_cases hk : key ∈ documented
  · obtain ⟨f, hf⟩ := Option.isSome_iff_exists.mp (method_some (R := R) hk)
    rw [one_documented hR ho hk hf] at h
    simp only [documented, List.mem_cons, List.not_mem_nil, or_false] at hk
    rcases hk with rfl | rfl | rfl | rfl | rfl | rfl | rfl
    · obtain rfl : carrierFn = f := Option.some.inj hf
      simp [fitted, Func.call, carrierFn] at h
      rw [← h]
    · obtain rfl : busCarrierFn R = f := Option.some.inj hf
      have e : fitted (busCarrierFn R) n c port nice = (busCarrierFn R).body n c (some port) (some nice) := by simp [fitted, Func.call, busCarrierFn]
      rw [e] at h
      simp only [busCarrierFn] at h
      split at h
      · cases h
      · split at h <;> cases h
        rfl
    · obtain rfl : nameFn = f := Option.some.inj hf
      simp [fitted, Func.call, nameFn] at h
      rw [← h]
    · obtain rfl : busFn = f := Option.some.inj hf
      have e : fitted busFn n c port nice = busFn.body n c (some port) none := by simp [fitted, Func.call, busFn]
      rw [e] at h
      simp only [busFn] at h
      split at h <;> cases h
      rfl
    all_goals
      obtain rfl := Option.some.inj hf
      have e : ∀ a, fitted (busAttrFn a) n c port nice = (busAttrFn a).body n c (some port) none := fun a => by simp [fitted, Func.call, busAttrFn]
      rw [e] at h
      simp only [busAttrFn] at h
      split at h
      · cases h
      · split at h <;> cases h
        rfl
  · have ha : attr R key = none := by unfold attr; rw [ho, method_none hk]; rfl
    rw [one_str, hR.list, ha] at h
    simp only [Option.isSome_none, Bool.false_and, Bool.false_eq_true, if_false, generic] at h
    split at h <;> cases h
    rfl

/-- Every component gets a label (or a missing one). -/
theorem every_label (hR : Tame R) (hn : Full n) {key : String} (ho : own R key = none) {s : Ser} (h : grouping R n c port nice (.str key) = .ok (some (.ser s))) :
    s.vals.length = (n.index c).length := by
  rw [grouping_str] at h
  have h : one R n c port nice (.str key) = .ok s := by
    cases ho : one R n c port nice (.str key) with
    | error e => rw [ho] at h; cases h
    | ok s' => rw [ho] at h; cases h; rfl
  by_cases hk : key ∈ documented
  · obtain ⟨f, hf⟩ := Option.isSome_iff_exists.mp (method_some (R := R) hk)
    rw [one_documented hR ho hk hf] at h
    simp only [documented, List.mem_cons, List.not_mem_nil, or_false] at hk
    rcases hk with rfl | rfl | rfl | rfl | rfl | rfl | rfl
    · obtain rfl : carrierFn = f := Option.some.inj hf
      simp only [fitted, Func.call, carrierFn] at h
      cases h
      cases hc : n.col c "carrier" with
      | none => cases nice <;> simp
      | some vs => cases nice <;> simp [hn c "carrier" vs hc]
    · obtain rfl : busCarrierFn R = f := Option.some.inj hf
      have e : fitted (busCarrierFn R) n c port nice = (busCarrierFn R).body n c (some port) (some nice) := by simp [fitted, Func.call, busCarrierFn]
      rw [e] at h
      simp only [busCarrierFn] at h
      split at h
      · cases h
      · split at h
        · cases h
        · rename_i bs hb
          cases h
          simpa using hn c _ bs hb
    · obtain rfl : nameFn = f := Option.some.inj hf
      simp [fitted, Func.call, nameFn] at h
      rw [← h]
      simp
    · obtain rfl : busFn = f := Option.some.inj hf
      have e : fitted busFn n c port nice = busFn.body n c (some port) none := by simp [fitted, Func.call, busFn]
      rw [e] at h
      simp only [busFn] at h
      split at h
      · cases h
      · rename_i bs hb
        cases h
        exact hn c _ bs hb
    all_goals
      obtain rfl := Option.some.inj hf
      have e : ∀ a, fitted (busAttrFn a) n c port nice = (busAttrFn a).body n c (some port) none := fun a => by simp [fitted, Func.call, busAttrFn]
      rw [e] at h
      simp only [busAttrFn] at h
      split at h
      · cases h
      · rename_i bs hb
        split at h
        · cases h
        · cases h
          simpa using hn c _ bs hb
  · have ha : attr R key = none := by unfold attr; rw [ho, method_none hk]; rfl
    rw [one_str, hR.list, ha] at h
    simp only [Option.isSome_none, Bool.false_and, Bool.false_eq_true, if_false, generic] at h
    split at h
    · cases h
    · rename_i vs hv
      cases h
      exact hn c key vs hv

/-- A list gives one series for each key, in order and with the names of the keys, unless there are own groupers among them. -/
theorem levels (hR : Tame R) (ks : List String) (ho : ∀ k ∈ ks, own R k = none) {b : Option By} (h : grouping R n c port nice (.list (ks.map .str)) = .ok b) :
    ∃ l, b = some (.list l) ∧ l.map (·.name) = ks ∧ ∀ (i : Nat) k s, ks[i]? = some k → l[i]? = some s → grouping R n c port nice (.str k) = .ok (some (.ser s)) := by
  have key : ∀ (ks : List String) (l : List Ser), (∀ k ∈ ks, own R k = none) → each R n c port nice (ks.map .str) = .ok l →
      l.map (·.name) = ks ∧ ∀ (i : Nat) k s, ks[i]? = some k → l[i]? = some s → one R n c port nice (.str k) = .ok s := by
    intro ks
    induction ks with
    | nil =>
      intro l _ h
      cases h
      exact ⟨rfl, fun i k s hk => by simp at hk⟩
    | cons k ks ih =>
      intro l ho h
      simp only [List.map_cons, each] at h
      split at h
      · cases h
      · rename_i s hs
        split at h
        · cases h
        · rename_i l' hl
          cases h
          obtain ⟨h1, h2⟩ := ih l' (fun a ha => ho a (List.mem_cons_of_mem _ ha)) hl
          refine ⟨by rw [List.map_cons, h1, one_name hR (ho k List.mem_cons_self) hs], ?_⟩
          intro i k' s' hk hs'
          cases i with
          | zero =>
            simp at hk hs'
            rw [← hk, ← hs']
            exact hs
          | succ i => exact h2 i k' s' (by simpa using hk) (by simpa using hs')
  simp only [grouping, multi] at h
  cases he : each R n c port nice (ks.map .str) with
  | error e => rw [he] at h; cases h
  | ok l =>
    rw [he] at h
    cases h
    obtain ⟨h1, h2⟩ := key ks l ho he
    exact ⟨l, rfl, h1, fun i k s hk hs => by rw [grouping_str, h2 i k s hk hs]; rfl⟩

/-! ## Other ways to ask -/

/-- `groupers[key]` and `groupers[keys]` group like the key and the keys themselves. -/
theorem subscript_same (s : String) (ks : List Key) :
    (grouping R n c port nice (.str s) ≠ .error .type → grouping R n c port nice (.callable (subscript R (.one (.str s)))) = grouping R n c port nice (.str s)) ∧
    (grouping R n c port nice (.list ks) ≠ .error .type → grouping R n c port nice (.callable (subscript R (.many ks))) = grouping R n c port nice (.list ks)) := by
  have key : ∀ K : Keys, multi R n c port nice K ≠ .error .type → grouping R n c port nice (.callable (subscript R K)) =
      (match multi R n c port nice K with | .ok b => .ok (some b) | .error e => .error e) := by
    intro K hK
    have h : (subscript R K).call n c (some port) (some nice) = multi R n c port nice K := by simp [Callee.call, subscript]
    simp only [grouping, h]
    cases hm : multi R n c port nice K with
    | ok b => rfl
    | error e =>
      cases e with
      | type => exact absurd hm hK
      | _ => rfl
  constructor
  · intro h
    rw [key]
    · rfl
    · intro hm
      exact h (by simp only [grouping, hm])
  · intro h
    rw [key]
    · rfl
    · intro hm
      exact h (by simp only [grouping, hm])

/-- In a list the functions `groupers.x` stand for their names. -/
theorem dot_in_list (hR : Tame R) {key : String} (ho : own R key = none) (hk : key ∈ documented) {f : Func} (hf : attr R key = some f) :
    one R n c port nice (.fn f) = one R n c port nice (.str key) := by
  have : method R key = some f := by unfold attr at hf; rw [ho] at hf; exact hf
  rw [one_documented hR ho hk this]
  rfl

/-- The claim of the user guide: `groupby=groupers.x` is the same as `groupby="x"`. -/
def DotSame : Prop := ∀ (R : Registry) (n : Net) (c : String) (port : Option String) (nice : Bool) (key : String), R = [] → key ∈ documented →
  ∀ f, dot R key = some f → grouping R n c port nice (.callable f) = grouping R n c port nice (.str key)

/-- It holds for `carrier` and `bus_carrier` … -/
theorem dot_same_partial (hR : Tame R) (ho : own R "carrier" = none) (ho' : own R "bus_carrier" = none) {key : String} (hk : key = "carrier" ∨ key = "bus_carrier")
    {f : Callee} (hf : dot R key = some f) : grouping R n c port nice (.callable f) = grouping R n c port nice (.str key) := by
  have hs : selfCarrier R = carrierFn := by unfold selfCarrier; rw [ho]; rfl
  rcases hk with rfl | rfl
  · have ha : attr R "carrier" = some carrierFn := by unfold attr; rw [ho]; rfl
    unfold dot at hf
    rw [ha] at hf
    obtain rfl := Option.some.inj hf
    rw [grouping_str, one_documented hR ho (by decide) (f := carrierFn) rfl]
    simp [grouping, Callee.call, Func.callee, carrierFn, fitted, Func.call, answer]
  · have ha : attr R "bus_carrier" = some (busCarrierFn R) := by unfold attr; rw [ho']; rfl
    unfold dot at hf
    rw [ha] at hf
    obtain rfl := Option.some.inj hf
    rw [grouping_str, one_documented hR ho' (by decide) (f := busCarrierFn R) rfl]
    simp only [grouping, Callee.call, Func.callee, busCarrierFn, hs, carrierFn, fitted, Func.call]
    cases h : n.col c (busCol (some port)) <;> simp [answer, h]

/-- … and all the others raise a `TypeError`, whatever the network: they have no parameter `nice_names`. -/
theorem dot_raises {key : String} (ho : own R key = none) (hk : key ∈ ["name", "bus", "country", "location", "unit"]) :
    ∃ f, dot R key = some f ∧ ∀ n c port nice, grouping R n c port nice (.callable f) = .error .type := by
  have key' : ∀ (f : Func), method R key = some f → f.takesNice = false → ∃ f, dot R key = some f ∧ ∀ n c port nice, grouping R n c port nice (.callable f) = .error .type := by
    intro f hf hn
    refine ⟨f.callee, by unfold dot attr; rw [ho, hf]; rfl, fun n c port nice => ?_⟩
    simp [grouping, Callee.call, Func.callee, hn]
  simp only [List.mem_cons, List.not_mem_nil, or_false] at hk
  rcases hk with rfl | rfl | rfl | rfl | rfl
  · exact key' nameFn rfl rfl
  · exact key' busFn rfl rfl
  · exact key' (busAttrFn "country") rfl rfl
  · exact key' (busAttrFn "location") rfl rfl
  · exact key' (busAttrFn "unit") rfl rfl

theorem not_dot_same : ¬ DotSame := by
  intro h
  obtain ⟨f, hf, he⟩ := dot_raises (R := []) (key := "bus") rfl (by simp)
  have := h [] exNet "Generator" (some "") false "bus" rfl (by simp [documented]) f hf
  rw [he] at this
  revert this
  decide +kernel

/-- What to use instead of the old functions, as their docstrings say (grouping.py 427-532). -/
def advised : List (String × List String) := [("get_bus_and_carrier", ["bus", "carrier"]), ("get_bus_unit_and_carrier", ["bus", "unit", "carrier"]),
  ("get_name_bus_and_carrier", ["name", "bus", "carrier"]), ("get_country_and_carrier", ["country", "carrier"]),
  ("get_bus_and_carrier_and_bus_carrier", ["bus", "carrier", "bus_carrier"]), ("get_carrier_and_bus_carrier", ["carrier", "bus_carrier"])]

/-- The old functions for several groupers are the new lists … -/
theorem old_same : ∀ e ∈ advised, ∃ f, old R e.1 = some f ∧ (grouping R n c port nice (.list (e.2.map .str)) ≠ .error .type →
    grouping R n c port nice (.callable f) = grouping R n c port nice (.list (e.2.map .str))) := by
  intro e he
  refine ⟨subscript R (.many (e.2.map .str)), ?_, fun h => (subscript_same "" _).2 h⟩
  simp only [advised, List.mem_cons, List.not_mem_nil, or_false] at he
  rcases he with rfl | rfl | rfl | rfl | rfl | rfl <;> rfl

/-- … those for one grouper are the functions of that name … -/
theorem old_one : ∀ key ∈ ["carrier", "bus_carrier", "bus", "country", "unit", "name"], old R ("get_" ++ key) = dot R key := by
  intro key h
  simp only [List.mem_cons, List.not_mem_nil, or_false] at h
  rcases h with rfl | rfl | rfl | rfl | rfl | rfl <;> rfl

/-- … but of those for one grouper only `get_carrier` and `get_bus_carrier` still work. -/
theorem old_raises : ∀ name ∈ ["get_bus", "get_country", "get_unit", "get_name"],
    ∃ f, old [] name = some f ∧ ∀ n c port nice, grouping [] n c port nice (.callable f) = .error .type := by
  intro name h
  simp only [List.mem_cons, List.not_mem_nil, or_false] at h
  rcases h with rfl | rfl | rfl | rfl
  · exact dot_raises (R := []) (key := "bus") rfl (by simp)
  · exact dot_raises (R := []) (key := "country") rfl (by simp)
  · exact dot_raises (R := []) (key := "unit") rfl (by simp)
  · exact dot_raises (R := []) (key := "name") rfl (by simp)

/-- A tuple is refused, although `groupers["bus", "carrier"]` gets one. -/
theorem tuple_refused (ks : List Key) : grouping R n c port nice (.tuple ks) = .error .value := rfl

/-! ## Examples -/

/-- The country of the generator's bus, not the column of the generator. -/
example : grouping [] exNet "Generator" (some "") false (.str "country") = .ok (some (.ser ⟨"country", [some "DE"]⟩)) := by decide +kernel

example : grouping [] exNet "Generator" (some "") true (.list [.str "bus_carrier", .str "carrier", .str "zone"]) =
    .ok (some (.list [⟨"bus_carrier", [some "AC"]⟩, ⟨"carrier", [some "Wind"]⟩, ⟨"zone", [some "north"]⟩])) := by decide +kernel

example := label_attr (R := []) (n := exNet) (c := "Generator") (nice := false) ⟨rfl, rfl⟩ (key := "country") rfl (Or.inl rfl) (by decide +kernel) (p := "")
  (bs := [some "b"]) (ls := [some "FR", some "DE"]) (by decide +kernel) (by decide +kernel)

example := own_found (n := exNet) (c := "Generator") (port := some "") (nice := true) (l := [("area", carrierFn), ("zone", exAll), ("area", exAll)]) (name := "area") (f := exAll)
  (by unfold Usable; decide +kernel) rfl (r := .ok ⟨"carrier", [some "all"]⟩) (Or.inr (Or.inr (Or.inl ⟨rfl, rfl, by decide +kernel⟩)))

example : grouping [("_zone", exAll)] exNet "Generator" (some "") false (.str "_zone") = .error .value := by decide +kernel

end Verif.Stats.Groupers
