import Verif.Opt.Duals
import Verif.Opt.WholeExample

/-!
# C112: where shadow prices are found

With `assign_all_duals` the shadow price of a limit is found at `mu_upper` or `mu_lower` of the asset, except for storage
units, where the limits of dispatch, charging and state of charge share these columns.  Without `assign_all_duals` only
prices and the shadow prices of global constraints are found, although the attributes are documented.
-/

namespace Verif.Opt.Duals

variable {F : Type} [Zero F]

/-- The constraint belongs to class `c` and its name ends in `spec`. -/
def Ends (k : DualCon F) (c spec : Name) : Prop :=
  k.timed = true ∧ ∃ r : List Name, k.name = c :: r ∧ r.getLast? = some spec

theorem step_classes (all : Bool) (sns : List Nat) (n : Net F) (k : DualCon F) :
    (step all sns n k).classes = n.classes ∧ (step all sns n k).static = n.static := by
  unfold step setFrame
  split
  · split
    · split
      · split
        · exact ⟨rfl, rfl⟩
        · split <;> exact ⟨rfl, rfl⟩
      · exact ⟨rfl, rfl⟩
    · split <;> exact ⟨rfl, rfl⟩
  · exact ⟨rfl, rfl⟩

theorem fold_classes (all : Bool) (sns : List Nat) (cons : List (DualCon F)) : ∀ n : Net F,
    (cons.foldl (step all sns) n).classes = n.classes ∧ (cons.foldl (step all sns) n).static = n.static := by
  induction cons with
  | nil => exact fun n => ⟨rfl, rfl⟩
  | cons k ks ih =>
    intro n
    obtain ⟨h1, h2⟩ := ih (step all sns n k)
    obtain ⟨h3, h4⟩ := step_classes all sns n k
    exact ⟨h1.trans h3, h2.trans h4⟩

/-- A constraint leaves what does not carry its name. -/
theorem step_other (all : Bool) (sns : List Nat) (n : Net F) (k : DualCon F) (c spec col : Name) (t : Nat)
    (h : Ends k c spec → col ∉ k.cols) : (step all sns n k).series c (.mu spec) col t = n.series c (.mu spec) col t := by
  unfold step
  split
  · rename_i c' s r hname
    split
    · rename_i ht
      split
      · split
        · simp [setFrame]
        · split
          · simp only [setFrame, Attr.mu.injEq]
            rw [if_neg]
            rintro ⟨rfl, h2, h3, -⟩
            refine h ⟨ht, s :: r, hname, ?_⟩ h3
            rw [List.getLast?_eq_some_getLast (by simp), h2]
          · rfl
      · rfl
    · split <;> rfl
  · rfl

theorem fold_other (all : Bool) (sns : List Nat) (c spec col : Name) (t : Nat) (cons : List (DualCon F)) :
    ∀ n : Net F, (∀ k ∈ cons, Ends k c spec → col ∉ k.cols) →
      (cons.foldl (step all sns) n).series c (.mu spec) col t = n.series c (.mu spec) col t := by
  induction cons with
  | nil => exact fun n _ => rfl
  | cons k ks ih =>
    intro n h
    rw [List.foldl_cons, ih _ (fun k' hk' => h k' (List.mem_cons_of_mem _ hk'))]
    exact step_other all sns n k c spec col t (h k List.mem_cons_self)

theorem step_own (all : Bool) (sns : List Nat) (n : Net F) (k : DualCon F) (c spec col : Name) (t : Nat) (hk : Ends k c spec)
    (hc : c ∈ n.classes) (hb : isBalance spec = false) (ha : all = true ∨ Attr.mu spec ∈ n.static c) (hcol : col ∈ k.cols)
    (ht : t ∈ sns) : (step all sns n k).series c (.mu spec) col t = (k.dual col t).getD 0 := by
  obtain ⟨h1, r, h2, h3⟩ := hk
  cases r with
  | nil => simp at h3
  | cons s r =>
    have h4 : (s :: r).getLast (by simp) = spec := by
      rw [List.getLast?_eq_some_getLast (by simp)] at h3
      exact Option.some.inj h3
    have h5 : (all || decide (Attr.mu spec ∈ n.static c)) = true := by simpa using ha
    unfold step
    rw [h2]
    simp only [h1, if_true, hc, h4, hb, Bool.false_eq_true, if_false, h5, setFrame, hcol, ht, and_self]

/-- The shadow price of a constraint is found at its class, under the last part of its name, unless a later constraint
of that class has the same last part and the same asset. -/
theorem dual_recorded (all : Bool) (sns : List Nat) (n : Net F) (pre post : List (DualCon F)) (k : DualCon F)
    (c spec col : Name) (t : Nat) (hk : Ends k c spec) (hc : c ∈ n.classes) (hb : isBalance spec = false)
    (ha : all = true ∨ Attr.mu spec ∈ n.static c) (hcol : col ∈ k.cols) (ht : t ∈ sns)
    (hpost : ∀ k' ∈ post, Ends k' c spec → col ∉ k'.cols) :
    (assignDuals true all sns n (pre ++ k :: post)).series c (.mu spec) col t = (k.dual col t).getD 0 := by
  unfold assignDuals
  rw [if_pos rfl, List.foldl_append, List.foldl_cons, fold_other all sns c spec col t post _ hpost]
  obtain ⟨h1, h2⟩ := fold_classes all sns pre n
  exact step_own all sns _ k c spec col t hk (h1 ▸ hc) hb (h2 ▸ ha) hcol ht

example : (assignDuals true true [0] (⟨["Store"], fun _ => [], fun _ _ _ _ => 0, []⟩ : Net Int)
    ([] ++ ⟨["Store", "energy_balance"], true, ["tank"], fun _ _ => some 3, 0⟩ :: [])).series "Store" (.mu "energy_balance") "tank" 0 = 3 :=
  dual_recorded true [0] _ [] [] _ "Store" "energy_balance" "tank" 0 ⟨rfl, _, rfl, rfl⟩ (by simp) (by decide +kernel) (Or.inl rfl)
    (by simp) (by simp) (fun k h => by cases h)

/-- A side of the limits. -/
def Side (spec : Name) : Prop := spec = "lower" ∨ spec = "upper"

theorem side_not_balance {spec : Name} (h : Side spec) : isBalance spec = false := by
  rcases h with rfl | rfl <;> decide +kernel

theorem pair_ends (c kind attr : Name) (assets : List Asset) (d : Name → Name → Name → Nat → Option F) (k : DualCon F)
    (hk : k ∈ pair c kind attr assets d) {c' spec : Name} (h : Ends k c' spec) : k.cols = assets.map (·.name) := by
  unfold pair at hk
  split at hk
  · cases hk
  · simp only [List.mem_cons, List.not_mem_nil, or_false] at hk
    rcases hk with rfl | rfl <;> rfl

/-- The limits of one kind are found. -/
theorem pair_recorded (sns : List Nat) (n : Net F) (pre post : List (DualCon F)) (c kind attr : Name) (assets : List Asset)
    (d : Name → Name → Name → Nat → Option F) (spec : Name) (hs : Side spec) (a : Asset) (ha : a ∈ assets) (t : Nat)
    (ht : t ∈ sns) (hc : c ∈ n.classes) (hpost : ∀ k' ∈ post, Ends k' c spec → a.name ∉ k'.cols) :
    (assignDuals true true sns n (pre ++ pair c kind attr assets d ++ post)).series c (.mu spec) a.name t =
      (d attr spec a.name t).getD 0 := by
  have hne : assets ≠ [] := fun h => by simp [h] at ha
  have hmem : a.name ∈ assets.map (·.name) := List.mem_map.mpr ⟨a, ha, rfl⟩
  unfold pair
  rw [if_neg hne]
  rcases hs with rfl | rfl
  · rw [List.append_assoc]
    refine dual_recorded true sns n pre _ ⟨[c, kind, attr, "lower"], true, assets.map (·.name), fun a t => d attr "lower" a t, 0⟩ c
      "lower" a.name t ⟨rfl, _, rfl, rfl⟩ hc (side_not_balance (Or.inl rfl)) (Or.inl rfl) hmem ht ?_
    intro k' hk'
    rcases List.mem_cons.mp hk' with rfl | hk'
    · rintro ⟨-, r, h1, h2⟩
      injection h1 with _ h1
      subst h1
      simp at h2
    · exact hpost k' hk'
  · have : pre ++ [⟨[c, kind, attr, "lower"], true, assets.map (·.name), fun a t => d attr "lower" a t, 0⟩,
        ⟨[c, kind, attr, "upper"], true, assets.map (·.name), fun a t => d attr "upper" a t, 0⟩] ++ post =
      (pre ++ [⟨[c, kind, attr, "lower"], true, assets.map (·.name), fun a t => d attr "lower" a t, 0⟩]) ++
        (⟨[c, kind, attr, "upper"], true, assets.map (·.name), fun a t => d attr "upper" a t, 0⟩ : DualCon F) :: post := by simp
    rw [this]
    exact dual_recorded true sns n _ post _ c "upper" a.name t ⟨rfl, _, rfl, rfl⟩ hc (side_not_balance (Or.inr rfl)) (Or.inl rfl)
      hmem ht hpost

/-- C112: with `assign_all_duals` and one operational variable per class (all classes but storage units), the shadow price
of each limit of each asset is found.  `pre` and `post` are the other constraints; none of them is a limit of that class. -/
theorem limits_recorded_partial (sns : List Nat) (n : Net F) (pre post : List (DualCon F)) (c attr : Name) (assets : List Asset)
    (hn : (assets.map (·.name)).Nodup) (d : Name → Name → Name → Nat → Option F) (more : Name → List (DualCon F)) (spec : Name)
    (hs : Side spec) (a : Asset) (ha : a ∈ assets) (hone : ¬ (a.ext = true ∧ a.com = true)) (t : Nat) (ht : t ∈ sns)
    (hc : c ∈ n.classes) (hmore : ∀ k' ∈ more attr, ¬ Ends k' c spec) (hpost : ∀ k' ∈ post, ¬ Ends k' c spec) :
    (assignDuals true true sns n (pre ++ limitCons c [attr] assets d more ++ post)).series c (.mu spec) a.name t =
      (d attr spec a.name t).getD 0 := by
  have hother : ∀ (p : Asset → Bool), p a = false → a.name ∉ (assets.filter p).map (·.name) := by
    intro p hp h
    obtain ⟨b, hb, he⟩ := List.mem_map.mp h
    obtain ⟨hb1, hb2⟩ := List.mem_filter.mp hb
    have := List.inj_on_of_nodup_map hn hb1 ha he
    rw [this, hp] at hb2
    cases hb2
  have hrest : ∀ k' ∈ more attr ++ post, Ends k' c spec → a.name ∉ k'.cols := by
    intro k' hk' h
    rcases List.mem_append.mp hk' with h' | h'
    · exact absurd h (hmore k' h')
    · exact absurd h (hpost k' h')
  have hpair : ∀ (kind : Name) (p : Asset → Bool), p a = false → ∀ k' ∈ pair c kind attr (assets.filter p) d, Ends k' c spec →
      a.name ∉ k'.cols := by
    intro kind p hp k' hk' h
    rw [pair_ends c kind attr _ d k' hk' h]
    exact hother p hp
  simp only [limitCons, List.flatMap_cons, List.flatMap_nil, List.append_nil]
  by_cases he : a.ext = true
  · have hcm : a.com = false := by
      cases h : a.com with
      | false => rfl
      | true => exact absurd ⟨he, h⟩ hone
    have e : pre ++ (pair c "fix" attr (assets.filter (fun a => !a.ext && !a.com)) d ++ pair c "ext" attr (assets.filter (fun a => a.ext)) d ++
        pair c "com" attr (assets.filter (fun a => a.com)) d ++ more attr) ++ post =
      (pre ++ pair c "fix" attr (assets.filter (fun a => !a.ext && !a.com)) d) ++ pair c "ext" attr (assets.filter (fun a => a.ext)) d ++
        (pair c "com" attr (assets.filter (fun a => a.com)) d ++ (more attr ++ post)) := by simp
    rw [e]
    refine pair_recorded sns n _ _ c "ext" attr _ d spec hs a (List.mem_filter.mpr ⟨ha, he⟩) t ht hc ?_
    intro k' hk'
    rcases List.mem_append.mp hk' with h' | h'
    · exact hpair _ _ hcm k' h'
    · exact hrest k' h'
  · have he' : a.ext = false := by simpa using he
    by_cases hcm : a.com = true
    · have e : pre ++ (pair c "fix" attr (assets.filter (fun a => !a.ext && !a.com)) d ++ pair c "ext" attr (assets.filter (fun a => a.ext)) d ++
          pair c "com" attr (assets.filter (fun a => a.com)) d ++ more attr) ++ post =
        (pre ++ pair c "fix" attr (assets.filter (fun a => !a.ext && !a.com)) d ++ pair c "ext" attr (assets.filter (fun a => a.ext)) d) ++
          pair c "com" attr (assets.filter (fun a => a.com)) d ++ (more attr ++ post) := by simp
      rw [e]
      exact pair_recorded sns n _ _ c "com" attr _ d spec hs a (List.mem_filter.mpr ⟨ha, hcm⟩) t ht hc hrest
    · have hcm' : a.com = false := by simpa using hcm
      have e : pre ++ (pair c "fix" attr (assets.filter (fun a => !a.ext && !a.com)) d ++ pair c "ext" attr (assets.filter (fun a => a.ext)) d ++
          pair c "com" attr (assets.filter (fun a => a.com)) d ++ more attr) ++ post =
        pre ++ pair c "fix" attr (assets.filter (fun a => !a.ext && !a.com)) d ++ (pair c "ext" attr (assets.filter (fun a => a.ext)) d ++
          (pair c "com" attr (assets.filter (fun a => a.com)) d ++ (more attr ++ post))) := by simp
      rw [e]
      refine pair_recorded sns n _ _ c "fix" attr _ d spec hs a (List.mem_filter.mpr ⟨ha, by simp [he', hcm']⟩) t ht hc ?_
      intro k' hk'
      rcases List.mem_append.mp hk' with h' | h'
      · exact hpair _ _ he' k' h'
      · rcases List.mem_append.mp h' with h'' | h''
        · exact hpair _ _ hcm' k' h''
        · exact hrest k' h''

section examples

def exClasses : List Name := ["Bus", "Generator", "StorageUnit", "GlobalConstraint"]

/-- A network as created: no static column begins with `mu_`. -/
def exDual : Net ℚ := ⟨exClasses, fun _ => [], fun _ _ _ _ => 0, [("co2", none)]⟩

def exAssets : List Asset := [⟨"wind", true, false⟩, ⟨"gas", false, false⟩, ⟨"coal", false, true⟩]

/-- Some duals that tell the limits apart. -/
def exD (attr spec asset : Name) (t : Nat) : Option ℚ :=
  some (- ((if attr = "state_of_charge" then 10 else 20) + (if spec = "upper" then 1 else 2) + (if asset = "gas" then 100 else 0) + t))

example : (assignDuals true true [0, 1] exDual ([⟨["Bus", "nodal_balance"], true, ["A"], fun _ _ => some 5, 0⟩] ++
    limitCons "Generator" ["p"] exAssets exD (fun _ => []) ++ [])).series "Generator" (.mu "upper") "gas" 1 = -122 :=
  (limits_recorded_partial [0, 1] exDual _ [] "Generator" "p" exAssets (by decide) exD (fun _ => []) "upper" (Or.inr rfl)
    ⟨"gas", false, false⟩ (by simp [exAssets]) (by simp) 1 (by simp) (by simp [exDual, exClasses]) (fun k h => by cases h)
    (fun k h => by cases h)).trans (by decide +kernel)

/-- C112 is false for storage units: the shadow price at `mu_upper`, documented as that of the `p_nom` limit, is that of the
limit of the state of charge. -/
theorem unit_limit_overwritten : (assignDuals true true [0, 1] exDual
    (limitCons "StorageUnit" ["p_dispatch", "p_store", "state_of_charge"] exAssets exD (fun _ => []))).series "StorageUnit"
      (.mu "upper") "gas" 1 = (exD "state_of_charge" "upper" "gas" 1).getD 0 ∧
    exD "state_of_charge" "upper" "gas" 1 ≠ exD "p_dispatch" "upper" "gas" 1 := by decide +kernel

end examples

/-- For all storage units: what is found is the shadow price of the limit of the state of charge. -/
theorem unit_limits (sns : List Nat) (n : Net F) (assets : List Asset) (hn : (assets.map (·.name)).Nodup)
    (d : Name → Name → Name → Nat → Option F) (more : Name → List (DualCon F)) (spec : Name)
    (hs : Side spec) (a : Asset) (ha : a ∈ assets) (hcom : a.com = false) (t : Nat) (ht : t ∈ sns)
    (hc : "StorageUnit" ∈ n.classes) (hmore : ∀ attr, ∀ k' ∈ more attr, ¬ Ends k' "StorageUnit" spec) :
    (assignDuals true true sns n (limitCons "StorageUnit" ["p_dispatch", "p_store", "state_of_charge"] assets d more)).series
      "StorageUnit" (.mu spec) a.name t = (d "state_of_charge" spec a.name t).getD 0 := by
  have h := limits_recorded_partial sns n (limitCons "StorageUnit" ["p_dispatch", "p_store"] assets d more) [] "StorageUnit"
    "state_of_charge" assets hn d more spec hs a ha (by simp [hcom]) t ht hc (hmore _) (by simp)
  rw [← h]
  simp [limitCons]

example : (assignDuals true true [0, 1] exDual (limitCons "StorageUnit" ["p_dispatch", "p_store", "state_of_charge"] exAssets exD
    (fun _ => []))).series "StorageUnit" (.mu "lower") "gas" 0 = -112 :=
  (unit_limits [0, 1] exDual exAssets (by decide) exD (fun _ => []) "lower" (Or.inl rfl) ⟨"gas", false, false⟩ (by simp [exAssets])
    rfl 0 (by simp) (by simp [exDual, exClasses]) (fun _ k h => by cases h)).trans (by decide +kernel)

/-- C112 is false without `assign_all_duals`: no shadow price of a limit is found, as the columns are time series and
not static ones. -/
theorem limits_not_recorded (sns : List Nat) (available : Bool) (n : Net F) (cons : List (DualCon F)) (c spec col : Name) (t : Nat)
    (hs : Attr.mu spec ∉ n.static c) :
    (assignDuals available false sns n cons).series c (.mu spec) col t = n.series c (.mu spec) col t := by
  unfold assignDuals
  split
  · induction cons generalizing n with
    | nil => rfl
    | cons k ks ih =>
      rw [List.foldl_cons, ih _ (by rw [(step_classes false sns n k).2]; exact hs)]
      unfold step
      split
      · split
        · split
          · split
            · simp [setFrame]
            · split
              · rename_i c' s r hname _ _ _ h
                simp only [setFrame, Attr.mu.injEq]
                rw [if_neg]
                rintro ⟨rfl, h2, -⟩
                rw [← h2] at h
                simp [hs] at h
              · rfl
          · rfl
        · split <;> rfl
      · rfl
  · rfl

example : (assignDuals true false [0, 1] exDual (limitCons "Generator" ["p"] exAssets exD (fun _ => []))).series "Generator"
    (.mu "upper") "gas" 1 = 0 ∧ (exD "p" "upper" "gas" 1).getD 0 = -122 :=
  ⟨limits_not_recorded [0, 1] true exDual _ "Generator" "upper" "gas" 1 (by simp [exDual]), by decide +kernel⟩

/-! ## Prices -/

/-- A balance of class `c`: its name ends in `nodal_balance`. -/
def Balance (k : DualCon F) (c : Name) : Prop :=
  k.timed = true ∧ ∃ (r : List Name) (s : Name) (l : List Char), k.name = c :: (r ++ [s]) ∧ s.toList = l ++ "nodal_balance".toList

theorem isBalance_iff (s : Name) : isBalance s = true ↔ ∃ l : List Char, s.toList = l ++ "nodal_balance".toList := by
  unfold isBalance
  rw [List.isSuffixOf_iff_suffix]
  exact ⟨fun ⟨l, h⟩ => ⟨l, h.symm⟩, fun ⟨l, h⟩ => ⟨l, h.symm⟩⟩

theorem step_price_other (all : Bool) (sns : List Nat) (n : Net F) (k : DualCon F) (c col : Name) (t : Nat)
    (h : Balance k c → col ∉ k.cols) : (step all sns n k).series c .price col t = n.series c .price col t := by
  unfold step
  split
  · rename_i c' s r hname
    split
    · rename_i ht
      split
      · split
        · rename_i hb
          simp only [setFrame]
          rw [if_neg]
          rintro ⟨rfl, -, h3, -⟩
          obtain ⟨l, hl⟩ := (isBalance_iff _).mp hb
          exact h ⟨ht, (s :: r).dropLast, (s :: r).getLast (by simp), l, by rw [hname, List.dropLast_append_getLast], hl⟩ h3
        · split
          · simp [setFrame]
          · rfl
      · rfl
    · split <;> rfl
  · rfl

/-- C112 for prices: with or without `assign_all_duals` the dual of the balance of a bus is its `marginal_price`, unless
a later balance has the same bus; a masked row gives 0. -/
theorem price_recorded (all : Bool) (sns : List Nat) (n : Net F) (pre post : List (DualCon F)) (k : DualCon F) (c col : Name)
    (t : Nat) (hk : Balance k c) (hc : c ∈ n.classes) (hcol : col ∈ k.cols) (ht : t ∈ sns)
    (hpost : ∀ k' ∈ post, Balance k' c → col ∉ k'.cols) :
    (assignDuals true all sns n (pre ++ k :: post)).series c .price col t = (k.dual col t).getD 0 := by
  unfold assignDuals
  rw [if_pos rfl, List.foldl_append, List.foldl_cons]
  have hkeep : ∀ (l : List (DualCon F)) (n : Net F), (∀ k' ∈ l, Balance k' c → col ∉ k'.cols) →
      (l.foldl (step all sns) n).series c .price col t = n.series c .price col t := by
    intro l
    induction l with
    | nil => exact fun n _ => rfl
    | cons k ks ih =>
      intro n h
      rw [List.foldl_cons, ih _ (fun k' hk' => h k' (List.mem_cons_of_mem _ hk')), step_price_other all sns n k c col t (h k List.mem_cons_self)]
  rw [hkeep post _ hpost]
  have hcl := (fold_classes all sns pre n).1
  generalize pre.foldl (step all sns) n = m at hcl ⊢
  obtain ⟨h1, r, s, l, h2, h3⟩ := hk
  obtain ⟨a, b, hab⟩ : ∃ a b, r ++ [s] = a :: b := by cases r <;> simp
  have hlast : (a :: b).getLast (by simp) = s := by simp only [← hab, List.getLast_append_singleton]
  have hbal : isBalance s = true := (isBalance_iff s).mpr ⟨l, h3⟩
  unfold step
  rw [h2, hab]
  simp only [h1, if_true, hcl, hc, hlast, hbal, setFrame, hcol, ht, and_self]

/-- The price at a bus of the part of the network that is treated as weakly meshed. -/
example : (assignDuals true false [0, 1] exDual ([⟨["Bus", "nodal_balance"], true, ["A"], fun _ _ => some 5, 0⟩] ++
    ⟨["Bus", "meshed", "nodal_balance"], true, ["B"], fun _ t => some (t + 3 : ℚ), 0⟩ :: [])).series "Bus" .price "B" 1 = 4 :=
  (price_recorded false [0, 1] exDual _ [] _ "Bus" "B" 1 ⟨rfl, ["meshed"], "nodal_balance", [], rfl, rfl⟩
    (by simp [exDual, exClasses]) (by simp) (by simp) (fun k h => by cases h)).trans (by decide +kernel)

/-! ## Global constraints -/

/-- Shadow price of a global constraint in its table. -/
def globalMu (n : Net F) (name : Name) : Option F := ((n.globals.find? (fun e => e.1 = name)).map (·.2)).getD none

theorem find_set (g : List (Name × Option F)) (name other : Name) (x : F) :
    (((setGlobal g name x).find? (fun e => e.1 = other)).map (·.2)).getD none =
      if other = name then some x else ((g.find? (fun e => e.1 = other)).map (·.2)).getD none := by
  unfold setGlobal
  split
  · rename_i h
    induction g with
    | nil => simp at h
    | cons e g ih =>
      by_cases he : e.1 = name
      · by_cases ho : other = name
        · subst ho
          simp [he]
        · have hne : ¬ name = other := fun h => ho h.symm
          by_cases hg : name ∈ g.map (·.1)
          · have := ih hg
            simp only [ho, if_false] at this ⊢
            simp only [List.map_cons, he, if_true, List.find?_cons, hne, decide_false]
            exact this
          · have hid : g.map (fun e => if e.1 = name then (name, some x) else e) = g := by
              conv_rhs => rw [← List.map_id g]
              apply List.map_congr_left
              intro a ha
              have hna : ¬ a.1 = name := fun h => hg (List.mem_map.mpr ⟨a, ha, h⟩)
              rw [if_neg hna]
              rfl
            simp [he, hid, hne, ho]
      · by_cases ho : e.1 = other
        · subst ho
          simp [he]
        · have hg : name ∈ g.map (·.1) := by
            simp only [List.map_cons, List.mem_cons] at h
            rcases h with h | h
            · exact absurd h.symm he
            · exact h
          have := ih hg
          simp only [List.map_cons, he, if_false, List.find?_cons, ho, decide_false]
          exact this
  · rename_i h
    by_cases ho : other = name
    · subst ho
      have : g.find? (fun e => e.1 = other) = none := by
        rw [List.find?_eq_none]
        intro a ha hh
        exact h (by simpa using ⟨a.2, by simpa [← (of_decide_eq_true hh)] using ha⟩)
      simp [List.find?_append, this]
    · have hne : ¬ name = other := fun h => ho h.symm
      simp [List.find?_append, hne, ho]

/-- The constraint of a global constraint with this name. -/
def OfGlobal (k : DualCon F) (name : Name) : Prop :=
  k.timed = false ∧ ∃ r : List Name, r ≠ [] ∧ k.name = "GlobalConstraint" :: r ∧ "-".intercalate r = name

theorem step_index (all : Bool) (sns : List Nat) (n : Net F) (k : DualCon F) (name : Name) (h : name ∈ n.globals.map (·.1)) :
    name ∈ (step all sns n k).globals.map (·.1) := by
  unfold step setFrame
  split
  · split
    · split
      · split
        · exact h
        · split <;> exact h
      · exact h
    · split
      · simp only [setGlobal]
        split
        · rw [List.map_map]
          obtain ⟨e, he, rfl⟩ := List.mem_map.mp h
          refine List.mem_map.mpr ⟨e, he, ?_⟩
          simp only [Function.comp]
          split
          · rename_i h'
            exact h'.symm
          · rfl
        · simp only [List.map_append, List.mem_append]
          exact Or.inl h
      · exact h
  · exact h

theorem step_global (all : Bool) (sns : List Nat) (n : Net F) (k : DualCon F) (name : Name) (h : ¬ OfGlobal k name) :
    globalMu (step all sns n k) name = globalMu n name := by
  unfold step setFrame
  split
  · rename_i c s r hname
    split
    · split
      · split
        · rfl
        · split <;> rfl
      · rfl
    · rename_i ht
      split
      · rename_i hg
        simp only [Bool.and_eq_true, decide_eq_true_eq] at hg
        unfold globalMu
        rw [find_set, if_neg]
        rintro rfl
        exact h ⟨by simpa using ht, s :: r, by simp, by rw [hname, hg.1], rfl⟩
      · rfl
  · rfl

/-- C112 for global constraints: with or without `assign_all_duals` the shadow price of each global constraint is found;
with `assign_all_duals` also that of a constraint which has no row yet. -/
theorem global_recorded (all : Bool) (sns : List Nat) (n : Net F) (pre post : List (DualCon F)) (k : DualCon F) (name : Name)
    (hk : OfGlobal k name) (hn : all = true ∨ name ∈ n.globals.map (·.1)) (hpost : ∀ k' ∈ post, ¬ OfGlobal k' name) :
    globalMu (assignDuals true all sns n (pre ++ k :: post)) name = some k.scalar := by
  unfold assignDuals
  rw [if_pos rfl, List.foldl_append, List.foldl_cons]
  have hkeep : ∀ (l : List (DualCon F)) (n : Net F), (∀ k' ∈ l, ¬ OfGlobal k' name) →
      globalMu (l.foldl (step all sns) n) name = globalMu n name := by
    intro l
    induction l with
    | nil => exact fun n _ => rfl
    | cons k ks ih =>
      intro n h
      rw [List.foldl_cons, ih _ (fun k' hk' => h k' (List.mem_cons_of_mem _ hk')), step_global all sns n k name (h k List.mem_cons_self)]
  have hidx : ∀ (l : List (DualCon F)) (n : Net F), name ∈ n.globals.map (·.1) →
      name ∈ (l.foldl (step all sns) n).globals.map (·.1) := by
    intro l
    induction l with
    | nil => exact fun n h => h
    | cons k ks ih => exact fun n h => ih _ (step_index all sns n k name h)
  rw [hkeep post _ hpost]
  obtain ⟨h1, r, h2, h3, rfl⟩ := hk
  have hi : all = true ∨ "-".intercalate r ∈ (pre.foldl (step all sns) n).globals.map (·.1) := hn.imp_right (hidx pre n)
  generalize pre.foldl (step all sns) n = m at hi ⊢
  cases r with
  | nil => exact absurd rfl h2
  | cons s r =>
    unfold step
    rw [h3]
    have hi' : (all || decide (joined (s :: r) ∈ m.globals.map (·.1))) = true := by unfold joined; simpa using hi
    simp only [h1, Bool.false_eq_true, if_false, decide_true, Bool.true_and, hi', if_true]
    unfold globalMu
    rw [find_set]
    exact if_pos rfl

example : globalMu (assignDuals true false [0, 1] exDual ([⟨["Bus", "nodal_balance"], true, ["A"], fun _ _ => some 5, 0⟩] ++
    ⟨["GlobalConstraint", "co2"], false, [], fun _ _ => none, -7⟩ :: [])) "co2" = some (-7) :=
  global_recorded false [0, 1] exDual _ [] _ "co2" ⟨rfl, _, by simp, rfl, by decide +kernel⟩ (Or.inr (by simp [exDual])) (fun k h => by cases h)

example : globalMu (assignDuals true true [0, 1] exDual ([] ++ ⟨["GlobalConstraint", "mine"], false, [], fun _ _ => none, -7⟩ :: []))
    "mine" = some (-7) :=
  global_recorded true [0, 1] exDual _ [] _ "mine" ⟨rfl, _, by simp, rfl, by decide +kernel⟩ (Or.inl rfl) (fun k h => by cases h)

/-! ## Signs -/

/-- The documentation calls `mu_upper` of lines, links and transformers "always non-negative".  At every optimum the shadow
price of an upper limit is not positive. -/
theorem upper_not_positive {F : Type} [Field F] [LinearOrder F] {P : Whole.Program F} {val : Whole.WVar → F} {lam : Name → Nat → F}
    {mu : List F} (hs : Whole.Solved P val lam mu) (r : Con Whole.WVar F × F) (hr : r ∈ P.rows.zip mu) (hle : r.1.sense = .le) :
    r.2 ≤ 0 :=
  hs.answer.upper r (List.mem_append.mpr (Or.inr hr)) hle

example (r : Con Whole.WVar ℚ × ℚ) (hr : r ∈ Whole.exModel.rows.zip Whole.exMu) (hle : r.1.sense = .le) : r.2 ≤ 0 :=
  upper_not_positive Whole.exSolved r hr hle

/-- At the optimum of the example network the shadow price of the upper limit of the line is negative. -/
theorem upper_negative : ∃ r ∈ Whole.exModel.rows.zip Whole.exMu,
    r.1 = ⟨[(1, .of "Line" "line" (.op "s" 1)), (-1, .of "Line" "line" .cap)], .le, 0⟩ ∧ r.2 < 0 := by decide +kernel

end Verif.Opt.Duals
