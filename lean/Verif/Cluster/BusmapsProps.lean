import Verif.Cluster.Busmaps
import Verif.Cluster.NetworkProps
import Verif.Graph.Props
import Mathlib.Tactic.Linarith
import Mathlib.Data.Rat.Floor

/-!
# C134: busmaps made by clustering methods
-/

namespace Verif.Cluster.Busmaps

variable {F : Type}

/-! ## k-means -/

/-- `n` is what is left of the weight `q` without its fraction. -/
def WholePart (q : ℚ) (n : Nat) : Prop := -1 < q ∧ q < (n : ℚ) + 1 ∧ ((n : ℚ) ≤ q ∨ n = 0)

theorem tdiv_nonneg_iff (q : ℚ) : 0 ≤ truncate q ↔ -1 < q := by
  unfold truncate
  have hd : (0 : Int) < q.den := by exact_mod_cast q.den_pos
  have hq : (q : ℚ) = (q.num : ℚ) / (q.den : ℚ) := (Rat.num_div_den q).symm
  have hdq : (0 : ℚ) < (q.den : ℚ) := by exact_mod_cast q.den_pos
  have e : -1 < q ↔ - (q.den : Int) < q.num := by
    conv_lhs => rw [hq]
    rw [lt_div_iff₀ hdq]
    constructor
    · intro h; have : (-(q.den : ℚ)) < q.num := by linarith
      exact_mod_cast this
    · intro h; have : (-(q.den : ℚ)) < q.num := by exact_mod_cast h
      linarith
  rw [e]
  rcases le_or_gt 0 q.num with h | h
  · exact ⟨fun _ => by omega, fun _ => Int.tdiv_nonneg h hd.le⟩
  · obtain ⟨m, hm⟩ : ∃ m : Int, q.num = -m := ⟨-q.num, by omega⟩
    rw [hm, Int.neg_tdiv]
    have hm0 : 0 < m := by omega
    rw [Int.tdiv_eq_ediv_of_nonneg hm0.le]
    constructor
    · intro h1
      have h2 : m / (q.den : Int) ≤ 0 := by omega
      have := Int.lt_mul_ediv_self_add (x := m) (k := (q.den : Int)) hd
      nlinarith
    · intro h1
      have : m / (q.den : Int) = 0 := Int.ediv_eq_zero_of_lt hm0.le (by omega)
      omega

theorem truncate_iff (q : ℚ) (n : Nat) : (0 ≤ truncate q ∧ (truncate q).toNat = n) ↔ WholePart q n := by
  rw [tdiv_nonneg_iff]
  unfold WholePart
  have hd : (0 : Int) < q.den := by exact_mod_cast q.den_pos
  have hdq : (0 : ℚ) < (q.den : ℚ) := by exact_mod_cast q.den_pos
  have hq : (q : ℚ) = (q.num : ℚ) / (q.den : ℚ) := (Rat.num_div_den q).symm
  rcases le_or_gt 0 q with h | h
  · have hn : 0 ≤ q.num := Rat.num_nonneg.mpr h
    have e : truncate q = ⌊q⌋ := by
      unfold truncate
      rw [Int.tdiv_eq_ediv_of_nonneg hn]
      exact Rat.floor_def'.symm
    rw [e]
    have hf : 0 ≤ ⌊q⌋ := Int.floor_nonneg.mpr h
    obtain ⟨k, hk⟩ := Int.eq_ofNat_of_zero_le hf
    rw [hk]
    have h1 := Int.floor_le q
    have h2 := Int.lt_floor_add_one q
    rw [hk] at h1 h2
    simp only [Int.toNat_natCast, Int.cast_natCast] at h1 h2 ⊢
    constructor
    · rintro ⟨h0, rfl⟩
      exact ⟨h0, h2, Or.inl h1⟩
    · rintro ⟨h0, h3, h4⟩
      refine ⟨h0, ?_⟩
      have h5 : (k : ℚ) < n + 1 := lt_of_le_of_lt h1 h3
      have h6 : k < n + 1 := by exact_mod_cast h5
      rcases h4 with h4 | rfl
      · have h7 : (n : ℚ) < k + 1 := lt_of_le_of_lt h4 h2
        have h8 : n < k + 1 := by exact_mod_cast h7
        omega
      · omega
  · constructor
    · rintro ⟨h0, h1⟩
      have : (truncate q).toNat = 0 := by
        unfold truncate
        have hn : q.num ≤ 0 := by
          by_contra hc
          have : 0 < q := Rat.num_pos.mp (by omega)
          linarith
        have : q.num.tdiv q.den ≤ 0 := by
          obtain ⟨m, hm⟩ : ∃ m : Int, q.num = -m := ⟨-q.num, by omega⟩
          rw [hm, Int.neg_tdiv]
          have := Int.tdiv_nonneg (a := m) (b := q.den) (by omega) hd.le
          omega
        omega
      rw [this] at h1
      subst h1
      exact ⟨h0, by simpa using h.trans one_pos, Or.inr rfl⟩
    · rintro ⟨h0, h1, h2⟩
      refine ⟨h0, ?_⟩
      have hn0 : n = 0 := by
        rcases h2 with h2 | h2
        · have : (n : ℚ) < 0 := lt_of_le_of_lt h2 h
          exact absurd this (by simp)
        · exact h2
      subst hn0
      have hn : q.num ≤ 0 := by
        by_contra hc
        have : 0 < q := Rat.num_pos.mp (by omega)
        linarith
      unfold truncate
      obtain ⟨m, hm⟩ : ∃ m : Int, q.num = -m := ⟨-q.num, by omega⟩
      rw [hm, Int.neg_tdiv]
      have := Int.tdiv_nonneg (a := m) (b := q.den) (by omega) hd.le
      omega

theorem count_iff (weights : List (String × ℚ)) (b : String) (n : Nat) :
    count weights b = some n ↔ ∃ q, weights.lookup b = some q ∧ WholePart q n := by
  unfold count
  rw [Option.bind_eq_some_iff]
  constructor
  · rintro ⟨q, hq, h⟩
    split_ifs at h with h0
    · injection h with h
      exact ⟨q, hq, (truncate_iff q n).mp ⟨h0, h⟩⟩
  · rintro ⟨q, hq, h⟩
    obtain ⟨h0, h1⟩ := (truncate_iff q n).mpr h
    exact ⟨q, hq, by rw [if_pos h0, h1]⟩

theorem positions_ok (buses : Coordinates F) (idx : List String) (ps : List (F × F)) :
    positions buses idx = .ok ps ↔ List.Forall₂ (fun b p => buses.lookup b = some p) idx ps := by
  induction idx generalizing ps with
  | nil =>
    simp only [positions, Except.ok.injEq, List.forall₂_nil_left_iff]
    exact eq_comm
  | cons b bs ih =>
    unfold positions
    cases h1 : buses.lookup b with
    | none =>
      simp only [reduceCtorEq, false_iff]
      intro h
      cases h with
      | cons h _ => rw [h1] at h; cases h
    | some p =>
      cases h2 : positions buses bs with
      | error e =>
        simp only [reduceCtorEq, false_iff]
        intro h
        cases h with
        | cons _ h =>
          rw [← ih] at h
          rw [h2] at h
          cases h
      | ok qs =>
        have := (ih qs).mp h2
        simp only [Except.ok.injEq]
        constructor
        · rintro rfl
          exact List.Forall₂.cons h1 this
        · intro h
          cases h with
          | cons h3 h4 =>
            rw [h1] at h3
            injection h3 with h3
            rw [← ih, h2] at h4
            injection h4 with h4
            rw [h3, h4]

theorem counts_ok (weights : List (String × ℚ)) (idx : List String) (ks : List Nat) :
    counts weights idx = .ok ks ↔ List.Forall₂ (fun b k => count weights b = some k) idx ks := by
  induction idx generalizing ks with
  | nil =>
    simp only [counts, Except.ok.injEq, List.forall₂_nil_left_iff]
    exact eq_comm
  | cons b bs ih =>
    unfold counts
    cases h1 : count weights b with
    | none =>
      simp only [reduceCtorEq, false_iff]
      intro h
      cases h with
      | cons h _ => rw [h1] at h; cases h
    | some p =>
      cases h2 : counts weights bs with
      | error e =>
        simp only [reduceCtorEq, false_iff]
        intro h
        cases h with
        | cons _ h =>
          rw [← ih] at h
          rw [h2] at h
          cases h
      | ok qs =>
        have := (ih qs).mp h2
        simp only [Except.ok.injEq]
        constructor
        · rintro rfl
          exact List.Forall₂.cons h1 this
        · intro h
          cases h with
          | cons h3 h4 =>
            rw [h1] at h3
            injection h3 with h3
            rw [← ih, h2] at h4
            injection h4 with h4
            rw [h3, h4]

/-- The buses with the position and the number of points of each. -/
structure Placed (buses : Coordinates F) (weights : List (String × ℚ)) (place : String → F × F) (points : String → Nat) (idx : List String) : Prop where
  place : ∀ b ∈ idx, buses.lookup b = some (place b)
  points : ∀ b ∈ idx, ∃ q, weights.lookup b = some q ∧ WholePart q (points b)

theorem placed_ok [Inhabited F] (buses : Coordinates F) (weights : List (String × ℚ)) (idx : List String) (ps : List (F × F)) (ks : List Nat) :
    (positions buses idx = .ok ps ∧ counts weights idx = .ok ks) ↔
      ∃ place points, Placed buses weights place points idx ∧ ps = idx.map place ∧ ks = idx.map points := by
  rw [positions_ok, counts_ok]
  have e : ∀ {A : Type} [Inhabited A] (f : String → Option A) (idx : List String) (l : List A), List.Forall₂ (fun b p => f b = some p) idx l ↔
      (∀ b ∈ idx, (f b).isSome) ∧ l = idx.map (fun b => (f b).getD default) := by
    intro A _ f idx l
    induction idx generalizing l with
    | nil => simp
    | cons b bs ih =>
      cases l with
      | nil => simp
      | cons p l =>
        rw [List.forall₂_cons, ih, List.map_cons, List.cons.injEq]
        constructor
        · rintro ⟨h1, h2, h3⟩
          exact ⟨fun c hc => by rcases List.mem_cons.mp hc with rfl | hc; · simp [h1]
                                · exact h2 c hc, by simp [h1], h3⟩
        · rintro ⟨h1, h2, h3⟩
          obtain ⟨v, hv⟩ := Option.isSome_iff_exists.mp (h1 b List.mem_cons_self)
          exact ⟨by rw [hv]; rw [hv] at h2; simp [h2], fun c hc => h1 c (List.mem_cons_of_mem _ hc), h3⟩
  rw [e, e]
  constructor
  · rintro ⟨⟨h1, h2⟩, h3, h4⟩
    refine ⟨_, _, ⟨fun b hb => ?_, fun b hb => ?_⟩, h2, h4⟩
    · obtain ⟨v, hv⟩ := Option.isSome_iff_exists.mp (h1 b hb)
      rw [hv]; rfl
    · obtain ⟨v, hv⟩ := Option.isSome_iff_exists.mp (h3 b hb)
      rw [hv]
      exact (count_iff _ _ _).mp hv
  · rintro ⟨place, points, ⟨h1, h2⟩, rfl, rfl⟩
    have h2' : ∀ b ∈ idx, count weights b = some (points b) := fun b hb => (count_iff _ _ _).mpr (h2 b hb)
    refine ⟨⟨fun b hb => by rw [h1 b hb]; rfl, List.map_congr_left (fun b hb => by rw [h1 b hb]; rfl)⟩,
      fun b hb => by rw [h2' b hb]; rfl, List.map_congr_left (fun b hb => by rw [h2' b hb]; rfl)⟩

theorem sum_repeated {A : Type} [Semiring A] (f : F × F → A) (idx : List String) (place : String → F × F) (points : String → Nat) :
    ((repeated (idx.map place) (idx.map points)).map f).sum = (idx.map (fun b => (points b : A) * f (place b))).sum := by
  unfold repeated
  induction idx with
  | nil => simp
  | cons b bs ih => simp [List.map_append, List.sum_append, ih, nsmul_eq_mul]

/-- **C134, k-means.** The busmap has exactly the buses that were asked for; each has the centre nearest to its position (as the library
says), and the centres are fitted to points of which each bus has as many as the whole part of its weight: sums over the points, such as
that of the squares of the distances, are weighted sums over the buses. -/
theorem kmeans_busmap [Inhabited F] (lib : KMeans F) (buses : Coordinates F) (weights : List (String × ℚ)) (k : Nat) (sel : Option (List String))
    (m : List (String × String)) (h : byKmeans lib buses weights k sel = .ok m) :
    ∃ place points pts, Placed buses weights place points (sel.getD (buses.map Prod.fst)) ∧
      (∀ f : F × F → ℚ, (pts.map f).sum = ((sel.getD (buses.map Prod.fst)).map (fun b => (points b : ℚ) * f (place b))).sum) ∧
      k ≤ pts.length ∧
      m = (sel.getD (buses.map Prod.fst)).map (fun b => (b, toString (lib.predict (lib.fit k pts) (place b)))) := by
  unfold byKmeans at h
  generalize sel.getD (buses.map Prod.fst) = idx at h ⊢
  cases h1 : positions buses idx with
  | error e => rw [h1] at h; cases h
  | ok ps =>
    rw [h1] at h
    cases h2 : counts weights idx with
    | error e => rw [h2] at h; cases h
    | ok ks =>
      rw [h2] at h
      simp only at h
      split_ifs at h with h3
      injection h with h
      obtain ⟨place, points, hp, rfl, rfl⟩ := (placed_ok buses weights idx ps ks).mp ⟨h1, h2⟩
      refine ⟨place, points, _, hp, fun f => sum_repeated f idx place points, not_lt.mp h3, ?_⟩
      rw [← h, List.map_map, List.zip_map_right, List.zip_eq_zipWith]
      clear h h1 h2 h3 hp
      generalize lib.fit k _ = st
      induction idx with
      | nil => rfl
      | cons b bs ih =>
        simp only [List.zipWith_cons_cons, List.map_cons, List.cons.injEq]
        exact ⟨rfl, ih⟩

/-- It fails exactly if a bus is not in the network, a weight is missing or below zero, or there are fewer points than clusters. -/
theorem kmeans_ok_iff [Inhabited F] (lib : KMeans F) (buses : Coordinates F) (weights : List (String × ℚ)) (k : Nat) (sel : Option (List String)) :
    (∃ m, byKmeans lib buses weights k sel = .ok m) ↔
      ∃ place points, Placed buses weights place points (sel.getD (buses.map Prod.fst)) ∧ k ≤ ((sel.getD (buses.map Prod.fst)).map points).sum := by
  have len : ∀ (idx : List String) (place : String → F × F) (points : String → Nat), (repeated (idx.map place) (idx.map points)).length = (idx.map points).sum := by
    intro idx place points
    have := sum_repeated (A := Nat) (fun _ => 1) idx place points
    simpa using this
  constructor
  · rintro ⟨m, h⟩
    unfold byKmeans at h
    generalize sel.getD (buses.map Prod.fst) = idx at h ⊢
    cases h1 : positions buses idx with
    | error e => rw [h1] at h; cases h
    | ok ps =>
      rw [h1] at h
      cases h2 : counts weights idx with
      | error e => rw [h2] at h; cases h
      | ok ks =>
        rw [h2] at h
        simp only at h
        split_ifs at h with h3
        obtain ⟨place, points, hp, rfl, rfl⟩ := (placed_ok buses weights idx ps ks).mp ⟨h1, h2⟩
        exact ⟨place, points, hp, by rw [← len idx place]; exact not_lt.mp h3⟩
  · rintro ⟨place, points, hp, hk⟩
    unfold byKmeans
    generalize sel.getD (buses.map Prod.fst) = idx at hp hk ⊢
    obtain ⟨h1, h2⟩ := (placed_ok buses weights idx _ _).mpr ⟨place, points, hp, rfl, rfl⟩
    rw [h1, h2]
    simp only
    rw [if_neg (by rw [len]; exact not_lt.mpr hk)]
    exact ⟨_, rfl⟩

/-- Buses at the same place are in the same cluster. -/
theorem kmeans_same_place [Inhabited F] (lib : KMeans F) (buses : Coordinates F) (weights : List (String × ℚ)) (k : Nat) (sel : Option (List String))
    (m : List (String × String)) (h : byKmeans lib buses weights k sel = .ok m) (e e' : String × String) (he : e ∈ m) (he' : e' ∈ m)
    (hp : buses.lookup e.1 = buses.lookup e'.1) : e.2 = e'.2 := by
  obtain ⟨place, points, pts, hpl, -, -, rfl⟩ := kmeans_busmap lib buses weights k sel m h
  obtain ⟨b, hb, rfl⟩ := List.mem_map.mp he
  obtain ⟨b', hb', rfl⟩ := List.mem_map.mp he'
  simp only at hp ⊢
  rw [hpl.place b hb, hpl.place b' hb'] at hp
  injection hp with hp
  rw [hp]

/-! ## Hierarchical clustering -/

open Verif.Graph (Table Branch KnownEnds LastTableActive ActiveIn)

theorem position_getElem {names : List String} {b : String} (hb : b ∈ names) : ∃ h : position names b < names.length, names[position names b] = b := by
  have e : position names b = names.idxOf b := by
    unfold position Graph.indexer
    rw [if_pos hb]
    rfl
  rw [e]
  exact ⟨List.idxOf_lt_length_of_mem hb, List.getElem_idxOf _⟩

/-- What the library is told: the features of the buses, in order, and how many branches lead from one to another. -/
structure Told {V : Type} (ts : List Table) (idx : List String) (value : String → V) (A : Nat → Nat → Nat) (rows : List V) : Prop where
  rows : rows = idx.map value
  branches : ∀ i j (hi : i < idx.length) (hj : j < idx.length),
    A i j = ((ts.flatMap (fun t => t.rows)).filter (fun b => b.active = true ∧ b.bus0 = idx[i] ∧ b.bus1 = idx[j])).length

/-- **C134, hierarchical clustering (partial).** For known buses, features with the buses in the same order, and branches of which the class
visited last has an active one, the library is told what belongs to each bus, and the busmap has exactly the buses that were asked for with
the labels the library gives them. -/
theorem hac_busmap_partial {V : Type} (lib : Hac V) (hlib : ∀ k A rows, (lib k A rows).length = rows.length) (same : V) (names : List String) (hn : names.Nodup)
    (ts : List Table) (hends : KnownEnds names ts none) (hlast : LastTableActive ts none) (k : Nat) (sel : Option (List String))
    (hsel : ∀ b ∈ sel.getD names, b ∈ names) (feature : Option (List (String × V))) (value : String → V)
    (hfeat : ∀ f, feature = some f → f = (sel.getD names).map (fun b => (b, value b))) (hnone : feature = none → value = fun _ => same) :
    ∃ A rows, Told ts (sel.getD names) value A rows ∧
      ∃ m, byHac lib same names ts k sel feature = .ok m ∧ m.map Prod.fst = sel.getD names ∧
        m.map Prod.snd = (lib k A rows).map (fun l => toString l) := by
  obtain ⟨tr, htr, hent⟩ := Graph.adjacency_counts_partial (F := Nat) names hn ts none (fun _ => 1) hends hlast
  unfold byHac
  rw [htr]
  generalize sel.getD names = idx at *
  have hrows : (feature.map (fun f => f.map Prod.snd)).getD (idx.map (fun _ => same)) = idx.map value := by
    cases feature with
    | none => rw [hnone rfl]; rfl
    | some f =>
      rw [hfeat f rfl]
      simp [Function.comp_def]
  simp only [hrows]
  refine ⟨submatrix names tr idx, idx.map value, ⟨rfl, fun i j hi hj => ?_⟩, _, by rw [if_pos (by simp)], ?_, ?_⟩
  · unfold submatrix
    obtain ⟨a1, a2⟩ := position_getElem (hsel idx[i] (List.getElem_mem hi))
    obtain ⟨b1, b2⟩ := position_getElem (hsel idx[j] (List.getElem_mem hj))
    have e1 : idx.getD i "" = idx[i] := by simp [List.getD_eq_getElem?_getD, hi]
    have e2 : idx.getD j "" = idx[j] := by simp [List.getD_eq_getElem?_getD, hj]
    rw [e1, e2, hent _ _ a1 b1, a2, b2]
    simp only [List.map_const', List.sum_replicate, List.filter_flatMap, List.filter_map, List.length_flatMap, List.length_map]
    refine (nsmul_one _).trans ?_
    simp only [Nat.cast_id]
    refine congrArg List.sum (List.map_congr_left (fun t _ => congrArg List.length (List.filter_congr (fun b _ => ?_))))
    simp [ActiveIn]
  · rw [List.map_fst_zip]
    rw [List.length_map, hlib, List.length_map]
  · rw [List.map_snd_zip]
    · rfl
    · rw [List.length_map, hlib, List.length_map]

/-! ## Modularity -/

/-- A line between two buses of the selection. -/
def Between (sel : List String) (l : Line F) (u v : String) : Prop :=
  l.bus0 ∈ sel ∧ l.bus1 ∈ sel ∧ (l.bus0 = u ∧ l.bus1 = v ∨ l.bus0 = v ∧ l.bus1 = u)

theorem joins_iff (e : Edge F) (u v : String) : e.joins u v = true ↔ (e.u = u ∧ e.v = v) ∨ (e.u = v ∧ e.v = u) := by
  unfold Edge.joins
  rw [decide_eq_true_eq]

/-- The graph after a list of edges was added: each pair has one edge, with the weight that came last. -/
structure Holds (es : List (Edge F)) (added : List (Edge F)) : Prop where
  last : ∀ e ∈ es, ∃ pre post a, added = pre ++ a :: post ∧ a.joins e.u e.v = true ∧ a.weight = e.weight ∧ ∀ o ∈ post, o.joins e.u e.v = false
  all : ∀ a ∈ added, ∃ e ∈ es, a.joins e.u e.v = true
  once : es.Pairwise (fun e e' => e.joins e'.u e'.v = false)

theorem joins_symm (e e' : Edge F) : e.joins e'.u e'.v = e'.joins e.u e.v := by
  rw [Bool.eq_iff_iff, joins_iff, joins_iff]
  constructor <;> rintro (⟨h1, h2⟩ | ⟨h1, h2⟩) <;> simp [h1, h2]

theorem joins_trans {e o : Edge F} {u v : String} (h : e.joins u v = true) : o.joins u v = o.joins e.u e.v := by
  rw [joins_iff] at h
  rw [Bool.eq_iff_iff, joins_iff, joins_iff]
  rcases h with ⟨h1, h2⟩ | ⟨h1, h2⟩
  · rw [h1, h2]
  · rw [h1, h2]
    exact or_comm

theorem holds_add {es added : List (Edge F)} (h : Holds es added) (a : Edge F) : Holds (addEdge es a) (added ++ [a]) := by
  unfold addEdge
  split_ifs with hany
  · have ends : ∀ o : Edge F, (if o.joins a.u a.v = true then { o with weight := a.weight } else o).u = o.u ∧
        (if o.joins a.u a.v = true then { o with weight := a.weight } else o).v = o.v := by
      intro o
      split_ifs <;> exact ⟨rfl, rfl⟩
    refine ⟨?_, ?_, ?_⟩
    · intro e he
      obtain ⟨o, ho, rfl⟩ := List.mem_map.mp he
      by_cases hj : o.joins a.u a.v = true
      · rw [if_pos hj]
        refine ⟨added, [], a, rfl, ?_, rfl, by simp⟩
        show a.joins o.u o.v = true
        rw [joins_symm]; exact hj
      · rw [if_neg hj]
        obtain ⟨pre, post, b, h1, h2, h3, h4⟩ := h.last o ho
        refine ⟨pre, post ++ [a], b, by rw [h1]; simp, h2, h3, ?_⟩
        intro c hc
        rcases List.mem_append.mp hc with hc | hc
        · exact h4 c hc
        · rw [List.mem_singleton.mp hc, joins_symm]
          simpa using hj
    · intro b hb
      rcases List.mem_append.mp hb with hb | hb
      · obtain ⟨e, he, hj⟩ := h.all b hb
        refine ⟨_, List.mem_map_of_mem he, ?_⟩
        rw [(ends e).1, (ends e).2]
        exact hj
      · rw [List.mem_singleton.mp hb]
        obtain ⟨o, ho, hj⟩ := List.any_eq_true.mp hany
        refine ⟨_, List.mem_map_of_mem ho, ?_⟩
        rw [(ends o).1, (ends o).2, joins_symm]
        exact hj
    · rw [List.pairwise_map]
      refine h.once.imp (fun {e e'} hh => ?_)
      rw [(ends e').1, (ends e').2]
      have : ∀ u v, (if e.joins a.u a.v = true then { e with weight := a.weight } else e).joins u v = e.joins u v := by
        intro u v
        split_ifs <;> rfl
      exact (this _ _).trans hh
  · have hno : ∀ o ∈ es, o.joins a.u a.v = false := by
      intro o ho
      by_contra hc
      exact hany (List.any_eq_true.mpr ⟨o, ho, by simpa using hc⟩)
    refine ⟨?_, ?_, ?_⟩
    · intro e he
      rcases List.mem_append.mp he with he | he
      · obtain ⟨pre, post, b, h1, h2, h3, h4⟩ := h.last e he
        refine ⟨pre, post ++ [a], b, by rw [h1]; simp, h2, h3, ?_⟩
        intro c hc
        rcases List.mem_append.mp hc with hc | hc
        · exact h4 c hc
        · rw [List.mem_singleton.mp hc, joins_symm]
          exact hno e he
      · rw [List.mem_singleton.mp he]
        exact ⟨added, [], a, rfl, (joins_iff _ _ _).mpr (Or.inl ⟨rfl, rfl⟩), rfl, by simp⟩
    · intro b hb
      rcases List.mem_append.mp hb with hb | hb
      · obtain ⟨e, he, hj⟩ := h.all b hb
        exact ⟨e, List.mem_append_left _ he, hj⟩
      · rw [List.mem_singleton.mp hb]
        exact ⟨a, by simp, (joins_iff _ _ _).mpr (Or.inl ⟨rfl, rfl⟩)⟩
    · rw [List.pairwise_append]
      refine ⟨h.once, by simp, fun e he o ho => ?_⟩
      rw [List.mem_singleton.mp ho]
      exact hno e he

theorem holds_all (l : List (Edge F)) : Holds (l.foldl addEdge []) l := by
  have : ∀ (l es added : List (Edge F)), Holds es added → Holds (l.foldl addEdge es) (added ++ l) := by
    intro l
    induction l with
    | nil => intro es added h; simpa using h
    | cons a l ih =>
      intro es added h
      have := ih (addEdge es a) (added ++ [a]) (holds_add h a)
      simpa using this
  have h := this l [] [] ⟨by simp, by simp, by simp⟩
  simpa using h

/-- The graph has an edge between two buses of the selection exactly if a line joins them, and one at most. -/
theorem graph_edges [Field F] (modulus : F → F → F) (lines : List (Line F)) (sel : List String) (u v : String) :
    ((∃ e ∈ graph modulus lines sel, e.joins u v = true) ↔ ∃ l ∈ lines, Between sel l u v) ∧
      (graph modulus lines sel).Pairwise (fun e e' => ¬ ((e.u = e'.u ∧ e.v = e'.v) ∨ (e.u = e'.v ∧ e.v = e'.u))) := by
  have h := holds_all ((lines.filter (fun l => decide (l.bus0 ∈ sel ∧ l.bus1 ∈ sel))).map (fun l => (⟨l.bus0, l.bus1, l.sNom / modulus l.r l.x⟩ : Edge F)))
  refine ⟨⟨?_, ?_⟩, ?_⟩
  · rintro ⟨e, he, hj⟩
    obtain ⟨pre, post, a, h1, h2, -⟩ := h.last e he
    have ha : a ∈ pre ++ a :: post := by simp
    rw [← h1] at ha
    obtain ⟨l, hl, rfl⟩ := List.mem_map.mp ha
    rw [List.mem_filter, decide_eq_true_eq] at hl
    rw [← joins_trans hj, joins_iff] at h2
    exact ⟨l, hl.1, hl.2.1, hl.2.2, h2⟩
  · rintro ⟨l, hl, h1, h2, h3⟩
    obtain ⟨e, he, hj⟩ := h.all ⟨l.bus0, l.bus1, l.sNom / modulus l.r l.x⟩
      (List.mem_map.mpr ⟨l, List.mem_filter.mpr ⟨hl, by simp [h1, h2]⟩, rfl⟩)
    refine ⟨e, he, ?_⟩
    have h4 : (⟨l.bus0, l.bus1, l.sNom / modulus l.r l.x⟩ : Edge F).joins u v = true := (joins_iff _ _ _).mpr h3
    rw [joins_symm] at hj
    rw [joins_trans h4]
    exact hj
  · refine h.once.imp (fun {e e'} hh => ?_)
    rw [← joins_iff]
    simpa using hh

/-- **C134, modularity (partial: no parallel lines).** The weight of an edge is the sum of the capacities per impedance of the lines between
the buses.  Missing: parallel lines, of which only the last one counts (`parallel_not_added`). -/
theorem graph_weight_partial [Field F] (modulus : F → F → F) (lines : List (Line F)) (sel : List String)
    (hone : lines.Pairwise (fun l k => ¬ ((l.bus0 = k.bus0 ∧ l.bus1 = k.bus1) ∨ (l.bus0 = k.bus1 ∧ l.bus1 = k.bus0))))
    (e : Edge F) (he : e ∈ graph modulus lines sel) :
    e.weight = ((lines.filter (fun l => decide ((l.bus0 = e.u ∧ l.bus1 = e.v) ∨ (l.bus0 = e.v ∧ l.bus1 = e.u)))).map (fun l => l.sNom / modulus l.r l.x)).sum := by
  have h := holds_all ((lines.filter (fun l => decide (l.bus0 ∈ sel ∧ l.bus1 ∈ sel))).map (fun l => (⟨l.bus0, l.bus1, l.sNom / modulus l.r l.x⟩ : Edge F)))
  obtain ⟨pre, post, a, h1, h2, h3, -⟩ := h.last e he
  have ha : a ∈ pre ++ a :: post := by simp
  rw [← h1] at ha
  obtain ⟨l, hl, rfl⟩ := List.mem_map.mp ha
  rw [joins_iff] at h2
  rw [← h3]
  have hl' := (List.mem_filter.mp hl).1
  clear h h1 ha hl h3 he
  induction lines with
  | nil => cases hl'
  | cons k ks ih =>
    rw [List.pairwise_cons] at hone
    rcases List.mem_cons.mp hl' with rfl | hmem
    · have hnil : ks.filter (fun l => decide ((l.bus0 = e.u ∧ l.bus1 = e.v) ∨ (l.bus0 = e.v ∧ l.bus1 = e.u))) = [] := by
        rw [List.filter_eq_nil_iff]
        intro k hk hc
        rw [decide_eq_true_eq] at hc
        refine hone.1 k hk ?_
        simp only at h2
        rcases h2 with ⟨a1, a2⟩ | ⟨a1, a2⟩ <;> rcases hc with ⟨b1, b2⟩ | ⟨b1, b2⟩ <;> simp [a1, a2, b1, b2]
      rw [List.filter_cons_of_pos (by simpa using h2), hnil]
      simp
    · have hk : ¬ ((k.bus0 = e.u ∧ k.bus1 = e.v) ∨ (k.bus0 = e.v ∧ k.bus1 = e.u)) := by
        intro hc
        refine hone.1 l hmem ?_
        simp only at h2
        rcases h2 with ⟨a1, a2⟩ | ⟨a1, a2⟩ <;> rcases hc with ⟨b1, b2⟩ | ⟨b1, b2⟩ <;> simp [a1, a2, b1, b2]
      rw [List.filter_cons_of_neg (by simpa using hk)]
      exact ih hone.2 hmem

theorem assignAll_eq (cs : List (List String)) (i : Nat) (m : List (String × String))
    (hdis : cs.Pairwise (fun c d => ∀ b ∈ c, b ∉ d)) (hin : ∀ e ∈ m, ∃ c ∈ cs, e.1 ∈ c) :
    (assignAll i cs m).map Prod.fst = m.map Prod.fst ∧
      ∀ e ∈ assignAll i cs m, ∃ j, ∃ h : j < cs.length, e.1 ∈ cs[j] ∧ e.2 = toString (i + j) := by
  have key : ∀ (cs : List (List String)) (i : Nat) (m : List (String × String)), cs.Pairwise (fun c d => ∀ b ∈ c, b ∉ d) →
      assignAll i cs m = m.map (fun e => (e.1, if ∃ c ∈ cs, e.1 ∈ c then toString (i + cs.findIdx (fun c => decide (e.1 ∈ c))) else e.2)) := by
    intro cs
    induction cs with
    | nil => intro i m _; simp [assignAll]
    | cons c cs ih =>
      intro i m hd
      rw [List.pairwise_cons] at hd
      rw [assignAll, ih (i + 1) _ hd.2, assign, List.map_map]
      refine List.map_congr_left (fun e _ => ?_)
      by_cases hc : e.1 ∈ c
      · have hno : ¬ ∃ d ∈ cs, e.1 ∈ d := by
          rintro ⟨d, hd', he⟩
          exact hd.1 d hd' e.1 hc he
        simp [hc, hno, label, List.findIdx_cons]
      · by_cases hx : ∃ d ∈ cs, e.1 ∈ d
        · have hx' : ∃ d ∈ c :: cs, e.1 ∈ d := by
            obtain ⟨d, hd1, hd2⟩ := hx
            exact ⟨d, List.mem_cons_of_mem _ hd1, hd2⟩
          simp only [Function.comp_apply, hc, if_false, hx, if_true, hx', List.findIdx_cons, decide_false, cond_false]
          congr 2
          omega
        · simp [hc, hx]
  rw [key cs i m hdis]
  refine ⟨by simp [Function.comp_def], fun e he => ?_⟩
  obtain ⟨o, ho, rfl⟩ := List.mem_map.mp he
  have hx := hin o ho
  have hlt : cs.findIdx (fun c => decide (o.1 ∈ c)) < cs.length := by
    rw [List.findIdx_lt_length]
    obtain ⟨c, hc1, hc2⟩ := hx
    exact ⟨c, hc1, by simpa using hc2⟩
  refine ⟨_, hlt, ?_, by simp only [if_pos hx]⟩
  have := List.findIdx_getElem (w := hlt)
  simpa using this

/-- **C134, modularity.** If the library divides the buses into communities, the busmap has exactly the buses that were asked for, and two of
them are in one cluster exactly if they are in one community. -/
theorem modularity_busmap [Field F] (lib : Nat → List String → List (Edge F) → List (List String)) (modulus : F → F → F) (names : List String)
    (lines : List (Line F)) (k : Nat) (sel : Option (List String))
    (hdis : (lib k (sel.getD names) (graph modulus lines (sel.getD names))).Pairwise (fun c d => ∀ b ∈ c, b ∉ d))
    (hall : ∀ b ∈ sel.getD names, ∃ c ∈ lib k (sel.getD names) (graph modulus lines (sel.getD names)), b ∈ c) :
    (byModularity lib modulus names lines k sel).map Prod.fst = sel.getD names ∧
      ∀ e ∈ byModularity lib modulus names lines k sel, ∀ e' ∈ byModularity lib modulus names lines k sel,
        (e.2 = e'.2 ↔ ∃ c ∈ lib k (sel.getD names) (graph modulus lines (sel.getD names)), e.1 ∈ c ∧ e'.1 ∈ c) := by
  unfold byModularity
  simp only
  generalize sel.getD names = idx at *
  generalize lib k idx (graph modulus lines idx) = cs at *
  obtain ⟨h1, h2⟩ := assignAll_eq cs 0 (idx.map (fun b => (b, b))) hdis (fun e he => by
    obtain ⟨b, hb, rfl⟩ := List.mem_map.mp he
    exact hall b hb)
  refine ⟨by rw [h1]; simp [Function.comp_def], fun e he e' he' => ?_⟩
  obtain ⟨j, hj, m1, l1⟩ := h2 e he
  obtain ⟨j', hj', m2, l2⟩ := h2 e' he'
  rw [l1, l2]
  constructor
  · intro hh
    have := Lines.toString_inj _ _ hh
    have hjj : j = j' := by omega
    subst hjj
    exact ⟨cs[j], List.getElem_mem hj, m1, m2⟩
  · rintro ⟨c, hc, c1, c2⟩
    obtain ⟨i, hi, rfl⟩ := List.mem_iff_getElem.mp hc
    have uniq : ∀ a b (ha : a < cs.length) (hb : b < cs.length) (x : String), x ∈ cs[a] → x ∈ cs[b] → a = b := by
      intro a b ha hb x xa xb
      rcases Nat.lt_trichotomy a b with hlt | heq | hlt
      · exact absurd xb (List.pairwise_iff_getElem.mp hdis a b ha hb hlt x xa)
      · exact heq
      · exact absurd xa (List.pairwise_iff_getElem.mp hdis b a hb ha hlt x xb)
    rw [uniq j i hj hi _ m1 c1, uniq j' i hj' hi _ m2 c2]

/-! ## Clusterings -/

theorem lookup_iff (m : List (String × String)) (hm : (m.map Prod.fst).Nodup) (b c : String) : lookup m b = some c ↔ (b, c) ∈ m := by
  unfold lookup
  induction m with
  | nil => simp
  | cons e m ih =>
    obtain ⟨x, y⟩ := e
    rw [List.map_cons, List.nodup_cons] at hm
    rw [List.lookup_cons]
    by_cases hb : b = x
    · subst hb
      rw [beq_self_eq_true]
      simp only [Option.some.injEq, List.mem_cons, Prod.mk.injEq, true_and]
      constructor
      · intro h; exact Or.inl h.symm
      · rintro (h | h)
        · exact h.symm
        · exact absurd (List.mem_map.mpr ⟨_, h, rfl⟩) hm.1
    · rw [beq_eq_false_iff_ne.mpr hb]
      simp only [List.mem_cons, Prod.mk.injEq, hb, false_and, false_or]
      exact ih hm.2

/-- **C134, clusterings.** The buses of the clustered network are the labels of the busmap; each bus stands for the buses with its label. -/
theorem clustering_buses [Field F] [LinearOrder F] (m : List (String × String)) (hm : (m.map Prod.fst).Nodup) (a : Network.Args F)
    (n n' : Network.Net F) (lm : List (String × String)) (hsub : ∀ b ∈ m.map Prod.fst, b ∈ n.names)
    (h : clusterBy (.ok m) a n = .ok (n', lm)) (c : String) : c ∈ n'.names ↔ c ∈ m.map Prod.snd := by
  unfold clusterBy at h
  simp only at h
  split at h
  · rename_i r hr
    injection h with h
    subst h
    rw [Network.mem_names _ n n' lm hr]
    simp only [lookup_iff m hm, List.mem_map]
    constructor
    · rintro ⟨b, -, hb⟩; exact ⟨_, hb, rfl⟩
    · rintro ⟨e, he, rfl⟩
      exact ⟨e.1, hsub e.1 (List.mem_map_of_mem he), he⟩
  · cases h

theorem mapM_each {A B : Type} (f : A → Option B) (l : List A) (r : List B) (h : l.mapM f = some r) (x : A) (hx : x ∈ l) : ∃ y, f x = some y := by
  induction l generalizing r with
  | nil => cases hx
  | cons z l ih =>
    rw [List.mapM_cons] at h
    cases h1 : f z with
    | none => simp [h1] at h
    | some w =>
      cases h2 : l.mapM f with
      | none => simp [h1, h2] at h
      | some rs =>
        rcases List.mem_cons.1 hx with rfl | hx
        · exact ⟨w, h1⟩
        · exact ih rs h2 hx

/-- A method that says nothing about a bus at the end of a line (as for a part of the buses) leads to an error, not to a network without the line. -/
theorem part_refused [Field F] [LinearOrder F] (m : List (String × String)) (a : Network.Args F) (n : Network.Net F) (l : Lines.Line F) (hl : l ∈ n.lines)
    (hout : l.bus0 ∉ m.map Prod.fst ∨ l.bus1 ∉ m.map Prod.fst) : clusterBy (.ok m) a n = .error .valueError := by
  have hnone : ∀ b, b ∉ m.map Prod.fst → lookup m b = none := by
    intro b hb
    unfold lookup
    rw [List.lookup_eq_none_iff]
    intro e he
    rw [bne_iff_ne]
    rintro rfl
    exact hb (List.mem_map_of_mem he)
  unfold clusterBy
  simp only
  cases hc : Network.cluster { a with busmap := lookup m } n with
  | none => rfl
  | some r =>
    exfalso
    obtain ⟨h1, -⟩ := Network.cluster_some _ n r.1 r.2 hc
    unfold Lines.aggregate Lines.mapped at h1
    rw [Option.bind_eq_some_iff] at h1
    obtain ⟨ms, h1, -⟩ := h1
    rw [Option.map_eq_some_iff] at h1
    obtain ⟨rs, h1, -⟩ := h1
    obtain ⟨y, hy⟩ := mapM_each _ n.lines rs h1 l hl
    unfold Lines.mapLine at hy
    rcases hout with ho | ho <;> simp [hnone _ ho] at hy

/-! ## Examples and findings -/

namespace Demo

/-- One cluster per sign of `x`. -/
def sign : KMeans ℚ where
  State := Unit
  fit := fun _ _ => ()
  predict := fun _ p => if p.1 < 0 then 0 else 1

/-- Mean of the points: one cluster to its left, one to its right. -/
def mean : KMeans ℚ where
  State := ℚ
  fit := fun _ ps => (ps.map Prod.fst).sum / ps.length
  predict := fun m p => if p.1 < m then 0 else 1

def coords : Coordinates ℚ := [("a", -1, 0), ("b", 2, 0), ("c", 3, 1)]

example : byKmeans sign coords [("c", 5/2), ("a", 1), ("b", 0)] 2 none = .ok [("a", "0"), ("b", "1"), ("c", "1")] := by decide +kernel

example : byKmeans sign coords [("c", 5/2), ("a", 1), ("b", 0)] 2 (some ["c", "a"]) = .ok [("c", "1"), ("a", "0")] := by decide +kernel

example : byKmeans sign coords [("c", 5/2), ("a", 1), ("b", -2)] 2 none = .error .valueError ∧
    byKmeans sign coords [("c", 5/2), ("a", 1)] 2 none = .error .valueError ∧
    byKmeans sign coords [("c", 5/2), ("a", 1)] 2 (some ["a", "d"]) = .error .keyError ∧
    byKmeans sign coords [("c", 5/2), ("a", 1)] 4 (some ["a", "c"]) = .error .valueError := by decide +kernel

/-- **C134, finding.** Only whole numbers count as weights: weights below one are nothing, so that the same weights in another unit give another
busmap (here 0.9 and 0.9 and 1, against 9 and 9 and 10). -/
theorem fractions_lost :
    byKmeans mean coords [("a", 9/10), ("b", 9/10), ("c", 1)] 1 none = .ok [("a", "0"), ("b", "0"), ("c", "1")] ∧
      byKmeans mean coords [("a", 9), ("b", 9), ("c", 10)] 1 none = .ok [("a", "0"), ("b", "1"), ("c", "1")] := by decide +kernel

/-- Clusters by the feature alone. -/
def byFeature : Hac Nat := fun _ _ rows => rows

example : (∀ k A rows, (byFeature k A rows).length = rows.length) ∧
    byHac byFeature 0 ["a", "b", "c"] (Graph.exTables true) 2 (some ["c", "a"]) (some [("c", 7), ("a", 3)]) = .ok [("c", "7"), ("a", "3")] :=
  ⟨fun _ _ _ => rfl, by decide +kernel⟩

/-- **C134, finding.** Rows of features are taken by position, not by the label of the bus: a table in another order than the buses gives each bus
the feature of another. -/
theorem features_by_position :
    byHac byFeature 0 ["a", "b", "c"] (Graph.exTables true) 2 none (some [("c", 7), ("b", 3), ("a", 3)]) =
      .ok [("a", "7"), ("b", "3"), ("c", "3")] := by decide +kernel

/-- Clusters by whether there is a branch to the second bus. -/
def byBranch : Hac Nat := fun _ A rows => (List.range rows.length).map (fun i => if A i 1 = 0 then 0 else 1)

/-- **C134, finding.** A bus that does not exist gets a label: it is taken for the last bus. -/
theorem unknown_bus_labelled :
    byHac byBranch 0 ["a", "b", "c"] (Graph.exTables true) 2 (some ["b", "typo"]) none = .ok [("b", "1"), ("typo", "0")] := by decide +kernel

/-- **C134, finding.** If the class of branches visited last has none in service, no connections at all are told to the library. -/
theorem connections_lost :
    byHac byBranch 0 ["a", "b", "c"] (Graph.exTables true) 2 none none = .ok [("a", "1"), ("b", "0"), ("c", "0")] ∧
      byHac byBranch 0 ["a", "b", "c"] (Graph.exTables false) 2 none none = .ok [("a", "0"), ("b", "0"), ("c", "0")] := by decide +kernel

/-- The modulus of a pure reactance. -/
def reactance : ℚ → ℚ → ℚ := fun _ x => |x|

def lines : List (Line ℚ) := [⟨"a", "b", 10, 0, 2⟩, ⟨"b", "c", 6, 0, 2⟩, ⟨"c", "d", 4, 0, 1⟩]

example : (graph reactance lines ["a", "b", "c"]).map (fun e => (e.u, e.v, e.weight)) = [("a", "b", 5), ("b", "c", 3)] ∧
    lines.Pairwise (fun l k => ¬ ((l.bus0 = k.bus0 ∧ l.bus1 = k.bus1) ∨ (l.bus0 = k.bus1 ∧ l.bus1 = k.bus0))) := by decide +kernel

/-- **C134, finding.** Of parallel lines only the last counts: two lines of 100 and 1 between `a` and `b` are weaker than one of 2. -/
theorem parallel_not_added :
    (graph reactance [⟨"a", "b", 100, 0, 1⟩, ⟨"b", "a", 1, 0, 1⟩, ⟨"b", "c", 2, 0, 1⟩] ["a", "b", "c"]).map (fun e => (e.u, e.v, e.weight)) =
      [("a", "b", 1), ("b", "c", 2)] := by decide +kernel

/-- The two buses of the first line and the rest. -/
def twoParts : Nat → List String → List (Edge ℚ) → List (List String) := fun _ idx es =>
  match es with
  | [] => [idx]
  | e :: _ => [idx.filter (fun b => b ≠ e.u && b ≠ e.v), [e.u, e.v]]

example : byModularity twoParts reactance ["a", "b", "c", "d"] lines 2 none = [("a", "1"), ("b", "1"), ("c", "0"), ("d", "0")] ∧
    (twoParts 2 ["a", "b", "c", "d"] (graph reactance lines ["a", "b", "c", "d"])).Pairwise (fun c d => ∀ b ∈ c, b ∉ d) ∧
    ∀ b ∈ ["a", "b", "c", "d"], ∃ c ∈ twoParts 2 ["a", "b", "c", "d"] (graph reactance lines ["a", "b", "c", "d"]), b ∈ c := by decide +kernel

/-- A clustering of the network of C99. -/
def busmap : List (String × String) := [("a1", "0"), ("a2", "0"), ("b1", "1"), ("h", "2")]

example : (match clusterBy (.ok busmap) Network.Demo.args Network.Demo.net with
    | .ok r => r.1.names
    | .error _ => []) = ["0", "1", "2"] ∧ (busmap.map Prod.fst).Nodup ∧ ∀ b ∈ busmap.map Prod.fst, b ∈ Network.Demo.net.names := by decide +kernel

example : (match clusterBy (.ok [("a1", "0"), ("a2", "0")]) Network.Demo.args Network.Demo.net with
    | .ok _ => none
    | .error e => some e) = some .valueError := by decide +kernel

end Demo

end Verif.Cluster.Busmaps
