import Verif.Cluster.Stubs
import Mathlib.Logic.Relation
import Mathlib.Tactic.SplitIfs

/-!
# Properties of the contraction of stubs (C69)
-/

namespace Verif.Cluster

variable (attrs : Option (List (Name → Option String))) (edges : List (Name × Name))

/-- Two buses are joined by a branch. -/
def Joined (x y : Name) : Prop := (x, y) ∈ edges ∨ (y, x) ∈ edges

theorem Joined.symm {x y : Name} (h : Joined edges x y) : Joined edges y x := Or.symm h

theorem mem_neighbours (nodes : List Name) (u v : Name) : v ∈ neighbours nodes edges u ↔ Joined edges u v ∧ v ∈ nodes := by
  unfold neighbours Joined
  rw [List.mem_dedup, List.mem_filter, List.mem_filterMap]
  simp only [decide_eq_true_eq]
  apply and_congr_left
  intro _
  constructor
  · rintro ⟨⟨x, y⟩, he, h⟩
    simp only at h
    split_ifs at h with h1 h2
    · obtain rfl := Option.some.inj h; subst h1; exact .inl he
    · obtain rfl := Option.some.inj h; subst h2; exact .inr he
  · rintro (h | h)
    · exact ⟨(u, v), h, by simp⟩
    · by_cases hv : v = u
      · subst hv; exact ⟨(v, v), h, by simp⟩
      · exact ⟨(v, u), h, by simp [hv]⟩

theorem target_some (nodes : List Name) (u v : Name) :
    target attrs nodes edges u = some v ↔ neighbours nodes edges u = [v] ∧ attrsMatch attrs u v = true := by
  unfold target
  constructor
  · intro h
    split at h
    · next w hw =>
      split_ifs at h with hm
      obtain rfl := Option.some.inj h
      exact ⟨hw, hm⟩
    · simp at h
  · rintro ⟨h1, h2⟩
    rw [h1]; simp [h2]

/-- What holds in the middle of a pass over `nodes`, of which `done` have been visited. -/
structure Inv (buses nodes done : List Name) (m : Name → Name) : Prop where
  sub : ∀ u ∈ nodes, u ∈ buses
  inBuses : ∀ b ∈ buses, m b ∈ buses
  idem : ∀ b, m (m b) = m b
  self : ∀ u ∈ nodes, u ∉ done ∨ target attrs nodes edges u = none → m u = u
  same : ∀ v ∈ done, ∀ w, target attrs nodes edges v = some w → m v = m w
  path : ∀ b, Relation.ReflTransGen (fun x y => Joined edges x y ∧ m x = m b ∧ m y = m b) b (m b)
  cut : ∀ x y, Joined edges x y → m x ≠ m y → m x ∈ nodes ∧ m y ∈ nodes ∧ Joined edges (m x) (m y) ∧
    (m x ∈ done → target attrs nodes edges (m x) = none)
  attr : ∀ b, m b = b ∨ attrsMatch attrs b (m b) = true

theorem attrsMatch_trans (x y z : Name) (h1 : attrsMatch attrs x y = true) (h2 : attrsMatch attrs y z = true) :
    attrsMatch attrs x z = true := by
  unfold attrsMatch at *
  cases attrs with
  | none => rfl
  | some cols =>
    simp only [List.all_eq_true, Bool.and_eq_true, decide_eq_true_eq] at *
    intro a ha
    exact ⟨(h1 a ha).1, (h1 a ha).2.trans (h2 a ha).2⟩

/-- One node of the pass. -/
theorem Inv.step (buses nodes done : List Name) (m : Name → Name) (h : Inv attrs edges buses nodes done m) (u : Name)
    (hu : u ∈ nodes) (hd : u ∉ done) :
    Inv attrs edges buses nodes (done ++ [u]) (((target attrs nodes edges u).map (reassign m u)).getD m) := by
  cases ht : target attrs nodes edges u with
  | none =>
    simp only [Option.map_none, Option.getD_none]
    refine ⟨h.sub, h.inBuses, h.idem, ?_, ?_, h.path, ?_, h.attr⟩
    · intro x hx hor
      rcases hor with hn | hn
      · exact h.self x hx (.inl (fun hc => hn (List.mem_append_left _ hc)))
      · exact h.self x hx (.inr hn)
    · intro v hv w hw
      rcases List.mem_append.mp hv with hv | hv
      · exact h.same v hv w hw
      · obtain rfl := List.mem_singleton.mp hv
        rw [ht] at hw; simp at hw
    · intro x y hj hne
      obtain ⟨h1, h2, h3, h4⟩ := h.cut x y hj hne
      refine ⟨h1, h2, h3, fun hx => ?_⟩
      rcases List.mem_append.mp hx with hx | hx
      · exact h4 hx
      · rw [List.mem_singleton.mp hx]; exact ht
  | some v =>
    simp only [Option.map_some, Option.getD_some]
    obtain ⟨hn, hm⟩ := (target_some attrs edges nodes u v).mp ht
    have huu : m u = u := h.self u hu (.inl hd)
    have hvn : Joined edges u v ∧ v ∈ nodes := (mem_neighbours edges nodes u v).mp (by rw [hn]; simp)
    have hv : m v = v ∨ m v = u := by
      by_cases hvd : v ∈ done
      · cases htv : target attrs nodes edges v with
        | none => exact .inl (h.self v hvn.2 (.inr htv))
        | some w =>
          have hw : u = w := by
            have := (mem_neighbours edges nodes v u).mpr ⟨hvn.1.symm, hu⟩
            rw [((target_some attrs edges nodes v w).mp htv).1] at this
            simpa using this
          subst hw
          rw [h.same v hvd u htv, huu]; exact .inr rfl
      · exact .inl (h.self v hvn.2 (.inl hvd))
    have hv' : reassign m u v v = v := by
      unfold reassign
      rcases hv with hv | hv
      · split_ifs
        · rfl
        · exact hv
      · simp [hv]
    have hu' : reassign m u v u = v := by unfold reassign; simp [huu]
    refine ⟨h.sub, ?_, ?_, ?_, ?_, ?_, ?_, ?_⟩
    · intro b hb
      unfold reassign
      split_ifs
      · exact h.sub v hvn.2
      · exact h.inBuses b hb
    · intro b
      by_cases hb : m b = u
      · have : reassign m u v b = v := by unfold reassign; simp [hb]
        rw [this, hv']
      · have : reassign m u v b = m b := by unfold reassign; simp [hb]
        rw [this]
        unfold reassign
        rw [h.idem, if_neg hb]
    · intro x hx hor
      have hxu : x ≠ u := by
        rintro rfl
        rcases hor with hn | hn
        · exact hn (by simp)
        · rw [ht] at hn; simp at hn
      have : m x = x := h.self x hx (hor.imp (fun hn hc => hn (List.mem_append_left _ hc)) id)
      unfold reassign
      rw [this, if_neg hxu]
    · intro x hx w hw
      rcases List.mem_append.mp hx with hx | hx
      · unfold reassign; rw [h.same x hx w hw]
      · obtain rfl := List.mem_singleton.mp hx
        rw [ht] at hw
        obtain rfl := Option.some.inj hw
        rw [hu', hv']
    · intro b
      by_cases hb : m b = u
      · have hmb : reassign m u v b = v := by unfold reassign; simp [hb]
        rw [hmb]
        have h1 := h.path b
        rw [hb] at h1
        refine Relation.ReflTransGen.tail (Relation.ReflTransGen.mono ?_ _ _ h1) ⟨hvn.1, hu', hv'⟩
        rintro x y ⟨hj, hx, hy⟩
        unfold reassign
        simp [hj, hx, hy]
      · have hmb : reassign m u v b = m b := by unfold reassign; simp [hb]
        rw [hmb]
        refine Relation.ReflTransGen.mono ?_ _ _ (h.path b)
        rintro x y ⟨hj, hx, hy⟩
        unfold reassign
        simp [hj, hx, hy, hb]
    · intro x y hj hne
      have hmn : m x ≠ m y := by
        intro he; apply hne; unfold reassign; rw [he]
      obtain ⟨h1, h2, h3, h4⟩ := h.cut x y hj hmn
      have hxu : m x ≠ u := by
        intro he
        have : m y ∈ neighbours nodes edges u := (mem_neighbours edges nodes u _).mpr ⟨he ▸ h3, h2⟩
        rw [hn, List.mem_singleton] at this
        apply hne
        unfold reassign
        rw [if_pos he]
        split_ifs
        · rfl
        · exact this.symm
      have hyu : m y ≠ u := by
        intro he
        have : m x ∈ neighbours nodes edges u := (mem_neighbours edges nodes u _).mpr ⟨he ▸ h3.symm, h1⟩
        rw [hn, List.mem_singleton] at this
        apply hne
        unfold reassign
        rw [if_pos he]
        split_ifs
        · rfl
        · exact this
      have ex : reassign m u v x = m x := by unfold reassign; rw [if_neg hxu]
      have ey : reassign m u v y = m y := by unfold reassign; rw [if_neg hyu]
      rw [ex, ey]
      refine ⟨h1, h2, h3, fun hx => ?_⟩
      rcases List.mem_append.mp hx with hx | hx
      · exact h4 hx
      · exact absurd (List.mem_singleton.mp hx) hxu
    · intro b
      by_cases hb : m b = u
      · have hmb : reassign m u v b = v := by unfold reassign; simp [hb]
        rw [hmb]
        rcases h.attr b with he | he
        · rw [hb] at he; subst he; exact .inr hm
        · rw [hb] at he; exact .inr (attrsMatch_trans attrs b u v he hm)
      · have hmb : reassign m u v b = m b := by unfold reassign; simp [hb]
        rw [hmb]; exact h.attr b

theorem Inv.fold (buses nodes : List Name) (l done : List Name) (m : Name → Name) (h : Inv attrs edges buses nodes done m)
    (hl : ∀ u ∈ l, u ∈ nodes ∧ u ∉ done) (hnd : l.Nodup) :
    Inv attrs edges buses nodes (done ++ l) (l.foldl (fun m u => ((target attrs nodes edges u).map (reassign m u)).getD m) m) := by
  induction l generalizing done m with
  | nil => simpa using h
  | cons u l ih =>
    rw [List.foldl_cons]
    have h1 := Inv.step attrs edges buses nodes done m h u (hl u (by simp)).1 (hl u (by simp)).2
    have := ih (done ++ [u]) _ h1 (by
      intro x hx
      refine ⟨(hl x (by simp [hx])).1, ?_⟩
      intro hc
      rcases List.mem_append.mp hc with hc | hc
      · exact (hl x (by simp [hx])).2 hc
      · obtain rfl := List.mem_singleton.mp hc
        exact (List.nodup_cons.mp hnd).1 hx) (List.nodup_cons.mp hnd).2
    simpa using this

/-- A whole pass, to the nodes that remain. -/
theorem Inv.pass (buses nodes : List Name) (hnd : nodes.Nodup) (m : Name → Name) (h : Inv attrs edges buses nodes [] m) :
    Inv attrs edges buses (remaining attrs nodes edges) [] (pass attrs nodes edges m) ∧
    (∀ x y, Joined edges x y → pass attrs nodes edges m x ≠ pass attrs nodes edges m y →
      target attrs nodes edges (pass attrs nodes edges m x) = none) ∧
    (∀ u ∈ nodes, target attrs nodes edges u = none → pass attrs nodes edges m u = u) := by
  have h1 := Inv.fold attrs edges buses nodes nodes [] m h (fun u hu => ⟨hu, by simp⟩) hnd
  rw [List.nil_append] at h1
  change Inv attrs edges buses nodes nodes (Verif.Cluster.pass attrs nodes edges m) at h1
  refine ⟨⟨?_, h1.inBuses, h1.idem, ?_, by simp, h1.path, ?_, h1.attr⟩, ?_, ?_⟩
  · intro u hu; exact h1.sub u (List.mem_filter.mp hu).1
  · intro u hu _
    obtain ⟨h2, h3⟩ := List.mem_filter.mp hu
    exact h1.self u h2 (.inr (Option.isNone_iff_eq_none.mp h3))
  · intro x y hj hne
    obtain ⟨h2, h3, h4, h5⟩ := h1.cut x y hj hne
    have h6 := (h1.cut y x hj.symm (Ne.symm hne)).2.2.2 h3
    exact ⟨List.mem_filter.mpr ⟨h2, by rw [h5 h2]; rfl⟩, List.mem_filter.mpr ⟨h3, by rw [h6]; rfl⟩, h4, by simp⟩
  · intro x y hj hne
    obtain ⟨h2, h3, h4, h5⟩ := h1.cut x y hj hne
    exact h5 h2
  · intro u hu ht
    exact h1.self u hu (.inr ht)

/-- The end of the loop: the invariant for nodes without a stub. -/
theorem contract_inv (buses nodes : List Name) (hnd : nodes.Nodup) (m : Name → Name) (h : Inv attrs edges buses nodes [] m) :
    ∃ last : List Name, Inv attrs edges buses last [] (contract attrs edges nodes m) ∧ ∀ u ∈ last, target attrs last edges u = none := by
  fun_induction contract attrs edges nodes m with
  | case1 nodes m hlt ih =>
    exact ih (hnd.filter _) (Inv.pass attrs edges buses nodes hnd m h).1
  | case2 nodes m hlt =>
    have hall : remaining attrs nodes edges = nodes := by
      unfold remaining at *
      rw [List.filter_eq_self]
      by_contra hc
      push_neg at hc
      obtain ⟨u, hu, hn⟩ := hc
      apply hlt
      rw [List.length_filter_lt_length_iff_exists]
      exact ⟨u, hu, hn⟩
    have h1 := (Inv.pass attrs edges buses nodes hnd m h).1
    rw [hall] at h1
    refine ⟨nodes, h1, ?_⟩
    intro u hu
    rw [← hall] at hu
    exact Option.isNone_iff_eq_none.mp (List.mem_filter.mp hu).2

theorem inv_start (buses : List Name) (he : ∀ e ∈ edges, e.1 ∈ buses ∧ e.2 ∈ buses) : Inv attrs edges buses buses [] id := by
  refine ⟨fun _ h => h, fun _ h => h, fun _ => rfl, fun _ _ _ => rfl, by simp, fun b => .refl, ?_, fun _ => .inl rfl⟩
  intro x y hj _
  refine ⟨?_, ?_, hj, by simp⟩
  · rcases hj with hj | hj
    · exact (he _ hj).1
    · exact (he _ hj).2
  · rcases hj with hj | hj
    · exact (he _ hj).2
    · exact (he _ hj).1

section main
variable (buses : List Name) (hb : buses.Nodup) (he : ∀ e ∈ edges, e.1 ∈ buses ∧ e.2 ∈ buses)
include hb he

/-- C69: every bus is mapped to a bus which is mapped to itself. -/
theorem stubs_representative (b : Name) (hm : b ∈ buses) : busmapByStubs buses edges attrs b ∈ buses ∧
    busmapByStubs buses edges attrs (busmapByStubs buses edges attrs b) = busmapByStubs buses edges attrs b := by
  obtain ⟨last, h, -⟩ := contract_inv attrs edges buses buses hb id (inv_start attrs edges buses he)
  exact ⟨h.inBuses b hm, h.idem b⟩

/-- C69: a cluster is connected: from each bus there are branches to its representative which do not leave the cluster. -/
theorem stubs_connected (b : Name) :
    Relation.ReflTransGen (fun x y => ((x, y) ∈ edges ∨ (y, x) ∈ edges) ∧
      busmapByStubs buses edges attrs x = busmapByStubs buses edges attrs b ∧
      busmapByStubs buses edges attrs y = busmapByStubs buses edges attrs b) b (busmapByStubs buses edges attrs b) := by
  obtain ⟨last, h, -⟩ := contract_inv attrs edges buses buses hb id (inv_start attrs edges buses he)
  exact h.path b

/-- C69: buses of a cluster agree on the given attributes. -/
theorem stubs_agree (cols : List (Name → Option String)) (ha : attrs = some cols) (x y : Name)
    (hxy : busmapByStubs buses edges attrs x = busmapByStubs buses edges attrs y) (a : Name → Option String) (hm : a ∈ cols) : a x = a y := by
  obtain ⟨last, h, -⟩ := contract_inv attrs edges buses buses hb id (inv_start attrs edges buses he)
  have key : ∀ b, a b = a (busmapByStubs buses edges attrs b) := by
    intro b
    rcases h.attr b with h1 | h1
    · unfold busmapByStubs; rw [h1]
    · unfold attrsMatch at h1
      rw [ha] at h1
      simp only [List.all_eq_true, Bool.and_eq_true, decide_eq_true_eq] at h1
      have := (h1 a hm).2
      unfold busmapByStubs; rw [ha]; exact this
  rw [key x, key y, hxy]

/-- C69 (without branches from a bus to itself): no stub is left.  If a cluster has branches to just one
other cluster, the attributes of their representatives do not match. -/
theorem stubs_none_left_partial (hl : ∀ u, (u, u) ∉ edges) (x y : Name) (hj : (x, y) ∈ edges ∨ (y, x) ∈ edges)
    (hne : busmapByStubs buses edges attrs x ≠ busmapByStubs buses edges attrs y)
    (hone : ∀ x' y', ((x', y') ∈ edges ∨ (y', x') ∈ edges) → busmapByStubs buses edges attrs x' = busmapByStubs buses edges attrs x →
      busmapByStubs buses edges attrs y' = busmapByStubs buses edges attrs x ∨
      busmapByStubs buses edges attrs y' = busmapByStubs buses edges attrs y) :
    ∃ cols, attrs = some cols ∧ ∃ a ∈ cols,
      a (busmapByStubs buses edges attrs x) = none ∨ a (busmapByStubs buses edges attrs x) ≠ a (busmapByStubs buses edges attrs y) := by
  obtain ⟨last, h, hlast⟩ := contract_inv attrs edges buses buses hb id (inv_start attrs edges buses he)
  change Inv attrs edges buses last [] (busmapByStubs buses edges attrs) at h
  generalize busmapByStubs buses edges attrs = m at *
  obtain ⟨h1, h2, h3, -⟩ := h.cut x y hj hne
  have hn : neighbours last edges (m x) = [m y] := by
    have hall : ∀ w ∈ neighbours last edges (m x), w = m y := by
      intro w hw
      obtain ⟨g1, g2⟩ := (mem_neighbours edges last (m x) w).mp hw
      have hmw : m w = w := h.self w g2 (.inl (by simp))
      rcases hone (m x) w g1 (h.idem x) with e | e
      · rw [hmw] at e
        subst e
        rcases g1 with g1 | g1 <;> exact absurd g1 (hl _)
      · rw [hmw] at e; exact e
    have hmem : m y ∈ neighbours last edges (m x) := (mem_neighbours edges last _ _).mpr ⟨h3, h2⟩
    have hnd : (neighbours last edges (m x)).Nodup := List.nodup_dedup _
    generalize neighbours last edges (m x) = l at *
    match l with
    | [] => simp at hmem
    | [w] => rw [hall w (by simp)]
    | w :: w' :: l =>
      exfalso
      rw [hall w (by simp), hall w' (by simp)] at hnd
      simp at hnd
  have ht := hlast (m x) h1
  unfold target at ht
  rw [hn] at ht
  simp only [ite_eq_right_iff, reduceCtorEq, imp_false, Bool.not_eq_true] at ht
  unfold attrsMatch at ht
  cases attrs with
  | none => simp at ht
  | some cols =>
    refine ⟨cols, rfl, ?_⟩
    simp only [List.all_eq_false, Bool.and_eq_true, decide_eq_true_eq, not_and_or] at ht
    obtain ⟨a, ha, h5⟩ := ht
    refine ⟨a, ha, h5.imp ?_ id⟩
    intro h6
    simpa using h6

omit he in
/-- C69: buses which have, among themselves, at least two neighbours each (such as those of a mesh) are not merged. -/
theorem stubs_mesh_kept (mesh : List Name) (hsub : ∀ u ∈ mesh, u ∈ buses)
    (htwo : ∀ u ∈ mesh, ∃ v ∈ mesh, ∃ w ∈ mesh, v ≠ w ∧ ((u, v) ∈ edges ∨ (v, u) ∈ edges) ∧ ((u, w) ∈ edges ∨ (w, u) ∈ edges))
    (u : Name) (hu : u ∈ mesh) : busmapByStubs buses edges attrs u = u := by
  have hno : ∀ nodes : List Name, (∀ u ∈ mesh, u ∈ nodes) → ∀ u ∈ mesh, target attrs nodes edges u = none := by
    intro nodes hs u hu
    cases ht : target attrs nodes edges u with
    | none => rfl
    | some z =>
      obtain ⟨v, hv, w, hw, hne, h1, h2⟩ := htwo u hu
      have e := ((target_some attrs edges nodes u z).mp ht).1
      have g1 := (mem_neighbours edges nodes u v).mpr ⟨h1, hs v hv⟩
      have g2 := (mem_neighbours edges nodes u w).mpr ⟨h2, hs w hw⟩
      rw [e, List.mem_singleton] at g1 g2
      exact absurd (g1.trans g2.symm) hne
  have hpass : ∀ (nodes : List Name), (∀ u ∈ mesh, u ∈ nodes) → ∀ (l : List Name) (m : Name → Name), (∀ u ∈ mesh, m u = u) →
      ∀ u ∈ mesh, l.foldl (fun m u => ((target attrs nodes edges u).map (reassign m u)).getD m) m u = u := by
    intro nodes hs l
    induction l with
    | nil => intro m hm u hu; exact hm u hu
    | cons x l ih =>
      intro m hm u hu
      rw [List.foldl_cons]
      apply ih _ _ u hu
      intro u hu
      cases ht : target attrs nodes edges x with
      | none => exact hm u hu
      | some z =>
        simp only [Option.map_some, Option.getD_some]
        unfold reassign
        rw [if_neg, hm u hu]
        rw [hm u hu]
        rintro rfl
        rw [hno nodes hs u hu] at ht; simp at ht
  have main : ∀ (nodes : List Name) (m : Name → Name), (∀ u ∈ mesh, u ∈ nodes) → (∀ u ∈ mesh, m u = u) →
      ∀ u ∈ mesh, contract attrs edges nodes m u = u := by
    intro nodes m
    fun_induction contract attrs edges nodes m with
    | case1 nodes m hlt ih =>
      intro hs hm
      apply ih
      · intro u hu
        exact List.mem_filter.mpr ⟨hs u hu, by rw [hno nodes hs u hu]; rfl⟩
      · exact hpass nodes hs nodes m hm
    | case2 nodes m hlt =>
      intro hs hm
      exact hpass nodes hs nodes m hm
  exact main buses id hsub (fun _ _ => rfl) u hu

end main

/-! ## Examples and findings -/

def star : List (Name × Name) := [("a", "b"), ("b", "c"), ("c", "d"), ("d", "b"), ("d", "e"), ("f", "g")]

/-- A mesh with stubs and a pair of buses: `f` and `g` become one cluster. -/
example : ["a", "b", "c", "d", "e", "f", "g"].map (busmapByStubs ["a", "b", "c", "d", "e", "f", "g"] star none) =
    ["b", "b", "c", "d", "d", "f", "f"] := by decide +kernel

example : ["a", "b", "c", "d", "e", "f", "g"].Nodup ∧
    (∀ e ∈ star, e.1 ∈ ["a", "b", "c", "d", "e", "f", "g"] ∧ e.2 ∈ ["a", "b", "c", "d", "e", "f", "g"]) ∧
    (∀ u ∈ ["b", "c", "d"], ∃ v ∈ ["b", "c", "d"], ∃ w ∈ ["b", "c", "d"], v ≠ w ∧ ((u, v) ∈ star ∨ (v, u) ∈ star) ∧
      ((u, w) ∈ star ∨ (w, u) ∈ star)) := by decide +kernel

/-- With attributes: `a` differs from `b`. -/
example : ["a", "b", "c", "d", "e"].map (busmapByStubs ["a", "b", "c", "d", "e"] (star.take 5)
    (some [fun b => if b = "a" then some "DC" else some "AC"])) = ["a", "b", "c", "d", "d"] := by decide +kernel

/-- **Finding** (C69, spatial.py 988-989): a branch from a bus to itself keeps a stub, since the bus is its own neighbour. -/
theorem loop_keeps_stub : busmapByStubs ["a", "b", "c", "d"] [("a", "a"), ("a", "b"), ("b", "c"), ("c", "d"), ("d", "b")] none "a" = "a" ∧
    busmapByStubs ["a", "b", "c", "d"] [("a", "b"), ("b", "c"), ("c", "d"), ("d", "b")] none "a" = "b" := by decide +kernel

end Verif.Cluster
