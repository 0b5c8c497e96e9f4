import Verif.Cluster.Network
import Verif.Cluster.LinesProps
import Mathlib.Logic.Relation

/-!
# Properties of the clustering of a network
-/

namespace Verif.Cluster.Network

variable {F : Type} [Field F] [LinearOrder F]

/-! ## Specification -/

/-- Names of the buses. -/
def Net.names (n : Net F) : List String := n.buses.map Prod.fst

/-- All buses named by lines, transformers, one-ports and the first two ports of links exist. -/
def Valid (n : Net F) : Prop :=
  (∀ l ∈ n.lines, l.bus0 ∈ n.names ∧ l.bus1 ∈ n.names) ∧ (∀ t ∈ n.transformers, t.bus0 ∈ n.names ∧ t.bus1 ∈ n.names) ∧
    (∀ l ∈ n.links, l.bus0 ∈ n.names ∧ l.bus1 ∈ n.names) ∧ ∀ c ∈ n.onePorts, ∀ u ∈ c.2, u.bus ∈ n.names

/-- Two buses are joined by a line or a link. -/
def Adjacent (n : Net F) (x y : String) : Prop :=
  (∃ l ∈ n.lines, l.bus0 = x ∧ l.bus1 = y ∨ l.bus0 = y ∧ l.bus1 = x) ∨
    ∃ l ∈ n.links, l.bus0 = x ∧ l.bus1 = y ∨ l.bus0 = y ∧ l.bus1 = x

/-! ## Results -/

variable (a : Args F)

theorem cluster_some (n n' : Net F) (lm : List (String × String)) (h : cluster a n = some (n', lm)) :
    Lines.aggregate { buses := n.buses, busmap := a.busmap, dist := a.dist, snapshots := a.snapshots, solved := a.solved } n.lines =
        some (n'.lines, lm) ∧
      n.onePorts.mapM (fun c => (clusterClass a c.1 c.2).map (fun us => (c.1, us))) = some n'.onePorts ∧
      n'.buses = clusterBuses a n.buses ∧ n'.links = n.links.filterMap (clusterLink a) ∧ n'.transformers = [] := by
  unfold cluster at h
  rw [Option.bind_eq_some_iff] at h
  obtain ⟨ls, h1, h2⟩ := h
  rw [Option.map_eq_some_iff] at h2
  obtain ⟨ones, h3, h4⟩ := h2
  injection h4 with h5 h6
  subst h5; subst h6
  exact ⟨h1, h3, rfl, rfl, rfl⟩

theorem mem_names (n n' : Net F) (lm : List (String × String)) (h : cluster a n = some (n', lm)) (c : String) :
    c ∈ n'.names ↔ ∃ b ∈ n.names, a.busmap b = some c := by
  obtain ⟨-, -, hb, -, -⟩ := cluster_some a n n' lm h
  simp only [Net.names, hb, clusterBuses, List.map_map, List.mem_map, Function.comp_apply, exists_eq_right, List.mem_dedup,
    List.mem_filterMap]
  constructor
  · rintro ⟨b, hb, hc⟩; exact ⟨b.1, ⟨b, hb, rfl⟩, hc⟩
  · rintro ⟨_, ⟨b, hb, rfl⟩, hc⟩; exact ⟨b, hb, hc⟩

/-- The voltage of a cluster is that of one of its buses, and none of them has a greater one. -/
theorem cluster_voltage (n n' : Net F) (lm : List (String × String)) (h : cluster a n = some (n', lm)) (c : String × F) (hc : c ∈ n'.buses) :
    (∃ b ∈ n.buses, a.busmap b.1 = some c.1 ∧ b.2 = c.2) ∧ ∀ b ∈ n.buses, a.busmap b.1 = some c.1 → b.2 ≤ c.2 := by
  obtain ⟨-, -, hb, -, -⟩ := cluster_some a n n' lm h
  rw [hb, clusterBuses, List.mem_map] at hc
  obtain ⟨d, hd, rfl⟩ := hc
  rw [List.mem_dedup, List.mem_filterMap] at hd
  obtain ⟨b, hb, hbd⟩ := hd
  have hne : ((n.buses.filter (fun p => decide (a.busmap p.1 = some d))).map (fun p => p.2)) ≠ [] := by
    intro h0
    rw [List.map_eq_nil_iff, List.filter_eq_nil_iff] at h0
    exact h0 b hb (by simpa using hbd)
  cases hm : ((n.buses.filter (fun p => decide (a.busmap p.1 = some d))).map (fun p => p.2)).max? with
  | none => exact absurd (List.max?_eq_none_iff.mp hm) hne
  | some m =>
    have := (List.max?_eq_some_iff (α := F)).mp hm
    obtain ⟨h1, h2⟩ := this
    obtain ⟨p, hp, rfl⟩ := List.mem_map.mp h1
    rw [List.mem_filter] at hp
    simp only [Option.getD_some]
    exact ⟨⟨p, hp.1, by simpa using hp.2, rfl⟩, fun q hq hqd => h2 _ (List.mem_map.mpr ⟨q, List.mem_filter.mpr ⟨hq, by simpa using hqd⟩, rfl⟩)⟩

theorem clusterLink_some (l l' : Link F) (h : clusterLink a l = some l') :
    a.busmap l.bus0 = some l'.bus0 ∧ a.busmap l.bus1 = some l'.bus1 ∧ l'.bus0 ≠ l'.bus1 ∧ l'.name = l.name ∧ l'.extra = l.extra := by
  unfold clusterLink at h
  split at h
  · rename_i p q hp hq
    split at h
    · simp at h
    · rename_i hne
      injection h with h
      subst h
      exact ⟨hp, hq, hne, rfl, rfl⟩
  · simp at h

theorem clusterLink_isSome (l : Link F) (p q : String) (hp : a.busmap l.bus0 = some p) (hq : a.busmap l.bus1 = some q) (hne : p ≠ q) :
    ∃ l', clusterLink a l = some l' ∧ l'.bus0 = p ∧ l'.bus1 = q := by
  simp [clusterLink, hp, hq, hne]

theorem mapM_mem {α β : Type} (f : α → Option β) (l : List α) (r : List β) (h : l.mapM f = some r) (y : β) (hy : y ∈ r) :
    ∃ x ∈ l, f x = some y := by
  induction l generalizing r with
  | nil => simp at h; subst h; simp at hy
  | cons x l ih =>
    rw [List.mapM_cons] at h
    cases h1 : f x with
    | none => simp [h1] at h
    | some z =>
      cases h2 : l.mapM f with
      | none => simp [h1, h2] at h
      | some rs =>
        simp [h1, h2] at h
        subst h
        rcases List.mem_cons.1 hy with rfl | hy
        · exact ⟨x, List.mem_cons_self, h1⟩
        · obtain ⟨x', hx', hf⟩ := ih rs h2 hy
          exact ⟨x', List.mem_cons_of_mem _ hx', hf⟩

/-- A row of aggregated one-ports is at the cluster of the bus of some asset. -/
theorem oneport_bus (cfg : OnePort.Config F) (us rows : List (OnePort.Asset F)) (h : OnePort.aggregate cfg us = some rows)
    (hmap : ∀ u ∈ us, (cfg.busmap u.bus).isSome) (r : OnePort.Asset F) (hr : r ∈ rows) : ∃ u ∈ us, cfg.busmap u.bus = some r.bus := by
  unfold OnePort.aggregate at h
  split at h
  · simp at h
  injection h with h
  subst h
  rw [List.mem_append, List.mem_map, List.mem_map] at hr
  rcases hr with ⟨g, hg, rfl⟩ | ⟨u, hu, rfl⟩
  · rw [OnePort.keys, List.mem_dedup, List.mem_filterMap] at hg
    obtain ⟨u, hu, hk⟩ := hg
    refine ⟨u, (List.mem_filter.1 hu).1, ?_⟩
    rw [OnePort.key, Option.map_eq_some_iff] at hk
    obtain ⟨b, hb, rfl⟩ := hk
    exact hb
  · have hu' := (List.mem_filter.1 hu).1
    obtain ⟨b, hb⟩ := Option.isSome_iff_exists.1 (hmap u hu')
    exact ⟨u, hu', by simp [OnePort.keptRow, hb]⟩

/-- **C67.** If every bus has a cluster, then every bus named in the clustered network by a line, a one-port or the first two ports of a link
exists; ports beyond are excluded (see `third_port_dangling`). -/
theorem cluster_refs_partial (n n' : Net F) (lm : List (String × String)) (h : cluster a n = some (n', lm)) (hv : Valid n)
    (hmap : ∀ b ∈ n.names, (a.busmap b).isSome) : Valid n' := by
  have hn := mem_names a n n' lm h
  obtain ⟨hl, ho, -, hk, ht⟩ := cluster_some a n n' lm h
  obtain ⟨v1, v2, v3, v4⟩ := hv
  refine ⟨fun r hr => ?_, fun t htt => ?_, fun l hll => ?_, fun c hc u hu => ?_⟩
  · obtain ⟨p1, -, p3⟩ := Lines.lines_pairs _ _ _ _ hl
    obtain ⟨l, hlm, hj, -⟩ := (p3 r.bus0 r.bus1 r.tag (p1 r hr)).1 ⟨r, hr, rfl, rfl, rfl⟩
    obtain ⟨w0, w1⟩ := v1 l hlm
    rcases hj with ⟨j0, j1⟩ | ⟨j0, j1⟩
    · exact ⟨(hn _).2 ⟨_, w0, j0⟩, (hn _).2 ⟨_, w1, j1⟩⟩
    · exact ⟨(hn _).2 ⟨_, w1, j1⟩, (hn _).2 ⟨_, w0, j0⟩⟩
  · rw [ht] at htt; simp at htt
  · rw [hk, List.mem_filterMap] at hll
    obtain ⟨l0, hl0, he⟩ := hll
    obtain ⟨e0, e1, -⟩ := clusterLink_some a l0 l he
    obtain ⟨w0, w1⟩ := v3 l0 hl0
    exact ⟨(hn _).2 ⟨_, w0, e0⟩, (hn _).2 ⟨_, w1, e1⟩⟩
  · obtain ⟨c0, hc0, he⟩ := mapM_mem _ _ _ ho c hc
    rw [Option.map_eq_some_iff] at he
    obtain ⟨us, hus, rfl⟩ := he
    unfold clusterClass at hus
    split at hus
    · rename_i cfg _
      obtain ⟨u0, hu0, hb⟩ := oneport_bus _ c0.2 us hus (fun u hu => hmap u.bus (v4 c0 hc0 u hu)) u hu
      exact (hn _).2 ⟨_, v4 c0 hc0 u0 hu0, hb⟩
    · injection hus with hus
      subst hus
      rw [List.mem_filterMap] at hu
      obtain ⟨u0, hu0, hb⟩ := hu
      rw [Option.map_eq_some_iff] at hb
      obtain ⟨b, hb, rfl⟩ := hb
      exact (hn _).2 ⟨_, v4 c0 hc0 u0 hu0, hb⟩

/-- **C67.** Links are kept exactly if their ends have different clusters; they keep their names and further ports. -/
theorem cluster_links (n n' : Net F) (lm : List (String × String)) (h : cluster a n = some (n', lm)) :
    n'.links.map (fun l => l.name) =
      (n.links.filter (fun l => (a.busmap l.bus0).isSome && (a.busmap l.bus1).isSome && decide (a.busmap l.bus0 ≠ a.busmap l.bus1))).map
        (fun l => l.name) := by
  obtain ⟨-, -, -, hk, -⟩ := cluster_some a n n' lm h
  rw [hk]
  induction n.links with
  | nil => rfl
  | cons l ls ih =>
    cases hl : clusterLink a l with
    | none =>
      rw [List.filterMap_cons_none hl, ih, List.filter_cons_of_neg]
      intro hc
      simp only [Bool.and_eq_true, decide_eq_true_eq] at hc
      obtain ⟨p, hp⟩ := Option.isSome_iff_exists.1 hc.1.1
      obtain ⟨q, hq⟩ := Option.isSome_iff_exists.1 hc.1.2
      obtain ⟨l', hl', -⟩ := clusterLink_isSome a l p q hp hq (by rintro rfl; exact hc.2 (hp.trans hq.symm))
      rw [hl] at hl'
      simp at hl'
    | some l' =>
      obtain ⟨e0, e1, e2, e3, -⟩ := clusterLink_some a l l' hl
      rw [List.filterMap_cons_some hl, List.map_cons, ih, List.filter_cons_of_pos, List.map_cons, e3]
      simp [e0, e1, e2]

/-- **C99.** Buses that are joined by lines and links lie in clusters that are joined by lines and links. -/
theorem cluster_connected (n n' : Net F) (lm : List (String × String)) (h : cluster a n = some (n', lm)) (hv : Valid n)
    (hmap : ∀ b ∈ n.names, (a.busmap b).isSome) (x y : String) (hxy : Relation.ReflTransGen (Adjacent n) x y) (p q : String)
    (hp : a.busmap x = some p) (hq : a.busmap y = some q) : Relation.ReflTransGen (Adjacent n') p q := by
  obtain ⟨hl, -, -, hk, -⟩ := cluster_some a n n' lm h
  induction hxy generalizing q with
  | refl =>
    rw [hp] at hq
    injection hq with hq
    subst hq
    exact Relation.ReflTransGen.refl
  | tail hs hst ih =>
    rename_i z w
    have hz : z ∈ n.names := by
      rcases hst with ⟨l, hlm, ⟨rfl, _⟩ | ⟨_, rfl⟩⟩ | ⟨l, hlm, ⟨rfl, _⟩ | ⟨_, rfl⟩⟩
      · exact (hv.1 l hlm).1
      · exact (hv.1 l hlm).2
      · exact (hv.2.2.1 l hlm).1
      · exact (hv.2.2.1 l hlm).2
    obtain ⟨m, hm⟩ := Option.isSome_iff_exists.1 (hmap z hz)
    refine Relation.ReflTransGen.trans (ih m hm) ?_
    by_cases hmq : m = q
    · subst hmq; exact Relation.ReflTransGen.refl
    refine Relation.ReflTransGen.single ?_
    rcases hst with ⟨l, hlm, hends⟩ | ⟨l, hlm, hends⟩
    · left
      obtain ⟨-, -, p3⟩ := Lines.lines_pairs _ _ _ _ hl
      rcases lt_or_gt_of_ne hmq with hlt | hgt
      · have hj : Lines.Joins a.busmap l m q := by
          rcases hends with ⟨rfl, rfl⟩ | ⟨rfl, rfl⟩
          · exact Or.inl ⟨hm, hq⟩
          · exact Or.inr ⟨hq, hm⟩
        obtain ⟨r, hr, h0, h1, -⟩ := (p3 m q l.tag hlt).2 ⟨l, hlm, hj, rfl⟩
        exact ⟨r, hr, Or.inl ⟨h0, h1⟩⟩
      · have hj : Lines.Joins a.busmap l q m := by
          rcases hends with ⟨rfl, rfl⟩ | ⟨rfl, rfl⟩
          · exact Or.inr ⟨hm, hq⟩
          · exact Or.inl ⟨hq, hm⟩
        obtain ⟨r, hr, h0, h1, -⟩ := (p3 q m l.tag hgt).2 ⟨l, hlm, hj, rfl⟩
        exact ⟨r, hr, Or.inr ⟨h0, h1⟩⟩
    · right
      rcases hends with ⟨rfl, rfl⟩ | ⟨rfl, rfl⟩
      · obtain ⟨l', hl', h0, h1⟩ := clusterLink_isSome a l m q hm hq hmq
        exact ⟨l', by rw [hk, List.mem_filterMap]; exact ⟨l, hlm, hl'⟩, Or.inl ⟨h0, h1⟩⟩
      · obtain ⟨l', hl', h0, h1⟩ := clusterLink_isSome a l q m hq hm (Ne.symm hmq)
        exact ⟨l', by rw [hk, List.mem_filterMap]; exact ⟨l, hlm, hl'⟩, Or.inr ⟨h0, h1⟩⟩

/-- **C99.** No connection is made up: clusters that are joined contain buses that are. -/
theorem cluster_adjacent (n n' : Net F) (lm : List (String × String)) (h : cluster a n = some (n', lm)) (p q : String) (hpq : Adjacent n' p q) :
    p ≠ q ∧ ∃ x y, a.busmap x = some p ∧ a.busmap y = some q ∧ Adjacent n x y := by
  obtain ⟨hl, -, -, hk, -⟩ := cluster_some a n n' lm h
  rcases hpq with ⟨r, hr, hends⟩ | ⟨l, hlm, hends⟩
  · obtain ⟨p1, -, p3⟩ := Lines.lines_pairs _ _ _ _ hl
    obtain ⟨l, hlm, hj, -⟩ := (p3 r.bus0 r.bus1 r.tag (p1 r hr)).1 ⟨r, hr, rfl, rfl, rfl⟩
    have hne : r.bus0 ≠ r.bus1 := (p1 r hr).ne
    rcases hends with ⟨rfl, rfl⟩ | ⟨rfl, rfl⟩
    · refine ⟨hne, ?_⟩
      rcases hj with ⟨j0, j1⟩ | ⟨j0, j1⟩
      · exact ⟨_, _, j0, j1, Or.inl ⟨l, hlm, Or.inl ⟨rfl, rfl⟩⟩⟩
      · exact ⟨_, _, j1, j0, Or.inl ⟨l, hlm, Or.inr ⟨rfl, rfl⟩⟩⟩
    · refine ⟨hne.symm, ?_⟩
      rcases hj with ⟨j0, j1⟩ | ⟨j0, j1⟩
      · exact ⟨_, _, j1, j0, Or.inl ⟨l, hlm, Or.inr ⟨rfl, rfl⟩⟩⟩
      · exact ⟨_, _, j0, j1, Or.inl ⟨l, hlm, Or.inl ⟨rfl, rfl⟩⟩⟩
  · rw [hk, List.mem_filterMap] at hlm
    obtain ⟨l0, hl0, he⟩ := hlm
    obtain ⟨e0, e1, e2, -⟩ := clusterLink_some a l0 l he
    rcases hends with ⟨rfl, rfl⟩ | ⟨rfl, rfl⟩
    · exact ⟨e2, _, _, e0, e1, Or.inr ⟨l0, hl0, Or.inl ⟨rfl, rfl⟩⟩⟩
    · exact ⟨e2.symm, _, _, e1, e0, Or.inr ⟨l0, hl0, Or.inr ⟨rfl, rfl⟩⟩⟩

/-- **C99.** The cost per kilometre of a link with a length is kept. -/
theorem link_cost (l l' : Link F) (h : clusterLink a l = some l') (hs : a.scaleCost = true) (hl : 0 < l.length) :
    l'.length = a.dist l'.bus0 l'.bus1 ∧ l'.capitalCost * l.length = l.capitalCost * l'.length := by
  unfold clusterLink at h
  split at h
  · split at h
    · simp at h
    · injection h with h
      subst h
      have := hl.ne'
      refine ⟨by simp [hl], ?_⟩
      simp only [hl, if_true, hs, ne_eq, this, not_false_eq_true, decide_true, Bool.and_self]
      field_simp
  · simp at h

/-! ## Examples and findings -/

namespace Demo

def args : Args ℚ where
  busmap := fun b => if b = "a1" ∨ b = "a2" then some "A" else if b = "b1" then some "B" else if b = "h" then some "H" else none
  dist := fun _ _ => 100
  snapshots := [0]
  solved := false
  merge := fun _ => none
  scaleCost := true

/-- A network with a line, a link with a third port and a generator. -/
def net : Net ℚ where
  buses := [("a1", 380), ("a2", 380), ("b1", 380), ("h", 1)]
  lines := [Lines.Demo.line "l" "a1" "b1" 50 4 10 0]
  transformers := []
  links := [{ name := "chp", bus0 := "b1", bus1 := "a1", extra := ["h"], length := 0, capitalCost := 5 },
    { name := "dc", bus0 := "a2", bus1 := "b1", extra := [""], length := 50, capitalCost := 5 }]
  onePorts := [("Generator", [⟨"g", "a2", "gas", fun _ => 0, fun _ => "", fun _ => none⟩])]

def result : Net ℚ × List (String × String) := (cluster args net).get (by decide +kernel)

example : cluster args net = some result := by simp [result]

example : Valid net ∧ ∀ b ∈ net.names, (args.busmap b).isSome := by
  refine ⟨⟨?_, ?_, ?_, ?_⟩, ?_⟩ <;> decide +kernel

example : result.1.links.map (fun l => (l.name, l.bus0, l.bus1, l.capitalCost)) = [("chp", "B", "A", 5), ("dc", "A", "B", 10)] := by decide +kernel

/-- **C67, finding.** Ports beyond the second are not mapped: the third port of the link names a bus that does not exist any more, although its
cluster does. -/
theorem third_port_dangling : (result.1.links.map (fun l => l.extra)) = [["h"], [""]] ∧ "h" ∉ result.1.names ∧ args.busmap "h" = some "H" ∧
    "H" ∈ result.1.names := by decide +kernel

end Demo

/-- **C99, finding.** Transformers are lost, also between clusters. -/
theorem transformers_lost (n n' : Net F) (lm : List (String × String)) (h : cluster a n = some (n', lm)) : n'.transformers = [] :=
  (cluster_some a n n' lm h).2.2.2.2

namespace Demo

/-- Two clusters joined by a transformer alone. -/
def net2 : Net ℚ where
  buses := [("a1", 380), ("b1", 220)]
  lines := []
  transformers := [⟨"t", "a1", "b1"⟩]
  links := []
  onePorts := []

/-- **C99, finding.** Hence clusters joined by transformers alone fall apart. -/
theorem transformer_disconnects : (cluster args net2).map (fun r => (r.1.names, r.1.lines.length, r.1.links.length, r.1.transformers.length)) =
    some (["A", "B"], 0, 0, 0) := by decide +kernel

end Demo

end Verif.Cluster.Network
